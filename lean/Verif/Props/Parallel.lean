import Verif.Model.Parallel
import Verif.Lemmas.Poly
import Mathlib.Tactic.Linarith
import Mathlib.Tactic.Ring
import Mathlib.Data.ZMod.Basic

/-!
C120: with the feature `multicore`, committing to a polynomial gives the result of the sequential code for every schedule
of the threads, and every schedule comes to an end.
-/

namespace Spartan.Par

variable {α : Type}

/-! ### What holds at every moment -/

/-- The part of the work with the numbers `lo … lo + len - 1`: it writes only into its own places, and what is written is
right. -/
def Covers (f : ℕ → Out α) (m : Mem α) : Task → ℕ → ℕ → Prop
  | .todo lo len pos room, a, n => lo = a ∧ len = n ∧ pos = a ∧ room = n
  | .fold lo len pos room k, a, n => lo = a ∧ len = n ∧ pos = a ∧ room = n ∧ k ≤ n ∧
      ∀ i < k, ∃ v, f (a + i) = .ok v ∧ m (a + i) = some v
  | .join l r, a, n => ∃ n₁ n₂, n = n₁ + n₂ ∧ Covers f m l a n₁ ∧ Covers f m r (a + n₁) n₂
  | .done pos k, a, n => pos = a ∧ k = n ∧ ∀ i < n, ∃ v, f (a + i) = .ok v ∧ m (a + i) = some v
  | .panicked, a, n => ∃ i < n, ∃ e, f (a + i) = .error e

/-- What a part relies on is in its own places. -/
theorem Covers.congr {f : ℕ → Out α} {m m' : Mem α} {t : Task} : ∀ {a n : ℕ},
    (∀ j, a ≤ j → j < a + n → m' j = m j) → Covers f m t a n → Covers f m' t a n := by
  induction t with
  | todo lo len pos room => intro a n _ h; exact h
  | fold lo len pos room k =>
    rintro a n hm ⟨h1, h2, h3, h4, h5, h6⟩
    refine ⟨h1, h2, h3, h4, h5, fun i hi => ?_⟩
    obtain ⟨v, hv, hw⟩ := h6 i hi
    exact ⟨v, hv, by rw [hm _ (by omega) (by omega), hw]⟩
  | join l r hl hr =>
    rintro a n hm ⟨n₁, n₂, rfl, h1, h2⟩
    exact ⟨n₁, n₂, rfl, hl (fun j h h' => hm j h (by omega)) h1, hr (fun j h h' => hm j (by omega) (by omega)) h2⟩
  | done pos k =>
    rintro a n hm ⟨h1, h2, h3⟩
    refine ⟨h1, h2, fun i hi => ?_⟩
    obtain ⟨v, hv, hw⟩ := h3 i hi
    exact ⟨v, hv, by rw [hm _ (by omega) (by omega), hw]⟩
  | panicked => intro a n _ h; exact h

/-- A step of a part changes only its own places. -/
theorem Step.frame {f : ℕ → Out α} {t t' : Task} {m m' : Mem α} (h : Step f t m t' m') :
    ∀ {a n : ℕ}, Covers f m t a n → ∀ j, j < a ∨ a + n ≤ j → m' j = m j := by
  induction h with
  | item hk hr hv =>
    rintro a n ⟨h1, h2, h3, h4, h5, h6⟩ j hj
    subst h1 h2 h3
    exact Function.update_of_ne (by omega) _ _
  | left _ ih =>
    rintro a n ⟨n₁, n₂, rfl, h1, h2⟩ j hj
    exact ih h1 j (by omega)
  | right _ ih =>
    rintro a n ⟨n₁, n₂, rfl, h1, h2⟩ j hj
    exact ih h2 j (by omega)
  | _ => intro a n _ j _; rfl

theorem Step.covers {f : ℕ → Out α} {t t' : Task} {m m' : Mem α} (h : Step f t m t' m') :
    ∀ {a n : ℕ}, Covers f m t a n → Covers f m' t' a n := by
  induction h with
  | split h2 hr =>
    rintro a n ⟨rfl, rfl, rfl, rfl⟩
    exact ⟨_, _, by omega, ⟨rfl, rfl, rfl, rfl⟩, rfl, rfl, rfl, rfl⟩
  | splitPanic h2 hr =>
    rintro a n ⟨rfl, rfl, h3, rfl⟩
    exact absurd (Nat.div_le_self _ _) hr
  | start =>
    rintro a n ⟨h1, h2, h3, h4⟩
    exact ⟨h1, h2, h3, h4, Nat.zero_le _, fun i hi => absurd hi (Nat.not_lt_zero i)⟩
  | @item lo len pos room k m v hk hr hv =>
    rintro a n ⟨rfl, rfl, rfl, rfl, h5, h6⟩
    refine ⟨rfl, rfl, rfl, rfl, hk, fun i hi => ?_⟩
    by_cases e : i = k
    · exact ⟨v, e ▸ hv, by rw [e, Function.update_self]⟩
    · obtain ⟨w, hw, hm⟩ := h6 i (by omega)
      exact ⟨w, hw, by rw [Function.update_of_ne (by omega), hm]⟩
  | itemPanic hk hr hv =>
    rintro a n ⟨rfl, rfl, h3, rfl, h5, h6⟩
    exact absurd hk hr
  | fail hk hv =>
    rintro a n ⟨rfl, rfl, h3, h4, h5, h6⟩
    exact ⟨_, hk, _, hv⟩
  | finish =>
    rintro a n ⟨h1, rfl, h3, h4, h5, h6⟩
    exact ⟨h3, rfl, h6⟩
  | left hs ih =>
    rintro a n ⟨n₁, n₂, rfl, h1, h2⟩
    exact ⟨n₁, n₂, rfl, ih h1, h2.congr fun j hj _ => hs.frame h1 j (Or.inr hj)⟩
  | right hs ih =>
    rintro a n ⟨n₁, n₂, rfl, h1, h2⟩
    exact ⟨n₁, n₂, rfl, h1.congr fun j _ hj => hs.frame h2 j (Or.inl hj), ih h2⟩
  | @reduce b₀ j b k m =>
    rintro a n ⟨n₁, n₂, rfl, ⟨rfl, rfl, h1⟩, rfl, rfl, h2⟩
    rw [Par.reduce, if_pos rfl]
    refine ⟨rfl, rfl, fun i hi => ?_⟩
    by_cases e : i < j
    · exact h1 i e
    · obtain ⟨v, hv⟩ := h2 (i - j) (by omega)
      rw [Nat.add_assoc, Nat.add_sub_cancel' (Nat.le_of_not_lt e)] at hv
      exact ⟨v, hv⟩
  | panicLeft =>
    rintro a n ⟨n₁, n₂, rfl, ⟨i, hi, h⟩, _⟩
    exact ⟨i, by omega, h⟩
  | panicRight =>
    rintro a n ⟨n₁, n₂, rfl, _, i, hi, e, h⟩
    exact ⟨n₁ + i, by omega, e, by rw [← Nat.add_assoc]; exact h⟩
  | panicBoth =>
    rintro a n ⟨n₁, n₂, rfl, ⟨i, hi, h⟩, _⟩
    exact ⟨i, by omega, h⟩

theorem Steps.covers {f : ℕ → Out α} {k n : ℕ} {t : Task} {m m₀ : Mem α} (h : Steps f k (begin n) m₀ t m) :
    Covers f m t 0 n := by
  generalize hb : begin n = b at h
  induction h with
  | refl => subst hb; exact ⟨rfl, rfl, rfl, rfl⟩
  | tail _ hs ih => exact hs.covers (ih hb)

/-! ### No schedule runs forever, and none gets stuck -/

/-- A bound for the steps that are left. -/
def work : Task → ℕ
  | .todo _ len _ _ => max 2 (5 * len - 2)
  | .fold _ len _ _ k => len - k + 1
  | .join l r => work l + work r + 1
  | .done _ _ => 0
  | .panicked => 0

theorem Step.work_lt {f : ℕ → Out α} {t t' : Task} {m m' : Mem α} (h : Step f t m t' m') : work t' < work t := by
  induction h with
  | left _ ih => simp only [work]; omega
  | right _ ih => simp only [work]; omega
  | reduce => unfold Par.reduce; split <;> simp only [work] <;> omega
  | _ => simp only [work] <;> omega

/-- Work that is neither finished nor stopped by a panic can go on. -/
theorem progress (f : ℕ → Out α) (m : Mem α) : ∀ t : Task,
    (∃ a k, t = .done a k) ∨ t = .panicked ∨ (∃ lo len pos room k, t = .fold lo len pos room k ∧ len < k) ∨
      (∃ l r, t = .join l r) ∨ ∃ t' m', Step f t m t' m'
  | .done a k => .inl ⟨a, k, rfl⟩
  | .panicked => .inr (.inl rfl)
  | .todo lo len pos room => .inr (.inr (.inr (.inr ⟨_, _, .start⟩)))
  | .join l r => .inr (.inr (.inr (.inl ⟨l, r, rfl⟩)))
  | .fold lo len pos room k => by
    by_cases h1 : len < k
    · exact .inr (.inr (.inl ⟨_, _, _, _, _, rfl, h1⟩))
    refine .inr (.inr (.inr (.inr ?_)))
    by_cases h2 : k = len
    · subst h2; exact ⟨_, _, .finish⟩
    · have h3 : k < len := by omega
      cases hf : f (lo + k) with
      | error e => exact ⟨_, _, .fail h3 hf⟩
      | ok v =>
        by_cases h4 : k < room
        · exact ⟨_, _, .item h3 h4 hf⟩
        · exact ⟨_, _, .itemPanic h3 h4 hf⟩

/-- The same when the state is one that can be reached. -/
theorem Covers.progress {f : ℕ → Out α} {m : Mem α} : ∀ {t : Task} {a n : ℕ}, Covers f m t a n →
    (∃ b k, t = .done b k) ∨ t = .panicked ∨ ∃ t' m', Step f t m t' m'
  | .done a k, _, _, _ => .inl ⟨a, k, rfl⟩
  | .panicked, _, _, _ => .inr (.inl rfl)
  | .todo lo len pos room, _, _, _ => .inr (.inr ⟨_, _, .start⟩)
  | .fold lo len pos room k, a, n, h => by
    rcases Par.progress f m (.fold lo len pos room k) with ⟨_, _, e⟩ | e | ⟨_, _, _, _, _, e, hk⟩ | ⟨_, _, e⟩ | e
    · cases e
    · cases e
    · cases e
      obtain ⟨_, h2, _, _, h5, _⟩ := h
      omega
    · cases e
    · exact .inr (.inr e)
  | .join l r, a, n, ⟨n₁, n₂, _, h1, h2⟩ => by
    refine .inr (.inr ?_)
    rcases h1.progress with ⟨_, _, rfl⟩ | rfl | ⟨_, _, h⟩
    · rcases h2.progress with ⟨_, _, rfl⟩ | rfl | ⟨_, _, h⟩
      · exact ⟨_, _, .reduce⟩
      · exact ⟨_, _, .panicRight⟩
      · exact ⟨_, _, .right h⟩
    · rcases h2.progress with ⟨_, _, rfl⟩ | rfl | ⟨_, _, h⟩
      · exact ⟨_, _, .panicLeft⟩
      · exact ⟨_, _, .panicBoth⟩
      · exact ⟨_, _, .right h⟩
    · exact ⟨_, _, .left h⟩

theorem Steps.work_le {f : ℕ → Out α} {k : ℕ} {b t : Task} {m m₀ : Mem α} (h : Steps f k b m₀ t m) :
    k + work t ≤ work b := by
  induction h with
  | refl => omega
  | tail _ hs ih => have := hs.work_lt; omega

/-- C120: every schedule stops: no run has more steps than `max 2 (5 n - 2)`. -/
theorem every_schedule_ends {f : ℕ → Out α} {k n : ℕ} {t : Task} {m m₀ : Mem α} (h : Steps f k (begin n) m₀ t m) :
    k ≤ max 2 (5 * n - 2) :=
  le_trans (Nat.le_add_right _ _) h.work_le

/-- C120: as long as there is no result, some thread can do a step. -/
theorem no_deadlock {f : ℕ → Out α} {k n : ℕ} {t : Task} {m m₀ : Mem α} (h : Steps f k (begin n) m₀ t m) :
    (∃ r, collected n m t = some r) ∨ ∃ t' m', Step f t m t' m' := by
  rcases h.covers.progress with ⟨_, _, rfl⟩ | rfl | e
  · exact .inl ⟨_, rfl⟩
  · exact .inl ⟨_, rfl⟩
  · exact .inr e

/-! ### The result -/

/-- C120: a finished run has the result of the sequential loop, whatever the schedule: the values in order, or a
panic when one of them panics. -/
theorem collected_eq {f : ℕ → Out α} {k n : ℕ} {t : Task} {m m₀ : Mem α} {r : Out (List (Option α))}
    (h : Steps f k (begin n) m₀ t m) (hr : collected n m t = some r) :
    (∃ vs : List α, (List.range n).mapM f = .ok vs ∧ r = .ok (vs.map some)) ∨
      ((∃ i < n, ∃ e, f i = .error e) ∧ r = .error .panic) := by
  have hc := h.covers
  cases t with
  | todo => cases hr
  | fold => cases hr
  | join => cases hr
  | panicked =>
    obtain ⟨i, hi, e, he⟩ := hc
    exact .inr ⟨⟨i, hi, e, by rwa [Nat.zero_add] at he⟩, (Option.some.inj hr).symm⟩
  | done pos j =>
    obtain ⟨-, rfl, hm⟩ := hc
    have hr := Option.some.inj hr
    rw [if_pos rfl] at hr
    refine .inl ?_
    have key : ∀ l : List ℕ, (∀ i ∈ l, i < j) → ∃ vs : List α, l.mapM f = .ok vs ∧ l.map m = vs.map some := by
      intro l
      induction l with
      | nil => intro _; exact ⟨[], rfl, rfl⟩
      | cons i l ih =>
        intro hl
        obtain ⟨vs, h1, h2⟩ := ih fun x hx => hl x (List.mem_cons_of_mem _ hx)
        obtain ⟨v, hv, hw⟩ := hm i (hl i List.mem_cons_self)
        rw [Nat.zero_add] at hv hw
        refine ⟨v :: vs, ?_, ?_⟩
        · rw [List.mapM_cons, hv, h1]; rfl
        · rw [List.map_cons, List.map_cons, h2, hw]
    obtain ⟨vs, h1, h2⟩ := key _ fun i hi => List.mem_range.mp hi
    exact ⟨vs, h1, by rw [← hr, h2]⟩

/-! ### The commitment -/

section
variable {F G P : Type} [Field F] [AddCommGroup G] [Module F G] [DecidableEq F] [DecidableEq P] [DecidableEq G]

theorem bind_error {β γ : Type} {x : Out β} {g : β → Out γ} {e : Fail} (h : (x >>= g) = .error e) :
    x = .error e ∨ ∃ b, x = .ok b ∧ g b = .error e := by
  cases x with
  | error e' => exact .inl (by cases h; rfl)
  | ok b => exact .inr ⟨b, rfl, h⟩

theorem check_error {b : Prop} {_ : Decidable b} {e : Fail} (h : check b = .error e) : e = .panic := by
  unfold check at h
  split at h
  · cases h
  · cases h; rfl

theorem msm_error : ∀ {xs : List F} {gs : List G} {e : Fail}, msm xs gs = .error e → e = .panic
  | [], _, _, h => by cases h
  | _ :: _, [], _, h => by cases h; rfl
  | s :: ss, p :: ps, e, h => by
    unfold msm at h
    split at h
    · cases h
    · rename_i e' he
      cases h
      exact msm_error he

theorem commitV_error {xs : List F} {b : F} {g : Gens G} {e : Fail} (h : commitV xs b g = .error e) : e = .panic := by
  rcases bind_error h with h | ⟨_, _, h⟩
  · exact check_error h
  · rcases bind_error h with h | ⟨_, _, h⟩
    · exact msm_error h
    · cases h

theorem mapM_error {β : Type} {f : ℕ → Out β} (hf : ∀ i e, f i = .error e → e = .panic) : ∀ {l : List ℕ},
    (∃ i ∈ l, ∃ e, f i = .error e) → l.mapM f = .error .panic
  | [], ⟨i, hi, _⟩ => by cases hi
  | a :: l, ⟨i, hi, e, he⟩ => by
    rw [List.mapM_cons]
    cases ha : f a with
    | error e' => rw [hf a e' ha]; rfl
    | ok v =>
      have hi' : i ∈ l := by
        rcases List.mem_cons.mp hi with rfl | h
        · rw [ha] at he; cases he
        · exact h
      rw [mapM_error hf ⟨i, hi', e, he⟩]; rfl

theorem commitRow_error {E : Env F G P} {d : Dense F} {bs : List F} {g : Gens G} {w i : ℕ} {e : Fail}
    (h : commitRow E d bs g w i = .error e) : e = .panic := by
  rcases bind_error h with h | ⟨_, _, h⟩
  · exact check_error h
  rcases bind_error h with h | ⟨_, _, h⟩
  · unfold idx at h
    split at h
    · cases h
    · cases h; rfl
  rcases bind_error h with h | ⟨_, _, h⟩
  · exact commitV_error h
  · cases h

/-- The rows one after the other. -/
theorem commitRows (E : Env F G P) (Z : List F) (w : ℕ) (g : Gens G) (d : Dense F) (bs : List F)
    (hd : d.Z = Z) (hZ : bs.length * w = Z.length) : ∀ (k : ℕ) (rest : List F), rest = bs.drop k →
    (List.zip (rowsOf w rest.length (Z.drop (w * k))) rest).mapM (fun (x : List F × F) => do
      pure (E.compress (← commitV x.1 x.2 g))) =
      (List.range' k rest.length).mapM (commitRow E d bs g w)
  | k, [], _ => rfl
  | k, b :: rest, h => by
    have hk : k < bs.length := by
      by_contra hc
      rw [List.drop_eq_nil_of_le (Nat.le_of_not_lt hc)] at h
      cases h
    rw [List.drop_eq_getElem_cons hk] at h
    obtain ⟨hb, hrest⟩ := List.cons.inj h
    have ih := commitRows E Z w g d bs hd hZ (k + 1) rest hrest
    have hrow : commitRow E d bs g w k = (do
        let c ← commitV ((Z.drop (w * k)).take w) b g
        pure (E.compress c) : Out P) := by
      unfold commitRow
      have hle : w * (k + 1) ≤ d.Z.length := by
        rw [hd, ← hZ, Nat.mul_comm]; exact Nat.mul_le_mul_right _ hk
      have hi : idx bs k = .ok b := by unfold idx; rw [List.getElem?_eq_getElem hk, hb]
      rw [check_true hle, ok_bind, hi, ok_bind, hd]
    rw [List.length_cons, rowsOf, List.zip_cons_cons, List.mapM_cons, List.range'_succ, List.mapM_cons, hrow,
      List.drop_drop]
    rw [show w * (k + 1) = w * k + w from by ring] at ih
    rw [ih]

theorem commitInner_rows (E : Env F G P) (d : Dense F) (bs : List F) (g : Gens G) (h0 : bs.length ≠ 0)
    (hZ : bs.length * (d.Z.length / bs.length) = d.Z.length) :
    d.commitInner E bs g = (List.range bs.length).mapM (commitRow E d bs g (d.Z.length / bs.length)) := by
  have h := commitRows E d.Z (d.Z.length / bs.length) g d bs rfl hZ 0 bs rfl
  rw [Nat.mul_zero, List.drop_zero] at h
  have e : d.commitInner E bs g = (do
      check (bs.length ≠ 0)
      check (bs.length * (d.Z.length / bs.length) = d.Z.length)
      (List.zip (rowsOf (d.Z.length / bs.length) bs.length d.Z) bs).mapM (fun (x : List F × F) => do
        pure (E.compress (← commitV x.1 x.2 g))) : Out (List P)) := rfl
  rw [e, check_true h0, ok_bind, check_true hZ, ok_bind, List.range_eq_range', ← h]

/-- C120: whatever the threads do, the result is the one of the sequential code. -/
theorem commit_multicore (E : Env F G P) (d : Dense F) (bs : List F) (g : Gens G) {r : Out (List (Option P))}
    (h : CommitInner E d bs g r) : r = (d.commitInner E bs g).map (List.map some) := by
  cases h with
  | noRows h0 =>
    have e : check (bs.length ≠ 0) = .error .panic := if_neg (by simpa using h0)
    simp only [Dense.commitInner]
    rw [e]; rfl
  | shape h0 hZ =>
    have e : check (bs.length * (d.Z.length / bs.length) = d.Z.length) = .error .panic := if_neg hZ
    simp only [Dense.commitInner]
    rw [check_true h0, ok_bind, e]; rfl
  | run h0 hZ hs hr =>
    rw [commitInner_rows E d bs g h0 hZ]
    rcases collected_eq hs hr with ⟨vs, h1, h2⟩ | ⟨⟨i, hi, e, he⟩, h2⟩
    · rw [h1, h2]; rfl
    · rw [mapM_error (f := commitRow E d bs g (d.Z.length / bs.length)) (fun i e => commitRow_error) ⟨i, List.mem_range.mpr hi, e, he⟩, h2]; rfl

/-- From every state that can be reached a result can be reached. -/
theorem finishes {α : Type} {f : ℕ → Out α} {n : ℕ} {m₀ : Mem α} : ∀ (fuel k : ℕ) {t : Task} {m : Mem α}, work t ≤ fuel →
    Steps f k (begin n) m₀ t m → ∃ k' t' m' r, Steps f k' (begin n) m₀ t' m' ∧ collected n m' t' = some r
  | fuel, k, t, m, hw, h => by
    rcases no_deadlock h with ⟨r, hr⟩ | ⟨t', m', hs⟩
    · exact ⟨k, t, m, r, h, hr⟩
    · cases fuel with
      | zero => have := hs.work_lt; omega
      | succ fuel => exact finishes fuel (k + 1) (by have := hs.work_lt; omega) (.tail h hs)

/-- C120: and the multithreaded code has a result. -/
theorem commit_multicore_total (E : Env F G P) (d : Dense F) (bs : List F) (g : Gens G) :
    CommitInner E d bs g ((d.commitInner E bs g).map (List.map some)) := by
  have : ∃ r, CommitInner E d bs g r := by
    by_cases h0 : bs.length = 0
    · exact ⟨_, .noRows h0⟩
    by_cases hZ : bs.length * (d.Z.length / bs.length) = d.Z.length
    · obtain ⟨k, t, m, r, hs, hr⟩ := finishes (f := commitRow E d bs g (d.Z.length / bs.length)) (n := bs.length)
        (m₀ := fun _ => none) _ 0 le_rfl .refl
      exact ⟨r, .run h0 hZ hs hr⟩
    · exact ⟨_, .shape h0 hZ⟩
  obtain ⟨r, hr⟩ := this
  rwa [← commit_multicore E d bs g hr]

end

/-- A run with a real interleaving: two parts, the second one ready before the first one starts. -/
example : ∃ m, Steps (fun i => (.ok (10 * i) : Out ℕ)) 8 (begin 2) (fun _ => none) (.done 0 2) m ∧
    collected 2 m (.done 0 2) = some (.ok [some 0, some 10]) := by
  refine ⟨_, .tail (.tail (.tail (.tail (.tail (.tail (.tail (.tail .refl (.split (by omega) (by omega))) (.right .start))
    (.right (.item (by omega) (by omega) rfl))) (.right .finish)) (.left .start))
    (.left (.item (by omega) (by omega) rfl))) (.left .finish)) .reduce, ?_⟩
  rfl

end Spartan.Par
