import Verif.Spec.Rounds
import Verif.Lemmas.SumcheckSound
import Mathlib.Data.Set.Card

/-! Composition of bad-challenge sets and counting. -/

set_option linter.unusedSectionVars false

namespace Spartan
open Spec
variable {F G P M : Type} [Field F] [AddCommGroup G] [Module F G] [AddCommGroup M] [Module F M]
  [DecidableEq F] [DecidableEq P] [DecidableEq G]

/-! ### segments of runs -/

/-- The run from `tr` (with `cur` pending) to `tr'` (with `cur'` pending) has rounds `Rs`. -/
def Seg (E : Env F G P) (rep : P → M) (tr : Tr F P) (cur : List (Msg F M)) (Rs : List (Round F M))
    (tr' : Tr F P) (cur' : List (Msg F M)) : Prop :=
  ∃ ms, tr' = tr ++ ms ∧ rounds E.hash rep tr cur ms = (Rs, cur')

theorem rounds_append (H : Tr F P → F) (rep : P → M) : ∀ (ms ms' : List (Msg F P)) (tr : Tr F P)
    (cur : List (Msg F M)), rounds H rep tr cur (ms ++ ms') =
      ((rounds H rep tr cur ms).1 ++ (rounds H rep (tr ++ ms) (rounds H rep tr cur ms).2 ms').1,
        (rounds H rep (tr ++ ms) (rounds H rep tr cur ms).2 ms').2)
  | [], ms', tr, cur => by simp [rounds]
  | m :: ms, ms', tr, cur => by
    cases m <;> simp only [List.cons_append, rounds, rounds_append H rep ms ms', List.append_assoc,
      List.singleton_append, List.nil_append]

namespace Seg
variable {E : Env F G P} {rep : P → M} {tr t t' : Tr F P} {cur c c' : List (Msg F M)}
  {Rs Rs' : List (Round F M)}

theorem refl (E : Env F G P) (rep : P → M) (tr : Tr F P) (cur : List (Msg F M)) :
    Seg E rep tr cur [] tr cur := ⟨[], by simp, rfl⟩

theorem trans (h : Seg E rep tr cur Rs t c) (h' : Seg E rep t c Rs' t' c') :
    Seg E rep tr cur (Rs ++ Rs') t' c' := by
  obtain ⟨ms, rfl, e⟩ := h
  obtain ⟨ms', rfl, e'⟩ := h'
  exact ⟨ms ++ ms', by simp, by rw [rounds_append, e]; simp only [e']⟩

theorem chal (h : Seg E rep tr cur Rs t c) (l : String) :
    Seg E rep tr cur (Rs ++ [(c, E.hash (t ++ [.chal l]))]) (t ++ [.chal l]) [] :=
  h.trans ⟨[.chal l], rfl, rfl⟩

theorem point (h : Seg E rep tr cur Rs t c) (l : String) (p : P) :
    Seg E rep tr cur Rs (t.point l p) (c ++ [.point l (rep p)]) := by
  simpa [Tr.point, Tr.protocol, mapPt] using h.trans (Rs' := []) ⟨[.point l p], rfl, rfl⟩

theorem protocol (h : Seg E rep tr cur Rs t c) (l : String) :
    Seg E rep tr cur Rs (t.protocol l) (c ++ [.bytes "protocol-name" l]) := by
  simpa [Tr.point, Tr.protocol, mapPt] using h.trans (Rs' := []) ⟨[.bytes "protocol-name" l], rfl, rfl⟩

theorem bytes (h : Seg E rep tr cur Rs t c) (l d : String) :
    Seg E rep tr cur Rs (t ++ [.bytes l d]) (c ++ [.bytes l d]) := by
  simpa [Tr.point, Tr.protocol, mapPt] using h.trans (Rs' := []) ⟨[.bytes l d], rfl, rfl⟩

theorem blob (h : Seg E rep tr cur Rs t c) (l : String) (d : List UInt8) :
    Seg E rep tr cur Rs (t ++ [.blob l d]) (c ++ [.blob l d]) := by
  simpa [Tr.point, Tr.protocol, mapPt] using h.trans (Rs' := []) ⟨[.blob l d], rfl, rfl⟩

theorem scalarList (l : String) : ∀ (xs : List F) {t : Tr F P} {c : List (Msg F M)},
    Seg E rep tr cur Rs t c → Seg E rep tr cur Rs (t ++ xs.map (.scalar l)) (c ++ xs.map (.scalar l))
  | [], _, _, h => by simpa using h
  | x :: xs, _, _, h => by
    have h1 := h.trans (Rs' := []) ⟨[.scalar l x], rfl, rfl⟩
    rw [List.append_nil] at h1
    simpa [mapPt] using scalarList l xs h1

theorem pointList (l : String) : ∀ (ps : List P) {t : Tr F P} {c : List (Msg F M)},
    Seg E rep tr cur Rs t c →
      Seg E rep tr cur Rs (t ++ ps.map (.point l)) (c ++ ps.map (fun p => .point l (rep p)))
  | [], _, _, h => by simpa using h
  | p :: ps, _, _, h => by
    have h1 := h.point l p
    simpa [Tr.point] using pointList l ps h1

theorem scalars (h : Seg E rep tr cur Rs t c) (l : String) (xs : List F) :
    Seg E rep tr cur Rs (t.scalars l xs)
      (c ++ [.bytes l "begin_append_vector"] ++ xs.map (.scalar l) ++ [.bytes l "end_append_vector"]) := by
  unfold Tr.scalars
  exact (scalarList l xs (h.bytes _ _)).bytes _ _

end Seg

/-! ### reading the messages -/

/-- The points among messages, oldest first. -/
def pts (ms : List (Msg F M)) : List M := ms.filterMap fun
  | .point _ p => some p
  | _ => none

/-- The scalars among messages, oldest first. -/
def scs (ms : List (Msg F M)) : List F := ms.filterMap fun
  | .scalar _ x => some x
  | _ => none

/-- The `i`-th most recent point. -/
def ptR (ms : List (Msg F M)) (i : Nat) : M := (pts ms).reverse.getD i 0

/-- The challenges of a history. -/
def chs (hist : List (Round F M)) : List F := hist.map Prod.snd

section read
variable (ms : List (Msg F M)) (l d : String) (p : M) (i : Nat)
@[simp] theorem pts_append (ms' : List (Msg F M)) : pts (ms ++ ms') = pts ms ++ pts ms' := by simp [pts]
@[simp] theorem scs_append (ms' : List (Msg F M)) : scs (ms ++ ms') = scs ms ++ scs ms' := by simp [scs]
@[simp] theorem pts_nil : pts ([] : List (Msg F M)) = [] := rfl
@[simp] theorem pts_cpoint : pts ((.point l p : Msg F M) :: ms) = p :: pts ms := rfl
@[simp] theorem pts_cbytes : pts ((.bytes l d : Msg F M) :: ms) = pts ms := rfl
@[simp] theorem pts_cblob (d : List UInt8) : pts ((.blob l d : Msg F M) :: ms) = pts ms := rfl
@[simp] theorem scs_cpoint : scs ((.point l p : Msg F M) :: ms) = scs ms := rfl
@[simp] theorem scs_cbytes : scs ((.bytes l d : Msg F M) :: ms) = scs ms := rfl
@[simp] theorem scs_cblob (d : List UInt8) : scs ((.blob l d : Msg F M) :: ms) = scs ms := rfl
@[simp] theorem pts_point : pts [(.point l p : Msg F M)] = [p] := rfl
@[simp] theorem pts_bytes : pts [(.bytes l d : Msg F M)] = [] := rfl
@[simp] theorem pts_blob (d : List UInt8) : pts [(.blob l d : Msg F M)] = [] := rfl
@[simp] theorem pts_scalars (xs : List F) : pts (xs.map (.scalar l) : List (Msg F M)) = [] := by
  induction xs with
  | nil => rfl
  | cons x xs ih => simpa [pts] using ih
@[simp] theorem pts_points (ps : List P) (rep : P → M) :
    pts (ps.map (fun p => .point l (rep p)) : List (Msg F M)) = ps.map rep := by
  induction ps with
  | nil => rfl
  | cons x xs ih => simpa [pts] using ih
@[simp] theorem scs_nil : scs ([] : List (Msg F M)) = [] := rfl
@[simp] theorem scs_point : scs [(.point l p : Msg F M)] = [] := rfl
@[simp] theorem scs_bytes : scs [(.bytes l d : Msg F M)] = [] := rfl
@[simp] theorem scs_blob (d : List UInt8) : scs [(.blob l d : Msg F M)] = [] := rfl
@[simp] theorem scs_scalars (xs : List F) : scs (xs.map (.scalar l) : List (Msg F M)) = xs := by
  induction xs with
  | nil => rfl
  | cons x xs ih => simpa [scs] using ih
@[simp] theorem scs_points (ps : List P) (rep : P → M) :
    scs (ps.map (fun p => .point l (rep p)) : List (Msg F M)) = [] := by
  induction ps with
  | nil => rfl
  | cons x xs ih => simpa [scs] using ih
end read

/-! ### bad sets -/

theorem Spec.AtMost.mono {d d' : Nat} {S S' : Set F} (h : AtMost d S) (hd : d ≤ d') (hS : S' ⊆ S) :
    AtMost d' S' := by
  obtain ⟨s, h1, h2⟩ := h
  exact ⟨s, h1.trans hd, hS.trans h2⟩

theorem Spec.AtMost.empty (d : Nat) : AtMost d (∅ : Set F) := ⟨∅, by simp, by simp⟩

theorem Spec.AtMost.union {d d' : Nat} {S S' : Set F} (h : AtMost d S) (h' : AtMost d' S') :
    AtMost (d + d') (S ∪ S') := by
  classical
  obtain ⟨s, h1, h2⟩ := h
  obtain ⟨s', h1', h2'⟩ := h'
  refine ⟨s ∪ s', (Finset.card_union_le _ _).trans (by omega), ?_⟩
  rw [Finset.coe_union]
  exact Set.union_subset_union h2 h2'

/-- Roots of a nonzero polynomial. -/
theorem Spec.AtMost.roots {d : Nat} {q : Polynomial F} (h0 : q ≠ 0) (hd : q.natDegree ≤ d) {S : Set F}
    (hS : ∀ x ∈ S, q.eval x = 0) : AtMost d S := by
  classical
  refine ⟨q.roots.toFinset, (Multiset.toFinset_card_le _).trans ((Polynomial.card_roots' q).trans hd), ?_⟩
  intro x hx
  simp [h0, hS x hx]

/-- A nonzero linear equation has at most one solution. -/
theorem Spec.AtMost.linear {a b : F} (ha : a ≠ 0) {S : Set F} (hS : ∀ x ∈ S, x * a + b = 0) : AtMost 1 S := by
  refine ⟨{-b * a⁻¹}, by simp, fun x hx => ?_⟩
  have := hS x hx
  have h1 : x * a = -b := by linear_combination this
  simp only [Finset.coe_singleton, Set.mem_singleton_iff]
  rw [← h1, mul_assoc, mul_inv_cancel₀ ha, mul_one]

/-- `B1` for the first `n` rounds, then `B2` which also sees these rounds. -/
def seqB (n : Nat) (B1 : Bads F M) (B2 : List (Round F M) → Bads F M) : Bads F M := fun hist ms =>
  if hist.length < n then B1 hist ms else B2 (hist.take n) (hist.drop n) ms

/-- A single round. -/
def oneB (S : List (Msg F M) → Set F) : Bads F M := fun _ ms => S ms

/-- No condition. -/
def noneB : Bads F M := fun _ _ => ∅

/-- All sets have at most `d` elements. -/
def Small (d : Nat) (B : Bads F M) : Prop := ∀ hist ms, AtMost d (B hist ms)

theorem Small.seq {d n : Nat} {B1 : Bads F M} {B2 : List (Round F M) → Bads F M} (h1 : Small d B1)
    (h2 : ∀ h, Small d (B2 h)) : Small d (seqB n B1 B2) := by
  intro hist ms
  unfold seqB
  split
  · exact h1 _ _
  · exact h2 _ _ _

theorem Small.mono {d d' : Nat} {B : Bads F M} (h : Small d B) (hd : d ≤ d') : Small d' B :=
  fun hist ms => (h hist ms).mono hd le_rfl

theorem noneB_small (d : Nat) : Small d (noneB : Bads F M) := fun _ _ => AtMost.empty d

theorem Spec.Hit.left {n : Nat} {B1 : Bads F M} {B2 : List (Round F M) → Bads F M} {Rs Rs' : List (Round F M)}
    (hn : Rs.length = n) (h : Hit B1 Rs) : Hit (seqB n B1 B2) (Rs ++ Rs') := by
  obtain ⟨hist, ms, x, rest, rfl, hx⟩ := h
  refine ⟨hist, ms, x, rest ++ Rs', by simp, ?_⟩
  rw [seqB, if_pos (by rw [← hn]; simp)]
  exact hx

theorem Spec.Hit.right {n : Nat} {B1 : Bads F M} {B2 : List (Round F M) → Bads F M}
    {Rs Rs' : List (Round F M)} (hn : Rs.length = n) (h : Hit (B2 Rs) Rs') :
    Hit (seqB n B1 B2) (Rs ++ Rs') := by
  obtain ⟨hist, ms, x, rest, rfl, hx⟩ := h
  refine ⟨Rs ++ hist, ms, x, rest, by simp, ?_⟩
  rw [seqB, if_neg (by simp [hn]), ← hn]
  simpa using hx

theorem Spec.Hit.one {S : List (Msg F M) → Set F} {ms : List (Msg F M)} {x : F} (h : x ∈ S ms) :
    Hit (oneB S) [(ms, x)] := ⟨[], ms, x, [], rfl, h⟩

/-! ### counting -/

theorem play_append (σ : List F → List (Msg F M)) : ∀ (xs ys past : List F),
    play σ past (xs ++ ys) = play σ past xs ++ play σ (past ++ xs) ys
  | [], ys, past => by simp [play]
  | x :: xs, ys, past => by simp [play, play_append σ xs ys]

@[simp] theorem play_length (σ : List F → List (Msg F M)) : ∀ (xs past : List F),
    (play σ past xs).length = xs.length
  | [], past => rfl
  | x :: xs, past => by simp [play, play_length σ xs]

open Classical in
/-- Any strategy receives an unfavourable challenge with probability at most `n d / |F|`. -/
theorem hit_count [Fintype F] {d : Nat} (B : Bads F M) (hB : Small d B) (σ : List F → List (Msg F M)) :
    ∀ (n : Nat) (hist : List (Round F M)) (past : List F),
      (Finset.univ.filter fun xs : Fin n → F => ∃ h' ms x rest,
        play σ past (List.ofFn xs) = h' ++ (ms, x) :: rest ∧ x ∈ B (hist ++ h') ms).card
        ≤ n * d * Fintype.card F ^ (n - 1) := by
  classical
  intro n
  induction n with
  | zero =>
    intro hist past
    rw [Finset.card_eq_zero.2]
    · simp
    · ext xs; simp [play]
  | succ n ih =>
    intro hist past
    obtain ⟨s, hs1, hs2⟩ := hB hist (σ past)
    -- split along the first coordinate
    have key : (Finset.univ.filter fun xs : Fin (n + 1) → F => ∃ h' ms x rest,
        play σ past (List.ofFn xs) = h' ++ (ms, x) :: rest ∧ x ∈ B (hist ++ h') ms) ⊆
        (Finset.univ.filter fun xs : Fin (n + 1) → F => xs 0 ∈ s) ∪
        (Finset.univ : Finset F).biUnion fun r => (Finset.univ.filter fun ys : Fin n → F =>
          ∃ h' ms x rest, play σ (past ++ [r]) (List.ofFn ys) = h' ++ (ms, x) :: rest ∧
            x ∈ B ((hist ++ [(σ past, r)]) ++ h') ms).image (fun ys => Fin.cons r ys) := by
      intro xs hxs
      simp only [Finset.mem_filter, Finset.mem_univ, true_and, Finset.mem_union, Finset.mem_biUnion,
        Finset.mem_image] at hxs ⊢
      obtain ⟨h', ms, x, rest, he, hx⟩ := hxs
      rw [List.ofFn_succ, play] at he
      cases h' with
      | nil =>
        simp only [List.nil_append, List.cons.injEq, Prod.mk.injEq, List.append_nil] at he hx
        left
        obtain ⟨⟨rfl, rfl⟩, -⟩ := he
        exact hs2 hx
      | cons a h' =>
        simp only [List.cons_append, List.cons.injEq] at he
        obtain ⟨rfl, he⟩ := he
        right
        refine ⟨xs 0, Fin.tail xs, ⟨h', ms, x, rest, he, ?_⟩, Fin.cons_self_tail xs⟩
        simpa using hx
    refine (Finset.card_le_card key).trans ((Finset.card_union_le _ _).trans ?_)
    have c1 : (Finset.univ.filter fun xs : Fin (n + 1) → F => xs 0 ∈ s).card
        ≤ d * Fintype.card F ^ n := by
      have : (Finset.univ.filter fun xs : Fin (n + 1) → F => xs 0 ∈ s) ⊆
          (s ×ˢ (Finset.univ : Finset (Fin n → F))).image fun p => Fin.cons p.1 p.2 := by
        intro xs hxs
        simp only [Finset.mem_filter, Finset.mem_univ, true_and, Finset.mem_image, Finset.mem_product,
          Prod.exists, and_true] at hxs ⊢
        exact ⟨xs 0, Fin.tail xs, hxs, Fin.cons_self_tail xs⟩
      refine (Finset.card_le_card this).trans (Finset.card_image_le.trans ?_)
      rw [Finset.card_product, Finset.card_univ, Fintype.card_fun, Fintype.card_fin]
      exact Nat.mul_le_mul_right _ hs1
    have c2 := Finset.card_biUnion_le (s := (Finset.univ : Finset F)) (t := fun r =>
      (Finset.univ.filter fun ys : Fin n → F =>
          ∃ h' ms x rest, play σ (past ++ [r]) (List.ofFn ys) = h' ++ (ms, x) :: rest ∧
            x ∈ B ((hist ++ [(σ past, r)]) ++ h') ms).image (fun ys => (Fin.cons r ys : Fin (n + 1) → F)))
    have c3 : ∀ r ∈ (Finset.univ : Finset F), ((Finset.univ.filter fun ys : Fin n → F =>
          ∃ h' ms x rest, play σ (past ++ [r]) (List.ofFn ys) = h' ++ (ms, x) :: rest ∧
            x ∈ B ((hist ++ [(σ past, r)]) ++ h') ms).image
              (fun ys => (Fin.cons r ys : Fin (n + 1) → F))).card ≤ n * d * Fintype.card F ^ (n - 1) :=
      fun r _ => Finset.card_image_le.trans (ih _ _)
    have c4 := c2.trans (Finset.sum_le_card_nsmul _ _ _ c3)
    rw [Finset.card_univ, smul_eq_mul] at c4
    refine (Nat.add_le_add c1 c4).trans ?_
    rcases Nat.eq_zero_or_pos n with rfl | hn
    · simp
    · rw [Nat.add_sub_cancel]
      have : Fintype.card F * (n * d * Fintype.card F ^ (n - 1)) = n * d * Fintype.card F ^ n := by
        obtain ⟨m, rfl⟩ : ∃ m, n = m + 1 := ⟨n - 1, by omega⟩
        rw [Nat.add_sub_cancel, pow_succ]; ring
      rw [this]
      apply le_of_eq; ring

theorem hit_count' [Fintype F] {d : Nat} (B : Bads F M) (hB : Small d B) (σ : List F → List (Msg F M))
    (n : Nat) : Set.ncard {xs : Fin n → F | Hit B (play σ [] (List.ofFn xs))}
      ≤ n * d * Fintype.card F ^ (n - 1) := by
  classical
  have := hit_count B hB σ n [] []
  rw [← Set.ncard_coe_finset] at this
  refine le_trans (le_of_eq ?_) this
  congr 1
  ext xs
  simp [Hit]

end Spartan
