import Mathlib.Tactic.IntervalCases
import Verif.Props.GlueHist

/-!
A module that meets the specification of `Spec/Glue.lean`: it returns, throws and panics.  Beside C109 and C110.
-/

namespace Spartan.Glue

variable {O : Type}

def le4 (n : ℕ) : List UInt8 := [.ofNat n, .ofNat (n / 2 ^ 8), .ofNat (n / 2 ^ 16), .ofNat (n / 2 ^ 24)]

/-- Four words. -/
def words (a b c d : ℕ) : List UInt8 := le4 a ++ (le4 b ++ (le4 c ++ le4 d))

theorem words_length (a b c d : ℕ) : (words a b c d).length = 16 := rfl

theorem word_of {mem : List UInt8} {p n : ℕ} (hn : n < 2 ^ 32) (h : ∀ i < 4, mem[p + i]? = (le4 n)[i]?) : word mem p = n := by
  have h0 := h 0 (by omega); have h1 := h 1 (by omega); have h2 := h 2 (by omega); have h3 := h 3 (by omega)
  simp only [le4, List.getElem?_cons_zero, List.getElem?_cons_succ, Nat.add_zero] at h0 h1 h2 h3
  simp only [word, List.getD_eq_getElem?_getD, h0, h1, h2, h3, Option.getD_some, UInt8.toNat_ofNat']
  omega

theorem word_write {mem : List UInt8} {p a b c d : ℕ} (h : p + 16 ≤ mem.length) (ha : a < 2 ^ 32) (hb : b < 2 ^ 32)
    (hc : c < 2 ^ 32) (hd : d < 2 ^ 32) : word (write mem p (words a b c d)) p = a ∧ word (write mem p (words a b c d)) (p + 4) = b ∧
      word (write mem p (words a b c d)) (p + 8) = c ∧ word (write mem p (words a b c d)) (p + 12) = d := by
  have key : ∀ j < 16, (write mem p (words a b c d))[p + j]? = (words a b c d)[j]? := fun j hj => by
    rw [write_get (by rw [words_length]; exact h), if_pos ⟨by omega, by rw [words_length]; omega⟩, Nat.add_sub_cancel_left]
  refine ⟨word_of ha fun i hi => ?_, word_of hb fun i hi => ?_, word_of hc fun i hi => ?_, word_of hd fun i hi => ?_⟩
  · rw [key i (by omega)]; interval_cases i <;> rfl
  · rw [Nat.add_assoc, key (4 + i) (by omega)]; interval_cases i <;> rfl
  · rw [Nat.add_assoc, key (8 + i) (by omega)]; interval_cases i <;> rfl
  · rw [Nat.add_assoc, key (12 + i) (by omega)]; interval_cases i <;> rfl

/-- Write the result and release `m` blocks. -/
def done (w : Wasm) (m retptr a b c d : ℕ) (bl : List (ℕ × ℕ)) : Wasm :=
  { w with mem := write w.mem retptr (words a b c d), blocks := bl ++ w.blocks.drop m }

/-- A function that gives back its first argument, throws `false` when the second is empty and panics when the first is. -/
def echo (m retptr p0 l0 l1 : ℕ) (w : Wasm) (h : Heap O) : Bool × Wasm × Heap O :=
  let ok : Bool × Wasm × Heap O := if l0 < 2 ^ 31 then (true, done w m retptr p0 l0 0 0 [(p0, l0)], h)
    else (true, done w m retptr p0 0 0 0 [(p0, 0)], h)
  if l0 = 0 then (false, { w with sp := w.sp - 8 }, h)
  else if l1 = 0 then match h.add (.bool false) with
    | some (i, h') => if i < 2 ^ 31 then (true, done w m retptr 0 0 i 1 [], h') else ok
    | none => ok
  else ok

/-- Compares its first two arguments. -/
def same (retptr p0 l0 p1 l1 : ℕ) (w : Wasm) (h : Heap O) : Bool × Wasm × Heap O :=
  let ok : Bool × Wasm × Heap O :=
    (true, done w 3 retptr (decide (content w (p0, l0) = content w (p1, l1))).toNat 0 0 0 [], h)
  if l0 = 0 then (false, { w with sp := w.sp - 8 }, h)
  else if l1 = 0 then match h.add (.bool false) with
    | some (i, h') => if i < 2 ^ 31 then (true, done w 3 retptr 0 i 1 0 [], h') else ok
    | none => ok
  else ok

def demo : Exports O where
  malloc n w := if w.mem.length < 2 ^ 32 then some (w.mem.length,
    { w with mem := w.mem ++ List.replicate n 0, gen := w.gen + 1, blocks := (w.mem.length, n) :: w.blocks }) else none
  free _ _ w := { w with blocks := w.blocks.tail }
  prove retptr p0 l0 _ l1 _ _ w h := echo 3 retptr p0 l0 l1 w h
  verify retptr p0 l0 p1 l1 _ _ w h := same retptr p0 l0 p1 l1 w h
  poseidon retptr p0 l0 w h := echo 1 retptr p0 l0 1 w h

def demoP (a b : Bytes) (res : Option (Except (Js O) Bytes)) : Prop :=
  a = [] ∧ res = none ∨ a ≠ [] ∧ b = [] ∧ res = some (.error (.bool false)) ∨
    a ≠ [] ∧ res = some (.ok (if a.length < 2 ^ 31 then a else []))

def demoV (a b : Bytes) (res : Option (Except (Js O) Bool)) : Prop :=
  a = [] ∧ res = none ∨ a ≠ [] ∧ b = [] ∧ res = some (.error (.bool false)) ∨ a ≠ [] ∧ res = some (.ok (decide (a = b)))

theorem demo_alloc (base : ℕ) : Alloc (demo (O := O)) base where
  malloc {w w' n p} I h := by
    simp only [demo] at h
    split at h
    swap
    · cases h
    rename_i hl
    obtain ⟨rfl, rfl⟩ := Prod.mk.injEq .. ▸ Option.some.inj h
    have ln : (w.mem ++ List.replicate n 0).length = w.mem.length + n := by rw [List.length_append, List.length_replicate]
    refine ⟨⟨I.sp_le, I.base_le, ?_, ?_, ?_⟩, rfl, rfl, ?_⟩
    · show _ ≤ (w.mem ++ List.replicate n 0).length
      rw [ln]; have := I.mem_ge; omega
    · intro b hb
      show _ ∧ _ ≤ (w.mem ++ List.replicate n 0).length ∧ _
      rw [ln]
      rcases List.mem_cons.1 hb with rfl | hb
      · exact ⟨I.mem_ge, le_refl _, hl⟩
      · obtain ⟨h1, h2, h3⟩ := I.inside b hb
        exact ⟨h1, by omega, h3⟩
    · exact List.pairwise_cons.2 ⟨fun b hb => Or.inr (I.inside b hb).2.1, I.disj⟩
    · intro b hb
      have := (I.inside b hb).2.1
      rw [content, content]
      show ((w.mem ++ List.replicate n 0).drop b.1).take b.2 = _
      rw [List.drop_append_of_le_length (by omega), List.take_append_of_le_length (by rw [List.length_drop]; omega)]
  free {w p n bs} I h := by
    have e : (demo (O := O)).free p n w = { w with blocks := bs } := by simp only [demo, h, List.tail_cons]
    rw [e]
    refine ⟨⟨I.sp_le, I.base_le, I.mem_ge, fun b hb => I.inside b (by rw [h]; exact List.mem_cons_of_mem _ hb), ?_⟩, rfl, rfl,
      fun _ _ => rfl⟩
    have := I.disj
    rw [h] at this
    exact (List.pairwise_cons.1 this).2

/-- Writing the result keeps the layout and the blocks. -/
theorem done_ok {base m a b c d : ℕ} {w : Wasm} (I : WInv base w) (hs : w.sp + 16 ≤ base) {bs bl : List (ℕ × ℕ)}
    (hd : w.blocks.drop m = bs)
    (hl : bl = [] ∨ ∃ p n l, bl = [(p, n)] ∧ n ≤ l ∧ (p, l) ∈ w.blocks ∧ ∀ x ∈ bs, p + l ≤ x.1 ∨ x.1 + x.2 ≤ p) :
    WInv base (done w m w.sp a b c d bl) ∧ (done w m w.sp a b c d bl).sp = w.sp ∧
      (∀ x ∈ w.blocks, content (done w m w.sp a b c d bl) x = content w x) ∧ (done w m w.sp a b c d bl).blocks = bl ++ bs := by
  have hm := I.mem_ge
  have hw : w.sp + (words a b c d).length ≤ w.mem.length := by rw [words_length]; omega
  have hsub : ∀ x ∈ bs, x ∈ w.blocks := fun x hx => List.mem_of_mem_drop (hd ▸ hx)
  have hbs : bs.Pairwise fun a b => a.1 + a.2 ≤ b.1 ∨ b.1 + b.2 ≤ a.1 := hd ▸ I.disj.drop
  have ebl : (done w m w.sp a b c d bl).blocks = bl ++ bs := by rw [done, ← hd]
  refine ⟨⟨I.sp_le, I.base_le, ?_, ?_, ?_⟩, rfl, ?_, ebl⟩
  · show _ ≤ (write w.mem w.sp (words a b c d)).length
    rw [write_length hw]; exact hm
  · intro x hx
    show _ ∧ _ ≤ (write w.mem w.sp (words a b c d)).length ∧ _
    rw [write_length hw]
    rw [ebl] at hx
    rcases hl with rfl | ⟨p, n, l, rfl, hn, hp, -⟩
    · exact I.inside x (hsub x hx)
    · rcases List.mem_cons.1 hx with rfl | hx
      · obtain ⟨h1, h2, h3⟩ := I.inside _ hp
        exact ⟨h1, by show p + n ≤ _; simp only at h2; omega, h3⟩
      · exact I.inside x (hsub x hx)
  · rw [ebl]
    rcases hl with rfl | ⟨p, n, l, rfl, hn, hp, hdj⟩
    · exact hbs
    · refine List.pairwise_cons.2 ⟨fun x hx => ?_, hbs⟩
      rcases hdj x hx with h | h
      · left; show p + n ≤ _; omega
      · right; exact h
  · intro x hx
    have := (I.inside x hx).1
    exact content_write_other hw (Or.inl (by rw [words_length]; omega))

theorem panic_ok {base m : ℕ} {w : Wasm} {h : Heap O} {L : ℕ → Option (Js O)} {bs : List (ℕ × ℕ)} (I : WInv base w)
    (hh : Hist h L) (h8 : 8 ≤ w.sp) (h4 : w.sp % 4 = 0) (hd : w.blocks.drop m = bs) :
    Panics base 8 bs w L (false, { w with sp := w.sp - 8 }, h) :=
  ⟨rfl, ⟨le_trans (Nat.sub_le _ _) I.sp_le, I.base_le, I.mem_ge, I.inside, I.disj⟩,
    fun x hx => List.mem_of_mem_drop (hd ▸ hx), Nat.sub_le _ _, by show _ ≤ w.sp - 8 + 8; omega,
    by show (w.sp - 8) % 4 = 0; omega, fun _ _ => rfl, L, hh, fun _ _ h => h⟩

theorem HExt.update {L : ℕ → Option (Js O)} {i : ℕ} (hi : L i = none) (v : Js O) : HExt L (Function.update L i (some v)) :=
  fun j u hj => by
    rcases eq_or_ne j i with rfl | hne
    · rw [hi] at hj; cases hj
    · rw [Function.update_of_ne hne, hj]

theorem echo_ok {base m p0 l1 : ℕ} {w : Wasm} {h : Heap O} {L : ℕ → Option (Js O)} {a : Bytes} {bs : List (ℕ × ℕ)}
    (I : WInv base w) (hh : Hist h L) (hs : w.sp + 16 ≤ base) (h8 : 8 ≤ w.sp) (h4 : w.sp % 4 = 0)
    (hd : w.blocks.drop m = bs) (hp : (p0, a.length) ∈ w.blocks) (hdj : ∀ x ∈ bs, p0 + a.length ≤ x.1 ∨ x.1 + x.2 ≤ p0)
    (ha : content w (p0, a.length) = a) :
    (a = [] ∧ Panics base 8 bs w L (echo m w.sp p0 a.length l1 w h)) ∨
    (a ≠ [] ∧ l1 = 0 ∧ ReturnsBytes base bs w L (.error (.bool false)) (echo m w.sp p0 a.length l1 w h)) ∨
    (a ≠ [] ∧ ReturnsBytes base bs w L (.ok (if a.length < 2 ^ 31 then a else [])) (echo m w.sp p0 a.length l1 w h)) := by
  have hm := I.mem_ge
  have hsub : ∀ x ∈ bs, x ∈ w.blocks := fun x hx => List.mem_of_mem_drop (hd ▸ hx)
  have hp3 := (I.inside _ hp).2.2
  rcases eq_or_ne a [] with rfl | hne
  · left
    refine ⟨rfl, ?_⟩
    rw [echo]
    simp only [List.length_nil, if_true]
    exact panic_ok I hh h8 h4 hd
  have hl0 : a.length ≠ 0 := fun h => hne (List.length_eq_zero_iff.1 h)
  have hok : ReturnsBytes base bs w L (.ok (if a.length < 2 ^ 31 then a else []))
      (if a.length < 2 ^ 31 then (true, done w m w.sp p0 a.length 0 0 [(p0, a.length)], h)
        else (true, done w m w.sp p0 0 0 0 [(p0, 0)], h)) := by
    split
    · rename_i hl
      obtain ⟨J, js, jc, jb⟩ := done_ok (a := p0) (b := a.length) (c := 0) (d := 0) I hs hd
        (Or.inr ⟨p0, a.length, a.length, rfl, le_refl _, hp, hdj⟩)
      obtain ⟨w0, w1, -, w3⟩ := word_write (mem := w.mem) (p := w.sp) (a := p0) (b := a.length) (c := 0) (d := 0) (by omega)
        hp3 (by omega) (by omega) (by omega)
      exact ⟨rfl, J, js, fun x hx => jc x (hsub x hx), L, hh, fun _ _ h => h, p0, jb, by rw [jc _ hp]; exact ha, hl, w0, w1, w3⟩
    · obtain ⟨J, js, jc, jb⟩ := done_ok (a := p0) (b := 0) (c := 0) (d := 0) I hs hd
        (Or.inr ⟨p0, 0, a.length, rfl, Nat.zero_le _, hp, hdj⟩)
      obtain ⟨w0, w1, -, w3⟩ := word_write (mem := w.mem) (p := w.sp) (a := p0) (b := 0) (c := 0) (d := 0) (by omega)
        hp3 (by omega) (by omega) (by omega)
      exact ⟨rfl, J, js, fun x hx => jc x (hsub x hx), L, hh, fun _ _ h => h, p0, jb, by rw [content]; exact List.take_zero,
        by show 0 < 2 ^ 31; omega, w0, w1, w3⟩
  rw [echo]
  simp only [if_neg hl0]
  split
  swap
  · exact Or.inr (Or.inr ⟨hne, hok⟩)
  rename_i hl1
  obtain ⟨i, h', he, -, hi⟩ := (heap_table hh).1 (.bool false)
  rw [he]
  simp only
  split
  swap
  · exact Or.inr (Or.inr ⟨hne, hok⟩)
  rename_i hi31
  obtain ⟨J, js, jc, jb⟩ := done_ok (a := 0) (b := 0) (c := i) (d := 1) I hs hd (Or.inl rfl)
  obtain ⟨-, -, w2, w3⟩ := word_write (mem := w.mem) (p := w.sp) (a := 0) (b := 0) (c := i) (d := 1) (by omega)
    (by omega) (by omega) (by omega) (by omega)
  exact Or.inr (Or.inl ⟨hne, hl1, rfl, J, js, fun x hx => jc x (hsub x hx), _, .add hh he, HExt.update hi _, i, jb, hi,
    Function.update_self .., hi31, w2, w3⟩)

theorem same_ok {base p0 p1 : ℕ} {w : Wasm} {h : Heap O} {L : ℕ → Option (Js O)} {a b : Bytes} {bs : List (ℕ × ℕ)}
    (I : WInv base w) (hh : Hist h L) (hs : w.sp + 16 ≤ base) (h8 : 8 ≤ w.sp) (h4 : w.sp % 4 = 0)
    (hd : w.blocks.drop 3 = bs) (ha : content w (p0, a.length) = a) (hb : content w (p1, b.length) = b) :
    (a = [] ∧ Panics base 8 bs w L (same w.sp p0 a.length p1 b.length w h)) ∨
    (a ≠ [] ∧ b = [] ∧ ReturnsBool base bs w L (.error (.bool false)) (same w.sp p0 a.length p1 b.length w h)) ∨
    (a ≠ [] ∧ ReturnsBool base bs w L (.ok (decide (a = b))) (same w.sp p0 a.length p1 b.length w h)) := by
  have hm := I.mem_ge
  have hsub : ∀ x ∈ bs, x ∈ w.blocks := fun x hx => List.mem_of_mem_drop (hd ▸ hx)
  rcases eq_or_ne a [] with rfl | hne
  · left
    refine ⟨rfl, ?_⟩
    rw [same]
    simp only [List.length_nil, if_true]
    exact panic_ok I hh h8 h4 hd
  have hl0 : a.length ≠ 0 := fun h => hne (List.length_eq_zero_iff.1 h)
  have hok : ReturnsBool base bs w L (.ok (decide (a = b)))
      (true, done w 3 w.sp (decide (content w (p0, a.length) = content w (p1, b.length))).toNat 0 0 0 [], h) := by
    rw [ha, hb]
    obtain ⟨J, js, jc, jb⟩ := done_ok (a := (decide (a = b)).toNat) (b := 0) (c := 0) (d := 0) I hs hd (Or.inl rfl)
    obtain ⟨w0, -, w2, -⟩ := word_write (mem := w.mem) (p := w.sp) (a := (decide (a = b)).toNat) (b := 0) (c := 0) (d := 0)
      (by omega) (lt_of_le_of_lt (Bool.toNat_le _) (by omega)) (by omega) (by omega) (by omega)
    exact ⟨rfl, J, js, fun x hx => jc x (hsub x hx), L, hh, fun _ _ h => h, jb, w0, w2⟩
  rw [same]
  simp only [if_neg hl0]
  split
  swap
  · exact Or.inr (Or.inr ⟨hne, hok⟩)
  rename_i hl1
  obtain ⟨i, h', he, -, hi⟩ := (heap_table hh).1 (.bool false)
  rw [he]
  simp only
  split
  swap
  · exact Or.inr (Or.inr ⟨hne, hok⟩)
  rename_i hi31
  obtain ⟨J, js, jc, jb⟩ := done_ok (a := 0) (b := i) (c := 1) (d := 0) I hs hd (Or.inl rfl)
  obtain ⟨-, w1, w2, -⟩ := word_write (mem := w.mem) (p := w.sp) (a := 0) (b := i) (c := 1) (d := 0) (by omega)
    (by omega) (by omega) (by omega) (by omega)
  exact Or.inr (Or.inl ⟨hne, List.length_eq_zero_iff.1 hl1, rfl, J, js, fun x hx => jc x (hsub x hx), _, .add hh he, HExt.update hi _,
    jb, i, hi, Function.update_self .., hi31, w1, w2⟩)

/-- The demonstration module meets the specification. -/
theorem demo_good (base : ℕ) : Good (demo (O := O)) base 8 (fun a b _ => demoP a b) (fun a b _ => demoV a b) (demoP · [0]) where
  toAlloc := demo_alloc base
  prove {w h L p0 p1 p2 a b c bs} I hh hs h8 h4 hbl ha _ _ := by
    have hd := I.disj
    rw [hbl] at hd
    have hd3 := (List.pairwise_cons.1 (List.pairwise_cons.1 (List.pairwise_cons.1 hd).2).2).1
    rcases echo_ok (m := 3) (l1 := b.length) I hh hs h8 h4 (bs := bs) (by rw [hbl]; rfl) (by rw [hbl]; simp) hd3 ha with
      ⟨e, h⟩ | ⟨e, e', h⟩ | ⟨e, h⟩
    · exact Or.inr ⟨Or.inl ⟨e, rfl⟩, h⟩
    · exact Or.inl ⟨_, Or.inr (Or.inl ⟨e, List.length_eq_zero_iff.1 e', rfl⟩), h⟩
    · exact Or.inl ⟨_, Or.inr (Or.inr ⟨e, rfl⟩), h⟩
  verify {w h L p0 p1 p2 a b c bs} I hh hs h8 h4 hbl ha hb _ := by
    rcases same_ok I hh hs h8 h4 (bs := bs) (by rw [hbl]; rfl) ha hb with ⟨e, h⟩ | ⟨e, e', h⟩ | ⟨e, h⟩
    · exact Or.inr ⟨Or.inl ⟨e, rfl⟩, h⟩
    · exact Or.inl ⟨_, Or.inr (Or.inl ⟨e, e', rfl⟩), h⟩
    · exact Or.inl ⟨_, Or.inr (Or.inr ⟨e, rfl⟩), h⟩
  poseidon {w h L p0 a bs} I hh hs h8 h4 hbl ha := by
    have hd := I.disj
    rw [hbl] at hd
    rcases echo_ok (m := 1) (l1 := 1) I hh hs h8 h4 (bs := bs) (by rw [hbl]; rfl) (by rw [hbl]; simp)
      (List.pairwise_cons.1 hd).1 ha with ⟨e, h⟩ | ⟨e, e', h⟩ | ⟨e, h⟩
    · exact Or.inr ⟨Or.inl ⟨e, rfl⟩, h⟩
    · cases e'
    · exact Or.inl ⟨_, Or.inr (Or.inr ⟨e, rfl⟩), h⟩

/-- It copies arguments as long as its memory stays below 4 GB. -/
theorem demo_allocs (args : List Bytes) : ∀ w : Wasm, w.mem.length + (args.map List.length).sum < 2 ^ 32 →
    allocs (demo (O := O)) args w ≠ none := by
  induction args with
  | nil => intro w _ h; cases h
  | cons a as ih =>
    intro w h
    rw [List.map_cons, List.sum_cons] at h
    have hm : (demo (O := O)).malloc a.length w = some (w.mem.length, { w with
        mem := w.mem ++ List.replicate a.length 0, gen := w.gen + 1, blocks := (w.mem.length, a.length) :: w.blocks }) :=
      if_pos (by omega)
    have ln : (w.mem ++ List.replicate a.length 0).length = w.mem.length + a.length := by
      rw [List.length_append, List.length_replicate]
    rw [allocs, hm]
    refine ih _ ?_
    show (write (w.mem ++ List.replicate a.length 0) w.mem.length a).length + _ < _
    rw [write_length (by rw [ln]), ln]
    omega

/-- One page of memory, 1024 bytes of it stack. -/
def demoBoot : Wasm := ⟨List.replicate 65536 0, 0, 1024, []⟩

theorem demoBoot_inv : WInv 1024 demoBoot where
  sp_le := le_refl _
  base_le := by decide
  mem_ge := by rw [demoBoot, List.length_replicate]; decide
  inside b hb := by cases hb
  disj := List.Pairwise.nil

/-- The hypotheses of `glue_history` are met: a history with an early call, a panic, a thrown error and a reinitialization. -/
example : Allowed (O := O) demo 1024 (fun a b _ => demoP a b) (fun a b _ => demoV a b) (demoP · [0]) false
    [.verify [1] [1] [], .init, .verify [1] [1] [], .verify [] [] [], .prove [1, 2] [] [], .init, .poseidon [7]]
    (run demo demoBoot St.init
      [.verify [1] [1] [], .init, .verify [1] [1] [], .verify [] [] [], .prove [1, 2] [] [], .init, .poseidon [7]]) :=
  glue_history (demo_good 1024) demoBoot_inv (by decide) _ (by decide)

/-- The hypotheses of `panics_leak` are met: a panic costs this module 8 bytes of stack and three blocks. -/
example : ((verifyMany (O := O) demo [] [1] [2] (finalizeInit demoBoot St.init) 1).insts 0).sp = 1016 := by
  have h := panics_leak (demo_alloc (O := O) 1024) (k := 0) (d := 8) (a := []) (b := [1]) (c := [2])
    (fun r p0 p1 p2 w h => rfl) (s := finalizeInit demoBoot St.init) (finalize_ready (s := St.init) demoBoot_inv .init) 1
    (show 24 ≤ 1024 by decide) (fun i hi => by
      obtain rfl : i = 0 := by omega
      refine demo_allocs _ _ ?_
      show (List.replicate 65536 (0 : UInt8)).length + 2 < 2 ^ 32
      rw [List.length_replicate]
      decide)
  exact h.2.1

end Spartan.Glue
