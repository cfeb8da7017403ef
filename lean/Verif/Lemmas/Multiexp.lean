import Verif.Model.Points
import Verif.Lemmas.LimbsRep
import Verif.Lemmas.LC
import Mathlib.Algebra.BigOperators.Group.List.Basic
import Mathlib.Algebra.BigOperators.Group.Finset.Basic
import Mathlib.Algebra.BigOperators.Group.Finset.Piecewise
import Mathlib.Tactic.Abel

/-!
Multiplication by a scalar and the algorithms of `multiexp` compute sums of multiples, in any group.
-/

namespace Spartan.Pt

/-! ### Bits and bytes of a scalar -/

theorem leBytes_get (n : Nat) : ∀ (k i : Nat), i < n → (leBytes n k)[i]? = some (UInt8.ofNat (k / 256 ^ i)) := by
  induction n with
  | zero => intro k i h; omega
  | succ n ih =>
    intro k i h
    cases i with
    | zero => simp [leBytes]
    | succ i =>
      rw [leBytes, List.getElem?_cons_succ, ih _ _ (by omega), Nat.div_div_eq_div_mul, ← pow_succ']

theorem slotAt_eq (k : Nat) {j : Nat} (hj : j < 64) : slotAt (CoreScalar.toBytes k) j = k / 16 ^ j % 16 := by
  unfold slotAt CoreScalar.toBytes
  rw [List.getD_eq_getElem?_getD, leBytes_get 32 k _ (by omega)]
  simp only [Option.getD_some]
  rw [UInt8.toNat_and, UInt8.toNat_shiftRight, UInt8.toNat_ofNat', UInt8.toNat_ofNat', Nat.shiftRight_eq_div_pow]
  rw [show (0xf : UInt8).toNat = 2 ^ 4 - 1 from rfl, Nat.and_two_pow_sub_one_eq_mod]
  rcases Nat.even_or_odd' j with ⟨c, rfl | rfl⟩
  · have e1 : 4 * (2 * c) / 8 = c := by omega
    have e2 : 4 * (2 * c) % 8 = 0 := by omega
    rw [e1, e2, pow_mul]
    norm_num
  · have e1 : 4 * (2 * c + 1) / 8 = c := by omega
    have e2 : 4 * (2 * c + 1) % 8 = 4 := by omega
    have e3 : (16 : Nat) ^ (2 * c + 1) = 256 ^ c * 16 := by rw [pow_succ, pow_mul]; norm_num
    rw [e1, e2, e3, ← Nat.div_div_eq_div_mul]
    generalize k / 256 ^ c = m
    norm_num
    omega

theorem toLeBits_length (k : Nat) : (toLeBits k).length = 256 := by
  unfold toLeBits CoreScalar.toBytes
  rw [List.length_flatMap]
  simp [leBytes]

theorem flatMap_bits_get (l : List UInt8) : ∀ i, i < 8 * l.length →
    (l.flatMap fun b => (List.range 8).map fun i => b.toNat.testBit i)[i]? =
      some ((l.getD (i / 8) 0).toNat.testBit (i % 8)) := by
  induction l with
  | nil => intro i h; simp at h
  | cons b l ih =>
    intro i h
    rw [List.flatMap_cons]
    by_cases h8 : i < 8
    · rw [List.getElem?_append_left (by simpa using h8), Nat.div_eq_of_lt h8, Nat.mod_eq_of_lt h8]
      simp [h8]
    · rw [List.getElem?_append_right (by simp; omega)]
      simp only [List.length_map, List.length_range]
      rw [ih (i - 8) (by simp only [List.length_cons] at h; omega)]
      have e1 : i / 8 = (i - 8) / 8 + 1 := by omega
      have e2 : (i - 8) % 8 = i % 8 := by omega
      rw [e1, e2, List.getD_cons_succ]

theorem toLeBits_get (k : Nat) {i : Nat} (hi : i < 256) : (toLeBits k)[i]? = some (k.testBit i) := by
  unfold toLeBits CoreScalar.toBytes
  rw [flatMap_bits_get _ _ (by rw [MParams.leBytes_length]; omega)]
  rw [List.getD_eq_getElem?_getD, leBytes_get 32 k _ (by omega), Option.getD_some, UInt8.toNat_ofNat']
  congr 1
  rw [Nat.testBit_mod_two_pow]
  rw [show (256 : Nat) ^ (i / 8) = 2 ^ (8 * (i / 8)) by rw [pow_mul]; norm_num, Nat.testBit_div_two_pow]
  have : 8 * (i / 8) + i % 8 = i := by omega
  rw [show i % 8 + 8 * (i / 8) = i by omega]
  simp [Nat.mod_lt]

/-! ### `prep_bits` -/

theorem prepStep_length (w : Nat) (gs : List UInt8) (x : Bool × Nat) : (prepStep w gs x).length = gs.length := by
  simp [prepStep]

theorem shl_testBit (b : Bool) {s t : Nat} (hs : s < 8) :
    ((if b then 1 else 0 : UInt8) <<< UInt8.ofNat s).toNat.testBit t = (b && decide (t = s)) := by
  rw [UInt8.toNat_shiftLeft, UInt8.toNat_ofNat', Nat.mod_eq_of_lt (show s < 2 ^ 8 by omega), Nat.mod_eq_of_lt hs,
    Nat.testBit_mod_two_pow, Nat.testBit_shiftLeft]
  cases b
  · simp
  · by_cases h : t = s
    · subst h; simp [hs]
    · simp only [if_true, Bool.true_and, h, decide_false]
      by_cases h2 : s ≤ t
      · have : t - s ≠ 0 := by omega
        obtain ⟨m, hm⟩ := Nat.exists_eq_succ_of_ne_zero this
        rw [hm]
        simp [Nat.testBit_succ]
      · simp [h2]

/-- The entries after the first `n` bits. -/
def PrepInv (w k n : Nat) (gs : List UInt8) : Prop :=
  ∀ j, (h : j < gs.length) → ∀ t, gs[j].toNat.testBit t = (decide (t < w) && decide (w * j + t < n) && k.testBit (w * j + t))

theorem prep_inv {w : Nat} (hw : 0 < w) (hw8 : w ≤ 8) (k : Nat) {n : Nat} {gs : List UInt8} (h : PrepInv w k n gs) :
    PrepInv w k (n + 1) (prepStep w gs (k.testBit n, n)) := by
  intro j hj t
  rw [prepStep_length] at hj
  have hget : (prepStep w gs (k.testBit n, n))[j] = if n / w = j then
      gs[j] ||| ((if k.testBit n then 1 else 0 : UInt8) <<< UInt8.ofNat (n % w)) else gs[j] := by
    simp only [prepStep, List.getElem_modify]
  rw [hget]
  have hold := h j hj t
  have hm : n % w < w := Nat.mod_lt _ hw
  have hd := Nat.div_add_mod n w
  by_cases hjn : n / w = j
  · rw [if_pos hjn, UInt8.toNat_or, Nat.testBit_or, hold, shl_testBit _ (by omega)]
    subst hjn
    by_cases ht : t = n % w
    · subst ht
      simp [hm, hd]
    · by_cases htw : t < w
      · have e : (w * (n / w) + t < n + 1) ↔ (w * (n / w) + t < n) := by omega
        simp [ht, e]
      · simp [ht, htw]
  · rw [if_neg hjn, hold]
    by_cases htw : t < w
    · have e : (w * j + t < n + 1) ↔ (w * j + t < n) := by
        constructor
        · intro hlt
          by_contra hc
          have : n = w * j + t := by omega
          apply hjn
          rw [this, Nat.mul_add_div hw, Nat.div_eq_of_lt htw, add_zero]
        · intro; omega
      simp [e]
    · simp [htw]

theorem prep_fold {w : Nat} (hw : 0 < w) (hw8 : w ≤ 8) (k : Nat) : ∀ (bits : List Bool) (n : Nat) (gs : List UInt8),
    (∀ i (h : i < bits.length), bits[i] = k.testBit (n + i)) → PrepInv w k n gs →
    PrepInv w k (n + bits.length) ((bits.zipIdx n).foldl (prepStep w) gs) := by
  intro bits
  induction bits with
  | nil => intro n gs _ h; simpa using h
  | cons b bits ih =>
    intro n gs hb h
    rw [List.zipIdx_cons, List.foldl_cons]
    have h0 := hb 0 (by simp)
    simp only [List.getElem_cons_zero, Nat.add_zero] at h0
    rw [h0]
    have := ih (n + 1) _ (fun i hi => by
      have := hb (i + 1) (by simpa using hi)
      simp only [List.getElem_cons_succ] at this
      rw [this]; congr 1; omega) (prep_inv hw hw8 k h)
    rwa [List.length_cons, show n + (bits.length + 1) = n + 1 + bits.length by omega]

theorem prepBits_length (w k : Nat) : (prepBits w k).length = (256 + (w - 1)) / w := by
  unfold prepBits
  simp only
  rw [toLeBits_length]
  have : ∀ (l : List (Bool × Nat)) (gs : List UInt8), (l.foldl (prepStep w) gs).length = gs.length := by
    intro l
    induction l with
    | nil => intro gs; rfl
    | cons x l ih => intro gs; rw [List.foldl_cons, ih, prepStep_length]
  rw [this, List.length_replicate]

/-- The groups are the digits of the scalar in base `2^w`. -/
theorem prepBits_get {w : Nat} (hw : 0 < w) (hw8 : w ≤ 8) {k : Nat} (hk : k < 2 ^ 256) {j : Nat}
    (hj : j < (prepBits w k).length) : (prepBits w k)[j].toNat = k / 2 ^ (w * j) % 2 ^ w := by
  have h0 : PrepInv w k 0 (List.replicate ((256 + (w - 1)) / w) 0) := by
    intro j hj t
    simp
  have := prep_fold hw hw8 k (toLeBits k) 0 _ (fun i hi => by
    have h := toLeBits_get k (i := i) (by rwa [toLeBits_length] at hi)
    rw [List.getElem?_eq_getElem hi] at h
    rw [Nat.zero_add]
    exact Option.some.inj h) h0
  rw [Nat.zero_add, toLeBits_length] at this
  have key : PrepInv w k 256 (prepBits w k) := by
    unfold prepBits
    simp only
    rw [toLeBits_length]
    exact this
  apply Nat.eq_of_testBit_eq
  intro t
  rw [key j hj t, Nat.testBit_mod_two_pow, Nat.testBit_div_two_pow]
  by_cases h1 : w * j + t < 256
  · rw [Nat.add_comm t]
    simp [h1]
  · have : k.testBit (w * j + t) = false := Nat.testBit_lt_two_pow (lt_of_lt_of_le hk (Nat.pow_le_pow_right (by norm_num) (by omega)))
    rw [Nat.add_comm t, this]
    simp

/-! ### Multiplication -/

section group
variable {γ A : Type} [AddCommGroup A] {R : γ → A → Prop} {g : GOps γ}

/-- The operations are those of the group. -/
structure GRel (R : γ → A → Prop) (g : GOps γ) : Prop where
  identity : R g.identity 0
  add : ∀ {p q P Q}, R p P → R q Q → R (g.add p q) (P + Q)
  double : ∀ {p P}, R p P → R (g.double p) (P + P)

theorem getD_append_last {α : Type} (l : List α) (a d : α) (i : Nat) :
    (l ++ [a]).getD i d = if i < l.length then l.getD i d else if i = l.length then a else d := by
  simp only [List.getD_eq_getElem?_getD]
  split_ifs with h1 h2
  · rw [List.getElem?_append_left h1]
  · subst h2
    simp
  · rw [List.getElem?_eq_none (by simp; omega)]
    rfl

theorem mulTable_ok (h : GRel R g) {p : γ} {P : A} (hp : R p P) : ∀ n,
    (mulTable g p n).length = n ∧ ∀ i, i < n → R ((mulTable g p n).getD i g.identity) (i • P) := by
  intro n
  induction n with
  | zero => exact ⟨rfl, fun i hi => absurd hi (Nat.not_lt_zero _)⟩
  | succ n ih =>
    rcases n with _ | _ | n
    · refine ⟨rfl, fun i hi => ?_⟩
      obtain rfl : i = 0 := by omega
      rw [zero_nsmul]
      exact h.identity
    · refine ⟨rfl, fun i hi => ?_⟩
      rcases (by omega : i = 0 ∨ i = 1) with rfl | rfl
      · rw [zero_nsmul]
        exact h.identity
      · rw [one_nsmul]
        exact hp
    · obtain ⟨hl, hr⟩ := ih
      have e : mulTable g p (n + 2 + 1) = mulTable g p (n + 2) ++
          [if (n + 2) % 2 = 0 then g.double ((mulTable g p (n + 2)).getD ((n + 2) / 2) g.identity)
            else g.add ((mulTable g p (n + 2)).getD (n + 2 - 1) g.identity) p] := rfl
      rw [e]
      refine ⟨by simp [hl], fun i hi => ?_⟩
      rw [getD_append_last, hl]
      by_cases h1 : i < n + 2
      · rw [if_pos h1]
        exact hr i h1
      · obtain rfl : i = n + 2 := by omega
        rw [if_neg h1, if_pos rfl]
        split_ifs with hev
        · have := h.double (hr ((n + 2) / 2) (by omega))
          rw [← add_nsmul] at this
          rwa [show (n + 2) / 2 + (n + 2) / 2 = n + 2 by omega] at this
        · have := h.add (hr (n + 2 - 1) (by omega)) hp
          rw [← succ_nsmul] at this
          rwa [show n + 2 - 1 + 1 = n + 2 by omega] at this

theorem slotChoice_eq {s i : Nat} (hs : s < 16) (hi : i < 16) : slotChoice s i = decide (s = i) := by
  have : ∀ s < 16, ∀ i < 16, slotChoice s i = decide (s = i) := by decide +kernel
  exact this s hs i hi

theorem fold_choice {c : Nat → Bool} {t : Nat → γ} {d : γ} {slot : Nat} (hc : ∀ i < 16, c i = decide (slot = i)) :
    ∀ n ≤ 15, (List.range' 1 n).foldl (fun u i => if c i then t i else u) d =
      if slot ≠ 0 ∧ slot ≤ n then t slot else d := by
  intro n
  induction n with
  | zero =>
    intro _
    rw [if_neg (by omega)]
    rfl
  | succ n ih =>
    intro hn
    rw [List.range'_concat, List.foldl_append, ih (by omega), List.foldl_cons, List.foldl_nil, Nat.one_mul,
      hc (1 + n) (by omega)]
    by_cases h : slot = 1 + n
    · rw [decide_eq_true h, if_pos rfl, if_pos (by omega), h]
    · rw [decide_eq_false h, if_neg Bool.false_ne_true]
      by_cases h2 : slot ≠ 0 ∧ slot ≤ n
      · rw [if_pos h2, if_pos (by omega)]
      · rw [if_neg h2, if_neg (by omega)]

theorem select_eq {pc : List γ} {slot : Nat} (hs : slot < 16) :
    select g pc slot = if slot = 0 then g.identity else pc.getD slot g.identity := by
  have key := fold_choice (c := slotChoice slot) (t := fun i => pc.getD i g.identity) (d := g.identity)
    (fun i hi => slotChoice_eq hs hi) 15 le_rfl
  refine key.trans ?_
  by_cases h : slot = 0
  · rw [if_neg (by omega), if_pos h]
  · rw [if_pos (by omega), if_neg h]

theorem mulLoop_ok (h : GRel R g) {pc : List γ} {P : A}
    (hpc : ∀ i, i < 16 → R (pc.getD i g.identity) (i • P)) (k : Nat) : ∀ j < 64, ∀ q,
    R q ((16 * (k / 16 ^ (j + 1))) • P) → R (mulLoop g pc (CoreScalar.toBytes k) j q) (k • P) := by
  have hsel : ∀ j < 64, R (select g pc (slotAt (CoreScalar.toBytes k) j)) ((k / 16 ^ j % 16) • P) := by
    intro j hj
    rw [slotAt_eq k hj, select_eq (Nat.mod_lt _ (by norm_num))]
    split_ifs with h0
    · rw [h0, zero_nsmul]
      exact h.identity
    · exact hpc _ (Nat.mod_lt _ (by norm_num))
  have hdig : ∀ j, 16 * (k / 16 ^ (j + 1)) + k / 16 ^ j % 16 = k / 16 ^ j := by
    intro j
    rw [pow_succ, ← Nat.div_div_eq_div_mul]
    exact Nat.div_add_mod _ _
  intro j
  induction j with
  | zero =>
    intro hj q hq
    have := h.add hq (hsel 0 hj)
    rw [← add_nsmul, hdig, pow_zero, Nat.div_one] at this
    exact this
  | succ j ih =>
    intro hj q hq
    have h1 := h.add hq (hsel (j + 1) hj)
    rw [← add_nsmul, hdig] at h1
    have h2 := h.double (h.double (h.double (h.double h1)))
    refine ih (by omega) _ ?_
    convert h2 using 1
    simp only [← add_nsmul]
    congr 1
    omega

/-- Multiplication by a scalar. -/
theorem mulPoint_ok (h : GRel R g) {p : γ} {P : A} (hp : R p P) {k : Nat} (hk : k < 2 ^ 256) :
    R (mulPoint g p k) (k • P) := by
  have ht := (mulTable_ok h hp 16).2
  unfold mulPoint
  generalize mulTable g p 16 = pc at ht ⊢
  refine mulLoop_ok h ht k 63 (by norm_num) _ ?_
  have h0 : k / 16 ^ (63 + 1) = 0 := Nat.div_eq_of_lt (lt_of_lt_of_le hk (by norm_num))
  rw [h0, mul_zero, zero_nsmul]
  exact h.identity

/-! ### Sums of multiples -/

theorem doubles_ok (h : GRel R g) {r : γ} {S : A} (hr : R r S) (w : Nat) : R (doubles g r w) ((2 ^ w) • S) := by
  unfold doubles
  induction w with
  | zero => rw [pow_zero, one_nsmul]; exact hr
  | succ w ih =>
    rw [Function.iterate_succ_apply', pow_succ, mul_nsmul, two_nsmul]
    exact h.double ih

theorem prepTable_succ (p : γ) (n : Nat) : prepTable g p (n + 2) = prepTable g p (n + 1) ++
    [g.add ((prepTable g p (n + 1)).getLastD g.identity) p] := by
  rw [prepTable]
  simp

theorem prepTable_ok (h : GRel R g) {p : γ} {P : A} (hp : R p P) : ∀ n,
    (prepTable g p n).length = n ∧ ∀ i < n, ∃ q, (prepTable g p n)[i]? = some q ∧ R q (i • P) := by
  intro n
  induction n with
  | zero => exact ⟨rfl, fun i hi => absurd hi (Nat.not_lt_zero _)⟩
  | succ n ih =>
    rcases n with _ | n
    · refine ⟨rfl, fun i hi => ⟨g.identity, ?_⟩⟩
      obtain rfl : i = 0 := by omega
      rw [zero_nsmul]
      exact ⟨rfl, h.identity⟩
    · obtain ⟨hl, hr⟩ := ih
      obtain ⟨q, hq, hqR⟩ := hr n (by omega)
      rw [prepTable_succ]
      generalize prepTable g p (n + 1) = t at hl hr hq ⊢
      refine ⟨by simp [hl], fun i hi => ?_⟩
      by_cases h1 : i < n + 1
      · rw [List.getElem?_append_left (by omega)]
        exact hr i h1
      · obtain rfl : i = n + 1 := by omega
        have hlast : t.getLastD g.identity = q := by
          rw [List.getLastD_eq_getLast?, List.getLast?_eq_getElem?, hl, Nat.add_sub_cancel, hq]
          rfl
        refine ⟨g.add q p, ?_, ?_⟩
        · rw [List.getElem?_append_right (by omega), hl, Nat.sub_self, hlast]
          rfl
        · rw [succ_nsmul]
          exact h.add hqR hp

/-- The sum of the multiples. -/
def sumOf (l : List (Nat × A)) : A := (l.map fun kP => kP.1 • kP.2).sum

/-- The sum of the multiples by the quotients. -/
def sumQuot (c : Nat) (l : List (Nat × A)) : A := (l.map fun kP => (kP.1 / c) • kP.2).sum

/-- The sum of the multiples by the digits. -/
def sumDig (c m : Nat) (l : List (Nat × A)) : A := (l.map fun kP => (kP.1 / c % m) • kP.2).sum

theorem sumQuot_step (c m : Nat) (l : List (Nat × A)) :
    m • sumQuot (c * m) l + sumDig c m l = sumQuot c l := by
  induction l with
  | nil => simp [sumQuot, sumDig]
  | cons x l ih =>
    have e : (x.1 / c) • x.2 = m • ((x.1 / (c * m)) • x.2) + (x.1 / c % m) • x.2 := by
      rw [← mul_nsmul', ← add_nsmul, ← Nat.div_div_eq_div_mul, Nat.div_add_mod]
    simp only [sumQuot, sumDig, List.map_cons, List.sum_cons] at ih ⊢
    rw [e, nsmul_add, ← ih]
    abel

theorem sumQuot_one (l : List (Nat × A)) : sumQuot 1 l = sumOf l := by
  simp [sumQuot, sumOf]

theorem sumQuot_big {c : Nat} {l : List (Nat × A)} (h : ∀ x ∈ l, x.1 < c) : sumQuot c l = 0 := by
  unfold sumQuot
  apply List.sum_eq_zero
  intro y hy
  obtain ⟨x, hx, rfl⟩ := List.mem_map.mp hy
  rw [Nat.div_eq_of_lt (h x hx), zero_nsmul]

/-- Pairs of scalars and points, and what they stand for. -/
def Pairs (R : γ → A → Prop) (pairs : List (Nat × γ)) (l : List (Nat × A)) : Prop :=
  List.Forall₂ (fun kp kP => kp.1 = kP.1 ∧ R kp.2 kP.2 ∧ kp.1 < 2 ^ 256) pairs l

omit [AddCommGroup A] in
theorem Pairs.lt {pairs : List (Nat × γ)} {l : List (Nat × A)} (h : Pairs R pairs l) : ∀ x ∈ l, x.1 < 2 ^ 256 := by
  induction h with
  | nil => intro x hx; simp at hx
  | cons h1 _ ih =>
    intro x hx
    rcases List.mem_cons.mp hx with rfl | hx
    · rw [← h1.1]; exact h1.2.2
    · exact ih x hx

theorem digit_get {w : Nat} (hw : 0 < w) (hw8 : w ≤ 8) {k : Nat} (hk : k < 2 ^ 256) {b : Nat}
    (hb : b < (256 + (w - 1)) / w) :
    ∃ d : UInt8, idx (prepBits w k) b = .ok d ∧ d.toNat = k / 2 ^ (w * b) % 2 ^ w := by
  have hl : b < (prepBits w k).length := by rwa [prepBits_length]
  refine ⟨_, ?_, prepBits_get hw hw8 hk hl⟩
  unfold idx
  rw [List.getElem?_eq_getElem hl]

theorem strausRound_ok (h : GRel R g) {w : Nat} (hw : 0 < w) (hw8 : w ≤ 8) {b : Nat} (hb : b < (256 + (w - 1)) / w)
    {pairs : List (Nat × γ)} {l : List (Nat × A)} (hp : Pairs R pairs l) {res : γ} {S : A} (hr : R res S) :
    ∃ r, strausRound g w (pairs.map fun kp => prepBits w kp.1) (pairs.map fun kp => prepTable g kp.2 (2 ^ w)) b res =
      .ok r ∧ R r ((2 ^ w) • S + sumDig (2 ^ (w * b)) (2 ^ w) l) := by
  unfold strausRound
  have hd := doubles_ok h hr w
  generalize doubles g res w = r0 at hd ⊢
  generalize (2 ^ w) • S = T at hd ⊢
  induction hp generalizing r0 T with
  | nil => exact ⟨r0, rfl, by simpa [sumDig] using hd⟩
  | @cons kp kP pairs l h1 _ ih =>
    obtain ⟨e, hR, hk⟩ := h1
    obtain ⟨d, hd1, hd2⟩ := digit_get hw hw8 hk hb
    obtain ⟨q, hq, hqR⟩ := (prepTable_ok h hR (2 ^ w)).2 d.toNat (by rw [hd2]; exact Nat.mod_lt _ (by positivity))
    have hidx : idx (prepTable g kp.2 (2 ^ w)) d.toNat = .ok q := by
      unfold idx
      rw [hq]
    obtain ⟨r, hr1, hr2⟩ := ih (g.add r0 q) _ (h.add hd hqR)
    refine ⟨r, ?_, ?_⟩
    · rw [List.map_cons, List.map_cons, List.zip_cons_cons, List.foldlM_cons]
      simp only
      rw [hd1, ok_bind, hidx, ok_bind]
      exact hr1
    · rw [hd2, e] at hr2
      convert hr2 using 1
      simp only [sumDig, List.map_cons, List.sum_cons]
      abel

theorem strausLoop_ok (h : GRel R g) {w : Nat} (hw : 0 < w) (hw8 : w ≤ 8) {pairs : List (Nat × γ)}
    {l : List (Nat × A)} (hp : Pairs R pairs l) : ∀ n ≤ (256 + (w - 1)) / w, ∀ res, R res (sumQuot (2 ^ (w * n)) l) →
    ∃ r, strausLoop g w (pairs.map fun kp => prepBits w kp.1) (pairs.map fun kp => prepTable g kp.2 (2 ^ w)) n res =
      .ok r ∧ R r (sumOf l) := by
  intro n
  induction n with
  | zero =>
    intro _ res hr
    refine ⟨res, rfl, ?_⟩
    rwa [Nat.mul_zero, pow_zero, sumQuot_one] at hr
  | succ n ih =>
    intro hn res hr
    obtain ⟨r, e, hr'⟩ := strausRound_ok h hw hw8 (b := n) (by omega) hp hr
    rw [Nat.mul_succ, pow_add, sumQuot_step] at hr'
    obtain ⟨r2, e2, h2⟩ := ih (by omega) r hr'
    refine ⟨r2, ?_, h2⟩
    rw [strausLoop, e, ok_bind]
    exact e2

theorem top_zero {w : Nat} (hw : 0 < w) {pairs : List (Nat × γ)} {l : List (Nat × A)} (hp : Pairs R pairs l) :
    sumQuot (2 ^ (w * ((256 + (w - 1)) / w))) l = 0 := by
  refine sumQuot_big fun x hx => lt_of_lt_of_le (hp.lt x hx) (Nat.pow_le_pow_right (by norm_num) ?_)
  have h1 := Nat.div_add_mod (256 + (w - 1)) w
  have h2 := Nat.mod_lt (256 + (w - 1)) hw
  omega

theorem straus_ok (h : GRel R g) {w : Nat} (hw : 0 < w) (hw8 : w ≤ 8) {pairs : List (Nat × γ)}
    {l : List (Nat × A)} (hp : Pairs R pairs l) (hne : pairs ≠ []) :
    ∃ r, straus g pairs w = .ok r ∧ R r (sumOf l) := by
  obtain ⟨kp, rest, rfl⟩ := List.exists_cons_of_ne_nil hne
  obtain ⟨r, e, hr⟩ := strausLoop_ok h hw hw8 hp _ le_rfl g.identity (by rw [top_zero hw hp]; exact h.identity)
  refine ⟨r, ?_, hr⟩
  have e0 : idx ((kp :: rest).map fun kp => prepBits w kp.1) 0 = .ok (prepBits w kp.1) := rfl
  unfold straus
  simp only
  rw [e0, ok_bind, prepBits_length]
  exact e

/-! ### Pippenger's algorithm -/

/-- The buckets hold the elements `B`. -/
def Buckets (R : γ → A → Prop) (m : Nat) (bs : List γ) (B : Nat → A) : Prop :=
  bs.length = m ∧ ∀ i < m, ∃ q, bs[i]? = some q ∧ R q (B i)

/-- The sums of the points with a given digit. -/
def bucketSum (c m : Nat) (l : List (Nat × A)) (i : Nat) : A :=
  (l.map fun kP => if kP.1 / c % m = i then kP.2 else 0).sum

theorem buckets_ok (h : GRel R g) {w : Nat} (hw : 0 < w) (hw8 : w ≤ 8) {n : Nat} (hn : n < (256 + (w - 1)) / w)
    {pairs : List (Nat × γ)} {l : List (Nat × A)} (hp : Pairs R pairs l) : ∀ (bs : List γ) (B : Nat → A),
    Buckets R (2 ^ w) bs B →
    ∃ bs', (pairs.map fun kp => (prepBits w kp.1, kp.2)).foldlM (bucketStep g n) bs = .ok bs' ∧
      Buckets R (2 ^ w) bs' (fun i => B i + bucketSum (2 ^ (w * n)) (2 ^ w) l i) := by
  induction hp with
  | nil =>
    intro bs B hB
    exact ⟨bs, rfl, by simpa [bucketSum] using hB⟩
  | @cons kp kP pairs l h1 _ ih =>
    intro bs B hB
    obtain ⟨e, hR, hk⟩ := h1
    obtain ⟨d, hd1, hd2⟩ := digit_get hw hw8 hk hn
    have hdlt : d.toNat < 2 ^ w := by rw [hd2]; exact Nat.mod_lt _ (by positivity)
    obtain ⟨q, hq, hqR⟩ := hB.2 d.toNat hdlt
    have hidx : idx bs d.toNat = .ok q := by
      unfold idx
      rw [hq]
    have hB' : Buckets R (2 ^ w) (bs.set d.toNat (g.add q kp.2))
        (fun i => B i + if d.toNat = i then kP.2 else 0) := by
      refine ⟨by rw [List.length_set]; exact hB.1, fun i hi => ?_⟩
      by_cases hdi : d.toNat = i
      · subst hdi
        refine ⟨g.add q kp.2, ?_, ?_⟩
        · rw [List.getElem?_set_self (by rw [hB.1]; exact hi)]
        · simp only [if_true]
          exact h.add hqR hR
      · obtain ⟨q', hq', hqR'⟩ := hB.2 i hi
        refine ⟨q', ?_, ?_⟩
        · rw [List.getElem?_set_ne hdi]
          exact hq'
        · simp only [if_neg hdi, add_zero]
          exact hqR'
    obtain ⟨bs', e', hbs'⟩ := ih _ _ hB'
    refine ⟨bs', ?_, ?_⟩
    · rw [List.map_cons, List.foldlM_cons]
      have : bucketStep g n bs (prepBits w kp.1, kp.2) = .ok (bs.set d.toNat (g.add q kp.2)) := by
        unfold bucketStep
        simp only
        rw [hd1, ok_bind, hidx, ok_bind]
        rfl
      rw [this, ok_bind]
      exact e'
    · convert hbs' using 2 with i
      rw [hd2, e]
      simp only [bucketSum, List.map_cons, List.sum_cons]
      rw [add_assoc]

theorem running_ok (h : GRel R g) {r0 : γ} {T : A} (h0 : R r0 T) : ∀ (bs : List γ) (B : Nat → A),
    (∀ i < bs.length, ∃ q, bs[i]? = some q ∧ R q (B i)) →
    R (bs.foldr (fun b (s : γ × γ) => (g.add s.1 b, g.add s.2 (g.add s.1 b))) (g.identity, r0)).1
        (∑ i ∈ Finset.range bs.length, B i) ∧
      R (bs.foldr (fun b (s : γ × γ) => (g.add s.1 b, g.add s.2 (g.add s.1 b))) (g.identity, r0)).2
        (T + ∑ i ∈ Finset.range bs.length, (i + 1) • B i) := by
  intro bs
  induction bs with
  | nil =>
    intro B _
    simp only [List.foldr_nil, List.length_nil, Finset.range_zero, Finset.sum_empty, add_zero]
    exact ⟨h.identity, h0⟩
  | cons b bs ih =>
    intro B hB
    obtain ⟨i1, i2⟩ := ih (fun i => B (i + 1)) fun i hi => by
      have := hB (i + 1) (by simpa using hi)
      rwa [List.getElem?_cons_succ] at this
    obtain ⟨q, hq, hqR⟩ := hB 0 (by simp)
    obtain rfl : b = q := by simpa using hq
    rw [List.foldr_cons, List.length_cons, Finset.sum_range_succ', Finset.sum_range_succ']
    have hs := h.add i1 hqR
    refine ⟨hs, ?_⟩
    have := h.add i2 hs
    convert this using 1
    have e : ∑ k ∈ Finset.range bs.length, (k + 1 + 1) • B (k + 1) =
        ∑ k ∈ Finset.range bs.length, (k + 1) • B (k + 1) + ∑ k ∈ Finset.range bs.length, B (k + 1) := by
      rw [← Finset.sum_add_distrib]
      exact Finset.sum_congr rfl fun k _ => succ_nsmul _ _
    rw [e, Nat.zero_add, one_nsmul]
    abel

theorem sum_buckets (c : Nat) {m : Nat} (hm : 0 < m) (l : List (Nat × A)) :
    ∑ i ∈ Finset.range m, i • bucketSum c m l i = sumDig c m l := by
  induction l with
  | nil => simp [bucketSum, sumDig]
  | cons x l ih =>
    have e : ∀ i, i • bucketSum c m (x :: l) i = (if x.1 / c % m = i then i • x.2 else 0) + i • bucketSum c m l i := by
      intro i
      simp only [bucketSum, List.map_cons, List.sum_cons, nsmul_add]
      split_ifs
      · rfl
      · rw [nsmul_zero]
    rw [Finset.sum_congr rfl fun i _ => e i, Finset.sum_add_distrib, ih, Finset.sum_ite_eq,
      if_pos (Finset.mem_range.mpr (Nat.mod_lt _ hm))]
    simp [sumDig]

theorem pippengerRound_ok (h : GRel R g) {w : Nat} (hw : 0 < w) (hw8 : w ≤ 8) {n : Nat}
    (hn : n < (256 + (w - 1)) / w) {pairs : List (Nat × γ)} {l : List (Nat × A)} (hp : Pairs R pairs l) {res : γ} {S : A}
    (hr : R res S) :
    ∃ r, pippengerRound g w (pairs.map fun kp => (prepBits w kp.1, kp.2)) n res = .ok r ∧
      R r ((2 ^ w) • S + sumDig (2 ^ (w * n)) (2 ^ w) l) := by
  obtain ⟨bs, e, hB⟩ := buckets_ok h hw hw8 hn hp (List.replicate (2 ^ w) g.identity) (fun _ => 0)
    ⟨List.length_replicate, fun i hi => ⟨g.identity, by rw [List.getElem?_replicate, if_pos hi], h.identity⟩⟩
  have hm : 0 < 2 ^ w := by positivity
  obtain ⟨hl, hB⟩ := hB
  obtain ⟨b0, bs, rfl⟩ := List.exists_cons_of_length_pos (by rw [hl]; exact hm : 0 < bs.length)
  have hrun := (running_ok h (doubles_ok h hr w) bs (fun i => bucketSum (2 ^ (w * n)) (2 ^ w) l (i + 1)) (fun i hi => by
    obtain ⟨q, h1, h2⟩ := hB (i + 1) (by rw [← hl, List.length_cons]; omega)
    rw [List.getElem?_cons_succ] at h1
    exact ⟨q, h1, by simpa using h2⟩)).2
  refine ⟨(bs.foldr (fun b (s : γ × γ) => (g.add s.1 b, g.add s.2 (g.add s.1 b))) (g.identity, doubles g res w)).2, ?_, ?_⟩
  rotate_left
  · convert hrun using 2
    rw [← sum_buckets _ hm]
    rw [show 2 ^ w = bs.length + 1 by rw [← hl, List.length_cons], Finset.sum_range_succ', zero_nsmul, add_zero]
  · unfold pippengerRound
    rw [e, ok_bind]
    rfl

theorem pippengerLoop_ok (h : GRel R g) {w : Nat} (hw : 0 < w) (hw8 : w ≤ 8) {pairs : List (Nat × γ)}
    {l : List (Nat × A)} (hp : Pairs R pairs l) : ∀ n ≤ (256 + (w - 1)) / w, ∀ res, R res (sumQuot (2 ^ (w * n)) l) →
    ∃ r, pippengerLoop g w (pairs.map fun kp => (prepBits w kp.1, kp.2)) n res = .ok r ∧ R r (sumOf l) := by
  intro n
  induction n with
  | zero =>
    intro _ res hr
    refine ⟨res, rfl, ?_⟩
    rwa [Nat.mul_zero, pow_zero, sumQuot_one] at hr
  | succ n ih =>
    intro hn res hr
    obtain ⟨r, e, hr'⟩ := pippengerRound_ok h hw hw8 (n := n) (by omega) hp hr
    rw [Nat.mul_succ, pow_add, sumQuot_step] at hr'
    obtain ⟨r2, e2, h2⟩ := ih (by omega) r hr'
    refine ⟨r2, ?_, h2⟩
    rw [pippengerLoop, e, ok_bind]
    exact e2

theorem pippenger_ok (h : GRel R g) {w : Nat} (hw : 0 < w) (hw8 : w ≤ 8) {pairs : List (Nat × γ)}
    {l : List (Nat × A)} (hp : Pairs R pairs l) (hne : pairs ≠ []) :
    ∃ r, pippenger g pairs w = .ok r ∧ R r (sumOf l) := by
  obtain ⟨kp, rest, rfl⟩ := List.exists_cons_of_ne_nil hne
  obtain ⟨r, e, hr⟩ := pippengerLoop_ok h hw hw8 hp _ le_rfl g.identity (by rw [top_zero hw hp]; exact h.identity)
  refine ⟨r, ?_, hr⟩
  have e0 : idx ((kp :: rest).map fun kp => (prepBits w kp.1, kp.2)) 0 = .ok (prepBits w kp.1, kp.2) := rfl
  unfold pippenger
  simp only
  rw [e0, ok_bind, prepBits_length]
  exact e

/-- The algorithms that are chosen have windows of one to eight bits, and pairs to work on. -/
def Algorithm.Ok (len : Nat) : Algorithm → Prop
  | .null => len = 0
  | .single => len = 1
  | .straus w => 0 < w ∧ w ≤ 8 ∧ 0 < len
  | .pippenger w => 0 < w ∧ w ≤ 8 ∧ 0 < len

theorem algorithm_ok (debug : Bool) (len : Nat) : (algorithm debug len).Ok len := by
  unfold algorithm
  split_ifs <;> simp only [Algorithm.Ok] <;> omega

/-- `multiexp` computes the sum of the multiples, whatever algorithm it picks. -/
theorem multiexp_ok (h : GRel R g) (debug : Bool) {pairs : List (Nat × γ)} {l : List (Nat × A)} (hp : Pairs R pairs l) :
    ∃ r, multiexp g debug pairs = .ok r ∧ R r (sumOf l) := by
  have ha := algorithm_ok debug pairs.length
  unfold multiexp
  generalize algorithm debug pairs.length = a at ha ⊢
  have hne : 0 < pairs.length → pairs ≠ [] := fun h => List.ne_nil_of_length_pos h
  cases a with
  | null =>
    obtain rfl := List.length_eq_zero_iff.mp ha
    cases hp
    exact ⟨g.identity, rfl, by simpa [sumOf] using h.identity⟩
  | single =>
    obtain ⟨kp, rfl⟩ := List.length_eq_one_iff.mp ha
    cases hp with
    | @cons _ kP _ _ h1 h2 =>
      cases h2
      refine ⟨mulPoint g kp.2 kp.1, rfl, ?_⟩
      have := mulPoint_ok h h1.2.1 h1.2.2
      rw [h1.1] at this ⊢
      simpa [sumOf] using this
  | straus w => exact straus_ok h ha.1 ha.2.1 hp (hne ha.2.2)
  | pippenger w => exact pippenger_ok h ha.1 ha.2.1 hp (hne ha.2.2)

end group

end Spartan.Pt
