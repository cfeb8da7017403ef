import Verif.Lemmas.Sumcheck
import Verif.Spec.Sumcheck
import Mathlib.Algebra.Polynomial.Roots
import Mathlib.Algebra.Polynomial.BigOperators
import Mathlib.Data.Fintype.BigOperators
import Mathlib.Tactic.Linarith

/-! Soundness lemmas for the sum-check verifier. -/

set_option linter.unusedSectionVars false

namespace Spartan
open Spec Polynomial
variable {F G P : Type} [Field F] [AddCommGroup G] [Module F G]
  [DecidableEq F] [DecidableEq P] [DecidableEq G]

theorem bind_ok {α β : Type} {x : Out α} {f : α → Out β} {b : β} (h : (x >>= f) = .ok b) :
    ∃ a, x = .ok a ∧ f a = .ok b := by
  cases x with
  | error e => cases h
  | ok a => exact ⟨a, rfl, h⟩

theorem check_ok {b : Prop} {_ : Decidable b} {u : Unit} (h : check b = .ok u) : b := by
  by_contra hb
  rw [check_false hb] at h; cases h

/-- The polynomial (coefficient list) a message stands for, given the current claim. -/
def sentPoly (cp : CompressedUniPoly F) (e : F) : List F :=
  match cp.decompress e with
  | .ok p => p.coeffs
  | .error _ => []

theorem decompress_cases {cp : CompressedUniPoly F} {e : F} {p : UniPoly F}
    (h : cp.decompress e = .ok p) : p.coeffs = sentPoly cp e ∧ p.coeffs.length = cp.coeffs.length + 1 := by
  refine ⟨by simp [sentPoly, h], ?_⟩
  unfold CompressedUniPoly.decompress at h
  cases hc : cp.coeffs with
  | nil => rw [hc] at h; cases h
  | cons c cs => rw [hc] at h; cases h; simp

theorem scVerifyRound_ok {E : Env F G P} {d : Nat} {cp : CompressedUniPoly F} {e r e' : F}
    {tr tr' : Tr F P} (h : scVerifyRound E d cp e tr = .ok (r, e', tr')) :
    (sentPoly cp e).length = d + 1 ∧ cp.coeffs.length = d ∧
      polyEval (sentPoly cp e) 0 + polyEval (sentPoly cp e) 1 = e ∧
      tr' = (⟨sentPoly cp e⟩ : UniPoly F).append "poly" tr ++ [.chal "challenge_nextround"] ∧
      r = E.hash tr' ∧ e' = polyEval (sentPoly cp e) r := by
  unfold scVerifyRound at h
  obtain ⟨p, hp, ha⟩ := bind_ok h
  obtain ⟨k, hk, hb⟩ := bind_ok ha
  obtain ⟨_, hd, hc⟩ := bind_ok hb
  obtain ⟨e0, he0, hdd⟩ := bind_ok hc
  obtain ⟨_, hs, hf⟩ := bind_ok hdd
  clear h ha hb hc hdd
  obtain ⟨hc, hl⟩ := decompress_cases hp
  have hd := check_ok hd
  have hs := check_ok hs
  have hne : p.coeffs ≠ [] := by intro h0; rw [h0] at hl; simp at hl
  obtain ⟨h0, h1⟩ := uniEval_zero_one p hne
  have hev := uniEvaluate_correct p hne
  unfold UniPoly.degree at hk
  obtain ⟨_, _, hk⟩ := bind_ok hk
  cases hk
  rw [h0] at he0; cases he0
  rw [h1] at hs
  simp only [Env.challenge] at hf
  rw [hev, ok_bind] at hf
  cases hf
  rw [← hc]
  exact ⟨by omega, by omega, hs, by cases p; rfl, rfl, rfl⟩

theorem scVerifyLoop_cons_ok {E : Env F G P} {d : Nat} {cp : CompressedUniPoly F}
    {cps : List (CompressedUniPoly F)} {e e' : F} {rs : List F} {tr tr' : Tr F P}
    (h : scVerifyLoop E d (cp :: cps) e tr = .ok (e', rs, tr')) :
    ∃ r e1 tr1 rs', rs = r :: rs' ∧ scVerifyRound E d cp e tr = .ok (r, e1, tr1) ∧
      scVerifyLoop E d cps e1 tr1 = .ok (e', rs', tr') := by
  unfold scVerifyLoop at h
  obtain ⟨⟨r, e1, tr1⟩, h1, h⟩ := bind_ok h
  obtain ⟨⟨e2, rs', tr2⟩, h2, h⟩ := bind_ok h
  cases h
  exact ⟨r, e1, tr1, rs', rfl, h1, h2⟩

theorem scVerifyLoop_prefix {E : Env F G P} {d : Nat} : ∀ {cps : List (CompressedUniPoly F)}
    {e e' : F} {rs : List F} {tr tr' : Tr F P}, scVerifyLoop E d cps e tr = .ok (e', rs, tr') →
    tr <+: tr' ∧ rs.length = cps.length
  | [], _, _, _, _, _, h => by cases h; exact ⟨List.prefix_refl _, rfl⟩
  | cp :: cps, e, e', rs, tr, tr', h => by
    obtain ⟨r, e1, tr1, rs', rfl, h1, h2⟩ := scVerifyLoop_cons_ok h
    obtain ⟨hp, hl⟩ := scVerifyLoop_prefix h2
    obtain ⟨-, -, -, ht, -, -⟩ := scVerifyRound_ok h1
    refine ⟨?_, by simp [hl]⟩
    refine List.IsPrefix.trans ?_ hp
    rw [ht]
    exact (append_prefix _ _ _).trans (List.prefix_append _ _)

/-! ### Partial sums -/

theorem boolPoint_succ_lo {k i : Nat} (h : i < 2 ^ k) :
    (boolPoint (k + 1) i : List F) = 0 :: boolPoint k i := by
  unfold boolPoint
  rw [List.range_succ_eq_map, List.map_cons, List.map_map]
  congr 1
  · unfold bitBE
    rw [show k + 1 - 1 - 0 = k from rfl, Nat.testBit_lt_two_pow h]; rfl
  · apply List.map_congr_left
    intro j hj
    have e : bitBE (k + 1) i j.succ = bitBE k i j := by
      unfold bitBE; rw [show k + 1 - 1 - j.succ = k - 1 - j by omega]
    simp only [Function.comp, e]

theorem boolPoint_succ_hi {k i : Nat} (h : i < 2 ^ k) :
    (boolPoint (k + 1) (2 ^ k + i) : List F) = 1 :: boolPoint k i := by
  unfold boolPoint
  rw [List.range_succ_eq_map, List.map_cons, List.map_map]
  congr 1
  · unfold bitBE
    rw [show k + 1 - 1 - 0 = k from rfl, Nat.testBit_two_pow_add_eq, Nat.testBit_lt_two_pow h]; rfl
  · apply List.map_congr_left
    intro j hj
    rw [List.mem_range] at hj
    have e : bitBE (k + 1) (2 ^ k + i) j.succ = bitBE k i j := by
      unfold bitBE
      rw [show k + 1 - 1 - j.succ = k - 1 - j by omega, Nat.testBit_two_pow_add_gt (by omega)]
    simp only [Function.comp, e]

theorem cubeSum_succ (k : Nat) (f : List F → F) (pre : List F) :
    cubeSum (k + 1) f pre = cubeSum k f (pre ++ [0]) + cubeSum k f (pre ++ [1]) := by
  unfold cubeSum
  rw [pow_succ, mul_two, Finset.sum_range_add]
  congr 1
  · apply Finset.sum_congr rfl
    intro i hi
    rw [boolPoint_succ_lo (Finset.mem_range.1 hi)]; simp
  · apply Finset.sum_congr rfl
    intro i hi
    rw [boolPoint_succ_hi (Finset.mem_range.1 hi)]; simp

theorem cubeSum_cons (k : Nat) (f : List F → F) (r : F) (pre : List F) :
    cubeSum k (fun l => f (r :: l)) pre = cubeSum k f (r :: pre) := by
  simp [cubeSum]

@[simp] theorem boolPoint_len (k i : Nat) : (boolPoint k i : List F).length = k := by
  simp [boolPoint]

theorem indivDegree_cons {n d : Nat} {f : List F → F} (h : IndivDegree (n + 1) d f) (r : F) :
    IndivDegree n d (fun l => f (r :: l)) := fun pre post hl => by
  have := h (r :: pre) post (by simp; omega)
  simpa using this

theorem exists_partial {n d : Nat} {f : List F → F} (h : IndivDegree (n + 1) d f) :
    ∃ q : F[X], q.natDegree ≤ d ∧ ∀ x, q.eval x = cubeSum n f [x] := by
  have : ∀ i, ∃ q : F[X], q.natDegree ≤ d ∧ ∀ x, f (x :: boolPoint n i) = q.eval x := fun i => by
    simpa using h [] (boolPoint n i) (by simp; omega)
  choose q hq he using this
  refine ⟨∑ i ∈ Finset.range (2 ^ n), q i, ?_, fun x => ?_⟩
  · exact natDegree_sum_le_of_forall_le _ _ fun i _ => hq i
  · rw [eval_finsetSum]
    simp [cubeSum, he]

/-- A coefficient list as a polynomial. -/
theorem exists_poly_of_list (cs : List F) {d : Nat} (h : cs.length = d + 1) :
    ∃ q : F[X], q.natDegree ≤ d ∧ ∀ x, q.eval x = polyEval cs x := by
  refine ⟨∑ i ∈ Finset.range cs.length, C (cs.getD i 0) * X ^ i, ?_, fun x => ?_⟩
  · apply natDegree_sum_le_of_forall_le
    intro i hi
    rw [Finset.mem_range] at hi
    exact (natDegree_C_mul_X_pow_le _ _).trans (by omega)
  · rw [eval_finsetSum]; simp [polyEval]

/-- The difference between the polynomial sent in a round and the true one. -/
theorem exists_diff {n d : Nat} {f : List F → F} (h : IndivDegree (n + 1) d f) {cs : List F}
    (hl : cs.length = d + 1) {e : F} (he : polyEval cs 0 + polyEval cs 1 = e)
    (hne : e ≠ cubeSum (n + 1) f []) :
    ∃ q : F[X], q ≠ 0 ∧ q.natDegree ≤ d ∧ ∀ x, q.eval x = polyEval cs x - cubeSum n f [x] := by
  obtain ⟨p, hp, hpe⟩ := exists_poly_of_list cs hl
  obtain ⟨s, hs, hse⟩ := exists_partial h
  refine ⟨p - s, ?_, (natDegree_sub_le _ _).trans (max_le hp hs), fun x => by simp [hpe, hse]⟩
  intro h0
  apply hne
  rw [cubeSum_succ, ← he]
  have : ∀ x, polyEval cs x = cubeSum n f [x] := fun x => by
    rw [← hpe, ← hse, sub_eq_zero.1 h0]
  simp [this]

theorem cubeSum_zero (f : List F → F) (pre : List F) : cubeSum 0 f pre = f pre := by
  simp [cubeSum, boolPoint]

/-! ### Coin view -/

/-- Verification seen by a prover strategy `σ` (next message from the challenges so far) with
challenges `rs`: every round has degree `d` and matches its claim, and the last claim is `f`. -/
def CoinAcc (d : Nat) : (List F → CompressedUniPoly F) → F → (List F → F) → List F → Prop
  | _, e, f, [] => e = f []
  | σ, e, f, r :: rs => (sentPoly (σ []) e).length = d + 1 ∧
      polyEval (sentPoly (σ []) e) 0 + polyEval (sentPoly (σ []) e) 1 = e ∧
      CoinAcc d (fun l => σ (r :: l)) (polyEval (sentPoly (σ []) e) r) (fun l => f (r :: l)) rs

theorem coinAcc_of_loop {E : Env F G P} {d : Nat} : ∀ (rs : List F) (σ : List F → CompressedUniPoly F)
    (e : F) (f : List F → F) (tr tr' : Tr F P),
    scVerifyLoop E d ((List.range rs.length).map fun i => σ (rs.take i)) e tr = .ok (f rs, rs, tr') →
    CoinAcc d σ e f rs
  | [], σ, e, f, tr, tr', h => by
    simp only [List.length_nil, List.range_zero, List.map_nil, scVerifyLoop] at h
    cases h; rfl
  | r :: rs, σ, e, f, tr, tr', h => by
    rw [List.length_cons, List.range_succ_eq_map, List.map_cons, List.map_map] at h
    obtain ⟨r', e1, tr1, rs', heq, h1, h2⟩ := scVerifyLoop_cons_ok h
    obtain ⟨rfl, rfl⟩ := List.cons.inj heq
    obtain ⟨hl, -, hs, -, -, he⟩ := scVerifyRound_ok h1
    simp only [List.take_zero] at hl hs he
    refine ⟨hl, hs, ?_⟩
    rw [← he]
    exact coinAcc_of_loop rs (fun l => σ (r :: l)) e1 (fun l => f (r :: l)) tr1 tr'
      (by simpa [Function.comp_def] using h2)

open Classical in
theorem coin_count [Fintype F] {d : Nat} : ∀ (n : Nat) (σ : List F → CompressedUniPoly F) (e : F)
    (f : List F → F), IndivDegree n d f → e ≠ cubeSum n f [] →
    (Finset.univ.filter fun rs : Fin n → F => CoinAcc d σ e f (List.ofFn rs)).card
      ≤ n * d * Fintype.card F ^ (n - 1)
  | 0, σ, e, f, _, hne => by
    rw [cubeSum_zero] at hne
    simp [CoinAcc, hne]
  | n + 1, σ, e, f, hf, hne => by
    by_cases hok : (sentPoly (σ []) e).length = d + 1 ∧
      polyEval (sentPoly (σ []) e) 0 + polyEval (sentPoly (σ []) e) 1 = e
    swap
    · rw [Finset.card_eq_zero.2]; · simp
      rw [Finset.filter_eq_empty_iff]
      intro rs _ h
      rw [List.ofFn_succ] at h
      exact hok ⟨h.1, h.2.1⟩
    obtain ⟨hl, hs⟩ := hok
    obtain ⟨q, hq0, hqd, hqe⟩ := exists_diff hf hl hs hne
    set cs := sentPoly (σ []) e with hcs
    -- count by the first challenge
    have hsub : (Finset.univ.filter fun rs : Fin (n + 1) → F => CoinAcc d σ e f (List.ofFn rs)).card
        = ∑ r : F, (Finset.univ.filter fun rs : Fin n → F =>
            CoinAcc d σ e f (List.ofFn (Fin.cons r rs : Fin (n + 1) → F))).card := by
      rw [← Finset.card_sigma]
      symm
      apply Finset.card_bij (fun (a : (_ : F) × (Fin n → F)) _ => (Fin.cons a.1 a.2 : Fin (n + 1) → F))
      · rintro ⟨r, rs⟩ h; simpa using h
      · rintro ⟨r, rs⟩ _ ⟨r', rs'⟩ _ h
        obtain ⟨h1, h2⟩ := Fin.cons_inj.1 h
        simp only at h1 h2
        rw [h1, h2]
      · intro rs h
        refine ⟨⟨rs 0, Fin.tail rs⟩, ?_, Fin.cons_self_tail rs⟩
        simp only [Finset.mem_sigma, Finset.mem_univ, Finset.mem_filter, true_and, Fin.cons_self_tail]
          at h ⊢
        exact h
    rw [hsub]
    have hcons : ∀ r (rs : Fin n → F), CoinAcc d σ e f (List.ofFn (Fin.cons r rs : Fin (n + 1) → F)) →
        CoinAcc d (fun l => σ (r :: l)) (polyEval cs r) (fun l => f (r :: l)) (List.ofFn rs) := by
      intro r rs h
      rw [List.ofFn_succ] at h
      simpa using h.2.2
    have hgood : ∀ r, ¬ q.IsRoot r → (Finset.univ.filter fun rs : Fin n → F =>
        CoinAcc d σ e f (List.ofFn (Fin.cons r rs : Fin (n + 1) → F))).card
          ≤ n * d * Fintype.card F ^ (n - 1) := by
      intro r hr
      refine le_trans (Finset.card_le_card ?_) (coin_count n (fun l => σ (r :: l)) (polyEval cs r)
        (fun l => f (r :: l)) (indivDegree_cons hf r) ?_)
      · intro rs h
        simp only [Finset.mem_filter, Finset.mem_univ, true_and] at h ⊢
        exact hcons r rs h
      · rw [cubeSum_cons]
        intro h
        exact hr (by rw [IsRoot, hqe, h, sub_self])
    have hbad : ∀ r, (Finset.univ.filter fun rs : Fin n → F =>
        CoinAcc d σ e f (List.ofFn (Fin.cons r rs : Fin (n + 1) → F))).card ≤ Fintype.card F ^ n := by
      intro r
      refine (Finset.card_le_univ _).trans ?_
      simp
    have hroots : (Finset.univ.filter fun r : F => q.IsRoot r).card ≤ d := by
      refine le_trans (Finset.card_le_card ?_) ((Multiset.toFinset_card_le q.roots).trans
        ((card_roots' q).trans hqd))
      intro r h
      simp only [Finset.mem_filter, Finset.mem_univ, true_and] at h
      simp [hq0, h]
      exact h
    calc ∑ r : F, (Finset.univ.filter fun rs : Fin n → F =>
            CoinAcc d σ e f (List.ofFn (Fin.cons r rs : Fin (n + 1) → F))).card
        ≤ ∑ r : F, ((if q.IsRoot r then Fintype.card F ^ n else 0) + n * d * Fintype.card F ^ (n - 1)) := by
          apply Finset.sum_le_sum
          intro r _
          by_cases h : q.IsRoot r
          · rw [if_pos h]; exact (hbad r).trans (Nat.le_add_right _ _)
          · rw [if_neg h, zero_add]; exact hgood r h
      _ = (Finset.univ.filter fun r : F => q.IsRoot r).card * Fintype.card F ^ n
            + Fintype.card F * (n * d * Fintype.card F ^ (n - 1)) := by
          rw [Finset.sum_add_distrib, ← Finset.sum_filter, Finset.sum_const, Finset.sum_const,
            smul_eq_mul, smul_eq_mul, Finset.card_univ]
      _ ≤ d * Fintype.card F ^ n + Fintype.card F * (n * d * Fintype.card F ^ (n - 1)) :=
          Nat.add_le_add_right (Nat.mul_le_mul_right _ hroots) _
      _ ≤ (n + 1) * d * Fintype.card F ^ (n + 1 - 1) := by
          cases n with
          | zero => simp
          | succ m =>
            simp only [Nat.add_sub_cancel]
            apply le_of_eq
            ring

end Spartan
