import Verif.Model.Poseidon
import Verif.Spec.Poseidon
import Mathlib.Tactic.Ring
import Mathlib.Tactic.FinCases
import Mathlib.Data.Nat.Digits.Lemmas

/-!
The Rust Poseidon computes the specification, for every implementation of the field.
-/

namespace Spartan

open Spec

variable {α F : Type} [Field F]

/-- `I` computes in the field `F`, where `R a x` says that `a` stands for `x`. -/
structure FieldImpl.Computes (I : FieldImpl α) (R : α → F → Prop) : Prop where
  zero : R I.zero 0
  fromU64 : ∀ v, R (I.fromU64 v) (v.toNat : F)
  add : ∀ {a b x y}, R a x → R b y → R (I.add a b) (x + y)
  mul : ∀ {a b x y}, R a x → R b y → R (I.mul a b) (x * y)
  pow : ∀ {a x} (e : UInt64), R a x → R (I.pow a e 0 0 0) (x ^ e.toNat)

/-- The constants `k` stand for the parameters `c`. -/
structure KRel (R : α → F → Prop) (k : PoseidonConstants α) (c : PoseidonParams F) : Prop where
  rf : k.numFullRounds = c.rf
  rp : k.numPartialRounds = c.rp
  keys : ∀ r < 2 * (c.rf / 2) + c.rp, ∀ j : Fin 3,
    ∃ x, k.roundKeys[(j : ℕ) + 3 * r]? = some x ∧ R x (c.rc r j)
  mds : ∃ m : Fin 3 → Fin 3 → α, k.mds = [[m 0 0, m 0 1, m 0 2], [m 1 0, m 1 1, m 1 2],
    [m 2 0, m 2 1, m 2 2]] ∧ ∀ i j, R (m i j) (c.mds i j)

/-- The object's state stands for `s`. -/
def SRel (R : α → F → Prop) (o : Poseidon α) (s : Fin 3 → F) : Prop :=
  R o.s0 (s 0) ∧ R o.s1 (s 1) ∧ R o.s2 (s 2)

theorem elemAt_some {v : List α} {i : ℕ} {x : α} (h : v[i]? = some x) : elemAt v i = .ok x := by
  simp [elemAt, h]

theorem matrixMul_rel {I : FieldImpl α} {R : α → F → Prop} (hI : I.Computes R)
    {c : PoseidonParams F} {o : Poseidon α} {s : Fin 3 → F} (hk : KRel R o.constants c)
    (hs : SRel R o s) :
    ∃ o', o.matrixMul I = .ok o' ∧ o'.pos = o.pos ∧ o'.constants = o.constants ∧
      SRel R o' (fun i => ∑ j, c.mds i j * s j) := by
  obtain ⟨m, hm, hR⟩ := hk.mds
  obtain ⟨h0, h1, h2⟩ := hs
  have ho : o.matrixMul I = .ok { o with
      s0 := I.add (I.add (I.add I.zero (I.mul (m 0 0) o.s0)) (I.mul (m 0 1) o.s1)) (I.mul (m 0 2) o.s2)
      s1 := I.add (I.add (I.add I.zero (I.mul (m 1 0) o.s0)) (I.mul (m 1 1) o.s1)) (I.mul (m 1 2) o.s2)
      s2 := I.add (I.add (I.add I.zero (I.mul (m 2 0) o.s0)) (I.mul (m 2 1) o.s1))
        (I.mul (m 2 2) o.s2) } := by
    simp only [Poseidon.matrixMul, hm]
    rfl
  refine ⟨_, ho, rfl, rfl, ?_⟩
  · have key : ∀ i, R (I.add (I.add (I.add I.zero (I.mul (m i 0) o.s0)) (I.mul (m i 1) o.s1))
        (I.mul (m i 2) o.s2)) (∑ j, c.mds i j * s j) := by
      intro i
      have := hI.add (hI.add (hI.add hI.zero (hI.mul (hR i 0) h0)) (hI.mul (hR i 1) h1))
        (hI.mul (hR i 2) h2)
      rw [Fin.sum_univ_three]
      rwa [zero_add] at this
    exact ⟨key 0, key 1, key 2⟩

theorem addConstants_rel {I : FieldImpl α} {R : α → F → Prop} (hI : I.Computes R)
    {c : PoseidonParams F} {o : Poseidon α} {s : Fin 3 → F} {r : ℕ} (hk : KRel R o.constants c)
    (hr : r < 2 * (c.rf / 2) + c.rp) (hp : o.pos = 3 * r) (hs : SRel R o s) :
    ∃ o', o.addConstants I = .ok o' ∧ o'.pos = o.pos ∧ o'.constants = o.constants ∧
      SRel R o' (fun j => s j + c.rc r j) := by
  obtain ⟨k0, e0, r0⟩ := hk.keys r hr 0
  obtain ⟨k1, e1, r1⟩ := hk.keys r hr 1
  obtain ⟨k2, e2, r2⟩ := hk.keys r hr 2
  refine ⟨{ o with s0 := I.add o.s0 k0, s1 := I.add o.s1 k1, s2 := I.add o.s2 k2 }, ?_, rfl, rfl, ?_⟩
  · rw [← hp] at e0 e1 e2
    have a0 := elemAt_some e0
    have a1 := elemAt_some e1
    have a2 := elemAt_some e2
    simp only [Fin.isValue, Fin.val_zero, Fin.val_one, Fin.val_two] at a0 a1 a2
    simp only [Poseidon.addConstants, a0, a1, a2]
    rfl
  · exact ⟨hI.add hs.1 r0, hI.add hs.2.1 r1, hI.add hs.2.2 r2⟩

theorem sbox_rel {I : FieldImpl α} {R : α → F → Prop} (hI : I.Computes R) {a : α} {x : F}
    (h : R a x) : R (Poseidon.sbox I a) (x ^ 5) := hI.pow 5 h

theorem fullRound_rel {I : FieldImpl α} {R : α → F → Prop} (hI : I.Computes R)
    {c : PoseidonParams F} {o : Poseidon α} {s : Fin 3 → F} {r : ℕ} (hk : KRel R o.constants c)
    (hr : r < 2 * (c.rf / 2) + c.rp) (hf : c.isFull r = true) (hp : o.pos = 3 * r)
    (hs : SRel R o s) :
    ∃ o', o.fullRound I = .ok o' ∧ o'.pos = 3 * (r + 1) ∧ o'.constants = o.constants ∧
      SRel R o' (c.round r s) := by
  obtain ⟨o1, e1, p1, k1, s1⟩ := addConstants_rel hI hk hr hp hs
  obtain ⟨o2, e2, p2, k2, s2⟩ := matrixMul_rel hI (o := { o1 with
      s0 := Poseidon.sbox I o1.s0, s1 := Poseidon.sbox I o1.s1, s2 := Poseidon.sbox I o1.s2 })
    (c := c) (s := fun j => (s j + c.rc r j) ^ 5) (by rw [k1]; exact hk)
    ⟨sbox_rel hI s1.1, sbox_rel hI s1.2.1, sbox_rel hI s1.2.2⟩
  refine ⟨{ o2 with pos := o2.pos + 3 }, ?_, ?_, ?_, ?_⟩
  · simp only [Poseidon.fullRound, e1]
    show (do let o ← Poseidon.matrixMul I _; pure { o with pos := o.pos + 3 }) = _
    rw [e2]; rfl
  · show o2.pos + 3 = _
    rw [p2]; show o1.pos + 3 = _
    rw [p1, hp]; ring
  · show o2.constants = _
    rw [k2]; exact k1
  · have : c.round r s = fun i => ∑ j, c.mds i j * (s j + c.rc r j) ^ 5 := by
      funext i
      simp [PoseidonParams.round, hf]
    rw [this]; exact s2

theorem partialRound_rel {I : FieldImpl α} {R : α → F → Prop} (hI : I.Computes R)
    {c : PoseidonParams F} {o : Poseidon α} {s : Fin 3 → F} {r : ℕ} (hk : KRel R o.constants c)
    (hr : r < 2 * (c.rf / 2) + c.rp) (hf : c.isFull r = false) (hp : o.pos = 3 * r)
    (hs : SRel R o s) :
    ∃ o', o.partialRound I = .ok o' ∧ o'.pos = 3 * (r + 1) ∧ o'.constants = o.constants ∧
      SRel R o' (c.round r s) := by
  obtain ⟨o1, e1, p1, k1, s1⟩ := addConstants_rel hI hk hr hp hs
  obtain ⟨o2, e2, p2, k2, s2⟩ := matrixMul_rel hI (o := { o1 with s0 := Poseidon.sbox I o1.s0 })
    (c := c) (s := fun j => if j = 0 then (s j + c.rc r j) ^ 5 else s j + c.rc r j)
    (by rw [k1]; exact hk)
    ⟨sbox_rel hI s1.1, s1.2.1, s1.2.2⟩
  refine ⟨{ o2 with pos := o2.pos + 3 }, ?_, ?_, ?_, ?_⟩
  · simp only [Poseidon.partialRound, e1]
    show (do let o ← Poseidon.matrixMul I _; pure { o with pos := o.pos + 3 }) = _
    rw [e2]; rfl
  · show o2.pos + 3 = _
    rw [p2]; show o1.pos + 3 = _
    rw [p1, hp]; ring
  · show o2.constants = _
    rw [k2]; exact k1
  · have : c.round r s = fun i => ∑ j, c.mds i j *
        (if j = 0 then (s j + c.rc r j) ^ 5 else s j + c.rc r j) := by
      funext i
      simp [PoseidonParams.round, hf]
    rw [this]; exact s2

theorem times_rel {R : α → F → Prop} {c : PoseidonParams F} {k : PoseidonConstants α}
    {f : Poseidon α → Out (Poseidon α)} (x : Fin 3 → F) (a b : ℕ)
    (hf : ∀ (o : Poseidon α) (r : ℕ) (s : Fin 3 → F), a ≤ r → r < b → o.constants = k →
      o.pos = 3 * r → SRel R o s →
      ∃ o', f o = .ok o' ∧ o'.pos = 3 * (r + 1) ∧ o'.constants = k ∧ SRel R o' (c.round r s)) :
    ∀ (n : ℕ) (o : Poseidon α) (r : ℕ), a ≤ r → r + n ≤ b → o.constants = k → o.pos = 3 * r →
      SRel R o (c.rounds r x) →
      ∃ o', Poseidon.times f n o = .ok o' ∧ o'.pos = 3 * (r + n) ∧ o'.constants = k ∧
        SRel R o' (c.rounds (r + n) x)
  | 0, o, r, _, _, hk, hp, hs => ⟨o, rfl, hp, hk, hs⟩
  | n + 1, o, r, ha, hb, hk, hp, hs => by
    obtain ⟨o1, e1, p1, k1, s1⟩ := hf o r _ ha (by omega) hk hp hs
    obtain ⟨o2, e2, p2, k2, s2⟩ := times_rel x a b hf n o1 (r + 1) (by omega) (by omega) k1 p1 s1
    refine ⟨o2, ?_, ?_, k2, ?_⟩
    · simp only [Poseidon.times, e1]; exact e2
    · rw [p2]; ring
    · rwa [show r + (n + 1) = r + 1 + n by ring]

/-- The hash of a fresh object, with the state it leaves. -/
theorem hash_rel_state {I : FieldImpl α} {R : α → F → Prop} (hI : I.Computes R)
    {c : PoseidonParams F} {o : Poseidon α} (hk : KRel R o.constants c) (hp : o.pos = 0)
    {a b : α} {x y : F} (ha : R a x) (hb : R b y) :
    ∃ h o', o.hash I a b = .ok (h, o') ∧ R h (c.hash x y) ∧
      o'.pos = 3 * (2 * (c.rf / 2) + c.rp) ∧ o'.constants = o.constants ∧ SRel R o' (c.perm ![3, x, y]) := by
  obtain ⟨k, hke⟩ : ∃ k, k = o.constants := ⟨_, rfl⟩
  have h3 : R (I.fromU64 3) 3 := by
    have := hI.fromU64 3
    simpa using this
  obtain ⟨o1, e1, p1, k1, s1⟩ := times_rel (R := R) (c := c) (k := k) (f := Poseidon.fullRound I)
    ![3, x, y] 0 (c.rf / 2)
    (fun o r s _ h1 h2 h3 h4 => by
      have := fullRound_rel hI (c := c) (r := r) (by rw [h2, hke]; exact hk) (by omega)
        (by simp [PoseidonParams.isFull, h1]) h3 h4
      rwa [h2] at this) (c.rf / 2)
    { o with s0 := I.fromU64 3, s1 := a, s2 := b } 0 (le_refl _) (by omega) hke.symm
    (by simpa using hp) ⟨h3, ha, hb⟩
  obtain ⟨o2, e2, p2, k2, s2⟩ := times_rel (R := R) (c := c) (k := k) (f := Poseidon.partialRound I)
    ![3, x, y] (c.rf / 2) (c.rf / 2 + c.rp)
    (fun o r s h0 h1 h2 h3 h4 => by
      have := partialRound_rel hI (c := c) (r := r) (by rw [h2, hke]; exact hk) (by omega)
        (by simp [PoseidonParams.isFull, h1, h0]) h3 h4
      rwa [h2] at this) c.rp
    o1 (0 + c.rf / 2) (by omega) (by omega) k1 p1 s1
  obtain ⟨o3, e3, p3, k3, s3⟩ := times_rel (R := R) (c := c) (k := k) (f := Poseidon.fullRound I)
    ![3, x, y] (c.rf / 2 + c.rp) (2 * (c.rf / 2) + c.rp)
    (fun o r s h0 h1 h2 h3 h4 => by
      have := fullRound_rel hI (c := c) (r := r) (by rw [h2, hke]; exact hk) (by omega)
        (by simp [PoseidonParams.isFull, h0]) h3 h4
      rwa [h2] at this) (c.rf / 2)
    o2 (0 + c.rf / 2 + c.rp) (by omega) (by omega) k2 p2 s2
  rw [show 0 + c.rf / 2 + c.rp + c.rf / 2 = 2 * (c.rf / 2) + c.rp by ring] at s3
  refine ⟨o3.s1, o3, ?_, s3.2.1, ?_, ?_, s3⟩
  · simp only [Poseidon.hash]
    rw [← hk.rf] at e1 e3
    have hk1 : o1.constants.numPartialRounds = c.rp := by rw [k1, hke, hk.rp]
    rw [e1]
    simp only [bind, Except.bind]
    rw [hk1, e2]
    simp only []
    rw [e3]; rfl
  · rw [p3]; ring
  · rw [k3, hke]

/-- The hash of a fresh object. -/
theorem hash_rel {I : FieldImpl α} {R : α → F → Prop} (hI : I.Computes R)
    {c : PoseidonParams F} {o : Poseidon α} (hk : KRel R o.constants c) (hp : o.pos = 0)
    {a b : α} {x y : F} (ha : R a x) (hb : R b y) :
    ∃ h o', o.hash I a b = .ok (h, o') ∧ R h (c.hash x y) ∧
      o'.pos = 3 * (2 * (c.rf / 2) + c.rp) ∧ o'.constants = o.constants := by
  obtain ⟨h, o', h1, h2, h3, h4, -⟩ := hash_rel_state hI hk hp ha hb
  exact ⟨h, o', h1, h2, h3, h4⟩

/-! ### Decimal constants -/

theorem digits_foldl {I : FieldImpl α} {R : α → F → Prop} (hI : I.Computes R) :
    ∀ (l : List ℕ), (∀ d ∈ l, d < 10) →
      R (l.reverse.foldl (fun res d =>
        I.add (I.mul res (I.fromU64 10)) (I.fromU64 (UInt64.ofNat d))) I.zero)
        ((Nat.ofDigits 10 l : ℕ) : F)
  | [], _ => by simpa using hI.zero
  | d :: l, hd => by
    have ih := digits_foldl hI l (fun c hc => hd c (by simp [hc]))
    simp only [List.reverse_cons, List.foldl_append, List.foldl_cons, List.foldl_nil]
    have h1 := hI.add (hI.mul ih (hI.fromU64 10)) (hI.fromU64 (UInt64.ofNat d))
    have h2 : (UInt64.ofNat d).toNat = d := by
      have := hd d (by simp)
      rw [UInt64.toNat_ofNat']; exact Nat.mod_eq_of_lt (by omega)
    have h3 : (UInt64.toNat 10) = 10 := rfl
    rw [h2, h3] at h1
    rw [Nat.ofDigits_cons]
    push_cast at h1 ⊢
    rwa [mul_comm, add_comm] at h1

/-- `from_str_vartime` on a decimal numeral. -/
theorem fromDecimal_rel {I : FieldImpl α} {R : α → F → Prop} (hI : I.Computes R) (n : ℕ) :
    R (I.fromDecimal n) (n : F) := by
  unfold FieldImpl.fromDecimal
  split_ifs with h
  · rw [h]; simpa using hI.zero
  · have := digits_foldl hI (Nat.digits 10 n) (fun d hd => Nat.digits_lt_base (by norm_num) hd)
    rwa [Nat.ofDigits_digits] at this

end Spartan
