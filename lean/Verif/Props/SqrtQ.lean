import Verif.Model.SqrtQ
import Verif.Props.Programs
import Verif.Props.Prover
import Verif.Props.Bincode
import Mathlib.RingTheory.RootsOfUnity.PrimitiveRoots

/-!
The square root used to decode points of the commitment curve is a square root: with it the protocol
theorems hold without an assumption on the encoding.
-/

set_option exponentiation.threshold 2000

namespace Spartan

/-! ### The loop only looks at powers of the root of unity -/

section transfer

variable {M N : Type} [CommMonoid M] [DecidableEq M] [CommMonoid N] [DecidableEq N]

theorem tonStep_map (f : M →* N) (hf : Function.Injective f) (v j : Nat) (k : Nat) (tmp : M) (lt : Bool) (z : M) :
    tonStep v (k, f tmp, lt, f z) j =
      ((tonStep v (k, tmp, lt, z) j).1, f (tonStep v (k, tmp, lt, z) j).2.1,
        (tonStep v (k, tmp, lt, z) j).2.2.1, f (tonStep v (k, tmp, lt, z) j).2.2.2) := by
  have h1 : (f tmp = 1) ↔ tmp = 1 := by rw [← map_one f]; exact hf.eq_iff
  unfold tonStep
  simp only [h1]
  by_cases h : tmp = 1
  · simp only [h, decide_true, if_true, ← map_mul]
    split_ifs <;> rfl
  · simp only [h, decide_false, Bool.false_eq_true, if_false, ← map_mul]
    split_ifs <;> rfl

theorem tonInner_map (f : M →* N) (hf : Function.Injective f) (v : Nat) (l : List Nat) :
    ∀ (k : Nat) (tmp : M) (lt : Bool) (z : M), l.foldl (tonStep v) (k, f tmp, lt, f z) =
      ((l.foldl (tonStep v) (k, tmp, lt, z)).1, f (l.foldl (tonStep v) (k, tmp, lt, z)).2.1,
        (l.foldl (tonStep v) (k, tmp, lt, z)).2.2.1, f (l.foldl (tonStep v) (k, tmp, lt, z)).2.2.2) := by
  induction l with
  | nil => intros; rfl
  | cons j l ih =>
    intro k tmp lt z
    rw [List.foldl_cons, List.foldl_cons, tonStep_map f hf, ih]

theorem tonRound_map (f : M →* N) (hf : Function.Injective f) (m v : Nat) (c : N) (x b z : M) :
    tonRound (v, c * f x, f b, f z) m =
      ((tonRound (v, x, b, z) m).1, c * f (tonRound (v, x, b, z) m).2.1,
        f (tonRound (v, x, b, z) m).2.2.1, f (tonRound (v, x, b, z) m).2.2.2) := by
  have h1 : (f b = 1) ↔ b = 1 := by rw [← map_one f]; exact hf.eq_iff
  unfold tonRound
  simp only [← map_mul, tonInner_map f hf, h1]
  split_ifs <;> simp only [map_mul, mul_assoc]

theorem tonRounds_map (f : M →* N) (hf : Function.Injective f) (c : N) (l : List Nat) :
    ∀ (v : Nat) (x b z : M), l.foldl tonRound (v, c * f x, f b, f z) =
      ((l.foldl tonRound (v, x, b, z)).1, c * f (l.foldl tonRound (v, x, b, z)).2.1,
        f (l.foldl tonRound (v, x, b, z)).2.2.1, f (l.foldl tonRound (v, x, b, z)).2.2.2) := by
  induction l with
  | nil => intros; rfl
  | cons j l ih =>
    intro v x b z
    rw [List.foldl_cons, List.foldl_cons, tonRound_map f hf, ih]

theorem tonLoop_map (f : M →* N) (hf : Function.Injective f) (c : N) (b z : M) :
    tonLoop c (f b) (f z) = c * f (tonLoop 1 b z) := by
  have h := tonRounds_map f hf c [6, 5, 4, 3, 2, 1] 6 1 b z
  rw [map_one, mul_one] at h
  unfold tonLoop
  rw [h]

end transfer

/-- On exponents modulo 64 the loop divides an even exponent by minus two; all 32 of them. -/
theorem tonLoop_exp : ∀ i : Fin 32,
    (tonLoop 1 (Multiplicative.ofAdd ((2 * i.val : ℕ) : ZMod 64)) (Multiplicative.ofAdd (1 : ZMod 64))) ^ 2 *
      Multiplicative.ofAdd ((2 * i.val : ℕ) : ZMod 64) = 1 := by
  decide +kernel

theorem k256Root_primitive : IsPrimitiveRoot (k256Root : ZMod secpN) 64 := by
  have h64 : ((k256Root : ℕ) : ZMod secpN) ^ 64 = 1 := by
    rw [← Nat.cast_pow, ← Nat.cast_one, ZMod.natCast_eq_natCast_iff]
    unfold Nat.ModEq; decide +kernel
  have h32 : ¬ ((k256Root : ℕ) : ZMod secpN) ^ 32 = 1 := by
    rw [← Nat.cast_pow, ← Nat.cast_one, ZMod.natCast_eq_natCast_iff]
    unfold Nat.ModEq; decide +kernel
  have := orderOf_eq_prime_pow (p := 2) (n := 5) (x := (k256Root : ZMod secpN)) h32 h64
  rw [show (64 : ℕ) = 2 ^ (5 + 1) by norm_num, ← this]
  exact IsPrimitiveRoot.orderOf _

/-- The powers of the root of unity. -/
noncomputable def rootHom : Multiplicative (ZMod 64) →* ZMod secpN where
  toFun e := (k256Root : ZMod secpN) ^ (e.toAdd).val
  map_one' := by simp
  map_mul' a b := by
    rw [← pow_add]
    rw [toAdd_mul, ZMod.val_add, ← Nat.div_add_mod (a.toAdd.val + b.toAdd.val) 64, pow_add, pow_mul,
      k256Root_primitive.pow_eq_one, one_pow, one_mul, Nat.div_add_mod]

theorem rootHom_injective : Function.Injective rootHom := by
  intro a b h
  have h2 := k256Root_primitive.pow_inj (ZMod.val_lt a.toAdd) (ZMod.val_lt b.toAdd) h
  exact Multiplicative.toAdd.injective (ZMod.val_injective _ h2)

/-- The exponent is `(t - 1) / 2` for `n - 1 = 64 t`. -/
theorem k256SqrtExp_eq : 64 * (2 * k256SqrtExp + 1) = secpN - 1 := by decide +kernel

/-- The candidate is a root of every square. -/
theorem k256Cand_sq {a : ZMod secpN} (hsq : IsSquare a) : k256Cand a ^ 2 = a := by
  unfold k256Cand
  simp only
  obtain ⟨s, rfl⟩ := hsq
  by_cases hs : s = 0
  · subst hs
    have h1 : ∀ (l : List Nat) (v : Nat) (b z : ZMod secpN),
        (l.foldl tonRound (v, (0 : ZMod secpN), b, z)).2.1 = 0 := by
      intro l
      induction l with
      | nil => intros; rfl
      | cons m l ih =>
        intro v b z
        rw [List.foldl_cons]
        unfold tonRound
        simp only [zero_mul, ite_self]
        exact ih _ _ _
    rw [mul_zero, zero_mul, tonLoop, h1, pow_two, mul_zero]
  · have hb : s * s * (s * s) ^ k256SqrtExp * (s * s) ^ k256SqrtExp = (s ^ 2) ^ (2 * k256SqrtExp + 1) := by
      rw [← pow_two s, two_mul k256SqrtExp, pow_succ, pow_add]; ring
    obtain ⟨b, hbd⟩ : ∃ b, b = s * s * (s * s) ^ k256SqrtExp * (s * s) ^ k256SqrtExp := ⟨_, rfl⟩
    have hb32 : b ^ 32 = 1 := by
      rw [hbd, hb, ← pow_mul, ← pow_mul,
        show 2 * ((2 * k256SqrtExp + 1) * 32) = secpN - 1 by rw [← k256SqrtExp_eq]; ring]
      exact ZMod.pow_card_sub_one_eq_one hs
    have hg32 : IsPrimitiveRoot ((k256Root : ZMod secpN) ^ 2) 32 :=
      k256Root_primitive.pow (by norm_num) (by norm_num)
    obtain ⟨i, hi, hib⟩ := hg32.eq_pow_of_pow_eq_one hb32
    have hfb : rootHom (Multiplicative.ofAdd ((2 * i : ℕ) : ZMod 64)) = b := by
      rw [← hib, ← pow_mul]
      show (k256Root : ZMod secpN) ^ (((2 * i : ℕ) : ZMod 64)).val = _
      rw [ZMod.val_natCast, Nat.mod_eq_of_lt (by omega)]
    have hfz : rootHom (Multiplicative.ofAdd (1 : ZMod 64)) = (k256Root : ZMod secpN) := by
      show (k256Root : ZMod secpN) ^ (1 : ZMod 64).val = _
      rw [show (1 : ZMod 64).val = 1 from rfl, pow_one]
    have hE : rootHom (tonLoop 1 (Multiplicative.ofAdd ((2 * i : ℕ) : ZMod 64))
        (Multiplicative.ofAdd (1 : ZMod 64))) ^ 2 * b = 1 := by
      rw [← hfb, ← map_pow, ← map_mul, tonLoop_exp ⟨i, hi⟩, map_one]
    rw [← hbd, ← hfb, ← hfz, tonLoop_map rootHom rootHom_injective, mul_pow]
    have hx : (s * s * (s * s) ^ k256SqrtExp) ^ 2 = s * s * b := by rw [hbd]; ring
    rw [hx, mul_assoc, mul_comm b, hE, mul_one]

attribute [local irreducible] k256Cand

/-- C92, the algorithm: the k256 square root returns `Some` exactly for squares, and then a root. -/
theorem k256Sqrt_spec : SqrtSpec k256Sqrt := by
  intro a
  unfold k256Sqrt
  refine ⟨fun r hr => ?_, fun hsq => ⟨_, if_pos ?_⟩⟩
  · by_cases h : k256Cand a * k256Cand a = a
    · rw [if_pos h] at hr
      rw [← Option.some.inj hr, pow_two]; exact h
    · rw [if_neg h] at hr; cases hr
  · rw [← pow_two]; exact k256Cand_sq hsq

/-- `None` exactly for non-squares. -/
theorem k256Sqrt_none_iff (a : ZMod secpN) : k256Sqrt a = none ↔ ¬ IsSquare a := by
  constructor
  · intro h hs
    obtain ⟨r, hr⟩ := (k256Sqrt_spec a).2 hs
    rw [h] at hr; cases hr
  · intro h
    cases hr : k256Sqrt a with
    | none => rfl
    | some r => exact absurd ⟨r, by rw [← pow_two]; exact ((k256Sqrt_spec a).1 r hr).symm⟩ h

attribute [local irreducible] k256Sqrt

/-- C92: `FieldElement::sqrt` of the coordinate field of the commitment curve never panics; it
returns a root for every square and `None` for every non-square. -/
theorem secq_sqrt {a : Limbs} {x : ZMod secpN} (ha : a.Rep secpN x) :
    (IsSquare x → ∃ b r, sqrtQ a = .ok (some b) ∧ b.Rep secpN r ∧ r ^ 2 = x) ∧
      (¬ IsSquare x → sqrtQ a = .ok none) := by
  have hx : x.val < secpN := ZMod.val_lt x
  have hn : leNat (paramsQ.toBeBytes a).reverse = x.val := by
    rw [MParams.toBeBytes_eq MParams.valid_Q ha, List.reverse_reverse, MParams.leNat_leBytes,
      Nat.mod_eq_of_lt (lt_of_lt_of_le (lt_trans hx MParams.valid_Q.lt) (by norm_num))]
  have hsec (r : ZMod secpN) : ∃ b : Limbs, paramsQ.fromSec1 (beBytes32 r.val) = some b ∧ b.Rep secpN r := by
    obtain ⟨b, hb, -⟩ := (field_rep_bijective .secq).2 r
    refine ⟨b, ?_, hb⟩
    have := (field_be_bytes .secq hb).2.1
    rwa [MParams.toBeBytes_eq MParams.valid_Q hb] at this
  unfold sqrtQ
  simp only [hn, if_pos hx, ZMod.natCast_zmod_val]
  refine ⟨fun hsq => ?_, fun hsq => ?_⟩
  · obtain ⟨r, hr⟩ := (k256Sqrt_spec x).2 hsq
    obtain ⟨b, hb, hrep⟩ := hsec r
    refine ⟨b, r, ?_, hrep, (k256Sqrt_spec x).1 r hr⟩
    rw [hr, Option.getD_some, hb]
    rfl
  · rw [(k256Sqrt_none_iff x).mpr hsq]
    obtain ⟨b, hb, -⟩ := hsec 0
    rw [Option.getD_none, hb]
    rfl

/-- C92: with that square root, the encodings accepted for a point of the commitment curve are exactly
the encodings of its points. -/
theorem secq_decompress_iff (bs : List UInt8) (P : Secq) :
    secqDecompress k256Sqrt bs = some P ↔ bs = secqCompress P := by
  constructor
  · intro h; exact (secq_compress_decompress h).symm
  · rintro rfl; exact secq_decompress_compress k256Sqrt_spec P

/-- Both cases of `secq_sqrt` occur: 4 is a square, the root of unity is not. -/
theorem secq_sqrt_cases : IsSquare (4 : ZMod secpN) ∧ ¬ IsSquare (k256Root : ZMod secpN) := by
  refine ⟨⟨2, by norm_num⟩, ?_⟩
  rintro ⟨s, hs⟩
  have hg : (k256Root : ZMod secpN) ^ 32 = -1 := by
    have h2 : ((k256Root : ZMod secpN) ^ 32) ^ 2 = 1 := by
      rw [← pow_mul]; exact k256Root_primitive.pow_eq_one
    rcases sq_eq_sq_iff_eq_or_eq_neg.mp (h2.trans (one_pow 2).symm) with h | h
    · exact absurd h (k256Root_primitive.pow_ne_one_of_pos_of_lt (by norm_num) (by norm_num))
    · exact h
  have h0 : s ≠ 0 := by
    rintro rfl
    rw [hs] at hg
    have h1 : (-1 : ZMod secpN) = 0 := by rw [← hg, mul_zero, zero_pow (by norm_num)]
    exact one_ne_zero (neg_eq_zero.mp h1)
  have h1 : (k256Root : ZMod secpN) ^ (32 * (2 * k256SqrtExp + 1)) = 1 := by
    rw [hs, ← pow_two, ← pow_mul, show 2 * (32 * (2 * k256SqrtExp + 1)) = secpN - 1 by rw [← k256SqrtExp_eq]; ring]
    exact ZMod.pow_card_sub_one_eq_one h0
  rw [pow_mul, hg, Odd.neg_one_pow ⟨k256SqrtExp, rfl⟩] at h1
  have h2 : (2 : ZMod secpN) = 0 := by linear_combination -h1
  exact Koblitz.secq_consts.1 h2

/-- C37 with the code's own point decoding: nothing is assumed of the square root. -/
theorem nizk_complete_code (hash : Tr (ZMod secpP) (List UInt8) → ZMod secpP)
    {K : Codec (ZMod secpP)} {nc nv ni : Nat} {A B C : List (Nat × Nat × List UInt8)}
    {I : Inst (ZMod secpP)} (hnew : Inst.new K nc nv ni A B C = .ok (.ok I)) (hc : 1 ≤ nc)
    (hsz : I.inst.numVars ≤ 2 ^ 62) (S : GenSrc Secq) (label : List UInt8)
    {vars inputs : List (ZMod secpP)} (hsat : I.isSat vars inputs = .ok (.ok true))
    (tr : Tr (ZMod secpP) (List UInt8)) (tape : Tape (ZMod secpP)) :
    ∃ gens, NIZKGens.new S label nv ni = .ok gens ∧
      ((∃ pf tr', NIZK.prove (secqEnv k256Sqrt hash) I vars inputs gens tr tape = .ok (pf, tr') ∧
          NIZK.verify (secqEnv k256Sqrt hash) pf I inputs gens tr = .ok tr') ∨
        (NIZK.prove (secqEnv k256Sqrt hash) I vars inputs gens tr tape = .error .panic ∧
          ∃ t, hash (t ++ [.chal "u"]) = 0)) :=
  nizk_complete_secq k256Sqrt_spec hash hnew hc hsz S label hsat tr tape

/-- C90 with the code's own point decoding. -/
theorem programs_run_code (hash : Tr (ZMod secpP) (List UInt8) → ZMod secpP)
    (hu : ∀ t, hash (t ++ [.chal "u"]) ≠ 0) (dg : R1CS (ZMod secpP) → List UInt8) (S : GenSrc Secq)
    (z : Nat) (hz : CoreScalar.Valid z) (tape : Tape (ZMod secpP)) (rnd tapes : Nat → Tape (ZMod secpP)) :
    Programs.cubicMain (scalarCodec dg) (secqEnv k256Sqrt hash) S z tape = .ok () ∧
      Programs.snarkProfiler (scalarCodec dg) (secqEnv k256Sqrt hash) S rnd tapes = .ok () ∧
      Programs.nizkProfiler (scalarCodec dg) (secqEnv k256Sqrt hash) S rnd tapes = .ok () :=
  ⟨Programs.cubic_runs k256Sqrt_spec hash hu dg S hz tape,
    Programs.profilers_run k256Sqrt_spec hash hu dg S rnd tapes⟩

end Spartan
