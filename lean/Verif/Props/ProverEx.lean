import Verif.Props.Prover

/-!
The hypotheses of C84 and C85 can be met: a concrete key, signature, tree and circuit.  The nonce is 1, so that
all points are known multiples of the generator, and all exceptional cases are checked by computation.
-/

set_option exponentiation.threshold 2000
set_option maxRecDepth 100000

namespace Spartan.Example
open Spec MParams Lib Circuit

def key : ℕ := 123456789
def tau : ℕ := 13499648161236477938760301359943791721062504425530739546045302818736391397630
def s : ℕ := 41913043209839957868961541506122783676895205542448813468266574048513846396602
def u : ℕ := 48293848431133805729769478208968949247525042151421206652378649047836204506187
def Tx : ℕ := 65119340225785711669047060641997571115958171333715411879046623854055104680472
def Ty : ℕ := 5254748873709611544825455848462029439777818953583883781306963503653487825139
def Ux : ℕ := 25405334377512696141880030976623200395206560173786396268267646886853881732923
def Uy : ℕ := 67919496780102371194481396083781541214068253879533628483483682964733593652858
def Qx : ℕ := 4051293998585674784991639592782214972820158391371785981004352359465450369227
def Qy : ℕ := 88166831356626186178414913298033275054086243781277878360288998796587140930350

/-- The Merkle root is small enough when its bytes are reversed. -/
theorem root_swapped :
    swapped (poseidonNat (poseidonNat (poseidonNat Qx Qy) 0) (poseidonNat 0 0)) < secpP := by decide +kernel

attribute [local irreducible] poseidonNat k256Hash PoseidonParams.hash wasmPoseidon poseidonHash

def ladM (n : ℕ) : ℕ × ℕ × ℕ := if n = 0 then (0, 0, 1) else ladN n

def okM (n : ℕ) : Bool := decide (n = 0) || ladOk n

theorem rep_ladM {n : ℕ} (h : okM n = true) : XRep (ladM n) (n • G) := by
  rw [okM, Bool.or_eq_true, decide_eq_true_eq] at h
  by_cases h0 : n = 0
  · rw [ladM, if_pos h0, h0, zero_nsmul]
    exact ⟨by simp, by simp, by simp⟩
  · rw [ladM, if_neg h0]
    exact srep_lad (h.resolve_left h0)

/-- The multiple `c (tau G)` as a multiple of `G`. -/
def red (tau : ℕ) (c : ℤ) : ℕ := ((c * tau) % (secpN : ℤ)).toNat

theorem red_eq (tau : ℕ) (c : ℤ) : c • (tau • G) = red tau c • G := by
  have hpos : (0 : ℤ) ≤ (c * tau) % (secpN : ℤ) := Int.emod_nonneg _ (by decide +kernel)
  rw [← natCast_zsmul G (red tau c), red, Int.toNat_of_nonneg hpos, ← natCast_zsmul G tau, smul_smul, ← sub_eq_zero,
    ← sub_smul, zsmul_eq_zero_iff G_ne]
  exact Int.dvd_self_sub_emod

def regularM (tau k : ℕ) : Bool :=
  ([1, 2, 3].all fun j =>
    let a := red tau (acc k (255 - j))
    let b := red tau (sgn (k.testBit j))
    let c := red tau (sgn (k.testBit j) + acc k (255 - j))
    okM a && (okM b && (okM c && (nfz (ladM b) (ladM a) && nfz (ladM a) (ladM c))))) &&
  (okM (red tau (acc k 255)) && (okM (red tau (-1)) &&
    nfz (ladM (red tau (acc k 255))) (if k.testBit 0 then (0, 0, 1) else ladM (red tau (-1)))))

theorem regular_mul {tau k : ℕ} (h : regularM tau k = true) : Regular (tau • G) k := by
  rw [regularM, Bool.and_eq_true, List.all_eq_true] at h
  obtain ⟨h1, h2⟩ := h
  constructor
  · intro j hj1 hj3
    have hj : j ∈ [1, 2, 3] := by
      have : j = 1 ∨ j = 2 ∨ j = 3 := by omega
      rcases this with rfl | rfl | rfl <;> simp
    have hc := h1 j hj
    simp only [Bool.and_eq_true] at hc
    obtain ⟨l1, l2, l3, f1, f2⟩ := hc
    rw [red_eq, red_eq, red_eq]
    exact ⟨not_falseZero (rep_ladM l2) (rep_ladM l1) f1, not_falseZero (rep_ladM l1) (rep_ladM l3) f2⟩
  · rw [Bool.and_eq_true, Bool.and_eq_true] at h2
    obtain ⟨l1, l2, f⟩ := h2
    rw [red_eq]
    by_cases hb : k.testBit 0
    · rw [if_pos hb] at f ⊢
      exact not_falseZero (rep_ladM l1) ⟨by simp, by simp, by simp⟩ f
    · rw [if_neg hb] at f ⊢
      rw [← neg_one_zsmul, red_eq]
      exact not_falseZero (rep_ladM l1) (rep_ladM l2) f

def affine (s : ℕ × ℕ × ℕ) (x y : ℕ) : Bool :=
  decide (s.1 % secpP = x * s.2.2 ^ 2 % secpP) && decide (s.2.1 % secpP = y * s.2.2 ^ 3 % secpP)

theorem xy_of {s : ℕ × ℕ × ℕ} {A : Secp} {x y : ℕ} (h : XRep s A) (ha : affine s x y = true) :
    xy A = ((x : ZMod secpP), (y : ZMod secpP)) := by
  rw [affine, Bool.and_eq_true, decide_eq_true_eq, decide_eq_true_eq] at ha
  obtain ⟨e1, e2, hz⟩ := h
  have a1 := (ZMod.natCast_eq_natCast_iff' _ _ _).mpr ha.1
  have a2 := (ZMod.natCast_eq_natCast_iff' _ _ _).mpr ha.2
  rw [e1, Nat.cast_mul, Nat.cast_pow] at a1
  rw [e2, Nat.cast_mul, Nat.cast_pow] at a2
  exact Prod.ext (mul_right_cancel₀ (pow_ne_zero 2 hz) a1) (mul_right_cancel₀ (pow_ne_zero 3 hz) a2)

/-! The signature. -/

abbrev r : ℕ := Koblitz.secpGx
def msgHash : List UInt8 := List.replicate 31 0 ++ [5]
def sig : List UInt8 := beBytes 32 r ++ beBytes 32 s ++ [27]
noncomputable def Q : Secp := key • G

theorem msg_eq : msgNum msgHash = ((5 : ℕ) : ZMod secpN) := by
  have : leNat msgHash.reverse = 5 := by decide +kernel
  rw [msgNum, this]

theorem msg_ne : msgNum msgHash ≠ 0 := by
  rw [msg_eq, Ne, ZMod.natCast_eq_zero_iff]
  decide +kernel

theorem r_ne : (r : ZMod secpN) ≠ 0 := by
  rw [Ne, ZMod.natCast_eq_zero_iff]
  decide +kernel

theorem s_ne : (s : ZMod secpN) ≠ 0 := by
  rw [Ne, ZMod.natCast_eq_zero_iff]
  decide +kernel

theorem r_inv : (r : ZMod secpN)⁻¹ = ((tau : ℕ) : ZMod secpN) := by
  have h : ((tau * r : ℕ) : ZMod secpN) = ((1 : ℕ) : ZMod secpN) := cast_eq_of_mod (by decide +kernel)
  rw [Nat.cast_mul, Nat.cast_one] at h
  exact (eq_inv_of_mul_eq_one_left h).symm

theorem T_eq : effT r G = tau • G := by
  rw [effT, r_inv, secp_smul_nat]

theorem U_eq : effU r (msgNum msgHash) = u • G := by
  have h : ((u + tau * 5 : ℕ) : ZMod secpN) = ((0 : ℕ) : ZMod secpN) := cast_eq_of_mod (by decide +kernel)
  rw [Nat.cast_add, Nat.cast_mul, Nat.cast_zero] at h
  rw [effU, r_inv, msg_eq, ← eq_neg_of_add_eq_zero_left h, secp_smul_nat]
  rfl

theorem sig_eq : fromSig sig = some (r, s, 27) := by
  rw [sig, sig_full (by decide +kernel) (by decide +kernel)]
  rfl

theorem signed : SignedWith Q G (msgNum msgHash) r s (decide (27 % 2 = 0)) := by
  refine ⟨s_ne, r_ne, ?_, ⟨_, Koblitz.secpG_on, rfl, ?_⟩⟩
  · have h : ((5 + r * key : ℕ) : ZMod secpN) = ((s : ℕ) : ZMod secpN) := cast_eq_of_mod (by decide +kernel)
    rw [Nat.cast_add, Nat.cast_mul] at h
    have key' : ∀ {F M : Type} [Field F] [AddCommGroup M] [Module F M] (m r a s : F) (P : M), s ≠ 0 → m + r * a = s →
        (m * s⁻¹) • P + (r * s⁻¹) • (a • P) = P := by
      intro F M _ _ _ m r a s P hs h
      rw [smul_smul, ← add_smul, show m * s⁻¹ + r * s⁻¹ * a = (m + r * a) * s⁻¹ by ring, h, mul_inv_cancel₀ hs, one_smul]
    rw [Q, ← secp_smul_nat, msg_eq]
    exact key' _ _ _ _ _ s_ne h
  · rw [ZMod.val_natCast]
    decide +kernel

theorem T_xy : xy (tau • G) = ((Tx : ZMod secpP), (Ty : ZMod secpP)) :=
  xy_of (rep_ladM (n := tau) (by decide +kernel)) (by decide +kernel)

theorem U_xy : xy (u • G) = ((Ux : ZMod secpP), (Uy : ZMod secpP)) :=
  xy_of (rep_ladM (n := u) (by decide +kernel)) (by decide +kernel)

theorem Q_xy : xy Q = ((Qx : ZMod secpP), (Qy : ZMod secpP)) :=
  xy_of (rep_ladM (n := key) (by decide +kernel)) (by decide +kernel)

theorem sT_eq : s • (tau • G) = red tau s • G := by
  rw [← red_eq, natCast_zsmul]

/-! The tree: the only leaf is the hash of the key. -/

noncomputable def ops : List TreeOp := [.insert (poseidonNat Qx Qy)]

theorem fieldLeaves : FieldLeaves ops := by
  intro v hv
  simp only [ops, List.mem_cons, TreeOp.insert.injEq, List.not_mem_nil, or_false] at hv
  rw [hv]
  exact poseidonNat_lt _ _

theorem val_of {x : ℕ} (h : x < secpP) : (x : ZMod secpP).val = x := by
  rw [ZMod.val_natCast, Nat.mod_eq_of_lt h]

/-- The hypotheses of `prover_inputs` and of `member_prove_verify_partial` hold of this signature, this tree and a
circuit that checks nothing but `3 * 3 = 9`. -/
example {sqrt : ZMod secpN → Option (ZMod secpN)} (hsq : SqrtSpec sqrt) (src : GenSrc Secq) (label : List UInt8)
    (tape : Tape (ZMod secpP)) : ∃ I t b mp proof p ser,
    treeAfter 2 ops = some (t, b) ∧ t.createProof 0 = some mp ∧
    Lib.prove (fun _ => some (encWtns 2 (List.replicate 32 0) (32 * 3) [1, 3, 9]))
      (wasmProve ((secqWire 32).wasmEnv (secqEnvE sqrt fun _ => 5) src (secpCodec (fun _ => [1, 2, 3]))) label []
        tape ((secqWire 32).fInst.enc I)) sig msgHash mp = some (proof, p) ∧
    p.serialize = some ser ∧
    Lib.verify (wasmVerify ((secqWire 32).wasmEnv (secqEnvE sqrt fun _ => 5) src (secpCodec (fun _ => [1, 2, 3]))) label []
      ((secqWire 32).fInst.enc I) proof) ser = some true := by
  have h1 : (secpCodec (fun _ => [1, 2, 3])).fromBytes (coreToRepr (swapped 1)) = some 1 := by
    rw [coreToRepr_swapped]
    have := secpCodec_encField (fun _ => [1, 2, 3]) (w := 1) (by decide +kernel)
    rwa [Nat.cast_one] at this
  have hr : Convertible (secpCodec (fun _ => [1, 2, 3])) squareCircuit := by
    intro c hc t ht
    simp only [squareCircuit, List.mem_singleton] at hc
    subst hc
    simp only [List.cons_append, List.nil_append, List.mem_cons, List.not_mem_nil, or_false] at ht
    rcases ht with rfl | rfl | rfl <;> exact ⟨by simp [squareCircuit], by rw [h1]; rfl⟩
  obtain ⟨I, hI, hnew⟩ := convert_eq (numPub := 5) hr
  have hvp : varsPadded 3 5 = 8 := by decide +kernel
  have hcp : consPadded 1 = 2 := by decide +kernel
  have hA : ∀ sel, (matTriples sel squareCircuit.constraints).length =
      (sel ([(1, swapped 1)], [(1, swapped 1)], [(2, swapped 1)])).length := by
    intro sel
    simp [matTriples, squareCircuit]
  have hok : (secqWire 32).okR1CS I.inst := by
    refine okR1CS_of_new hnew ?_ ?_
    · rw [hA, hA, hA]
      show consPadded 1 + _ < 2 ^ 32
      rw [hcp]
      simp only [List.length_singleton, max_self]
      norm_num
    · show 2 * varsPadded 3 5 < 2 ^ 32
      rw [hvp]; norm_num
  have hdig : I.digest = [1, 2, 3] := by
    obtain ⟨-, -, -, rfl⟩ := new_ok_entries hnew
    rfl
  have hnv : I.inst.numVars = 8 := by
    obtain ⟨-, -, -, rfl⟩ := new_ok_entries hnew
    exact hvp
  obtain ⟨t, ht, hl, hroot, -⟩ := tree_history (d := 2) (by norm_num) (by norm_num) fieldLeaves
  have hkey := hash_pub_key (x := Qx) (y := Qy) (by decide +kernel) (by decide +kernel) []
  rw [List.append_nil] at hkey
  have hleaf0 : t.leaves[0]? = some (some (poseidonNat Qx Qy)) := by rw [hl]; rfl
  obtain ⟨mp, hmp, -⟩ := (tree_proof_verifies (by norm_num) (by norm_num) fieldLeaves ht 0).1 _ hleaf0
  have hQx : (xy Q).1.val = Qx := by rw [Q_xy]; exact val_of (by decide +kernel)
  have hQy : (xy Q).2.val = Qy := by rw [Q_xy]; exact val_of (by decide +kernel)
  have hrootsw : swapped t.root < secpP := by
    rw [hroot]
    exact root_swapped
  obtain ⟨proof, p, ser, e1, -, -, e2, e3⟩ := member_prove_verify_partial hsq (hash := fun _ => 5)
    (fun _ => by decide +kernel) (bits := 32) (by norm_num) (by norm_num) (src := src) hr (by simp [squareCircuit]) hI
    ⟨hok, by rw [Wire.fits, hdig]; norm_num [secqWire]⟩ (by rw [hnv]; norm_num) label [] tape
    (d := 2) (by norm_num) (by norm_num) fieldLeaves ht (i := 0) hmp (values := fun _ => [1, 3, 9])
    (witnessGen := fun _ => some (encWtns 2 (List.replicate 32 0) (32 * 3) [1, 3, 9]))
    (by
      intro w X Y _
      refine ⟨2, List.replicate 32 0, rfl, le_refl 2, by simp, by norm_num, rfl,
        show ∀ x ∈ [1, 3, 9], x < secpP by decide +kernel, ?_⟩
      intro c hc
      simp only [squareCircuit, List.map_cons, List.map_nil, List.mem_singleton] at hc
      subst hc
      simp only [toCon, evalLC, List.map_cons, List.map_nil, List.sum_cons, List.sum_nil, add_zero, coefVal, h1,
        Option.getD_some]
      norm_num)
    (fun _ _ _ _ => show ∀ x ∈ [1, 3, 9], Readable x by decide +kernel)
    (by decide +kernel) (by decide +kernel) (by norm_num) sig_eq msg_ne signed
    (by rw [hQx, hQy, hkey]; exact hleaf0)
    (by decide +kernel)
    (by
      rw [T_eq, U_eq, sT_eq]
      exact not_falseZero (rep_ladM (by decide +kernel)) (rep_ladM (n := u) (by decide +kernel)) (by decide +kernel))
    (by
      rw [T_eq, U_eq, sT_eq]
      intro h
      rw [← natCast_zsmul, ← natCast_zsmul, ← sub_eq_zero, ← sub_smul, zsmul_eq_zero_iff G_ne] at h
      exact absurd h (by decide +kernel))
    (by
      rw [T_eq]
      exact regular_mul (by decide +kernel))
    (by
      rw [T_eq, U_eq, T_xy, U_xy]
      intro x hx
      simp only [List.mem_cons, List.not_mem_nil, or_false] at hx
      rcases hx with rfl | rfl | rfl | rfl | rfl
      · exact hrootsw
      all_goals rw [val_of (by decide +kernel)]; decide +kernel)
  exact ⟨I, t, _, mp, proof, p, ser, ht, hmp, e1, e2, e3⟩

end Spartan.Example
