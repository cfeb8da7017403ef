import Verif.Props.Anon
import Verif.Props.CompileEx

/-!
The hypotheses of C129 can be met: two keys in a tree, and signatures of both with the nonce point of `Props/ProverEx`.
-/

set_option exponentiation.threshold 2000
set_option maxRecDepth 100000

namespace Spartan.Example
open Spec MParams Lib Mach Circuit

def key2 : ℕ := 987654321
def s2 : ℕ := 20356088218002388012903907044683723381554125470064524647398136640985691275582
def Qx2 : ℕ := 41079968959780955004895214328026062223053942313638939587128861370700247948270
def Qy2 : ℕ := 86671036290170292238059580456295519236632101628921268685084662522553451260327

theorem root2_swapped : swapped (poseidonNat (poseidonNat (poseidonNat Qx Qy) (poseidonNat Qx2 Qy2)) (poseidonNat 0 0)) <
    secpP := by decide +kernel

attribute [local irreducible] poseidonNat k256Hash PoseidonParams.hash wasmPoseidon poseidonHash

def sig2 : List UInt8 := beBytes 32 r ++ beBytes 32 s2 ++ [27]
noncomputable def Q2 : Secp := key2 • G

theorem s2_ne : (s2 : ZMod secpN) ≠ 0 := by
  rw [Ne, ZMod.natCast_eq_zero_iff]
  decide +kernel

theorem sig2_eq : fromSig sig2 = some (r, s2, 27) := by
  rw [sig2, sig_full (by decide +kernel) (by decide +kernel)]
  rfl

theorem signed2 : SignedWith Q2 G (msgNum msgHash) r s2 (decide (27 % 2 = 0)) := by
  refine ⟨s2_ne, r_ne, ?_, signed.2.2.2⟩
  have h : ((5 + r * key2 : ℕ) : ZMod secpN) = ((s2 : ℕ) : ZMod secpN) := cast_eq_of_mod (by decide +kernel)
  rw [Nat.cast_add, Nat.cast_mul] at h
  have key' : ∀ {F M : Type} [Field F] [AddCommGroup M] [Module F M] (m r a s : F) (P : M), s ≠ 0 → m + r * a = s →
      (m * s⁻¹) • P + (r * s⁻¹) • (a • P) = P := by
    intro F M _ _ _ m r a s P hs h
    rw [smul_smul, ← add_smul, show m * s⁻¹ + r * s⁻¹ * a = (m + r * a) * s⁻¹ by ring, h, mul_inv_cancel₀ hs, one_smul]
  rw [Q2, ← secp_smul_nat, msg_eq]
  exact key' _ _ _ _ _ s2_ne h

theorem Q2_xy : xy Q2 = ((Qx2 : ZMod secpP), (Qy2 : ZMod secpP)) :=
  xy_of (rep_ladM (n := key2) (by decide +kernel)) (by decide +kernel)

theorem s2T_eq : s2 • (tau • G) = red tau s2 • G := by
  rw [← red_eq, natCast_zsmul]

noncomputable def ops2 : List TreeOp := [.insert (poseidonNat Qx Qy), .insert (poseidonNat Qx2 Qy2)]

theorem fieldLeaves2 : FieldLeaves ops2 := by
  intro v hv
  simp only [ops2, List.mem_cons, TreeOp.insert.injEq, List.not_mem_nil, or_false] at hv
  rcases hv with hv | hv <;> rw [hv] <;> exact poseidonNat_lt _ _

/-- Two members of a tree of two keys, and everything that `member_anonymous_partial` asks for of them, the tree and the
circuit, except that nothing is known about the values of the internal signals and the generators. -/
example (f : Pt.Formulas) {label : List UInt8} : Q ≠ Q2 ∧ ∃ rc values witnessGen t b mp mp',
    SystemFor 2 (PubKeyMembership 2) rc ∧ Generates 2 (fun w => ∃ X Y, HonestInputs 2 w X Y) rc values witnessGen ∧
    treeAfter 2 ops2 = some (t, b) ∧ t.createProof 0 = some mp ∧ t.createProof 1 = some mp' ∧
    ((∀ w p, proverInputs sig msgHash mp = some (w, p) → ∀ x ∈ values w, Readable x) →
      (∀ w p, proverInputs sig2 msgHash mp' = some (w, p) → ∀ x ∈ values w, Readable x) →
      (∀ gens, NIZKGens.new (src f) label rc.numVariables 5 = .ok gens → BlindsNonzero gens) →
      ∃ I, convertToSpartan (codec (fun _ => [1, 2, 3])) rc 5 = .ok I ∧
        ∃ φ : (Fin (proverDraws I) → Sc) ≃ (Fin (proverDraws I) → Sc), ∀ e rest rest',
          Lib.prove witnessGen (wasmProve (wasm f 32 (fun _ => [1, 2, 3])) label [] (Tape.pre e rest)
              ((wire 32).fInst.enc I)) sig msgHash mp =
            Lib.prove witnessGen (wasmProve (wasm f 32 (fun _ => [1, 2, 3])) label [] (Tape.pre (φ e) rest')
              ((wire 32).fInst.enc I)) sig2 msgHash mp') := by
  have hQx : (xy Q).1.val = Qx := by rw [Q_xy]; exact val_of (by decide +kernel)
  have hQy : (xy Q).2.val = Qy := by rw [Q_xy]; exact val_of (by decide +kernel)
  have hQx2 : (xy Q2).1.val = Qx2 := by rw [Q2_xy]; exact val_of (by decide +kernel)
  have hQy2 : (xy Q2).2.val = Qy2 := by rw [Q2_xy]; exact val_of (by decide +kernel)
  refine ⟨fun h => ?_, ?_⟩
  · rw [h, hQx2] at hQx
    exact absurd hQx (by decide +kernel)
  obtain ⟨rc, hsys⟩ := membership_r1cs (d := 2) (by norm_num)
  obtain ⟨values, witnessGen, hgen⟩ := generator_exists hsys
  have hgen' : Generates 2 (fun w => ∃ X Y, HonestInputs 2 w X Y) rc values witnessGen := by
    rintro w ⟨X, Y, kBits, -, h⟩
    exact hgen w ⟨kBits, X, Y, h⟩
  obtain ⟨t, ht, hl, hroot, -⟩ := tree_history (d := 2) (by norm_num) (by norm_num) fieldLeaves2
  have hkey := hash_pub_key (x := Qx) (y := Qy) (by decide +kernel) (by decide +kernel) []
  rw [List.append_nil] at hkey
  have hkey2 := hash_pub_key (x := Qx2) (y := Qy2) (by decide +kernel) (by decide +kernel) []
  rw [List.append_nil] at hkey2
  have hleaf0 : t.leaves[0]? = some (some (poseidonNat Qx Qy)) := by rw [hl]; rfl
  have hleaf1 : t.leaves[1]? = some (some (poseidonNat Qx2 Qy2)) := by rw [hl]; rfl
  obtain ⟨mp, hmp, -⟩ := (tree_proof_verifies (by norm_num) (by norm_num) fieldLeaves2 ht 0).1 _ hleaf0
  obtain ⟨mp', hmp', -⟩ := (tree_proof_verifies (by norm_num) (by norm_num) fieldLeaves2 ht 1).1 _ hleaf1
  have hrootsw : swapped t.root < secpP := by
    rw [hroot]
    exact root2_swapped
  refine ⟨rc, values, witnessGen, t, _, mp, mp', hsys, hgen', ht, hmp, hmp', fun h1 h2 h3 => ?_⟩
  refine member_anonymous_partial f (bits := 32) (by norm_num) (by norm_num) (digest := fun _ => [1, 2, 3])
    (fun _ => by norm_num) (by norm_num) (by norm_num) hsys hgen' fieldLeaves2 ht (Q := Q) (Q' := Q2) (R := G) (r := r)
    (s := s) (s' := s2) (v := 27) (by decide +kernel) (by norm_num) msg_ne
    ⟨hmp, by rw [keyLeaf, hQx, hQy, hkey]; exact hleaf0, by decide +kernel, sig_eq, signed, by decide +kernel, ?_, ?_, ?_⟩
    ⟨hmp', by rw [keyLeaf, hQx2, hQy2, hkey2]; exact hleaf1, by decide +kernel, sig2_eq, signed2, by decide +kernel, ?_, ?_,
      ?_⟩ ?_ h1 h2 h3
  · rw [T_eq, U_eq, sT_eq]
    exact not_falseZero (rep_ladM (by decide +kernel)) (rep_ladM (n := u) (by decide +kernel)) (by decide +kernel)
  · rw [T_eq, U_eq, sT_eq]
    intro h
    rw [← natCast_zsmul, ← natCast_zsmul, ← sub_eq_zero, ← sub_smul, zsmul_eq_zero_iff G_ne] at h
    exact absurd h (by decide +kernel)
  · rw [T_eq]
    exact regular_mul (by decide +kernel)
  · rw [T_eq, U_eq, s2T_eq]
    exact not_falseZero (rep_ladM (by decide +kernel)) (rep_ladM (n := u) (by decide +kernel)) (by decide +kernel)
  · rw [T_eq, U_eq, s2T_eq]
    intro h
    rw [← natCast_zsmul, ← natCast_zsmul, ← sub_eq_zero, ← sub_smul, zsmul_eq_zero_iff G_ne] at h
    exact absurd h (by decide +kernel)
  · rw [T_eq]
    exact regular_mul (by decide +kernel)
  · rw [T_eq, U_eq, T_xy, U_xy]
    intro x hx
    simp only [List.mem_cons, List.not_mem_nil, or_false] at hx
    rcases hx with rfl | rfl | rfl | rfl | rfl
    · exact hrootsw
    all_goals rw [val_of (by decide +kernel)]; decide +kernel

end Spartan.Example
