import Verif.Props.PointCodec
import Verif.Props.GensStd

/-!
The types that the proof system computes with, as they are in memory: scalars are limbs below the modulus, group
elements are `AffinePoint`s, and every operation is the one of the code.  The protocol model (`Model/Base` to
`Model/SparseProof` and `wasmProve`, `wasmVerify` of `Model/Reader`) is written for any field and module; here are the
field and the module of the program.

The proofs that are part of the definitions below say that the operations stay inside the types (C01, C121, C123).
-/

set_option exponentiation.threshold 2000

namespace Spartan.Mach
open MParams Spec Pt

attribute [local irreducible] secpP secpN paramsP paramsQ affAdd affSub affNeg groupMul affCompress affDecompress uniformPoint
  challengeScalar affIdentity affGenerator modInverseRef MParams.invert

/-! ### `Scalar` -/

/-- `Scalar`, `Spartan-secq/src/scalar/scalar.rs` l. 201, `pub struct Scalar(pub(crate) [u64; 5])`: limbs below the
modulus. -/
@[ext] structure Sc where
  l : Limbs
  ok : l.Canon secpP

instance : DecidableEq Sc := fun a b => decidable_of_iff (a.l = b.l) ⟨Sc.ext, fun h => h ▸ rfl⟩

/-- The residue that a scalar stands for. -/
noncomputable def Sc.val (a : Sc) : ZMod secpP := Classical.choose (exists_rep valid_P a.ok)

theorem Sc.rep (a : Sc) : a.l.Rep secpP a.val := Classical.choose_spec (exists_rep valid_P a.ok)

theorem Sc.val_of {a : Sc} {x : ZMod secpP} (h : a.l.Rep secpP x) : a.val = x := rep_unique valid_P a.rep h

theorem Sc.val_inj {a b : Sc} (h : a.val = b.val) : a = b := by
  have hb := b.rep
  rw [← h] at hb
  exact Sc.ext (rep_inj valid_P a.rep hb)

/-- `Scalar::zero`, `scalar.rs` l. 428–430. -/
instance : Zero Sc := ⟨⟨MParams.zero, (rep_zero valid_P).1⟩⟩
/-- `Scalar::one`, `scalar.rs` l. 434–436. -/
instance : One Sc := ⟨⟨paramsP.one, (rep_one valid_P).1⟩⟩
/-- `Scalar::add`, `scalar.rs` l. 789–800. -/
instance : Add Sc := ⟨fun a b => ⟨paramsP.add a.l b.l, (rep_add valid_P a.rep b.rep).1⟩⟩
/-- `Scalar::sub`, `scalar.rs` l. 769–786. -/
instance : Sub Sc := ⟨fun a b => ⟨paramsP.sub a.l b.l, (rep_sub valid_P a.rep b.rep).1⟩⟩
/-- `Scalar::neg`, `scalar.rs` l. 803–818. -/
instance : Neg Sc := ⟨fun a => ⟨paramsP.neg a.l, (rep_neg valid_P a.rep).1⟩⟩
/-- `Scalar::mul`, `scalar.rs` l. 731–766. -/
instance : Mul Sc := ⟨fun a b => ⟨paramsP.mul a.l b.l, (rep_mul valid_P a.rep b.rep).1⟩⟩

theorem invert_rep (a : Sc) :
    ((paramsP.invert modInverseRef secpP a.l).getD MParams.zero).Rep secpP (a.val)⁻¹ := by
  obtain ⟨h0, h1⟩ := scalar_invert modInverseRef_spec a.rep
  by_cases h : a.val = 0
  · rw [h0 h, h, inv_zero]; exact rep_zero valid_P
  · obtain ⟨b, e, hb⟩ := h1 h
    rw [e]; exact hb

/-- `Scalar::invert`, `scalar.rs` l. 607–625; the protocol model asks for it only when the value is not zero (`invertU`).  `mod_inverse` of
num-bigint is external: see `scalar_inv`. -/
noncomputable instance : Inv Sc := ⟨fun a => ⟨(paramsP.invert modInverseRef secpP a.l).getD MParams.zero, (invert_rep a).1⟩⟩

theorem val_zero : (0 : Sc).val = 0 := Sc.val_of (rep_zero valid_P)
theorem val_one : (1 : Sc).val = 1 := Sc.val_of (rep_one valid_P)
theorem val_add (a b : Sc) : (a + b).val = a.val + b.val := Sc.val_of (rep_add valid_P a.rep b.rep)
theorem val_sub (a b : Sc) : (a - b).val = a.val - b.val := Sc.val_of (rep_sub valid_P a.rep b.rep)
theorem val_neg (a : Sc) : (-a).val = -a.val := Sc.val_of (rep_neg valid_P a.rep)
theorem val_mul (a b : Sc) : (a * b).val = a.val * b.val := Sc.val_of (rep_mul valid_P a.rep b.rep)
theorem val_inv (a : Sc) : (a⁻¹).val = (a.val)⁻¹ := Sc.val_of (invert_rep a)

/-- The laws that the protocol model uses; the operations are the ones above. -/
noncomputable instance : Field Sc where
  add_assoc a b c := Sc.val_inj (by simp only [val_add]; ring)
  zero_add a := Sc.val_inj (by simp only [val_add, val_zero]; ring)
  add_zero a := Sc.val_inj (by simp only [val_add, val_zero]; ring)
  add_comm a b := Sc.val_inj (by simp only [val_add]; ring)
  neg_add_cancel a := Sc.val_inj (by simp only [val_add, val_zero, val_neg]; ring)
  sub_eq_add_neg a b := Sc.val_inj (by simp only [val_add, val_sub, val_neg]; ring)
  mul_assoc a b c := Sc.val_inj (by simp only [val_mul]; ring)
  mul_comm a b := Sc.val_inj (by simp only [val_mul]; ring)
  one_mul a := Sc.val_inj (by simp only [val_mul, val_one]; ring)
  mul_one a := Sc.val_inj (by simp only [val_mul, val_one]; ring)
  left_distrib a b c := Sc.val_inj (by simp only [val_mul, val_add]; ring)
  right_distrib a b c := Sc.val_inj (by simp only [val_mul, val_add]; ring)
  zero_mul a := Sc.val_inj (by simp only [val_mul, val_zero]; ring)
  mul_zero a := Sc.val_inj (by simp only [val_mul, val_zero]; ring)
  exists_pair_ne := ⟨0, 1, fun h => zero_ne_one (α := ZMod secpP) (by rw [← val_zero, ← val_one, h])⟩
  mul_inv_cancel a h := Sc.val_inj (by
    rw [val_mul, val_inv, val_one, mul_inv_cancel₀ fun e => h (Sc.val_inj (by rw [e, val_zero]))])
  inv_zero := Sc.val_inj (by rw [val_inv, val_zero, inv_zero])
  nsmul := nsmulRec
  zsmul := zsmulRec
  nnqsmul := _
  qsmul := _

/-! ### `GroupElement` -/

/-- `GroupElement`, `group.rs` l. 8: an `AffinePoint` of the curve.  `f` is the set of formulas of the
primeorder crate (`Model/Points`). -/
@[ext] structure GE (f : Formulas) where
  a : Aff
  ok : ∃ P, IsPoint a P

variable {f : Formulas}

instance : DecidableEq (GE f) := fun a b => decidable_of_iff (a.a = b.a) ⟨GE.ext, fun h => h ▸ rfl⟩

/-- The point of the curve that a group element stands for. -/
noncomputable def GE.val (a : GE f) : Secq := Classical.choose a.ok

theorem GE.rep (a : GE f) : IsPoint a.a a.val := Classical.choose_spec a.ok

theorem GE.val_of {a : GE f} {P : Secq} (h : IsPoint a.a P) : a.val = P :=
  (point_representation.2 a.rep h).1 rfl

theorem GE.val_inj {a b : GE f} (h : a.val = b.val) : a = b :=
  GE.ext ((point_representation.2 a.rep b.rep).2 h)

/-- `AffinePoint::identity`, `affine.rs` l. 87–89. -/
instance : Zero (GE f) := ⟨⟨affIdentity, 0, point_constants.1⟩⟩
/-- `+`, `affine.rs` l. 56–62. -/
instance : Add (GE f) := ⟨fun a b => ⟨affAdd f a.a b.a, _, (point_ops f a.rep b.rep).1⟩⟩
/-- `-`, `affine.rs` l. 70–76. -/
instance : Sub (GE f) := ⟨fun a b => ⟨affSub f a.a b.a, _, (point_ops f a.rep b.rep).2.1⟩⟩
/-- Unary `-`, `affine.rs` l. 251–257. -/
instance : Neg (GE f) := ⟨fun a => ⟨affNeg a.a, _, (point_ops f a.rep a.rep).2.2.1⟩⟩
/-- `GroupElement * Scalar`, `group.rs` l. 39–61. -/
instance : SMul Sc (GE f) := ⟨fun s a => ⟨groupMul f a.a s.l, _, (point_mul f a.rep).2 s.rep⟩⟩

theorem ge_zero : (0 : GE f).val = 0 := GE.val_of point_constants.1
theorem ge_add (a b : GE f) : (a + b).val = a.val + b.val := GE.val_of (point_ops f a.rep b.rep).1
theorem ge_sub (a b : GE f) : (a - b).val = a.val - b.val := GE.val_of (point_ops f a.rep b.rep).2.1
theorem ge_neg (a : GE f) : (-a).val = -a.val := GE.val_of (point_ops f a.rep a.rep).2.2.1
theorem ge_smul (s : Sc) (a : GE f) : (s • a).val = s.val • a.val := GE.val_of ((point_mul f a.rep).2 s.rep)

instance : AddCommGroup (GE f) where
  add_assoc a b c := GE.val_inj (by simp only [ge_add]; exact add_assoc _ _ _)
  zero_add a := GE.val_inj (by rw [ge_add, ge_zero, zero_add])
  add_zero a := GE.val_inj (by rw [ge_add, ge_zero, add_zero])
  add_comm a b := GE.val_inj (by rw [ge_add, ge_add, add_comm])
  neg_add_cancel a := GE.val_inj (by rw [ge_add, ge_neg, ge_zero, neg_add_cancel])
  sub_eq_add_neg a b := GE.val_inj (by rw [ge_sub, ge_add, ge_neg, sub_eq_add_neg])
  nsmul := nsmulRec
  zsmul := zsmulRec

instance : Module Sc (GE f) where
  one_smul a := GE.val_inj (by rw [ge_smul, val_one, one_smul])
  mul_smul s t a := GE.val_inj (by rw [ge_smul, ge_smul, ge_smul, val_mul, mul_smul])
  smul_zero s := GE.val_inj (by rw [ge_smul, ge_zero, smul_zero])
  smul_add s a b := GE.val_inj (by rw [ge_smul, ge_add, ge_add, ge_smul, ge_smul, smul_add])
  add_smul s t a := GE.val_inj (by rw [ge_smul, ge_add, ge_smul, ge_smul, val_add, add_smul])
  zero_smul a := GE.val_inj (by rw [ge_smul, val_zero, ge_zero]; exact zero_smul (ZMod secpP) a.val)

/-! ### Encodings, transcript and generators -/

theorem compress_shape (a : GE f) : sec1Shape (affCompress a.a) = true :=
  encoding_shapes.1 (Or.inl (compress_correct a.rep).1)

theorem decompress_point (bs : List UInt8) : ∀ a ∈ decoded (affDecompress bs), ∃ P, IsPoint a P := by
  intro a h
  obtain ⟨r, e, h1, -⟩ := decompress_correct bs
  rw [e] at h
  obtain ⟨P, hP, -⟩ := h1 a h
  exact ⟨P, hP⟩

/-- The calls on the merlin transcript for a message, `transcript.rs` l. 14–57; a scalar is appended as `to_bytes`
(l. 18–20, 43–47). -/
def encMsg : Msg Sc EncPt → Merlin.Call
  | .bytes l d => .append (Merlin.ascii l) (Merlin.ascii d)
  | .u64 l n => .append (Merlin.ascii l) (leBytes 8 n)
  | .blob l d => .append (Merlin.ascii l) d
  | .scalar l x => .append (Merlin.ascii l) (paramsP.toBytes x.l)
  | .point l p => .append (Merlin.ascii l) p.1
  | .chal l => .chal (Merlin.ascii l) 64

/-- The scalar from the bytes of a challenge, `transcript.rs` l. 29. -/
def scalarOf (buf : Bytes64) : Sc := ⟨challengeScalar buf, by
  unfold challengeScalar
  exact (rep_fromBytesWide valid_P buf.2).1⟩

/-- `challenge_scalar`, `transcript.rs` l. 26–30, on the transcript `Transcript::new(name)` after the messages of `t`,
the last of which is the request.  Merlin's panic on a message of 4 GB or more is given as zero here. -/
def challenge (name : String) (t : Tr Sc EncPt) : Sc :=
  match t.getLast? with
  | some (.chal l) =>
    match Merlin.challengeAfter KeccakF.keccakBytes (Merlin.ascii name) (t.dropLast.map encMsg) (Merlin.ascii l) 64 with
    | .ok bs => if h : bs.length = 64 then scalarOf ⟨bs, h⟩ else 0
    | .error _ => 0
  | _ => 0

/-- What the protocol uses: `group.rs` l. 15–37 and `transcript.rs` l. 26–30. -/
def env (f : Formulas) (name : String) : Env Sc (GE f) EncPt where
  compress a := ⟨affCompress a.a, compress_shape a⟩
  decompress p := (decoded (affDecompress p.1)).pmap GE.mk (decompress_point p.1)
  hash := challenge name

theorem uniform_point (b : List UInt8) :
    ∃ P, IsPoint (if b.length = 128 then resultOr affGenerator (uniformPoint f b) else affGenerator) P := by
  split
  · rename_i h
    obtain ⟨a, P, e, -, hP⟩ := uniform_point_correct f h
    rw [e]
    exact ⟨P, hP⟩
  · exact ⟨_, point_constants.2.1⟩

/-- The stream and the map of `MultiCommitGens::new`, `commitments.rs` l. 16–27.  Blocks have 128 bytes; nothing fails
there (C10). -/
def src (f : Formulas) : GenSrc (GE f) where
  xof label i := Shake.outByte (Shake.xofResult (Shake.input (Shake.input Shake.new label) (affCompress affGenerator))).state i
  toPoint b := ⟨if b.length = 128 then resultOr affGenerator (uniformPoint f b) else affGenerator, uniform_point b⟩

theorem raw_rep (bs : List UInt8) : (resultOr MParams.zero (paramsP.visitSeq bs)).Canon secpP := by
  obtain ⟨h1, h2⟩ := scalar_deserialize_total bs
  rcases Nat.lt_or_ge bs.length 32 with h | h
  · rw [h1 h]; exact (rep_zero valid_P).1
  · obtain ⟨a, e, ha⟩ := h2 h
    rw [e]; exact ha.1

/-- The leaves of the bincode format: `scalar.rs` l. 206–253 and `EncodedPoint`. -/
def wire (bits : Nat) : Wire Sc EncPt where
  scalar x := paramsP.serScalar x.l
  raw bs := ⟨resultOr MParams.zero (paramsP.visitSeq bs), raw_rep bs⟩
  point p := p.1
  parse bs := if h : sec1Shape bs = true then some ⟨bs, h⟩ else none
  bits := bits

theorem fromBytes_rep (bs : List UInt8) :
    ∀ a ∈ (if bs.length = 32 then paramsP.fromBytes bs else none), a.Canon secpP := by
  intro a h
  split at h
  · rename_i hl
    exact ((scalar_from_bytes hl).2 a h).1.1
  · cases h

/-- `Scalar::from_bytes` on `[u8; 32]`, `scalar.rs` l. 455–480; the digest of an instance (zlib) is a parameter. -/
def codec (digest : R1CS Sc → List UInt8) : Codec Sc where
  fromBytes bs := (if bs.length = 32 then paramsP.fromBytes bs else none).pmap Sc.mk (fromBytes_rep bs)
  digest := digest

/-- Everything that the functions of the wasm interface use, `wasm.rs` l. 19–80. -/
def wasm (f : Formulas) (bits : Nat) (digest : R1CS Sc → List UInt8) : WasmEnv Sc (GE f) EncPt :=
  (wire bits).wasmEnv (env f "nizk_example") (src f) (codec digest)

end Spartan.Mach
