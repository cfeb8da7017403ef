import Verif.Model.Machine
import Verif.Props.Run

/-!
C125 and C126: the proof system on the data that the program has in memory.

`Model/Machine` gives the types: limbs, affine points, the Merlin transcript over Keccak, the SHAKE256 stream.  C125 says
what these values and operations stand for.  C126 is completeness of `NIZK`, `SNARK` and the wasm interface on them.
-/

set_option exponentiation.threshold 2000

namespace Spartan.Mach
open MParams Spec Pt

attribute [local irreducible] secpP secpN paramsP paramsQ affAdd affSub affNeg groupMul affCompress affDecompress uniformPoint
  challengeScalar affIdentity affGenerator modInverseRef MParams.invert vartimeMsm

variable {f : Formulas}

/-! ### C125: values -/

theorem Sc.exists_val (x : ZMod secpP) : ∃ a : Sc, a.val = x := by
  obtain ⟨a, ha, -⟩ := (field_rep_bijective .secp).2 x
  exact ⟨⟨a, ha.1⟩, Sc.val_of ha⟩

theorem GE.exists_val (P : Secq) : ∃ a : GE f, a.val = P := by
  obtain ⟨a, ha⟩ := point_representation.1 P
  exact ⟨⟨a, P, ha⟩, GE.val_of ha⟩

/-- C125: the scalars of the program with its operations are the field of `p` elements. -/
theorem machine_scalars : ∃ e : Sc ≃+* ZMod secpP, ∀ a : Sc, a.l.Rep secpP (e a) :=
  ⟨{ Equiv.ofBijective Sc.val ⟨fun _ _ => Sc.val_inj, Sc.exists_val⟩ with
      map_add' := val_add
      map_mul' := val_mul }, Sc.rep⟩

/-- C125: the group elements of the program with its operations are the group of secq256k1, and multiplication by a
scalar is multiplication by the residue. -/
theorem machine_points (f : Formulas) : ∃ (k : Sc ≃+* ZMod secpP) (e : GE f ≃+ Secq),
    (∀ a : Sc, a.l.Rep secpP (k a)) ∧ (∀ a : GE f, IsPoint a.a (e a)) ∧
    ∀ (s : Sc) (a : GE f), e (s • a) = k s • e a := by
  refine ⟨{ Equiv.ofBijective Sc.val ⟨fun _ _ => Sc.val_inj, Sc.exists_val⟩ with
      map_add' := val_add
      map_mul' := val_mul },
    { Equiv.ofBijective (GE.val (f := f)) ⟨fun _ _ => GE.val_inj, GE.exists_val⟩ with map_add' := ge_add },
    Sc.rep, GE.rep, ge_smul⟩

theorem forall₂_sc (ss : List Sc) : List.Forall₂ (Limbs.Rep secpP) (ss.map Sc.l) (ss.map Sc.val) := by
  induction ss with
  | nil => exact .nil
  | cons a ss ih => exact .cons a.rep ih

theorem forall₂_ge (ps : List (GE f)) : List.Forall₂ IsPoint (ps.map GE.a) (ps.map GE.val) := by
  induction ps with
  | nil => exact .nil
  | cons a ps ih => exact .cons a.rep ih

theorem msm_val : ∀ (ss : List Sc) (ps : List (GE f)),
    msm (ss.map Sc.val) (ps.map GE.val) = (msm ss ps).map GE.val
  | [], ps => by
    simp only [List.map_nil, msm]
    exact congrArg Except.ok ge_zero.symm
  | s :: ss, [] => by simp only [List.map_nil, List.map_cons, msm]; rfl
  | s :: ss, p :: ps => by
    simp only [List.map_cons, msm, msm_val ss ps]
    cases msm ss ps with
    | error e => rfl
    | ok r =>
      show Except.ok _ = Except.ok (s • p + r).val
      rw [ge_add, ge_smul]

/-- C125: `vartime_multiscalar_mul` (debug or release build) returns, on any lists, what the protocol model computes,
and panics when it does. -/
theorem machine_msm (debug : Bool) (ss : List Sc) (ps : List (GE f)) :
    vartimeMsm f debug (ss.map Sc.l) (ps.map GE.a) = (msm ss ps).map GE.a := by
  obtain ⟨h1, h2⟩ := multiscalar_mul_refines f debug (forall₂_sc ss) (forall₂_ge ps)
  rw [msm_val] at h1 h2
  cases h : msm ss ps with
  | error e =>
    rw [h] at h2
    rw [h2 e rfl]
    rfl
  | ok r =>
    rw [h] at h1
    obtain ⟨a, e, ha⟩ := h1 r.val rfl
    rw [e]
    exact congrArg Except.ok ((point_representation.2 ha r.rep).2 rfl)

/-- C125: `invert` of the code, over any correct `mod_inverse`, is the inverse of the field, and `None` on zero only. -/
theorem machine_invert {inv : Nat → Nat → Option Nat} (hinv : ModInverseSpec inv) (a : Sc) :
    paramsP.invert inv secpP a.l = if a = 0 then none else some (a⁻¹).l := by
  obtain ⟨h0, h1⟩ := scalar_invert hinv a.rep
  split_ifs with h
  · exact h0 (by rw [h, val_zero])
  · obtain ⟨b, e, hb⟩ := h1 fun e => h (Sc.val_inj (by rw [e, val_zero]))
    rw [e]
    have hr := (a⁻¹).rep
    rw [val_inv] at hr
    exact congrArg some (rep_inj valid_P hb hr)

theorem val_prod : ∀ l : List Sc, l.prod.val = (l.map Sc.val).prod
  | [] => val_one
  | a :: l => by rw [List.prod_cons, val_mul, val_prod l, List.map_cons, List.prod_cons]

/-- C125: `batch_invert` of the code is that of the protocol model: it panics when an entry is zero and otherwise returns
the inverses and their product. -/
theorem machine_batch_invert {inv : Nat → Nat → Option Nat} (hinv : ModInverseSpec inv) (l : List Sc) :
    paramsP.batchInvertL inv secpP (l.map Sc.l) = (batchInvert l).map fun r => (r.1.map Sc.l, r.2.l) := by
  obtain ⟨h0, h1⟩ := batch_invert_correct hinv (forall₂_sc l)
  have hmem : (0 : ZMod secpP) ∈ l.map Sc.val ↔ (0 : Sc) ∈ l := by
    rw [List.mem_map]
    refine ⟨fun ⟨a, ha, e⟩ => ?_, fun h => ⟨0, h, val_zero⟩⟩
    rwa [Sc.val_inj (e.trans val_zero.symm)] at ha
  unfold batchInvert
  by_cases h : (0 : Sc) ∈ l
  · rw [(h0 (hmem.2 h)).1, if_pos h]
    rfl
  · obtain ⟨l', b, e, hl, hb, -⟩ := h1 fun k => h (hmem.1 k)
    rw [e, if_neg h]
    have e1 : (l.map Sc.val).map (·⁻¹) = (l.map (·⁻¹)).map Sc.val := by
      simp only [List.map_map]
      exact List.map_congr_left fun a _ => (val_inv a).symm
    have hl2 : l' = (l.map (·⁻¹)).map Sc.l := by
      rw [e1] at hl
      have hr := forall₂_sc (l.map (·⁻¹))
      generalize (l.map (·⁻¹)).map Sc.l = m, (l.map (·⁻¹)).map Sc.val = v at hl hr
      clear e e1 hb h0 h1 hmem h
      induction hl generalizing m with
      | nil => cases hr; rfl
      | cons hx _ ih =>
        cases hr with
        | cons hy hr => rw [rep_inj valid_P hx hy, ih _ hr]
    have hb2 : b = ((l.prod)⁻¹).l := by
      have hr := ((l.prod)⁻¹).rep
      rw [val_inv, val_prod] at hr
      have e2 : ((l.map Sc.val).map (·⁻¹)).prod = ((l.map Sc.val).prod)⁻¹ := by
        generalize l.map Sc.val = v
        induction v with
        | nil => simp
        | cons x v ih => rw [List.map_cons, List.prod_cons, List.prod_cons, ih, mul_inv]
      rw [e2] at hb
      exact rep_inj valid_P hb hr
    rw [hl2, hb2]
    rfl

theorem val_natCast (n : ℕ) : ((n : Sc)).val = (n : ZMod secpP) := by
  induction n with
  | zero => rw [Nat.cast_zero, Nat.cast_zero, val_zero]
  | succ n ih => rw [Nat.cast_succ, Nat.cast_succ, val_add, ih, val_one]

/-- C125: numbers in the protocol model are `usize::to_scalar` of the code. -/
theorem machine_usize (n : ℕ) : ((n : Sc)).l = usizeToScalar n := by
  have h := ((n : Sc)).rep
  rw [val_natCast] at h
  exact rep_inj valid_P h (to_scalar_correct.1 n)

/-! ### C125: encodings -/

/-- C125: `compress` writes the standard encoding, `decompress` accepts exactly the encodings of points and returns that
point, and a compressed point is read back. -/
theorem machine_encodings (name : String) :
    (∀ a : GE f, IsCompressed ((env f name).compress a).1 a.val) ∧
    (∀ (p : EncPt) (a : GE f), (env f name).decompress p = some a ↔ IsCompressed p.1 a.val ∨ IsUncompressed p.1 a.val) ∧
    (env f name).Lawful := by
  have hd : ∀ (p : EncPt) (a : GE f), (env f name).decompress p = some a ↔
      IsCompressed p.1 a.val ∨ IsUncompressed p.1 a.val := by
    intro p a
    obtain ⟨r, e, h1, h2⟩ := decompress_correct p.1
    have hr : decoded (affDecompress p.1) = r := by rw [e]; rfl
    show (decoded (affDecompress p.1)).pmap GE.mk (decompress_point p.1) = some a ↔ _
    rw [Option.pmap_eq_some_iff]
    constructor
    · rintro ⟨b, hb, hm, rfl⟩
      rw [hr] at hm
      obtain ⟨P, hP, he⟩ := h1 b hm
      rw [GE.val_of (a := ⟨b, hb⟩) hP]
      exact he
    · intro h
      obtain ⟨b, hb, hP⟩ := h2 _ h
      refine ⟨b, ⟨_, hP⟩, by rw [hr]; exact hb, ?_⟩
      exact GE.ext ((point_representation.2 a.rep hP).2 rfl)
  refine ⟨fun a => (compress_correct a.rep).1, hd, fun a => ?_⟩
  exact (hd _ a).2 (Or.inl (compress_correct a.rep).1)

/-- C125: what bincode writes for a scalar is its 32 bytes, and what it reads from 32 bytes is the residue of their
number; scalars and points are read back. -/
theorem machine_wire {bits : Nat} (h7 : 7 ≤ bits) (h64 : bits ≤ 64) :
    (∀ x : Sc, (wire bits).scalar x = leBytes 32 x.val.val) ∧
    (∀ bs : List UInt8, bs.length = 32 → ((wire bits).raw bs).val = (leNat bs : ZMod secpP)) ∧
    (wire bits).Lawful := by
  have hs : ∀ x : Sc, (wire bits).scalar x = leBytes 32 x.val.val := fun x => (secqWire_limbs bits x.rep).1.symm
  have hraw : ∀ bs : List UInt8, bs.length = 32 → ((wire bits).raw bs).val = (leNat bs : ZMod secpP) := by
    intro bs hl
    obtain ⟨a, e, ha⟩ := scalar_deserialize hl
    refine Sc.val_of ?_
    show (resultOr MParams.zero (paramsP.visitSeq bs)).Rep secpP _
    rw [e]
    exact ha
  have L := secqWire_lawful h7 h64
  refine ⟨hs, hraw, ⟨L.bits_lo, L.bits_hi, fun x => ?_, fun x => ?_, L.parse_point, L.point_parse, L.point_len⟩⟩
  · rw [hs]; exact leBytes_length 32 _
  · refine Sc.val_inj ?_
    rw [hraw _ (by rw [hs]; exact leBytes_length 32 _), hs]
    exact L.raw_scalar x.val

/-- C125: `Scalar::from_bytes` on 32 bytes accepts exactly the numbers below `p`. -/
theorem machine_from_bytes (digest : R1CS Sc → List UInt8) {bs : List UInt8} (hl : bs.length = 32) :
    (leNat bs < secpP → ∃ a, (codec digest).fromBytes bs = some a ∧ a.val = (leNat bs : ZMod secpP)) ∧
    (secpP ≤ leNat bs → (codec digest).fromBytes bs = none) := by
  obtain ⟨h1, h2⟩ := scalar_from_bytes hl
  have e : ∀ o : Option Limbs, paramsP.fromBytes bs = o →
      (if bs.length = 32 then paramsP.fromBytes bs else none) = o := fun o h => by rw [if_pos hl, h]
  refine ⟨fun h => ?_, fun h => ?_⟩
  · obtain ⟨a, ha⟩ := h1.2 h
    have hr := (h2 a ha).1
    refine ⟨⟨a, hr.1⟩, ?_, Sc.val_of hr⟩
    exact Option.pmap_eq_some_iff.2 ⟨a, hr.1, e _ ha, rfl⟩
  · refine Option.pmap_eq_none_iff.2 (e _ ?_)
    cases h0 : paramsP.fromBytes bs with
    | none => rfl
    | some a => exact absurd (h1.1 ⟨a, h0⟩) (Nat.not_lt.2 h)

/-! ### C125: generators and challenges -/

/-- C125: the generators are those of C118. -/
theorem machine_generators (f : Formulas) (label : List UInt8) (i : ℕ) :
    IsGenerator label i (((src f).toPoint ((src f).block label i)).val) := by
  have hg : affCompress affGenerator = secqCompress Shake.generator := (compress_correct point_constants.2.1).2
  have hb : (src f).block label i = Shake.block label i := by
    rw [GenSrc.block, Shake.block, src]
    dsimp only
    rw [hg]
  obtain ⟨P, e, h⟩ := Shake.block_generator label i
  have hl : (Shake.block label i).length = 128 := by simp [Shake.block]
  obtain ⟨a, Q, e1, e2, hQ⟩ := uniform_point_correct f hl
  rw [e] at e2
  cases e2
  have : ((src f).toPoint ((src f).block label i)).val = P := by
    refine GE.val_of ?_
    rw [hb]
    show IsPoint (if (Shake.block label i).length = 128 then resultOr affGenerator (uniformPoint f (Shake.block label i))
      else affGenerator) P
    rw [if_pos hl, e1]
    exact hQ
  rw [this]
  exact h

/-- A message of the machine with the values for the limbs. -/
noncomputable def msgVal : Msg Sc EncPt → Msg (ZMod secpP) EncPt
  | .bytes l d => .bytes l d
  | .u64 l n => .u64 l n
  | .blob l d => .blob l d
  | .scalar l x => .scalar l x.val
  | .point l p => .point l p
  | .chal l => .chal l

theorem encMsg_val (m : Msg Sc EncPt) : Merlin.encMsg (msgVal m) = encMsg m := by
  cases m with
  | scalar l x =>
    simp only [msgVal, Merlin.encMsg, encMsg]
    exact congrArg _ (secqWire_limbs 32 x.rep).1
  | _ => rfl

theorem plains_val {ms : Tr Sc EncPt} (h : Merlin.Plains ms) : Merlin.Plains (ms.map msgVal) := by
  intro m hm
  obtain ⟨m, hm', rfl⟩ := List.mem_map.mp hm
  have := h m hm'
  cases m <;> exact this

/-- C125: the challenge of the program is the reduction of 64 bytes of the sponge with Keccak-f[1600] on the blocks of the
messages before it. -/
theorem machine_challenge {name : String} (hname : (Merlin.ascii name).length < 2 ^ 32) {ms : Tr Sc EncPt}
    (h : Merlin.Plains ms) (l : String) :
    ((env f name).hash (ms ++ [.chal l])).val =
      challengeValue (Merlin.output64 (Merlin.sponge Spec.Keccak.permBytes (Merlin.blocks name (ms.map msgVal ++ [.chal l])))) := by
  have k := Merlin.code_challenge_keccak hname (plains_val h) l
  have em : (ms.map msgVal).map Merlin.encMsg = ms.map encMsg := by
    rw [List.map_map]
    exact List.map_congr_left fun m _ => encMsg_val m
  unfold Merlin.codeChallenge at k
  rw [List.getLast?_concat, List.dropLast_concat, em] at k
  show (challenge name _).val = _
  unfold challenge
  rw [List.getLast?_concat, List.dropLast_concat]
  simp only at k ⊢
  generalize Merlin.challengeAfter KeccakF.keccakBytes (Merlin.ascii name) (ms.map encMsg) (Merlin.ascii l) 64 = r at k ⊢
  cases r with
  | error e => cases k
  | ok bs =>
    simp only at k ⊢
    split_ifs at k ⊢ with hl
    rw [← Option.some.inj k]
    exact Sc.val_of (challengeValue_eq ⟨bs, hl⟩).2

/-! ### C126: completeness -/

theorem two_ne : (2 : Sc) ≠ 0 := fun h => Koblitz.secp_consts.1 (by
  have := val_natCast 2
  rw [Nat.cast_ofNat, h, val_zero] at this
  rw [this, Nat.cast_ofNat])

theorem three_ne : (3 : Sc) ≠ 0 := fun h => Koblitz.secp_consts.2.1 (by
  have := val_natCast 3
  rw [Nat.cast_ofNat, h, val_zero] at this
  rw [this, Nat.cast_ofNat])

/-- C126 for the NIZK: on the limbs and points in memory, with the generators and challenges of the code.  For every
instance and satisfying assignment there is a transcript `T`, that of the prover with zero folding challenges replaced by
one, such that, if no folding challenge in `T` is zero, the prover succeeds, absorbs `T`, and the verifier accepts its
proof; every challenge in `T` is then 64 bytes of the sponge, reduced. -/
theorem machine_nizk_complete (f : Formulas) {name : String} (hname : (Merlin.ascii name).length < 2 ^ 32)
    {digest : R1CS Sc → List UInt8} {nc nv ni : Nat} {A B C : List (Nat × Nat × List UInt8)} {I : Inst Sc}
    (hnew : Inst.new (codec digest) nc nv ni A B C = .ok (.ok I)) (hc : 1 ≤ nc) (hsz : I.inst.numVars ≤ 2 ^ 62)
    (hd : I.digest.length < 2 ^ 32) (label : List UInt8) {vars inputs : List Sc}
    (hsat : I.isSat vars inputs = .ok (.ok true)) (tape : Tape Sc) :
    ∃ gens pf T, NIZKGens.new (src f) label nv ni = .ok gens ∧
      NIZK.prove ((env f name).withHash (nonzeroFold (env f name).hash)) I vars inputs gens [] tape = .ok (pf, T) ∧
      (NoZeroFold (env f name).hash T →
        NIZK.prove (env f name) I vars inputs gens [] tape = .ok (pf, T) ∧
        NIZK.verify (env f name) pf I inputs gens [] = .ok T ∧
        ∀ a b l, T = a ++ .chal l :: b → ((env f name).hash (a ++ [.chal l])).val = challengeValue (Merlin.output64
          (Merlin.sponge Spec.Keccak.permBytes (Merlin.blocks name (a.map msgVal ++ [.chal l]))))) := by
  obtain ⟨gens, pf, T, hg, hp, -, -, h⟩ := nizk_complete_run two_ne three_ne (machine_encodings (f := f) name).2.2 hnew hc hsz
    (src f) label hsat [] tape
  refine ⟨gens, pf, T, hg, hp, fun hz => ⟨(h hz).1, (h hz).2, fun a b l e => machine_challenge hname ?_ l⟩⟩
  have hpl := Merlin.nizk_plain (tr := []) (by intro m hm; cases hm) hd T (h hz).2
  rw [e] at hpl
  exact (Merlin.Plains.append.mp hpl).1

/-- C126 for the SNARK, under the size conditions of C44. -/
theorem machine_snark_complete (f : Formulas) (name : String)
    {digest : R1CS Sc → List UInt8} {nc nv ni nz : Nat} {A B C : List (Nat × Nat × List UInt8)} {I : Inst Sc}
    (hnew : Inst.new (codec digest) nc nv ni A B C = .ok (.ok I)) (hc : 1 ≤ nc)
    (hnz : nextPow2 nz = nextPow2 (max (max I.inst.A.M.length I.inst.B.M.length) I.inst.C.M.length))
    (hnz2 : 2 ≤ nextPow2 nz) (hnz58 : nextPow2 nz ≤ 2 ^ 58) (hsc : I.inst.numCons ≤ 2 ^ 61)
    (hsv : I.inst.numVars ≤ 2 ^ 60) (ls le : List UInt8) {vars inputs : List Sc}
    (hsat : I.isSat vars inputs = .ok (.ok true)) (tape : Tape Sc) :
    ∃ gens comm decomm pf T, SNARKGens.new (src f) ls le nc nv ni nz = .ok gens ∧
      SNARK.encode (env f name) I gens = .ok (comm, decomm) ∧
      SNARK.prove ((env f name).withHash (nonzeroFold (env f name).hash)) I comm decomm vars inputs gens [] tape =
        .ok (pf, T) ∧
      (NoZeroFold (env f name).hash T →
        SNARK.prove (env f name) I comm decomm vars inputs gens [] tape = .ok (pf, T) ∧
        SNARK.verify (env f name) pf comm inputs gens [] = .ok T) := by
  obtain ⟨gens, comm, decomm, pf, T, hg, he, hp, -, h⟩ := snark_complete_run two_ne three_ne
    (machine_encodings (f := f) name).2.2 hnew hc hnz hnz2 hnz58 hsc hsv (src f) ls le hsat [] tape
  exact ⟨gens, comm, decomm, pf, T, hg, he, hp, h⟩

/-- The residue of a coefficient as the reader hands it over. -/
def coefRes (c : Nat) : ZMod secpP := (leNat (coreToRepr c) : ZMod secpP)

theorem coreToRepr_length (c : Nat) : (coreToRepr c).length = 32 := by
  rw [coreToRepr, beBytes32, List.length_reverse, leBytes_length]

theorem val_evalLC {v : Nat → Sc} {v' : Nat → ZMod secpP} : ∀ {l : LinComb}, (∀ t ∈ l, (v t.2).val = v' t.2) →
    ∀ w : List Sc, (evalLC v l w).val = evalLC v' l (w.map Sc.val)
  | [], _, w => val_zero
  | t :: l, h, w => by
    have e1 : evalLC v (t :: l) w = v t.2 * w.getD t.1 0 + evalLC v l w := by
      unfold evalLC; rw [List.map_cons, List.sum_cons]
    have e2 : evalLC v' (t :: l) (w.map Sc.val) = v' t.2 * (w.map Sc.val).getD t.1 0 + evalLC v' l (w.map Sc.val) := by
      unfold evalLC; rw [List.map_cons, List.sum_cons]
    rw [e1, e2, val_add, val_mul, h t (List.mem_cons_self ..), val_evalLC (fun u hu => h u (List.mem_cons_of_mem _ hu)) w]
    congr 2
    rw [List.getD_eq_getElem?_getD, List.getD_eq_getElem?_getD, List.getElem?_map]
    cases w[t.1]? with
    | none => exact val_zero
    | some x => rfl

theorem chunk_length {pub : List UInt8} {numPub : Nat} (hlen : numPub * 32 ≤ pub.length) :
    ∀ b ∈ chunks pub numPub, b.length = 32 := by
  intro b hb
  simp only [chunks, List.mem_map, List.mem_range] at hb
  obtain ⟨i, hi, rfl⟩ := hb
  have : (i + 1) * 32 ≤ numPub * 32 := Nat.mul_le_mul_right _ hi
  rw [List.length_take, List.length_drop]
  omega

theorem field_bytes (digest : R1CS Sc → List UInt8) {w : Nat} (hw : w < secpP) :
    ∃ a, (codec digest).fromBytes (encField w) = some a ∧ a.val = (w : ZMod secpP) := by
  have hn : leNat (encField w) = w := by
    rw [encField, leNat_leBytes, Nat.mod_eq_of_lt (hw.trans secpP_lt)]
  obtain ⟨a, e, ha⟩ := (machine_from_bytes digest (bs := encField w) (leBytes_length 32 w)).1 (by
    rw [hn]; exact hw)
  rw [hn] at ha
  exact ⟨a, e, ha⟩

theorem machine_convertible (digest : R1CS Sc → List UInt8) {r : CircomR1CS}
    (hr : ∀ c ∈ r.constraints, ∀ t ∈ c.1 ++ c.2.1 ++ c.2.2, t.1 < r.numVariables ∧ leNat (coreToRepr t.2) < secpP) :
    Convertible (codec digest) r := by
  intro c hc t ht
  obtain ⟨h1, h2⟩ := hr c hc t ht
  obtain ⟨a, e, -⟩ := (machine_from_bytes digest (coreToRepr_length t.2)).1 h2
  exact ⟨h1, by rw [e]; rfl⟩

theorem machine_consHold (digest : R1CS Sc → List UInt8) {r : CircomR1CS}
    (hr : ∀ c ∈ r.constraints, ∀ t ∈ c.1 ++ c.2.1 ++ c.2.2, t.1 < r.numVariables ∧ leNat (coreToRepr t.2) < secpP)
    {ws : List Nat} (hws : ∀ w ∈ ws, w < secpP)
    (hsat : ConsHold coefRes (r.constraints.map toCon) (ws.map fun w : Nat => (w : ZMod secpP))) :
    ConsHold (coefVal (codec digest)) (r.constraints.map toCon)
      (ws.map fun w => ((codec digest).fromBytes (encField w)).getD 0) := by
  have hcoef : ∀ c ∈ r.constraints, ∀ t ∈ c.1 ++ c.2.1 ++ c.2.2, (coefVal (codec digest) t.2).val = coefRes t.2 := by
    intro c hc t ht
    obtain ⟨a, e, ha⟩ := (machine_from_bytes digest (coreToRepr_length t.2)).1 (hr c hc t ht).2
    unfold coefVal
    rw [e]
    exact ha
  have hwv : (ws.map fun w => ((codec digest).fromBytes (encField w)).getD 0).map Sc.val =
      ws.map fun w : Nat => (w : ZMod secpP) := by
    rw [List.map_map]
    refine List.map_congr_left fun w hm => ?_
    obtain ⟨a, e, ha⟩ := field_bytes digest (hws w hm)
    rw [Function.comp_apply, e]
    exact ha
  intro c hm
  have h := hsat c hm
  obtain ⟨c, hcm, rfl⟩ := List.mem_map.mp hm
  have hco := hcoef c hcm
  refine Sc.val_inj ?_
  rw [val_mul, val_evalLC (l := (toCon c).a) (v' := coefRes), val_evalLC (l := (toCon c).b) (v' := coefRes),
    val_evalLC (l := (toCon c).c) (v' := coefRes), hwv]
  · exact h
  · exact fun t ht => hco t (List.mem_append_right _ ht)
  · exact fun t ht => hco t (List.mem_append_left _ (List.mem_append_right _ ht))
  · exact fun t ht => hco t (List.mem_append_left _ (List.mem_append_left _ ht))

/-- C126 for the wasm interface and any hash in the place of the one of the program. -/
theorem machine_prove_verify_hash (f : Formulas) {bits : Nat} (h32 : 32 ≤ bits) (h64 : bits ≤ 64)
    {digest : R1CS Sc → List UInt8} {r : CircomR1CS}
    (hr : ∀ c ∈ r.constraints, ∀ t ∈ c.1 ++ c.2.1 ++ c.2.2, t.1 < r.numVariables ∧ leNat (coreToRepr t.2) < secpP)
    (hc : r.constraints ≠ []) {numPub : Nat} {I : Inst Sc} (hI : convertToSpartan (codec digest) r numPub = .ok I)
    (hok : (wire bits).okInst I) (hsz : I.inst.numVars ≤ 2 ^ 62)
    {pub : List UInt8} (hlen : numPub * 32 ≤ pub.length) (hcanon : ∀ b ∈ chunks pub numPub, leNat b < secpP)
    {version : Nat} {prime : List UInt8} {ws : List Nat}
    (hv : version ≤ 2) (hp : prime.length = 32) (hw : ws.length < 2 ^ 27)
    (hwl : ws.length = r.numVariables) (hws : ∀ w ∈ ws, Readable w ∧ w < secpP)
    (hsat : ConsHold coefRes (r.constraints.map toCon) (ws.map fun w : Nat => (w : ZMod secpP)))
    (label : List UInt8) (tape : Tape Sc) (hash : Tr Sc EncPt → Sc) :
    ∃ pf T, wasmProveRun ((wire bits).wasmEnv ((env f "nizk_example").withHash (nonzeroFold hash))
        (src f) (codec digest)) label [] tape ((wire bits).fInst.enc I) (encWtns version prime (32 * ws.length) ws) pub =
        .ok (pf, T) ∧ folds T ≤ 31 ∧
      (NoZeroFold hash T →
        wasmProve ((wire bits).wasmEnv ((env f "nizk_example").withHash hash) (src f) (codec digest)) label [] tape
          ((wire bits).fInst.enc I) (encWtns version prime (32 * ws.length) ws) pub = .ok ((wire bits).fNIZK.enc pf) ∧
        wasmVerify ((wire bits).wasmEnv ((env f "nizk_example").withHash hash) (src f) (codec digest)) label []
          ((wire bits).fInst.enc I) ((wire bits).fNIZK.enc pf) pub = .ok true) := by
  obtain ⟨pf, T, h1, -, h3, h2⟩ := wasm_prove_verify_run two_ne three_ne (W := wire bits)
    (machine_wire (by omega) h64).2.2 h32 (E := (env f "nizk_example").withHash hash) (src := src f)
    ((machine_encodings (f := f) "nizk_example").2.2.withHash hash) (machine_convertible digest hr) hc hI hok hsz hlen
    (fun b hb => by
      obtain ⟨a, e, -⟩ := (machine_from_bytes digest (chunk_length hlen b hb)).1 (hcanon b hb)
      rw [e]; rfl) hv hp hw hwl
    (fun w hm => ⟨(hws w hm).1, by obtain ⟨a, e, -⟩ := field_bytes digest (hws w hm).2; rw [e]; rfl⟩)
    (machine_consHold digest hr (fun w hm => (hws w hm).2) hsat) label [] tape
  exact ⟨pf, T, h1, by simpa [folds] using h3, h2⟩

/-- C126 for the wasm interface, on bytes: for every circuit whose coefficients are below `p` and whose wires exist, every
witness file of a satisfying assignment and every public input below `p`, there is a transcript `T`, that of the prover
with zero folding challenges replaced by one, such that, if no folding challenge in `T` is zero, `prove` returns the bytes
of a proof and `verify` returns true on them. -/
theorem machine_prove_verify (f : Formulas) {bits : Nat} (h32 : 32 ≤ bits) (h64 : bits ≤ 64)
    {digest : R1CS Sc → List UInt8} {r : CircomR1CS}
    (hr : ∀ c ∈ r.constraints, ∀ t ∈ c.1 ++ c.2.1 ++ c.2.2, t.1 < r.numVariables ∧ leNat (coreToRepr t.2) < secpP)
    (hc : r.constraints ≠ []) {numPub : Nat} {I : Inst Sc} (hI : convertToSpartan (codec digest) r numPub = .ok I)
    (hok : (wire bits).okInst I) (hsz : I.inst.numVars ≤ 2 ^ 62)
    {pub : List UInt8} (hlen : numPub * 32 ≤ pub.length) (hcanon : ∀ b ∈ chunks pub numPub, leNat b < secpP)
    {version : Nat} {prime : List UInt8} {ws : List Nat}
    (hv : version ≤ 2) (hp : prime.length = 32) (hw : ws.length < 2 ^ 27)
    (hwl : ws.length = r.numVariables) (hws : ∀ w ∈ ws, Readable w ∧ w < secpP)
    (hsat : ConsHold coefRes (r.constraints.map toCon) (ws.map fun w : Nat => (w : ZMod secpP)))
    (label : List UInt8) (tape : Tape Sc) :
    ∃ pf T, wasmProveRun ((wire bits).wasmEnv ((env f "nizk_example").withHash (nonzeroFold (env f "nizk_example").hash))
        (src f) (codec digest)) label [] tape ((wire bits).fInst.enc I) (encWtns version prime (32 * ws.length) ws) pub =
        .ok (pf, T) ∧
      (NoZeroFold (env f "nizk_example").hash T →
        wasmProve (wasm f bits digest) label [] tape ((wire bits).fInst.enc I)
          (encWtns version prime (32 * ws.length) ws) pub = .ok ((wire bits).fNIZK.enc pf) ∧
        wasmVerify (wasm f bits digest) label [] ((wire bits).fInst.enc I) ((wire bits).fNIZK.enc pf) pub = .ok true) := by
  obtain ⟨pf, T, h1, -, h2⟩ := machine_prove_verify_hash f h32 h64 hr hc hI hok hsz hlen hcanon hv hp hw hwl hws hsat label
    tape (env f "nizk_example").hash
  exact ⟨pf, T, h1, h2⟩

/-- The hypotheses of `machine_prove_verify` (and of the theorems it rests on) hold of a circuit, a witness and a public
input: `3 * 3 = 9`. -/
example (f : Formulas) (label : List UInt8) (tape : Tape Sc) : ∃ I pf T,
    convertToSpartan (codec (fun _ => [1, 2, 3])) squareCircuit 1 = .ok I ∧
    wasmProveRun ((wire 32).wasmEnv ((env f "nizk_example").withHash (nonzeroFold (env f "nizk_example").hash))
      (src f) (codec (fun _ => [1, 2, 3]))) label [] tape ((wire 32).fInst.enc I)
      (encWtns 2 (List.replicate 32 0) (32 * 3) [1, 3, 9]) (leBytes 32 3) = .ok (pf, T) ∧
    (NoZeroFold (env f "nizk_example").hash T →
      wasmVerify (wasm f 32 (fun _ => [1, 2, 3])) label [] ((wire 32).fInst.enc I) ((wire 32).fNIZK.enc pf)
        (leBytes 32 3) = .ok true) := by
  have h1 : leNat (coreToRepr (swapped 1)) = 1 := by
    rw [coreToRepr_swapped]
    decide +kernel
  have hr : ∀ c ∈ squareCircuit.constraints, ∀ t ∈ c.1 ++ c.2.1 ++ c.2.2,
      t.1 < squareCircuit.numVariables ∧ leNat (coreToRepr t.2) < secpP := by
    intro c hc t ht
    simp only [squareCircuit, List.mem_singleton] at hc
    subst hc
    simp only [List.cons_append, List.nil_append, List.mem_cons, List.not_mem_nil, or_false] at ht
    rcases ht with rfl | rfl | rfl <;> exact ⟨by simp [squareCircuit], by rw [h1]; decide +kernel⟩
  have hconv : Convertible (codec (fun _ => [1, 2, 3])) squareCircuit := by
    intro c hc t ht
    obtain ⟨a, e, -⟩ := (machine_from_bytes (fun _ => [1, 2, 3]) (coreToRepr_length t.2)).1 (hr c hc t ht).2
    exact ⟨(hr c hc t ht).1, by rw [e]; rfl⟩
  obtain ⟨I, hI, hnew⟩ := convert_eq (numPub := 1) hconv
  have hvp : varsPadded 3 1 = 4 := by decide +kernel
  have hcp : consPadded 1 = 2 := by decide +kernel
  have hA : ∀ sel, (matTriples sel squareCircuit.constraints).length =
      (sel ([(1, swapped 1)], [(1, swapped 1)], [(2, swapped 1)])).length := by
    intro sel
    simp [matTriples, squareCircuit]
  have hok : (wire 32).okR1CS I.inst := by
    refine okR1CS_of_new hnew ?_ ?_
    · rw [hA, hA, hA]
      show consPadded 1 + _ < 2 ^ 32
      rw [hcp]
      simp only [List.length_singleton, max_self]
      omega
    · show 2 * varsPadded 3 1 < 2 ^ 32
      rw [hvp]; omega
  have hdig : I.digest = [1, 2, 3] := by
    obtain ⟨-, -, -, rfl⟩ := new_ok_entries hnew
    rfl
  have hnv : I.inst.numVars = 4 := by
    obtain ⟨-, -, -, rfl⟩ := new_ok_entries hnew
    exact hvp
  have hch : chunks (leBytes 32 3) 1 = [leBytes 32 3] := by decide +kernel
  have h3 : leNat (leBytes 32 3) = 3 := by decide +kernel
  have hk : coefRes (swapped 1) = 1 := by rw [coefRes, h1, Nat.cast_one]
  obtain ⟨pf, T, hp, hv⟩ := machine_prove_verify f (bits := 32) (by norm_num) (by norm_num) (digest := fun _ => [1, 2, 3])
    hr (by simp [squareCircuit]) hI ⟨hok, by rw [Wire.fits, hdig]; norm_num [wire]⟩ (by rw [hnv]; norm_num)
    (pub := leBytes 32 3) (by rw [leBytes_length])
    (by intro b hb; rw [hch, List.mem_singleton] at hb; rw [hb, h3]; decide +kernel)
    (version := 2) (prime := List.replicate 32 0) (ws := [1, 3, 9]) (le_refl 2) (by simp) (by norm_num) rfl
    (by decide +kernel)
    (by
      intro c hc
      simp only [squareCircuit, List.map_cons, List.map_nil, List.mem_singleton] at hc
      subst hc
      simp only [toCon, evalLC, List.map_cons, List.map_nil, List.sum_cons, List.sum_nil, add_zero, hk]
      norm_num)
    label tape
  exact ⟨I, pf, T, hI, hp, fun hz => (hv hz).2⟩

end Spartan.Mach
