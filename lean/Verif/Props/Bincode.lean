import Verif.Lemmas.Bincode
import Verif.Lemmas.ProofSize
import Verif.Props.Convert
import Verif.Props.Concrete
import Verif.Props.Hiding

/-!
C69, C73–C76: proofs, circuits and public inputs as byte strings.
-/

namespace Spartan

open Spec MParams

/-! ### The leaves at the actual scalar field and point encoding -/

/-- An `EncodedPoint`: bytes with a SEC1 tag and the length that belongs to it. -/
abbrev EncPt := {bs : List UInt8 // sec1Shape bs = true}

/-- The wire format of the crate: a scalar is its canonical value in little-endian, an encoded point
is its bytes. -/
def secqWire (bits : Nat) : Wire (ZMod secpP) EncPt where
  scalar x := leBytes 32 x.val
  raw bs := (leNat bs : ZMod secpP)
  point p := p.1
  parse bs := if h : sec1Shape bs = true then some ⟨bs, h⟩ else none
  bits := bits

theorem sec1Shape_length {bs : List UInt8} (h : sec1Shape bs = true) : bs.length ≤ 65 := by
  unfold sec1Shape at h
  split at h
  · cases h
  · simp only [Bool.or_eq_true, Bool.and_eq_true, beq_iff_eq] at h
    rw [List.length_cons]
    omega

theorem secpP_lt : secpP < 256 ^ 32 := by decide +kernel

theorem secqWire_lawful {bits : Nat} (h7 : 7 ≤ bits) (h64 : bits ≤ 64) : (secqWire bits).Lawful where
  bits_lo := by simp only [secqWire]; omega
  bits_hi := h64
  scalar_len x := leBytes_length 32 _
  raw_scalar x := by
    have : x.val < secpP := ZMod.val_lt x
    simp only [secqWire]
    rw [leNat_leBytes, Nat.mod_eq_of_lt (this.trans secpP_lt), ZMod.natCast_zmod_val]
  parse_point p := by simp [secqWire, p.2]
  point_parse bs p h := by
    simp only [secqWire] at h
    split_ifs at h with hs
    cases h; rfl
  point_len p := by
    have := sec1Shape_length p.2
    have h2 : 2 ^ 7 ≤ 2 ^ bits := Nat.pow_le_pow_right (by norm_num) h7
    simp only [secqWire]
    omega

/-- The wire format of a scalar is the limb code: what `serialize` writes and what the visitor makes
of 32 bytes (`Model/Limbs.lean`). -/
theorem secqWire_limbs (bits : Nat) {a : Limbs} {x : ZMod secpP} (ha : a.Rep secpP x) :
    (secqWire bits).scalar x = paramsP.serScalar a ∧
    ∀ bs : List UInt8, bs.length = 32 →
      ∃ b, paramsP.visitSeq bs = .ok b ∧ b.Rep secpP ((secqWire bits).raw bs) := by
  refine ⟨?_, fun bs hl => scalar_deserialize hl⟩
  obtain ⟨h1, h2, -⟩ := scalar_to_bytes ha
  simp only [secqWire, serScalar]
  rw [← h2, ← h1]
  exact leBytes_leNat _

/-- The point encoding of the crate with values in `EncPt`. -/
theorem secqCompress_shape (g : Secq) : sec1Shape (secqCompress g) = true := by
  cases g with
  | zero => rfl
  | some x y h =>
    have : (beBytes32 x.val).length = 32 := by simp [beBytes32, leBytes_length]
    simp only [secqCompress, sec1Shape]
    split_ifs <;> simp [this]

/-- `secqEnv` with the encoded points as a type of their own. -/
noncomputable def secqEnvE (sqrt : ZMod secpN → Option (ZMod secpN))
    (hash : Tr (ZMod secpP) EncPt → ZMod secpP) : Env (ZMod secpP) Secq EncPt :=
  ⟨fun g => ⟨secqCompress g, secqCompress_shape g⟩, fun p => secqDecompress sqrt p.1, hash⟩

theorem secqEnvE_lawful {sqrt : ZMod secpN → Option (ZMod secpN)} (hs : SqrtSpec sqrt)
    (hash : Tr (ZMod secpP) EncPt → ZMod secpP) : (secqEnvE sqrt hash).Lawful :=
  fun g => secq_decompress_compress hs g

/-! ### C73: what was written is read back -/

section generic
variable {F P : Type} {W : Wire F P}

theorem deserialize_good {α : Type} {f : Fmt α} {ok : α → Prop} (h : f.Good ok) {x : α} (hx : ok x)
    (rest : List UInt8) : f.deserialize (f.enc x ++ rest) = .ok x := by
  rw [Fmt.deserialize, h.fwd x hx rest]

/-- C73: a NIZK survives serialisation. -/
theorem nizk_bytes_roundtrip (hW : W.Lawful) {pf : NIZK F P} (h : W.okNIZK pf) :
    W.fNIZK.deserialize (W.fNIZK.enc pf) = .ok pf := by
  simpa using deserialize_good (Wire.good_nizk hW) h []

/-- C73: a SNARK survives serialisation. -/
theorem snark_bytes_roundtrip (hW : W.Lawful) {pf : SNARK F P} (h : W.okSNARK pf) :
    W.fSNARK.deserialize (W.fSNARK.enc pf) = .ok pf := by
  simpa using deserialize_good (Wire.good_snark hW) h []

/-- C73: an instance survives serialisation. -/
theorem instance_bytes_roundtrip (hW : W.Lawful) {I : Inst F} (h : W.okInst I) :
    W.fInst.deserialize (W.fInst.enc I) = .ok I := by
  simpa using deserialize_good (Wire.good_inst hW) h []

/-- C73: an assignment survives serialisation. -/
theorem assignment_bytes_roundtrip (hW : W.Lawful) {a : List F} (h : a.length < 2 ^ W.bits) :
    W.fAssignment.deserialize (W.fAssignment.enc a) = .ok a := by
  have := deserialize_good (f := W.fAssignment) (Wire.good_scalars hW) h []
  rwa [List.append_nil] at this

/-- C73: different instances have different bytes, and no instance's bytes begin with another's. -/
theorem instance_bytes_inj (hW : W.Lawful) {I J : Inst F} (hI : W.okInst I) (hJ : W.okInst J)
    (h : W.fInst.enc I <+: W.fInst.enc J) : I = J := by
  obtain ⟨t, ht⟩ := h
  exact ((Wire.good_inst hW).inj hI hJ (r := t) (s := []) (by simpa using ht)).1

/-- C73: different proofs have different bytes. -/
theorem nizk_bytes_inj (hW : W.Lawful) {p q : NIZK F P} (hp : W.okNIZK p) (hq : W.okNIZK q)
    (h : W.fNIZK.enc p <+: W.fNIZK.enc q) : p = q := by
  obtain ⟨t, ht⟩ := h
  exact ((Wire.good_nizk hW).inj hp hq (r := t) (s := []) (by simpa using ht)).1

end generic

section prover
variable {F G P : Type} [Field F] [AddCommGroup G] [Module F G] [DecidableEq F] [DecidableEq P] [DecidableEq G]

/-- C75: the dimensions of a proof are determined by the dimensions of the instance. -/
theorem nizk_prove_sizes {E : Env F G P} {I : Inst F} {vars input : List F} {gens : R1CSGens G}
    {tr tr' : Tr F P} {tape : Tape F} {pf : NIZK F P} {j : Nat} (hj : I.inst.numVars = 2 ^ j)
    (hv : vars.length ≤ I.inst.numVars)
    (h : NIZK.prove E I vars input gens tr tape = .ok (pf, tr')) :
    pf.sat.Sizes (log2ceil I.inst.numCons) j ∧ pf.rx.length = log2ceil I.inst.numCons ∧
      pf.ry.length = j + 1 := by
  unfold NIZK.prove at h
  simp only at h
  obtain ⟨pv, hpv, h⟩ := bind_ok h
  obtain ⟨q, hq, h⟩ := bind_ok h
  cases h
  refine r1csProve_sizes ?_ hq
  rw [← hj]
  unfold padVars at hpv
  split_ifs at hpv with hc
  · unfold assignmentPad at hpv
    obtain ⟨_, -, hpv⟩ := bind_ok hpv
    cases hpv
    simp only [List.length_append, List.length_replicate]
    omega
  · cases hpv
    omega

theorem okNIZK_of_sizes {W : Wire F P} (h32 : 32 ≤ W.bits) {pf : NIZK F P} {k j : Nat} (hk : k ≤ 64)
    (hj : j ≤ 62) (h : pf.sat.Sizes k j) (hx : pf.rx.length = k) (hy : pf.ry.length = j + 1) :
    W.okNIZK pf := by
  have hb : 2 ^ 32 ≤ 2 ^ W.bits := Nat.pow_le_pow_right (by norm_num) h32
  have hj2 : 2 ^ (j / 2) ≤ 2 ^ 31 := Nat.pow_le_pow_right (by norm_num) (by omega)
  have h32' : (2 : Nat) ^ 32 = 4294967296 := by norm_num
  have h31 : (2 : Nat) ^ 31 = 2147483648 := by norm_num
  rw [h32'] at hb
  rw [h31] at hj2
  obtain ⟨M, hM⟩ : ∃ M, M = 2 ^ W.bits := ⟨_, rfl⟩
  simp only [Wire.okNIZK, Wire.okR1CSProof, Wire.okZK, Wire.fits]
  rw [← hM] at hb ⊢
  refine ⟨⟨by rw [h.commVars]; omega, ⟨by rw [h.sc1Polys]; omega, by rw [h.sc1Evals]; omega,
    by rw [h.sc1Proofs]; omega, fun d hd => by rw [h.sc1Z d hd]; omega⟩, ⟨by rw [h.sc2Polys]; omega,
    by rw [h.sc2Evals]; omega, by rw [h.sc2Proofs]; omega, fun d hd => by rw [h.sc2Z d hd]; omega⟩,
    by rw [h.foldL]; omega, by rw [h.foldR]; omega⟩, by rw [hx]; omega, by rw [hy]; omega⟩

/-- C73: every proof the prover returns for an instance of at most `2^62` variables and `2^64`
constraints is read back from its bytes, also by a reader with 32-bit `usize`. -/
theorem nizk_prove_bytes {W : Wire F P} (hW : W.Lawful) (h32 : 32 ≤ W.bits) {E : Env F G P} {I : Inst F}
    {vars input : List F} {gens : R1CSGens G} {tr tr' : Tr F P} {tape : Tape F} {pf : NIZK F P} {j : Nat}
    (hj : I.inst.numVars = 2 ^ j) (hj62 : j ≤ 62) (hc : log2ceil I.inst.numCons ≤ 64)
    (hv : vars.length ≤ I.inst.numVars) (h : NIZK.prove E I vars input gens tr tape = .ok (pf, tr')) :
    W.fNIZK.deserialize (W.fNIZK.enc pf) = .ok pf := by
  obtain ⟨h1, h2, h3⟩ := nizk_prove_sizes hj hv h
  exact nizk_bytes_roundtrip hW (okNIZK_of_sizes h32 hc hj62 h1 h2 h3)

/-! ### C75: size of a proof -/

theorem length_flatMap_le {α : Type} {f : α → List UInt8} {c : Nat} : ∀ {xs : List α},
    (∀ x ∈ xs, (f x).length ≤ c) → (xs.flatMap f).length ≤ c * xs.length
  | [], _ => by simp
  | x :: xs, h => by
    have := length_flatMap_le (f := f) (c := c) (xs := xs) fun y hy => h y (by simp [hy])
    have := h x (by simp)
    rw [List.flatMap_cons, List.length_append, List.length_cons, Nat.mul_succ]
    omega

theorem vec_length {α : Type} {bits : Nat} {f : Fmt α} {c : Nat} {xs : List α}
    (h : ∀ x ∈ xs, (f.enc x).length ≤ c) : ((Fmt.vec bits f).enc xs).length ≤ 8 + c * xs.length := by
  have := length_flatMap_le h
  have e8 : ((Fmt.usize bits).enc xs.length).length = 8 := leBytes_length 8 _
  simp only [Fmt.vec, List.length_append, e8]
  omega

theorem scalar_length {W : Wire F P} (hW : W.Lawful) (x : F) : (W.fScalar.enc x).length = 40 := by
  have e8 : ∀ m, ((Fmt.usize W.bits).enc m).length = 8 := fun m => leBytes_length 8 m
  simp only [Wire.fScalar, List.length_append, e8, hW.scalar_len]

theorem point_length {W : Wire F P} (hp : ∀ p, (W.point p).length ≤ 65) (p : P) :
    (W.fPoint.enc p).length ≤ 73 := by
  have := vec_length (bits := W.bits) (f := Fmt.u8) (c := 1) (xs := W.point p) (by simp [Fmt.u8])
  have := hp p
  simp only [Wire.fPoint]
  omega

theorem zk_length {W : Wire F P} (hW : W.Lawful) (hp : ∀ p, (W.point p).length ≤ 65) {z : ZKSumcheck F P}
    {n m : Nat} (h1 : z.commPolys.length = n) (h2 : z.commEvals.length = n) (h3 : z.proofs.length = n)
    (h4 : ∀ p ∈ z.proofs, p.z.length = m) : (W.fZK.enc z).length ≤ 24 + (380 + 40 * m) * n := by
  have a1 := vec_length (bits := W.bits) (f := W.fPoint) (c := 73) (xs := z.commPolys)
    fun p _ => point_length hp p
  have a2 := vec_length (bits := W.bits) (f := W.fPoint) (c := 73) (xs := z.commEvals)
    fun p _ => point_length hp p
  have a3 := vec_length (bits := W.bits) (f := W.fDot) (c := 234 + 40 * m) (xs := z.proofs) (by
    intro d hd
    have b1 := point_length hp d.delta
    have b2 := point_length hp d.beta
    have b3 := vec_length (bits := W.bits) (f := W.fScalar) (c := 40) (xs := d.z)
      fun x _ => (scalar_length hW x).le
    rw [h4 d hd] at b3
    simp only [Wire.fDot, Fmt.struct, Fmt.pair, List.length_append, scalar_length hW, Wire.fScalars]
    omega)
  rw [h1] at a1
  rw [h2] at a2
  rw [h3] at a3
  simp only [Wire.fZK, Fmt.struct, Fmt.pair, List.length_append, Wire.fPoints]
  nlinarith

/-- C75: the bytes of a proof grow with the square root of the number of variables and the logarithm
of the number of constraints: at most
`1477 + 73 · 2^(j/2) + 580 · k + 540 · (j+1) + 146 · (j - j/2)` for `2^j` variables and `2^k`
constraints, whatever the witness, the public inputs and the randomness. -/
theorem nizk_proof_bytes_le {W : Wire F P} (hW : W.Lawful) (hp : ∀ p, (W.point p).length ≤ 65)
    {E : Env F G P} {I : Inst F} {vars input : List F} {gens : R1CSGens G} {tr tr' : Tr F P}
    {tape : Tape F} {pf : NIZK F P} {j : Nat} (hj : I.inst.numVars = 2 ^ j)
    (hv : vars.length ≤ I.inst.numVars) (h : NIZK.prove E I vars input gens tr tape = .ok (pf, tr')) :
    (W.fNIZK.enc pf).length ≤ 1477 + 73 * 2 ^ (j / 2) + 580 * log2ceil I.inst.numCons + 540 * (j + 1) +
      146 * (j - j / 2) := by
  obtain ⟨s, hx, hy⟩ := nizk_prove_sizes hj hv h
  obtain ⟨k, hk⟩ : ∃ k, k = log2ceil I.inst.numCons := ⟨_, rfl⟩
  rw [← hk] at s hx ⊢
  have pl := fun p => point_length hp (W := W) p
  have vs : ∀ xs : List F, (W.fScalars.enc xs).length ≤ 8 + 40 * xs.length := fun xs =>
    vec_length fun x _ => (scalar_length hW x).le
  have vp : ∀ xs : List P, (W.fPoints.enc xs).length ≤ 8 + 73 * xs.length := fun xs =>
    vec_length fun x _ => pl x
  have z1 := zk_length hW hp s.sc1Polys s.sc1Evals s.sc1Proofs s.sc1Z
  have z2 := zk_length hW hp s.sc2Polys s.sc2Evals s.sc2Proofs s.sc2Z
  have a1 := vp pf.sat.commVars
  have a2 := vp pf.sat.evalVars.bullet.L
  have a3 := vp pf.sat.evalVars.bullet.R
  have a4 := vs pf.rx
  have a5 := vs pf.ry
  rw [s.commVars] at a1
  rw [s.foldL] at a2
  rw [s.foldR] at a3
  rw [hx] at a4
  rw [hy] at a5
  have p1 := pl pf.sat.commAz
  have p2 := pl pf.sat.commBz
  have p3 := pl pf.sat.commCz
  have p4 := pl pf.sat.commProd
  have p5 := pl pf.sat.pokCz.alpha
  have p6 := pl pf.sat.proofProd.alpha
  have p7 := pl pf.sat.proofProd.beta
  have p8 := pl pf.sat.proofProd.delta
  have p9 := pl pf.sat.eq1.alpha
  have p10 := pl pf.sat.commVarsAtRy
  have p11 := pl pf.sat.evalVars.delta
  have p12 := pl pf.sat.evalVars.beta
  have p13 := pl pf.sat.eq2.alpha
  simp only [Wire.fNIZK, Wire.fR1CSProof, Wire.fKnowledge, Wire.fProduct, Wire.fEquality, Wire.fDotLog,
    Wire.fBullet, Fmt.struct, Fmt.pair, List.length_append, scalar_length hW]
  omega

end prover

/-! ### C74: bytes that are not what was written -/

section malleable
variable {F P : Type} {W : Wire F P}

/-- What the deserialiser of a scalar accepts: a length of at least 32 that fits, then 32 bytes of any
value.  The announced length is not used. -/
theorem scalar_bytes_iff (hW : W.Lawful) (bs : List UInt8) (x : F) (rest : List UInt8) :
    W.fScalar.dec bs = .ok (x, rest) ↔ ∃ n w, 32 ≤ n ∧ n < 2 ^ W.bits ∧ w.length = 32 ∧
      bs = leBytes 8 n ++ w ++ rest ∧ x = W.raw w := by
  constructor
  · intro h
    simp only [Wire.fScalar] at h
    cases h1 : (Fmt.usize W.bits).dec bs with
    | error e => rw [h1] at h; cases h
    | ok q =>
      obtain ⟨n, r1⟩ := q
      rw [h1] at h
      simp only at h
      split_ifs at h with hc
      push Not at hc
      simp only [Except.ok.injEq, Prod.mk.injEq] at h
      obtain ⟨rfl, rfl⟩ := h
      simp only [Fmt.usize, Fmt.u64] at h1
      by_cases h8 : 8 ≤ bs.length
      · rw [if_pos h8] at h1
        simp only at h1
        split_ifs at h1 with hn
        simp only [Except.ok.injEq, Prod.mk.injEq] at h1
        obtain ⟨rfl, rfl⟩ := h1
        refine ⟨_, (bs.drop 8).take 32, hc.1, hn, by rw [List.length_take]; omega, ?_, rfl⟩
        have : (bs.take 8).length = 8 := by rw [List.length_take]; omega
        have e := leBytes_leNat (bs.take 8)
        rw [this] at e
        rw [e, List.append_assoc, List.take_append_drop, List.take_append_drop]
      · rw [if_neg h8] at h1
        cases h1
  · rintro ⟨n, w, h32, hn, hw, rfl, rfl⟩
    simp only [Wire.fScalar]
    have := (Fmt.good_usize hW.bits_hi).fwd n hn (w ++ rest)
    rw [show (Fmt.usize W.bits).enc n = leBytes 8 n from rfl] at this
    rw [List.append_assoc, this]
    simp only
    rw [if_neg (by rw [List.length_append]; omega), List.take_left' hw, List.drop_left' hw]

/-- Reading a scalar from bytes that end too early, or that announce fewer than 32, is a panic and
not an error, once the length has been read. -/
theorem scalar_bytes_panic (hW : W.Lawful) {n : Nat} (hn : n < 2 ^ W.bits) {w : List UInt8}
    (h : n < 32 ∨ w.length < 32) : W.fScalar.dec (leBytes 8 n ++ w) = .error .panic := by
  simp only [Wire.fScalar]
  have := (Fmt.good_usize hW.bits_hi).fwd n hn w
  rw [show (Fmt.usize W.bits).enc n = leBytes 8 n from rfl] at this
  rw [this]
  simp only
  rw [if_pos h]

theorem deserialize_append {α : Type} {f : Fmt α} {ok : α → Prop} (h : f.Good ok) {bs : List UInt8} {x : α}
    (hd : f.deserialize bs = .ok x) (junk : List UInt8) : f.deserialize (bs ++ junk) = .ok x := by
  unfold Fmt.deserialize at hd ⊢
  cases h1 : f.dec bs with
  | error e => rw [h1] at hd; cases hd
  | ok q =>
    obtain ⟨y, r⟩ := q
    rw [h1] at hd
    simp only [Except.ok.injEq] at hd
    subst hd
    obtain ⟨-, pre, rfl, -, hp⟩ := h.bwd _ _ _ h1
    rw [List.append_assoc, hp]

/-- C74 is false: bytes behind a proof are ignored. -/
theorem nizk_trailing_bytes (hW : W.Lawful) {bs : List UInt8} {pf : NIZK F P}
    (h : W.fNIZK.deserialize bs = .ok pf) (junk : List UInt8) : W.fNIZK.deserialize (bs ++ junk) = .ok pf :=
  deserialize_append (Wire.good_nizk hW) h junk

theorem snark_trailing_bytes (hW : W.Lawful) {bs : List UInt8} {pf : SNARK F P}
    (h : W.fSNARK.deserialize bs = .ok pf) (junk : List UInt8) : W.fSNARK.deserialize (bs ++ junk) = .ok pf :=
  deserialize_append (Wire.good_snark hW) h junk

theorem instance_trailing_bytes (hW : W.Lawful) {bs : List UInt8} {I : Inst F}
    (h : W.fInst.deserialize bs = .ok I) (junk : List UInt8) : W.fInst.deserialize (bs ++ junk) = .ok I :=
  deserialize_append (Wire.good_inst hW) h junk

/-- What is left of C74: the bytes read are as many as the canonical bytes of the proof, and the
canonical bytes of what was read are read as the same proof.  Missing: that they are equal. -/
theorem nizk_bytes_partial (hW : W.Lawful) {bs : List UInt8} {pf : NIZK F P}
    (h : W.fNIZK.deserialize bs = .ok pf) :
    W.okNIZK pf ∧ W.fNIZK.deserialize (W.fNIZK.enc pf) = .ok pf ∧
      (W.fNIZK.enc pf).length ≤ bs.length ∧
      W.fNIZK.deserialize (bs.take (W.fNIZK.enc pf).length) = .ok pf := by
  unfold Fmt.deserialize at h
  cases h1 : W.fNIZK.dec bs with
  | error e => rw [h1] at h; cases h
  | ok q =>
    obtain ⟨y, r⟩ := q
    rw [h1] at h
    simp only [Except.ok.injEq] at h
    subst h
    obtain ⟨hok, pre, rfl, hl, hp⟩ := (Wire.good_nizk hW).bwd _ _ _ h1
    refine ⟨hok, nizk_bytes_roundtrip hW hok, by rw [List.length_append]; omega, ?_⟩
    rw [List.take_left' hl, Fmt.deserialize]
    have := hp []
    rw [List.append_nil] at this
    rw [this]

/-- C74 is false without trailing bytes, too: in the bytes of a proof the length of the first scalar
of `rx` can be replaced by any other length from 32 on. -/
theorem nizk_length_field (hW : W.Lawful) {pf : NIZK F P} (hok : W.okNIZK pf) {x : F} {xs : List F}
    (hrx : pf.rx = x :: xs) {n : Nat} (h32 : 32 ≤ n) (hn : n < 2 ^ W.bits) :
    ∃ a b, W.fNIZK.enc pf = a ++ leBytes 8 32 ++ b ∧ W.fNIZK.deserialize (a ++ leBytes 8 n ++ b) = .ok pf := by
  obtain ⟨hs, hx, hy⟩ := hok
  refine ⟨W.fR1CSProof.enc pf.sat ++ leBytes 8 pf.rx.length,
    W.scalar x ++ xs.flatMap W.fScalar.enc ++ W.fScalars.enc pf.ry, ?_, ?_⟩
  · simp only [Wire.fNIZK, Fmt.struct, Fmt.pair, Wire.fScalars, Fmt.vec, hrx, List.flatMap_cons]
    simp only [Wire.fScalar, hW.scalar_len, List.append_assoc]
    rfl
  · unfold Fmt.deserialize
    simp only [Wire.fNIZK, Fmt.struct, Fmt.pair]
    rw [List.append_assoc, List.append_assoc, (Wire.good_r1csProof hW).fwd _ hs]
    simp only
    have hd : W.fScalars.dec (leBytes 8 pf.rx.length ++ (leBytes 8 n ++ (W.scalar x ++
        xs.flatMap W.fScalar.enc ++ W.fScalars.enc pf.ry))) = .ok (pf.rx, W.fScalars.enc pf.ry) := by
      simp only [Wire.fScalars, Fmt.vec]
      have e := (Fmt.good_usize hW.bits_hi).fwd pf.rx.length hx (leBytes 8 n ++ (W.scalar x ++
        xs.flatMap W.fScalar.enc ++ W.fScalars.enc pf.ry))
      rw [show (Fmt.usize W.bits).enc pf.rx.length = leBytes 8 pf.rx.length from rfl] at e
      simp only [Wire.fScalars, Fmt.vec] at e
      rw [e]
      simp only
      rw [hrx, List.length_cons, Fmt.decMany]
      have e2 := (scalar_bytes_iff hW (leBytes 8 n ++ W.scalar x ++ (xs.flatMap W.fScalar.enc ++
        W.fScalars.enc pf.ry)) x (xs.flatMap W.fScalar.enc ++ W.fScalars.enc pf.ry)).2
        ⟨n, W.scalar x, h32, hn, hW.scalar_len x, rfl, (hW.raw_scalar x).symm⟩
      simp only [List.append_assoc, Wire.fScalars, Fmt.vec] at e2 ⊢
      rw [e2]
      simp only
      have e3 := Fmt.decMany_fwd (Wire.good_scalar hW) xs (fun _ _ => trivial) (W.fScalars.enc pf.ry)
      simp only [Wire.fScalars, Fmt.vec] at e3
      rw [e3]
    rw [hd]
    simp only
    have := (Wire.good_scalars hW).fwd pf.ry hy []
    rw [List.append_nil] at this
    rw [this]

end malleable

section wasm
variable {F G P : Type} [Field F] [AddCommGroup G] [Module F G] [DecidableEq F] [DecidableEq P] [DecidableEq G]

theorem deserializeU_of {α : Type} {f : Fmt α} {bs : List UInt8} {x : α} (h : f.deserialize bs = .ok x) :
    f.deserializeU bs = some x := by rw [Fmt.deserializeU, h]

theorem deserializeU_some {α : Type} {f : Fmt α} {bs : List UInt8} {x : α} (h : f.deserializeU bs = some x) :
    f.deserialize bs = .ok x := by
  unfold Fmt.deserializeU at h
  split at h
  · cases h; assumption
  · cases h

/-- C74 is false at the interface: whatever `verify` accepts, it accepts with any bytes appended to
the proof, to the circuit file and to the public input. -/
theorem wasm_verify_trailing {W : Wire F P} (hW : W.Lawful) {E : Env F G P} {src : GenSrc G} {K : Codec F}
    {label : List UInt8} {tr0 : Tr F P} {circuit proof pub : List UInt8}
    (h : wasmVerify (W.wasmEnv E src K) label tr0 circuit proof pub = .ok true)
    (a b c : List UInt8) :
    wasmVerify (W.wasmEnv E src K) label tr0 (circuit ++ a) (proof ++ b) (pub ++ c) = .ok true := by
  obtain ⟨I, pf, gens, tr', h1, h2, h3, h4, h5, h6⟩ := wasm_verify_partial h
  have h1' := instance_trailing_bytes hW (deserializeU_some h1) a
  have h2' := nizk_trailing_bytes hW (deserializeU_some h2) b
  have hch : chunks (pub ++ c) I.inst.numInputs = chunks pub I.inst.numInputs := by
    unfold chunks
    refine List.map_congr_left fun i hi => ?_
    rw [List.mem_range] at hi
    rw [List.drop_append_of_le_length (by nlinarith), List.take_append_of_le_length]
    rw [List.length_drop]
    have : (i + 1) * 32 ≤ I.inst.numInputs * 32 := Nat.mul_le_mul_right _ hi
    omega
  unfold wasmVerify
  have e1 : (W.wasmEnv E src K).decInst (circuit ++ a) = some I := deserializeU_of h1'
  have e2 : (W.wasmEnv E src K).decProof (proof ++ b) = some pf := deserializeU_of h2'
  rw [e1, e2]
  have hs : inputSlices (pub ++ c) I.inst.numInputs = .ok (chunks pub I.inst.numInputs) := by
    rw [inputSlices, if_pos (by rw [List.length_append]; omega), ← hch]; rfl
  have hx : assignmentU (W.wasmEnv E src K).codec (chunks pub I.inst.numInputs) = .ok
      ((chunks pub I.inst.numInputs).map fun b => ((W.wasmEnv E src K).codec.fromBytes b).getD 0) := by
    rcases assignment_new_result (W.wasmEnv E src K).codec (chunks pub I.inst.numInputs) with
      ⟨-, e⟩ | ⟨⟨v, hv, e⟩, -⟩
    · rw [assignmentU, e]
    · have := h5 v hv
      rw [e] at this; cases this
  simp only [h3, hs, hx, h6, ok_bind]
  rfl

/-- C69 with the actual encodings: for every convertible circuit, serialised as the circuit file,
every witness of it and every public input, `prove` returns bytes and `verify` returns true on
them. -/
theorem wasm_prove_verify_bytes (h2 : (2 : F) ≠ 0) (h3 : (3 : F) ≠ 0) {W : Wire F P} (hW : W.Lawful)
    (h32 : 32 ≤ W.bits) {E : Env F G P} {src : GenSrc G} {K : Codec F}
    (hE : E.Lawful) (hu : ∀ t, E.hash (t ++ [.chal "u"]) ≠ 0)
    {r : CircomR1CS} (hr : Convertible K r) (hc : r.constraints ≠ [])
    {numPub : Nat} {I : Inst F} (hI : convertToSpartan K r numPub = .ok I) (hok : W.okInst I)
    (hsz : I.inst.numVars ≤ 2 ^ 62)
    {pub : List UInt8} (hlen : numPub * 32 ≤ pub.length)
    (hcanon : ∀ b ∈ chunks pub numPub, (K.fromBytes b).isSome)
    {version : Nat} {prime : List UInt8} {ws : List Nat}
    (hv : version ≤ 2) (hp : prime.length = 32) (hw : ws.length < 2 ^ 27)
    (hwl : ws.length = r.numVariables)
    (hws : ∀ w ∈ ws, Readable w ∧ (K.fromBytes (encField w)).isSome)
    (hsat : ConsHold (coefVal K) (r.constraints.map toCon)
      (ws.map fun w => (K.fromBytes (encField w)).getD 0))
    (label : List UInt8) (tr0 : Tr F P) (tape : Tape F) :
    ∃ proof, wasmProve (W.wasmEnv E src K) label tr0 tape (W.fInst.enc I)
        (encWtns version prime (32 * ws.length) ws) pub = .ok proof ∧
      wasmVerify (W.wasmEnv E src K) label tr0 (W.fInst.enc I) proof pub = .ok true := by
  -- an environment whose proof bytes are abstract: the proof itself is remembered
  obtain ⟨I', hI', hnew⟩ := convert_eq (numPub := numPub) hr
  rw [hI] at hI'
  cases hI'
  have hcirc : (W.wasmEnv E src K).decInst (W.fInst.enc I) = some I :=
    deserializeU_of (instance_bytes_roundtrip hW hok)
  obtain ⟨hni, hnv⟩ : I.inst.numInputs = numPub ∧ I.inst.numVars = varsPadded r.numVariables numPub := by
    obtain ⟨-, -, -, rfl⟩ := new_ok_entries hnew
    exact ⟨rfl, rfl⟩
  obtain ⟨x, hx, hxl, hxe⟩ : ∃ x, assignmentU K (chunks pub numPub) = .ok x ∧
      x.length = numPub ∧ x = (chunks pub numPub).map fun b => (K.fromBytes b).getD 0 := by
    rcases assignment_new_result K (chunks pub numPub) with ⟨-, e⟩ | ⟨⟨v, hv, e⟩, -⟩
    · exact ⟨_, by rw [assignmentU, e], by simp [chunks], rfl⟩
    · have := hcanon v hv
      rw [e] at this; cases this
  have hread : ∀ w ∈ ws, Readable w := fun w hw => (hws w hw).1
  obtain ⟨l, hl, hlb⟩ := wtns_read_partial (rest := []) hv hp hw hread
  rw [List.append_nil] at hl
  obtain ⟨vars, hvars, hve⟩ : ∃ vars, assignmentU K (l.map coreToRepr) = .ok vars ∧
      vars = ws.map fun w => (K.fromBytes (encField w)).getD 0 := by
    rw [hlb]
    rcases assignment_new_result K (ws.map encField) with ⟨-, e⟩ | ⟨⟨v, hv, e⟩, -⟩
    · exact ⟨_, by rw [assignmentU, e], by rw [List.map_map]; rfl⟩
    · rw [List.mem_map] at hv
      obtain ⟨w, hw, rfl⟩ := hv
      have b := (hws w hw).2
      rw [e] at b; cases b
  have hvl : vars.length = r.numVariables := by rw [hve, List.length_map, hwl]
  have hsat' : I.isSat vars x = .ok (.ok true) := by
    obtain ⟨b, hb, hiff⟩ := convert_sat_iff hr hI (vars := vars) hvl hxl
    rw [hiff.mpr] at hb
    · exact hb
    · rw [hve]; exact hsat
  obtain ⟨gens, pf, tr', hg, hprove, hverify⟩ := nizk_complete_nonzero h2 h3 hE hu hnew
    (List.length_pos_iff.mpr hc) hsz src label hsat' tr0 tape
  have hg' : NIZKGens.new src label I.inst.numVars I.inst.numInputs = .ok gens := by
    rw [hni, hnv, ← hg]
    unfold NIZKGens.new
    rw [varsPadded_idem]
  have hs : inputSlices pub I.inst.numInputs = .ok (chunks pub numPub) := by
    rw [hni, inputSlices, if_pos hlen]; rfl
  have hj : I.inst.numVars = 2 ^ log2ceil (max r.numVariables (numPub + 1)) := by
    rw [hnv, varsPadded_eq]; rfl
  have hj62 : log2ceil (max r.numVariables (numPub + 1)) ≤ 62 := by
    rw [hj] at hsz
    exact (Nat.pow_le_pow_iff_right (by norm_num)).mp hsz
  have hcons : log2ceil I.inst.numCons ≤ 64 := by
    have h64 : I.inst.numCons ≤ 2 ^ 64 := (hok.1.1.trans_le
      (Nat.pow_le_pow_right (by norm_num) hW.bits_hi)).le
    exact Nat.clog_le_of_le_pow h64
  have hdec : (W.wasmEnv E src K).decProof (W.fNIZK.enc pf) = some pf := by
    refine deserializeU_of (nizk_prove_bytes hW h32 hj hj62 hcons ?_ hprove)
    rw [hvl, hnv]
    exact (le_varsPadded _ _).1
  refine ⟨W.fNIZK.enc pf, ?_, ?_⟩
  · unfold wasmProve
    rw [hl]
    simp only [hcirc]
    have e1 : (W.wasmEnv E src K).codec = K := rfl
    have e2 : (W.wasmEnv E src K).src = src := rfl
    have e3 : (W.wasmEnv E src K).env = E := rfl
    simp only [e1, e2, e3, hvars, hg', hs, hx, hprove, ok_bind]
    rfl
  · unfold wasmVerify
    rw [hcirc, hdec]
    have e1 : (W.wasmEnv E src K).codec = K := rfl
    have e2 : (W.wasmEnv E src K).src = src := rfl
    have e3 : (W.wasmEnv E src K).env = E := rfl
    simp only [e1, e2, e3, hg', hs, hx, hverify, ok_bind]
    rfl

/-- The integers of an instance made by `Instance::new` fit when its padded dimensions and the numbers
of entries do. -/
theorem okR1CS_of_new {W : Wire F P} {K : Codec F} {nc nv ni : Nat} {A B C : List (Nat × Nat × List UInt8)}
    {I : Inst F} (h : Inst.new K nc nv ni A B C = .ok (.ok I))
    (hc : consPadded nc + max A.length (max B.length C.length) < 2 ^ W.bits)
    (hv : 2 * varsPadded nv ni < 2 ^ W.bits) : W.okR1CS I.inst := by
  obtain ⟨hA, hB, hC, rfl⟩ := new_ok_entries h
  obtain ⟨k, j, w, hk, -, hj⟩ := builtR1CS_wf hA hB hC
  obtain ⟨M, hM⟩ : ∃ M, M = 2 ^ W.bits := ⟨_, rfl⟩
  have hk' : k < 2 ^ k := Nat.lt_two_pow_self
  have hj' : j < 2 ^ j := Nat.lt_two_pow_self
  have hin := w.inputs
  have len : ∀ L, (entriesOf (convMat K nc nv ni L)).length ≤ L.length + consPadded nc := by
    intro L
    simp only [entriesOf, convMat, List.length_map, List.length_append, parsed]
    have : (padRows nc nv (consPadded nc) L.length : List (Nat × Nat × F)).length ≤ consPadded nc := by
      unfold padRows
      split_ifs <;> simp
    omega
  have hni : (builtR1CS K nc nv ni A B C).numInputs = ni := rfl
  rw [hni] at hin
  have mat : ∀ m : SparseMat F, m.InRange (2 ^ k) (2 ^ j + ni + 1) → m.nx = k ∧ m.ny = j + 1 →
      m.M.length < M → W.okMat m := by
    intro m hm hn hl
    rw [← hj] at hin hj'
    rw [← hk] at hk'
    refine ⟨by rw [hn.1, ← hM]; omega, by rw [hn.2, ← hM]; omega, by rw [Wire.fits, ← hM]; exact hl, ?_⟩
    intro e he
    obtain ⟨h1, h2⟩ := hm e he
    rw [← hk] at h1
    rw [← hj] at h2
    exact ⟨by rw [← hM]; omega, by rw [← hM]; omega⟩
  rw [← hM] at hc hv
  rw [← hj] at hin
  refine ⟨?_, ?_, ?_, mat _ w.A w.nA ?_, mat _ w.B w.nB ?_, mat _ w.C w.nC ?_⟩
  · rw [← hM]; show consPadded nc < M; omega
  · rw [← hM]; show varsPadded nv ni < M; omega
  · rw [← hM]; show ni < M; omega
  · exact (len A).trans_lt (by omega)
  · exact (len B).trans_lt (by omega)
  · exact (len C).trans_lt (by omega)

/-! ### C76: the digest -/

/-- C76: the digest determines the instance, for a lossless compression. -/
theorem digest_inj {W : Wire F P} (hW : W.Lawful) {zlib : List UInt8 → List UInt8}
    (hz : Function.Injective zlib) {r s : R1CS F} (hr : W.okR1CS r) (hs : W.okR1CS s)
    (h : W.digest zlib r = W.digest zlib s) : r = s := by
  have := hz h
  exact ((Wire.good_r1cs hW).inj hr hs (r := []) (s := []) (by simpa using this)).1

theorem built_wf {K : Codec F} {nc nv ni : Nat} {A B C : List (Nat × Nat × List UInt8)} {I : Inst F}
    (hI : Inst.new K nc nv ni A B C = .ok (.ok I)) (hc : 1 ≤ nc) (hsz : I.inst.numVars ≤ 2 ^ 62)
    {S : GenSrc G} {label : List UInt8} {gens : R1CSGens G}
    (hg : NIZKGens.new S label nv ni = .ok gens) :
    ∃ k j g0, I.inst.WF (k + 1) j ∧ gens.WF j g0 gens.gens1.h ∧ I.digest = K.digest I.inst := by
  obtain ⟨hA, hB, hC, rfl⟩ := new_ok_entries hI
  obtain ⟨k, j, w, -, h1, hj⟩ := builtR1CS_wf hA hB hC
  have hk := h1 hc
  have hsz' : varsPadded nv ni ≤ 2 ^ 62 := hsz
  unfold NIZKGens.new at hg
  rw [hj] at hg hsz'
  obtain ⟨g0, wg⟩ := r1csGens_of_new ((Nat.pow_le_pow_iff_right (by norm_num)).mp hsz') hg
  obtain ⟨k, rfl⟩ : ∃ k', k = k' + 1 := ⟨k - 1, by omega⟩
  exact ⟨k, j, g0, w, wg, rfl⟩

/-- C40/C76: two accepting runs that end with the same transcript were about the same matrices, for
instances made by `Instance::new`.  Missing: instances read from bytes, see `loaded_digest_not_binding`. -/
theorem nizk_binds_matrices_partial {W : Wire F P} (hW : W.Lawful) {zlib : List UInt8 → List UInt8}
    (hz : Function.Injective zlib) {E : Env F G P} (hE : E.Lawful) {K : Codec F}
    (hK : K.digest = W.digest zlib) {nc nv ni nc' nv' ni' : Nat}
    {A B C A' B' C' : List (Nat × Nat × List UInt8)} {I I' : Inst F}
    (hI : Inst.new K nc nv ni A B C = .ok (.ok I)) (hc : 1 ≤ nc)
    (hI' : Inst.new K nc' nv' ni' A' B' C' = .ok (.ok I')) (hc' : 1 ≤ nc')
    (hok : W.okR1CS I.inst) (hok' : W.okR1CS I'.inst)
    {S : GenSrc G} {label : List UInt8} {gens gens' : R1CSGens G}
    (hg : NIZKGens.new S label nv ni = .ok gens) (hg' : NIZKGens.new S label nv' ni' = .ok gens')
    (hsz : I.inst.numVars ≤ 2 ^ 62) (hsz' : I'.inst.numVars ≤ 2 ^ 62) {pf pf' : NIZK F P} {input input' : List F} {tr t : Tr F P}
    (hv : NIZK.verify E pf I input gens tr = .ok t) (hv' : NIZK.verify E pf' I' input' gens' tr = .ok t) :
    I.inst = I'.inst ∧ input = input' ∧ pf.sat.commVars = pf'.sat.commVars := by
  obtain ⟨k, j, g0, wI, wg, dI⟩ := built_wf hI hc hsz hg
  obtain ⟨k', j', g0', wI', wg', dI'⟩ := built_wf hI' hc' hsz' hg'
  obtain ⟨hd, hin, hcv⟩ := nizk_transcript_binds hE wI wI' wg wg' hv hv'
  rw [dI, dI', hK] at hd
  exact ⟨digest_inj hW hz hok hok' hd, hin, hcv⟩

/-- C76 is false of a circuit that was read from bytes: the digest is whatever the bytes say.  For
every instance and every digest there are bytes that are read as this pair. -/
theorem loaded_digest_arbitrary {W : Wire F P} (hW : W.Lawful) {r : R1CS F} (hr : W.okR1CS r)
    {d : List UInt8} (hd : d.length < 2 ^ W.bits) :
    W.fInst.deserialize (W.fInst.enc ⟨r, d⟩) = .ok ⟨r, d⟩ :=
  instance_bytes_roundtrip hW ⟨hr, hd⟩

/-- C76 is false, concretely: two circuit files that are read with the same digest, one of a
constraint system that everything satisfies and one of a constraint system that nothing satisfies. -/
theorem loaded_digest_not_binding {W : Wire F P} (hW : W.Lawful) {K : Codec F} {one : List UInt8}
    (h1 : K.fromBytes one = some 1) {d : List UInt8} (hd : d.length < 2 ^ W.bits) :
    ∃ f f' I I', W.fInst.deserialize f = .ok I ∧ W.fInst.deserialize f' = .ok I' ∧ I.digest = d ∧
      I'.digest = d ∧
      (∀ vars : List F, vars.length ≤ 2 → ∀ x : F, I.isSat vars [x] = .ok (.ok true)) ∧
      (∀ vars : List F, vars.length ≤ 2 → ∀ x : F, I'.isSat vars [x] = .ok (.ok false)) := by
  obtain ⟨I, hI⟩ := (instance_new_ok_iff K 1 2 1 [] [] []).2 (by simp)
  obtain ⟨I', hI'⟩ := (instance_new_ok_iff K 1 2 1 [(0, 2, one)] [(0, 2, one)] []).2 (by simp [h1])
  have hvp : varsPadded 2 1 = 2 := by decide +kernel
  have hcp : consPadded 1 = 2 := by decide +kernel
  have hb : 2 ^ 6 ≤ 2 ^ W.bits := Nat.pow_le_pow_right (by norm_num) hW.bits_lo
  have ok := okR1CS_of_new (W := W) hI (by rw [hcp]; simp; omega) (by rw [hvp]; omega)
  have ok' := okR1CS_of_new (W := W) hI' (by rw [hcp]; simp; omega) (by rw [hvp]; omega)
  have nv : I.inst.numVars = 2 := by obtain ⟨-, -, -, rfl⟩ := new_ok_entries hI; exact hvp
  have nv' : I'.inst.numVars = 2 := by obtain ⟨-, -, -, rfl⟩ := new_ok_entries hI'; exact hvp
  refine ⟨_, _, ⟨I.inst, d⟩, ⟨I'.inst, d⟩, loaded_digest_arbitrary hW ok hd, loaded_digest_arbitrary hW ok' hd,
    rfl, rfl, ?_, ?_⟩
  · intro vars hv x
    obtain ⟨b, hb, hiff⟩ := padding_preserves_sat hI (vars := vars) (inputs := [x]) (by rw [nv]; exact hv) rfl
    show I.isSat vars [x] = _
    rw [hb, hiff.2]
    intro i hi
    simp [rowDot, parsed, matEntry]
  · intro vars hv x
    obtain ⟨b, hb, hiff⟩ := padding_preserves_sat hI' (vars := vars) (inputs := [x]) (by rw [nv']; exact hv) rfl
    show I'.isSat vars [x] = _
    rw [hb]
    congr 2
    rw [Bool.eq_false_iff]
    intro hbt
    have := hiff.1 hbt 0 (by norm_num)
    rw [rowDot_eq _ (by simp [parsed, zvec, fit_length]), rowDot_eq _ (by simp [parsed])] at this
    have e := zvec_getD_ge (fit 2 vars) [x] 0
    rw [fit_length, add_zero] at e
    simp only [parsed, List.map_cons, List.map_nil, List.sum_cons, List.sum_nil, if_true, h1,
      Option.getD_some, e, List.getD_cons_zero] at this
    norm_num at this

end wasm

/-! ### At the actual curve, field and encodings -/

theorem secpCodec_some (digest : R1CS (ZMod secpP) → List UInt8) {bs : List UInt8} (hl : bs.length = 32)
    (hlt : leNat bs < secpP) : (secpCodec digest).fromBytes bs = some (leNat bs : ZMod secpP) := by
  simp only [secpCodec]
  rw [if_pos ⟨hl, hlt⟩]

theorem secpCodec_encField (digest : R1CS (ZMod secpP) → List UInt8) {w : Nat} (hw : w < secpP) :
    (secpCodec digest).fromBytes (encField w) = some (w : ZMod secpP) := by
  have hn : leNat (encField w) = w := by
    rw [encField, leNat_leBytes, Nat.mod_eq_of_lt (hw.trans secpP_lt)]
  rw [secpCodec_some digest (bs := encField w) (leBytes_length 32 w) (by rw [hn]; exact hw), hn]

/-- C69 for the crate: scalars modulo `p`, points of secq256k1, SEC1 encodings, bincode, a 32- or
64-bit `usize`. -/
theorem wasm_prove_verify_secq {sqrt : ZMod secpN → Option (ZMod secpN)} (hs : SqrtSpec sqrt)
    {hash : Tr (ZMod secpP) EncPt → ZMod secpP} (hu : ∀ t, hash (t ++ [.chal "u"]) ≠ 0)
    {bits : Nat} (h32 : 32 ≤ bits) (h64 : bits ≤ 64) {src : GenSrc Secq}
    {digest : R1CS (ZMod secpP) → List UInt8}
    {r : CircomR1CS} (hr : Convertible (secpCodec digest) r) (hc : r.constraints ≠ [])
    {numPub : Nat} {I : Inst (ZMod secpP)} (hI : convertToSpartan (secpCodec digest) r numPub = .ok I)
    (hok : (secqWire bits).okInst I) (hsz : I.inst.numVars ≤ 2 ^ 62)
    {pub : List UInt8} (hlen : numPub * 32 ≤ pub.length)
    (hcanon : ∀ b ∈ chunks pub numPub, leNat b < secpP)
    {version : Nat} {prime : List UInt8} {ws : List Nat}
    (hv : version ≤ 2) (hp : prime.length = 32) (hw : ws.length < 2 ^ 27)
    (hwl : ws.length = r.numVariables) (hws : ∀ w ∈ ws, Readable w ∧ w < secpP)
    (hsat : ConsHold (coefVal (secpCodec digest)) (r.constraints.map toCon)
      (ws.map fun w : Nat => (w : ZMod secpP)))
    (label : List UInt8) (tr0 : Tr (ZMod secpP) EncPt) (tape : Tape (ZMod secpP)) :
    ∃ proof, wasmProve ((secqWire bits).wasmEnv (secqEnvE sqrt hash) src (secpCodec digest)) label tr0 tape
        ((secqWire bits).fInst.enc I) (encWtns version prime (32 * ws.length) ws) pub = .ok proof ∧
      wasmVerify ((secqWire bits).wasmEnv (secqEnvE sqrt hash) src (secpCodec digest)) label tr0
        ((secqWire bits).fInst.enc I) proof pub = .ok true := by
  have hl : ∀ b ∈ chunks pub numPub, b.length = 32 := by
    intro b hb
    simp only [chunks, List.mem_map, List.mem_range] at hb
    obtain ⟨i, hi, rfl⟩ := hb
    have : (i + 1) * 32 ≤ numPub * 32 := Nat.mul_le_mul_right _ hi
    rw [List.length_take, List.length_drop]
    omega
  have e1 : ∀ b ∈ chunks pub numPub, (secpCodec digest).fromBytes b = some (leNat b : ZMod secpP) :=
    fun b hb => secpCodec_some digest (hl b hb) (hcanon b hb)
  have e2 : ∀ w ∈ ws, (secpCodec digest).fromBytes (encField w) = some (w : ZMod secpP) :=
    fun w hw => secpCodec_encField digest (hws w hw).2
  refine wasm_prove_verify_bytes Koblitz.secp_consts.1 Koblitz.secp_consts.2.1
    (secqWire_lawful (by omega) h64) h32 (secqEnvE_lawful hs hash) hu hr hc hI hok hsz hlen
    (fun b hb => by rw [e1 b hb]; rfl) hv hp hw hwl (fun w hw => ⟨(hws w hw).1, by rw [e2 w hw]; rfl⟩) ?_
    label tr0 tape
  have m2 : (ws.map fun w => ((secpCodec digest).fromBytes (encField w)).getD 0) =
      ws.map fun w : Nat => (w : ZMod secpP) :=
    List.map_congr_left fun w hw => by rw [e2 w hw]; rfl
  rw [m2]
  exact hsat

/-- The circuit of the example: `w1 * w1 = w2`, `w1` public. -/
def squareCircuit : CircomR1CS :=
  ⟨2, 1, 3, [([(1, swapped 1)], [(1, swapped 1)], [(2, swapped 1)])]⟩

/-- The hypotheses of `wasm_prove_verify_secq` (and of the theorems it rests on) hold of a circuit, a
witness and a public input: `3 * 3 = 9`. -/
example {sqrt : ZMod secpN → Option (ZMod secpN)} (hs : SqrtSpec sqrt) (src : GenSrc Secq) (label : List UInt8)
    (tape : Tape (ZMod secpP)) : ∃ I proof,
    convertToSpartan (secpCodec (fun _ => [1, 2, 3])) squareCircuit 1 = .ok I ∧
    wasmProve ((secqWire 32).wasmEnv (secqEnvE sqrt fun _ => 5) src (secpCodec (fun _ => [1, 2, 3])))
      label [] tape ((secqWire 32).fInst.enc I) (encWtns 2 (List.replicate 32 0) (32 * 3) [1, 3, 9])
      (leBytes 32 3) = .ok proof ∧
    wasmVerify ((secqWire 32).wasmEnv (secqEnvE sqrt fun _ => 5) src (secpCodec (fun _ => [1, 2, 3])))
      label [] ((secqWire 32).fInst.enc I) proof (leBytes 32 3) = .ok true := by
  have h1 : (secpCodec (fun _ => [1, 2, 3])).fromBytes (coreToRepr (swapped 1)) = some 1 := by
    rw [coreToRepr_swapped]
    have := secpCodec_encField (fun _ => [1, 2, 3]) (w := 1) (by decide +kernel)
    rwa [Nat.cast_one] at this
  have hr : Convertible (secpCodec (fun _ => [1, 2, 3])) squareCircuit := by
    intro c hc t ht
    simp only [squareCircuit, List.mem_singleton] at hc
    subst hc
    simp only [List.cons_append, List.nil_append, List.mem_cons, List.not_mem_nil, or_false] at ht
    rcases ht with rfl | rfl | rfl <;> exact ⟨by simp [squareCircuit], by rw [h1]; rfl⟩
  obtain ⟨I, hI, hnew⟩ := convert_eq (numPub := 1) hr
  have hvp : varsPadded 3 1 = 4 := by decide +kernel
  have hcp : consPadded 1 = 2 := by decide +kernel
  have hA : ∀ sel, (matTriples sel squareCircuit.constraints).length =
      (sel ([(1, swapped 1)], [(1, swapped 1)], [(2, swapped 1)])).length := by
    intro sel
    simp [matTriples, squareCircuit]
  have hok : ∀ bits, 5 ≤ bits → (secqWire bits).okR1CS I.inst := by
    intro bits hb
    have : 2 ^ 5 ≤ 2 ^ bits := Nat.pow_le_pow_right (by norm_num) hb
    refine okR1CS_of_new hnew ?_ ?_
    · rw [hA, hA, hA]
      show consPadded 1 + _ < 2 ^ bits
      rw [hcp]
      simp only [List.length_singleton, max_self]
      omega
    · show 2 * varsPadded 3 1 < 2 ^ bits
      rw [hvp]; omega
  have hdig : I.digest = [1, 2, 3] := by
    obtain ⟨-, -, -, rfl⟩ := new_ok_entries hnew
    rfl
  have hnv : I.inst.numVars = 4 := by
    obtain ⟨-, -, -, rfl⟩ := new_ok_entries hnew
    exact hvp
  have hch : chunks (leBytes 32 3) 1 = [leBytes 32 3] := by decide +kernel
  have h3 : leNat (leBytes 32 3) = 3 := by decide +kernel
  obtain ⟨proof, hp, hv⟩ := wasm_prove_verify_secq (bits := 32) hs (hash := fun _ => 5)
    (fun _ => by decide +kernel) (by norm_num) (by norm_num) (src := src) hr (by simp [squareCircuit]) hI
    ⟨hok 32 (by norm_num), by rw [Wire.fits, hdig]; norm_num [secqWire]⟩ (by rw [hnv]; norm_num)
    (pub := leBytes 32 3) (by rw [leBytes_length])
    (by intro b hb; rw [hch, List.mem_singleton] at hb; rw [hb, h3]; decide +kernel)
    (version := 2) (prime := List.replicate 32 0) (ws := [1, 3, 9]) (le_refl 2) (by simp) (by norm_num) rfl
    (by decide +kernel)
    (by
      intro c hc
      simp only [squareCircuit, List.map_cons, List.map_nil, List.mem_singleton] at hc
      subst hc
      simp only [toCon, evalLC, List.map_cons, List.map_nil, List.sum_cons, List.sum_nil, add_zero, coefVal, h1,
        Option.getD_some]
      norm_num)
    label [] tape
  exact ⟨I, proof, hI, hp, hv⟩

/-- Instances of both kinds of `okInst` exist, and files with a digest of somebody's choice. -/
example : ∃ f f' I I', (secqWire 32).fInst.deserialize f = .ok I ∧ (secqWire 32).fInst.deserialize f' = .ok I' ∧
    I.digest = [7] ∧ I'.digest = [7] ∧
    (∀ vars : List (ZMod secpP), vars.length ≤ 2 → ∀ x, I.isSat vars [x] = .ok (.ok true)) ∧
    (∀ vars : List (ZMod secpP), vars.length ≤ 2 → ∀ x, I'.isSat vars [x] = .ok (.ok false)) :=
  loaded_digest_not_binding (secqWire_lawful (by norm_num) (by norm_num)) (K := secpCodec fun _ => [])
    (one := encField 1) (by
      have := secpCodec_encField (fun _ => []) (w := 1) (by decide +kernel)
      rwa [Nat.cast_one] at this) (by norm_num [secqWire])

/-- A small proof value and its bytes: the hypotheses of the round trip, of the trailing bytes and of
the length field are met. -/
def tinyProof : NIZK (ZMod secpP) EncPt :=
  let o : EncPt := ⟨[0], rfl⟩
  let k : ZKSumcheck (ZMod secpP) EncPt := ⟨[o], [o], [⟨o, o, [1, 2], 3, 4⟩]⟩
  ⟨⟨[o, o], k, o, o, o, o, ⟨o, 1, 2⟩, ⟨o, o, o, 1, 2, 3, 4, 5⟩, ⟨o, 6⟩, k, o, ⟨⟨[o], [o]⟩, o, o, 7, 8⟩, ⟨o, 9⟩⟩,
    [10, 11], [12]⟩

example : (secqWire 32).okNIZK tinyProof ∧
    (∀ junk, (secqWire 32).fNIZK.deserialize ((secqWire 32).fNIZK.enc tinyProof ++ junk) = .ok tinyProof) ∧
    ∃ a b, (secqWire 32).fNIZK.enc tinyProof = a ++ leBytes 8 32 ++ b ∧
      (secqWire 32).fNIZK.deserialize (a ++ leBytes 8 33 ++ b) = .ok tinyProof := by
  have hW := secqWire_lawful (bits := 32) (by norm_num) (by norm_num)
  have hok : (secqWire 32).okNIZK tinyProof := by
    simp [Wire.okNIZK, Wire.okR1CSProof, Wire.okZK, Wire.fits, tinyProof, secqWire]
  exact ⟨hok, nizk_trailing_bytes hW (nizk_bytes_roundtrip hW hok),
    nizk_length_field hW hok (x := 10) (xs := [11]) rfl (by norm_num) (by norm_num [secqWire])⟩

/-- The matrices are told apart by the digest: both sides of `digest_inj` occur. -/
example : ∃ r s : R1CS (ZMod secpP), (secqWire 64).okR1CS r ∧ (secqWire 64).okR1CS s ∧
    (secqWire 64).digest id r ≠ (secqWire 64).digest id s := by
  have hW := secqWire_lawful (bits := 64) (by norm_num) (by norm_num)
  have a : (secqWire 64).okR1CS ⟨2, 2, 1, ⟨1, 2, [⟨0, 1, 5⟩]⟩, ⟨1, 2, []⟩, ⟨1, 2, []⟩⟩ := by
    simp [Wire.okR1CS, Wire.okMat, Wire.okEntry, Wire.fits, secqWire]
  have b : (secqWire 64).okR1CS ⟨2, 2, 1, ⟨1, 2, [⟨0, 1, 6⟩]⟩, ⟨1, 2, []⟩, ⟨1, 2, []⟩⟩ := by
    simp [Wire.okR1CS, Wire.okMat, Wire.okEntry, Wire.fits, secqWire]
  refine ⟨_, _, a, b, fun h => ?_⟩
  have := digest_inj hW Function.injective_id a b h
  simp only [R1CS.mk.injEq, SparseMat.mk.injEq, List.cons.injEq, Entry.mk.injEq] at this
  exact absurd this.2.2.2.1.2.2.1.2.2 (by decide +kernel)

end Spartan
