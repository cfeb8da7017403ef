import Verif.Lemmas.Shake
import Verif.Props.HashToCurveStd
import Verif.Props.Merlin

/-!
C118: the commitment generators are the points that SHAKE256 and hash-to-curve give for the label.
C119: the challenges of the transcript come from Keccak-f[1600].
-/

set_option exponentiation.threshold 2000

namespace Spartan

open MParams Spec

/-! ### C118 -/

/-- What is hashed: the label, then the SEC1 encoding of the generator of secq256k1, whose ordinate is odd. -/
def hashedLabel (label : List UInt8) : List ℕ :=
  label.map UInt8.toNat ++ 3 :: Spec.Keccak.beBytes 32 0x76c39f5585cb160eb6b06c87a2ce32e23134e45a097781a6a24288e37702eda6

/-- The number with the 64 bytes of the output stream from position `k` on, least significant first. -/
def streamNum (label : List UInt8) (k : ℕ) : ℕ :=
  ∑ j ∈ Finset.range 64, Spec.Keccak.shake256 (hashedLabel label) (k + j) * 256 ^ j

/-- Generator `i` for a label: the sum of the standard images of two consecutive pieces of 64 bytes. -/
def IsGenerator (label : List UInt8) (i : ℕ) (P : Secq) : Prop :=
  ∃ x1 y1 x2 y2, ∃ (h1 : OnSecq x1 y1) (h2 : OnSecq x2 y2),
    StdImage (streamNum label (128 * i) : ℕ) x1 y1 ∧ StdImage (streamNum label (128 * i + 64) : ℕ) x2 y2 ∧
    P = secqPt x1 y1 h1 + secqPt x2 y2 h2

end Spartan

namespace Spartan.Shake
open MParams Spec

theorem decode_uncompressed : DecodesSecq decodeUncompressed secqPt := by
  intro lx ly x y h hx hy
  have e (l : Limbs) (z : ZMod secpN) (hz : l.Rep secpN z) : leNat (paramsQ.toBeBytes l).reverse = z.val := by
    rw [toBeBytes_eq valid_Q hz, List.reverse_reverse, leNat_leBytes,
      Nat.mod_eq_of_lt (lt_of_lt_of_le (lt_trans (ZMod.val_lt z) valid_Q.lt) (by norm_num))]
  haveI := valid_Q.neZero
  have hc : ∀ z : ZMod secpN, ((z.val : ℕ) : ZMod secpN) = z := fun z => ZMod.natCast_zmod_val z
  have key : ∀ bx bY : List UInt8, leNat bx.reverse = x.val → leNat bY.reverse = y.val →
      decodeUncompressed bx bY = some (secqPt x y h) := by
    intro bx bY e1 e2
    have hxy : ((y.val : ℕ) : ZMod secpN) ^ 2 = ((x.val : ℕ) : ZMod secpN) ^ 3 + 7 := by rw [hc, hc]; exact h
    unfold decodeUncompressed
    simp only [e1, e2]
    rw [if_pos ⟨ZMod.val_lt x, ZMod.val_lt y⟩, dif_pos hxy]
    unfold secqPt
    congr 1
    simp only [WeierstrassCurve.Affine.Point.some.injEq]
    exact ⟨hc x, hc y⟩
  exact key _ _ (e lx x hx) (e ly y hy)

/-- The bytes of block `i`. -/
noncomputable def block (label : List UInt8) (i : ℕ) : List UInt8 :=
  (List.range 128).map fun j =>
    outByte (xofResult (input (input new label) (secqCompress generator))).state (128 * i + j)

theorem points_eq {w : Words} (k i : ℕ) {f : ℕ → Secq}
    (h : ∀ i, fromUniform ((List.range 128).map fun j => outByte w (128 * i + j)) = .ok (f i)) :
    points k (after w (128 * i)) = .ok ((List.range k).map fun j => f (i + j)) := by
  induction k generalizing i with
  | zero => rfl
  | succ k ih =>
    unfold points
    rw [read_after]
    simp only
    rw [h i, show 128 * i + 128 = 128 * (i + 1) by ring, ih (i + 1)]
    show Except.ok _ = _
    rw [List.range_succ_eq_map, List.map_cons, List.map_map]
    congr 2
    refine List.map_congr_left fun j _ => ?_
    simp only [Function.comp]
    rw [show i + 1 + j = i + (j + 1) by ring]

theorem leNat_range (n : ℕ) (f : ℕ → UInt8) :
    leNat ((List.range n).map f) = ∑ j ∈ Finset.range n, (f j).toNat * 256 ^ j := by
  induction n with
  | zero => rfl
  | succ n ih =>
    rw [List.range_succ, List.map_append, leNat_append, ih, Finset.sum_range_succ, List.length_map, List.length_range]
    simp [leNat, mul_comm]

theorem generator_bytes : (secqCompress generator).map UInt8.toNat =
    3 :: Spec.Keccak.beBytes 32 0x76c39f5585cb160eb6b06c87a2ce32e23134e45a097781a6a24288e37702eda6 := by
  have hx : ((Koblitz.secqGx : ℕ) : ZMod secpN).val = 0x76c39f5585cb160eb6b06c87a2ce32e23134e45a097781a6a24288e37702eda6 := by
    rw [ZMod.val_natCast]; decide +kernel
  have hy : ((Koblitz.secqGy : ℕ) : ZMod secpN).val % 2 = 1 := by
    rw [ZMod.val_natCast]; decide +kernel
  unfold generator secqCompress
  simp only
  rw [hx, if_pos hy]
  decide +kernel

theorem seen_label (label : List UInt8) :
    Seen (input (input new label) (secqCompress generator)) (label ++ secqCompress generator) := by
  have := (seen_new.input label).input (secqCompress generator)
  rwa [List.nil_append] at this

theorem byte_eq (label : List UInt8) (k : ℕ) :
    (outByte (xofResult (input (input new label) (secqCompress generator))).state k).toNat =
      Spec.Keccak.shake256 (hashedLabel label) k := by
  rw [outByte_shake (seen_label label), List.map_append, generator_bytes]
  rfl

theorem block_generator (label : List UInt8) (i : ℕ) : ∃ P, fromUniform (block label i) = .ok P ∧ IsGenerator label i P := by
  obtain ⟨x1, y1, x2, y2, h1, h2, i1, i2, e⟩ := from_uniform_bytes_standard (add := (· + ·)) decode_uncompressed
    (bytes := block label i) (by simp [block])
  refine ⟨_, e, x1, y1, x2, y2, h1, h2, ?_, ?_, rfl⟩
  · convert i1 using 2
    unfold block streamNum
    rw [← List.map_take, List.take_range, leNat_range]
    exact Finset.sum_congr rfl fun j _ => by rw [byte_eq]
  · convert i2 using 2
    unfold block streamNum
    have : (List.range 128).drop 64 = (List.range 64).map (64 + ·) := by decide
    rw [← List.map_drop, this, List.map_map, leNat_range]
    refine Finset.sum_congr rfl fun j _ => ?_
    simp only [Function.comp]
    rw [byte_eq, show 128 * i + 64 + j = 128 * i + (64 + j) by ring]

end Spartan.Shake

namespace Spartan
open MParams Spec

/-- C118: a label determines its generators. -/
theorem generator_unique {label : List UInt8} {i : ℕ} {P Q : Secq} (hP : IsGenerator label i P)
    (hQ : IsGenerator label i Q) : P = Q := by
  obtain ⟨x1, y1, x2, y2, h1, h2, i1, i2, rfl⟩ := hP
  obtain ⟨x1', y1', x2', y2', h1', h2', i1', i2', rfl⟩ := hQ
  obtain ⟨_, _, _, _, u⟩ := stdImage_unique (streamNum label (128 * i) : ℕ)
  obtain ⟨_, _, _, _, v⟩ := stdImage_unique (streamNum label (128 * i + 64) : ℕ)
  obtain ⟨a, b⟩ := u _ _ i1
  obtain ⟨a', b'⟩ := u _ _ i1'
  obtain ⟨c, d⟩ := v _ _ i2
  obtain ⟨c', d'⟩ := v _ _ i2'
  subst a b a' b' c d c' d'
  rfl

/-- C118: for every number and every label, `MultiCommitGens::new` does not panic and returns that many generators of the
label, and the next one as `h`. -/
theorem multi_commit_gens_standard (n : ℕ) (label : List UInt8) :
    ∃ g, Shake.multiCommitGensNew n label = .ok g ∧ g.n = n ∧ g.G.length = n ∧
      (∀ i < n, ∃ P, g.G[i]? = some P ∧ IsGenerator label i P) ∧ IsGenerator label n g.h := by
  choose f hf hg using fun i => Shake.block_generator label i
  obtain ⟨-, -, h0⟩ := Shake.xofResult_spec (Shake.seen_label label)
  have hr : Shake.xofResult (Shake.input (Shake.input Shake.new label) (secqCompress Shake.generator)) =
      Shake.after (Shake.xofResult (Shake.input (Shake.input Shake.new label) (secqCompress Shake.generator))).state (128 * 0) := by
    unfold Shake.after
    rw [Nat.mul_zero, Nat.zero_div, Function.iterate_zero, id, Nat.zero_mod, ← h0]
  have hp := Shake.points_eq (n + 1) 0 hf
  rw [← hr] at hp
  refine ⟨⟨n, (List.range n).map f, f n⟩, ?_, rfl, by simp, fun i hi => ⟨f i, by simp [hi], hg i⟩, hg n⟩
  unfold Shake.multiCommitGensNew
  simp only
  rw [hp]
  show (match ((List.range (n + 1)).map fun j => f (0 + j))[n]? with
    | some h => pure _
    | none => Except.error Fail.panic) = _
  have : (List.range (n + 1)).map (fun j => f (0 + j)) = (List.range n).map f ++ [f n] := by
    simp only [Nat.zero_add, List.range_succ, List.map_append, List.map_singleton]
  rw [this, List.getElem?_append_right (by simp)]
  simp
  rfl

attribute [local irreducible] Shake.outByte Shake.xofResult Shake.input Shake.fromUniform Shake.generator
  Spec.Keccak.shake256

/-- The value of a result, or another one. -/
def resultOr {α : Type} (d : α) : Out α → α
  | .ok p => p
  | .error _ => d

/-- The hash and the map of the code. -/
noncomputable def shakeSrc : GenSrc Secq where
  xof label i :=
    Shake.outByte (Shake.xofResult (Shake.input (Shake.input Shake.new label) (secqCompress Shake.generator))).state i
  toPoint b := resultOr Shake.generator (Shake.fromUniform b)

theorem shakeSrc_xof (label : List UInt8) (i : ℕ) :
    (shakeSrc.xof label i).toNat = Spec.Keccak.shake256 (hashedLabel label) i := Shake.byte_eq label i

theorem shakeSrc_toPoint {b : List UInt8} {P : Secq} (e : Shake.fromUniform b = .ok P) : shakeSrc.toPoint b = P := by
  have h : shakeSrc.toPoint b = resultOr Shake.generator (Shake.fromUniform b) := by rw [shakeSrc]
  rw [h, e, resultOr]

theorem shakeSrc_block (label : List UInt8) (i : ℕ) : shakeSrc.block label i = Shake.block label i := by
  rw [GenSrc.block, Shake.block, shakeSrc]

theorem shakeSrc_point (label : List UInt8) (i : ℕ) :
    IsGenerator label i (shakeSrc.toPoint (shakeSrc.block label i)) := by
  obtain ⟨P, e, h⟩ := Shake.block_generator label i
  rw [shakeSrc_block, shakeSrc_toPoint e]
  exact h

theorem gens_of_generators {src : GenSrc Secq} {label : List UInt8} {g : Gens Secq}
    (hp : ∀ i, IsGenerator label i (src.toPoint (src.block label i))) (h2 : g.G.length = g.n)
    (h3 : ∀ i < g.n, ∃ P, g.G[i]? = some P ∧ IsGenerator label i P) (h4 : IsGenerator label g.n g.h) :
    g = Gens.new src g.n label := by
  obtain ⟨m, G, h⟩ := g
  dsimp only at h2 h3 h4
  have e1 : G = (src.points label m).take m := by
    apply List.ext_getElem?
    intro i
    by_cases hi : i < m
    · obtain ⟨P, e1, e2⟩ := h3 i hi
      rw [e1, List.getElem?_take, if_pos hi]
      unfold GenSrc.points
      rw [List.getElem?_map, List.getElem?_range (by omega)]
      exact congrArg some (generator_unique e2 (hp i))
    · rw [List.getElem?_eq_none (by omega), List.getElem?_eq_none (by simp; omega)]
  have e2 : h = (src.points label m)[m]'(by simp [GenSrc.points]) := by
    have := generator_unique h4 (hp m)
    rw [this]
    simp [GenSrc.points]
  unfold Gens.new
  rw [← e1, ← e2]

/-- C118: so the generators are an instance of those of the other theorems, in which the hash is arbitrary. -/
theorem multi_commit_gens_source (n : ℕ) (label : List UInt8) :
    Shake.multiCommitGensNew n label = .ok (Gens.new shakeSrc n label) ∧
    ∀ i, (shakeSrc.xof label i).toNat = Spec.Keccak.shake256 (hashedLabel label) i := by
  refine ⟨?_, shakeSrc_xof label⟩
  obtain ⟨g, e, h1, h2, h3, h4⟩ := multi_commit_gens_standard n label
  subst h1
  exact e.trans (congrArg Except.ok (gens_of_generators (shakeSrc_point label) h2 h3 h4))

/-- Known answer for the specification: the first bytes of SHAKE256 of the empty string. -/
theorem shake256_known_answer : (List.range 16).map (Spec.Keccak.shake256 []) =
    [0x46, 0xb9, 0xdd, 0x2b, 0x0b, 0xa8, 0x8d, 0x13, 0x23, 0x3b, 0x3f, 0xeb, 0x74, 0x3e, 0xeb, 0x24] := by
  have h : ∀ k, Spec.Keccak.shake256 [] k = (Shake.outByte (Shake.xofResult Shake.new).state k).toNat := fun k =>
    (Shake.outByte_shake Shake.seen_new k).symm
  rw [List.map_congr_left fun k _ => h k]
  decide +kernel

end Spartan

namespace Spartan.Merlin

/-! ### C119 -/

/-- C119, the calls: with the permutation of the keccak crate, the bytes of a challenge are the first bytes of the sponge
with Keccak-f[1600] on the blocks of the history. -/
theorem challenge_keccak {name : List UInt8} (hname : name.length < 2 ^ 32) {calls : List Call}
    (hc : ∀ c ∈ calls, c.Small) (label : List UInt8) {n : Nat} (hn : n ≤ 166) :
    challengeAfter KeccakF.keccakBytes name calls label n =
      .ok (output n (sponge Spec.Keccak.permBytes (history name calls label n))) := by
  rw [challenge_is_sponge _ hname hc label hn, KeccakF.keccakBytes_eq]

/-- C119: a challenge of the proof system is the reduction of 64 bytes of the sponge with Keccak-f[1600] on the blocks of
the messages before it. -/
theorem code_challenge_keccak {name : String} (hname : (ascii name).length < 2 ^ 32)
    {ms : Tr (ZMod secpP) EncPt} (h : Plains ms) (l : String) :
    codeChallenge KeccakF.keccakBytes name (ms ++ [.chal l]) =
      some (challengeValue (output64 (sponge Spec.Keccak.permBytes (blocks name (ms ++ [.chal l]))))) := by
  rw [code_challenge _ hname h, KeccakF.keccakBytes_eq]

/-- C119 for `NIZK::verify`: every challenge of an accepting run. -/
theorem nizk_challenges_keccak {name : String} (hname : (ascii name).length < 2 ^ 32)
    {sqrt : ZMod secpN → Option (ZMod secpN)} {hash : Tr (ZMod secpP) EncPt → ZMod secpP}
    (hcode : ∀ t x, Plains t → codeChallenge KeccakF.keccakBytes name t = some x → hash t = x)
    {pf : NIZK (ZMod secpP) EncPt} {I : Inst (ZMod secpP)} {input : List (ZMod secpP)} {gens : R1CSGens Secq}
    {tr : Tr (ZMod secpP) EncPt} (hd : I.digest.length < 2 ^ 32)
    (hv : NIZK.verify (secqEnvE sqrt hash) pf I input gens [] = .ok tr) {a b : Tr (ZMod secpP) EncPt} {l : String}
    (e : tr = a ++ .chal l :: b) :
    hash (a ++ [.chal l]) =
      challengeValue (output64 (sponge Spec.Keccak.permBytes (blocks name (a ++ [.chal l])))) := by
  rw [KeccakF.keccakBytes_eq] at hcode
  exact (nizk_challenges hname hcode hd hv e).1

/-- C119 for `SNARK::verify`. -/
theorem snark_challenges_keccak {name : String} (hname : (ascii name).length < 2 ^ 32)
    {sqrt : ZMod secpN → Option (ZMod secpN)} {hash : Tr (ZMod secpP) EncPt → ZMod secpP}
    (hcode : ∀ t x, Plains t → codeChallenge KeccakF.keccakBytes name t = some x → hash t = x)
    {pf : SNARK (ZMod secpP) EncPt} {comm : R1CSComm EncPt} {input : List (ZMod secpP)} {gens : SNARKGens Secq}
    {tr : Tr (ZMod secpP) EncPt} (hd : Fits comm)
    (hv : SNARK.verify (secqEnvE sqrt hash) pf comm input gens [] = .ok tr) {a b : Tr (ZMod secpP) EncPt} {l : String}
    (e : tr = a ++ .chal l :: b) :
    hash (a ++ [.chal l]) =
      challengeValue (output64 (sponge Spec.Keccak.permBytes (blocks name (a ++ [.chal l])))) := by
  rw [KeccakF.keccakBytes_eq] at hcode
  exact (snark_challenges hname hcode hd hv e).1

/-! Known answer: the test vector of the merlin crate (`equivalence_simple`). -/

def vecBlock : Block :=
  ([some 0, some 18, some 77, some 101, some 114, some 108, some 105, some 110, some 32, some 118, some 49, some
    46, some 48, some 1, some 18, some 100, some 111, some 109, some 45, some 115, some 101, some 112, some 13,
    some 0, some 0, some 0, some 14, some 2, some 116, some 101, some 115, some 116, some 32, some 112, some 114,
    some 111, some 116, some 111, some 99, some 111, some 108, some 27, some 18, some 115, some 111, some 109,
    some 101, some 32, some 108, some 97, some 98, some 101, some 108, some 9, some 0, some 0, some 0, some 42,
    some 2, some 115, some 111, some 109, some 101, some 32, some 100, some 97, some 116, some 97, some 58, some
    18, some 99, some 104, some 97, some 108, some 108, some 101, some 110, some 103, some 101, some 32, some 0,
    some 0, some 0, some 69, some 7], 84)

def vecW1 : List ℕ :=
  [0xda55fdf88f166d9c, 0x63356555233ca72a, 0xf62615555c470cdc, 0x7cb56cf122ea3b73, 0x12e90e662e681fd3,
    0x9413ee0122774a82, 0x12332db6fc4a6f22, 0xf6ac24a6e892cc93, 0xfbbb22e39500b6e1, 0x7dfe9569b2e545c8,
    0x9858ffd17413847c, 0x7372066b63e02ec9, 0x53030739602ac921, 0x5b0b7921bbbcc49, 0x887ebcce7fa88f7e,
    0x34bc04ae45cb6f65, 0x5017d979beaebeca, 0x4d5066b913bfe8c0, 0x6588dd6572594313, 0xd5209bcc0914f9ad,
    0x99b6971f044474f4, 0xd07ba81ee9defbdd, 0xe9965aa72db0f89b, 0x6e4ebb655b7ff047, 0xf6fbd9bf6aa1fafe]

def vecL2 : List ℕ :=
  [0xb43c918aea5b7f9c, 0x72764650d0dd10a, 0xf62b65302f6a61b3, 0x8c6098520e43b73, 0x7d8a6112411a6ff3,
    0xb476836e516551ee, 0x123324da99280e4e, 0xd6c949c99b90e693, 0x93d830d9f474d785, 0x5d9bf207d78929a9,
    0x985cabd63113847c, 0x7372066b63e02ec9, 0x53030739602ac921, 0x5b0b7921bbbcc49, 0x887ebcce7fa88f7e,
    0x34bc04ae45cb6f65, 0x5017d979beaebeca, 0x4d5066b913bfe8c0, 0x6588dd6572594313, 0xd5209bcc0914f9ad,
    0x19b6971f044474f4, 0xd07ba81ee9defbdd, 0xe9965aa72db0f89b, 0x6e4ebb655b7ff047, 0xf6fbd9bf6aa1fafe]

def vecW2 : List ℕ :=
  [0x32fed5d07219a2d5, 0xb8ff7fac3f260d0c, 0xca9b6eaf40a65a14, 0x1506cfefc7037c17, 0x91238e832ff8a746,
    0x5752d28df2afea8a, 0x4d42dfde7ae00eab, 0x51fd344c2b8b32a4, 0x26e4a4572c295283, 0xede9d14336d0230a,
    0xe23727e716c0c90, 0x7aa21336aabef302, 0x1290375b846c3d5, 0xc86db51005c6605d, 0xcfddd4dad03711c5,
    0x2b7808065a0e542d, 0x9100c9b97bd5ac62, 0xf07747bba445eaeb, 0x73bfa5625805ce56, 0x52fb8a25789b1fb2,
    0xffc61ce36302b216, 0xfda6f332539b513f, 0xc667a6bcc6f75173, 0xedbcd5037c036538, 0xb3a3050239f88867]

/-- With the published test vector of merlin: a transcript with one message, and 32 bytes of output. -/
theorem merlin_known_answer :
    challengeAfter KeccakF.keccakBytes (ascii "test protocol") [.append (ascii "some label") (ascii "some data")]
      (ascii "challenge") 32 =
    .ok [0xd5, 0xa2, 0x19, 0x72, 0xd0, 0xd5, 0xfe, 0x32, 0x0c, 0x0d, 0x26, 0x3f, 0xac, 0x7f, 0xff, 0xb8, 0x14, 0x5a,
    0xa6, 0x40, 0xaf, 0x6e, 0x9b, 0xca, 0x17, 0x7c, 0x03, 0xc7, 0xef, 0xcf, 0x06, 0x15] := by
  rw [challenge_is_sponge _ (by decide +kernel) (by
    intro c hc
    rw [List.mem_singleton.mp hc]
    show (ascii "some data").length < 2 ^ 32
    decide +kernel) _ (by norm_num)]
  have h : history (ascii "test protocol") [.append (ascii "some label") (ascii "some data")] (ascii "challenge") 32 =
      [vecBlock] := by decide +kernel
  have e0 : KeccakF.toWords firstState = [0x545360010001a801, 0x302e317645424f52, 0x322e, 0x0, 0x0,
    0x0, 0x0, 0x0, 0x0, 0x0,
    0x0, 0x0, 0x0, 0x0, 0x0,
    0x0, 0x0, 0x0, 0x0, 0x0,
    0x0, 0x0, 0x0, 0x0, 0x0] := by decide +kernel
  have e1 : KeccakF.keccakBytes firstState = KeccakF.ofWords vecW1 := by
    unfold KeccakF.keccakBytes
    rw [e0]
    exact congrArg KeccakF.ofWords (by decide +kernel)
  have e2 : KeccakF.toWords (xorAt (xorAt (xorAt (overlay vecBlock.1 (KeccakF.ofWords vecW1)) vecBlock.1.length vecBlock.2)
      (vecBlock.1.length + 1) 0x04) 167 0x80) = vecL2 := by decide +kernel
  have e3 : KeccakF.f1600 vecL2 = vecW2 := by decide +kernel
  rw [h]
  unfold sponge
  rw [List.foldl_cons, List.foldl_nil, e1]
  rw [absorbBlock_xorAt]
  unfold KeccakF.keccakBytes
  rw [e2, e3]
  exact congrArg Except.ok (by decide +kernel)

end Spartan.Merlin
