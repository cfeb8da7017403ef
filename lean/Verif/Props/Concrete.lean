import Verif.Props.Group
import Verif.Props.NIZK

/-!
The protocol theorems at the actual types: scalars modulo `p`, points of secq256k1 and their SEC1
encodings.
-/

set_option exponentiation.threshold 2000

namespace Spartan

/-- The environment of the proof system: secq256k1 points, SEC1 encodings, any square root
function and any transcript hash. -/
noncomputable def secqEnv (sqrt : ZMod secpN → Option (ZMod secpN))
    (hash : Tr (ZMod secpP) (List UInt8) → ZMod secpP) : Env (ZMod secpP) Secq (List UInt8) :=
  ⟨secqCompress, secqDecompress sqrt, hash⟩

/-- The hypothesis of the protocol theorems holds of the concrete encoding. -/
theorem secqEnv_lawful {sqrt : ZMod secpN → Option (ZMod secpN)} (hs : SqrtSpec sqrt)
    (hash : Tr (ZMod secpP) (List UInt8) → ZMod secpP) : (secqEnv sqrt hash).Lawful :=
  secq_decompress_compress hs

/-- C37 at the actual curve and scalar field. -/
theorem nizk_complete_secq {sqrt : ZMod secpN → Option (ZMod secpN)} (hs : SqrtSpec sqrt)
    (hash : Tr (ZMod secpP) (List UInt8) → ZMod secpP)
    {K : Codec (ZMod secpP)} {nc nv ni : Nat} {A B C : List (Nat × Nat × List UInt8)}
    {I : Inst (ZMod secpP)} (hnew : Inst.new K nc nv ni A B C = .ok (.ok I)) (hc : 1 ≤ nc)
    (hsz : I.inst.numVars ≤ 2 ^ 62) (S : GenSrc Secq) (label : List UInt8)
    {vars inputs : List (ZMod secpP)} (hsat : I.isSat vars inputs = .ok (.ok true))
    (tr : Tr (ZMod secpP) (List UInt8)) (tape : Tape (ZMod secpP)) :
    ∃ gens, NIZKGens.new S label nv ni = .ok gens ∧
      ((∃ pf tr', NIZK.prove (secqEnv sqrt hash) I vars inputs gens tr tape = .ok (pf, tr') ∧
          NIZK.verify (secqEnv sqrt hash) pf I inputs gens tr = .ok tr') ∨
        (NIZK.prove (secqEnv sqrt hash) I vars inputs gens tr tape = .error .panic ∧
          ∃ t, hash (t ++ [.chal "u"]) = 0)) :=
  nizk_complete (E := secqEnv sqrt hash) Koblitz.secp_consts.1 Koblitz.secp_consts.2.1
    (secqEnv_lawful hs hash) hnew hc hsz S label hsat tr tape

end Spartan
