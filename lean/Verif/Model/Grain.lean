import Verif.Model.PoseidonConsts
import Mathlib.Data.ZMod.Basic

/-!
The script that generates the Poseidon constants, `packages/poseidon/sage/generate_params_poseidon.sage`, as called by
`packages/poseidon/k256_params.sh`: the Grain generator, the round constants and the candidate for the matrix.  Loops
without a bound take fuel and give `none` when it runs out.  Not here: `find_FD_round_numbers` (the numbers of rounds
are arguments here) and the tests on the matrix, both in `Model/GrainSelect`; printing; the case
`field = 0`.
-/

namespace Spartan.Grain

/-- `bin(v)[2:].zfill(w)`, most significant bit first, for `v < 2 ^ w`; l. 201–206. -/
def binBits (v w : Nat) : List Bool := (List.range w).map fun i => v.testBit (w - 1 - i)

/-- `init_generator`, l. 199–210. -/
def initSeq (field sbox n t rf rp : Nat) : List Bool :=
  binBits field 2 ++ binBits sbox 4 ++ binBits n 12 ++ binBits t 12 ++ binBits rf 10 ++ binBits rp 10 ++
    List.replicate 30 true

/-- One step of the register: the new bit, and the sequence after `pop(0)` and `append`; l. 172–174. -/
def clock (s : List Bool) : Bool × List Bool :=
  let b := s.getD 62 false ^^ s.getD 51 false ^^ s.getD 38 false ^^ s.getD 23 false ^^ s.getD 13 false ^^ s.getD 0 false
  (b, s.drop 1 ++ [b])

/-- The first loop of `grain_sr_generator`, l. 171–174: `n` steps. -/
def warm : Nat → List Bool → List Bool
  | 0, s => s
  | n + 1, s => warm n (clock s).2

/-- One turn of the second loop of `grain_sr_generator`, l. 176–190: bits come in pairs; the second bit of the first
pair whose first bit is set is returned. -/
def next : Nat → List Bool → Option (Bool × List Bool)
  | 0, _ => none
  | fuel + 1, s =>
    let (b, s) := clock s
    let (c, s) := clock s
    if b then some (c, s) else next fuel s

/-- `grain_random_bits`, l. 193–197, with the bits read so far in `acc`. -/
def randomBits (fuel : Nat) : Nat → Nat → List Bool → Option (Nat × List Bool)
  | 0, acc, s => some (acc, s)
  | n + 1, acc, s => do
    let (b, s) ← next fuel s
    randomBits fuel n (2 * acc + b.toNat) s

/-- The body of the loop of `generate_constants`, l. 222–226: the first value below the modulus. -/
def constant (p fuel n : Nat) : Nat → List Bool → Option (Nat × List Bool)
  | 0, _ => none
  | k + 1, s => do
    let (v, s) ← randomBits fuel n 0 s
    if p ≤ v then constant p fuel n k s else some (v, s)

/-- `generate_constants`, l. 212–227, for `field = 1` and `m` constants. -/
def constants (p fuel n : Nat) : Nat → List Bool → Option (List Nat × List Bool)
  | 0, s => some ([], s)
  | m + 1, s => do
    let (v, s) ← constant p fuel n fuel s
    let (vs, s) ← constants p fuel n m s
    pure (v :: vs, s)

/-- `[F(grain_random_bits(n)) for _ in range(0, m)]`, l. 253. -/
def randList (p fuel n : Nat) : Nat → List Bool → Option (List (ZMod p) × List Bool)
  | 0, s => some ([], s)
  | m + 1, s => do
    let (v, s) ← randomBits fuel n 0 s
    let (vs, s) ← randList p fuel n m s
    pure ((v : ZMod p) :: vs, s)

/-- `create_mds_p`, l. 247–269: `2 t` values are drawn until they are different and no sum of one of the first and one
of the last `t` is zero; the matrix has the inverses of the sums. -/
def createMds (p fuel n t : Nat) : Nat → List Bool → Option ((Fin t → Fin t → ZMod p) × List Bool)
  | 0, _ => none
  | k + 1, s => do
    let (l, s) ← randList p fuel n (2 * t) s
    if l.Nodup ∧ ∀ i j : Fin t, l.getD i 0 + l.getD (t + j) 0 ≠ 0 then
      some (fun i j => (l.getD i 0 + l.getD (t + j) 0)⁻¹, s)
    else createMds p fuel n t k s

/-- The main part of the script, l. 510–517, up to the first matrix: the round constants and that matrix. -/
def script (p fuel field sbox n t rf rp : Nat) : Option (List Nat × (Fin t → Fin t → ZMod p)) := do
  let s := warm 160 (initSeq field sbox n t rf rp)
  let (rc, s) ← constants p fuel n ((rf + rp) * t) s
  let (m, _) ← createMds p fuel n t fuel s
  pure (rc, m)

end Spartan.Grain
