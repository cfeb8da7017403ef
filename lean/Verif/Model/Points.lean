import Verif.Model.FieldOps
import Verif.Model.Group
import Verif.Model.CoreScalar
import Verif.Model.SqrtQ

/-!
The arithmetic of curve points below `GroupElement`: `packages/secq256k1/src/affine.rs` and
`packages/Spartan-secq/src/group.rs`, on the limbs of `field_secq.rs`.

`primeorder` 0.0.1 (a fork, `Cargo.lock` l. 797–799) and `multiexp` 0.2.2 are not in the repository.  The following
transcribes them: homogeneous coordinates with the complete formulas of Renes, Costello and Batina, multiplication by a
scalar with a window of four bits, and the algorithms of Straus and Pippenger.  The fork is not published with its
formulas; both sets of complete formulas that apply to `EQUATION_A = 0` are modelled, those for any `a` and those for
`a = 0`, and all theorems are about both.
-/

namespace Spartan.Pt

/-- The field operations that the formulas use, the constant `a` and three times the constant `b`.
The constants are `EQUATION_A` and `EQUATION_B`, `secq256k1/src/lib.rs` l. 39–42. -/
structure FOps (α : Type) where
  add : α → α → α
  sub : α → α → α
  mul : α → α → α
  a : α
  b3 : α

/-- `primeorder::ProjectivePoint`, named in `lib.rs` l. 18. -/
structure Proj (α : Type) where
  x : α
  y : α
  z : α

/-- `primeorder::AffinePoint`, named in `affine.rs` l. 15; the derived `PartialEq` of `affine.rs` l. 17 compares the
three fields. -/
structure Aff where
  x : Limbs
  y : Limbs
  infinity : Bool
  deriving DecidableEq

/-- The two sets of formulas (external, see above; behind `affine.rs` l. 24, 60, 74). -/
inductive Formulas
  | anyA
  | zeroA

section formulas
variable {α : Type} (o : FOps α)

/-- Complete addition for any `a` (Algorithm 1).
External; behind `+` at `affine.rs` l. 60. -/
def addAny (p q : Proj α) : Proj α :=
  let t0 := o.mul p.x q.x
  let t1 := o.mul p.y q.y
  let t2 := o.mul p.z q.z
  let t3 := o.add p.x p.y
  let t4 := o.add q.x q.y
  let t3 := o.mul t3 t4
  let t4 := o.add t0 t1
  let t3 := o.sub t3 t4
  let t4 := o.add p.x p.z
  let t5 := o.add q.x q.z
  let t4 := o.mul t4 t5
  let t5 := o.add t0 t2
  let t4 := o.sub t4 t5
  let t5 := o.add p.y p.z
  let x3 := o.add q.y q.z
  let t5 := o.mul t5 x3
  let x3 := o.add t1 t2
  let t5 := o.sub t5 x3
  let z3 := o.mul o.a t4
  let x3 := o.mul o.b3 t2
  let z3 := o.add x3 z3
  let x3 := o.sub t1 z3
  let z3 := o.add t1 z3
  let y3 := o.mul x3 z3
  let t1 := o.add t0 t0
  let t1 := o.add t1 t0
  let t2 := o.mul o.a t2
  let t4 := o.mul o.b3 t4
  let t1 := o.add t1 t2
  let t2 := o.sub t0 t2
  let t2 := o.mul o.a t2
  let t4 := o.add t4 t2
  let t0 := o.mul t1 t4
  let y3 := o.add y3 t0
  let t0 := o.mul t5 t4
  let x3 := o.mul t3 x3
  let x3 := o.sub x3 t0
  let t0 := o.mul t3 t1
  let z3 := o.mul t5 z3
  let z3 := o.add z3 t0
  ⟨x3, y3, z3⟩

/-- Addition of a point with `z = 1`, any `a` (Algorithm 2).  External; behind `-` at `affine.rs` l. 74. -/
def mixedAny (p : Proj α) (x2 y2 : α) : Proj α :=
  let t0 := o.mul p.x x2
  let t1 := o.mul p.y y2
  let t3 := o.add x2 y2
  let t4 := o.add p.x p.y
  let t3 := o.mul t3 t4
  let t4 := o.add t0 t1
  let t3 := o.sub t3 t4
  let t4 := o.mul x2 p.z
  let t4 := o.add t4 p.x
  let t5 := o.mul y2 p.z
  let t5 := o.add t5 p.y
  let z3 := o.mul o.a t4
  let x3 := o.mul o.b3 p.z
  let z3 := o.add x3 z3
  let x3 := o.sub t1 z3
  let z3 := o.add t1 z3
  let y3 := o.mul x3 z3
  let t1 := o.add t0 t0
  let t1 := o.add t1 t0
  let t2 := o.mul o.a p.z
  let t4 := o.mul o.b3 t4
  let t1 := o.add t1 t2
  let t2 := o.sub t0 t2
  let t2 := o.mul o.a t2
  let t4 := o.add t4 t2
  let t0 := o.mul t1 t4
  let y3 := o.add y3 t0
  let t0 := o.mul t5 t4
  let x3 := o.mul t3 x3
  let x3 := o.sub x3 t0
  let t0 := o.mul t3 t1
  let z3 := o.mul t5 z3
  let z3 := o.add z3 t0
  ⟨x3, y3, z3⟩

/-- Doubling, any `a` (Algorithm 3).  External; behind `*` at `affine.rs` l. 24 and `multiexp` at `group.rs` l. 118. -/
def doubleAny (p : Proj α) : Proj α :=
  let t0 := o.mul p.x p.x
  let t1 := o.mul p.y p.y
  let t2 := o.mul p.z p.z
  let t3 := o.mul p.x p.y
  let t3 := o.add t3 t3
  let z3 := o.mul p.x p.z
  let z3 := o.add z3 z3
  let x3 := o.mul o.a z3
  let y3 := o.mul o.b3 t2
  let y3 := o.add x3 y3
  let x3 := o.sub t1 y3
  let y3 := o.add t1 y3
  let y3 := o.mul x3 y3
  let x3 := o.mul t3 x3
  let z3 := o.mul o.b3 z3
  let t2 := o.mul o.a t2
  let t3 := o.sub t0 t2
  let t3 := o.mul o.a t3
  let t3 := o.add t3 z3
  let z3 := o.add t0 t0
  let t0 := o.add z3 t0
  let t0 := o.add t0 t2
  let t0 := o.mul t0 t3
  let y3 := o.add y3 t0
  let t2 := o.mul p.y p.z
  let t2 := o.add t2 t2
  let t0 := o.mul t2 t3
  let x3 := o.sub x3 t0
  let z3 := o.mul t2 t1
  let z3 := o.add z3 z3
  let z3 := o.add z3 z3
  ⟨x3, y3, z3⟩

/-- Complete addition for `a = 0` (Algorithm 7).  External; behind `+` at `affine.rs` l. 60. -/
def addZero (p q : Proj α) : Proj α :=
  let t0 := o.mul p.x q.x
  let t1 := o.mul p.y q.y
  let t2 := o.mul p.z q.z
  let t3 := o.add p.x p.y
  let t4 := o.add q.x q.y
  let t3 := o.mul t3 t4
  let t4 := o.add t0 t1
  let t3 := o.sub t3 t4
  let t4 := o.add p.y p.z
  let x3 := o.add q.y q.z
  let t4 := o.mul t4 x3
  let x3 := o.add t1 t2
  let t4 := o.sub t4 x3
  let x3 := o.add p.x p.z
  let y3 := o.add q.x q.z
  let x3 := o.mul x3 y3
  let y3 := o.add t0 t2
  let y3 := o.sub x3 y3
  let x3 := o.add t0 t0
  let t0 := o.add x3 t0
  let t2 := o.mul o.b3 t2
  let z3 := o.add t1 t2
  let t1 := o.sub t1 t2
  let y3 := o.mul o.b3 y3
  let x3 := o.mul t4 y3
  let t2 := o.mul t3 t1
  let x3 := o.sub t2 x3
  let y3 := o.mul y3 t0
  let t1 := o.mul t1 z3
  let y3 := o.add t1 y3
  let t0 := o.mul t0 t3
  let z3 := o.mul z3 t4
  let z3 := o.add z3 t0
  ⟨x3, y3, z3⟩

/-- Addition of a point with `z = 1` for `a = 0` (Algorithm 8).  External; behind `-` at `affine.rs` l. 74. -/
def mixedZero (p : Proj α) (x2 y2 : α) : Proj α :=
  let t0 := o.mul p.x x2
  let t1 := o.mul p.y y2
  let t3 := o.add x2 y2
  let t4 := o.add p.x p.y
  let t3 := o.mul t3 t4
  let t4 := o.add t0 t1
  let t3 := o.sub t3 t4
  let t4 := o.mul y2 p.z
  let t4 := o.add t4 p.y
  let y3 := o.mul x2 p.z
  let y3 := o.add y3 p.x
  let x3 := o.add t0 t0
  let t0 := o.add x3 t0
  let t2 := o.mul o.b3 p.z
  let z3 := o.add t1 t2
  let t1 := o.sub t1 t2
  let y3 := o.mul o.b3 y3
  let x3 := o.mul t4 y3
  let t2 := o.mul t3 t1
  let x3 := o.sub t2 x3
  let y3 := o.mul y3 t0
  let t1 := o.mul t1 z3
  let y3 := o.add t1 y3
  let t0 := o.mul t0 t3
  let z3 := o.mul z3 t4
  let z3 := o.add z3 t0
  ⟨x3, y3, z3⟩

/-- Doubling for `a = 0` (Algorithm 9).  External; behind `*` at `affine.rs` l. 24 and `multiexp` at `group.rs` l. 118. -/
def doubleZero (p : Proj α) : Proj α :=
  let t0 := o.mul p.y p.y
  let z3 := o.add t0 t0
  let z3 := o.add z3 z3
  let z3 := o.add z3 z3
  let t1 := o.mul p.y p.z
  let t2 := o.mul p.z p.z
  let t2 := o.mul o.b3 t2
  let x3 := o.mul t2 z3
  let y3 := o.add t0 t2
  let z3 := o.mul t1 z3
  let t1 := o.add t2 t2
  let t2 := o.add t1 t2
  let t0 := o.sub t0 t2
  let y3 := o.mul t0 y3
  let y3 := o.add x3 y3
  let t1 := o.mul p.x p.y
  let x3 := o.mul t0 t1
  let x3 := o.add x3 x3
  ⟨x3, y3, z3⟩

/-- Addition of projective points.  External; behind `+` at `affine.rs` l. 60. -/
def Formulas.add : Formulas → Proj α → Proj α → Proj α
  | .anyA => addAny o
  | .zeroA => addZero o

/-- Addition of a point with `z = 1`.  External; behind `-` at `affine.rs` l. 74. -/
def Formulas.mixed : Formulas → Proj α → α → α → Proj α
  | .anyA => mixedAny o
  | .zeroA => mixedZero o

/-- Doubling.  External; behind `*` at `affine.rs` l. 24. -/
def Formulas.double : Formulas → Proj α → Proj α
  | .anyA => doubleAny o
  | .zeroA => doubleZero o

end formulas

/-- The operations and constants of `field_secq::FieldElement`; `lib.rs` l. 34–42. -/
def limbOps : FOps Limbs where
  add := paramsQ.add
  sub := paramsQ.sub
  mul := paramsQ.mul
  a := MParams.zero
  b3 := paramsQ.mul (paramsQ.fromU64 3) secqB

/-- `ProjectivePoint::IDENTITY` (external), with `ZERO` and `ONE` of `lib.rs` l. 36–37. -/
def projIdentity : Proj Limbs := ⟨MParams.zero, paramsQ.one, MParams.zero⟩

/-- `AffinePoint::IDENTITY` (external), `affine.rs` l. 87–89. -/
def affIdentity : Aff := ⟨MParams.zero, MParams.zero, true⟩

/-- `AffinePoint::GENERATOR` (external), `affine.rs` l. 91–93, with the coordinates of `lib.rs` l. 44–61. -/
def affGenerator : Aff := ⟨secqGenX, secqGenY, false⟩

/-- `From<AffinePoint> for ProjectivePoint` (external), used at `affine.rs` l. 60, 74 and `group.rs` l. 109. -/
def fromAffine (a : Aff) : Proj Limbs := if a.infinity then projIdentity else ⟨a.x, a.y, paramsQ.one⟩

/-- `ProjectivePoint::to_affine` (external), used through `into()` at `affine.rs` l. 24, 60, 74 and at `group.rs`
l. 120.  `invert` is `field_secq.rs` l. 797–845. -/
def toAffine (p : Proj Limbs) : Aff :=
  match paramsQ.invertQ p.z with
  | some zinv => ⟨paramsQ.mul p.x zinv, paramsQ.mul p.y zinv, false⟩
  | none => affIdentity

/-- `Neg for AffinePoint` of primeorder (external), called at `affine.rs` l. 255. -/
def affNegCore (a : Aff) : Aff := ⟨a.x, paramsQ.neg a.y, a.infinity⟩

/-- `Sub<AffinePoint> for ProjectivePoint` (external): mixed addition of the negative; the first operand when the
second is the identity.  Called at `affine.rs` l. 74. -/
def projSubAffine (f : Formulas) (p : Proj Limbs) (a : Aff) : Proj Limbs :=
  let b := affNegCore a
  if b.infinity then p else f.mixed limbOps p b.x b.y

/-! ### `ProjectivePoint * Scalar` -/

/-- The operations of a group that the algorithms use.
Used at `affine.rs` l. 24 and, through `multiexp`, `group.rs` l. 118. -/
structure GOps (γ : Type) where
  identity : γ
  add : γ → γ → γ
  double : γ → γ

/-- The first `n` entries of the table of multiples: identity, the point, then doubling the entry at half the index or adding
the point to the entry before.  External; behind `*` at `affine.rs` l. 24. -/
def mulTable {γ : Type} (g : GOps γ) (p : γ) : Nat → List γ
  | 0 => []
  | 1 => [g.identity]
  | 2 => [g.identity, p]
  | n + 1 =>
    let pc := mulTable g p n
    pc ++ [if n % 2 = 0 then g.double (pc.getD (n / 2) g.identity) else g.add (pc.getD (n - 1) g.identity) p]

/-- `Choice::from((((slot as usize) ^ i).wrapping_sub(1) >> 8) as u8 & 1)` with a `usize` of 64 bits.
External; behind `*` at `affine.rs` l. 24. -/
def slotChoice (slot i : Nat) : Bool := (((slot ^^^ i) + (2 ^ 64 - 1)) % 2 ^ 64 / 2 ^ 8) % 256 % 2 = 1

/-- The loop that picks an entry of the table: `t` starts as the identity, and each of the entries 1 to 15 is assigned
under its choice.  External; behind `*` at `affine.rs` l. 24. -/
def select {γ : Type} (g : GOps γ) (pc : List γ) (slot : Nat) : γ :=
  (List.range' 1 15).foldl (fun t i => if slotChoice slot i then pc.getD i g.identity else t) g.identity

/-- `slot` at the position `4 j`: `(k[pos >> 3] >> (pos & 7)) & 0xf`.
External; behind `*` at `affine.rs` l. 24. -/
def slotAt (k : List UInt8) (j : Nat) : Nat :=
  (((k.getD (4 * j / 8) 0) >>> (UInt8.ofNat (4 * j % 8))) &&& 0xf).toNat

/-- The loop over the positions `4 j`, …, 4, 0.  External; behind `*` at `affine.rs` l. 24. -/
def mulLoop {γ : Type} (g : GOps γ) (pc : List γ) (k : List UInt8) : Nat → γ → γ
  | 0, q => g.add q (select g pc (slotAt k 0))
  | j + 1, q =>
    let q := g.add q (select g pc (slotAt k (j + 1)))
    mulLoop g pc k j (g.double (g.double (g.double (g.double q))))

/-- `ProjectivePoint::mul`: the bytes of the scalar, least significant first, in steps of four bits from the top.
External; behind `*` at `affine.rs` l. 24. -/
def mulPoint {γ : Type} (g : GOps γ) (p : γ) (k : Nat) : γ :=
  mulLoop g (mulTable g p 16) (CoreScalar.toBytes k) 63 g.identity

/-! ### `multiexp` -/

/-- `to_le_bits`, `scalar.rs` l. 308–310: the bits of the bytes of `to_bytes`, least significant first. -/
def toLeBits (k : Nat) : List Bool :=
  (CoreScalar.toBytes k).flatMap fun b => (List.range 8).map fun i => b.toNat.testBit i

/-- The body of the loop of `prep_bits`: `groupings[p][i / w] |= bit << (i % w)`.
External (multiexp 0.2.2), called at `group.rs` l. 118. -/
def prepStep (w : Nat) (gs : List UInt8) (x : Bool × Nat) : List UInt8 :=
  gs.modify (x.2 / w) (· ||| ((if x.1 then 1 else 0 : UInt8) <<< UInt8.ofNat (x.2 % w)))

/-- `prep_bits` for one scalar: groups of `w` bits.
External (multiexp 0.2.2), called at `group.rs` l. 118. -/
def prepBits (w : Nat) (k : Nat) : List UInt8 :=
  let bits := toLeBits k
  bits.zipIdx.foldl (prepStep w) (List.replicate ((bits.length + (w - 1)) / w) 0)

section multiexp
variable {γ : Type} (g : GOps γ)

/-- `prep_tables` for one point: the first `n` multiples, by repeated addition.
External (multiexp 0.2.2), called at `group.rs` l. 118. -/
def prepTable (p : γ) : Nat → List γ
  | 0 => []
  | 1 => [g.identity]
  | n + 1 =>
    let t := prepTable p n
    t ++ [g.add (t.getLastD g.identity) p]

/-- `w` doublings.  External (multiexp 0.2.2), called at `group.rs` l. 118. -/
def doubles (r : γ) (w : Nat) : γ := g.double^[w] r

/-- One round of `straus`: `w` doublings, then one entry of every table.  Indexing panics out of range.
External (multiexp 0.2.2), called at `group.rs` l. 118. -/
def strausRound (w : Nat) (groups : List (List UInt8)) (tables : List (List γ)) (b : Nat) (res : γ) : Out γ :=
  (groups.zip tables).foldlM (fun r gt => do
    let d ← idx gt.1 b
    let t ← idx gt.2 d.toNat
    pure (g.add r t)) (doubles g res w)

/-- The rounds `n - 1`, …, 0.  External (multiexp 0.2.2), called at `group.rs` l. 118. -/
def strausLoop (w : Nat) (groups : List (List UInt8)) (tables : List (List γ)) : Nat → γ → Out γ
  | 0, res => pure res
  | b + 1, res => do
    let res ← strausRound g w groups tables b res
    strausLoop w groups tables b res

/-- `straus`; `groupings[0]` panics without pairs.
External (multiexp 0.2.2), called at `group.rs` l. 118. -/
def straus (pairs : List (Nat × γ)) (w : Nat) : Out γ := do
  let groups := pairs.map fun kp => prepBits w kp.1
  let tables := pairs.map fun kp => prepTable g kp.2 (2 ^ w)
  let g0 ← idx groups 0
  strausLoop g w groups tables g0.length g.identity

/-- The body of the loop of `pippenger` that fills the buckets.
External (multiexp 0.2.2), called at `group.rs` l. 118. -/
def bucketStep (n : Nat) (buckets : List γ) (x : List UInt8 × γ) : Out (List γ) := do
  let d ← idx x.1 n
  let b ← idx buckets d.toNat
  pure (buckets.set d.toNat (g.add b x.2))

/-- One round of `pippenger`: `w` doublings, the buckets, then the running sums over the buckets from the last one to
number 1.  External (multiexp 0.2.2), called at `group.rs` l. 118. -/
def pippengerRound (w : Nat) (xs : List (List UInt8 × γ)) (n : Nat) (res : γ) : Out γ := do
  let buckets ← xs.foldlM (bucketStep g n) (List.replicate (2 ^ w) g.identity)
  let r := (buckets.drop 1).foldr (fun b (s : γ × γ) =>
    let sum := g.add s.1 b
    (sum, g.add s.2 sum)) (g.identity, doubles g res w)
  pure r.2

/-- The rounds `n - 1`, …, 0.  External (multiexp 0.2.2), called at `group.rs` l. 118. -/
def pippengerLoop (w : Nat) (xs : List (List UInt8 × γ)) : Nat → γ → Out γ
  | 0, res => pure res
  | n + 1, res => do
    let res ← pippengerRound g w xs n res
    pippengerLoop w xs n res

/-- `pippenger`; `bits[0]` panics without pairs.
External (multiexp 0.2.2), called at `group.rs` l. 118. -/
def pippenger (pairs : List (Nat × γ)) (w : Nat) : Out γ := do
  let xs := pairs.map fun kp => (prepBits w kp.1, kp.2)
  let x0 ← idx xs 0
  pippengerLoop g w xs x0.1.length g.identity

/-- `Algorithm` of multiexp.  External (multiexp 0.2.2), called at `group.rs` l. 118. -/
inductive Algorithm
  | null
  | single
  | straus (w : Nat)
  | pippenger (w : Nat)

/-- `algorithm(len)`, in builds without and with debug assertions.
External (multiexp 0.2.2), called at `group.rs` l. 118. -/
def algorithm (debug : Bool) (len : Nat) : Algorithm :=
  if len = 0 then .null
  else if len = 1 then .single
  else if debug then
    if len < 10 then .straus 3
    else if len < 80 then .straus 4
    else if len < 100 then .straus 5
    else if len < 125 then .pippenger 4
    else if len < 275 then .pippenger 5
    else if len < 475 then .pippenger 6
    else if len < 750 then .pippenger 7
    else .pippenger 8
  else
    if len < 10 then .straus 3
    else if len < 20 then .straus 4
    else if len < 50 then .straus 5
    else if len < 100 then .pippenger 4
    else if len < 125 then .pippenger 5
    else if len < 275 then .pippenger 6
    else if len < 400 then .pippenger 7
    else .pippenger 8

/-- `multiexp`.  External (multiexp 0.2.2), called at `group.rs` l. 118. -/
def multiexp (debug : Bool) (pairs : List (Nat × γ)) : Out γ :=
  match algorithm debug pairs.length with
  | .null => pure g.identity
  | .single => do
    let kp ← idx pairs 0
    pure (mulPoint g kp.2 kp.1)
  | .straus w => straus g pairs w
  | .pippenger w => pippenger g pairs w

end multiexp

/-! ### `AffinePoint` -/

/-- The operations of `ProjectivePoint` (external), named in `lib.rs` l. 18. -/
def projOps (f : Formulas) : GOps (Proj Limbs) where
  identity := projIdentity
  add := f.add limbOps
  double := f.double limbOps

/-- `Add<AffinePoint> for AffinePoint`, `affine.rs` l. 56–62 (and `AddAssign`, l. 64–68, 259–271). -/
def affAdd (f : Formulas) (a b : Aff) : Aff := toAffine (f.add limbOps (fromAffine a) (fromAffine b))

/-- `Sub<AffinePoint> for AffinePoint`, `affine.rs` l. 70–76 (and `SubAssign`, l. 78–82, 273–285). -/
def affSub (f : Formulas) (a b : Aff) : Aff := toAffine (projSubAffine f (fromAffine a) b)

/-- `Neg for AffinePoint`, `affine.rs` l. 251–257. -/
def affNeg (a : Aff) : Aff := affNegCore a

/-- `double` of `Group for AffinePoint`, `affine.rs` l. 318–320. -/
def affDouble (f : Formulas) (a : Aff) : Aff := affAdd f a a

/-- `Mul<Scalar> for AffinePoint`, `affine.rs` l. 20–42 (and `MulAssign`, l. 44–54). -/
def affMul (f : Formulas) (a : Aff) (k : Nat) : Aff := toAffine (mulPoint (projOps f) (fromAffine a) k)

/-- `Sum for AffinePoint`, `affine.rs` l. 287–297. -/
def affSum (f : Formulas) (l : List Aff) : Aff := l.foldl (affAdd f) affIdentity

/-- `GroupElement * Scalar` of the proof system, `group.rs` l. 39–61. -/
def groupMul (f : Formulas) (a : Aff) (s : Limbs) : Aff := affMul f a (decompressScalar s)

/-- `vartime_multiscalar_mul`, `group.rs` l. 108–121: `points[i]` panics when there are more scalars than points. -/
def vartimeMsm (f : Formulas) (debug : Bool) (scalars : List Limbs) (points : List Aff) : Out Aff := do
  let points := points.map fromAffine
  let pairs ← scalars.zipIdx.mapM fun si => do
    let p ← idx points si.2
    pure (decompressScalar si.1, p)
  let r ← multiexp (projOps f) debug pairs
  pure (toAffine r)

/-- `compress`, `affine.rs` l. 207–209: `to_encoded_point(true)` (external). -/
def affCompress (a : Aff) : List UInt8 :=
  if a.infinity then [0] else (if paramsQ.isOdd a.y then 3 else 2) :: paramsQ.toBeBytes a.x

/-- `x³ + a x + b` (external), with the constants of `lib.rs` l. 39–42. -/
def curveRhs (x : Limbs) : Limbs :=
  paramsQ.add (paramsQ.add (paramsQ.mul (paramsQ.mul x x) x) (paramsQ.mul MParams.zero x)) secqB

/-- The point with the first coordinate `x` and the second `beta` or its negative, of the given parity.
External (primeorder), behind `affine.rs` l. 211–213. -/
def withParity (x : Limbs) (yIsOdd : Bool) (beta : Limbs) : Aff :=
  ⟨x, bif paramsQ.isOdd beta == yIsOdd then beta else paramsQ.neg beta, false⟩

/-- `AffinePoint::decompress` of primeorder (external), behind `affine.rs` l. 211–213, for a given `from_repr` and a given
root of the right side of the equation. -/
def decompressWith (fromRepr : List UInt8 → Option Limbs) (root : Limbs → Out (Option Limbs)) (x : List UInt8)
    (yIsOdd : Bool) : Out (Option Aff) :=
  match fromRepr x with
  | none => .ok none
  | some x =>
    match root x with
    | .error e => .error e
    | .ok beta => .ok (beta.map (withParity x yIsOdd))

/-- The uncompressed case of `from_encoded_point` (external), behind `affine.rs` l. 227–239: the point with the first
coordinate and the parity of the second, if its second coordinate is the given one. -/
def decodeWith (fromRepr : List UInt8 → Option Limbs) (dec : List UInt8 → Bool → Out (Option Aff))
    (x y : List UInt8) : Out (Option Aff) :=
  match fromRepr y with
  | none => .ok none
  | some y =>
    match dec x (paramsQ.isOdd y) with
    | .error e => .error e
    | .ok p => .ok (p.filter fun p => p.y == y)

/-- The point with the given first coordinate, and the second of the given parity.  `sqrt` is `field_secq.rs`
l. 445–450, `from_repr` l. 472–474. -/
def decompressX : List UInt8 → Bool → Out (Option Aff) :=
  decompressWith paramsQ.fromSec1 fun x => sqrtQ (curveRhs x)

/-- The point with the given coordinates.  `from_repr` is `field_secq.rs` l. 472–474. -/
def decodeXY : List UInt8 → List UInt8 → Out (Option Aff) := decodeWith paramsQ.fromSec1 decompressX

/-- `AffinePoint::decompress`, `affine.rs` l. 211–213: `from_encoded_point` (external) on any SEC1 encoding.  The compact
form (tag 5) is refused. -/
def affDecompress (bs : List UInt8) : Out (Option Aff) :=
  match bs with
  | [] => .ok none
  | t :: rest =>
    if t = 0 ∧ rest = [] then .ok (some affIdentity)
    else if (t = 2 ∨ t = 3) ∧ rest.length = 32 then decompressX rest (t == 3)
    else if t = 4 ∧ rest.length = 64 then decodeXY (rest.take 32) (rest.drop 32)
    else .ok none

/-- The result of a decoding that does not panic. -/
def decoded (r : Out (Option Aff)) : Option Aff :=
  match r with
  | .ok p => p
  | .error _ => none

/-- `from_uniform_bytes`, `affine.rs` l. 215–242, on limbs throughout; both decodings are followed by `unwrap`, so a
panic inside them and a failure are the same. -/
def uniformPoint (f : Formulas) (bytes : List UInt8) : Out Aff :=
  fromUniformBytes (fun x y => decoded (affDecompress (4 :: (x ++ y)))) (affAdd f) bytes

end Spartan.Pt
