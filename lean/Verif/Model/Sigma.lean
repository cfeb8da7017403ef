import Verif.Model.Base

/-! Sigma protocols of `Spartan-secq/src/nizk/mod.rs`. -/

namespace Spartan
variable {F G P : Type} [Field F] [AddCommGroup G] [Module F G] [DecidableEq P] [DecidableEq G]

/-- `KnowledgeProof` (nizk/mod.rs:17-21). -/
structure KnowledgeProof (F P : Type) where
  alpha : P
  z1 : F
  z2 : F

/-- `KnowledgeProof::prove` (nizk/mod.rs:28-53).  Returns proof, commitment,
transcript and tape. -/
def KnowledgeProof.prove (E : Env F G P) (g : Gens G) (tr : Tr F P) (tape : Tape F) (x r : F) :
    Out (KnowledgeProof F P × P × Tr F P × Tape F) := do
  let tr := tr.protocol "knowledge proof"
  let (t1, tape) := tape.next
  let (t2, tape) := tape.next
  let C := E.compress (← commit1 x r g)
  let tr := tr.point "C" C
  let alpha := E.compress (← commit1 t1 t2 g)
  let tr := tr.point "alpha" alpha
  let (c, tr) := E.challenge tr "c"
  let z1 := x * c + t1
  let z2 := r * c + t2
  pure (⟨alpha, z1, z2⟩, C, tr, tape)

/-- `KnowledgeProof::verify` (nizk/mod.rs:55-75). -/
def KnowledgeProof.verify (E : Env F G P) (pf : KnowledgeProof F P) (g : Gens G) (tr : Tr F P)
    (C : P) : Out (Tr F P) := do
  let tr := tr.protocol "knowledge proof"
  let tr := tr.point "C" C
  let tr := tr.point "alpha" pf.alpha
  let (c, tr) := E.challenge tr "c"
  let lhs := E.compress (← commit1 pf.z1 pf.z2 g)
  let C' ← E.unpack C
  let a' ← E.unpack pf.alpha
  let rhs := E.compress (c • C' + a')
  if lhs = rhs then pure tr else .error (.err .internalError)

/-- `EqualityProof` (nizk/mod.rs:79-82). -/
structure EqualityProof (F P : Type) where
  alpha : P
  z : F

/-- `EqualityProof::prove` (nizk/mod.rs:89-117). -/
def EqualityProof.prove (E : Env F G P) (g : Gens G) (tr : Tr F P) (tape : Tape F)
    (v1 s1 v2 s2 : F) : Out (EqualityProof F P × P × P × Tr F P × Tape F) := do
  let tr := tr.protocol "equality proof"
  let (r, tape) := tape.next
  let C1 := E.compress (← commit1 v1 s1 g)
  let tr := tr.point "C1" C1
  let C2 := E.compress (← commit1 v2 s2 g)
  let tr := tr.point "C2" C2
  let alpha := E.compress (r • g.h)
  let tr := tr.point "alpha" alpha
  let (c, tr) := E.challenge tr "c"
  let z := c * (s1 - s2) + r
  pure (⟨alpha, z⟩, C1, C2, tr, tape)

/-- `EqualityProof::verify` (nizk/mod.rs:119-144). -/
def EqualityProof.verify (E : Env F G P) (pf : EqualityProof F P) (g : Gens G) (tr : Tr F P)
    (C1 C2 : P) : Out (Tr F P) := do
  let tr := tr.protocol "equality proof"
  let tr := tr.point "C1" C1
  let tr := tr.point "C2" C2
  let tr := tr.point "alpha" pf.alpha
  let (c, tr) := E.challenge tr "c"
  let C1' ← E.unpack C1
  let C2' ← E.unpack C2
  let a' ← E.unpack pf.alpha
  let rhs := E.compress (c • (C1' - C2') + a')
  let lhs := E.compress (pf.z • g.h)
  if lhs = rhs then pure tr else .error (.err .internalError)

/-- `ProductProof` (nizk/mod.rs:148-153); the array `z: [Scalar; 5]` as five fields. -/
structure ProductProof (F P : Type) where
  alpha : P
  beta : P
  delta : P
  z1 : F
  z2 : F
  z3 : F
  z4 : F
  z5 : F

/-- `ProductProof::prove` (nizk/mod.rs:160-230). -/
def ProductProof.prove (E : Env F G P) (g : Gens G) (tr : Tr F P) (tape : Tape F)
    (x rX y rY z rZ : F) : Out (ProductProof F P × P × P × P × Tr F P × Tape F) := do
  let tr := tr.protocol "product proof"
  let (b1, tape) := tape.next
  let (b2, tape) := tape.next
  let (b3, tape) := tape.next
  let (b4, tape) := tape.next
  let (b5, tape) := tape.next
  let X := E.compress (← commit1 x rX g)
  let tr := tr.point "X" X
  let Y := E.compress (← commit1 y rY g)
  let tr := tr.point "Y" Y
  let Z := E.compress (← commit1 z rZ g)
  let tr := tr.point "Z" Z
  let alpha := E.compress (← commit1 b1 b2 g)
  let tr := tr.point "alpha" alpha
  let beta := E.compress (← commit1 b3 b4 g)
  let tr := tr.point "beta" beta
  let X' ← E.decompressU X
  let delta := E.compress (← commit1 b3 b5 { n := 1, G := [X'], h := g.h })
  let tr := tr.point "delta" delta
  let (c, tr) := E.challenge tr "c"
  let z1 := b1 + c * x
  let z2 := b2 + c * rX
  let z3 := b3 + c * y
  let z4 := b4 + c * rY
  let z5 := b5 + c * (rZ - rX * y)
  pure (⟨alpha, beta, delta, z1, z2, z3, z4, z5⟩, X, Y, Z, tr, tape)

/-- `ProductProof::check_equality` (nizk/mod.rs:232-244). -/
def ProductProof.checkEquality (E : Env F G P) (Pt X : P) (c : F) (g : Gens G) (z1 z2 : F) :
    Out Bool := do
  let P' ← E.decompressU Pt
  let X' ← E.decompressU X
  let lhs := E.compress (P' + c • X')
  let rhs := E.compress (← commit1 z1 z2 g)
  pure (decide (lhs = rhs))

/-- `ProductProof::verify` (nizk/mod.rs:246-290); `&&` short-circuits. -/
def ProductProof.verify (E : Env F G P) (pf : ProductProof F P) (g : Gens G) (tr : Tr F P)
    (X Y Z : P) : Out (Tr F P) := do
  let tr := tr.protocol "product proof"
  let tr := tr.point "X" X
  let tr := tr.point "Y" Y
  let tr := tr.point "Z" Z
  let tr := tr.point "alpha" pf.alpha
  let tr := tr.point "beta" pf.beta
  let tr := tr.point "delta" pf.delta
  let (c, tr) := E.challenge tr "c"
  let b1 ← checkEquality E pf.alpha X c g pf.z1 pf.z2
  if b1 = false then .error (.err .internalError) else
  let b2 ← checkEquality E pf.beta Y c g pf.z3 pf.z4
  if b2 = false then .error (.err .internalError) else
  let X' ← E.unpack X
  let b3 ← checkEquality E pf.delta Z c { n := 1, G := [X'], h := g.h } pf.z3 pf.z5
  if b3 = false then .error (.err .internalError) else
  pure tr

/-- `DotProductProof` (nizk/mod.rs:294-300). -/
structure DotProductProof (F P : Type) where
  delta : P
  beta : P
  z : List F
  z_delta : F
  z_beta : F

/-- `DotProductProof::prove` (nizk/mod.rs:312-371). -/
def DotProductProof.prove (E : Env F G P) (gens1 gensn : Gens G) (tr : Tr F P) (tape : Tape F)
    (x : List F) (blindX : F) (a : List F) (y blindY : F) :
    Out (DotProductProof F P × P × P × Tr F P × Tape F) := do
  let tr := tr.protocol "dot product proof"
  let n := x.length
  check (x.length = a.length)
  check (gensn.n = a.length)
  check (gens1.n = 1)
  let (d, tape) := tape.nextVec n
  let (rDelta, tape) := tape.next
  let (rBeta, tape) := tape.next
  let Cx := E.compress (← commitV x blindX gensn)
  let tr := tr.point "Cx" Cx
  let Cy := E.compress (← commit1 y blindY gens1)
  let tr := tr.point "Cy" Cy
  let tr := tr.scalars "a" a
  let delta := E.compress (← commitV d rDelta gensn)
  let tr := tr.point "delta" delta
  let ad ← innerProduct a d
  let beta := E.compress (← commit1 ad rBeta gens1)
  let tr := tr.point "beta" beta
  let (c, tr) := E.challenge tr "c"
  let z := List.zipWith (fun xi di => c * xi + di) x d
  let z_delta := c * blindX + rDelta
  let z_beta := c * blindY + rBeta
  pure (⟨delta, beta, z, z_delta, z_beta⟩, Cx, Cy, tr, tape)

/-- `DotProductProof::verify` (nizk/mod.rs:373-405).  Evaluation order as in the
code: unpack and commit (which asserts `gens_n.n == z.len()`), then
`compute_dotproduct` (asserts lengths), then the second equation. -/
def DotProductProof.verify (E : Env F G P) (pf : DotProductProof F P) (gens1 gensn : Gens G)
    (tr : Tr F P) (a : List F) (Cx Cy : P) : Out (Tr F P) := do
  check (gensn.n = a.length)
  check (gens1.n = 1)
  let tr := tr.protocol "dot product proof"
  let tr := tr.point "Cx" Cx
  let tr := tr.point "Cy" Cy
  let tr := tr.scalars "a" a
  let tr := tr.point "delta" pf.delta
  let tr := tr.point "beta" pf.beta
  let (c, tr) := E.challenge tr "c"
  let Cx' ← E.unpack Cx
  let delta' ← E.unpack pf.delta
  let r1 ← commitV pf.z pf.z_delta gensn
  let za ← innerProduct pf.z a
  let Cy' ← E.unpack Cy
  let beta' ← E.unpack pf.beta
  let r2 ← commit1 za pf.z_beta gens1
  if c • Cx' + delta' = r1 ∧ c • Cy' + beta' = r2 then pure tr
  else .error (.err .internalError)

end Spartan
