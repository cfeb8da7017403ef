import Verif.Model.Base
import Mathlib.Data.Nat.Log

/-! Bulletproofs reduction and logarithmic dot-product proof
(`Spartan-secq/src/nizk/bullet.rs`, `nizk/mod.rs:408-577`). -/

namespace Spartan
variable {F G P : Type} [Field F] [AddCommGroup G] [Module F G]
  [DecidableEq F] [DecidableEq P] [DecidableEq G]

/-- `usize::log_2` (math.rs:27-35) without the `assert_ne!(self, 0)`:
⌈log₂ n⌉.  `log2_refines` in `Props/Poly.lean` relates it to the bit-level code. -/
def log2ceil (n : Nat) : Nat := Nat.clog 2 n

/-- `BulletReductionProof` (nizk/bullet.rs:17-20). -/
structure BulletProof (P : Type) where
  L : List P
  R : List P
  deriving DecidableEq

/-- Loop of `BulletReductionProof::prove` (bullet.rs:73-135).  The argument
`fuel` is the number of halvings; the loop runs while `n != 1` where `n` is the
current length, a power of two by the assertion at the start.  `blinds` is the
iterator `blinds_iter`. Returns (L_vec, R_vec, a[0], b[0], G[0], blind_fin, transcript). -/
def bulletLoop (E : Env F G P) (Q H : G) :
    Nat → List G → List F → List F → F → List (F × F) → Tr F P →
    Out (List P × List P × F × F × G × F × Tr F P)
  | 0, Gv, a, b, blind, _, tr =>
    match a, b, Gv with
    | a0 :: _, b0 :: _, g0 :: _ => .ok ([], [], a0, b0, g0, blind, tr)
    | _, _, _ => .error .panic
  | k + 1, Gv, a, b, blind, blinds, tr => do
    let n := 2 ^ k
    let aL := a.take n
    let aR := a.drop n
    let bL := b.take n
    let bR := b.drop n
    let GL := Gv.take n
    let GR := Gv.drop n
    let cL ← innerProduct aL bR
    let cR ← innerProduct aR bL
    match blinds with
    | [] => .error .panic
    | (blindL, blindR) :: blinds =>
      let L ← msm (aL ++ [cL] ++ [blindL]) (GR ++ [Q] ++ [H])
      let R ← msm (aR ++ [cR] ++ [blindR]) (GL ++ [Q] ++ [H])
      let tr := tr.point "L" (E.compress L)
      let tr := tr.point "R" (E.compress R)
      let (u, tr) := E.challenge tr "u"
      let uInv ← invertU u
      let a' := List.zipWith (fun l r => l * u + uInv * r) aL aR
      let b' := List.zipWith (fun l r => l * uInv + u * r) bL bR
      let G' := List.zipWith (fun l r => uInv • l + u • r) GL GR
      let blind' := blind + blindL * u * u + blindR * uInv * uInv
      let (Ls, Rs, ah, bh, gh, bf, tr) ← bulletLoop E Q H k G' a' b' blind' blinds tr
      pure (E.compress L :: Ls, E.compress R :: Rs, ah, bh, gh, bf, tr)

/-- `BulletReductionProof::prove` (bullet.rs:33-150); `Gamma_hat` is not used by
the caller and omitted from the result. -/
def BulletProof.prove (E : Env F G P) (tr : Tr F P) (Q : G) (Gv : List G) (H : G)
    (a b : List F) (blind : F) (blinds : List (F × F)) :
    Out (BulletProof P × F × F × G × F × Tr F P) := do
  let n := Gv.length
  check (∃ k ≤ n, n = 2 ^ k)
  let lg := log2ceil n
  check (a.length = n)
  check (b.length = n)
  check (blinds.length = 2 * lg)
  let (Ls, Rs, ah, bh, gh, bf, tr) ← bulletLoop E Q H lg Gv a b blind blinds tr
  pure (⟨Ls, Rs⟩, ah, bh, gh, bf, tr)

/-- Challenge loop (bullet.rs:171-176): zips `L_vec` with `R_vec`. -/
def bulletChallenges (E : Env F G P) : List P → List P → Tr F P → List F × Tr F P
  | L :: Ls, R :: Rs, tr =>
    let tr := tr.point "L" L
    let tr := tr.point "R" R
    let (u, tr) := E.challenge tr "u"
    let (us, tr) := bulletChallenges E Ls Rs tr
    (u :: us, tr)
  | _, _, tr => ([], tr)

/-- `Scalar::batch_invert` (scalar/scalar.rs): returns the list of inverses and
the product of all inverses; `acc.invert().unwrap()` panics if an entry is zero.
Its loops are modelled on limbs in `Model/Limbs.lean` (`batchInvertL`) and related to this
in `Props/Scalar.lean` (`batch_invert_correct`). -/
def batchInvert (xs : List F) : Out (List F × F) :=
  if (0 : F) ∈ xs then .error .panic else .ok (xs.map (·⁻¹), (xs.prod)⁻¹)

/-- Step 4 of `verification_scalars` (bullet.rs:190-200): the list `s` is
extended for `i = 1..n`; here `m` more elements are pushed.
`lg_i = floor(log2 i)`, `k = 2^lg_i`; `challenges_sq[(lg_n-1)-lg_i]` panics on
underflow or out-of-range index. -/
def sLoop (usq : List F) (lg : Nat) : Nat → List F → Out (List F)
  | 0, s => .ok s
  | m + 1, s =>
    let i := s.length
    let lgi := Nat.log 2 i
    let k := 2 ^ lgi
    if lg < 1 + lgi then .error .panic else
    match usq[(lg - 1) - lgi]?, s[i - k]? with
    | some u, some v => sLoop usq lg m (s ++ [v * u])
    | _, _ => .error .panic

/-- `verification_scalars` (bullet.rs:155-203).  Step 3 squares the first `lg_n`
entries of the two lists, indexing out of bounds when `R_vec` is shorter. -/
def BulletProof.scalars (E : Env F G P) (pf : BulletProof P) (n : Nat) (tr : Tr F P) :
    Out (List F × List F × List F × Tr F P) := do
  let lg := pf.L.length
  if lg ≥ 32 then .error (.err .internalError) else
  if n ≠ 2 ^ lg then .error (.err .internalError) else
  let (us, tr) := bulletChallenges E pf.L pf.R tr
  let (uinv, allinv) ← batchInvert us
  check (lg ≤ us.length)
  let usq := us.map (fun u => u * u)
  let uinvsq := uinv.map (fun u => u * u)
  let s ← sLoop usq lg (n - 1) [allinv]
  pure (usq, uinvsq, s, tr)

/-- `BulletReductionProof::verify` (bullet.rs:209-249). -/
def BulletProof.verify (E : Env F G P) (pf : BulletProof P) (n : Nat) (a : List F) (tr : Tr F P)
    (Gamma : G) (Gv : List G) : Out (G × G × F × Tr F P) := do
  let (usq, uinvsq, s, tr) ← pf.scalars E n tr
  let Ls ← pf.L.mapM E.decompressU
  let Rs ← pf.R.mapM E.decompressU
  let Ghat ← msm s Gv
  let ahat ← innerProduct a s
  let Gammahat ← msm (usq ++ uinvsq ++ [1]) (Ls ++ Rs ++ [Gamma])
  pure (Ghat, Gammahat, ahat, tr)

/-- `DotProductProofGens` (nizk/mod.rs:408-412). -/
structure DotGens (G : Type) where
  n : Nat
  gensn : Gens G
  gens1 : Gens G

/-- `DotProductProofGens::new` after generator derivation (nizk/mod.rs:415-418):
splits a basis of `n+1` generators. -/
def DotGens.ofGens (n : Nat) (g : Gens G) : Out (DotGens G) := do
  let (gn, g1) ← g.splitAt n
  pure ⟨n, gn, g1⟩

/-- `DotProductProofLog` (nizk/mod.rs:422-428). -/
structure DotProductProofLog (F P : Type) where
  bullet : BulletProof P
  delta : P
  beta : P
  z1 : F
  z2 : F

/-- `usize::log_2` with its assertion (math.rs:27-35). -/
def log2 (n : Nat) : Out Nat := do
  check (n ≠ 0)
  pure (log2ceil n)

/-- `DotProductProofLog::prove` (nizk/mod.rs:440-524). -/
def DotProductProofLog.prove (E : Env F G P) (gens : DotGens G) (tr : Tr F P) (tape : Tape F)
    (x : List F) (blindX : F) (a : List F) (y blindY : F) :
    Out (DotProductProofLog F P × P × P × Tr F P × Tape F) := do
  let tr := tr.protocol "dot product proof (log)"
  let n := x.length
  check (x.length = a.length)
  check (gens.n = n)
  let (d, tape) := tape.next
  let (rDelta, tape) := tape.next
  let (rBeta, tape) := tape.next
  let lg ← log2 n
  let (v1, tape) := tape.nextVec (2 * lg)
  let (v2, tape) := tape.nextVec (2 * lg)
  let blinds := v1.zip v2
  let Cx := E.compress (← commitV x blindX gens.gensn)
  let tr := tr.point "Cx" Cx
  let Cy := E.compress (← commit1 y blindY gens.gens1)
  let tr := tr.point "Cy" Cy
  let tr := tr.scalars "a" a
  let (r, tr) := E.challenge tr "r"
  let g1s ← gens.gens1.scale r
  let blindGamma := blindX + r * blindY
  match g1s.G with
  | [] => .error .panic
  | Q :: _ =>
    let (bullet, xhat, ahat, ghat, rhat, tr) ←
      BulletProof.prove E tr Q gens.gensn.G gens.gensn.h x a blindGamma blinds
    let yhat := xhat * ahat
    let delta := E.compress (← commit1 d rDelta { n := 1, G := [ghat], h := gens.gens1.h })
    let tr := tr.point "delta" delta
    let beta := E.compress (← commit1 d rBeta g1s)
    let tr := tr.point "beta" beta
    let (c, tr) := E.challenge tr "c"
    let z1 := d + c * yhat
    let z2 := ahat * (c * rhat + rBeta) + rDelta
    pure (⟨bullet, delta, beta, z1, z2⟩, Cx, Cy, tr, tape)

/-- `DotProductProofLog::verify` (nizk/mod.rs:526-576).  The `assert_eq!(lhs, rhs)`
comes before the `Err` branch, so a wrong proof panics. -/
def DotProductProofLog.verify (E : Env F G P) (pf : DotProductProofLog F P) (n : Nat)
    (gens : DotGens G) (tr : Tr F P) (a : List F) (Cx Cy : P) : Out (Tr F P) := do
  check (gens.n = n)
  check (a.length = n)
  let tr := tr.protocol "dot product proof (log)"
  let tr := tr.point "Cx" Cx
  let tr := tr.point "Cy" Cy
  let tr := tr.scalars "a" a
  let (r, tr) := E.challenge tr "r"
  let g1s ← gens.gens1.scale r
  let Cx' ← E.unpack Cx
  let Cy' ← E.unpack Cy
  let Gamma := Cx' + r • Cy'
  let (ghat, Gammahat, ahat, tr) ← pf.bullet.verify E n a tr Gamma gens.gensn.G
  let tr := tr.point "delta" pf.delta
  let tr := tr.point "beta" pf.beta
  let (c, tr) := E.challenge tr "c"
  let beta' ← E.unpack pf.beta
  let delta' ← E.unpack pf.delta
  match g1s.G with
  | [] => .error .panic
  | Q :: _ =>
    let lhs := E.compress (ahat • (c • Gammahat + beta') + delta')
    let rhs := E.compress (pf.z1 • (ghat + ahat • Q) + pf.z2 • g1s.h)
    check (lhs = rhs)
    if lhs = rhs then pure tr else .error (.err .internalError)

end Spartan
