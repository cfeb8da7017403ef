import Verif.Model.Sumcheck

/-! `Spartan-secq/src/product_tree.rs`. -/

namespace Spartan
variable {F G P : Type} [Field F] [AddCommGroup G] [Module F G]
  [DecidableEq F] [DecidableEq P] [DecidableEq G]

/-- The combination used by both provers (product_tree.rs:186-189, 283-286). -/
def combProd (a b c : F) : F := a * b * c

/-! ### Circuits -/

/-- `ProductCircuit` (product_tree.rs:11-15). -/
structure ProductCircuit (F : Type) where
  left : List (Dense F)
  right : List (Dense F)

/-- `ProductCircuit::compute_layer` (product_tree.rs:18-34); indexing is into the tables. -/
def computeLayer (l r : Dense F) : Out (Dense F × Dense F) := do
  let len := l.len + r.len
  check (len / 2 ≤ l.Z.length ∧ len / 2 ≤ r.Z.length)
  let prods := (List.range (len / 2)).map fun i => l.Z.getD i 0 * r.Z.getD i 0
  let a ← Dense.new (prods.take (len / 4))
  let b ← Dense.new (prods.drop (len / 4))
  pure (a, b)

/-- Loop of `ProductCircuit::new` (product_tree.rs:46-50): the layers after `(l, r)`. -/
def layersLoop : Nat → Dense F → Dense F → Out (List (Dense F × Dense F))
  | 0, l, r => .ok [(l, r)]
  | n + 1, l, r => do
    let (a, b) ← computeLayer l r
    let rest ← layersLoop n a b
    pure ((l, r) :: rest)

/-- `ProductCircuit::new` (product_tree.rs:36-56); `num_layers - 1` underflows for a table of
length one, after `split` has already panicked. -/
def ProductCircuit.new (poly : Dense F) : Out (ProductCircuit F) := do
  let n ← log2 poly.len
  let (l, r) ← poly.split (poly.len / 2)
  check (1 ≤ n)
  let ls ← layersLoop (n - 1) l r
  pure ⟨ls.map (·.1), ls.map (·.2)⟩

/-- `ProductCircuit::evaluate` (product_tree.rs:58-63). -/
def ProductCircuit.evaluate (c : ProductCircuit F) : Out F := do
  check (1 ≤ c.left.length)
  let l ← idx c.left (c.left.length - 1)
  let r ← idx c.right (c.left.length - 1)
  check (l.numVars = 0)
  check (r.numVars = 0)
  let a ← idx l.Z 0
  let b ← idx r.Z 0
  pure (a * b)

/-- `DotProductCircuit` (product_tree.rs:66-70). -/
structure DotProductCircuit (F : Type) where
  left : Dense F
  right : Dense F
  weight : Dense F

/-- `DotProductCircuit::new` (product_tree.rs:73-81). -/
def DotProductCircuit.new (l r w : Dense F) : Out (DotProductCircuit F) := do
  check (l.len = r.len)
  check (l.len = w.len)
  pure ⟨l, r, w⟩

/-- `DotProductCircuit::evaluate` (product_tree.rs:83-87). -/
def DotProductCircuit.evaluate (c : DotProductCircuit F) : Out F := do
  check (c.left.len ≤ c.left.Z.length ∧ c.left.len ≤ c.right.Z.length ∧
    c.left.len ≤ c.weight.Z.length)
  pure ((List.range c.left.len).map fun i =>
    c.left.Z.getD i 0 * c.right.Z.getD i 0 * c.weight.Z.getD i 0).sum

/-- `DotProductCircuit::split` (product_tree.rs:89-107). -/
def DotProductCircuit.split (c : DotProductCircuit F) :
    Out (DotProductCircuit F × DotProductCircuit F) := do
  let i := c.left.len / 2
  check (i * 2 = c.left.len)
  let (l1, l2) ← c.left.split i
  let (r1, r2) ← c.right.split i
  let (w1, w2) ← c.weight.split i
  pure (⟨l1, r1, w1⟩, ⟨l2, r2, w2⟩)

/-! ### Single product proof -/

/-- `LayerProof` (product_tree.rs:112-115). -/
structure LayerProof (F : Type) where
  proof : List (CompressedUniPoly F)
  claims : List F

/-- Loop of `ProductCircuitEvalProof::prove` (product_tree.rs:179-215) over the layers, last
layer first.  The tables are consumed by the sum-check; nothing reads them afterwards. -/
def prodProveLoop (E : Env F G P) :
    List (Dense F × Dense F) → F → List F → Tr F P → Out (List (LayerProof F) × F × List F × Tr F P)
  | [], claim, rand, tr => .ok ([], claim, rand, tr)
  | (l, r) :: ls, claim, rand, tr => do
    let C ← Dense.new (eqEvals rand)
    check (C.len = (l.len + r.len) / 2)
    let n ← log2 C.len
    let (pf, rp, cl, tr) ← proveCubic E claim n l r C combProd tr
    let a ← idx cl 0
    let b ← idx cl 1
    let tr := (tr.scalar "claim_prod_left" a).scalar "claim_prod_right" b
    let (rl, tr) := E.challenge tr "challenge_r_layer"
    let (pfs, claim, rand, tr) ← prodProveLoop E ls (a + rl * (b - a)) (rl :: rp) tr
    pure (⟨pf, cl.take (cl.length - 1)⟩ :: pfs, claim, rand, tr)

/-- `ProductCircuitEvalProof::prove` (product_tree.rs:170-218): proof, claim, point. -/
def prodProve (E : Env F G P) (c : ProductCircuit F) (tr : Tr F P) :
    Out (List (LayerProof F) × F × List F × Tr F P) := do
  let v ← c.evaluate
  check (c.left.length ≤ c.right.length)
  prodProveLoop E (List.zip c.left c.right).reverse v [] tr

/-- Loop of `ProductCircuitEvalProof::verify` (product_tree.rs:231-252); `k` is `num_rounds`. -/
def prodVerifyLoop (E : Env F G P) :
    List (LayerProof F) → Nat → F → List F → Tr F P → Out (F × List F × Tr F P)
  | [], _, claim, rand, tr => .ok (claim, rand, tr)
  | lp :: lps, k, claim, rand, tr => do
    let (last, rp, tr) ← scVerify E lp.proof claim k 3 tr
    let a ← idx lp.claims 0
    let b ← idx lp.claims 1
    let tr := (tr.scalar "claim_prod_left" a).scalar "claim_prod_right" b
    let eq ← eqEvaluate rand rp
    check (a * b * eq = last)
    let (rl, tr) := E.challenge tr "challenge_r_layer"
    prodVerifyLoop E lps (k + 1) ((1 - rl) * a + rl * b) (rl :: rp) tr

/-- `ProductCircuitEvalProof::verify` (product_tree.rs:220-255).  The product of the equality
factors (lines 239-243) is the same expression as `EqPolynomial::evaluate`. -/
def prodVerify (E : Env F G P) (pf : List (LayerProof F)) (eval : F) (len : Nat) (tr : Tr F P) :
    Out (F × List F × Tr F P) := do
  let n ← log2 len
  check (pf.length = n)
  prodVerifyLoop E pf 0 eval [] tr

/-! ### Batched proof -/

/-- `LayerProofBatched` (product_tree.rs:135-139). -/
structure LayerProofBatched (F : Type) where
  proof : List (CompressedUniPoly F)
  left : List F
  right : List F

/-- `ProductCircuitEvalProofBatched` (product_tree.rs:163-166). -/
structure ProdProofBatched (F : Type) where
  proof : List (LayerProofBatched F)
  dotpL : List F
  dotpR : List F
  dotpW : List F

/-- Appending the product claims (product_tree.rs:343-346, 420-423). -/
def appendPairs (tr : Tr F P) : List F → List F → Tr F P
  | a :: as, b :: bs => appendPairs ((tr.scalar "claim_prod_left" a).scalar "claim_prod_right" b) as bs
  | _, _ => tr

/-- Appending the dot-product claims (product_tree.rs:350-354, 440-442). -/
def appendTriples (tr : Tr F P) : List F → List F → List F → Tr F P
  | a :: as, b :: bs, c :: cs =>
    appendTriples (((tr.scalar "claim_dotp_left" a).scalar "claim_dotp_right" b).scalar
      "claim_dotp_weight" c) as bs cs
  | _, _, _ => tr

/-- Combining left and right claims with the layer challenge (product_tree.rs:361-363, 456-458). -/
def nextClaims (rl : F) (l r : List F) : List F := List.zipWith (fun a b => a + rl * (b - a)) l r

/-- Loop of `ProductCircuitEvalProofBatched::prove` (product_tree.rs:274-374); the argument
`k + 1` stands for `layer_id = k`.  Returns layer proofs, final dot-product claims, point. -/
def prodBProveLoop (E : Env F G P) (cs : List (ProductCircuit F)) (ds : List (DotProductCircuit F)) :
    Nat → List F → List F → Tr F P →
      Out (List (LayerProofBatched F) × (List F × List F × List F) × List F × Tr F P)
  | 0, _, rand, tr => .ok ([], ([], [], []), rand, tr)
  | k + 1, claims, rand, tr => do
    let ls ← cs.mapM fun c => idx c.left k
    let rs ← cs.mapM fun c => idx c.right k
    let l0 ← idx ls 0
    let r0 ← idx rs 0
    let len := l0.len + r0.len
    let C ← Dense.new (eqEvals rand)
    check (C.len = len / 2)
    let n ← log2 C.len
    let seq := if k = 0 then ds else []
    let dvals ← seq.mapM fun d => do
      let v ← d.evaluate
      check (len / 2 = d.left.len)
      check (len / 2 = d.right.len)
      check (len / 2 = d.weight.len)
      pure v
    let claims := claims ++ dvals
    let (coeffs, tr) := E.challengeVec tr "rand_coeffs_next_layer" claims.length
    let claim := (List.zipWith (fun a b => a * b) claims coeffs).sum
    let (pf, rp, fin, tr) ← proveCubicBatched E claim n
      ⟨ls, rs, C, seq.map (·.left), seq.map (·.right), seq.map (·.weight)⟩ coeffs combProd tr
    check (cs.length ≤ fin.parA.length ∧ cs.length ≤ fin.parB.length)
    let tr := appendPairs tr fin.parA fin.parB
    let tr := appendTriples tr fin.seqA fin.seqB fin.seqC
    let (rl, tr) := E.challenge tr "challenge_r_layer"
    let (pfs, dfin, rand, tr) ← prodBProveLoop E cs ds k (nextClaims rl fin.parA fin.parB) (rl :: rp) tr
    pure (⟨pf, fin.parA, fin.parB⟩ :: pfs, if k = 0 then (fin.seqA, fin.seqB, fin.seqC) else dfin,
      rand, tr)

/-- `ProductCircuitEvalProofBatched::prove` (product_tree.rs:259-383). -/
def prodBProve (E : Env F G P) (cs : List (ProductCircuit F)) (ds : List (DotProductCircuit F))
    (tr : Tr F P) : Out (ProdProofBatched F × List F × Tr F P) := do
  let c0 ← idx cs 0
  let claims ← cs.mapM ProductCircuit.evaluate
  let (pfs, (a, b, c), rand, tr) ← prodBProveLoop E cs ds c0.left.length claims [] tr
  pure (⟨pfs, a, b, c⟩, rand, tr)

/-- Combination of the dot-product claims of the two halves (product_tree.rs:460-478). -/
def dotpNext (rl : F) (k : Nat) (L R W : List F) : List F :=
  let c := fun (l : List F) i => l.getD (2 * i) 0 + rl * (l.getD (2 * i + 1) 0 - l.getD (2 * i) 0)
  (List.range k).flatMap fun i => [c L i, c R i, c W i]

/-- Loop of `ProductCircuitEvalProofBatched::verify` (product_tree.rs:399-483); `k` is
`num_rounds`, the last element of the list is layer `num_layers - 1`.  Out-of-range indices panic. -/
def prodBVerifyLoop (E : Env F G P) (m : Nat) (cd : List F) (pf : ProdProofBatched F) :
    List (LayerProofBatched F) → Nat → List F → List F → List F → Tr F P →
      Out (List F × List F × List F × Tr F P)
  | [], _, claims, dclaims, rand, tr => .ok (claims, dclaims, rand, tr)
  | lp :: lps, k, claims, dclaims, rand, tr => do
    let last := lps.isEmpty
    let claims := if last then claims ++ cd else claims
    let (coeffs, tr) := E.challengeVec tr "rand_coeffs_next_layer" claims.length
    let claim := (List.zipWith (fun a b => a * b) claims coeffs).sum
    let (claimLast, rp, tr) ← scVerify E lp.proof claim k 3 tr
    check (lp.left.length = m)
    check (lp.right.length = m)
    let tr := appendPairs tr lp.left lp.right
    let eq ← eqEvaluate rand rp
    check (m ≤ coeffs.length)
    let expP := (List.zipWith (fun c lr => c * (lr.1 * lr.2 * eq)) coeffs
      (List.zip lp.left lp.right)).sum
    let (expD, tr) ← if last then do
        check (pf.dotpL.length ≤ pf.dotpR.length ∧ pf.dotpL.length ≤ pf.dotpW.length ∧
          m + pf.dotpL.length ≤ coeffs.length)
        pure ((List.zipWith (fun c (x : F × F × F) => c * x.1 * x.2.1 * x.2.2) (coeffs.drop m)
          (List.zip pf.dotpL (List.zip pf.dotpR pf.dotpW))).sum,
          appendTriples tr pf.dotpL pf.dotpR pf.dotpW)
      else pure (0, tr)
    check (expP + expD = claimLast)
    let (rl, tr) := E.challenge tr "challenge_r_layer"
    let dclaims ← if last then do
        check (2 * (cd.length / 2) ≤ pf.dotpL.length ∧ 2 * (cd.length / 2) ≤ pf.dotpR.length ∧
          2 * (cd.length / 2) ≤ pf.dotpW.length)
        pure (dotpNext rl (cd.length / 2) pf.dotpL pf.dotpR pf.dotpW)
      else pure dclaims
    prodBVerifyLoop E m cd pf lps (k + 1) (nextClaims rl lp.left lp.right) dclaims (rl :: rp) tr

/-- `ProductCircuitEvalProofBatched::verify` (product_tree.rs:385-486): product claims,
dot-product claims, point. -/
def prodBVerify (E : Env F G P) (pf : ProdProofBatched F) (cp cd : List F) (len : Nat) (tr : Tr F P) :
    Out (List F × List F × List F × Tr F P) := do
  let n ← log2 len
  check (pf.proof.length = n)
  prodBVerifyLoop E cp.length cd pf pf.proof 0 cp [] [] tr

end Spartan
