import Verif.Model.R1CS
import Verif.Model.SparseProof
import Verif.Model.Merlin

/-!
The messages that an accepting verifier absorbs can be told apart by label and length.
-/

namespace Spartan.Merlin
variable {F G P : Type} [Field F] [DecidableEq F] [AddCommGroup G] [Module F G] [DecidableEq P] [DecidableEq G]

/-- The kinds of messages can be told apart by label and length: constants never have the length of a
scalar, a point or a `u64`, and only the digest of an instance is labelled `R1CSInstanceDigest`. -/
def Plain {F P : Type} : Msg F P → Prop
  | .bytes l d => l ≠ "R1CSInstanceDigest" ∧ (ascii d).length ∉ [1, 8, 32, 33, 65] ∧ (ascii d).length < 2 ^ 32
  | .u64 l n => l ≠ "R1CSInstanceDigest" ∧ n < 2 ^ 64
  | .blob l d => l = "R1CSInstanceDigest" ∧ d.length < 2 ^ 32
  | .scalar l _ => l ≠ "R1CSInstanceDigest"
  | .point l _ => l ≠ "R1CSInstanceDigest"
  | .chal _ => True

def Plains (tr : Tr F P) : Prop := ∀ m ∈ tr, Plain m

theorem Plains.append {t u : Tr F P} : Plains (t ++ u) ↔ Plains t ∧ Plains u := by
  unfold Plains
  simp only [List.mem_append]
  exact ⟨fun h => ⟨fun m hm => h m (.inl hm), fun m hm => h m (.inr hm)⟩, fun h m hm => hm.elim (h.1 m) (h.2 m)⟩

theorem Plains.one {m : Msg F P} : Plains [m] ↔ Plain m := by simp [Plains]

/-- A result, if there is one, has the property. -/
def Post {α : Type} (o : Out α) (Q : α → Prop) : Prop := ∀ a, o = .ok a → Q a

theorem Post.bind {α β : Type} {x : Out α} {f : α → Out β} {R : α → Prop} {Q : β → Prop} (hx : Post x R)
    (hf : ∀ a, R a → Post (f a) Q) : Post (x >>= f) Q := by
  intro b hb
  cases x with
  | error e => cases hb
  | ok a => exact hf a (hx a rfl) b hb

theorem Post.any {α β : Type} {x : Out α} {f : α → Out β} {Q : β → Prop} (hf : ∀ a, Post (f a) Q) :
    Post (x >>= f) Q := Post.bind (R := fun _ => True) (fun _ _ => trivial) (fun a _ => hf a)

theorem Post.pure {α : Type} {a : α} {Q : α → Prop} (h : Q a) : Post (pure a : Out α) Q := by
  intro b hb; cases hb; exact h

theorem Post.ok {α : Type} {a : α} {Q : α → Prop} (h : Q a) : Post (.ok a : Out α) Q := by
  intro b hb; cases hb; exact h

theorem Post.err {α : Type} {e : Fail} {Q : α → Prop} : Post (.error e : Out α) Q := by
  intro b hb; cases hb

theorem Post.ite {α : Type} {c : Prop} [Decidable c] {x y : Out α} {Q : α → Prop} (hx : Post x Q) (hy : Post y Q) :
    Post (if c then x else y) Q := by split_ifs <;> assumption

theorem Plains.protocol {tr : Tr F P} (h : Plains tr) {n : String}
    (hn : (ascii n).length ∉ [1, 8, 32, 33, 65] ∧ (ascii n).length < 2 ^ 32) : Plains (tr.protocol n) :=
  Plains.append.mpr ⟨h, Plains.one.mpr ⟨by decide, hn⟩⟩

theorem Plains.point {tr : Tr F P} (h : Plains tr) {l : String} {p : P} (hl : l ≠ "R1CSInstanceDigest") :
    Plains (tr.point l p) := Plains.append.mpr ⟨h, Plains.one.mpr hl⟩

theorem Plains.scalar {tr : Tr F P} (h : Plains tr) {l : String} {x : F} (hl : l ≠ "R1CSInstanceDigest") :
    Plains (tr.scalar l x) := Plains.append.mpr ⟨h, Plains.one.mpr hl⟩

theorem Plains.chal {tr : Tr F P} (h : Plains tr) {l : String} : Plains (tr ++ [.chal l]) :=
  Plains.append.mpr ⟨h, Plains.one.mpr trivial⟩

theorem Plains.challengeVec {E : Env F G P} {l : String} : ∀ (n : Nat) {tr : Tr F P}, Plains tr →
    Plains (E.challengeVec tr l n).2
  | 0, _, h => h
  | n + 1, tr, h => Plains.challengeVec n (tr := tr ++ [.chal l]) h.chal

theorem Plains.map {α : Type} {g : α → Msg F P} (hg : ∀ a, Plain (g a)) (xs : List α) : Plains (xs.map g) := by
  intro m hm
  obtain ⟨a, -, rfl⟩ := List.mem_map.mp hm
  exact hg a

theorem Plains.scalars {tr : Tr F P} (h : Plains tr) {l : String} {xs : List F} (hl : l ≠ "R1CSInstanceDigest") :
    Plains (tr.scalars l xs) :=
  Plains.append.mpr ⟨Plains.append.mpr ⟨Plains.append.mpr ⟨h, Plains.one.mpr ⟨hl, by decide⟩⟩,
    Plains.map (g := .scalar l) (fun _ => hl) xs⟩, Plains.one.mpr ⟨hl, by decide⟩⟩

theorem Plains.polyComm {tr : Tr F P} (h : Plains tr) {l : String} {C : List P} (hl : l ≠ "R1CSInstanceDigest") :
    Plains (tr.polyComm l C) :=
  Plains.append.mpr ⟨Plains.append.mpr ⟨Plains.append.mpr ⟨h, Plains.one.mpr ⟨hl, by decide⟩⟩,
    Plains.map (fun _ => by show "poly_commitment_share" ≠ _; decide) C⟩, Plains.one.mpr ⟨hl, by decide⟩⟩

theorem Plains.uniPoly {tr : Tr F P} (h : Plains tr) {l : String} {p : UniPoly F} (hl : l ≠ "R1CSInstanceDigest") :
    Plains (p.append l tr) :=
  Plains.append.mpr ⟨Plains.append.mpr ⟨Plains.append.mpr ⟨h, Plains.one.mpr ⟨hl, by decide⟩⟩,
    Plains.map (fun _ => by show "coeff" ≠ _; decide) _⟩, Plains.one.mpr ⟨hl, by decide⟩⟩

/-! ### The verifiers -/

theorem knowledge_plain {E : Env F G P} {pf : KnowledgeProof F P} {g : Gens G} {tr : Tr F P} {C : P} (h : Plains tr) :
    Post (pf.verify E g tr C) Plains := by
  unfold KnowledgeProof.verify
  simp only [Env.challenge]
  refine Post.any fun _ => Post.any fun _ => Post.any fun _ => Post.ite (Post.pure ?_) Post.err
  exact (((h.protocol (by decide)).point (by decide)).point (by decide)).chal

theorem equality_plain {E : Env F G P} {pf : EqualityProof F P} {g : Gens G} {tr : Tr F P} {C1 C2 : P}
    (h : Plains tr) : Post (pf.verify E g tr C1 C2) Plains := by
  unfold EqualityProof.verify
  simp only [Env.challenge]
  refine Post.any fun _ => Post.any fun _ => Post.any fun _ => Post.ite (Post.pure ?_) Post.err
  exact ((((h.protocol (by decide)).point (by decide)).point (by decide)).point (by decide)).chal

theorem product_plain {E : Env F G P} {pf : ProductProof F P} {g : Gens G} {tr : Tr F P} {X Y Z : P}
    (h : Plains tr) : Post (pf.verify E g tr X Y Z) Plains := by
  unfold ProductProof.verify
  simp only [Env.challenge]
  refine Post.any fun _ => Post.ite Post.err (Post.any fun _ => Post.ite Post.err (Post.any fun _ =>
    Post.any fun _ => Post.ite Post.err (Post.pure ?_)))
  exact (((((((h.protocol (by decide)).point (by decide)).point (by decide)).point (by decide)).point
    (by decide)).point (by decide)).point (by decide)).chal

theorem dotProduct_plain {E : Env F G P} {pf : DotProductProof F P} {g1 gn : Gens G} {tr : Tr F P} {a : List F}
    {Cx Cy : P} (h : Plains tr) : Post (pf.verify E g1 gn tr a Cx Cy) Plains := by
  unfold DotProductProof.verify
  simp only [Env.challenge]
  refine Post.any fun _ => Post.any fun _ => Post.any fun _ => Post.any fun _ => Post.any fun _ => Post.any fun _ =>
    Post.any fun _ => Post.any fun _ => Post.any fun _ => Post.ite (Post.pure ?_) Post.err
  exact ((((((h.protocol (by decide)).point (by decide)).point (by decide)).scalars (by decide)).point
    (by decide)).point (by decide)).chal

theorem bulletChallenges_plain {E : Env F G P} : ∀ (L R : List P) {tr : Tr F P}, Plains tr →
    Plains (bulletChallenges E L R tr).2
  | [], _, _, h => h
  | _ :: _, [], _, h => h
  | _ :: Ls, _ :: Rs, _, h => bulletChallenges_plain Ls Rs ((h.point (by decide)).point (by decide)).chal

theorem bulletScalars_plain {E : Env F G P} {pf : BulletProof P} {n : Nat} {tr : Tr F P} (h : Plains tr) :
    Post (pf.scalars E n tr) (fun r => Plains r.2.2.2) := by
  unfold BulletProof.scalars
  refine Post.ite Post.err (Post.ite Post.err (Post.any fun _ => Post.any fun _ => Post.any fun _ => Post.pure ?_))
  exact bulletChallenges_plain _ _ h

theorem bullet_plain {E : Env F G P} {pf : BulletProof P} {n : Nat} {a : List F} {tr : Tr F P} {Gm : G} {Gv : List G}
    (h : Plains tr) : Post (pf.verify E n a tr Gm Gv) (fun r => Plains r.2.2.2) := by
  unfold BulletProof.verify
  refine Post.bind (bulletScalars_plain h) fun r hr => ?_
  exact Post.any fun _ => Post.any fun _ => Post.any fun _ => Post.any fun _ => Post.any fun _ => Post.pure hr

theorem dotLog_plain {E : Env F G P} {pf : DotProductProofLog F P} {n : Nat} {gens : DotGens G} {tr : Tr F P}
    {a : List F} {Cx Cy : P} (h : Plains tr) : Post (pf.verify E n gens tr a Cx Cy) Plains := by
  unfold DotProductProofLog.verify
  simp only [Env.challenge]
  refine Post.any fun _ => Post.any fun _ => Post.any fun _ => Post.any fun _ => Post.any fun _ => ?_
  refine Post.bind (bullet_plain ((((h.protocol (by decide)).point (by decide)).point (by decide)).scalars
    (by decide)).chal) fun r hr => ?_
  refine Post.any fun _ => Post.any fun _ => ?_
  cases r with | mk ghat r => ?_
  split
  · exact Post.err
  · exact Post.any fun _ => Post.ite (Post.pure ((hr.point (by decide)).point (by decide)).chal) Post.err

theorem polyEval_plain {E : Env F G P} {pf : DotProductProofLog F P} {gens : DotGens G} {tr : Tr F P} {r : List F}
    {Czr : P} {comm : List P} (h : Plains tr) : Post (polyEvalVerify E pf gens tr r Czr comm) Plains := by
  unfold polyEvalVerify
  exact Post.any fun _ => Post.any fun _ => dotLog_plain (h.protocol (by decide))

theorem polyEvalPlain_plain {E : Env F G P} {pf : DotProductProofLog F P} {gens : DotGens G} {tr : Tr F P}
    {r : List F} {Zr : F} {comm : List P} (h : Plains tr) : Post (polyEvalVerifyPlain E pf gens tr r Zr comm) Plains := by
  unfold polyEvalVerifyPlain
  exact Post.any fun _ => polyEval_plain h

theorem zkLoop_plain {E : Env F G P} {deg : Nat} {g1 gn : Gens G} : ∀ (cps ces : List P)
    (pfs : List (DotProductProof F P)) (claim : P) {tr : Tr F P}, Plains tr →
    Post (zkVerifyLoop E deg g1 gn cps ces pfs claim tr) (fun r => Plains r.2)
  | [], _, _, _, _, h => Post.ok h
  | cp :: cps, ces, pfs, claim, tr, h => by
    unfold zkVerifyLoop
    simp only [Env.challenge]
    refine Post.any fun ce => Post.any fun _ => Post.any fun _ => Post.any fun pf => ?_
    refine Post.bind (dotProduct_plain (Plains.challengeVec 2
      (((h.point (by decide)).chal.point (by decide)).point (by decide)))) fun t ht => ?_
    exact Post.bind (zkLoop_plain cps _ _ _ ht) fun r hr => Post.pure hr

theorem zk_plain {E : Env F G P} {pf : ZKSumcheck F P} {claim : P} {n deg : Nat} {g1 gn : Gens G} {tr : Tr F P}
    (h : Plains tr) : Post (zkVerify E pf claim n deg g1 gn tr) (fun r => Plains r.2.2) := by
  unfold zkVerify
  refine Post.any fun _ => Post.any fun _ => Post.any fun _ => Post.bind (zkLoop_plain _ _ _ _ h) fun r hr => ?_
  exact Post.any fun _ => Post.any fun _ => Post.pure hr

theorem r1cs_plain {E : Env F G P} {pf : R1CSProof F P} {nv nc : Nat} {input : List F} {ev : F × F × F}
    {gens : R1CSGens G} {tr : Tr F P} (h : Plains tr) :
    Post (pf.verify E nv nc input ev gens tr) (fun r => Plains r.2.2) := by
  unfold R1CSProof.verify
  simp only [Env.challenge]
  refine Post.any fun nx => Post.any fun ny => Post.any fun _ => ?_
  refine Post.bind (zk_plain (Plains.challengeVec nx
    (((h.protocol (by decide)).scalars (by decide)).polyComm (by decide)))) fun r1 h1 => ?_
  refine Post.bind (knowledge_plain h1) fun t2 h2 => ?_
  refine Post.bind (product_plain h2) fun t3 h3 => ?_
  refine Post.any fun _ => Post.any fun _ => Post.any fun _ => ?_
  refine Post.bind (equality_plain ((((h3.point (by decide)).point (by decide)).point (by decide)).point
    (by decide))) fun t4 h4 => ?_
  refine Post.any fun _ => Post.any fun _ => Post.any fun _ => Post.any fun _ => ?_
  refine Post.bind (zk_plain h4.chal.chal.chal) fun r5 h5 => ?_
  refine Post.any fun _ => ?_
  refine Post.bind (polyEval_plain h5) fun t6 h6 => ?_
  refine Post.any fun _ => Post.any fun _ => Post.any fun _ => Post.any fun _ => Post.any fun _ => ?_
  exact Post.bind (equality_plain h6) fun t7 h7 => Post.pure h7

theorem nizk_plain {E : Env F G P} {pf : NIZK F P} {I : Inst F} {input : List F} {gens : R1CSGens G} {tr : Tr F P}
    (h : Plains tr) (hd : I.digest.length < 2 ^ 32) : Post (NIZK.verify E pf I input gens tr) Plains := by
  unfold NIZK.verify
  refine Post.any fun _ => Post.any fun _ => Post.bind (r1cs_plain (Plains.append.mpr
    ⟨h.protocol (by decide), Plains.one.mpr ⟨rfl, hd⟩⟩)) fun r hr => ?_
  exact Post.any fun _ => Post.any fun _ => Post.pure hr

/-! ### The verifiers of the SNARK -/

theorem scRound_plain {E : Env F G P} {deg : Nat} {cp : CompressedUniPoly F} {e : F} {tr : Tr F P} (h : Plains tr) :
    Post (scVerifyRound E deg cp e tr) (fun r => Plains r.2.2) := by
  unfold scVerifyRound
  simp only [Env.challenge]
  exact Post.any fun _ => Post.any fun _ => Post.any fun _ => Post.any fun _ => Post.any fun _ => Post.any fun _ =>
    Post.pure (h.uniPoly (by decide)).chal

theorem scLoop_plain {E : Env F G P} {deg : Nat} : ∀ (cps : List (CompressedUniPoly F)) (e : F) {tr : Tr F P},
    Plains tr → Post (scVerifyLoop E deg cps e tr) (fun r => Plains r.2.2)
  | [], _, _, h => Post.ok h
  | cp :: cps, e, tr, h => by
    unfold scVerifyLoop
    exact Post.bind (scRound_plain h) fun r hr => Post.bind (scLoop_plain cps _ hr) fun r' hr' => Post.pure hr'

theorem sc_plain {E : Env F G P} {ps : List (CompressedUniPoly F)} {claim : F} {n deg : Nat} {tr : Tr F P}
    (h : Plains tr) : Post (scVerify E ps claim n deg tr) (fun r => Plains r.2.2) := by
  unfold scVerify
  exact Post.any fun _ => scLoop_plain _ _ h

theorem pairs_plain : ∀ (as bs : List F) {tr : Tr F P}, Plains tr → Plains (appendPairs tr as bs)
  | [], _, _, h => by unfold appendPairs; exact h
  | _ :: _, [], _, h => by unfold appendPairs; exact h
  | _ :: as, _ :: bs, _, h => by
    unfold appendPairs; exact pairs_plain as bs ((h.scalar (by decide)).scalar (by decide))

theorem triples_plain : ∀ (as bs cs : List F) {tr : Tr F P}, Plains tr → Plains (appendTriples tr as bs cs)
  | [], _, _, _, h => by unfold appendTriples; exact h
  | _ :: _, [], _, _, h => by unfold appendTriples; exact h
  | _ :: _, _ :: _, [], _, h => by unfold appendTriples; exact h
  | _ :: as, _ :: bs, _ :: cs, _, h => by
    unfold appendTriples
    exact triples_plain as bs cs (((h.scalar (by decide)).scalar (by decide)).scalar (by decide))

theorem prodBLoop_plain {E : Env F G P} {m : Nat} {cd : List F} {pf : ProdProofBatched F} :
    ∀ (lps : List (LayerProofBatched F)) (k : Nat) (cl dcl rand : List F) {tr : Tr F P}, Plains tr →
      Post (prodBVerifyLoop E m cd pf lps k cl dcl rand tr) (fun r => Plains r.2.2.2)
  | [], _, _, _, _, _, h => Post.ok h
  | lp :: lps, k, cl, dcl, rand, tr, h => by
    unfold prodBVerifyLoop
    simp only [Env.challenge]
    refine Post.bind (sc_plain (Plains.challengeVec _ h)) fun r hr => ?_
    refine Post.any fun _ => Post.any fun _ => Post.any fun _ => Post.any fun _ => ?_
    refine Post.ite (Post.any fun _ => Post.bind (Post.pure (Q := fun x : F × Tr F P => Plains x.2) ?_) fun x hx => ?_)
      (Post.bind (Post.pure (Q := fun x : F × Tr F P => Plains x.2) ?_) fun x hx => ?_)
    · exact triples_plain _ _ _ (pairs_plain _ _ hr)
    · exact Post.any fun _ => Post.ite
        (Post.any fun _ => Post.any fun _ => prodBLoop_plain lps _ _ _ _ hx.chal)
        (Post.any fun _ => prodBLoop_plain lps _ _ _ _ hx.chal)
    · exact pairs_plain _ _ hr
    · exact Post.any fun _ => Post.ite
        (Post.any fun _ => Post.any fun _ => prodBLoop_plain lps _ _ _ _ hx.chal)
        (Post.any fun _ => prodBLoop_plain lps _ _ _ _ hx.chal)

theorem prodB_plain {E : Env F G P} {pf : ProdProofBatched F} {cp cd : List F} {len : Nat} {tr : Tr F P}
    (h : Plains tr) : Post (prodBVerify E pf cp cd len tr) (fun r => Plains r.2.2.2) := by
  unfold prodBVerify
  exact Post.any fun _ => Post.any fun _ => prodBLoop_plain _ _ _ _ _ h

theorem combine_plain {E : Env F G P} {l : String} {evals : List F} {tr : Tr F P} (h : Plains tr) :
    Post (combineEvals E l evals tr) (fun r => Plains r.2.2) := by
  unfold combineEvals
  exact Post.any fun _ => Post.any fun _ => Post.any fun _ => Post.any fun _ => Post.any fun _ =>
    Post.pure (Plains.challengeVec _ h)

theorem derefs_plain {E : Env F G P} {pf : DotProductProofLog F P} {r er ec : List F} {gens : DotGens G}
    {comm : List P} {tr : Tr F P} (h : Plains tr) : Post (derefsVerify E pf r er ec gens comm tr) Plains := by
  unfold derefsVerify
  exact Post.bind (combine_plain ((h.protocol (by decide)).scalars (by decide))) fun r hr =>
    polyEvalPlain_plain (hr.scalar (by decide))

theorem memEvals_plain {tr : Tr F P} {w : String} {e : MemEvals F} (hw : w = "row" ∨ w = "col") (h : Plains tr) :
    Plains (tr.memEvals w e) := by
  rcases hw with rfl | rfl
  · exact (((h.scalar (by decide)).scalars (by decide)).scalars (by decide)).scalar (by decide)
  · exact (((h.scalar (by decide)).scalars (by decide)).scalars (by decide)).scalar (by decide)

theorem dotpCheck_plain : ∀ (es ls rs : List F) {tr : Tr F P}, Plains tr →
    Post (dotpCheckLoop es ls rs tr) (fun r => Plains r.2)
  | [], _, _, _, h => by unfold dotpCheckLoop; exact Post.ok h
  | _ :: _, [], _, _, h => by unfold dotpCheckLoop; exact Post.err
  | _ :: _, _ :: _, [], _, h => by unfold dotpCheckLoop; exact Post.err
  | _ :: es, _ :: ls, _ :: rs, _, h => by
    unfold dotpCheckLoop
    exact Post.any fun _ => Post.bind (dotpCheck_plain es ls rs ((h.scalar (by decide)).scalar (by decide)))
      fun r hr => Post.pure hr

theorem prodLayer_plain {E : Env F G P} {pf : ProdLayerProof F} {no nc : Nat} {eval : List F} {tr : Tr F P}
    (h : Plains tr) : Post (prodLayerVerify E pf no nc eval tr) (fun r => Plains r.2.2.2.2.2) := by
  unfold prodLayerVerify
  refine Post.any fun _ => Post.any fun _ => Post.any fun _ => ?_
  refine Post.bind (dotpCheck_plain _ _ _ (memEvals_plain (.inr rfl) (memEvals_plain (.inl rfl)
    (h.protocol (by decide))))) fun r hr => ?_
  refine Post.bind (prodB_plain hr) fun r2 h2 => ?_
  exact Post.bind (prodB_plain h2) fun r3 h3 => Post.pure h3

theorem hashLayer_plain {E : Env F G P} {pf : HashLayerProof F P} {rm ro : List F} {cr cc : MemClaims F}
    {cd : List F} {comm : SparseComm P} {gens : SparseGens G} {cD : List P} {rx ry : List F} {rh g : F} {tr : Tr F P}
    (h : Plains tr) : Post (hashLayerVerify E pf rm ro cr cc cd comm gens cD rx ry rh g tr) Plains := by
  unfold hashLayerVerify
  refine Post.any fun _ => Post.bind (derefs_plain (h.protocol (by decide))) fun t1 h1 => ?_
  refine Post.any fun _ => Post.bind (combine_plain (h1.scalars (by decide))) fun r2 h2 => ?_
  refine Post.bind (polyEvalPlain_plain (h2.scalar (by decide))) fun t3 h3 => ?_
  refine Post.bind (combine_plain (h3.scalars (by decide))) fun r4 h4 => ?_
  refine Post.bind (polyEvalPlain_plain (h4.scalar (by decide))) fun t5 h5 => ?_
  exact Post.any fun _ => Post.any fun _ => Post.pure h5

theorem net_plain {E : Env F G P} {pf : NetProof F P} {comm : SparseComm P} {cD : List P} {evals : List F}
    {gens : SparseGens G} {rx ry : List F} {rh g : F} {nz : Nat} {tr : Tr F P} (h : Plains tr) :
    Post (netVerify E pf comm cD evals gens rx ry rh g nz tr) Plains := by
  unfold netVerify
  refine Post.any fun _ => Post.bind (prodLayer_plain (h.protocol (by decide))) fun r hr => ?_
  exact Post.any fun _ => Post.any fun _ => Post.any fun _ => hashLayer_plain hr

theorem sparse_plain {E : Env F G P} {pf : SparseEvalProof F P} {comm : SparseComm P} {rx ry evals : List F}
    {gens : SparseGens G} {tr : Tr F P} (h : Plains tr) :
    Post (sparseVerify E pf comm rx ry evals gens tr) Plains := by
  unfold sparseVerify
  have h1 : Plains ((tr.protocol "Sparse polynomial evaluation proof").derefsComm "comm_poly_row_col_ops_val"
      pf.derefs) := by
    have a : Plain (.bytes "derefs_commitment" "begin_derefs_commitment" : Msg F P) := ⟨by decide, by decide⟩
    have b : Plain (.bytes "derefs_commitment" "end_derefs_commitment" : Msg F P) := ⟨by decide, by decide⟩
    exact Plains.append.mpr ⟨(Plains.append.mpr ⟨h.protocol (by decide), Plains.one.mpr a⟩).polyComm (by decide),
      Plains.one.mpr b⟩
  refine Post.any fun _ => ?_
  have h2 := Plains.challengeVec (E := E) (l := "challenge_r_hash") 2 h1
  exact net_plain h2

/-- The numbers of a commitment fit into 64 bits, as `usize` does. -/
def Fits (c : R1CSComm P) : Prop :=
  c.numCons < 2 ^ 64 ∧ c.numVars < 2 ^ 64 ∧ c.numInputs < 2 ^ 64 ∧ c.comm.batch < 2 ^ 64 ∧ c.comm.numOps < 2 ^ 64 ∧
    c.comm.numCells < 2 ^ 64

theorem snark_plain {E : Env F G P} {pf : SNARK F P} {comm : R1CSComm P} {input : List F} {gens : SNARKGens G}
    {tr : Tr F P} (h : Plains tr) (hc : Fits comm) : Post (SNARK.verify E pf comm input gens tr) Plains := by
  obtain ⟨h1, h2, h3, h4, h5, h6⟩ := hc
  have h0 : Plains ((tr.protocol "Spartan SNARK proof").r1csComm comm) := by
    unfold Tr.r1csComm Tr.sparseComm
    refine Plains.polyComm (Plains.polyComm (Plains.append.mpr ⟨Plains.append.mpr ⟨h.protocol (by decide), ?_⟩, ?_⟩)
      (by decide)) (by decide)
    · intro m hm
      simp only [List.mem_cons, List.not_mem_nil, or_false] at hm
      rcases hm with rfl | rfl | rfl
      · exact ⟨by decide, h1⟩
      · exact ⟨by decide, h2⟩
      · exact ⟨by decide, h3⟩
    · intro m hm
      simp only [List.mem_cons, List.not_mem_nil, or_false] at hm
      rcases hm with rfl | rfl | rfl
      · exact ⟨by decide, h4⟩
      · exact ⟨by decide, h5⟩
      · exact ⟨by decide, h6⟩
  unfold SNARK.verify
  refine Post.any fun _ => Post.bind (r1cs_plain h0) fun r hr => ?_
  exact sparse_plain (((hr.scalar (by decide)).scalar (by decide)).scalar (by decide))

end Spartan.Merlin
