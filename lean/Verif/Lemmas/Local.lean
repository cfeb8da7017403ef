import Verif.Model.SparseProof
import Verif.Lemmas.ProductTree

/-!
A successful run of a prover depends on the oracle only through the challenges that occur in its
transcript.
-/

set_option linter.unusedSectionVars false

namespace Spartan
variable {F G P : Type} [Field F] [AddCommGroup G] [Module F G]
  [DecidableEq F] [DecidableEq P] [DecidableEq G]

theorem withHash_compress (E : Env F G P) (h : Tr F P → F) : (E.withHash h).compress = E.compress := rfl
theorem withHash_decompressU (E : Env F G P) (h : Tr F P → F) :
    (E.withHash h).decompressU = E.decompressU := rfl
theorem withHash_hash (E : Env F G P) (h : Tr F P → F) : (E.withHash h).hash = h := rfl
theorem withHash_commit (E : Env F G P) (h : Tr F P → F) (d : Dense F) :
    d.commit (E.withHash h) = d.commit E := rfl

/-- The two oracles answer alike at every challenge of the transcript `T`. -/
def Agree (T : Tr F P) (h h' : Tr F P → F) : Prop := ∀ t l, t ++ [.chal l] <+: T → h (t ++ [.chal l]) = h' (t ++ [.chal l])

/-- If `x'` succeeds then its transcript extends `tr`, and if `T` extends that transcript then `x`
has the same result. -/
def Sim {α : Type} (T tr : Tr F P) (out : α → Tr F P) (x x' : Out α) : Prop :=
  ∀ r, x' = .ok r → tr <+: out r ∧ (out r <+: T → x = .ok r)

namespace Sim
variable {α β : Type} {T tr tr1 : Tr F P} {out : α → Tr F P}

theorem pure {a : α} (h : tr <+: out a) : Sim T tr out (Pure.pure a) (Pure.pure a) := by
  intro r hr; cases hr; exact ⟨h, fun _ => rfl⟩

theorem ok {a : α} (h : tr <+: out a) : Sim T tr out (.ok a) (.ok a) := pure h

theorem err {e : Fail} {x : Out α} : Sim T tr out x (.error e) := by
  intro r hr; cases hr

theorem any {x : Out β} {k k' : β → Out α} (h : ∀ b, Sim T tr out (k b) (k' b)) :
    Sim T tr out (x >>= k) (x >>= k') := by
  intro r hr
  cases x with
  | error e => cases hr
  | ok b => exact h b r hr

theorem bind {out1 : β → Tr F P} {x x' : Out β} {k k' : β → Out α} (hx : Sim T tr1 out1 x x')
    (hp : tr <+: tr1) (h : ∀ b, Sim T (out1 b) out (k b) (k' b)) :
    Sim T tr out (x >>= k) (x' >>= k') := by
  intro r hr
  cases hx' : x' with
  | error e => rw [hx'] at hr; cases hr
  | ok b =>
    rw [hx'] at hr
    obtain ⟨h1, h2⟩ := h b r hr
    obtain ⟨g1, g2⟩ := hx b hx'
    refine ⟨hp.trans (g1.trans h1), fun hT => ?_⟩
    rw [g2 (h1.trans hT)]
    exact h2 hT

theorem weaken {x x' : Out α} (h : Sim T tr1 out x x') (hp : tr <+: tr1) : Sim T tr out x x' :=
  fun r hr => ⟨hp.trans (h r hr).1, (h r hr).2⟩

theorem map {out1 : β → Tr F P} {x x' : Out β} {f : β → α} (hx : Sim T tr out1 x x')
    (ho : ∀ b, out1 b <+: out (f b)) : Sim T tr out (x >>= fun b => Pure.pure (f b)) (x' >>= fun b => Pure.pure (f b)) :=
  hx.bind List.prefix_rfl fun b => pure (ho b)

theorem hash {h h' : Tr F P → F} (hag : Agree T h h') {l : String} {k k' : F → Out α}
    (hp : tr <+: tr1) (hk : ∀ c, Sim T (tr1 ++ [.chal l]) out (k c) (k' c)) :
    ∀ c, h (tr1 ++ [.chal l]) = c → ∀ c', h' (tr1 ++ [.chal l]) = c' → Sim T tr out (k c) (k' c') := by
  rintro c rfl c' rfl r hr
  obtain ⟨h1, h2⟩ := hk _ r hr
  refine ⟨hp.trans ((List.prefix_append _ _).trans h1), fun hT => ?_⟩
  rw [hag tr1 l (h1.trans hT)]
  exact h2 hT

theorem chal {E : Env F G P} {h' : Tr F P → F} (hag : Agree T E.hash h') {l : String}
    {k k' : F × Tr F P → Out α}
    (hp : tr <+: tr1) (hk : ∀ c, Sim T (tr1 ++ [.chal l]) out (k (c, tr1 ++ [.chal l])) (k' (c, tr1 ++ [.chal l]))) :
    ∀ p', (E.withHash h').challenge tr1 l = p' → ∀ p, E.challenge tr1 l = p → Sim T tr out (k p) (k' p') := by
  rintro p' rfl p rfl
  exact hash hag hp (k := fun c => k (c, tr1 ++ [.chal l])) (k' := fun c => k' (c, tr1 ++ [.chal l])) hk _ rfl _ rfl

theorem chalVec {E : Env F G P} {h' : Tr F P → F} (hag : Agree T E.hash h') {l : String} :
    ∀ (n : Nat) {tr tr1 : Tr F P} {k k' : List F × Tr F P → Out α} (_ : tr <+: tr1)
    (_ : ∀ cs, Sim T (tr1 ++ List.replicate n (.chal l)) out
      (k (cs, tr1 ++ List.replicate n (.chal l))) (k' (cs, tr1 ++ List.replicate n (.chal l)))),
    ∀ p', (E.withHash h').challengeVec tr1 l n = p' → ∀ p, E.challengeVec tr1 l n = p →
      Sim T tr out (k p) (k' p')
  | 0, tr, tr1, k, k', hp, hk => by
    rintro p' rfl p rfl
    have := hk []
    simp only [List.replicate_zero, List.append_nil] at this
    exact this.weaken hp
  | n + 1, tr, tr1, k, k', hp, hk => by
    rintro p' rfl p rfl
    simp only [Env.challengeVec, Env.challenge, withHash_hash]
    generalize hc : E.hash (tr1 ++ [.chal l]) = c
    generalize hc' : h' (tr1 ++ [.chal l]) = c'
    revert c c'
    refine hash hag hp fun c => ?_
    generalize hq' : (E.withHash h').challengeVec (tr1 ++ [.chal l]) l n = q'
    generalize hq : E.challengeVec (tr1 ++ [.chal l]) l n = q
    revert q q'
    refine chalVec hag n (k := fun q => k (c :: q.1, q.2)) (k' := fun q => k' (c :: q.1, q.2)) List.prefix_rfl
      fun cs => ?_
    have := hk (c :: cs)
    rw [List.replicate_succ, ← List.singleton_append, ← List.append_assoc] at this
    exact this

end Sim

/-- Drops equal steps that do not touch the transcript. -/
macro "sim_any" : tactic => `(tactic| repeat' (first | refine Sim.any (fun _ => ?_) | exact Sim.err))

/-- Prefix goals on transcripts. -/
macro "sim_pre" : tactic => `(tactic| (
  try simp only [Tr.protocol, Tr.point, Tr.scalar, Tr.scalars, Tr.polyComm, Tr.derefsComm, Tr.memEvals,
    Tr.sparseComm, Tr.r1csComm, Tr.evalClaims, UniPoly.append]
  repeat' (first | with_reducible exact List.prefix_rfl | with_reducible exact List.prefix_append _ _ | with_reducible refine List.IsPrefix.trans ?_ (List.prefix_append _ _))))

variable {E : Env F G P} {h' : Tr F P → F} {T : Tr F P}

/-- Steps over a challenge. -/
macro "sim_chal" : tactic => `(tactic| (
  generalize hp' : Env.challenge (Env.withHash _ _) _ _ = p'
  generalize hp : Env.challenge _ _ _ = p
  revert p p'
  refine Sim.chal (by assumption) (by sim_pre) fun c => ?_
  simp only [withHash_compress, withHash_decompressU]))

/-- Steps over a vector of challenges. -/
macro "sim_chalVec" : tactic => `(tactic| (
  generalize hp' : Env.challengeVec (Env.withHash _ _) _ _ _ = p'
  generalize hp : Env.challengeVec _ _ _ _ = p
  revert p p'
  refine Sim.chalVec (by assumption) _ (by sim_pre) fun cs => ?_
  simp only [withHash_compress, withHash_decompressU]))

theorem knowledge_local (hag : Agree T E.hash h') (g : Gens G) (tr : Tr F P) (tape : Tape F) (x r : F) :
    Sim T tr (fun o => o.2.2.1) (KnowledgeProof.prove E g tr tape x r)
      (KnowledgeProof.prove (E.withHash h') g tr tape x r) := by
  unfold KnowledgeProof.prove
  simp only [withHash_compress]
  sim_any
  sim_chal
  exact Sim.pure List.prefix_rfl

theorem equality_local (hag : Agree T E.hash h') (g : Gens G) (tr : Tr F P) (tape : Tape F)
    (v1 s1 v2 s2 : F) :
    Sim T tr (fun o => o.2.2.2.1) (EqualityProof.prove E g tr tape v1 s1 v2 s2)
      (EqualityProof.prove (E.withHash h') g tr tape v1 s1 v2 s2) := by
  unfold EqualityProof.prove
  simp only [withHash_compress]
  sim_any
  sim_chal
  exact Sim.pure List.prefix_rfl

theorem product_local (hag : Agree T E.hash h') (g : Gens G) (tr : Tr F P) (tape : Tape F)
    (x rX y rY z rZ : F) :
    Sim T tr (fun o => o.2.2.2.2.1) (ProductProof.prove E g tr tape x rX y rY z rZ)
      (ProductProof.prove (E.withHash h') g tr tape x rX y rY z rZ) := by
  unfold ProductProof.prove
  simp only [withHash_compress, withHash_decompressU]
  sim_any
  sim_chal
  exact Sim.pure List.prefix_rfl

theorem dotProof_local (hag : Agree T E.hash h') (gens1 gensn : Gens G) (tr : Tr F P) (tape : Tape F)
    (x : List F) (blindX : F) (a : List F) (y blindY : F) :
    Sim T tr (fun o => o.2.2.2.1) (DotProductProof.prove E gens1 gensn tr tape x blindX a y blindY)
      (DotProductProof.prove (E.withHash h') gens1 gensn tr tape x blindX a y blindY) := by
  unfold DotProductProof.prove
  simp only [withHash_compress]
  sim_any
  sim_chal
  exact Sim.pure List.prefix_rfl

theorem bulletLoop_local (hag : Agree T E.hash h') (Q H : G) : ∀ (k : Nat) (Gv : List G) (a b : List F)
    (blind : F) (blinds : List (F × F)) (tr : Tr F P),
    Sim T tr (fun o => o.2.2.2.2.2.2) (bulletLoop E Q H k Gv a b blind blinds tr)
      (bulletLoop (E.withHash h') Q H k Gv a b blind blinds tr)
  | 0, Gv, a, b, blind, blinds, tr => by
    unfold bulletLoop
    split
    · exact Sim.ok List.prefix_rfl
    · exact Sim.err
  | k + 1, Gv, a, b, blind, blinds, tr => by
    unfold bulletLoop
    simp only [withHash_compress]
    sim_any
    cases blinds with
    | nil => exact Sim.err
    | cons bl blinds =>
      simp only
      sim_any
      sim_chal
      sim_any
      refine Sim.bind (bulletLoop_local hag Q H k _ _ _ _ _ _) List.prefix_rfl fun o => ?_
      exact Sim.pure List.prefix_rfl

theorem bulletProve_local (hag : Agree T E.hash h') (tr : Tr F P) (Q : G) (Gv : List G) (H : G)
    (a b : List F) (blind : F) (blinds : List (F × F)) :
    Sim T tr (fun o => o.2.2.2.2.2) (BulletProof.prove E tr Q Gv H a b blind blinds)
      (BulletProof.prove (E.withHash h') tr Q Gv H a b blind blinds) := by
  unfold BulletProof.prove
  simp only
  sim_any
  refine Sim.bind (bulletLoop_local hag Q H _ _ _ _ _ _ _) List.prefix_rfl fun o => ?_
  exact Sim.pure List.prefix_rfl

theorem dotLog_local (hag : Agree T E.hash h') (gens : DotGens G) (tr : Tr F P) (tape : Tape F)
    (x : List F) (blindX : F) (a : List F) (y blindY : F) :
    Sim T tr (fun o => o.2.2.2.1) (DotProductProofLog.prove E gens tr tape x blindX a y blindY)
      (DotProductProofLog.prove (E.withHash h') gens tr tape x blindX a y blindY) := by
  unfold DotProductProofLog.prove
  simp only [withHash_compress]
  sim_any
  sim_chal
  sim_any
  split
  · exact Sim.err
  · refine Sim.bind (bulletProve_local hag _ _ _ _ _ _ _ _) List.prefix_rfl ?_
    rintro ⟨_, _, _, _, _, _⟩
    try simp only
    sim_any
    sim_chal
    exact Sim.pure List.prefix_rfl

theorem polyEval_local (hag : Agree T E.hash h') (poly : Dense F) (blinds : Option (List F)) (r : List F)
    (Zr : F) (blindZr : Option F) (gens : DotGens G) (tr : Tr F P) (tape : Tape F) :
    Sim T tr (fun o => o.2.2.1) (polyEvalProve E poly blinds r Zr blindZr gens tr tape)
      (polyEvalProve (E.withHash h') poly blinds r Zr blindZr gens tr tape) := by
  unfold polyEvalProve
  simp only
  sim_any
  refine Sim.bind (dotLog_local hag _ _ _ _ _ _ _ _) (by sim_pre) fun o => ?_
  exact Sim.pure List.prefix_rfl

theorem zkLoop_local {S : Type} (hag : Agree T E.hash h') (points : S → Out (List F)) (bind : F → S → Out S)
    (gens1 gensn : Gens G) : ∀ (blinds : List (F × F)) (bclaim claim : F) (cc : P) (s : S) (tr : Tr F P)
    (tape : Tape F),
    Sim T tr (fun o => o.2.2.2.1) (zkProveLoop E points bind gens1 gensn blinds bclaim claim cc s tr tape)
      (zkProveLoop (E.withHash h') points bind gens1 gensn blinds bclaim claim cc s tr tape)
  | [], bclaim, claim, cc, s, tr, tape => Sim.ok List.prefix_rfl
  | (bp, be) :: blinds, bclaim, claim, cc, s, tr, tape => by
    unfold zkProveLoop
    simp only [withHash_compress, withHash_decompressU]
    sim_any
    sim_chal
    sim_any
    sim_chalVec
    sim_any
    refine Sim.bind (dotProof_local hag _ _ _ _ _ _ _ _ _) List.prefix_rfl ?_
    rintro ⟨_, _, _, _, _⟩
    try simp only
    refine Sim.bind (zkLoop_local hag points bind gens1 gensn blinds _ _ _ _ _ _) List.prefix_rfl fun o => ?_
    exact Sim.pure List.prefix_rfl

theorem zkProve_local (hag : Agree T E.hash h') (points : List (Dense F) → Out (List F)) (claim blindClaim : F)
    (numRounds : Nat) (ts : List (Dense F)) (gens1 gensn : Gens G) (tr : Tr F P) (tape : Tape F) :
    Sim T tr (fun o => o.2.2.2.2.1) (zkProve E points claim blindClaim numRounds ts gens1 gensn tr tape)
      (zkProve (E.withHash h') points claim blindClaim numRounds ts gens1 gensn tr tape) := by
  unfold zkProve
  simp only [withHash_compress]
  sim_any
  refine Sim.bind (zkLoop_local hag _ _ _ _ _ _ _ _ _ _ _) List.prefix_rfl ?_
  rintro ⟨_, _, _, _, _⟩
  try simp only
  sim_any
  exact Sim.pure List.prefix_rfl

theorem r1csProve_local (hag : Agree T E.hash h') (I : R1CS F) (vars input : List F) (gens : R1CSGens G)
    (tr : Tr F P) (tape : Tape F) :
    Sim T tr (fun o => o.2.2.2.1) (R1CSProof.prove E I vars input gens tr tape)
      (R1CSProof.prove (E.withHash h') I vars input gens tr tape) := by
  unfold R1CSProof.prove
  simp only [withHash_commit]
  sim_any
  sim_chalVec
  sim_any
  refine Sim.bind (zkProve_local hag _ _ _ _ _ _ _ _ _) List.prefix_rfl ?_
  rintro ⟨_, _, _, _, _, _⟩
  try simp only
  refine Sim.bind (knowledge_local hag _ _ _ _ _) List.prefix_rfl ?_
  rintro ⟨_, _, _, _⟩
  try simp only
  refine Sim.bind (product_local hag _ _ _ _ _ _ _ _ _) List.prefix_rfl ?_
  rintro ⟨_, _, _, _, _, _⟩
  try simp only
  refine Sim.bind (equality_local hag _ _ _ _ _ _ _) (by sim_pre) ?_
  rintro ⟨_, _, _, _, _⟩
  try simp only
  sim_chal
  sim_chal
  sim_chal
  sim_any
  refine Sim.bind (zkProve_local hag _ _ _ _ _ _ _ _ _) List.prefix_rfl ?_
  rintro ⟨_, _, _, _, _, _⟩
  try simp only
  sim_any
  refine Sim.bind (polyEval_local hag _ _ _ _ _ _ _ _) List.prefix_rfl ?_
  rintro ⟨_, _, _, _⟩
  try simp only
  refine Sim.bind (equality_local hag _ _ _ _ _ _ _) (by sim_pre) fun o => ?_
  exact Sim.pure List.prefix_rfl

theorem nizkProve_local (hag : Agree T E.hash h') (I : Inst F) (vars input : List F) (gens : R1CSGens G)
    (tr : Tr F P) (tape : Tape F) :
    Sim T tr (fun o => o.2) (NIZK.prove E I vars input gens tr tape)
      (NIZK.prove (E.withHash h') I vars input gens tr tape) := by
  unfold NIZK.prove
  simp only
  sim_any
  refine Sim.bind (r1csProve_local hag _ _ _ _ _ _) (by sim_pre) fun o => ?_
  exact Sim.pure List.prefix_rfl

/-! ### The SNARK -/

theorem withHash_derefsCommit (E : Env F G P) (h : Tr F P → F) (d : Derefs F) :
    d.commit (E.withHash h) = d.commit E := rfl

theorem scLoop_local {S : Type} (hag : Agree T E.hash h') (points : S → Out (F × F × F))
    (bind : F → S → Out S) : ∀ (n : Nat) (e : F) (s : S) (tr : Tr F P),
    Sim T tr (fun o => o.2.2.2) (scProveLoop E points bind n e s tr)
      (scProveLoop (E.withHash h') points bind n e s tr)
  | 0, e, s, tr => Sim.ok List.prefix_rfl
  | n + 1, e, s, tr => by
    unfold scProveLoop
    simp only
    refine Sim.any ?_
    rintro ⟨_, _, _⟩
    simp only
    sim_any
    sim_chal
    sim_any
    refine Sim.bind (scLoop_local hag points bind n _ _ _) List.prefix_rfl ?_
    rintro ⟨_, _, _, _⟩
    exact Sim.pure List.prefix_rfl

theorem cubicBatched_local (hag : Agree T E.hash h') (claim : F) (n : Nat) (b : Batch F)
    (coeffs : List F) (comb : F → F → F → F) (tr : Tr F P) :
    Sim T tr (fun o => o.2.2.2) (proveCubicBatched E claim n b coeffs comb tr)
      (proveCubicBatched (E.withHash h') claim n b coeffs comb tr) := by
  unfold proveCubicBatched
  simp only
  refine Sim.bind (scLoop_local hag _ _ _ _ _ _) List.prefix_rfl ?_
  rintro ⟨_, _, _, _⟩
  simp only
  sim_any
  exact Sim.pure List.prefix_rfl

theorem prodBLoop_local (hag : Agree T E.hash h') (cs : List (ProductCircuit F))
    (ds : List (DotProductCircuit F)) : ∀ (k : Nat) (claims rand : List F) (tr : Tr F P),
    Sim T tr (fun o => o.2.2.2) (prodBProveLoop E cs ds k claims rand tr)
      (prodBProveLoop (E.withHash h') cs ds k claims rand tr)
  | 0, claims, rand, tr => Sim.ok List.prefix_rfl
  | k + 1, claims, rand, tr => by
    unfold prodBProveLoop
    simp only
    sim_any
    sim_chalVec
    refine Sim.bind (cubicBatched_local hag _ _ _ _ _ _) List.prefix_rfl ?_
    rintro ⟨_, _, fin, tr1⟩
    simp only
    sim_any
    generalize hp' : Env.challenge (Env.withHash _ _) _ _ = p'
    generalize hp : Env.challenge _ _ _ = p
    revert p p'
    refine Sim.chal hag ((appendPairs_prefix _ _ _).trans (appendTriples_prefix _ _ _ _)) fun c => ?_
    simp only
    refine Sim.bind (prodBLoop_local hag cs ds k _ _ _) List.prefix_rfl ?_
    rintro ⟨_, _, _, _⟩
    exact Sim.pure List.prefix_rfl

theorem prodB_local (hag : Agree T E.hash h') (cs : List (ProductCircuit F))
    (ds : List (DotProductCircuit F)) (tr : Tr F P) :
    Sim T tr (fun o => o.2.2) (prodBProve E cs ds tr) (prodBProve (E.withHash h') cs ds tr) := by
  unfold prodBProve
  sim_any
  refine Sim.bind (prodBLoop_local hag cs ds _ _ _ _) List.prefix_rfl ?_
  rintro ⟨_, ⟨_, _, _⟩, _, _⟩
  exact Sim.pure List.prefix_rfl

theorem dotpLoop_grows : ∀ (ds : List (Dense F × Dense F × Dense F)) (es : List F) (tr : Tr F P),
    Sim T tr (fun o => o.2.2) (dotpLoop ds es tr) (dotpLoop ds es tr)
  | d :: ds, e :: es, tr => by
    unfold dotpLoop
    simp only
    refine Sim.any fun _ => Sim.any ?_
    rintro ⟨_, _⟩
    simp only
    refine Sim.any fun _ => Sim.any fun _ => Sim.any fun _ => ?_
    refine Sim.bind (dotpLoop_grows ds es _) (by sim_pre) ?_
    rintro ⟨_, _, _⟩
    exact Sim.pure List.prefix_rfl
  | [], _, tr => by
    unfold dotpLoop
    exact Sim.ok List.prefix_rfl
  | _ :: _, [], tr => by
    unfold dotpLoop
    exact Sim.ok List.prefix_rfl

theorem prodLayer_local (hag : Agree T E.hash h') (row col : ProdLayer F) (val : List (Dense F))
    (d : Derefs F) (eval : List F) (tr : Tr F P) :
    Sim T tr (fun o => o.2.2.2) (prodLayerProve E row col val d eval tr)
      (prodLayerProve (E.withHash h') row col val d eval tr) := by
  unfold prodLayerProve
  simp only
  refine Sim.any fun _ => Sim.any fun _ => Sim.any fun _ => Sim.any fun _ => Sim.any fun _ => ?_
  refine Sim.bind (dotpLoop_grows _ _ _) (by sim_pre) ?_
  rintro ⟨_, _, _⟩
  simp only
  sim_any
  refine Sim.bind (prodB_local hag _ _ _) List.prefix_rfl ?_
  rintro ⟨_, _, _⟩
  simp only
  refine Sim.bind (prodB_local hag _ _ _) List.prefix_rfl ?_
  rintro ⟨_, _, _⟩
  exact Sim.pure List.prefix_rfl

theorem combine_local (hag : Agree T E.hash h') (l : String) (evals : List F) (tr : Tr F P) :
    Sim T tr (fun o => o.2.2) (combineEvals E l evals tr) (combineEvals (E.withHash h') l evals tr) := by
  unfold combineEvals
  refine Sim.any fun _ => ?_
  sim_chalVec
  sim_any
  exact Sim.pure List.prefix_rfl

theorem derefs_local (hag : Agree T E.hash h') (d : Derefs F) (er ec r : List F) (gens : DotGens G)
    (tr : Tr F P) (tape : Tape F) :
    Sim T tr (fun o => o.2.1) (derefsProve E d er ec r gens tr tape)
      (derefsProve (E.withHash h') d er ec r gens tr tape) := by
  unfold derefsProve
  simp only
  refine Sim.any fun _ => Sim.any fun _ => ?_
  refine Sim.bind (combine_local hag _ _ _) (by sim_pre) ?_
  rintro ⟨_, _, _⟩
  simp only
  refine Sim.bind (polyEval_local hag _ _ _ _ _ _ _ _) (by sim_pre) ?_
  rintro ⟨_, _, _, _⟩
  exact Sim.pure List.prefix_rfl

theorem hashLayer_local (hag : Agree T E.hash h') (randMem randOps : List F) (d : MultiDense F)
    (ds : Derefs F) (gens : SparseGens G) (tr : Tr F P) (tape : Tape F) :
    Sim T tr (fun o => o.2.1) (hashLayerProve E randMem randOps d ds gens tr tape)
      (hashLayerProve (E.withHash h') randMem randOps d ds gens tr tape) := by
  unfold hashLayerProve
  simp only
  refine Sim.any fun _ => Sim.any fun _ => ?_
  refine Sim.bind (derefs_local hag _ _ _ _ _ _ _) (by sim_pre) ?_
  rintro ⟨_, _, _⟩
  simp only
  refine Sim.any fun _ => Sim.any fun _ => Sim.any fun _ => ?_
  refine Sim.bind (combine_local hag _ _ _) (by sim_pre) ?_
  rintro ⟨_, _, _⟩
  simp only
  refine Sim.bind (polyEval_local hag _ _ _ _ _ _ _ _) (by sim_pre) ?_
  rintro ⟨_, _, _, _⟩
  simp only
  refine Sim.bind (combine_local hag _ _ _) (by sim_pre) ?_
  rintro ⟨_, _, _⟩
  simp only
  refine Sim.bind (polyEval_local hag _ _ _ _ _ _ _ _) (by sim_pre) ?_
  rintro ⟨_, _, _, _⟩
  exact Sim.pure List.prefix_rfl

theorem net_local (hag : Agree T E.hash h') (row col : ProdLayer F) (d : MultiDense F) (ds : Derefs F)
    (evals : List F) (gens : SparseGens G) (tr : Tr F P) (tape : Tape F) :
    Sim T tr (fun o => o.2.1) (netProve E row col d ds evals gens tr tape)
      (netProve (E.withHash h') row col d ds evals gens tr tape) := by
  unfold netProve
  simp only
  refine Sim.bind (prodLayer_local hag _ _ _ _ _ _) (by sim_pre) ?_
  rintro ⟨_, _, _, _⟩
  simp only
  refine Sim.bind (hashLayer_local hag _ _ _ _ _ _ _) List.prefix_rfl ?_
  rintro ⟨_, _, _⟩
  exact Sim.pure List.prefix_rfl

theorem sparse_local (hag : Agree T E.hash h') (d : MultiDense F) (rx ry evals : List F)
    (gens : SparseGens G) (tr : Tr F P) (tape : Tape F) :
    Sim T tr (fun o => o.2.1) (sparseProve E d rx ry evals gens tr tape)
      (sparseProve (E.withHash h') d rx ry evals gens tr tape) := by
  unfold sparseProve
  simp only [withHash_derefsCommit]
  refine Sim.any fun _ => Sim.any fun _ => Sim.any fun _ => ?_
  sim_chalVec
  refine Sim.any fun _ => Sim.any fun _ => ?_
  refine Sim.bind (net_local hag _ _ _ _ _ _ _ _) List.prefix_rfl ?_
  rintro ⟨_, _, _⟩
  exact Sim.pure List.prefix_rfl

theorem snarkProve_local (hag : Agree T E.hash h') (I : Inst F) (comm : R1CSComm P) (decomm : MultiDense F)
    (vars inputs : List F) (gens : SNARKGens G) (tr : Tr F P) (tape : Tape F) :
    Sim T tr (fun o => o.2) (SNARK.prove E I comm decomm vars inputs gens tr tape)
      (SNARK.prove (E.withHash h') I comm decomm vars inputs gens tr tape) := by
  unfold SNARK.prove
  simp only
  refine Sim.any fun _ => ?_
  refine Sim.bind (r1csProve_local hag _ _ _ _ _ _) (by sim_pre) ?_
  rintro ⟨_, _, _, _, _⟩
  simp only
  refine Sim.any fun _ => ?_
  refine Sim.bind (sparse_local hag _ _ _ _ _ _ _) (by sim_pre) ?_
  rintro ⟨_, _, _⟩
  exact Sim.pure List.prefix_rfl

end Spartan
