import Verif.Lemmas.Simulator

/-!
A prover's run depends on the hash function only through its values on the prefixes of the final transcript that end in a
challenge.
-/

set_option linter.unusedSectionVars false
namespace Spartan
open Spec
variable {F G P α β : Type} [Field F] [AddCommGroup G] [Module F G]
  [DecidableEq F] [DecidableEq P] [DecidableEq G]

/-- The environment with another hash function. -/
def withHash (E : Env F G P) (h : Tr F P → F) : Env F G P := { E with hash := h }

/-- Two hash functions give the same challenges along `T`. -/
def Agrees (h h' : Tr F P → F) (T : Tr F P) : Prop :=
  ∀ p l, p ++ [.chal l] <+: T → h (p ++ [.chal l]) = h' (p ++ [.chal l])

theorem Agrees.mono {h h' : Tr F P → F} {T U : Tr F P} (hT : Agrees h h' T) (hU : U <+: T) : Agrees h h' U :=
  fun p l hp => hT p l (hp.trans hU)

/-- `x` extends the transcript `tr` to `o a`, and `x'` gives the same result if the hash functions agree along it. -/
def Repl (h h' : Tr F P → F) (tr : Tr F P) (x x' : Out α) (o : α → Tr F P) : Prop :=
  ∀ a, x = .ok a → tr <+: o a ∧ (Agrees h h' (o a) → x' = .ok a)

variable {h h' : Tr F P → F}

theorem repl_pure {tr : Tr F P} {a : α} {o : α → Tr F P} (hp : tr <+: o a) : Repl h h' tr (.ok a) (.ok a) o := by
  intro b hb
  cases hb
  exact ⟨hp, fun _ => rfl⟩

theorem repl_error {tr : Tr F P} {e : Fail} {x : Out α} {o : α → Tr F P} : Repl h h' tr (.error e) x o := by
  intro b hb
  cases hb

theorem repl_bind {tr T : Tr F P} {x x' : Out α} {f f' : α → Out β} {o : α → Tr F P} {q : β → Tr F P} (hp : tr <+: T)
    (hx : Repl h h' T x x' o) (hf : ∀ a, Repl h h' (o a) (f a) (f' a) q) :
    Repl h h' tr (x >>= f) (x' >>= f') q := by
  intro b hb
  obtain ⟨a, ha, hb⟩ := bind_ok hb
  obtain ⟨p1, h1⟩ := hx a ha
  obtain ⟨p2, h2⟩ := hf a b hb
  refine ⟨hp.trans (p1.trans p2), fun hA => ?_⟩
  rw [h1 (hA.mono p2), ok_bind, h2 hA]

theorem repl_same {tr : Tr F P} {x : Out α} {f f' : α → Out β} {q : β → Tr F P}
    (hf : ∀ a, Repl h h' tr (f a) (f' a) q) : Repl h h' tr (x >>= f) (x >>= f') q := by
  intro b hb
  obtain ⟨a, ha, hb⟩ := bind_ok hb
  obtain ⟨p2, h2⟩ := hf a b hb
  refine ⟨p2, fun hA => ?_⟩
  rw [ha, ok_bind, h2 hA]

theorem repl_chal {E : Env F G P} {tr T : Tr F P} {l : String} {x x' : F × Tr F P} {f f' : F × Tr F P → Out β}
    {q : β → Tr F P} (hx : E.challenge T l = x) (hx' : (withHash E h').challenge T l = x') (hp : tr <+: T)
    (hf : ∀ c, Repl E.hash h' (T ++ [.chal l]) (f (c, T ++ [.chal l])) (f' (c, T ++ [.chal l])) q) :
    Repl E.hash h' tr (f x) (f' x') q := by
  intro b hb
  subst hx hx'
  obtain ⟨p2, h2⟩ := hf _ b hb
  refine ⟨hp.trans ((List.prefix_append _ _).trans p2), fun hA => ?_⟩
  rw [← h2 hA]
  unfold Env.challenge
  rw [hA T l p2]; rfl

theorem repl_chalVec {E : Env F G P} {l : String} {q : β → Tr F P} : ∀ {n : Nat} {tr T : Tr F P}
    {x x' : List F × Tr F P} {f f' : List F × Tr F P → Out β},
    E.challengeVec T l n = x → (withHash E h').challengeVec T l n = x' → (hp : tr <+: T) →
    (∀ c, T <+: (E.challengeVec T l n).2 →
      Repl E.hash h' (E.challengeVec T l n).2 (f (c, (E.challengeVec T l n).2)) (f' (c, (E.challengeVec T l n).2)) q) →
    Repl E.hash h' tr (f x) (f' x') q
  | 0, tr, T, x, x', f, f', hx, hx', hp, hf => by
    subst hx hx'
    intro b hb
    obtain ⟨p2, h2⟩ := hf _ List.prefix_rfl b hb
    exact ⟨hp.trans p2, h2⟩
  | n + 1, tr, T, x, x', f, f', hx, hx', hp, hf => by
    subst hx hx'
    refine repl_chal (f := fun y => f (y.1 :: (E.challengeVec y.2 l n).1, (E.challengeVec y.2 l n).2))
      (f' := fun y => f' (y.1 :: ((withHash E h').challengeVec y.2 l n).1, ((withHash E h').challengeVec y.2 l n).2))
      (l := l) rfl rfl hp fun c => ?_
    refine repl_chalVec (f := fun z => f (c :: z.1, z.2)) (f' := fun z => f' (c :: z.1, z.2)) (n := n) rfl rfl List.prefix_rfl
      fun c' hc' => ?_
    exact hf (c :: c') ((List.prefix_append _ _).trans hc')

theorem prefix_point {tr T : Tr F P} {l : String} {p : P} (h : tr <+: T) : tr <+: T.point l p :=
  h.trans (List.prefix_append _ _)
theorem prefix_protocol {tr T : Tr F P} {s : String} (h : tr <+: T) : tr <+: T.protocol s :=
  h.trans (List.prefix_append _ _)
theorem prefix_scalar {tr T : Tr F P} {l : String} {s : F} (h : tr <+: T) : tr <+: T.scalar l s :=
  h.trans (List.prefix_append _ _)
theorem prefix_scalars {tr T : Tr F P} {l : String} {s : List F} (h : tr <+: T) : tr <+: T.scalars l s := by
  unfold Tr.scalars
  rw [List.append_assoc, List.append_assoc]
  exact h.trans (List.prefix_append _ _)
theorem prefix_polyComm {tr T : Tr F P} {l : String} {s : List P} (h : tr <+: T) : tr <+: T.polyComm l s := by
  unfold Tr.polyComm
  rw [List.append_assoc, List.append_assoc]
  exact h.trans (List.prefix_append _ _)
theorem prefix_app {tr T u : Tr F P} (h : tr <+: T) : tr <+: T ++ u := h.trans (List.prefix_append _ _)

/-- A prefix by appended messages. -/
macro "pfx" : tactic => `(tactic| repeat' (first
  | exact List.prefix_rfl
  | assumption
  | apply prefix_point
  | apply prefix_protocol
  | apply prefix_scalars
  | apply prefix_scalar
  | apply prefix_polyComm
  | apply prefix_app))

theorem knowledge_repl (E : Env F G P) (g : Gens G) (tr : Tr F P) (tape : Tape F) (x r : F) :
    Repl E.hash h' tr (KnowledgeProof.prove E g tr tape x r) (KnowledgeProof.prove (withHash E h') g tr tape x r)
      (fun a => a.2.2.1) := by
  unfold KnowledgeProof.prove
  refine repl_same fun _ => ?_
  refine repl_same fun _ => ?_
  simp only
  generalize hc : E.challenge _ _ = y
  generalize hc' : (withHash E h').challenge _ _ = y'
  apply repl_chal hc hc'
  case hp => pfx
  intro c
  exact repl_pure List.prefix_rfl

theorem equality_repl (E : Env F G P) (g : Gens G) (tr : Tr F P) (tape : Tape F) (v1 s1 v2 s2 : F) :
    Repl E.hash h' tr (EqualityProof.prove E g tr tape v1 s1 v2 s2) (EqualityProof.prove (withHash E h') g tr tape v1 s1 v2 s2)
      (fun a => a.2.2.2.1) := by
  unfold EqualityProof.prove
  iterate 2 refine repl_same fun _ => ?_
  simp only
  generalize hc : E.challenge _ _ = y
  generalize hc' : (withHash E h').challenge _ _ = y'
  apply repl_chal hc hc'
  case hp => pfx
  intro c
  exact repl_pure List.prefix_rfl

theorem product_repl (E : Env F G P) (g : Gens G) (tr : Tr F P) (tape : Tape F) (x rX y rY z rZ : F) :
    Repl E.hash h' tr (ProductProof.prove E g tr tape x rX y rY z rZ)
      (ProductProof.prove (withHash E h') g tr tape x rX y rY z rZ) (fun a => a.2.2.2.2.1) := by
  unfold ProductProof.prove
  iterate 7 refine repl_same fun _ => ?_
  simp only
  generalize hc : E.challenge _ _ = y
  generalize hc' : (withHash E h').challenge _ _ = y'
  apply repl_chal hc hc'
  case hp => pfx
  intro c
  exact repl_pure List.prefix_rfl

theorem dotproduct_repl (E : Env F G P) (g1 gn : Gens G) (tr : Tr F P) (tape : Tape F) (x : List F) (bx : F) (a : List F)
    (y bY : F) :
    Repl E.hash h' tr (DotProductProof.prove E g1 gn tr tape x bx a y bY)
      (DotProductProof.prove (withHash E h') g1 gn tr tape x bx a y bY) (fun a => a.2.2.2.1) := by
  unfold DotProductProof.prove
  iterate 8 refine repl_same fun _ => ?_
  simp only
  generalize hc : E.challenge _ _ = y
  generalize hc' : (withHash E h').challenge _ _ = y'
  apply repl_chal hc hc'
  case hp => pfx
  intro c
  exact repl_pure List.prefix_rfl

theorem zkLoop_repl {S : Type} (E : Env F G P) (points : S → Out (List F)) (bind : F → S → Out S) (g1 gn : Gens G) :
    ∀ (blinds : List (F × F)) (bclaim claim : F) (C : P) (s : S) (tr : Tr F P) (tape : Tape F),
    Repl E.hash h' tr (zkProveLoop E points bind g1 gn blinds bclaim claim C s tr tape)
      (zkProveLoop (withHash E h') points bind g1 gn blinds bclaim claim C s tr tape) (fun a => a.2.2.2.1)
  | [], bclaim, claim, C, s, tr, tape => repl_pure List.prefix_rfl
  | (bp, be) :: blinds, bclaim, claim, C, s, tr, tape => by
    rw [zkProveLoop, zkProveLoop]
    iterate 4 refine repl_same fun _ => ?_
    simp only
    generalize hc : E.challenge _ _ = y
    generalize hc' : (withHash E h').challenge _ _ = y'
    apply repl_chal hc hc'
    case hp => pfx
    intro c
    simp only
    iterate 3 refine repl_same fun _ => ?_
    generalize hw : E.challengeVec _ _ _ = w
    generalize hw' : (withHash E h').challengeVec _ _ _ = w'
    apply repl_chalVec hw hw'
    case hp => pfx
    intro c hc
    simp only
    iterate 5 refine repl_same fun _ => ?_
    refine repl_bind List.prefix_rfl (dotproduct_repl _ _ _ _ _ _ _ _ _ _) fun a => ?_
    refine repl_bind List.prefix_rfl (zkLoop_repl E points bind g1 gn blinds _ _ _ _ _ _) fun b => ?_
    exact repl_pure List.prefix_rfl

theorem zkProve_repl (E : Env F G P) (points : List (Dense F) → Out (List F)) (claim bclaim : F) (n : Nat)
    (ts : List (Dense F)) (g1 gn : Gens G) (tr : Tr F P) (tape : Tape F) :
    Repl E.hash h' tr (zkProve E points claim bclaim n ts g1 gn tr tape)
      (zkProve (withHash E h') points claim bclaim n ts g1 gn tr tape) (fun a => a.2.2.2.2.1) := by
  unfold zkProve
  simp only
  refine repl_same fun _ => ?_
  refine repl_bind List.prefix_rfl (zkLoop_repl _ _ _ _ _ _ _ _ _ _ _ _) fun a => ?_
  iterate 3 refine repl_same fun _ => ?_
  exact repl_pure List.prefix_rfl

theorem bulletLoop_repl (E : Env F G P) (Q H : G) : ∀ (k : Nat) (Gv : List G) (a b : List F) (blind : F)
    (blinds : List (F × F)) (tr : Tr F P),
    Repl E.hash h' tr (bulletLoop E Q H k Gv a b blind blinds tr) (bulletLoop (withHash E h') Q H k Gv a b blind blinds tr)
      (fun a => a.2.2.2.2.2.2)
  | 0, Gv, a, b, blind, blinds, tr => by
    rcases a with _ | ⟨a0, a⟩ <;> rcases b with _ | ⟨b0, b⟩ <;> rcases Gv with _ | ⟨g0, Gv⟩ <;>
      first | exact repl_error | exact repl_pure List.prefix_rfl
  | k + 1, Gv, a, b, blind, blinds, tr => by
    rw [bulletLoop, bulletLoop]
    simp only
    iterate 2 refine repl_same fun _ => ?_
    rcases blinds with _ | ⟨⟨bl, br⟩, blinds⟩
    · exact repl_error
    simp only
    iterate 2 refine repl_same fun _ => ?_
    generalize hc : E.challenge _ _ = y
    generalize hc' : (withHash E h').challenge _ _ = y'
    apply repl_chal hc hc'
    case hp => pfx
    intro c
    simp only
    refine repl_same fun _ => ?_
    refine repl_bind List.prefix_rfl (bulletLoop_repl E Q H k _ _ _ _ _ _) fun a => ?_
    exact repl_pure List.prefix_rfl

theorem bullet_repl (E : Env F G P) (tr : Tr F P) (Q : G) (Gv : List G) (H : G) (a b : List F) (blind : F)
    (blinds : List (F × F)) :
    Repl E.hash h' tr (BulletProof.prove E tr Q Gv H a b blind blinds)
      (BulletProof.prove (withHash E h') tr Q Gv H a b blind blinds) (fun a => a.2.2.2.2.2) := by
  unfold BulletProof.prove
  simp only
  iterate 4 refine repl_same fun _ => ?_
  refine repl_bind List.prefix_rfl (bulletLoop_repl _ _ _ _ _ _ _ _ _ _) fun a => ?_
  exact repl_pure List.prefix_rfl

theorem dotlog_repl (E : Env F G P) (gens : DotGens G) (tr : Tr F P) (tape : Tape F) (x : List F) (bx : F) (a : List F)
    (y bY : F) :
    Repl E.hash h' tr (DotProductProofLog.prove E gens tr tape x bx a y bY)
      (DotProductProofLog.prove (withHash E h') gens tr tape x bx a y bY) (fun a => a.2.2.2.1) := by
  unfold DotProductProofLog.prove
  simp only
  iterate 5 refine repl_same fun _ => ?_
  generalize hc : E.challenge _ _ = y
  generalize hc' : (withHash E h').challenge _ _ = y'
  apply repl_chal hc hc'
  case hp => pfx
  intro c
  simp only
  refine repl_same fun g1s => ?_
  rcases g1s.G with _ | ⟨Q, _⟩
  · exact repl_error
  simp only
  refine repl_bind List.prefix_rfl (bullet_repl _ _ _ _ _ _ _ _ _) fun a => ?_
  iterate 2 refine repl_same fun _ => ?_
  generalize hc : E.challenge _ _ = y
  generalize hc' : (withHash E h').challenge _ _ = y'
  apply repl_chal hc hc'
  case hp => pfx
  intro c
  exact repl_pure List.prefix_rfl

theorem polyEval_repl (E : Env F G P) (poly : Dense F) (blinds : Option (List F)) (r : List F) (Zr : F) (bz : Option F)
    (gens : DotGens G) (tr : Tr F P) (tape : Tape F) :
    Repl E.hash h' tr (polyEvalProve E poly blinds r Zr bz gens tr tape)
      (polyEvalProve (withHash E h') poly blinds r Zr bz gens tr tape) (fun a => a.2.2.1) := by
  unfold polyEvalProve
  simp only
  iterate 5 refine repl_same fun _ => ?_
  refine repl_bind ?hp (dotlog_repl _ _ _ _ _ _ _ _ _) fun a => ?_
  case hp => pfx
  exact repl_pure List.prefix_rfl

theorem r1csProof_repl (E : Env F G P) (I : R1CS F) (vars input : List F) (gens : R1CSGens G) (tr : Tr F P) (tape : Tape F) :
    Repl E.hash h' tr (R1CSProof.prove E I vars input gens tr tape)
      (R1CSProof.prove (withHash E h') I vars input gens tr tape) (fun a => a.2.2.2.1) := by
  unfold R1CSProof.prove
  simp only
  iterate 5 refine repl_same fun _ => ?_
  generalize hw : E.challengeVec _ _ _ = w
  generalize hw' : (withHash E h').challengeVec _ _ _ = w'
  apply repl_chalVec hw hw'
  case hp => pfx
  intro c hc
  simp only
  iterate 2 refine repl_same fun _ => ?_
  refine repl_bind List.prefix_rfl (zkProve_repl _ _ _ _ _ _ _ _ _ _) fun a => ?_
  refine repl_bind List.prefix_rfl (knowledge_repl _ _ _ _ _ _) fun b => ?_
  refine repl_bind List.prefix_rfl (product_repl _ _ _ _ _ _ _ _ _ _) fun d => ?_
  refine repl_bind ?hp (equality_repl _ _ _ _ _ _ _ _) fun e => ?_
  case hp => pfx
  generalize hc : E.challenge _ _ = y
  generalize hc' : (withHash E h').challenge _ _ = y'
  apply repl_chal hc hc'
  case hp => pfx
  intro rA
  simp only
  generalize hc : E.challenge _ _ = y
  generalize hc' : (withHash E h').challenge _ _ = y'
  apply repl_chal hc hc'
  case hp => pfx
  intro rB
  simp only
  generalize hc : E.challenge _ _ = y
  generalize hc' : (withHash E h').challenge _ _ = y'
  apply repl_chal hc hc'
  case hp => pfx
  intro rC
  simp only
  iterate 5 refine repl_same fun _ => ?_
  refine repl_bind List.prefix_rfl (zkProve_repl _ _ _ _ _ _ _ _ _ _) fun a2 => ?_
  iterate 2 refine repl_same fun _ => ?_
  refine repl_bind List.prefix_rfl (polyEval_repl _ _ _ _ _ _ _ _ _) fun b2 => ?_
  refine repl_bind List.prefix_rfl (equality_repl _ _ _ _ _ _ _ _) fun c2 => ?_
  exact repl_pure List.prefix_rfl

theorem nizk_repl (E : Env F G P) (I : Inst F) (vars input : List F) (gens : R1CSGens G) (tr : Tr F P) (tape : Tape F) :
    Repl E.hash h' tr (NIZK.prove E I vars input gens tr tape)
      (NIZK.prove (withHash E h') I vars input gens tr tape) (fun a => a.2) := by
  unfold NIZK.prove
  simp only
  refine repl_same fun _ => ?_
  refine repl_bind ?hp (r1csProof_repl _ _ _ _ _ _ _) fun a => ?_
  case hp => pfx
  exact repl_pure List.prefix_rfl

theorem upTo_prefix (l : String) : ∀ (p T : Tr F P), p ++ [.chal l] <+: T →
    upTo (numChal (p ++ [.chal l])) T = p ++ [.chal l]
  | [], T, hp => by
    obtain ⟨u, rfl⟩ := hp
    show upTo 1 (Msg.chal l :: u) = [Msg.chal l]
    simp [upTo, isChal]
  | m :: p, T, hp => by
    obtain ⟨u, rfl⟩ := hp
    have ih := upTo_prefix l p (p ++ [.chal l] ++ u) (List.prefix_append _ _)
    have hn : numChal (p ++ [.chal l] : Tr F P) = numChal p + 1 := by rw [numChal_append]; rfl
    have hc : numChal (m :: p ++ [.chal l]) = (if isChal m then numChal p + 1 else numChal p) + 1 := by
      rw [numChal_append, numChal_chal]
      simp only [numChal, List.countP_cons]
      by_cases hm : isChal m = true <;> simp [hm]
    rw [hc, List.cons_append, List.cons_append, upTo]
    rw [hn] at ih
    by_cases hm : isChal m = true
    · rw [if_pos hm, if_pos hm, ih]
    · rw [if_neg hm, if_neg hm, ih]

theorem agrees_coins (E : Env F G P) (T : Tr F P) : Agrees E.hash (withCoins E (coinsAlong E.hash T)).hash T := by
  intro p l hp
  simp only [withCoins, coinsAlong]
  rw [upTo_prefix l p T hp]

theorem Agrees.symm {h h' : Tr F P → F} {T : Tr F P} (H : Agrees h h' T) : Agrees h' h T := fun p l hp => (H p l hp).symm

end Spartan
