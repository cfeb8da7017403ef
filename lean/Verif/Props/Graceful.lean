import Verif.Lemmas.Safe
import Verif.Props.NIZK

/-!
# C39: which proofs make the verifier panic

`NIZK::verify` does panic on bad proofs (`nizk_verify_panics` and others in `Props/NIZK.lean`).  Here: a proof that
is accepted has the expected shape, and a proof of the expected shape can make the verifier panic at only three
places, the three assertions on proof contents that `Spec/Soft.lean` turns into errors.
-/

set_option linter.unusedSectionVars false

namespace Spartan
open Spec
variable {F G P : Type} [Field F] [AddCommGroup G] [Module F G]
  [DecidableEq F] [DecidableEq P] [DecidableEq G]

/-! ### the verifier and its variant with errors -/

theorem Soft.bind {α β : Type} {x x' : Out α} {f f' : α → Out β} (hx : Soft x x') (hf : ∀ a, Soft (f a) (f' a)) :
    Soft (x >>= f) (x' >>= f') := by
  rcases hx with rfl | ⟨rfl, rfl⟩
  · cases x with
    | error e => exact Soft.same0
    | ok a => exact hf a
  · exact .inr ⟨rfl, rfl⟩

theorem Soft.same {α β : Type} {x : Out α} {f f' : α → Out β} (hf : ∀ a, Soft (f a) (f' a)) :
    Soft (x >>= f) (x >>= f') := Soft.bind Soft.same0 hf

theorem Soft.check (b : Prop) [Decidable b] : Soft (Spartan.check b) (ensure b) := by
  unfold Spartan.check ensure
  split_ifs
  · exact Soft.same0
  · exact .inr ⟨rfl, rfl⟩

theorem dotLog_soft (E : Env F G P) (pf : DotProductProofLog F P) (n : Nat) (gens : DotGens G) (tr : Tr F P)
    (a : List F) (Cx Cy : P) : Soft (pf.verify E n gens tr a Cx Cy) (softDotLog E pf n gens tr a Cx Cy) := by
  unfold DotProductProofLog.verify softDotLog
  refine Soft.same fun _ => Soft.same fun _ => Soft.same fun g1s => Soft.same fun x => Soft.same fun y =>
    Soft.same fun r => ?_
  obtain ⟨gh, Gh, ah, t⟩ := r
  refine Soft.same fun b => Soft.same fun d => ?_
  simp only
  cases g1s.G with
  | nil => exact Soft.same0
  | cons Q _ =>
    simp only
    split_ifs with h
    · rw [check_true h, ok_bind]; exact Soft.same0
    · rw [check_false h]; exact .inr ⟨rfl, rfl⟩

theorem polyEval_soft (E : Env F G P) (pf : DotProductProofLog F P) (gens : DotGens G) (tr : Tr F P) (r : List F)
    (Czr : P) (comm : List P) :
    Soft (polyEvalVerify E pf gens tr r Czr comm) (softPolyEval E pf gens tr r Czr comm) := by
  unfold polyEvalVerify softPolyEval
  exact Soft.same fun _ => Soft.same fun _ => dotLog_soft _ _ _ _ _ _ _ _

theorem r1cs_soft (E : Env F G P) (pf : R1CSProof F P) (nv nc : Nat) (input : List F) (evals : F × F × F)
    (gens : R1CSGens G) (tr : Tr F P) :
    Soft (pf.verify E nv nc input evals gens tr) (softR1CS E pf nv nc input evals gens tr) := by
  unfold R1CSProof.verify softR1CS
  refine Soft.same fun nx => Soft.same fun ny => Soft.same fun c1 => Soft.same fun r1 => ?_
  refine Soft.same fun _ => Soft.same fun _ => Soft.same fun _ => Soft.same fun _ => Soft.same fun _ =>
    Soft.same fun _ => Soft.same fun _ => Soft.same fun _ => Soft.same fun _ => Soft.same fun _ =>
    Soft.same fun r2 => ?_
  exact Soft.same fun _ => Soft.bind (polyEval_soft _ _ _ _ _ _ _) fun _ => Soft.same0

/-- C39: on every proof object, instance, input and transcript, `NIZK::verify` does what the variant does that
reports its assertions on proof contents as errors, except that it panics where the variant returns
`Err(InternalError)`. -/
theorem nizk_soft (E : Env F G P) (pf : NIZK F P) (I : Inst F) (input : List F) (gens : R1CSGens G)
    (tr : Tr F P) :
    NIZK.verify E pf I input gens tr = softNIZK E pf I input gens tr ∨
      (NIZK.verify E pf I input gens tr = .error .panic ∧
        softNIZK E pf I input gens tr = .error (.err .internalError)) := by
  show Soft _ _
  unfold NIZK.verify softNIZK
  refine Soft.same fun evals => Soft.same fun _ => Soft.bind (r1cs_soft _ _ _ _ _ _ _ _) fun r => ?_
  exact Soft.bind (Soft.check _) fun _ => Soft.bind (Soft.check _) fun _ => Soft.same0

/-! ### proofs of the expected shape -/

theorem softNIZK_safe {E : Env F G P} (hE : E.Lawful) (hu : ∀ t, E.hash (t ++ [.chal "u"]) ≠ 0) {I : Inst F}
    {k j : Nat} (hI : I.inst.WF k j) (hk : 1 ≤ k) {gens : R1CSGens G} {g0 h : G} (hg : gens.WF j g0 h)
    {pf : NIZK F P} (hs : NizkShape E pf k j) {input : List F} (hi : input.length = I.inst.numInputs)
    (tr : Tr F P) : softNIZK E pf I input gens tr ≠ .error .panic := by
  apply Safe.ne (Q := fun _ => True)
  unfold softNIZK
  simp only
  rw [hI.evaluate hs.rx hs.ry, ok_bind, check_true hi, ok_bind, hI.vars, hI.cons]
  refine Safe.bind (r1cs_safe hE hu hk hg hs _ _ _) fun r _ => ?_
  unfold ensure
  refine Safe.bind (R := fun _ => True) (Safe.ite (fun _ => Safe.ok trivial) (fun _ => Safe.err)) fun _ _ => ?_
  refine Safe.bind (R := fun _ => True) (Safe.ite (fun _ => Safe.ok trivial) (fun _ => Safe.err)) fun _ _ => ?_
  exact Safe.pure trivial

/-- C39: for every instance built by `Instance::new` with at least one constraint, the generators derived for
it, every public input of the right length, every transcript and every proof of the expected shape, the variant
of `NIZK::verify` that reports its three assertions on proof contents as errors does not panic.  With
`nizk_soft`: on such proofs `NIZK::verify` panics at these assertions only. -/
theorem nizk_graceful {E : Env F G P} (hE : E.Lawful) (hu : ∀ t, E.hash (t ++ [.chal "u"]) ≠ 0)
    {K : Codec F} {nc nv ni : Nat} {A B C : List (Nat × Nat × List UInt8)} {I : Inst F}
    (hnew : Inst.new K nc nv ni A B C = .ok (.ok I)) (hc : 1 ≤ nc) (hsz : I.inst.numVars ≤ 2 ^ 62)
    (S : GenSrc G) (label : List UInt8) {input : List F} (hi : input.length = I.inst.numInputs) {k j : Nat}
    (hk : I.inst.numCons = 2 ^ k) (hj : I.inst.numVars = 2 ^ j) {pf : NIZK F P} (hs : NizkShape E pf k j)
    (tr : Tr F P) :
    ∃ gens, NIZKGens.new S label nv ni = .ok gens ∧ softNIZK E pf I input gens tr ≠ .error .panic := by
  obtain ⟨hA, hB, hC, rfl⟩ := new_ok_entries hnew
  obtain ⟨k', j', hwf, -, hk1, hj'⟩ := builtR1CS_wf hA hB hC
  have inj := Nat.pow_right_injective (le_refl 2)
  obtain rfl : k' = k := inj (hwf.cons.symm.trans hk)
  obtain rfl : j' = j := inj (hwf.vars.symm.trans hj)
  have hj62 : j' ≤ 62 := by
    have : 2 ^ j' ≤ 2 ^ 62 := by rw [← hj]; exact hsz
    exact (Nat.pow_le_pow_iff_right (by norm_num)).1 this
  obtain ⟨gens, g0, h, e1, hg⟩ := r1csGens_wf S hj62 label
  refine ⟨gens, ?_, softNIZK_safe hE hu (I := ⟨builtR1CS K nc nv ni A B C, _⟩) hwf (hk1 hc) hg hs hi tr⟩
  unfold NIZKGens.new
  rw [hj', e1]

/-! ### accepted proofs have the expected shape -/

theorem some_of_unpack {E : Env F G P} {p : P} {g : G} (h : E.unpack p = .ok g) : (E.decompress p).isSome := by
  rw [unpack_ok_iff.1 h]; rfl

theorem some_of_decompressU {E : Env F G P} {p : P} {g : G} (h : E.decompressU p = .ok g) :
    (E.decompress p).isSome := by
  rw [decompressU_ok_iff.1 h]; rfl

theorem some_of_mapM {E : Env F G P} : ∀ {ps : List P} {gs : List G}, ps.mapM E.decompressU = .ok gs →
    (∀ p ∈ ps, (E.decompress p).isSome) ∧ gs.length = ps.length
  | [], gs, h => by rw [List.mapM_nil] at h; cases h; simp
  | p :: ps, gs, h => by
    rw [List.mapM_cons] at h
    obtain ⟨g, h1, h⟩ := bind_ok h
    obtain ⟨gs', h2, h⟩ := bind_ok h
    cases h
    obtain ⟨h3, h4⟩ := some_of_mapM h2
    exact ⟨by simpa using ⟨some_of_decompressU h1, h3⟩, by simp [h4]⟩

theorem knowledge_points {E : Env F G P} {pf : KnowledgeProof F P} {g : Gens G} {C : P} {tr t : Tr F P}
    (h : pf.verify E g tr C = .ok t) : (E.decompress pf.alpha).isSome := by
  unfold KnowledgeProof.verify at h
  simp only [Env.challenge] at h
  obtain ⟨_, -, h⟩ := bind_ok h
  obtain ⟨_, -, h⟩ := bind_ok h
  obtain ⟨_, h1, h⟩ := bind_ok h
  exact some_of_unpack h1

theorem equality_points {E : Env F G P} {pf : EqualityProof F P} {g : Gens G} {C1 C2 : P} {tr t : Tr F P}
    (h : pf.verify E g tr C1 C2 = .ok t) : (E.decompress pf.alpha).isSome := by
  unfold EqualityProof.verify at h
  simp only [Env.challenge] at h
  obtain ⟨_, -, h⟩ := bind_ok h
  obtain ⟨_, -, h⟩ := bind_ok h
  obtain ⟨_, h1, h⟩ := bind_ok h
  exact some_of_unpack h1

theorem checkEquality_points {E : Env F G P} {Pt X : P} {c : F} {g : Gens G} {z1 z2 : F} {b : Bool}
    (h : ProductProof.checkEquality E Pt X c g z1 z2 = .ok b) : (E.decompress Pt).isSome := by
  unfold ProductProof.checkEquality at h
  obtain ⟨_, h1, h⟩ := bind_ok h
  exact some_of_decompressU h1

theorem product_points {E : Env F G P} {pf : ProductProof F P} {g : Gens G} {X Y Z : P} {tr t : Tr F P}
    (h : pf.verify E g tr X Y Z = .ok t) : (E.decompress pf.alpha).isSome ∧ (E.decompress pf.beta).isSome ∧
      (E.decompress pf.delta).isSome := by
  unfold ProductProof.verify at h
  simp only [Env.challenge] at h
  obtain ⟨_, h1, h⟩ := bind_ok h
  split_ifs at h
  obtain ⟨_, h2, h⟩ := bind_ok h
  split_ifs at h
  obtain ⟨_, -, h⟩ := bind_ok h
  obtain ⟨_, h3, h⟩ := bind_ok h
  exact ⟨checkEquality_points h1, checkEquality_points h2, checkEquality_points h3⟩

theorem dotProduct_points {E : Env F G P} {pf : DotProductProof F P} {g1 gn : Gens G} {a : List F} {Cx Cy : P}
    {tr t : Tr F P} (h : pf.verify E g1 gn tr a Cx Cy = .ok t) : pf.z.length = a.length ∧
      (E.decompress Cx).isSome ∧ (E.decompress pf.delta).isSome ∧ (E.decompress pf.beta).isSome := by
  unfold DotProductProof.verify at h
  simp only [Env.challenge] at h
  obtain ⟨_, -, h⟩ := bind_ok h
  obtain ⟨_, -, h⟩ := bind_ok h
  obtain ⟨_, h1, h⟩ := bind_ok h
  obtain ⟨_, h2, h⟩ := bind_ok h
  obtain ⟨_, -, h⟩ := bind_ok h
  obtain ⟨_, h3, h⟩ := bind_ok h
  obtain ⟨_, -, h⟩ := bind_ok h
  obtain ⟨_, h4, h⟩ := bind_ok h
  unfold innerProduct at h3
  obtain ⟨_, h5, -⟩ := bind_ok h3
  exact ⟨check_ok h5, some_of_unpack h1, some_of_unpack h2, some_of_unpack h4⟩

theorem zkLoop_points {E : Env F G P} {d : Nat} {g1 gn : Gens G} :
    ∀ {cps ces : List P} {pfs : List (DotProductProof F P)} {claim : P} {tr : Tr F P} {r : List F × Tr F P},
    cps.length = ces.length → zkVerifyLoop E d g1 gn cps ces pfs claim tr = .ok r →
    cps.length ≤ pfs.length ∧ (∀ q ∈ pfs.take cps.length, q.z.length = d + 1) ∧
    (∀ p ∈ cps, (E.decompress p).isSome) ∧ (∀ p ∈ ces, (E.decompress p).isSome) ∧
    (∀ q ∈ pfs.take cps.length, (E.decompress q.delta).isSome ∧ (E.decompress q.beta).isSome)
  | [], ces, _, _, _, _, hl, _ => by
    obtain rfl : ces = [] := List.length_eq_zero_iff.1 hl.symm
    simp
  | cp :: cps, [], _, _, _, _, hl, _ => by simp at hl
  | cp :: cps, ce :: ces, [], _, _, _, _, h => by
    unfold zkVerifyLoop at h
    simp only [Env.challenge] at h
    obtain ⟨_, -, h⟩ := bind_ok h
    obtain ⟨_, -, h⟩ := bind_ok h
    obtain ⟨_, -, h⟩ := bind_ok h
    obtain ⟨_, h1, h⟩ := bind_ok h
    cases h1
  | cp :: cps, ce :: ces, q :: pfs, claim, tr, r, hl, h => by
    unfold zkVerifyLoop at h
    simp only [Env.challenge] at h
    obtain ⟨ce', h0, h⟩ := bind_ok h
    cases h0
    obtain ⟨_, h1, h⟩ := bind_ok h
    obtain ⟨_, -, h⟩ := bind_ok h
    obtain ⟨q', h2, h⟩ := bind_ok h
    cases h2
    obtain ⟨_, h3, h⟩ := bind_ok h
    obtain ⟨_, h4, h⟩ := bind_ok h
    have h1 := (some_of_mapM h1).1
    obtain ⟨a1, a2, a3, a4⟩ := dotProduct_points h3
    rw [zkWeights_length] at a1
    obtain ⟨b1, b2, b3, b4, b5⟩ := zkLoop_points (by simpa using hl) h4
    have b4' : ∀ p ∈ ces, (E.decompress p).isSome := b4
    refine ⟨by simpa using b1, ?_, ?_, ?_, ?_⟩
    · simpa using ⟨a1, b2⟩
    · simpa using ⟨a2, b3⟩
    · intro p hp
      rcases List.mem_cons.1 hp with rfl | hp
      · exact h1 _ (by simp)
      · exact b4' p hp
    · intro p hp
      rw [List.length_cons, List.take_succ_cons] at hp
      rcases List.mem_cons.1 hp with rfl | hp
      · exact ⟨a3, a4⟩
      · exact b5 p hp

theorem zkVerify_points {E : Env F G P} {d n : Nat} {g1 gn : Gens G} {pf : ZKSumcheck F P} {claim : P}
    {tr : Tr F P} {r : P × List F × Tr F P} (h : zkVerify E pf claim n d g1 gn tr = .ok r) :
    ScShape pf n (d + 1) ∧ ∀ p ∈ scPts pf, (E.decompress p).isSome := by
  unfold zkVerify at h
  obtain ⟨_, -, h⟩ := bind_ok h
  obtain ⟨_, h1, h⟩ := bind_ok h
  obtain ⟨_, h2, h⟩ := bind_ok h
  obtain ⟨_, h3, h⟩ := bind_ok h
  have h1 := check_ok h1
  have h2 := check_ok h2
  obtain ⟨b1, b2, b3, b4, b5⟩ := zkLoop_points (h1.trans h2.symm) h3
  refine ⟨⟨h1, h2, by rw [← h1]; exact b1, by rw [← h1]; exact b2⟩, ?_⟩
  intro p hp
  unfold scPts at hp
  rcases List.mem_append.1 hp with hp | hp
  · rcases List.mem_append.1 hp with hp | hp
    · exact b3 p hp
    · exact b4 p hp
  · obtain ⟨q, hq, hp⟩ := List.mem_flatMap.1 hp
    have := b5 q hq
    simp only [List.mem_cons, List.not_mem_nil, or_false] at hp
    rcases hp with rfl | rfl
    · exact this.1
    · exact this.2

theorem bullet_shape {E : Env F G P} {pf : BulletProof P} {n : Nat} {tr : Tr F P}
    {q : List F × List F × List F × Tr F P} (h : pf.scalars E n tr = .ok q) : pf.L.length ≤ pf.R.length := by
  unfold BulletProof.scalars at h
  simp only at h
  split_ifs at h
  obtain ⟨_, -, h⟩ := bind_ok h
  obtain ⟨_, h1, h⟩ := bind_ok h
  have h1 := check_ok h1
  rw [bulletChallenges_length] at h1
  omega

theorem polyEval_points {E : Env F G P} {pf : DotProductProofLog F P} {gens : DotGens G} {r : List F} {Czr : P}
    {comm : List P} {tr t : Tr F P} (h : polyEvalVerify E pf gens tr r Czr comm = .ok t) :
    2 ^ (r.length / 2) ≤ comm.length ∧ (∀ p ∈ comm, (E.decompress p).isSome) ∧
    pf.bullet.L.length ≤ pf.bullet.R.length ∧ (∀ p ∈ pf.bullet.L, (E.decompress p).isSome) ∧
    (∀ p ∈ pf.bullet.R, (E.decompress p).isSome) ∧ (E.decompress pf.delta).isSome ∧
    (E.decompress pf.beta).isSome := by
  unfold polyEvalVerify at h
  simp only at h
  obtain ⟨C, h1, h⟩ := bind_ok h
  obtain ⟨_, h2, h⟩ := bind_ok h
  obtain ⟨h1, l1⟩ := some_of_mapM h1
  have h2 := (msm_ok_iff.1 h2).1
  rw [(factoredEvals_correct r).1, l1] at h2
  unfold DotProductProofLog.verify at h
  simp only [Env.challenge] at h
  obtain ⟨_, -, h⟩ := bind_ok h
  obtain ⟨_, -, h⟩ := bind_ok h
  obtain ⟨_, -, h⟩ := bind_ok h
  obtain ⟨_, -, h⟩ := bind_ok h
  obtain ⟨_, -, h⟩ := bind_ok h
  obtain ⟨_, h3, h⟩ := bind_ok h
  obtain ⟨_, h4, h⟩ := bind_ok h
  obtain ⟨_, h5, h⟩ := bind_ok h
  unfold BulletProof.verify at h3
  obtain ⟨q, h6, h3⟩ := bind_ok h3
  obtain ⟨_, h7, h3⟩ := bind_ok h3
  obtain ⟨_, h8, h3⟩ := bind_ok h3
  exact ⟨h2, h1, bullet_shape h6, (some_of_mapM h7).1, (some_of_mapM h8).1, some_of_unpack h5, some_of_unpack h4⟩

/-- C39: a proof that `NIZK::verify` accepts has the expected shape. -/
theorem nizk_accepted_shape {E : Env F G P} {I : Inst F} {k j : Nat} (hI : I.inst.WF k j) {pf : NIZK F P}
    {input : List F} {gens : R1CSGens G} {tr t : Tr F P} (h : NIZK.verify E pf I input gens tr = .ok t) :
    NizkShape E pf k j := by
  have hrx : pf.rx.length = k := by
    by_contra hn
    rw [nizk_verify_panics E hI hn] at h; cases h
  unfold NIZK.verify at h
  simp only at h
  obtain ⟨_, -, h⟩ := bind_ok h
  obtain ⟨_, -, h⟩ := bind_ok h
  obtain ⟨⟨rx, ry, tr'⟩, hv, h⟩ := bind_ok h
  obtain ⟨_, -, h⟩ := bind_ok h
  obtain ⟨_, hry, h⟩ := bind_ok h
  have hry := check_ok hry
  unfold R1CSProof.verify at hv
  simp only [Env.challenge] at hv
  rw [hI.cons, hI.vars, log2_pow, ok_bind, show 2 * 2 ^ j = 2 ^ (j + 1) by rw [pow_succ, mul_comm], log2_pow,
    ok_bind] at hv
  obtain ⟨_, -, hv⟩ := bind_ok hv
  obtain ⟨⟨c1, rx1, t1⟩, s1, hv⟩ := bind_ok hv
  obtain ⟨_, s2, hv⟩ := bind_ok hv
  obtain ⟨_, s3, hv⟩ := bind_ok hv
  obtain ⟨_, -, hv⟩ := bind_ok hv
  obtain ⟨_, p1, hv⟩ := bind_ok hv
  obtain ⟨_, p2, hv⟩ := bind_ok hv
  obtain ⟨_, s4, hv⟩ := bind_ok hv
  obtain ⟨_, p3, hv⟩ := bind_ok hv
  obtain ⟨_, p4, hv⟩ := bind_ok hv
  obtain ⟨_, -, hv⟩ := bind_ok hv
  obtain ⟨_, -, hv⟩ := bind_ok hv
  obtain ⟨⟨c2, ry2, t2⟩, s5, hv⟩ := bind_ok hv
  obtain ⟨_, l1, hv⟩ := bind_ok hv
  obtain ⟨_, s6, hv⟩ := bind_ok hv
  obtain ⟨_, s7, hv⟩ := bind_ok hv
  obtain ⟨_, s8, hv⟩ := bind_ok hv
  obtain ⟨_, p5, hv⟩ := bind_ok hv
  obtain ⟨_, -, hv⟩ := bind_ok hv
  obtain ⟨_, -, hv⟩ := bind_ok hv
  obtain ⟨_, s9, hv⟩ := bind_ok hv
  cases hv
  rw [log2_pow] at s7
  cases s7
  unfold sparseEvaluate at s8
  obtain ⟨_, l2, -⟩ := bind_ok s8
  have l1 := check_ok l1
  have l2 := check_ok l2
  simp only [List.length_drop] at l1 l2
  have lry : ry2.length = j + 1 := by omega
  obtain ⟨d1, e1⟩ := zkVerify_points s1
  obtain ⟨d2, e2⟩ := zkVerify_points s5
  obtain ⟨f1, f2, f3⟩ := product_points s3
  obtain ⟨b1, b2, b3, b4, b5, b6, b7⟩ := polyEval_points s6
  rw [List.length_drop, lry, Nat.add_sub_cancel] at b1
  refine ⟨hrx, by rw [← hry]; exact lry, d1, d2, b1, b3, ?_⟩
  intro p hp
  unfold nizkPts at hp
  simp only [List.mem_append, or_assoc] at hp
  rcases hp with hp | hp | hp | hp | hp | hp
  · exact b2 p hp
  · exact e1 p hp
  · exact e2 p hp
  · revert p
    simp only [List.mem_cons, List.not_mem_nil, or_false, forall_eq_or_imp, forall_eq]
    exact ⟨some_of_decompressU p3, some_of_decompressU p4, some_of_decompressU p2, some_of_decompressU p1,
      some_of_decompressU p5, knowledge_points s2, f1, f2, f3, equality_points s4, equality_points s9, b6, b7⟩
  · exact b4 p hp
  · exact b5 p hp

/-- C39: the proofs that `NIZK::prove` returns have the expected shape. -/
theorem nizk_honest_shape (h2 : (2 : F) ≠ 0) (h3 : (3 : F) ≠ 0) {E : Env F G P} (hE : E.Lawful)
    (hu : ∀ t, E.hash (t ++ [.chal "u"]) ≠ 0)
    {K : Codec F} {nc nv ni : Nat} {A B C : List (Nat × Nat × List UInt8)} {I : Inst F}
    (hnew : Inst.new K nc nv ni A B C = .ok (.ok I)) (hc : 1 ≤ nc) (hsz : I.inst.numVars ≤ 2 ^ 62)
    (S : GenSrc G) (label : List UInt8) {vars inputs : List F}
    (hsat : I.isSat vars inputs = .ok (.ok true)) (tr : Tr F P) (tape : Tape F) :
    ∃ gens pf tr' k j, NIZKGens.new S label nv ni = .ok gens ∧
      NIZK.prove E I vars inputs gens tr tape = .ok (pf, tr') ∧ I.inst.numCons = 2 ^ k ∧
      I.inst.numVars = 2 ^ j ∧ NizkShape E pf k j := by
  obtain ⟨gens, pf, tr', e1, e2, e3⟩ := nizk_complete_nonzero h2 h3 hE hu hnew hc hsz S label hsat tr tape
  obtain ⟨hA, hB, hC, hIe⟩ := new_ok_entries hnew
  obtain ⟨k, j, hwf, -, -, -⟩ := builtR1CS_wf hA hB hC
  have hwf' : I.inst.WF k j := by rw [hIe]; exact hwf
  exact ⟨gens, pf, tr', k, j, e1, e2, hwf'.cons, hwf'.vars, nizk_accepted_shape hwf' e3⟩

/-- The instance `v0 * v1 = x` over ℚ with `v = (2, 3)`, `x = 6`, and its honest proof, meet the hypotheses of
`nizk_graceful`, `nizk_accepted_shape` and `nizk_honest_shape`. -/
example : ∃ (I : Inst ℚ) (gens : R1CSGens ℚ) (pf : NIZK ℚ ℚ) (k j : Nat),
    Inst.new toyCodec 1 2 1 [(0, 0, [1])] [(0, 1, [1])] [(0, 3, [1])] = .ok (.ok I) ∧
    I.inst.numCons = 2 ^ k ∧ I.inst.numVars = 2 ^ j ∧
    NizkShape (⟨id, some, fun _ => 5⟩ : Env ℚ ℚ ℚ) pf k j ∧
    softNIZK (⟨id, some, fun _ => 5⟩ : Env ℚ ℚ ℚ) pf I [6] gens [] ≠ .error .panic := by
  obtain ⟨I, hI⟩ := (instance_new_ok_iff toyCodec 1 2 1 [(0, 0, [1])] [(0, 1, [1])] [(0, 3, [1])]).2
    (by decide)
  have hn : I.inst.numVars = 2 := by
    obtain ⟨-, -, -, rfl⟩ := new_ok_entries hI
    show varsPadded 2 1 = 2
    rw [varsPadded_eq]
    exact nextPow2_pow 1
  have hni : I.inst.numInputs = 1 := by
    obtain ⟨-, -, -, rfl⟩ := new_ok_entries hI
    rfl
  obtain ⟨b, hb, hiff⟩ := padding_preserves_sat hI (vars := [2, 3]) (inputs := [6]) (by rw [hn]; simp) rfl
  have hbt : b = true := hiff.2 (by
    intro i hi
    interval_cases i
    norm_num [rowDot, parsed, toyCodec, matEntry, zvec, fit, Finset.sum_range_succ,
      show UInt8.toNat 1 = 1 from rfl])
  subst hbt
  obtain ⟨-, pf, -, k, j, -, -, h3, h4, h5⟩ := nizk_honest_shape (E := (⟨id, some, fun _ => 5⟩ : Env ℚ ℚ ℚ))
    (by norm_num) (by norm_num) (fun _ => rfl) (fun _ => by norm_num) hI le_rfl (by rw [hn]; norm_num)
    (⟨fun _ i => UInt8.ofNat i, fun b => (b.getD 0 0).toNat⟩ : GenSrc ℚ) [1] hb [] (fun i => i)
  obtain ⟨gens, -, h6⟩ := nizk_graceful (E := (⟨id, some, fun _ => 5⟩ : Env ℚ ℚ ℚ)) (fun _ => rfl)
    (fun _ => by norm_num) hI le_rfl (by rw [hn]; norm_num)
    (⟨fun _ i => UInt8.ofNat i, fun b => (b.getD 0 0).toNat⟩ : GenSrc ℚ) [1] (input := [6]) (by rw [hni]; rfl)
    h3 h4 h5 []
  exact ⟨I, gens, pf, k, j, hI, h3, h4, h5, h6⟩

end Spartan
