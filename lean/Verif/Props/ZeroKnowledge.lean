import Verif.Lemmas.Simulator
import Verif.Lemmas.Replay
import Verif.Props.Hiding

/-!
Property C99: proofs are zero-knowledge.  C71 compares two witnesses, and says nothing about a statement with one witness.
Here a proof is compared with the output of a simulator that has no witness (`Spec/Simulator.lean`).  The simulator gets the
challenges in advance: in the interactive protocol they are the verifier's coins, `withCoins E c`.
-/

set_option linter.unusedSectionVars false

namespace Spartan
open Spec
variable {F G P : Type} [Field F] [AddCommGroup G] [Module F G]
  [DecidableEq F] [DecidableEq P] [DecidableEq G]

/-- C99.  For every instance built by `Instance::new` with at least one constraint, the generators derived for it, a satisfying
assignment and the verifier's coins: a bijection of the random scalars the prover draws carries every run of `NIZK::prove` to a
run of the simulator, which gets the instance, the inputs and the coins, with the same proof and the same transcript. -/
theorem nizk_zero_knowledge (h2 : (2 : F) ≠ 0) (h3 : (3 : F) ≠ 0) {E : Env F G P}
    (hE : E.Lawful) {K : Codec F} {nc nv ni : Nat} {A B C : List (Nat × Nat × List UInt8)} {I : Inst F}
    (hnew : Inst.new K nc nv ni A B C = .ok (.ok I)) (hc : 1 ≤ nc) (hsz : I.inst.numVars ≤ 2 ^ 62)
    {S : GenSrc G} {label : List UInt8} {gens : R1CSGens G} (hg : NIZKGens.new S label nv ni = .ok gens)
    (hb : BlindsSpan F gens) {vars inputs : List F}
    (hsat : I.isSat vars inputs = .ok (.ok true)) (c : Nat → F) (tr : Tr F P) :
    ∃ φ : (Fin (proverDraws I) → F) ≃ (Fin (proverDraws I) → F), ∀ d rest rest',
      NIZK.prove (withCoins E c) I vars inputs gens tr (Tape.pre d rest) =
        simulateNIZK E c I inputs gens tr (Tape.pre (φ d) rest') := by
  obtain ⟨k, j, hwf, hk, hj⟩ : ∃ k j, I.inst.WF k j ∧ 1 ≤ k ∧ varsPadded nv ni = 2 ^ j := by
    obtain ⟨hA, hB, hC, rfl⟩ := new_ok_entries hnew
    obtain ⟨k, j, hwf, -, hk, hj⟩ := builtR1CS_wf hA hB hC
    exact ⟨k, j, hwf, hk hc, hj⟩
  have hj62 : j ≤ 62 := (Nat.pow_le_pow_iff_right (a := 2) (by norm_num)).1 (by rw [← hwf.vars]; exact hsz)
  obtain ⟨p1, l1, hi, -, s1⟩ := inst_sat_core hnew hsat hwf
  unfold NIZKGens.new at hg
  rw [hj] at hg
  obtain ⟨g0, hgw⟩ := r1csGens_of_new hj62 hg
  have := simulate_coupled h2 h3 hE c hwf hk hgw hb.one hb.three.2 hb.four.2 l1 hi s1
    ((tr.protocol "Spartan NIZK proof") ++ [.blob "R1CSInstanceDigest" I.digest])
    (K := fun x => pure ((⟨x.1, x.2.1, x.2.2.1⟩ : NIZK F P), x.2.2.2.1)) (R := fun _ _ => True)
    (fun _ _ _ _ _ _ _ => rfl)
  rw [show r1csDraws k j = proverDraws I by
    unfold proverDraws; rw [hwf.cons, hwf.vars, Nat.log2_two_pow, Nat.log2_two_pow]] at this
  obtain ⟨φ, hφ⟩ := this
  refine ⟨φ, fun d t t' => ?_⟩
  have := hφ d t t' trivial
  unfold NIZK.prove
  rw [p1]
  exact this

/-- C99, distributions: over a finite field each outcome has as many random strings for the prover as for the simulator. -/
theorem nizk_simulated_distribution [Fintype F] (h2 : (2 : F) ≠ 0) (h3 : (3 : F) ≠ 0) {E : Env F G P}
    (hE : E.Lawful) {K : Codec F} {nc nv ni : Nat} {A B C : List (Nat × Nat × List UInt8)} {I : Inst F}
    (hnew : Inst.new K nc nv ni A B C = .ok (.ok I)) (hc : 1 ≤ nc) (hsz : I.inst.numVars ≤ 2 ^ 62)
    {S : GenSrc G} {label : List UInt8} {gens : R1CSGens G} (hg : NIZKGens.new S label nv ni = .ok gens)
    (hb : BlindsSpan F gens) {vars inputs : List F}
    (hsat : I.isSat vars inputs = .ok (.ok true)) (c : Nat → F) (tr : Tr F P) (rest rest' : Tape F) (outcome : Out (NIZK F P × Tr F P)) :
    Set.ncard {d : Fin (proverDraws I) → F |
        NIZK.prove (withCoins E c) I vars inputs gens tr (Tape.pre d rest) = outcome} =
      Set.ncard {d : Fin (proverDraws I) → F |
        simulateNIZK E c I inputs gens tr (Tape.pre d rest') = outcome} := by
  obtain ⟨φ, hφ⟩ := nizk_zero_knowledge h2 h3 hE hnew hc hsz hg hb hsat c tr
  refine Set.ncard_congr (fun d _ => φ d) ?_ ?_ ?_
  · intro d hd
    show _ = _
    rw [← hφ d rest rest']; exact hd
  · intro a b _ _ h
    exact φ.injective h
  · intro d hd
    refine ⟨φ.symm d, ?_, by simp⟩
    show _ = _
    rw [hφ _ rest rest', Equiv.apply_symm_apply]; exact hd

/-- A run of `NIZK::prove` with a hash function is a run of the interactive protocol with the coins that the hash function gives
along the transcript of the run. -/
theorem nizk_hash_run_iff (E : Env F G P) (I : Inst F) (vars inputs : List F) (gens : R1CSGens G) (tr : Tr F P) (tape : Tape F)
    (pf : NIZK F P) (T : Tr F P) :
    NIZK.prove E I vars inputs gens tr tape = .ok (pf, T) ↔
      NIZK.prove (withCoins E (coinsAlong E.hash T)) I vars inputs gens tr tape = .ok (pf, T) := by
  constructor
  · intro h
    exact (nizk_repl (h' := (withCoins E (coinsAlong E.hash T)).hash) E I vars inputs gens tr tape _ h).2
      (agrees_coins E T)
  · intro h
    exact (nizk_repl (h' := E.hash) (withCoins E (coinsAlong E.hash T)) I vars inputs gens tr tape _ h).2
      (agrees_coins E T).symm

/-- C99 for the non-interactive proof, with any hash function: a proof with its transcript has as many random strings for the
prover as for the simulator that is given the hashes along the transcript.  For a random oracle these are uniform, so a simulator
that draws them itself and programs the oracle along its transcript has the prover's distribution. -/
theorem nizk_simulated_hash [Fintype F] (h2 : (2 : F) ≠ 0) (h3 : (3 : F) ≠ 0) {E : Env F G P}
    (hE : E.Lawful) {K : Codec F} {nc nv ni : Nat} {A B C : List (Nat × Nat × List UInt8)} {I : Inst F}
    (hnew : Inst.new K nc nv ni A B C = .ok (.ok I)) (hc : 1 ≤ nc) (hsz : I.inst.numVars ≤ 2 ^ 62)
    {S : GenSrc G} {label : List UInt8} {gens : R1CSGens G} (hg : NIZKGens.new S label nv ni = .ok gens)
    (hb : BlindsSpan F gens) {vars inputs : List F}
    (hsat : I.isSat vars inputs = .ok (.ok true)) (tr : Tr F P) (rest rest' : Tape F) (pf : NIZK F P) (T : Tr F P) :
    Set.ncard {d : Fin (proverDraws I) → F |
        NIZK.prove E I vars inputs gens tr (Tape.pre d rest) = .ok (pf, T)} =
      Set.ncard {d : Fin (proverDraws I) → F |
        simulateNIZK E (coinsAlong E.hash T) I inputs gens tr (Tape.pre d rest') = .ok (pf, T)} := by
  rw [← nizk_simulated_distribution h2 h3 hE hnew hc hsz hg hb hsat (coinsAlong E.hash T) tr rest rest']
  congr 1
  ext d
  exact nizk_hash_run_iff E I vars inputs gens tr (Tape.pre d rest) pf T

/-- C99 for the SNARK, with any commitment to the instance. -/
theorem snark_zero_knowledge (h2 : (2 : F) ≠ 0) (h3 : (3 : F) ≠ 0) {E : Env F G P}
    (hE : E.Lawful) {K : Codec F} {nc nv ni nz : Nat} {A B C : List (Nat × Nat × List UInt8)} {I : Inst F}
    (hnew : Inst.new K nc nv ni A B C = .ok (.ok I)) (hc : 1 ≤ nc) (hsz : I.inst.numVars ≤ 2 ^ 62)
    {S : GenSrc G} {ls le : List UInt8} {gens : SNARKGens G}
    (hg : SNARKGens.new S ls le nc nv ni nz = .ok gens)
    (hb : BlindsSpan F gens.sat) {vars inputs : List F}
    (hsat : I.isSat vars inputs = .ok (.ok true)) (c : Nat → F)
    (comm : R1CSComm P) (decomm : MultiDense F) (tr : Tr F P) :
    ∃ φ : (Fin (proverDraws I) → F) ≃ (Fin (proverDraws I) → F), ∀ d rest,
      SNARK.prove (withCoins E c) I comm decomm vars inputs gens tr (Tape.pre d rest) =
        simulateSNARK E c I comm decomm inputs gens tr (Tape.pre (φ d) rest) := by
  obtain ⟨k, j, hwf, hk, hj⟩ : ∃ k j, I.inst.WF k j ∧ 1 ≤ k ∧ varsPadded nv ni = 2 ^ j := by
    obtain ⟨hA, hB, hC, rfl⟩ := new_ok_entries hnew
    obtain ⟨k, j, hwf, -, hk, hj⟩ := builtR1CS_wf hA hB hC
    exact ⟨k, j, hwf, hk hc, hj⟩
  have hj62 : j ≤ 62 := (Nat.pow_le_pow_iff_right (a := 2) (by norm_num)).1 (by rw [← hwf.vars]; exact hsz)
  obtain ⟨p1, l1, hi, -, s1⟩ := inst_sat_core hnew hsat hwf
  unfold SNARKGens.new at hg
  obtain ⟨gs, hgs, hg⟩ := bind_ok hg
  obtain ⟨ge, hge, hg⟩ := bind_ok hg
  cases hg
  rw [hj] at hgs
  obtain ⟨g0, hgw⟩ := r1csGens_of_new hj62 hgs
  have := simulate_coupled h2 h3 hE c hwf hk hgw hb.one hb.three.2 hb.four.2 l1 hi s1
    ((tr.protocol "Spartan SNARK proof").r1csComm comm)
    (K := fun x => do
      let ev ← I.inst.evaluate x.2.1 x.2.2.1
      let (pe, tr, _) ← sparseProve (withCoins E c) decomm x.2.1 x.2.2.1 [ev.1, ev.2.1, ev.2.2] ge
        (x.2.2.2.1.evalClaims ev) x.2.2.2.2
      pure ((⟨x.1, ev, pe⟩ : SNARK F P), tr)) (R := fun t t' => t = t')
    (by rintro _ _ _ _ t _ rfl; rfl)
  rw [show r1csDraws k j = proverDraws I by
    unfold proverDraws; rw [hwf.cons, hwf.vars, Nat.log2_two_pow, Nat.log2_two_pow]] at this
  obtain ⟨φ, hφ⟩ := this
  refine ⟨φ, fun d t => ?_⟩
  have := hφ d t t rfl
  unfold SNARK.prove
  rw [p1]
  exact this

/-- C99 at the actual curve and scalar field. -/
theorem nizk_zero_knowledge_secq {sqrt : ZMod secpN → Option (ZMod secpN)} (hs : SqrtSpec sqrt)
    (hash : Tr (ZMod secpP) (List UInt8) → ZMod secpP)
    {K : Codec (ZMod secpP)} {nc nv ni : Nat} {A B C : List (Nat × Nat × List UInt8)}
    {I : Inst (ZMod secpP)} (hnew : Inst.new K nc nv ni A B C = .ok (.ok I)) (hc : 1 ≤ nc)
    (hsz : I.inst.numVars ≤ 2 ^ 62) {S : GenSrc Secq} {label : List UInt8} {gens : R1CSGens Secq}
    (hg : NIZKGens.new S label nv ni = .ok gens)
    (h1 : gens.gens1.h ≠ 0) (h3 : gens.gens3.h ≠ 0) (h4 : gens.gens4.h ≠ 0)
    {vars inputs : List (ZMod secpP)} (hsat : I.isSat vars inputs = .ok (.ok true))
    (c : Nat → ZMod secpP) (tr : Tr (ZMod secpP) (List UInt8)) :
    ∃ φ : (Fin (proverDraws I) → ZMod secpP) ≃ (Fin (proverDraws I) → ZMod secpP), ∀ d rest rest',
      NIZK.prove (withCoins (secqEnv sqrt hash) c) I vars inputs gens tr (Tape.pre d rest) =
        simulateNIZK (secqEnv sqrt hash) c I inputs gens tr (Tape.pre (φ d) rest') :=
  nizk_zero_knowledge (E := secqEnv sqrt hash) Koblitz.secp_consts.1 Koblitz.secp_consts.2.1
    (secqEnv_lawful hs hash) hnew hc hsz hg ⟨secq_cyclic _ h1, secq_cyclic _ h3, secq_cyclic _ h4⟩
    hsat c tr

/-- The distribution at the actual curve. -/
theorem nizk_simulated_distribution_secq {sqrt : ZMod secpN → Option (ZMod secpN)} (hs : SqrtSpec sqrt)
    (hash : Tr (ZMod secpP) (List UInt8) → ZMod secpP)
    {K : Codec (ZMod secpP)} {nc nv ni : Nat} {A B C : List (Nat × Nat × List UInt8)}
    {I : Inst (ZMod secpP)} (hnew : Inst.new K nc nv ni A B C = .ok (.ok I)) (hc : 1 ≤ nc)
    (hsz : I.inst.numVars ≤ 2 ^ 62) {S : GenSrc Secq} {label : List UInt8} {gens : R1CSGens Secq}
    (hg : NIZKGens.new S label nv ni = .ok gens)
    (h1 : gens.gens1.h ≠ 0) (h3 : gens.gens3.h ≠ 0) (h4 : gens.gens4.h ≠ 0)
    {vars inputs : List (ZMod secpP)} (hsat : I.isSat vars inputs = .ok (.ok true))
    (c : Nat → ZMod secpP) (tr : Tr (ZMod secpP) (List UInt8))
    (rest rest' : Tape (ZMod secpP))
    (outcome : Out (NIZK (ZMod secpP) (List UInt8) × Tr (ZMod secpP) (List UInt8))) :
    Set.ncard {d : Fin (proverDraws I) → ZMod secpP |
        NIZK.prove (withCoins (secqEnv sqrt hash) c) I vars inputs gens tr (Tape.pre d rest) = outcome} =
      Set.ncard {d : Fin (proverDraws I) → ZMod secpP |
        simulateNIZK (secqEnv sqrt hash) c I inputs gens tr (Tape.pre d rest') = outcome} := by
  have : Fintype (ZMod secpP) := Fintype.ofFinite _
  exact nizk_simulated_distribution (E := secqEnv sqrt hash) Koblitz.secp_consts.1 Koblitz.secp_consts.2.1
    (secqEnv_lawful hs hash) hnew hc hsz hg ⟨secq_cyclic _ h1, secq_cyclic _ h3, secq_cyclic _ h4⟩
    hsat c tr rest rest' outcome

/-- The statement `v0 * v1 = 6` over ℚ with the witness `(2, 3)`: the hypotheses are met. -/
example : ∃ I gens, Inst.new toyCodec 1 2 1 [(0, 0, [1])] [(0, 1, [1])] [(0, 3, [1])] = .ok (.ok I) ∧
    NIZKGens.new (⟨fun _ i => UInt8.ofNat i, fun b => (b.getD 0 0).toNat + 1⟩ : GenSrc ℚ) [1] 2 1 = .ok gens ∧
    ∃ φ : (Fin (proverDraws I) → ℚ) ≃ (Fin (proverDraws I) → ℚ), ∀ d rest rest',
      NIZK.prove (withCoins (⟨id, some, fun _ => 5⟩ : Env ℚ ℚ ℚ) fun n => n) I [2, 3] [6] gens [] (Tape.pre d rest) =
        simulateNIZK (⟨id, some, fun _ => 5⟩ : Env ℚ ℚ ℚ) (fun n => n) I [6] gens [] (Tape.pre (φ d) rest') := by
  obtain ⟨I, hI⟩ := (instance_new_ok_iff toyCodec 1 2 1 [(0, 0, [1])] [(0, 1, [1])] [(0, 3, [1])]).2
    (by decide)
  have hn : I.inst.numVars = 2 := by
    obtain ⟨-, -, -, rfl⟩ := new_ok_entries hI
    show varsPadded 2 1 = 2
    rw [varsPadded_eq]
    exact nextPow2_pow 1
  have hsat : ∀ a b : ℚ, a * b = 6 → I.isSat [a, b] [6] = .ok (.ok true) := by
    intro x y hxy
    obtain ⟨b, hb, hiff⟩ := padding_preserves_sat hI (vars := [x, y]) (inputs := [6]) (by rw [hn]; simp) rfl
    have hbt : b = true := hiff.2 (by
      intro i hi
      interval_cases i
      norm_num [rowDot, parsed, toyCodec, matEntry, zvec, fit, Finset.sum_range_succ,
        show UInt8.toNat 1 = 1 from rfl, hxy])
    subst hbt
    exact hb
  obtain ⟨gens, g0, h, hg, hw⟩ := r1csGens_wf
    (⟨fun _ i => UInt8.ofNat i, fun b => (b.getD 0 0).toNat + 1⟩ : GenSrc ℚ) (j := 1) (by norm_num) [1]
  have hg' : NIZKGens.new (⟨fun _ i => UInt8.ofNat i, fun b => (b.getD 0 0).toNat + 1⟩ : GenSrc ℚ) [1] 2 1 =
      .ok gens := by
    unfold NIZKGens.new
    rw [show varsPadded 2 1 = 2 ^ 1 by rw [varsPadded_eq]; exact nextPow2_pow 1]
    exact hg
  have hb : ∀ h : ℚ, h ≠ 0 → Function.Bijective fun s : ℚ => s • h := fun h hh =>
    mulRight_bijective₀ h hh
  have hp : ∀ b : List UInt8, ((b.getD 0 0).toNat : ℚ) + 1 ≠ 0 := fun b => by positivity
  refine ⟨I, gens, hI, hg', ?_⟩
  refine nizk_zero_knowledge (by norm_num) (by norm_num) (fun _ => rfl) hI le_rfl
    (by rw [hn]; norm_num) hg' ⟨hb _ ?_, hb _ ?_, hb _ ?_⟩ (hsat 2 3 (by norm_num)) _ []
  all_goals
    unfold R1CSGens.new at hg
    rw [log2_pow, ok_bind] at hg
    obtain ⟨pc, hpc, hg⟩ := bind_ok hg
    cases hg
  · unfold polyCommitGens at hpc
    obtain ⟨n, -, hpc⟩ := bind_ok hpc
    unfold DotGens.new DotGens.ofGens at hpc
    obtain ⟨⟨gn, g1⟩, hsp, hpc⟩ := bind_ok hpc
    cases hpc
    unfold Gens.splitAt at hsp
    obtain ⟨-, -, hsp⟩ := bind_ok hsp
    cases hsp
    show (Gens.new _ _ _).h ≠ 0
    rw [(gens_new_shape _ _ _).2.2.2]; exact hp _
  · show (Gens.new _ _ _).h ≠ 0
    rw [(gens_new_shape _ _ _).2.2.2]; exact hp _
  · show (Gens.new _ _ _).h ≠ 0
    rw [(gens_new_shape _ _ _).2.2.2]; exact hp _


end Spartan
