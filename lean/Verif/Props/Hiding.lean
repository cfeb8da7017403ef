import Verif.Lemmas.CouplingR1CS
import Verif.Props.NIZK
import Verif.Props.Convert
import Verif.Props.Concrete
import Verif.Props.SNARK

/-!
Property C71: a proof carries no information about the witness.

The random scalars the prover draws are the entries of a tape `Tape F = ℕ → F`.  `Tape.pre d t` is
the tape that starts with the `N` scalars `d : Fin N → F` and goes on with `t`.  The theorems state
that the provers of two satisfying assignments have the same distribution of outcomes: a bijection
of the first `N` scalars turns each run of the one into a run of the other with the same outcome.
The hash function is arbitrary, so this does not use a random oracle.
-/

set_option linter.unusedSectionVars false

namespace Spartan
open Spec
variable {F G P : Type} [Field F] [AddCommGroup G] [Module F G]
  [DecidableEq F] [DecidableEq P] [DecidableEq G]

/-- Each derived blinding generator spans the group: scalars and multiples of it correspond one to
one.  On the secq256k1 group this says that the points are not the identity (`secq_cyclic`). -/
structure BlindsSpan (F : Type) {G : Type} [Field F] [AddCommGroup G] [Module F G] (gens : R1CSGens G) :
    Prop where
  one : Function.Bijective fun s : F => s • gens.gens1.h
  three : Function.Bijective fun s : F => s • gens.gens3.h
  four : Function.Bijective fun s : F => s • gens.gens4.h

/-- The number of random scalars drawn by the prover for an instance. -/
def proverDraws (I : Inst F) : Nat := r1csDraws (Nat.log2 I.inst.numCons) (Nat.log2 I.inst.numVars)

theorem r1csGens_of_new {S : GenSrc G} {j : Nat} (hj : j ≤ 62) {label : List UInt8} {gens : R1CSGens G}
    (h : R1CSGens.new S label (2 ^ j) = .ok gens) : ∃ g0, gens.WF j g0 gens.gens1.h := by
  obtain ⟨gens', g0, h0, e, w⟩ := r1csGens_wf S hj label
  rw [h] at e
  cases e
  refine ⟨g0, ?_⟩
  have : gens.gens1.h = h0 := by rw [w.g1]; rfl
  rw [this]; exact w

/-- What a satisfied instance gives to the prover. -/
theorem inst_sat_core {K : Codec F} {nc nv ni : Nat} {A B C : List (Nat × Nat × List UInt8)} {I : Inst F}
    (hnew : Inst.new K nc nv ni A B C = .ok (.ok I)) {vars inputs : List F}
    (hsat : I.isSat vars inputs = .ok (.ok true)) {k j : Nat} (hwf : I.inst.WF k j) :
    padVars vars I.inst.numVars = .ok (fit (2 ^ j) vars) ∧ (fit (2 ^ j) vars).length = 2 ^ j ∧
      inputs.length < 2 ^ j ∧ inputs.length = ni ∧
      Sat I.inst.A.triples I.inst.B.triples I.inst.C.triples (2 ^ k) (zpad (fit (2 ^ j) vars) inputs) := by
  obtain ⟨hA, hB, hC, rfl⟩ := new_ok_entries hnew
  have hj : varsPadded nv ni = 2 ^ j := hwf.vars
  have hlen : vars.length ≤ varsPadded nv ni ∧ inputs.length = ni := by
    by_contra hcon
    have := isSat_wrong_length ⟨builtR1CS K nc nv ni A B C, K.digest (builtR1CS K nc nv ni A B C)⟩ vars
      inputs (by rcases not_and_or.1 hcon with h | h
                 · left; exact Nat.lt_of_not_le h
                 · right; exact h)
    rw [this] at hsat; simp at hsat
  obtain ⟨hvl, hil⟩ := hlen
  have hvl' : (fit (varsPadded nv ni) vars).length = 2 ^ j := by rw [fit_length, hj]
  refine ⟨?_, by rw [fit_length], by rw [hil, ← hj]; exact (le_varsPadded nv ni).2, hil, ?_⟩
  · rw [← hj]; exact padVars_eq hvl
  rw [← hj]
  simp only at hwf ⊢
  rw [hwf.sat_zpad hvl' hil]
  obtain ⟨b, hb, hbs⟩ := r1cs_isSat_eq (I := builtR1CS K nc nv ni A B C)
    (vars := fit (varsPadded nv ni) vars) (input := inputs) (fit_length _ _) hil
    (by rw [hwf.cons, hwf.vars]; exact hwf.A) (by rw [hwf.cons, hwf.vars]; exact hwf.B)
    (by rw [hwf.cons, hwf.vars]; exact hwf.C)
  rw [hwf.cons] at hbs
  apply hbs.1
  unfold Inst.isSat at hsat
  simp only at hsat
  rw [show (builtR1CS K nc nv ni A B C).numVars = varsPadded nv ni from rfl,
    if_neg (Nat.not_lt.2 hvl), if_neg (by simp [builtR1CS, hil]), padVars_eq hvl, ok_bind,
    hb, ok_bind] at hsat
  simpa [pure_ok] using hsat

/-- C71.  For every instance built by `Instance::new` with at least one constraint, the generators
derived for it, and any two satisfying assignments for the same inputs: a bijection of the random
scalars the prover draws carries every run of `NIZK::prove` on the first assignment to a run on the
second with the same outcome: the same proof and transcript, or a panic in both. -/
theorem nizk_witness_indistinguishable (h2 : (2 : F) ≠ 0) (h3 : (3 : F) ≠ 0) {E : Env F G P}
    (hE : E.Lawful) {K : Codec F} {nc nv ni : Nat} {A B C : List (Nat × Nat × List UInt8)} {I : Inst F}
    (hnew : Inst.new K nc nv ni A B C = .ok (.ok I)) (hc : 1 ≤ nc) (hsz : I.inst.numVars ≤ 2 ^ 62)
    {S : GenSrc G} {label : List UInt8} {gens : R1CSGens G} (hg : NIZKGens.new S label nv ni = .ok gens)
    (hb : BlindsSpan F gens) {vars vars' inputs : List F}
    (hsat : I.isSat vars inputs = .ok (.ok true)) (hsat' : I.isSat vars' inputs = .ok (.ok true))
    (tr : Tr F P) :
    ∃ φ : (Fin (proverDraws I) → F) ≃ (Fin (proverDraws I) → F), ∀ d rest rest',
      NIZK.prove E I vars inputs gens tr (Tape.pre d rest) =
        NIZK.prove E I vars' inputs gens tr (Tape.pre (φ d) rest') := by
  obtain ⟨k, j, hwf, hk, hj⟩ : ∃ k j, I.inst.WF k j ∧ 1 ≤ k ∧ varsPadded nv ni = 2 ^ j := by
    obtain ⟨hA, hB, hC, rfl⟩ := new_ok_entries hnew
    obtain ⟨k, j, hwf, -, hk, hj⟩ := builtR1CS_wf hA hB hC
    exact ⟨k, j, hwf, hk hc, hj⟩
  have hj62 : j ≤ 62 := (Nat.pow_le_pow_iff_right (a := 2) (by norm_num)).1 (by rw [← hwf.vars]; exact hsz)
  obtain ⟨p1, l1, hi, -, s1⟩ := inst_sat_core hnew hsat hwf
  obtain ⟨p2, l2, -, -, s2⟩ := inst_sat_core hnew hsat' hwf
  unfold NIZKGens.new at hg
  rw [hj] at hg
  obtain ⟨g0, hgw⟩ := r1csGens_of_new hj62 hg
  have := r1csProof_coupled h2 h3 hE hwf hk hgw hb.one hb.three.2 hb.four.2 l1 l2 hi s1 s2
    ((tr.protocol "Spartan NIZK proof") ++ [.blob "R1CSInstanceDigest" I.digest])
    (K := fun x => pure ((⟨x.1, x.2.1, x.2.2.1⟩ : NIZK F P), x.2.2.2.1)) (R := fun _ _ => True)
    (fun _ _ _ _ _ _ _ => rfl)
  rw [show r1csDraws k j = proverDraws I by
    unfold proverDraws; rw [hwf.cons, hwf.vars, Nat.log2_two_pow, Nat.log2_two_pow]] at this
  obtain ⟨φ, hφ⟩ := this
  refine ⟨φ, fun d t t' => ?_⟩
  have := hφ d t t' trivial
  unfold NIZK.prove
  rw [p1, p2]
  exact this

/-- C71, distributions: over a finite field, each outcome has the same number of random strings for
the one assignment as for the other. -/
theorem nizk_same_distribution [Fintype F] (h2 : (2 : F) ≠ 0) (h3 : (3 : F) ≠ 0) {E : Env F G P}
    (hE : E.Lawful) {K : Codec F} {nc nv ni : Nat} {A B C : List (Nat × Nat × List UInt8)} {I : Inst F}
    (hnew : Inst.new K nc nv ni A B C = .ok (.ok I)) (hc : 1 ≤ nc) (hsz : I.inst.numVars ≤ 2 ^ 62)
    {S : GenSrc G} {label : List UInt8} {gens : R1CSGens G} (hg : NIZKGens.new S label nv ni = .ok gens)
    (hb : BlindsSpan F gens) {vars vars' inputs : List F}
    (hsat : I.isSat vars inputs = .ok (.ok true)) (hsat' : I.isSat vars' inputs = .ok (.ok true))
    (tr : Tr F P) (rest rest' : Tape F) (outcome : Out (NIZK F P × Tr F P)) :
    Set.ncard {d : Fin (proverDraws I) → F |
        NIZK.prove E I vars inputs gens tr (Tape.pre d rest) = outcome} =
      Set.ncard {d : Fin (proverDraws I) → F |
        NIZK.prove E I vars' inputs gens tr (Tape.pre d rest') = outcome} := by
  obtain ⟨φ, hφ⟩ := nizk_witness_indistinguishable h2 h3 hE hnew hc hsz hg hb hsat hsat' tr
  refine Set.ncard_congr (fun d _ => φ d) ?_ ?_ ?_
  · intro d hd
    show _ = _
    rw [← hφ d rest rest']; exact hd
  · intro a b _ _ h
    exact φ.injective h
  · intro d hd
    refine ⟨φ.symm d, ?_, by simp⟩
    show _ = _
    rw [hφ _ rest rest', Equiv.apply_symm_apply]; exact hd

/-- C71 for the SNARK, with any commitment to the instance.  The scalars drawn after the
satisfiability proof are the same in both runs. -/
theorem snark_witness_indistinguishable (h2 : (2 : F) ≠ 0) (h3 : (3 : F) ≠ 0) {E : Env F G P}
    (hE : E.Lawful) {K : Codec F} {nc nv ni nz : Nat} {A B C : List (Nat × Nat × List UInt8)} {I : Inst F}
    (hnew : Inst.new K nc nv ni A B C = .ok (.ok I)) (hc : 1 ≤ nc) (hsz : I.inst.numVars ≤ 2 ^ 62)
    {S : GenSrc G} {ls le : List UInt8} {gens : SNARKGens G}
    (hg : SNARKGens.new S ls le nc nv ni nz = .ok gens)
    (hb : BlindsSpan F gens.sat) {vars vars' inputs : List F}
    (hsat : I.isSat vars inputs = .ok (.ok true)) (hsat' : I.isSat vars' inputs = .ok (.ok true))
    (comm : R1CSComm P) (decomm : MultiDense F) (tr : Tr F P) :
    ∃ φ : (Fin (proverDraws I) → F) ≃ (Fin (proverDraws I) → F), ∀ d rest,
      SNARK.prove E I comm decomm vars inputs gens tr (Tape.pre d rest) =
        SNARK.prove E I comm decomm vars' inputs gens tr (Tape.pre (φ d) rest) := by
  obtain ⟨k, j, hwf, hk, hj⟩ : ∃ k j, I.inst.WF k j ∧ 1 ≤ k ∧ varsPadded nv ni = 2 ^ j := by
    obtain ⟨hA, hB, hC, rfl⟩ := new_ok_entries hnew
    obtain ⟨k, j, hwf, -, hk, hj⟩ := builtR1CS_wf hA hB hC
    exact ⟨k, j, hwf, hk hc, hj⟩
  have hj62 : j ≤ 62 := (Nat.pow_le_pow_iff_right (a := 2) (by norm_num)).1 (by rw [← hwf.vars]; exact hsz)
  obtain ⟨p1, l1, hi, -, s1⟩ := inst_sat_core hnew hsat hwf
  obtain ⟨p2, l2, -, -, s2⟩ := inst_sat_core hnew hsat' hwf
  unfold SNARKGens.new at hg
  obtain ⟨gs, hgs, hg⟩ := bind_ok hg
  obtain ⟨ge, hge, hg⟩ := bind_ok hg
  cases hg
  rw [hj] at hgs
  obtain ⟨g0, hgw⟩ := r1csGens_of_new hj62 hgs
  have := r1csProof_coupled h2 h3 hE hwf hk hgw hb.one hb.three.2 hb.four.2 l1 l2 hi s1 s2
    ((tr.protocol "Spartan SNARK proof").r1csComm comm)
    (K := fun x => do
      let ev ← I.inst.evaluate x.2.1 x.2.2.1
      let (pe, tr, _) ← sparseProve E decomm x.2.1 x.2.2.1 [ev.1, ev.2.1, ev.2.2] ge
        (x.2.2.2.1.evalClaims ev) x.2.2.2.2
      pure ((⟨x.1, ev, pe⟩ : SNARK F P), tr)) (R := fun t t' => t = t')
    (by rintro _ _ _ _ t _ rfl; rfl)
  rw [show r1csDraws k j = proverDraws I by
    unfold proverDraws; rw [hwf.cons, hwf.vars, Nat.log2_two_pow, Nat.log2_two_pow]] at this
  obtain ⟨φ, hφ⟩ := this
  refine ⟨φ, fun d t => ?_⟩
  have := hφ d t t rfl
  unfold SNARK.prove
  rw [p1, p2]
  exact this

/-- C71 at the actual curve and scalar field: it is enough that the three derived blinding points are
not the identity. -/
theorem nizk_witness_indistinguishable_secq {sqrt : ZMod secpN → Option (ZMod secpN)} (hs : SqrtSpec sqrt)
    (hash : Tr (ZMod secpP) (List UInt8) → ZMod secpP)
    {K : Codec (ZMod secpP)} {nc nv ni : Nat} {A B C : List (Nat × Nat × List UInt8)}
    {I : Inst (ZMod secpP)} (hnew : Inst.new K nc nv ni A B C = .ok (.ok I)) (hc : 1 ≤ nc)
    (hsz : I.inst.numVars ≤ 2 ^ 62) {S : GenSrc Secq} {label : List UInt8} {gens : R1CSGens Secq}
    (hg : NIZKGens.new S label nv ni = .ok gens)
    (h1 : gens.gens1.h ≠ 0) (h3 : gens.gens3.h ≠ 0) (h4 : gens.gens4.h ≠ 0)
    {vars vars' inputs : List (ZMod secpP)} (hsat : I.isSat vars inputs = .ok (.ok true))
    (hsat' : I.isSat vars' inputs = .ok (.ok true)) (tr : Tr (ZMod secpP) (List UInt8)) :
    ∃ φ : (Fin (proverDraws I) → ZMod secpP) ≃ (Fin (proverDraws I) → ZMod secpP), ∀ d rest rest',
      NIZK.prove (secqEnv sqrt hash) I vars inputs gens tr (Tape.pre d rest) =
        NIZK.prove (secqEnv sqrt hash) I vars' inputs gens tr (Tape.pre (φ d) rest') :=
  nizk_witness_indistinguishable (E := secqEnv sqrt hash) Koblitz.secp_consts.1 Koblitz.secp_consts.2.1
    (secqEnv_lawful hs hash) hnew hc hsz hg ⟨secq_cyclic _ h1, secq_cyclic _ h3, secq_cyclic _ h4⟩
    hsat hsat' tr

/-- The distribution at the actual curve. -/
theorem nizk_same_distribution_secq {sqrt : ZMod secpN → Option (ZMod secpN)} (hs : SqrtSpec sqrt)
    (hash : Tr (ZMod secpP) (List UInt8) → ZMod secpP)
    {K : Codec (ZMod secpP)} {nc nv ni : Nat} {A B C : List (Nat × Nat × List UInt8)}
    {I : Inst (ZMod secpP)} (hnew : Inst.new K nc nv ni A B C = .ok (.ok I)) (hc : 1 ≤ nc)
    (hsz : I.inst.numVars ≤ 2 ^ 62) {S : GenSrc Secq} {label : List UInt8} {gens : R1CSGens Secq}
    (hg : NIZKGens.new S label nv ni = .ok gens)
    (h1 : gens.gens1.h ≠ 0) (h3 : gens.gens3.h ≠ 0) (h4 : gens.gens4.h ≠ 0)
    {vars vars' inputs : List (ZMod secpP)} (hsat : I.isSat vars inputs = .ok (.ok true))
    (hsat' : I.isSat vars' inputs = .ok (.ok true)) (tr : Tr (ZMod secpP) (List UInt8))
    (rest rest' : Tape (ZMod secpP))
    (outcome : Out (NIZK (ZMod secpP) (List UInt8) × Tr (ZMod secpP) (List UInt8))) :
    Set.ncard {d : Fin (proverDraws I) → ZMod secpP |
        NIZK.prove (secqEnv sqrt hash) I vars inputs gens tr (Tape.pre d rest) = outcome} =
      Set.ncard {d : Fin (proverDraws I) → ZMod secpP |
        NIZK.prove (secqEnv sqrt hash) I vars' inputs gens tr (Tape.pre d rest') = outcome} := by
  have : Fintype (ZMod secpP) := Fintype.ofFinite _
  exact nizk_same_distribution (E := secqEnv sqrt hash) Koblitz.secp_consts.1 Koblitz.secp_consts.2.1
    (secqEnv_lawful hs hash) hnew hc hsz hg ⟨secq_cyclic _ h1, secq_cyclic _ h3, secq_cyclic _ h4⟩
    hsat hsat' tr rest rest' outcome

/-- The statement `v0 * v1 = 6` over ℚ has the witnesses `(2, 3)` and `(1, 6)`: the hypotheses are met
and the proofs are distributed alike. -/
example : ∃ I gens, Inst.new toyCodec 1 2 1 [(0, 0, [1])] [(0, 1, [1])] [(0, 3, [1])] = .ok (.ok I) ∧
    NIZKGens.new (⟨fun _ i => UInt8.ofNat i, fun b => (b.getD 0 0).toNat + 1⟩ : GenSrc ℚ) [1] 2 1 = .ok gens ∧
    ∃ φ : (Fin (proverDraws I) → ℚ) ≃ (Fin (proverDraws I) → ℚ), ∀ d rest rest',
      NIZK.prove (⟨id, some, fun _ => 5⟩ : Env ℚ ℚ ℚ) I [2, 3] [6] gens [] (Tape.pre d rest) =
        NIZK.prove (⟨id, some, fun _ => 5⟩ : Env ℚ ℚ ℚ) I [1, 6] [6] gens [] (Tape.pre (φ d) rest') := by
  obtain ⟨I, hI⟩ := (instance_new_ok_iff toyCodec 1 2 1 [(0, 0, [1])] [(0, 1, [1])] [(0, 3, [1])]).2
    (by decide)
  have hn : I.inst.numVars = 2 := by
    obtain ⟨-, -, -, rfl⟩ := new_ok_entries hI
    show varsPadded 2 1 = 2
    rw [varsPadded_eq]
    exact nextPow2_pow 1
  have hsat : ∀ a b : ℚ, a * b = 6 → I.isSat [a, b] [6] = .ok (.ok true) := by
    intro x y hxy
    obtain ⟨b, hb, hiff⟩ := padding_preserves_sat hI (vars := [x, y]) (inputs := [6]) (by rw [hn]; simp) rfl
    have hbt : b = true := hiff.2 (by
      intro i hi
      interval_cases i
      norm_num [rowDot, parsed, toyCodec, matEntry, zvec, fit, Finset.sum_range_succ,
        show UInt8.toNat 1 = 1 from rfl, hxy])
    subst hbt
    exact hb
  obtain ⟨gens, g0, h, hg, hw⟩ := r1csGens_wf
    (⟨fun _ i => UInt8.ofNat i, fun b => (b.getD 0 0).toNat + 1⟩ : GenSrc ℚ) (j := 1) (by norm_num) [1]
  have hg' : NIZKGens.new (⟨fun _ i => UInt8.ofNat i, fun b => (b.getD 0 0).toNat + 1⟩ : GenSrc ℚ) [1] 2 1 =
      .ok gens := by
    unfold NIZKGens.new
    rw [show varsPadded 2 1 = 2 ^ 1 by rw [varsPadded_eq]; exact nextPow2_pow 1]
    exact hg
  have hb : ∀ h : ℚ, h ≠ 0 → Function.Bijective fun s : ℚ => s • h := fun h hh =>
    mulRight_bijective₀ h hh
  have hp : ∀ b : List UInt8, ((b.getD 0 0).toNat : ℚ) + 1 ≠ 0 := fun b => by positivity
  refine ⟨I, gens, hI, hg', ?_⟩
  refine nizk_witness_indistinguishable (by norm_num) (by norm_num) (fun _ => rfl) hI le_rfl
    (by rw [hn]; norm_num) hg' ⟨hb _ ?_, hb _ ?_, hb _ ?_⟩ (hsat 2 3 (by norm_num)) (hsat 1 6 (by norm_num)) []
  all_goals
    unfold R1CSGens.new at hg
    rw [log2_pow, ok_bind] at hg
    obtain ⟨pc, hpc, hg⟩ := bind_ok hg
    cases hg
  · unfold polyCommitGens at hpc
    obtain ⟨n, -, hpc⟩ := bind_ok hpc
    unfold DotGens.new DotGens.ofGens at hpc
    obtain ⟨⟨gn, g1⟩, hsp, hpc⟩ := bind_ok hpc
    cases hpc
    unfold Gens.splitAt at hsp
    obtain ⟨-, -, hsp⟩ := bind_ok hsp
    cases hsp
    show (Gens.new _ _ _).h ≠ 0
    rw [(gens_new_shape _ _ _).2.2.2]; exact hp _
  · show (Gens.new _ _ _).h ≠ 0
    rw [(gens_new_shape _ _ _).2.2.2]; exact hp _
  · show (Gens.new _ _ _).h ≠ 0
    rw [(gens_new_shape _ _ _).2.2.2]; exact hp _

/-! ### The wasm interface -/

/-- C71 at the wasm interface.  Two witness files whose values satisfy the constraints: a bijection of the random scalars carries each run of `prove` on the one file to a run on the
other that returns the same bytes. -/
theorem wasm_witness_indistinguishable (h2 : (2 : F) ≠ 0) (h3 : (3 : F) ≠ 0) {W : WasmEnv F G P}
    (hE : W.env.Lawful) {r : CircomR1CS} (hr : Convertible W.codec r) (hc : r.constraints ≠ [])
    {numPub : Nat} {I : Inst F} (hI : convertToSpartan W.codec r numPub = .ok I)
    (hsz : I.inst.numVars ≤ 2 ^ 62) {circuit : List UInt8} (hcirc : W.decInst circuit = some I)
    {label : List UInt8} (hb : ∀ gens, NIZKGens.new W.src label r.numVariables numPub = .ok gens →
      BlindsSpan F gens)
    {pub : List UInt8} (hlen : numPub * 32 ≤ pub.length)
    (hcanon : ∀ b ∈ chunks pub numPub, (W.codec.fromBytes b).isSome)
    {version version' : Nat} {prime prime' : List UInt8} {ws ws' : List Nat}
    (hv : version ≤ 2) (hv' : version' ≤ 2) (hp : prime.length = 32) (hp' : prime'.length = 32) (hw : ws.length < 2 ^ 27)
    (hwl : ws.length = r.numVariables) (hwl' : ws'.length = r.numVariables)
    (hws : ∀ w ∈ ws, Readable w ∧ (W.codec.fromBytes (encField w)).isSome)
    (hws' : ∀ w ∈ ws', Readable w ∧ (W.codec.fromBytes (encField w)).isSome)
    (hsat : ConsHold (coefVal W.codec) (r.constraints.map toCon)
      (ws.map fun w => (W.codec.fromBytes (encField w)).getD 0))
    (hsat' : ConsHold (coefVal W.codec) (r.constraints.map toCon)
      (ws'.map fun w => (W.codec.fromBytes (encField w)).getD 0))
    (tr0 : Tr F P) :
    ∃ φ : (Fin (proverDraws I) → F) ≃ (Fin (proverDraws I) → F), ∀ d rest rest',
      wasmProve W label tr0 (Tape.pre d rest) circuit (encWtns version prime (32 * ws.length) ws) pub =
        wasmProve W label tr0 (Tape.pre (φ d) rest') circuit
          (encWtns version' prime' (32 * ws'.length) ws') pub := by
  obtain ⟨I', hI', hnew⟩ := convert_eq (numPub := numPub) hr
  rw [hI] at hI'
  cases hI'
  obtain ⟨hni, hnv⟩ : I.inst.numInputs = numPub ∧ I.inst.numVars = varsPadded r.numVariables numPub := by
    obtain ⟨-, -, -, rfl⟩ := new_ok_entries hnew
    exact ⟨rfl, rfl⟩
  obtain ⟨x, hx, hxl⟩ : ∃ x, assignmentU W.codec (chunks pub numPub) = .ok x ∧
      x.length = numPub := by
    rcases assignment_new_result W.codec (chunks pub numPub) with ⟨-, e⟩ | ⟨⟨v, hv, e⟩, -⟩
    · exact ⟨_, by rw [assignmentU, e], by simp [chunks]⟩
    · have := hcanon v hv
      rw [e] at this; cases this
  have key : ∀ {version : Nat} {prime : List UInt8} {ws : List Nat}, version ≤ 2 → prime.length = 32 → ws.length = r.numVariables → ws.length < 2 ^ 27 →
      (∀ w ∈ ws, Readable w ∧ (W.codec.fromBytes (encField w)).isSome) →
      ConsHold (coefVal W.codec) (r.constraints.map toCon)
        (ws.map fun w => (W.codec.fromBytes (encField w)).getD 0) →
      ∃ l vars, loadWitness (encWtns version prime (32 * ws.length) ws) = .ok l ∧
        assignmentU W.codec (l.map coreToRepr) = .ok vars ∧ I.isSat vars x = .ok (.ok true) := by
    intro version prime ws hv hp hwl hw hws hsat
    have hread : ∀ w ∈ ws, Readable w := by
      intro w hw
      obtain ⟨a, b⟩ := hws w hw
      exact a
    obtain ⟨l, hl, hlb⟩ := wtns_read_partial (rest := []) hv hp hw hread
    rw [List.append_nil] at hl
    obtain ⟨vars, hvars, hve⟩ : ∃ vars, assignmentU W.codec (l.map coreToRepr) = .ok vars ∧
        vars = ws.map fun w => (W.codec.fromBytes (encField w)).getD 0 := by
      rw [hlb]
      rcases assignment_new_result W.codec (ws.map encField) with ⟨-, e⟩ | ⟨⟨v, hv, e⟩, -⟩
      · exact ⟨_, by rw [assignmentU, e], by rw [List.map_map]; rfl⟩
      · rw [List.mem_map] at hv
        obtain ⟨w, hw, rfl⟩ := hv
        obtain ⟨a, b⟩ := hws w hw
        rw [e] at b; cases b
    refine ⟨l, vars, hl, hvars, ?_⟩
    obtain ⟨b, hb, hiff⟩ := convert_sat_iff hr hI (vars := vars) (by rw [hve, List.length_map, hwl]) hxl
    rw [hiff.mpr] at hb
    · exact hb
    · rw [hve]; exact hsat
  obtain ⟨l1, v1, e1, f1, s1⟩ := key hv hp hwl hw hws hsat
  obtain ⟨l2, v2, e2, f2, s2⟩ := key hv' hp' hwl' (by rw [hwl', ← hwl]; exact hw) hws' hsat'
  obtain ⟨gens, hg, -⟩ := nizk_complete h2 h3 hE hnew (List.length_pos_iff.mpr hc) hsz W.src label s1 tr0
    (fun _ => 0)
  have hg' : NIZKGens.new W.src label I.inst.numVars I.inst.numInputs = .ok gens := by
    rw [hni, hnv, ← hg]
    unfold NIZKGens.new
    rw [varsPadded_idem]
  have hs : inputSlices pub I.inst.numInputs = .ok (chunks pub numPub) := by
    rw [hni, inputSlices, if_pos hlen]; rfl
  obtain ⟨φ, hφ⟩ := nizk_witness_indistinguishable h2 h3 hE hnew (List.length_pos_iff.mpr hc) hsz hg
    (hb gens hg) s1 s2 tr0
  refine ⟨φ, fun d t t' => ?_⟩
  unfold wasmProve
  rw [e1, e2]
  simp only [f1, f2, hcirc, hg', hs, hx, hφ d t t', ok_bind]

/-- C71, simulation.  For a converted circuit the all-zero assignment satisfies the constraints for
any inputs (C62), so a proof from a real witness is distributed like the output of an algorithm that
knows only the circuit and the public inputs. -/
theorem nizk_converted_simulated (h2 : (2 : F) ≠ 0) (h3 : (3 : F) ≠ 0) {E : Env F G P}
    (hE : E.Lawful) {K : Codec F} {r : CircomR1CS} (hr : Convertible K r) (hc : r.constraints ≠ [])
    {numPub : Nat} {I : Inst F} (hI : convertToSpartan K r numPub = .ok I)
    (hsz : I.inst.numVars ≤ 2 ^ 62) {S : GenSrc G} {label : List UInt8} {gens : R1CSGens G}
    (hg : NIZKGens.new S label r.numVariables numPub = .ok gens) (hb : BlindsSpan F gens)
    {vars inputs : List F} (hsat : I.isSat vars inputs = .ok (.ok true)) (tr : Tr F P) :
    ∃ φ : (Fin (proverDraws I) → F) ≃ (Fin (proverDraws I) → F), ∀ d rest rest',
      NIZK.prove E I vars inputs gens tr (Tape.pre d rest) =
        NIZK.prove E I (List.replicate r.numVariables 0) inputs gens tr (Tape.pre (φ d) rest') := by
  obtain ⟨I', hI', hnew⟩ := convert_eq (numPub := numPub) hr
  rw [hI] at hI'
  cases hI'
  have hxl : inputs.length = numPub := by
    obtain ⟨k, j, hwf⟩ : ∃ k j, I.inst.WF k j := by
      obtain ⟨hA, hB, hC, rfl⟩ := new_ok_entries hnew
      obtain ⟨k, j, hwf, -⟩ := builtR1CS_wf hA hB hC
      exact ⟨k, j, hwf⟩
    exact (inst_sat_core hnew hsat hwf).2.2.2.1
  exact nizk_witness_indistinguishable h2 h3 hE hnew (List.length_pos_iff.mpr hc) hsz hg hb hsat
    (convert_zero_satisfies hr hI hxl) tr

end Spartan
