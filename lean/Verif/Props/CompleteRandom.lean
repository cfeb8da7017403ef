import Verif.Lemmas.FoldCount
import Verif.Props.Run
import Verif.Props.MachineSound

/-!
C132: how often an honest proof fails.

C124 reduces completeness to the absence of zero folding challenges.  Here that condition is discharged for
all but a tiny fraction of the hash functions.  As in C87, a hash function is a map `H` to a finite set `W`
of outputs, which `red` reduces to scalars; it is drawn on a finite set `D` of inputs that contains those
of the run, and is arbitrary elsewhere.
-/

set_option linter.unusedSectionVars false
set_option exponentiation.threshold 2000

namespace Spartan
open Spec

section
variable {F G P W : Type} [Field F] [AddCommGroup G] [Module F G]
  [DecidableEq F] [DecidableEq P] [DecidableEq G] [Fintype W] [Nonempty W]

/-! ### Lemmas -/

theorem nonzeroFold_agree {h h' : Tr F P → F} {T : Tr F P} (hag : Agree T h h') :
    Agree T (nonzeroFold h) (nonzeroFold h') := by
  intro t l ht
  rw [nonzeroFold_chal, nonzeroFold_chal, hag t l ht]

theorem folds_eq_zero {tr : Tr F P} (h : ∀ m ∈ tr, m ≠ .chal "u") : folds tr = 0 := by
  refine List.countP_eq_zero.2 fun m hm e => h m hm ?_
  cases m <;> simp_all [isFold]

/-- A run with at most `N` folding challenges whose result depends on the hash only through its own
challenges, and which is accepted unless one of the folding challenges is zero. -/
theorem run_random {X : Type} {red : W → F} {c : Nat} (hc : Fibres red c) (N : Nat)
    (run : (Tr F P → F) → Out (X × Tr F P)) (Acc : (Tr F P → F) → Prop)
    (hok : ∀ h, ∃ x T, run (nonzeroFold h) = .ok (x, T) ∧ folds T ≤ N ∧ (NoZeroFold h T → Acc h))
    (hloc : ∀ h h' x T, run h' = .ok (x, T) → Agree T h h' → run h = .ok (x, T)) :
    ∃ D₀ : Finset (Tr F P), ∀ D, D₀ ⊆ D →
      Set.ncard {h : D → W | ∃ H : Tr F P → W, (∀ t : D, H t = h t) ∧ ¬ Acc fun t => red (H t)} *
        Fintype.card W ≤ N * c * Fintype.card W ^ D.card := by
  choose x T hrun hT hacc using hok
  obtain ⟨Z, hZ, hmem⟩ := hc 0
  obtain ⟨D₀, hD⟩ := fold_count (fun H : Tr F P → W => T fun t => red (H t)) N Z (by
    intro H H' hag
    have h1 := hrun fun t => red (H t)
    have hA : Agree (T fun t => red (H t)) (fun t => red (H t)) (fun t => red (H' t)) := fun t l ht => by
      simp only [hag t l ht]
    have h2 := hloc (nonzeroFold fun t => red (H' t)) _ _ _ h1 fun t l ht => (nonzeroFold_agree hA t l ht).symm
    rw [hrun fun t => red (H' t)] at h2
    injection h2 with h2
    exact congrArg Prod.snd h2) (fun H => hT _)
  refine ⟨D₀, fun D hsub => le_trans (Nat.mul_le_mul_right _ ?_) ((hD D hsub).trans
    (Nat.mul_le_mul_right _ (Nat.mul_le_mul_left _ hZ)))⟩
  refine Set.ncard_le_ncard ?_ (Set.toFinite _)
  rintro h ⟨H, hH, hn⟩
  refine ⟨H, hH, ?_⟩
  by_contra hno
  refine hn (hacc _ fun t ht e => hno ⟨t, ht, hmem _ e⟩)

/-! ### C132 -/

/-- C132 for the NIZK.  For every instance, satisfying assignment and random tape of the prover, the prover fails,
or the verifier rejects its proof, for at most a fraction `31 c / |W|` of all hash functions, whatever the size
of the instance. -/
theorem nizk_complete_random (h2 : (2 : F) ≠ 0) (h3 : (3 : F) ≠ 0) {E : Env F G P} (hE : E.Lawful)
    {K : Codec F} {nc nv ni : Nat} {A B C : List (Nat × Nat × List UInt8)} {I : Inst F}
    (hnew : Inst.new K nc nv ni A B C = .ok (.ok I)) (hc : 1 ≤ nc) (hsz : I.inst.numVars ≤ 2 ^ 62)
    (S : GenSrc G) (label : List UInt8) {vars inputs : List F}
    (hsat : I.isSat vars inputs = .ok (.ok true)) {tr : Tr F P} (htr : ∀ m ∈ tr, m ≠ .chal "u") (tape : Tape F)
    {red : W → F} {c : Nat} (hred : Fibres red c) :
    ∃ gens, NIZKGens.new S label nv ni = .ok gens ∧ ∃ D₀ : Finset (Tr F P), ∀ D, D₀ ⊆ D →
      Set.ncard {h : D → W | ∃ H : Tr F P → W, (∀ t : D, H t = h t) ∧
        ¬ ∃ pf T, NIZK.prove (E.withHash fun t => red (H t)) I vars inputs gens tr tape = .ok (pf, T) ∧
          NIZK.verify (E.withHash fun t => red (H t)) pf I inputs gens tr = .ok T} * Fintype.card W ≤
        31 * c * Fintype.card W ^ D.card := by
  obtain ⟨gens, -, -, hg, -⟩ := nizk_complete_run h2 h3 hE hnew hc hsz S label hsat tr tape
  refine ⟨gens, hg, run_random hred 31 (fun h => NIZK.prove (E.withHash h) I vars inputs gens tr tape)
    (fun h => ∃ pf T, NIZK.prove (E.withHash h) I vars inputs gens tr tape = .ok (pf, T) ∧
      NIZK.verify (E.withHash h) pf I inputs gens tr = .ok T) (fun h => ?_) (fun h h' pf T hp hag => ?_)⟩
  · obtain ⟨gens', pf, T, hg', hp, hv⟩ := nizk_complete_nonzero h2 h3 (hE.withHash (nonzeroFold h))
      (nonzeroFold_ne h) hnew hc hsz S label hsat tr tape
    obtain rfl : gens = gens' := by rw [hg] at hg'; injection hg'
    refine ⟨pf, T, hp, ?_, fun hz => ⟨pf, T, ?_, ?_⟩⟩
    · have := nizkV_cnt pf I inputs gens tr T hv
      rw [folds_eq_zero htr] at this
      simpa using this
    · exact (nizk_run_local (E := E.withHash h).1 pf T hp).2 (agree_of_noZero hz)
    · exact ((nizk_run_local (E := E.withHash h) (vars := vars) (tape := tape)).2 pf T hv).2 (agree_of_noZero hz)
  · exact (nizk_run_local (E := E.withHash h).1 pf T hp).2 hag

/-- C132 for the SNARK, under the size conditions of C44: the fraction is at most `124 c / |W|`. -/
theorem snark_complete_random (h2 : (2 : F) ≠ 0) (h3 : (3 : F) ≠ 0) {E : Env F G P} (hE : E.Lawful)
    {K : Codec F} {nc nv ni nz : Nat} {A B C : List (Nat × Nat × List UInt8)} {I : Inst F}
    (hnew : Inst.new K nc nv ni A B C = .ok (.ok I)) (hc : 1 ≤ nc)
    (hnz : nextPow2 nz = nextPow2 (max (max I.inst.A.M.length I.inst.B.M.length) I.inst.C.M.length))
    (hnz2 : 2 ≤ nextPow2 nz) (hnz58 : nextPow2 nz ≤ 2 ^ 58) (hsc : I.inst.numCons ≤ 2 ^ 61)
    (hsv : I.inst.numVars ≤ 2 ^ 60) (S : GenSrc G) (ls le : List UInt8) {vars inputs : List F}
    (hsat : I.isSat vars inputs = .ok (.ok true)) {tr : Tr F P} (htr : ∀ m ∈ tr, m ≠ .chal "u") (tape : Tape F)
    {red : W → F} {c : Nat} (hred : Fibres red c) :
    ∃ gens comm decomm, SNARKGens.new S ls le nc nv ni nz = .ok gens ∧
      SNARK.encode E I gens = .ok (comm, decomm) ∧ ∃ D₀ : Finset (Tr F P), ∀ D, D₀ ⊆ D →
      Set.ncard {h : D → W | ∃ H : Tr F P → W, (∀ t : D, H t = h t) ∧
        ¬ ∃ pf T, SNARK.prove (E.withHash fun t => red (H t)) I comm decomm vars inputs gens tr tape = .ok (pf, T) ∧
          SNARK.verify (E.withHash fun t => red (H t)) pf comm inputs gens tr = .ok T} * Fintype.card W ≤
        124 * c * Fintype.card W ^ D.card := by
  obtain ⟨gens, comm, decomm, -, -, hg, he, -⟩ :=
    snark_complete_run h2 h3 hE hnew hc hnz hnz2 hnz58 hsc hsv S ls le hsat tr tape
  refine ⟨gens, comm, decomm, hg, he, run_random hred 124
    (fun h => SNARK.prove (E.withHash h) I comm decomm vars inputs gens tr tape)
    (fun h => ∃ pf T, SNARK.prove (E.withHash h) I comm decomm vars inputs gens tr tape = .ok (pf, T) ∧
      SNARK.verify (E.withHash h) pf comm inputs gens tr = .ok T) (fun h => ?_) (fun h h' pf T hp hag => ?_)⟩
  · obtain ⟨gens', comm', decomm', pf, T, hg', he', hp, hv⟩ := snark_complete_partial h2 h3 (hE.withHash (nonzeroFold h))
      (nonzeroFold_ne h) hnew hc hnz hnz2 hnz58 hsc hsv S ls le hsat tr tape
    obtain rfl : gens = gens' := by rw [hg] at hg'; injection hg'
    have he'' : SNARK.encode E I gens = .ok (comm', decomm') := he'
    rw [he] at he''
    injection he'' with he''
    injection he'' with e1 e2
    subst e1 e2
    refine ⟨pf, T, hp, ?_, fun hz => ⟨pf, T, ?_, ?_⟩⟩
    · have := snarkV_cnt pf comm inputs gens tr T hv
      rw [folds_eq_zero htr] at this
      simpa using this
    · exact (snarkProve_local (E := E.withHash h) (agree_of_noZero hz) _ _ _ _ _ _ _ _ _ hp).2 List.prefix_rfl
    · exact (snarkV_local (E := E.withHash h) (agree_of_noZero hz) _ _ _ _ _ _ hv).2 List.prefix_rfl
  · exact (snarkProve_local (E := E.withHash h) hag _ _ _ _ _ _ _ _ _ hp).2 List.prefix_rfl

/-- The hypotheses hold of the instance `v0 * v1 = x` over ℚ with `v = (2, 3)`, `x = 6` and a hash with 100 outputs, and
the fraction is below one: some hash function makes the proof acceptable. -/
example : ∃ (H : Tr ℚ ℚ → Fin 100) (I : Inst ℚ) (gens : R1CSGens ℚ) (pf : NIZK ℚ ℚ) (T : Tr ℚ ℚ),
    Inst.new toyCodec 1 2 1 [(0, 0, [1])] [(0, 1, [1])] [(0, 3, [1])] = .ok (.ok I) ∧
    NIZK.prove ((⟨id, some, fun _ => 0⟩ : Env ℚ ℚ ℚ).withHash fun t => ((H t).val : ℚ)) I [2, 3] [6] gens [] (fun i => i) =
      .ok (pf, T) ∧
    NIZK.verify ((⟨id, some, fun _ => 0⟩ : Env ℚ ℚ ℚ).withHash fun t => ((H t).val : ℚ)) pf I [6] gens [] = .ok T := by
  obtain ⟨I, hI⟩ := (instance_new_ok_iff toyCodec 1 2 1 [(0, 0, [1])] [(0, 1, [1])] [(0, 3, [1])]).2
    (by decide)
  have hn : I.inst.numVars = 2 := by
    obtain ⟨-, -, -, rfl⟩ := new_ok_entries hI
    show varsPadded 2 1 = 2
    rw [varsPadded_eq]
    exact nextPow2_pow 1
  obtain ⟨b, hb, hiff⟩ := padding_preserves_sat hI (vars := [2, 3]) (inputs := [6]) (by rw [hn]; simp) rfl
  have hbt : b = true := hiff.2 (by
    intro i hi
    interval_cases i
    norm_num [rowDot, parsed, toyCodec, matEntry, zvec, fit, Finset.sum_range_succ,
      show UInt8.toNat 1 = 1 from rfl])
  subst hbt
  obtain ⟨gens, -, D, hD⟩ := nizk_complete_random (W := Fin 100) (red := fun w => (w.val : ℚ)) (c := 1)
    (E := (⟨id, some, fun _ => 0⟩ : Env ℚ ℚ ℚ)) (tr := [])
    (by norm_num) (by norm_num) (fun _ => rfl) hI le_rfl (by rw [hn]; norm_num)
    ⟨fun _ i => UInt8.ofNat i, fun b => (b.getD 0 0).toNat⟩ [1] hb (by simp) (fun i => i) (fun x => by
      by_cases hx : ∃ w : Fin 100, (w.val : ℚ) = x
      · obtain ⟨w, hw⟩ := hx
        refine ⟨{w}, by simp, fun w' h => ?_⟩
        rw [Finset.mem_singleton]
        have h3 : (w'.val : ℚ) = (w.val : ℚ) := h.trans hw.symm
        exact Fin.ext (by exact_mod_cast h3)
      · exact ⟨∅, by simp, fun w h => absurd ⟨w, h⟩ hx⟩)
  have h := hD D subset_rfl
  rw [Fintype.card_fin] at h
  set B := {h : D → Fin 100 | ∃ H : Tr ℚ ℚ → Fin 100, (∀ t : D, H t = h t) ∧
    ¬ ∃ pf T, NIZK.prove ((⟨id, some, fun _ => 0⟩ : Env ℚ ℚ ℚ).withHash fun t => ((H t).val : ℚ)) I [2, 3] [6] gens []
      (fun i => i) = .ok (pf, T) ∧
      NIZK.verify ((⟨id, some, fun _ => 0⟩ : Env ℚ ℚ ℚ).withHash fun t => ((H t).val : ℚ)) pf I [6] gens [] = .ok T}
    with hB
  obtain ⟨g, hg⟩ : ∃ g, g ∉ B := by
    by_contra hall
    push Not at hall
    have hu : B = Set.univ := Set.eq_univ_of_forall hall
    rw [hu, Set.ncard_univ, Nat.card_eq_fintype_card, Fintype.card_fun, Fintype.card_fin, Fintype.card_coe] at h
    have : 0 < 100 ^ D.card := by positivity
    omega
  classical
  by_contra hno
  refine hg ⟨fun t => if ht : t ∈ D then g ⟨t, ht⟩ else 0, fun t => by simp, ?_⟩
  rintro ⟨pf, T, h1, h2⟩
  exact hno ⟨_, I, gens, pf, T, hI, h1, h2⟩

end

/-! ### On the data of the program -/

namespace Mach
open MParams Pt
attribute [local irreducible] secpP challengeValue scalarOf

theorem random_arith {n N X b : Nat} (hN : N * 2 ^ 257 * 2 ^ b ≤ 2 ^ 512)
    (h : n * Nat.card Bytes64 ≤ N * (2 ^ 512 / secpP + 1) * X) : n * 2 ^ b ≤ X := by
  rw [card_bytes64] at h
  have hp : 2 ^ 512 / secpP + 1 ≤ 2 ^ 257 := by
    unfold secpP
    decide +kernel
  generalize 2 ^ 512 / secpP + 1 = c at h hp
  have h1 : n * (N * 2 ^ 257 * 2 ^ b) ≤ N * 2 ^ 257 * X :=
    (Nat.mul_le_mul_left n hN).trans (h.trans (Nat.mul_le_mul_right X (Nat.mul_le_mul_left N hp)))
  rcases Nat.eq_zero_or_pos N with rfl | hpos
  · simp only [Nat.zero_mul, Nat.le_zero_eq, Nat.mul_eq_zero] at h
    rcases h with rfl | h
    · simp
    · exact absurd h (pow_ne_zero _ two_ne_zero)
  · refine le_of_mul_le_mul_left (a := N * 2 ^ 257) ?_ (Nat.mul_pos hpos (pow_pos two_pos _))
    calc N * 2 ^ 257 * (n * 2 ^ b) = n * (N * 2 ^ 257 * 2 ^ b) := by ring
      _ ≤ _ := h1

/-- C132 for `NIZK::prove` and `NIZK::verify` on the limbs and points of the program: a proof of a satisfying
assignment is made and accepted for all but a fraction of `2^-250` of the hash functions. -/
theorem machine_nizk_complete_random (f : Formulas) (name : String) {digest : R1CS Sc → List UInt8} {nc nv ni : Nat}
    {A B C : List (Nat × Nat × List UInt8)} {I : Inst Sc}
    (hnew : Inst.new (codec digest) nc nv ni A B C = .ok (.ok I)) (hc : 1 ≤ nc) (hsz : I.inst.numVars ≤ 2 ^ 62)
    (label : List UInt8) {vars inputs : List Sc} (hsat : I.isSat vars inputs = .ok (.ok true)) (tape : Tape Sc) :
    ∃ gens, NIZKGens.new (src f) label nv ni = .ok gens ∧ ∃ D₀ : Finset (Tr Sc EncPt), ∀ D, D₀ ⊆ D →
      Set.ncard {h : D → Bytes64 | ∃ H : Tr Sc EncPt → Bytes64, (∀ t : D, H t = h t) ∧
        ¬ ∃ pf T, NIZK.prove ((env f name).withHash fun t => scalarOf (H t)) I vars inputs gens [] tape = .ok (pf, T) ∧
          NIZK.verify ((env f name).withHash fun t => scalarOf (H t)) pf I inputs gens [] = .ok T} * 2 ^ 250 ≤
        Nat.card Bytes64 ^ D.card := by
  have : Fintype Bytes64 := Fintype.ofFinite _
  obtain ⟨gens, hg, D₀, h⟩ := nizk_complete_random two_ne three_ne (machine_encodings (f := f) name).2.2 hnew hc hsz
    (src f) label hsat (tr := []) (by simp) tape scalarOf_fibres
  refine ⟨gens, hg, D₀, fun D hD => random_arith (N := 31) (by norm_num) ?_⟩
  have := h D hD
  rw [← Nat.card_eq_fintype_card] at this
  exact this

/-- C132 for the SNARK on the limbs and points of the program: the fraction is at most `2^-248`. -/
theorem machine_snark_complete_random (f : Formulas) (name : String)
    {digest : R1CS Sc → List UInt8} {nc nv ni nz : Nat} {A B C : List (Nat × Nat × List UInt8)} {I : Inst Sc}
    (hnew : Inst.new (codec digest) nc nv ni A B C = .ok (.ok I)) (hc : 1 ≤ nc)
    (hnz : nextPow2 nz = nextPow2 (max (max I.inst.A.M.length I.inst.B.M.length) I.inst.C.M.length))
    (hnz2 : 2 ≤ nextPow2 nz) (hnz58 : nextPow2 nz ≤ 2 ^ 58) (hsc : I.inst.numCons ≤ 2 ^ 61)
    (hsv : I.inst.numVars ≤ 2 ^ 60) (ls le : List UInt8) {vars inputs : List Sc}
    (hsat : I.isSat vars inputs = .ok (.ok true)) (tape : Tape Sc) :
    ∃ gens comm decomm, SNARKGens.new (src f) ls le nc nv ni nz = .ok gens ∧
      SNARK.encode (env f name) I gens = .ok (comm, decomm) ∧ ∃ D₀ : Finset (Tr Sc EncPt), ∀ D, D₀ ⊆ D →
      Set.ncard {h : D → Bytes64 | ∃ H : Tr Sc EncPt → Bytes64, (∀ t : D, H t = h t) ∧
        ¬ ∃ pf T, SNARK.prove ((env f name).withHash fun t => scalarOf (H t)) I comm decomm vars inputs gens [] tape =
            .ok (pf, T) ∧
          SNARK.verify ((env f name).withHash fun t => scalarOf (H t)) pf comm inputs gens [] = .ok T} * 2 ^ 248 ≤
        Nat.card Bytes64 ^ D.card := by
  have : Fintype Bytes64 := Fintype.ofFinite _
  obtain ⟨gens, comm, decomm, hg, he, D₀, h⟩ := snark_complete_random two_ne three_ne
    (machine_encodings (f := f) name).2.2 hnew hc hnz hnz2 hnz58 hsc hsv (src f) ls le hsat (tr := []) (by simp) tape
    scalarOf_fibres
  refine ⟨gens, comm, decomm, hg, he, D₀, fun D hD => random_arith (N := 124) (by norm_num) ?_⟩
  have := h D hD
  rw [← Nat.card_eq_fintype_card] at this
  exact this

end Mach

end Spartan
