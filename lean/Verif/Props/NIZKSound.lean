import Verif.Lemmas.RBRMain
import Verif.Spec.Extract
import Verif.Props.Hiding

/-! C38, C72: what acceptance by `NIZK::verify` proves about the prover. -/

set_option linter.unusedSectionVars false

namespace Spartan
open Spec
variable {F G P : Type} [Field F] [AddCommGroup G] [Module F G]
  [DecidableEq F] [DecidableEq P] [DecidableEq G]

/-! ### coordinates -/

/-- The first `n` coefficients. -/
def firstCo (j n : Nat) (h : n ≤ numGens j) : Comb F j →ₗ[F] (Fin n → F) :=
  LinearMap.funLeft F F (Fin.castLE h)

theorem unit_eval (j : Nat) (s : Nat → G) {i : Nat} (h : i < numGens j) :
    evalComb j s (unit F j i) = s i := by
  show ∑ t, (unit F j i t) • s t = s i
  rw [Finset.sum_eq_single (⟨i, h⟩ : Fin (numGens j))]
  · simp [unit]
  · intro b _ hb
    have : (b : ℕ) ≠ i := fun e => hb (Fin.ext e)
    simp [unit, this]
  · simp

theorem lc_units_apply {j n : Nat} {z : List F} (hz : z.length = n) (t : Fin (numGens j)) :
    lc z ((List.range n).map (unit F j)) t = z.getD t 0 := by
  rw [lc_sum_range _ _ (by simp [hz]), hz, Finset.sum_apply]
  by_cases ht : (t : ℕ) < n
  · rw [Finset.sum_eq_single (t : ℕ)]
    · simp [unit, List.getD_eq_getElem?_getD, ht]
    · intro b hb hne
      have hb := Finset.mem_range.1 hb
      simp [unit, List.getD_eq_getElem?_getD, hb, Ne.symm hne]
    · intro h; exact absurd (Finset.mem_range.2 ht) h
  · rw [List.getD_eq_default _ _ (by omega), Finset.sum_eq_zero]
    intro b hb
    have hb := Finset.mem_range.1 hb
    have : (t : ℕ) ≠ b := by omega
    simp [unit, List.getD_eq_getElem?_getD, hb, this]

theorem co_firstCo {j n : Nat} (h : n ≤ numGens j) (m : Comb F j) :
    co (firstCo j n h) m = (List.range n).map (coeff m) := by
  unfold co
  apply List.ext_getElem (by simp)
  intro i h1 h2
  have hi : i < n := by simpa using h1
  simp [firstCo, coeff, LinearMap.funLeft_apply, lt_of_lt_of_le hi h]

theorem firstCo_units {j n : Nat} (h : n ≤ numGens j) {z : List F} (hz : z.length = n) (t : F) {b : Nat}
    (hb : n ≤ b) : co (firstCo j n h) (lc z ((List.range n).map (unit F j)) + t • unit F j b) = z := by
  rw [co_firstCo]
  apply List.ext_getElem (by simp [hz])
  intro i h1 h2
  have hi : i < n := by simpa using h1
  have : i ≠ b := by omega
  simp [coeff, lt_of_lt_of_le hi h, lc_units_apply hz, unit, this, List.getD_eq_getElem?_getD, h2]

theorem width_lt (j : Nat) : width j + 1 < numGens j := by unfold numGens; omega

theorem five_le (j : Nat) : 5 ≤ numGens j := le_max_right _ _

/-- Coefficient of the generator of values. -/
def valCo (j : Nat) : Comb F j →ₗ[F] F := LinearMap.proj ⟨width j, by have := width_lt j; omega⟩

theorem readsPc (j : Nat) : ReadsPc (valCo (F := F) j) (firstCo j (width j) (by have := width_lt j; omega))
    (unit F j (width j)) (unit F j (width j + 1)) (formalGens F j).pc.gensn.G := by
  have hz : ∀ b, width j ≤ b → firstCo (F := F) j (width j) (by have := width_lt j; omega) (unit F j b) = 0 := by
    intro b hb
    funext i
    have : (i : ℕ) ≠ b := by have := i.2; omega
    simp [firstCo, LinearMap.funLeft_apply, unit, this]
  refine ⟨by simp [valCo, unit], by simp [valCo, unit], fun z => ?_, hz _ le_rfl, hz _ (by omega), fun z hl => ?_⟩
  · rw [map_lc]
    have : ∀ z : List F, ∀ l : List Nat, (∀ i ∈ l, i < width j) →
        lc z ((l.map (unit F j)).map (valCo j)) = 0 := by
      intro z
      induction z with
      | nil => intro l _; simp
      | cons a z ih =>
        intro l hl
        cases l with
        | nil => simp
        | cons i l =>
          have h1 : width j ≠ i := by have := hl i (by simp); omega
          have h2 : valCo j (unit F j i) = 0 := by simp [valCo, unit, h1]
          rw [List.map_cons, List.map_cons, lc_cons, h2, smul_zero, zero_add]
          exact ih l fun i hi => hl i (by simp [hi])
    exact this z _ (by simp)
  · have := firstCo_units (F := F) (j := j) (n := width j) (by have := width_lt j; omega) hl 0 (b := width j) le_rfl
    rw [zero_smul, add_zero] at this
    exact this

theorem reads_basis (j n : Nat) (h : n ≤ 4) :
    ReadsBasis (firstCo (F := F) j n (by have := five_le j; omega)) (formalBasis F j n) := fun z t hz =>
  firstCo_units _ hz t le_rfl

theorem gens_new_map (S : GenSrc G) (label : List UInt8) (j n : Nat) (hn : n < numGens j) :
    (Gens.new S n label).G = (formalBasis F j n).G.map (evalComb j (stream S label)) ∧
    (Gens.new S n label).h = evalComb j (stream S label) (formalBasis F j n).h := by
  constructor
  · apply List.ext_getElem (by simp [Gens.new, GenSrc.points, formalBasis])
    intro i h1 h2
    have hi : i < n := by simpa [formalBasis] using h2
    simp only [Gens.new, GenSrc.points, formalBasis, List.getElem_take, List.getElem_map, List.getElem_range]
    rw [unit_eval _ _ (by omega)]; rfl
  · rw [formalBasis, unit_eval _ _ hn, (gens_new_shape S n label).2.2.2]; rfl

/-- The generators of `R1CSGens::new` in the formal layout. -/
theorem r1csGens_formal {S : GenSrc G} {j : Nat} (hj : j ≤ 62) {label : List UInt8} {gens : R1CSGens G}
    (h : R1CSGens.new S label (2 ^ j) = .ok gens) :
    gens.WF j (evalComb j (stream S label) (unit F j (width j)))
        (evalComb j (stream S label) (unit F j (width j + 1))) ∧
      gens.gens3 = Gens.new S 3 label ∧ gens.gens4 = Gens.new S 4 label ∧
      gens.pc.gensn.G = (formalGens F j).pc.gensn.G.map (evalComb j (stream S label)) := by
  obtain ⟨dg, g0, h0, e1, e2, e3, e4⟩ := polyCommitGens_wf S (ell := j) (by omega) label
  unfold R1CSGens.new at h
  rw [log2_pow, ok_bind, e1, ok_bind] at h
  cases h
  have w := fun n => gens_new_shape S n label
  have hwl := width_lt j
  obtain ⟨q1, q2⟩ := gens_new_map (F := F) S label j (width j + 1) hwl
  have hr : (formalBasis F j (width j + 1)).G = (formalGens F j).pc.gensn.G ++ [unit F j (width j)] := by
    simp [formalBasis, formalGens, List.range_succ]
  rw [show 2 ^ (j - j / 2) = width j from rfl] at e3 e4
  rw [q1, hr, List.map_append] at e3
  obtain ⟨a1, a2⟩ := List.append_inj' e3 rfl
  rw [q2] at e4
  obtain rfl : g0 = _ := by simpa using a2
  subst e4
  exact ⟨⟨e2.g1, ⟨by unfold Gens.WF; rw [(w 3).1, (w 3).2.1], (w 3).1⟩,
      ⟨by unfold Gens.WF; rw [(w 4).1, (w 4).2.1], (w 4).1⟩, e2⟩, rfl, rfl, a1⟩

theorem extracted_eq {j : Nat} (rep : P → Comb F j) (C : List P) :
    extracted j rep C = extractVars (firstCo j (width j) (by have := width_lt j; omega)) (2 ^ (j / 2))
      (C.map rep) := by
  unfold extracted extractVars
  rw [← List.map_take, List.flatMap_map]
  congr 1
  funext c
  rw [co_firstCo]

/-- A satisfying padded assignment makes `is_sat` answer `true`. -/
theorem inst_isSat_of_sat {I : Inst F} {k j : Nat} (hwf : I.inst.WF k j) {vars inputs : List F}
    (hv : vars.length = 2 ^ j) (hi : inputs.length = I.inst.numInputs)
    (hs : Sat I.inst.A.triples I.inst.B.triples I.inst.C.triples (2 ^ k) (zpad vars inputs)) :
    I.isSat vars inputs = .ok (.ok true) := by
  rw [hwf.sat_zpad hv hi] at hs
  obtain ⟨b, hb, hbs⟩ := r1cs_isSat_eq (I := I.inst) (vars := vars) (input := inputs)
    (by rw [hv, hwf.vars]) hi
    (by rw [hwf.cons, hwf.vars]; exact hwf.A) (by rw [hwf.cons, hwf.vars]; exact hwf.B)
    (by rw [hwf.cons, hwf.vars]; exact hwf.C)
  rw [hwf.cons] at hbs
  have hbt := hbs.2 hs
  unfold Inst.isSat
  rw [if_neg (by rw [hv, hwf.vars]; omega), if_neg (by simp [hi]), padVars_eq (by rw [hv, hwf.vars]), ok_bind,
    show fit I.inst.numVars vars = vars by rw [fit, hwf.vars, ← hv]; simp, hb, hbt]
  rfl

/-- The number of challenges of a proof, in terms of the instance. -/
theorem r1csRounds_eq (k j : Nat) : r1csRounds k j = 5 * k + 4 * j + (j - j / 2) + 13 := by
  unfold r1csRounds; omega

/-- C38/C72 for well-formed instances. -/
theorem nizk_rbr {I : Inst F} {k j : Nat} (hI : I.inst.WF k j) (hj : j ≤ 62) {E : Env F G P}
    (hE : E.Lawful) {S : GenSrc G} {label : List UInt8} {gens : R1CSGens G}
    (hg : R1CSGens.new S label (2 ^ j) = .ok gens) {rep : P → Comb F j}
    (hrep : IsRep E rep (evalComb j (stream S label))) {pf : NIZK F P}
    (hlen : pf.sat.evalVars.bullet.L.length = pf.sat.evalVars.bullet.R.length) {input : List F}
    {tr tr' : Tr F P} (hok : NIZK.verify E pf I input gens tr = .ok tr') :
    ∃ es, nizkRels E rep (evalComb j (stream S label)) gens (formalGens F j) (unit F j (width j))
        (unit F j (width j + 1)) pf I input tr = .ok es ∧
      ((∃ e ∈ es, e ≠ 0 ∧ evalComb j (stream S label) e = 0) ∨
        I.isSat (extracted j rep pf.sat.commVars) input = .ok (.ok true) ∨
        ∃ ms, tr' = tr ++ ms ∧ (rounds E.hash rep tr [] ms).1.length = r1csRounds k j ∧
          Hit (r1csBad I.inst k j 0 (valCo j) (firstCo j (width j) (by have := width_lt j; omega))
            (firstCo j 3 (by have := five_le j; omega)) (firstCo j 4 (by have := five_le j; omega)))
            (rounds E.hash rep tr [] ms).1) := by
  obtain ⟨w1, w3, w4, wp⟩ := r1csGens_formal (F := F) hj hg
  obtain ⟨q3, q3'⟩ := gens_new_map (F := F) S label j 3 (by have := five_le j; omega)
  obtain ⟨q4, q4'⟩ := gens_new_map (F := F) S label j 4 (by have := five_le j; omega)
  rw [← w3] at q3 q3'
  rw [← w4] at q4 q4'
  unfold NIZK.verify at hok
  unfold nizkRels
  simp only at hok ⊢
  obtain ⟨evals, hev, hok⟩ := bind_ok hok
  rw [hev, ok_bind]
  obtain ⟨_, hi, hok⟩ := bind_ok hok
  have hi := check_ok hi
  obtain ⟨⟨rx, ry, tr1⟩, hv, hok⟩ := bind_ok hok
  obtain ⟨_, hrx, hok⟩ := bind_ok hok
  obtain ⟨_, hry, hok⟩ := bind_ok hok
  simp only [pure, Except.pure, Except.ok.injEq] at hok hrx hry
  have hrx := check_ok hrx
  have hry := check_ok hry
  subst hok
  rw [← hrx, ← hry] at hev
  obtain ⟨es, hes⟩ := r1csRels_ok (rep := rep) (π := evalComb j (stream S label)) (gm := formalGens F j)
    (g0 := unit F j (width j)) (h := unit F j (width j + 1)) hv
  refine ⟨es, hes, ?_⟩
  by_cases hF : Free (evalComb j (stream S label)) es
  swap
  · left
    unfold Free at hF
    push Not at hF
    obtain ⟨e, he, h0, hne⟩ := hF
    exact ⟨e, he, hne, h0⟩
  right
  have S0 := ((Seg.refl E rep tr ([] : List (Msg F (Comb F j)))).protocol "Spartan NIZK proof").blob
    "R1CSInstanceDigest" I.digest
  rw [hI.vars, hI.cons] at hv hes
  obtain ⟨hcl, Rs, S1, hl, -, -, -, -, hH⟩ := r1cs_rbr hE hrep hI (n := width j) rfl (readsPc j)
    (reads_basis j 3 (by omega)) (reads_basis j 4 (by omega)) w1 q3 q3' q4 q4' wp hlen hi hv hes hF
    (np := 0) (cur := [] ++ [.bytes "protocol-name" "Spartan NIZK proof"] ++ [.blob "R1CSInstanceDigest" I.digest])
    (by simp) (by simp)
  have hH := hH hev
  have hxl := extractVars_length (firstCo (F := F) j (width j) (by have := width_lt j; omega))
    (rows := 2 ^ (j / 2)) (comm := pf.sat.commVars.map rep) (by simpa using hcl)
  rw [← extracted_eq] at hH hxl
  have hxl : (extracted j rep pf.sat.commVars).length = 2 ^ j := by
    rw [hxl, width, ← pow_add]; congr 1; omega
  by_cases hs : Sat I.inst.A.triples I.inst.B.triples I.inst.C.triples (2 ^ k)
      (zpad (extracted j rep pf.sat.commVars) input)
  · exact .inl (inst_isSat_of_sat hI hxl hi hs)
  · right
    obtain ⟨ms, hms, hr⟩ := S0.trans S1
    rw [List.nil_append] at hr
    exact ⟨ms, hms, by rw [hr]; exact hl, by rw [hr]; exact hH hs⟩

/-- C38/C72, what remains true of knowledge soundness.  For every instance built by `Instance::new`
there is a table `bad` of at most six challenges per round, fixed by the instance, such that: whenever
`NIZK::verify` accepts a proof whose two vectors of folding commitments have the same length, then, for
every representation `rep` of the points as combinations of the generators (algebraic prover),
* one of the explicit combinations `nizkRels` of the proof is a nontrivial relation between the
  generators, or
* the assignment read off the commitment to the variables satisfies the instance, or
* in one of the rounds the hash produced a challenge listed in `bad` for what had been sent before it.

Missing: proofs with vectors of different length, for which the property is false (`nizk_forgery`). -/
theorem nizk_knowledge_sound {K : Codec F} {nc nv ni : Nat}
    {A B C : List (Nat × Nat × List UInt8)} {I : Inst F}
    (hnew : Inst.new K nc nv ni A B C = .ok (.ok I)) (hsz : I.inst.numVars ≤ 2 ^ 62) :
    ∃ k j, I.inst.numCons = 2 ^ k ∧ I.inst.numVars = 2 ^ j ∧
    ∃ bad : Bads F (Comb F j), (∀ hist ms, AtMost 6 (bad hist ms)) ∧
    ∀ (G P : Type) [AddCommGroup G] [Module F G] [DecidableEq P] [DecidableEq G] (E : Env F G P)
      (S : GenSrc G) (label : List UInt8) (gens : R1CSGens G) (rep : P → Comb F j) (pf : NIZK F P)
      (input : List F) (tr tr' : Tr F P), E.Lawful → NIZKGens.new S label nv ni = .ok gens →
      IsRep E rep (evalComb j (stream S label)) →
      pf.sat.evalVars.bullet.L.length = pf.sat.evalVars.bullet.R.length →
      NIZK.verify E pf I input gens tr = .ok tr' →
      ∃ es, nizkRels E rep (evalComb j (stream S label)) gens (formalGens F j) (unit F j (width j))
          (unit F j (width j + 1)) pf I input tr = .ok es ∧
        ((∃ e ∈ es, e ≠ 0 ∧ evalComb j (stream S label) e = 0) ∨
          I.isSat (extracted j rep pf.sat.commVars) input = .ok (.ok true) ∨
          ∃ ms, tr' = tr ++ ms ∧ (rounds E.hash rep tr [] ms).1.length = 5 * k + 4 * j + (j - j / 2) + 13 ∧
            Hit bad (rounds E.hash rep tr [] ms).1) := by
  obtain ⟨k, j, hwf, hj⟩ : ∃ k j, I.inst.WF k j ∧ varsPadded nv ni = 2 ^ j := by
    obtain ⟨hA, hB, hC, rfl⟩ := new_ok_entries hnew
    obtain ⟨k, j, hwf, -, -, hj⟩ := builtR1CS_wf hA hB hC
    exact ⟨k, j, hwf, hj⟩
  have hj62 : j ≤ 62 := (Nat.pow_le_pow_iff_right (a := 2) (by norm_num)).1 (by rw [← hwf.vars]; exact hsz)
  refine ⟨k, j, hwf.cons, hwf.vars, r1csBad I.inst k j 0 (valCo j)
    (firstCo j (width j) (by have := width_lt j; omega)) (firstCo j 3 (by have := five_le j; omega))
    (firstCo j 4 (by have := five_le j; omega)), r1csBad_small I.inst k j 0 _ _ _ _ rfl, ?_⟩
  intro G P _ _ _ _ E S label gens rep pf input tr tr' hE hg hrep hlen hok
  unfold NIZKGens.new at hg
  rw [hj] at hg
  rw [← r1csRounds_eq]
  exact nizk_rbr hwf hj62 hE hg hrep hlen hok

open Classical in
/-- C72, error bound.  Fix a prover strategy that sends formal combinations, and let the `N` challenges
vary over all values: in at most `6 N |F|^(N-1)` of the `|F|^N` cases is there an accepted proof
with this strategy's messages whose equations yield no relation between the generators and whose
extracted assignment is not satisfying. -/
theorem nizk_knowledge_error [Fintype F] {K : Codec F} {nc nv ni : Nat}
    {A B C : List (Nat × Nat × List UInt8)} {I : Inst F}
    (hnew : Inst.new K nc nv ni A B C = .ok (.ok I)) (hsz : I.inst.numVars ≤ 2 ^ 62) :
    ∃ k j, I.inst.numCons = 2 ^ k ∧ I.inst.numVars = 2 ^ j ∧
    ∀ σ : List F → List (Msg F (Comb F j)),
      Set.ncard {xs : Fin (5 * k + 4 * j + (j - j / 2) + 13) → F |
        ∃ (G P : Type) (_ : AddCommGroup G) (_ : Module F G) (_ : DecidableEq P) (_ : DecidableEq G)
          (E : Env F G P) (S : GenSrc G) (label : List UInt8) (gens : R1CSGens G) (rep : P → Comb F j)
          (pf : NIZK F P) (input : List F) (tr ms : Tr F P), E.Lawful ∧
          NIZKGens.new S label nv ni = .ok gens ∧ IsRep E rep (evalComb j (stream S label)) ∧
          pf.sat.evalVars.bullet.L.length = pf.sat.evalVars.bullet.R.length ∧
          NIZK.verify E pf I input gens tr = .ok (tr ++ ms) ∧
          (rounds E.hash rep tr [] ms).1 = play σ [] (List.ofFn xs) ∧
          (∀ es, nizkRels E rep (evalComb j (stream S label)) gens (formalGens F j) (unit F j (width j))
            (unit F j (width j + 1)) pf I input tr = .ok es → ∀ e ∈ es,
              evalComb j (stream S label) e = 0 → e = 0) ∧
          I.isSat (extracted j rep pf.sat.commVars) input ≠ .ok (.ok true)} ≤
        (5 * k + 4 * j + (j - j / 2) + 13) * 6 *
          Fintype.card F ^ (5 * k + 4 * j + (j - j / 2) + 13 - 1) := by
  obtain ⟨k, j, hk, hj, bad, hb, H⟩ := nizk_knowledge_sound hnew hsz
  refine ⟨k, j, hk, hj, fun σ => ?_⟩
  refine le_trans (Set.ncard_le_ncard ?_ (Set.toFinite _)) (hit_count' bad hb σ _)
  rintro xs ⟨G, P, i1, i2, i3, i4, E, S, label, gens, rep, pf, input, tr, ms, hE, hg, hrep, hlen, hv, hr, hno, hns⟩
  obtain ⟨es, hes, ⟨e, he, hne, h0⟩ | hs | ⟨ms', hms, -, hH⟩⟩ :=
    H G P E S label gens rep pf input tr _ hE hg hrep hlen hv
  · exact absurd (hno es hes e he h0) hne
  · exact absurd hs hns
  · obtain rfl := List.append_cancel_left hms
    rw [hr] at hH
    exact hH

/-- C38/C72 when the generators are independent (no relation exists): an accepted proof of the right
shape carries a satisfying assignment, unless a challenge in `bad` came up. -/
theorem nizk_sound_independent_partial {K : Codec F} {nc nv ni : Nat}
    {A B C : List (Nat × Nat × List UInt8)} {I : Inst F}
    (hnew : Inst.new K nc nv ni A B C = .ok (.ok I)) (hsz : I.inst.numVars ≤ 2 ^ 62) :
    ∃ k j, I.inst.numCons = 2 ^ k ∧ I.inst.numVars = 2 ^ j ∧
    ∃ bad : Bads F (Comb F j), (∀ hist ms, AtMost 6 (bad hist ms)) ∧
    ∀ (G P : Type) [AddCommGroup G] [Module F G] [DecidableEq P] [DecidableEq G] (E : Env F G P)
      (S : GenSrc G) (label : List UInt8) (gens : R1CSGens G) (rep : P → Comb F j) (pf : NIZK F P)
      (input : List F) (tr tr' : Tr F P), E.Lawful → NIZKGens.new S label nv ni = .ok gens →
      (∀ e : Comb F j, ∑ i, e i • stream S label i = 0 → e = 0) →
      IsRep E rep (evalComb j (stream S label)) →
      pf.sat.evalVars.bullet.L.length = pf.sat.evalVars.bullet.R.length →
      NIZK.verify E pf I input gens tr = .ok tr' →
      I.isSat (extracted j rep pf.sat.commVars) input = .ok (.ok true) ∨
        ∃ ms, tr' = tr ++ ms ∧ Hit bad (rounds E.hash rep tr [] ms).1 := by
  obtain ⟨k, j, hk, hj, bad, hb, H⟩ := nizk_knowledge_sound hnew hsz
  refine ⟨k, j, hk, hj, bad, hb, ?_⟩
  intro G P _ _ _ _ E S label gens rep pf input tr tr' hE hg hli hrep hlen hok
  obtain ⟨es, -, ⟨e, -, hne, h0⟩ | hs | ⟨ms, h1, -, h2⟩⟩ :=
    H G P E S label gens rep pf input tr tr' hE hg hrep hlen hok
  · exact absurd (hli e h0) hne
  · exact .inl hs
  · exact .inr ⟨ms, h1, h2⟩

/-! ### the honest prover meets the shape condition -/

theorem bulletLoop_lens {E : Env F G P} {Q H : G} : ∀ (k : Nat) {Gv : List G} {a b : List F} {bl : F}
    {bls : List (F × F)} {tr : Tr F P} {r : List P × List P × F × F × G × F × Tr F P},
    bulletLoop E Q H k Gv a b bl bls tr = .ok r → r.1.length = r.2.1.length
  | 0, Gv, a, b, bl, bls, tr, r, h => by
    unfold bulletLoop at h
    split at h
    · cases h; rfl
    · cases h
  | k + 1, Gv, a, b, bl, bls, tr, r, h => by
    unfold bulletLoop at h
    obtain ⟨cL, -, h⟩ := bind_ok h
    obtain ⟨cR, -, h⟩ := bind_ok h
    split at h
    · cases h
    obtain ⟨L, -, h⟩ := bind_ok h
    obtain ⟨R, -, h⟩ := bind_ok h
    simp only [Env.challenge] at h
    obtain ⟨ui, -, h⟩ := bind_ok h
    obtain ⟨r', hr, h⟩ := bind_ok h
    have := bulletLoop_lens k hr
    cases h
    simp [this]

theorem polyEvalProve_shape {E : Env F G P} {poly : Dense F} {bs : Option (List F)} {r : List F} {Zr : F}
    {bz : Option F} {gens : DotGens G} {tr : Tr F P} {tape : Tape F}
    {res : DotProductProofLog F P × P × Tr F P × Tape F}
    (h : polyEvalProve E poly bs r Zr bz gens tr tape = .ok res) :
    res.1.bullet.L.length = res.1.bullet.R.length := by
  unfold polyEvalProve at h
  simp only at h
  obtain ⟨_, -, h⟩ := bind_ok h
  obtain ⟨_, -, h⟩ := bind_ok h
  obtain ⟨_, -, h⟩ := bind_ok h
  obtain ⟨_, -, h⟩ := bind_ok h
  obtain ⟨LZ, -, h⟩ := bind_ok h
  obtain ⟨q, hq, h⟩ := bind_ok h
  cases h
  unfold DotProductProofLog.prove at hq
  simp only at hq
  obtain ⟨_, -, hq⟩ := bind_ok hq
  obtain ⟨_, -, hq⟩ := bind_ok hq
  obtain ⟨lg, -, hq⟩ := bind_ok hq
  obtain ⟨_, -, hq⟩ := bind_ok hq
  obtain ⟨_, -, hq⟩ := bind_ok hq
  obtain ⟨g1s, -, hq⟩ := bind_ok hq
  split at hq
  · cases hq
  obtain ⟨b, hb, hq⟩ := bind_ok hq
  obtain ⟨_, -, hq⟩ := bind_ok hq
  obtain ⟨_, -, hq⟩ := bind_ok hq
  cases hq
  unfold BulletProof.prove at hb
  simp only at hb
  obtain ⟨_, -, hb⟩ := bind_ok hb
  obtain ⟨_, -, hb⟩ := bind_ok hb
  obtain ⟨_, -, hb⟩ := bind_ok hb
  obtain ⟨_, -, hb⟩ := bind_ok hb
  obtain ⟨l, hl, hb⟩ := bind_ok hb
  cases hb
  exact bulletLoop_lens _ hl

theorem r1csProve_shape {E : Env F G P} {I : R1CS F} {vars input : List F} {gens : R1CSGens G}
    {tr : Tr F P} {tape : Tape F} {q : R1CSProof F P × List F × List F × Tr F P × Tape F}
    (hq : R1CSProof.prove E I vars input gens tr tape = .ok q) :
    q.1.evalVars.bullet.L.length = q.1.evalVars.bullet.R.length := by
  unfold R1CSProof.prove at hq
  simp only [Env.challenge] at hq
  obtain ⟨_, -, hq⟩ := bind_ok hq
  obtain ⟨_, -, hq⟩ := bind_ok hq
  obtain ⟨_, -, hq⟩ := bind_ok hq
  obtain ⟨_, -, hq⟩ := bind_ok hq
  obtain ⟨_, -, hq⟩ := bind_ok hq
  obtain ⟨_, -, hq⟩ := bind_ok hq
  obtain ⟨_, -, hq⟩ := bind_ok hq
  obtain ⟨_, -, hq⟩ := bind_ok hq
  obtain ⟨_, -, hq⟩ := bind_ok hq
  obtain ⟨_, -, hq⟩ := bind_ok hq
  obtain ⟨_, -, hq⟩ := bind_ok hq
  obtain ⟨_, -, hq⟩ := bind_ok hq
  obtain ⟨_, -, hq⟩ := bind_ok hq
  obtain ⟨_, -, hq⟩ := bind_ok hq
  obtain ⟨_, -, hq⟩ := bind_ok hq
  obtain ⟨_, -, hq⟩ := bind_ok hq
  obtain ⟨_, -, hq⟩ := bind_ok hq
  obtain ⟨_, -, hq⟩ := bind_ok hq
  obtain ⟨_, -, hq⟩ := bind_ok hq
  obtain ⟨e, he, hq⟩ := bind_ok hq
  obtain ⟨_, -, hq⟩ := bind_ok hq
  cases hq
  exact polyEvalProve_shape he

/-- C72: every proof that `NIZK::prove` returns has folding vectors of equal length, so a verifier that
also checked the lengths would accept the same honest proofs. -/
theorem nizk_prove_shape {E : Env F G P} {I : Inst F} {vars input : List F} {gens : R1CSGens G}
    {tr tr' : Tr F P} {tape : Tape F} {pf : NIZK F P}
    (h : NIZK.prove E I vars input gens tr tape = .ok (pf, tr')) :
    pf.sat.evalVars.bullet.L.length = pf.sat.evalVars.bullet.R.length := by
  unfold NIZK.prove at h
  simp only at h
  obtain ⟨pv, -, h⟩ := bind_ok h
  obtain ⟨q, hq, h⟩ := bind_ok h
  cases h
  exact r1csProve_shape hq

/-! ### the hypotheses are met -/

/-- A source whose `i`-th point is the `i`-th unit vector of ℚ^5: independent generators. -/
def unitSrc : GenSrc (Comb ℚ 1) :=
  ⟨fun _ n => UInt8.ofNat (n / 128), fun b => unit ℚ 1 (b.getD 0 0).toNat⟩

theorem unitSrc_stream (i : Nat) (hi : i < 256) : stream unitSrc [1] i = unit ℚ 1 i := by
  simp only [stream, unitSrc, GenSrc.block]
  rw [show (List.map (fun j => UInt8.ofNat ((128 * i + j) / 128)) (List.range 128)).getD 0 0
    = UInt8.ofNat i by simp [List.getD]]
  congr 1
  simp [Nat.mod_eq_of_lt hi]

theorem unitSrc_eval (e : Comb ℚ 1) : evalComb 1 (stream unitSrc [1]) e = e := by
  show ∑ i, e i • stream unitSrc [1] i = e
  funext t
  rw [Finset.sum_apply, Finset.sum_eq_single t]
  · have : (t : ℕ) < 256 := lt_of_lt_of_le t.2 (by decide)
    rw [unitSrc_stream _ this]; simp [unit]
  · intro b _ hb
    have : (b : ℕ) < 256 := lt_of_lt_of_le b.2 (by decide)
    rw [unitSrc_stream _ this]
    simp [unit, Fin.val_inj, Ne.symm hb]
  · simp

/-- The honest proof of `v0 * v1 = 6` over ℚ, with independent generators, meets every hypothesis of
`nizk_knowledge_sound` and `nizk_sound_independent_partial`. -/
example : ∃ I gens pf tr', Inst.new toyCodec 1 2 1 [(0, 0, [1])] [(0, 1, [1])] [(0, 3, [1])] = .ok (.ok I) ∧
    I.inst.numVars = 2 ^ 1 ∧ Env.Lawful (⟨id, some, fun _ => 5⟩ : Env ℚ (Comb ℚ 1) (Comb ℚ 1)) ∧
    NIZKGens.new unitSrc [1] 2 1 = .ok gens ∧
    (∀ e : Comb ℚ 1, ∑ i, e i • stream unitSrc [1] i = 0 → e = 0) ∧
    IsRep (⟨id, some, fun _ => 5⟩ : Env ℚ (Comb ℚ 1) (Comb ℚ 1)) id (evalComb 1 (stream unitSrc [1])) ∧
    pf.sat.evalVars.bullet.L.length = pf.sat.evalVars.bullet.R.length ∧
    NIZK.verify (⟨id, some, fun _ => 5⟩ : Env ℚ (Comb ℚ 1) (Comb ℚ 1)) pf I [6] gens [] = .ok tr' := by
  obtain ⟨I, hI⟩ := (instance_new_ok_iff toyCodec 1 2 1 [(0, 0, [1])] [(0, 1, [1])] [(0, 3, [1])]).2
    (by decide)
  have hn : I.inst.numVars = 2 := by
    obtain ⟨-, -, -, rfl⟩ := new_ok_entries hI
    show varsPadded 2 1 = 2
    rw [varsPadded_eq]
    exact nextPow2_pow 1
  obtain ⟨b, hb, hiff⟩ := padding_preserves_sat hI (vars := [2, 3]) (inputs := [6]) (by rw [hn]; simp) rfl
  have hbt : b = true := hiff.2 (by
    intro i hi
    interval_cases i
    norm_num [rowDot, parsed, toyCodec, matEntry, zvec, fit, Finset.sum_range_succ,
      show UInt8.toNat 1 = 1 from rfl])
  subst hbt
  obtain ⟨gens, pf, tr', h1, h2, h3⟩ := nizk_complete_nonzero
    (E := (⟨id, some, fun _ => 5⟩ : Env ℚ (Comb ℚ 1) (Comb ℚ 1)))
    (by norm_num) (by norm_num) (fun _ => rfl) (fun _ => by norm_num) hI le_rfl (by rw [hn]; norm_num)
    unitSrc [1] hb [] (fun i => i)
  refine ⟨I, gens, pf, tr', hI, hn, fun _ => rfl, h1, ?_, ?_, nizk_prove_shape h2, h3⟩
  · intro e he
    exact (unitSrc_eval e).symm.trans he
  · intro p g h
    cases h
    exact unitSrc_eval p

end Spartan
