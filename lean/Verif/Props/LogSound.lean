import Verif.Lemmas.RBRLog
import Verif.Props.Graceful
import Verif.Props.NIZKSound

/-!
# C26: what an accepted logarithmic dot-product proof shows

The property fails for proofs whose folding vectors differ in length (`dotproductlog_forgery`).  Here: when they have
equal length, the proof shows knowledge of the committed vector and value.
-/

set_option linter.unusedSectionVars false

namespace Spartan
open Spec
variable {F G P : Type} [Field F] [AddCommGroup G] [Module F G]
  [DecidableEq F] [DecidableEq P] [DecidableEq G]

/-- Formal combinations of `n` vector generators, the generator of values and the blinding generator. -/
abbrev LogComb (F : Type) (n : Nat) := (Fin n → F) × F × F

/-- The group element a combination stands for. -/
def logEval {n : Nat} (Gv : List G) (g0 h : G) (m : LogComb F n) : G :=
  lc (List.ofFn m.1) Gv + m.2.1 • g0 + m.2.2 • h

/-- The combination that is the `i`-th vector generator. -/
def logGen (F : Type) [Field F] (n : Nat) (i : Fin n) : LogComb F n := (Pi.single i 1, 0, 0)

theorem lc_ofFn_plus {n : Nat} (x y : Fin n → F) (Gv : List G) :
    lc (List.ofFn (x + y)) Gv = lc (List.ofFn x) Gv + lc (List.ofFn y) Gv := by
  induction n generalizing Gv with
  | zero => simp
  | succ n ih =>
    cases Gv with
    | nil => simp
    | cons g Gv =>
      have := ih (fun i => x i.succ) (fun i => y i.succ) Gv
      simp only [List.ofFn_succ, lc_cons, Pi.add_apply]
      rw [show (fun i : Fin n => x i.succ + y i.succ) = (fun i => x i.succ) + (fun i => y i.succ) from rfl, this,
        add_smul]
      abel

theorem lc_ofFn_smul {n : Nat} (c : F) (x : Fin n → F) (Gv : List G) :
    lc (List.ofFn (c • x)) Gv = c • lc (List.ofFn x) Gv := by
  induction n generalizing Gv with
  | zero => simp
  | succ n ih =>
    cases Gv with
    | nil => simp
    | cons g Gv =>
      have := ih (fun i => x i.succ) Gv
      simp only [List.ofFn_succ, lc_cons, Pi.smul_apply, smul_eq_mul]
      rw [show (fun i : Fin n => c * x i.succ) = c • (fun i => x i.succ) from rfl, this, smul_add, mul_smul]

/-- `logEval` as a linear map. -/
def logPi {n : Nat} (Gv : List G) (g0 h : G) : LogComb F n →ₗ[F] G where
  toFun := logEval Gv g0 h
  map_add' a b := by
    simp only [logEval, Prod.fst_add, Prod.snd_add, lc_ofFn_plus, add_smul]; abel
  map_smul' c a := by
    simp only [logEval, Prod.smul_fst, Prod.smul_snd, lc_ofFn_smul, smul_eq_mul, mul_smul, smul_add, RingHom.id_apply]

theorem lc_logGen {n : Nat} {z : List F} (hz : z.length = n) :
    lc z (List.ofFn (logGen F n)) = ((fun i : Fin n => z.getD i 0), 0, 0) := by
  have e : z = List.ofFn (fun i : Fin n => z.getD i 0) := by
    apply List.ext_getElem (by simp [hz])
    intro i h1 h2
    simp [List.getD_eq_getElem?_getD, h1]
  rw [show lc z (List.ofFn (logGen F n)) = lc (List.ofFn fun i : Fin n => z.getD i 0) (List.ofFn (logGen F n)) by
    rw [← e]]
  rw [lc_ofFn _ (by simp)]
  refine Prod.ext ?_ (Prod.ext ?_ ?_)
  · funext t
    simp only [Prod.fst_sum, Finset.sum_apply]
    rw [Finset.sum_eq_single t]
    · simp [logGen]
    · intro b _ hb
      simp [logGen, Pi.single_apply, Ne.symm hb]
    · simp
  · simp [Prod.snd_sum, Prod.fst_sum, logGen]
  · simp [Prod.snd_sum, logGen]

theorem logPi_gens {n : Nat} {Gv : List G} (g0 h : G) (hG : Gv.length = n) :
    Gv = (List.ofFn (logGen F n)).map (logPi Gv g0 h) := by
  subst hG
  apply List.ext_getElem (by simp)
  intro i h1 h2
  simp only [List.getElem_map, List.getElem_ofFn]
  show Gv[i] = lc (List.ofFn (Pi.single _ 1)) Gv + (0 : F) • g0 + (0 : F) • h
  rw [lc_ofFn _ rfl, Finset.sum_eq_single (⟨i, h1⟩ : Fin Gv.length)]
  · simp
  · intro b _ hb
    simp [Pi.single_apply, hb]
  · simp

theorem log_reads (n : Nat) : ReadsPc (LinearMap.fst F F F ∘ₗ LinearMap.snd F (Fin n → F) (F × F))
    (LinearMap.fst F (Fin n → F) (F × F)) (0, 1, 0) (0, 0, 1) (List.ofFn (logGen F n)) where
  vg := rfl
  vh := rfl
  vG z := by
    have : ∀ (z : List F) (l : List (LogComb F n)), (∀ m ∈ l, m.2.1 = 0) → (lc z l).2.1 = 0 := by
      intro z
      induction z with
      | nil => intro l _; simp
      | cons a z ih =>
        intro l hl
        cases l with
        | nil => simp
        | cons m l =>
          rw [lc_cons, Prod.snd_add, Prod.fst_add, ih l fun m hm => hl m (by simp [hm])]
          simp [hl m (by simp)]
    exact this z _ (by simp [List.mem_ofFn, logGen])
  xg := rfl
  xh := rfl
  xG z hz := by
    rw [lc_logGen hz]
    subst hz
    apply List.ext_getElem (by simp [co])
    intro i h1 h2
    simp [co, List.getD_eq_getElem?_getD]

/-- The last equation of `DotProductProofLog::verify` in the combinations known to the prover, with the challenges
of the run that starts at `tr`. -/
def logRunRels {n : Nat} (E : Env F G P) (rep : P → LogComb F n) (pf : DotProductProofLog F P) (tr : Tr F P)
    (a : List F) (Cx Cy : P) : List (LogComb F n) :=
  let (r, t) := E.challenge ((((tr.protocol "dot product proof (log)").point "Cx" Cx).point "Cy" Cy).scalars "a" a) "r"
  let (us, t) := bulletChallenges E pf.bullet.L pf.bullet.R t
  let (c, _) := E.challenge ((t.point "delta" pf.delta).point "beta" pf.beta) "c"
  logRels rep (0, 1, 0) (0, 0, 1) (List.ofFn (logGen F n)) pf r us c a Cx Cy

/-- C26, for folding vectors of equal length.  Fix the public vector `a`, not zero.  For every history and next
message there are at most six unfavourable challenges, such that for every accepted proof and every way `rep` to
write its points as combinations of the generators (the prover's knowledge): the vector committed to by `Cx` has
inner product with `a` equal to the value committed to by `Cy`, or the last equation of the verifier is a nontrivial
relation among the generators, or some challenge was unfavourable when it was drawn. -/
theorem dotproductlog_knowledge_partial {k : Nat} {a : List F} (ha : a.length = 2 ^ k)
    (hne : ∃ i < 2 ^ k, a.getD i 0 ≠ 0) :
    ∃ B : Bads F (LogComb F (2 ^ k)), (∀ hist ms, AtMost 6 (B hist ms)) ∧
      ∀ {E : Env F G P} (_ : E.Lawful) {gens : DotGens G} {g0 h : G} (_ : gens.WF k g0 h)
        {rep : P → LogComb F (2 ^ k)}
        (_ : ∀ p g, E.decompress p = some g → logEval gens.gensn.G g0 h (rep p) = g)
        {pf : DotProductProofLog F P} (_ : pf.bullet.L.length = pf.bullet.R.length) {tr tr' : Tr F P} {Cx Cy : P}
        (_ : pf.verify E (2 ^ k) gens tr a Cx Cy = .ok tr'),
        dot (List.ofFn (rep Cx).1) a = (rep Cy).2.1 ∨
        (∃ e ∈ logRunRels E rep pf tr a Cx Cy, e ≠ 0 ∧ logEval gens.gensn.G g0 h e = 0) ∨
        (∃ ms, tr' = tr ++ ms ∧ Hit B (rounds E.hash rep tr [] ms).1) := by
  refine ⟨logBad (LinearMap.fst F F F ∘ₗ LinearMap.snd F (Fin (2 ^ k) → F) (F × F))
    (LinearMap.fst F (Fin (2 ^ k) → F) (F × F)) a k, logBad_small _ _ ha rfl, ?_⟩
  intro E hE gens g0 h hg rep hrep pf hlen tr tr' Cx Cy hok
  have e1 : logPi gens.gensn.G g0 h ((0, 1, 0) : LogComb F (2 ^ k)) = g0 := by
    show lc (List.ofFn (0 : Fin (2 ^ k) → F)) gens.gensn.G + (1 : F) • g0 + (0 : F) • h = g0
    rw [lc_ofFn _ hg.glen]; simp
  have e2 : logPi gens.gensn.G g0 h ((0, 0, 1) : LogComb F (2 ^ k)) = h := by
    show lc (List.ofFn (0 : Fin (2 ^ k) → F)) gens.gensn.G + (0 : F) • g0 + (1 : F) • h = h
    rw [lc_ofFn _ hg.glen]; simp
  by_cases hF : Free (logPi gens.gensn.G g0 h) (logRunRels E rep pf tr a Cx Cy)
  · obtain ⟨Rs, ⟨ms, h1, h2⟩, -, h3⟩ := log_rbr hE (π := logPi gens.gensn.G g0 h) hrep rfl (log_reads (2 ^ k))
      (by rw [e1, e2]; exact hg) (logPi_gens g0 h hg.glen) hlen hok hF []
    by_cases hv : dot (List.ofFn (rep Cx).1) a = (rep Cy).2.1
    · exact .inl hv
    · refine .inr (.inr ⟨ms, h1, ?_⟩)
      rw [h2]
      exact h3 (fun e => hv e.symm) hne
  · unfold Free at hF
    push Not at hF
    obtain ⟨e, he, h0, hn⟩ := hF
    exact .inr (.inl ⟨e, he, hn, h0⟩)

/-- The two equations of `PolyEvalProof::verify` in the combinations known to the prover, with the challenges of the
run that starts at `tr`: the combination of row commitments is written as the prover writes its compressed form, and
the last equation of the inner proof. -/
def polyRunRels {n : Nat} (E : Env F G P) (rep : P → LogComb F n) (Gv : List G) (g0 h : G)
    (pf : DotProductProofLog F P) (tr : Tr F P) (r : List F) (Czr : P) (comm : List P) : List (LogComb F n) :=
  let (L, R) := factoredEvals r
  let m := lc L (comm.map rep)
  let Clz := E.compress (logEval Gv g0 h m)
  (rep Clz - m) :: logRunRels E rep pf (tr.protocol "polynomial evaluation proof") R Clz Czr

/-- C95.  Fix the point `r`.  For every history and next message there are at most six unfavourable challenges, such
that for every accepted polynomial evaluation proof with folding vectors of equal length, and every way `rep` to write
its points as combinations of the generators: the value committed to by `Czr` is the value at `r` of the multilinear
polynomial whose evaluations are the committed rows in order, or one of two equations of the run is a nontrivial
relation among the generators, or some challenge was unfavourable when it was drawn. -/
theorem polyEval_knowledge (r : List F) :
    ∃ B : Bads F (LogComb F (2 ^ (r.length - r.length / 2))), (∀ hist ms, AtMost 6 (B hist ms)) ∧
      ∀ {E : Env F G P} (_ : E.Lawful) {gens : DotGens G} {g0 h : G} (_ : gens.WF (r.length - r.length / 2) g0 h)
        {rep : P → LogComb F (2 ^ (r.length - r.length / 2))}
        (_ : ∀ p g, E.decompress p = some g → logEval gens.gensn.G g0 h (rep p) = g)
        {pf : DotProductProofLog F P} (_ : pf.bullet.L.length = pf.bullet.R.length) {tr tr' : Tr F P} {Czr : P}
        {comm : List P} (_ : polyEvalVerify E pf gens tr r Czr comm = .ok tr'),
        2 ^ (r.length / 2) ≤ comm.length ∧
        (mle ((comm.take (2 ^ (r.length / 2))).flatMap fun p => List.ofFn (rep p).1) r = (rep Czr).2.1 ∨
        (∃ e ∈ polyRunRels E rep gens.gensn.G g0 h pf tr r Czr comm, e ≠ 0 ∧ logEval gens.gensn.G g0 h e = 0) ∨
        (∃ ms, tr' = tr ++ ms ∧ Hit B (rounds E.hash rep tr [] ms).1)) := by
  refine ⟨logBad (LinearMap.fst F F F ∘ₗ LinearMap.snd F (Fin _ → F) (F × F))
    (LinearMap.fst F (Fin _ → F) (F × F)) (factoredEvals r).2 (r.length - r.length / 2),
    logBad_small _ _ (factoredEvals_correct r).2.1 rfl, ?_⟩
  intro E hE gens g0 h hg rep hrep pf hlen tr tr' Czr comm hok
  have e1 : logPi gens.gensn.G g0 h ((0, 1, 0) : LogComb F (2 ^ (r.length - r.length / 2))) = g0 := by
    show lc (List.ofFn (0 : Fin _ → F)) gens.gensn.G + (1 : F) • g0 + (0 : F) • h = g0
    rw [lc_ofFn _ hg.glen]; simp
  have e2 : logPi gens.gensn.G g0 h ((0, 0, 1) : LogComb F (2 ^ (r.length - r.length / 2))) = h := by
    show lc (List.ofFn (0 : Fin _ → F)) gens.gensn.G + (0 : F) • g0 + (1 : F) • h = h
    rw [lc_ofFn _ hg.glen]; simp
  have hcl := (polyEval_points hok).1
  refine ⟨hcl, ?_⟩
  by_cases hF : Free (logPi gens.gensn.G g0 h) (polyRunRels E rep gens.gensn.G g0 h pf tr r Czr comm)
  · obtain ⟨-, Rs, ⟨ms, h1, h2⟩, -, h3⟩ := poly_rbr hE (π := logPi gens.gensn.G g0 h) hrep (log_reads _) rfl
      (by rw [e1, e2]; exact hg) (logPi_gens g0 h hg.glen) hlen hok hF []
    by_cases hv : mle ((comm.take (2 ^ (r.length / 2))).flatMap fun p => List.ofFn (rep p).1) r = (rep Czr).2.1
    · exact .inl hv
    · refine .inr (.inr ⟨ms, h1, ?_⟩)
      rw [h2]
      refine h3 fun e => hv ?_
      rw [extractVars, ← List.map_take, List.flatMap_map] at e
      exact e.symm
  · unfold Free at hF
    push Not at hF
    obtain ⟨e, he, h0, hn⟩ := hF
    exact .inr (.inl ⟨e, he, hn, h0⟩)

/-- The hypotheses of `polyEval_knowledge`, and through the inner proof those of
`dotproductlog_knowledge_partial`, are met by an honest proof of a polynomial with four coefficients, over ℚ,
in the free module on the generators with the identity as the prover's knowledge. -/
example : ∃ (gens : DotGens (LogComb ℚ 2)) (pf : DotProductProofLog ℚ (LogComb ℚ 2)) (Czr : LogComb ℚ 2)
    (comm : List (LogComb ℚ 2)) (tr' : Tr ℚ (LogComb ℚ 2)),
    gens.WF 1 (0, 1, 0) (0, 0, 1) ∧
    (∀ p g : LogComb ℚ 2, some p = some g → logEval gens.gensn.G (0, 1, 0) (0, 0, 1) p = g) ∧
    pf.bullet.L.length = pf.bullet.R.length ∧
    polyEvalVerify (⟨id, some, fun _ => 5⟩ : Env ℚ (LogComb ℚ 2) (LogComb ℚ 2)) pf gens [] [2, 7] Czr comm = .ok tr' := by
  let g1 : Gens (LogComb ℚ 2) := Gens.single (0, 1, 0) (0, 0, 1)
  let gens : DotGens (LogComb ℚ 2) := ⟨2, ⟨2, List.ofFn (logGen ℚ 2), (0, 0, 1)⟩, g1⟩
  have hg : gens.WF 1 (0, 1, 0) (0, 0, 1) := ⟨rfl, rfl, by simp [gens], rfl, rfl⟩
  obtain ⟨poly, comm, blinds, ct, -, -, h⟩ := polyeval_complete
    (E := (⟨id, some, fun _ => 5⟩ : Env ℚ (LogComb ℚ 2) (LogComb ℚ 2))) (fun _ => rfl) (Z := [3, 1, 4, 1])
    (r := [2, 7]) rfl (by decide) hg (some fun i => i) (some 3) [] (fun i => i)
  rcases h with ⟨pf, Czr, tr', tape', h1, -, h3, -⟩ | ⟨-, t, -, ht⟩
  · refine ⟨gens, pf, Czr, comm, tr', hg, ?_, polyEvalProve_shape h1, h3⟩
    intro p g hpg
    cases hpg
    show lc (List.ofFn p.1) (List.ofFn (logGen ℚ 2)) + p.2.1 • ((0, 1, 0) : LogComb ℚ 2) +
      p.2.2 • ((0, 0, 1) : LogComb ℚ 2) = p
    rw [lc_logGen (by simp)]
    refine Prod.ext ?_ (Prod.ext ?_ ?_)
    · funext i
      fin_cases i <;> simp
    · simp
    · simp
  · norm_num at ht

end Spartan
