import Verif.Lemmas.PolyEval
import Verif.Model.Gens
import Verif.Props.Bullet

/-!
C20 (commitment generators) and C27 (completeness of the polynomial
evaluation proof).
-/

set_option linter.unusedSectionVars false
namespace Spartan
open Spec
variable {F G P : Type} [Field F] [AddCommGroup G] [Module F G]
  [DecidableEq F] [DecidableEq P] [DecidableEq G]

/-! ### C20 -/

omit [AddCommGroup G] [DecidableEq G] in
/-- C20: generator `i` is the point derived from the `i`-th block of the label's
stream, whatever `n` is; `h` is the point after the last generator. -/
theorem gens_new_shape (S : GenSrc G) (n : Nat) (label : List UInt8) :
    (Gens.new S n label).n = n ∧ (Gens.new S n label).G.length = n ∧
    (∀ i < n, (Gens.new S n label).G[i]? = some (S.toPoint (S.block label i))) ∧
    (Gens.new S n label).h = S.toPoint (S.block label n) := by
  refine ⟨rfl, by simp [Gens.new, GenSrc.points], ?_, by simp [Gens.new, GenSrc.points]⟩
  intro i hi
  simp [Gens.new, GenSrc.points, List.getElem?_take, hi, List.getElem?_range (show i < n + 1 by omega)]

omit [AddCommGroup G] [DecidableEq G] in
/-- C20: generator lists of the same label are prefixes of each other, so the
blinding generator of a shorter basis is an ordinary generator of every longer one. -/
theorem gens_new_prefix (S : GenSrc G) {n m : Nat} (h : n < m) (label : List UInt8) :
    (Gens.new S n label).G = (Gens.new S m label).G.take n ∧
    (Gens.new S m label).G[n]? = some (Gens.new S n label).h := by
  obtain ⟨-, h2, h3, h4⟩ := gens_new_shape S n label
  obtain ⟨-, k2, k3, -⟩ := gens_new_shape S m label
  refine ⟨?_, h4 ▸ k3 n h⟩
  apply List.ext_getElem?
  intro i
  by_cases hi : i < n
  · rw [h3 i hi, List.getElem?_take, if_pos hi, k3 i (by omega)]
  · rw [List.getElem?_eq_none (by omega), List.getElem?_eq_none (by rw [List.length_take]; omega)]

/-- C20, consequence of the sharing: a commitment under the shorter basis is at the
same time an unblinded commitment under the longer basis of another vector, which
contains the blind in the clear position `n`. -/
theorem gens_sharing_ambiguous (S : GenSrc G) {n m : Nat} (hnm : n < m) (label : List UInt8)
    (v : List F) (hv : v.length = n) (b : F) :
    commitV v b (Gens.new S n label) =
      commitV (v ++ [b] ++ List.replicate (m - n - 1) 0) 0 (Gens.new S m label) := by
  obtain ⟨h1, h2, h3, -⟩ := gens_new_shape S n label
  obtain ⟨k1, k2, k3, -⟩ := gens_new_shape S m label
  obtain ⟨p1, p2⟩ := gens_new_prefix S hnm label
  rw [commitV_eq (by unfold Gens.WF; rw [h1, h2]) (by rw [h1, hv]),
    commitV_eq (by unfold Gens.WF; rw [k1, k2]) (by simp [k1, hv]; omega)]
  congr 1
  have hs : (Gens.new S m label).G = (Gens.new S n label).G ++ [(Gens.new S n label).h] ++
      (Gens.new S m label).G.drop (n + 1) := by
    rw [p1]
    conv_lhs => rw [← List.take_append_drop (n + 1) (Gens.new S m label).G]
    congr 1
    rw [List.take_add_one, p2]; rfl
  rw [hs, lc_append (by simp [hv, h2]), lc_append (by rw [hv, h2]), lc_replicate_zero]
  simp

/-- C20: committing to a concatenation under a basis is committing to the parts under
the parts of `split_at` (blinds add). -/
theorem gens_split_commit {g : Gens G} (hg : g.WF) {v1 v2 : List F} {b1 b2 : F}
    (hn : g.n = v1.length + v2.length) :
    ∃ g1 g2 c1 c2, g.splitAt v1.length = .ok (g1, g2) ∧
      commitV v1 b1 g1 = .ok c1 ∧ commitV v2 b2 g2 = .ok c2 ∧
      commitV (v1 ++ v2) (b1 + b2) g = .ok (c1 + c2) := by
  have hl : g.G.length = v1.length + v2.length := by rw [← hg, hn]
  have e1 : (g.G.take v1.length).length = v1.length := by simp [hl]
  have e2 : (g.G.drop v1.length).length = v2.length := by simp [hl]
  refine ⟨⟨(g.G.take v1.length).length, g.G.take v1.length, g.h⟩,
    ⟨(g.G.drop v1.length).length, g.G.drop v1.length, g.h⟩,
    lc v1 (g.G.take v1.length) + b1 • g.h, lc v2 (g.G.drop v1.length) + b2 • g.h, ?_, ?_, ?_, ?_⟩
  · unfold Gens.splitAt; rw [check_true (by omega), ok_bind]; rfl
  · exact commitV_eq (g := ⟨(g.G.take v1.length).length, g.G.take v1.length, g.h⟩) rfl e1 _
  · exact commitV_eq (g := ⟨(g.G.drop v1.length).length, g.G.drop v1.length, g.h⟩) rfl e2 _
  · rw [commitV_eq hg (by simp [hn])]
    congr 1
    have := lc_append (F := F) (a := v1) (b := v2) (p := g.G.take v1.length)
      (q := g.G.drop v1.length) e1.symm
    rw [List.take_append_drop] at this
    rw [this]; module

/-- C20: `split_at` panics exactly past the end. -/
theorem gens_split_panics (g : Gens G) (mid : Nat) :
    g.splitAt mid = .error .panic ↔ g.G.length < mid := by
  unfold Gens.splitAt
  by_cases h : mid ≤ g.G.length
  · simp [check, h, pure_ok]
  · simp [check, h]; omega

/-- C20: committing under the scaled basis is committing to the scaled message. -/
theorem gens_scale_commit {g : Gens G} (hg : g.WF) (s : F) {v : List F} (b : F)
    (hn : g.n = v.length) :
    ∃ gs, g.scale s = .ok gs ∧ gs.n = g.n ∧ gs.h = g.h ∧
      commitV v b gs = commitV (v.map (s * ·)) b g := by
  have hl : g.G.take g.n = g.G := by rw [hg]; simp
  refine ⟨⟨g.n, g.G.map (s • ·), g.h⟩, ?_, rfl, rfl, ?_⟩
  · unfold Gens.scale; rw [check_true hg.le, ok_bind, hl]; rfl
  · rw [commitV_eq (g := ⟨g.n, g.G.map (s • ·), g.h⟩) (by simpa [Gens.WF] using hg) hn,
      commitV_eq hg (by simp [hn])]
    simp only
    rw [lc_map_smul_right, lc_map_smul_left]

/-- C20: commitments are homomorphic in message and blind. -/
theorem commit_homomorphic {g : Gens G} (hg : g.WF) {v w : List F} (b d c : F)
    (hv : g.n = v.length) (hw : g.n = w.length) :
    ∃ cv cw, commitV v b g = .ok cv ∧ commitV w d g = .ok cw ∧
      commitV (List.zipWith (fun x y => c * x + y) v w) (c * b + d) g = .ok (c • cv + cw) := by
  refine ⟨_, _, commitV_eq hg hv b, commitV_eq hg hw d, ?_⟩
  rw [commitV_eq hg (by simp [← hv, ← hw]), lc_axpy c _ (by rw [← hv, hw])]
  congr 1; module

/-- The basis of `DotProductProofGens::new`/`PolyCommitmentGens::new` for fewer than
127 variables. -/
theorem polyCommitGens_wf (S : GenSrc G) {ell : Nat} (h : ell - ell / 2 < 64) (label : List UInt8) :
    ∃ dg g0 h0, polyCommitGens S ell label = .ok dg ∧ dg.WF (ell - ell / 2) g0 h0 ∧
      dg.gensn.G ++ [g0] = (Gens.new S (2 ^ (ell - ell / 2) + 1) label).G ∧
      h0 = (Gens.new S (2 ^ (ell - ell / 2) + 1) label).h := by
  obtain ⟨-, h2, -, -⟩ := gens_new_shape S (2 ^ (ell - ell / 2) + 1) label
  obtain ⟨dg, g0, e1, e2, e3⟩ := dotGens_ofGens_wf h2
  refine ⟨dg, g0, _, ?_, e2, e3.symm, rfl⟩
  unfold polyCommitGens
  simp only [factoredLens]
  rw [pow2_correct _ h, ok_bind]
  exact e1

example : (Gens.new (⟨fun _ i => UInt8.ofNat i, fun b => (b.getD 0 0).toNat⟩ : GenSrc ℚ) 2 []).G.length = 2 :=
  (gens_new_shape _ 2 []).2.1

example : ∃ g1 g2 c1 c2, (⟨3, [1, 2, 3], 7⟩ : Gens ℚ).splitAt 1 = .ok (g1, g2) ∧
    commitV [(4 : ℚ)] 1 g1 = .ok c1 ∧ commitV [(5 : ℚ), 6] 2 g2 = .ok c2 ∧
    commitV [(4 : ℚ), 5, 6] (1 + 2) (⟨3, [1, 2, 3], 7⟩ : Gens ℚ) = .ok (c1 + c2) :=
  gens_split_commit (g := ⟨3, [1, 2, 3], 7⟩) (v1 := [4]) (v2 := [5, 6]) rfl rfl

/-! ### C27 -/

/-- C27.  A polynomial given by its table `Z` of length `2^ℓ` (`ℓ = r.length`,
`ℓ ≤ 62`), committed with or without a blinding tape, evaluated at `r`: the
evaluation proof for the true value (the multilinear extension of `Z` at `r`) is
produced and accepted against the commitment, with equal transcripts; or a folding
challenge drawn after the given transcript is zero and the prover panics. -/
theorem polyeval_complete {E : Env F G P} (hE : E.Lawful) {Z r : List F}
    (hZ : Z.length = 2 ^ r.length) (hr : r.length ≤ 62) {gens : DotGens G} {g0 h : G}
    (hg : gens.WF (r.length - r.length / 2) g0 h) (ctape : Option (Tape F)) (bz : Option F)
    (tr : Tr F P) (tape : Tape F) :
    ∃ poly comm blinds ctape', Dense.new Z = .ok poly ∧
      poly.commit E gens ctape = .ok (comm, blinds, ctape') ∧
      ((∃ pf Czr tr' tape',
        polyEvalProve E poly (ctape.map fun _ => blinds) r (mle Z r) bz gens tr tape
          = .ok (pf, Czr, tr', tape') ∧
        Czr = E.compress (mle Z r • g0 + bz.getD 0 • h) ∧
        polyEvalVerify E pf gens tr r Czr comm = .ok tr' ∧
        (bz = none → polyEvalVerifyPlain E pf gens tr r (mle Z r) comm = .ok tr')) ∨
      (polyEvalProve E poly (ctape.map fun _ => blinds) r (mle Z r) bz gens tr tape
          = .error .panic ∧ ∃ t, tr <+: t ∧ E.hash (t ++ [.chal "u"]) = 0)) := by
  refine ⟨_, _, _, _, Dense.new_eq hZ, commit_eq E hZ hg ctape, ?_⟩
  rcases polyEval_complete hE hZ hg (by omega) (commitBlinds (2 ^ (r.length / 2)) ctape).1
    (commitBlinds_length _ _) (ctape.map fun _ => (commitBlinds (2 ^ (r.length / 2)) ctape).1)
    (by cases ctape <;> simp [commitBlinds]) bz tr tape with ⟨pf, Czr, tr', tape', h1, h2, h3, -⟩ | hh
  · left
    refine ⟨pf, Czr, tr', tape', h1, h2, h3, ?_⟩
    rintro rfl
    unfold polyEvalVerifyPlain
    rw [hg.g1, commit1_single, ok_bind]
    rw [h2] at h3
    exact h3
  · right; exact hh

/-- C27 with the generators the library derives and an oracle without zero folding
challenges. -/
theorem polyeval_complete_derived {E : Env F G P} (hE : E.Lawful)
    (hu : ∀ t, E.hash (t ++ [.chal "u"]) ≠ 0) (S : GenSrc G) (label : List UInt8) {Z r : List F}
    (hZ : Z.length = 2 ^ r.length) (hr : r.length ≤ 62) (ctape : Option (Tape F)) (bz : Option F)
    (tr : Tr F P) (tape : Tape F) :
    ∃ gens poly comm blinds ctape' pf Czr tr' tape',
      polyCommitGens S r.length label = .ok gens ∧ Dense.new Z = .ok poly ∧
      poly.commit E gens ctape = .ok (comm, blinds, ctape') ∧
      polyEvalProve E poly (ctape.map fun _ => blinds) r (mle Z r) bz gens tr tape
          = .ok (pf, Czr, tr', tape') ∧
      polyEvalVerify E pf gens tr r Czr comm = .ok tr' := by
  obtain ⟨gens, g0, h, e1, e2, -, -⟩ := polyCommitGens_wf S (ell := r.length) (by omega) label
  obtain ⟨poly, comm, blinds, ctape', f1, f2, f3⟩ :=
    polyeval_complete hE hZ hr e2 ctape bz tr tape
  rcases f3 with ⟨pf, Czr, tr', tape', h1, -, h3, -⟩ | ⟨-, t, -, ht⟩
  · exact ⟨gens, poly, comm, blinds, ctape', pf, Czr, tr', tape', e1, f1, f2, h1, h3⟩
  · exact absurd ht (hu t)

/-- A two-variable polynomial over ℚ meets the hypotheses of C27. -/
example : ∃ gens poly comm blinds ctape' pf Czr tr' tape',
      polyCommitGens (⟨fun _ i => UInt8.ofNat i, fun b => (b.getD 0 0).toNat⟩ : GenSrc ℚ) 2 [1] = .ok gens ∧
      Dense.new [(1 : ℚ), 2, 3, 4] = .ok poly ∧
      poly.commit (⟨id, some, fun _ => 5⟩ : Env ℚ ℚ ℚ) gens (some fun i => i) = .ok (comm, blinds, ctape') ∧
      polyEvalProve (⟨id, some, fun _ => 5⟩ : Env ℚ ℚ ℚ) poly ((some fun i => (i : ℚ)).map fun _ => blinds) [7, 8] (mle [1, 2, 3, 4] [7, 8])
        (some 3) gens [] (fun i => i) = .ok (pf, Czr, tr', tape') ∧
      polyEvalVerify (⟨id, some, fun _ => 5⟩ : Env ℚ ℚ ℚ) pf gens [] [7, 8] Czr comm = .ok tr' :=
  polyeval_complete_derived (E := ⟨id, some, fun _ => 5⟩) (fun _ => rfl) (fun _ => by norm_num)
    _ [1] (Z := [1, 2, 3, 4]) (r := [7, 8]) rfl (by simp) _ _ _ _

end Spartan
