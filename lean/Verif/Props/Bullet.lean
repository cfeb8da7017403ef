import Verif.Lemmas.DotLog
import Mathlib.Algebra.Field.Rat
import Mathlib.Tactic.NormNum

/-!
C19 (multi-scalar multiplication), C25 (completeness of the logarithmic
dot-product proof) and C26 (its soundness, which fails).
-/

set_option linter.unusedSectionVars false

namespace Spartan
variable {F G P : Type} [Field F] [AddCommGroup G] [Module F G]
  [DecidableEq F] [DecidableEq P] [DecidableEq G]

/-! ### C19 -/

/-- C19, equal lengths: the result is `Σ sᵢ • pᵢ` (sum over positions). -/
theorem msm_correct {ss : List F} {ps : List G} (h : ss.length = ps.length) :
    msm ss ps = .ok ((List.zipWith (fun s p => s • p) ss ps).sum) := msm_eq h.le

/-- C19, more scalars than points: panic. -/
theorem msm_too_many_scalars {ss : List F} {ps : List G} (h : ps.length < ss.length) :
    msm ss ps = .error .panic := msm_panic h

/-- C19, the property is FALSE for surplus points: every list of points that is
longer than the list of scalars is accepted and the surplus is ignored. -/
theorem msm_surplus_points_ignored (ss : List F) (ps extra : List G) (h : ss.length = ps.length) :
    msm ss (ps ++ extra) = msm ss ps := by
  rw [msm_eq (by simp [h]), msm_eq h.le]
  have := lc_append (F := F) (b := []) (q := extra) h
  simp at this; rw [this]

/-- C19 partial: mismatched lengths are rejected when there are too few points
(missing: surplus points are accepted, see `msm_surplus_points_ignored`). -/
theorem msm_partial (ss : List F) (ps : List G) (r : G) :
    msm ss ps = .ok r ↔ ss.length ≤ ps.length ∧
      r = (List.zipWith (fun s p => s • p) ss ps).sum := msm_ok_iff

example : msm ([2] : List ℚ) ([3, 5] : List ℚ) = .ok 6 := by
  rw [msm_eq (by simp)]; norm_num [lc]

/-! ### C39, the reduction proof -/

/-- A reduction proof whose number of rounds does not match the length of the vectors, or is 32 or
more, is reported as `InternalError` before any challenge is drawn. -/
theorem bullet_size_reported (E : Env F G P) (pf : BulletProof P) (n : Nat) (a : List F) (tr : Tr F P)
    (Gamma : G) (Gv : List G) (h : 32 ≤ pf.L.length ∨ n ≠ 2 ^ pf.L.length) :
    pf.verify E n a tr Gamma Gv = .error (.err .internalError) := by
  have hs : pf.scalars E n tr = .error (.err .internalError) := by
    unfold BulletProof.scalars
    simp only
    by_cases h1 : pf.L.length ≥ 32
    · rw [if_pos h1]
    · rw [if_neg h1, if_pos (h.resolve_left h1)]
  unfold BulletProof.verify
  rw [hs]; rfl

example (E : Env ℚ ℚ ℚ) : BulletProof.verify E ⟨List.replicate 32 0, List.replicate 32 0⟩ (2 ^ 32) []
    [] (0 : ℚ) [] = .error (.err .internalError) := bullet_size_reported E _ _ _ _ _ _ (by simp)

/-! ### C25 -/

/-- C25.  For every `k < 32` and vectors of length `2^k`: either the honest proof
is produced, verifies, and both transcripts agree; or a folding challenge drawn
after the given transcript is zero and the prover panics. -/
theorem dotproductlog_complete {E : Env F G P} (hE : E.Lawful) {gens : DotGens G} {k : Nat}
    {g0 h : G} (hg : gens.WF k g0 h) (hk : k < 32) (tr : Tr F P) (tape : Tape F)
    {x a : List F} (bx bY : F) (hx : x.length = 2 ^ k) (ha : a.length = 2 ^ k) :
    (∃ pf Cx Cy tr' tape',
      DotProductProofLog.prove E gens tr tape x bx a (dot x a) bY = .ok (pf, Cx, Cy, tr', tape') ∧
      Cx = E.compress (lc x gens.gensn.G + bx • h) ∧
      Cy = E.compress (dot x a • g0 + bY • h) ∧
      pf.verify E (2 ^ k) gens tr a Cx Cy = .ok tr' ∧ tr <+: tr') ∨
    (DotProductProofLog.prove E gens tr tape x bx a (dot x a) bY = .error .panic ∧
      ∃ t, tr <+: t ∧ E.hash (t ++ [.chal "u"]) = 0) :=
  dotlog_prove_complete hE hg hk tr tape bx bY hx ha

/-- C25, oracles whose folding challenges are never zero: the proof is always
produced and accepted. -/
theorem dotproductlog_complete_nonzero {E : Env F G P} (hE : E.Lawful)
    (hu : ∀ t, E.hash (t ++ [.chal "u"]) ≠ 0) {gens : DotGens G} {k : Nat}
    {g0 h : G} (hg : gens.WF k g0 h) (hk : k < 32) (tr : Tr F P) (tape : Tape F)
    {x a : List F} (bx bY : F) (hx : x.length = 2 ^ k) (ha : a.length = 2 ^ k) :
    ∃ pf Cx Cy tr' tape',
      DotProductProofLog.prove E gens tr tape x bx a (dot x a) bY = .ok (pf, Cx, Cy, tr', tape') ∧
      Cx = E.compress (lc x gens.gensn.G + bx • h) ∧
      Cy = E.compress (dot x a • g0 + bY • h) ∧
      pf.verify E (2 ^ k) gens tr a Cx Cy = .ok tr' := by
  rcases dotproductlog_complete hE hg hk tr tape bx bY hx ha with
    ⟨pf, Cx, Cy, tr', tape', h1, h2, h3, h4, -⟩ | ⟨-, t, -, ht⟩
  · exact ⟨pf, Cx, Cy, tr', tape', h1, h2, h3, h4⟩
  · exact absurd ht (hu t)

/-- The generators built by `DotProductProofGens::new` have the required shape. -/
theorem dotGens_ofGens_wf {g : Gens G} {k : Nat} (hn : g.G.length = 2 ^ k + 1) :
    ∃ dg g0, DotGens.ofGens (2 ^ k) g = .ok dg ∧ dg.WF k g0 g.h ∧ g.G = dg.gensn.G ++ [g0] := by
  have hd : (g.G.drop (2 ^ k)).length = 1 := by simp [hn]
  obtain ⟨g0, hg0⟩ := List.length_eq_one_iff.mp hd
  refine ⟨⟨2 ^ k, ⟨(g.G.take (2 ^ k)).length, g.G.take (2 ^ k), g.h⟩,
    ⟨(g.G.drop (2 ^ k)).length, g.G.drop (2 ^ k), g.h⟩⟩, g0, ?_, ?_, ?_⟩
  · simp [DotGens.ofGens, Gens.splitAt, check, hn, pure_ok]
  · refine ⟨rfl, by simp [hn], by simp [hn], rfl, ?_⟩
    simp [hg0, Gens.single]
  · simp [← hg0]

example : ∃ dg g0, DotGens.ofGens (2 ^ 1) (⟨3, [1, 2, 3], 7⟩ : Gens ℚ) = .ok dg ∧
    dg.WF 1 g0 7 := by
  obtain ⟨dg, g0, h1, h2, -⟩ := dotGens_ofGens_wf (k := 1) (g := (⟨3, [1, 2, 3], 7⟩ : Gens ℚ)) rfl
  exact ⟨dg, g0, h1, h2⟩

/-! ### C26 -/

/-- C26 is FALSE.  For every statement -- any two decodable commitments
`Cx, Cy`, any vector `a` -- and any choice of the other proof components, there
is a point to append to `R_vec` (and a `delta`) such that the verifier accepts,
unless a folding challenge is zero.  No opening of `Cx` or `Cy` is used. -/
theorem dotproductlog_forgery {E : Env F G P} (hE : E.Lawful)
    (hu : ∀ t, E.hash (t ++ [.chal "u"]) ≠ 0) {gens : DotGens G} {k : Nat} {g0 h : G}
    (hg : gens.WF k g0 h) (hk : k < 32) (tr : Tr F P) {a : List F} (ha : a.length = 2 ^ k)
    (X Y : G) (LG RG : List G) (hL : LG.length = k) (hR : RG.length = k) (beta' : G) (z1 z2 : F) :
    ∃ R delta' : G, ∃ tr',
      (DotProductProofLog.mk ⟨LG.map E.compress, (RG ++ [R]).map E.compress⟩
        (E.compress delta') (E.compress beta') z1 z2).verify E (2 ^ k) gens tr a
        (E.compress X) (E.compress Y) = .ok tr' := by
  rcases dotlog_forge hE hg hk tr ha (hE X) (hE Y) LG RG hL hR beta' z1 z2 with
    ⟨R, d, t, h1, -⟩ | ⟨-, t, -, ht⟩
  · exact ⟨R, d, t, h1⟩
  · exact absurd ht (hu t)

/-- C26 is FALSE, universal version: the single proof object consisting of
identity points (`k` of them in `L_vec`, `k+1` in `R_vec`) and zero responses is
accepted for every statement. -/
theorem dotproductlog_universal_forgery {E : Env F G P} (hE : E.Lawful)
    (hu : ∀ t, E.hash (t ++ [.chal "u"]) ≠ 0) {gens : DotGens G} {k : Nat} {g0 h : G}
    (hg : gens.WF k g0 h) (hk : k < 32) (tr : Tr F P) {a : List F} (ha : a.length = 2 ^ k)
    (X Y : G) :
    ∃ tr', (DotProductProofLog.mk ⟨List.replicate k (E.compress 0),
        List.replicate (k + 1) (E.compress 0)⟩ (E.compress 0) (E.compress 0) 0 0).verify E (2 ^ k)
        gens tr a (E.compress X) (E.compress Y) = .ok tr' := by
  set us := (bulletChallenges E ((List.replicate k (0 : G)).map E.compress)
    ((List.replicate k (0 : G)).map E.compress)
    (dotLogTr0 tr (E.compress X) (E.compress Y) a)).1 with hus
  set t1 := (bulletChallenges E ((List.replicate k (0 : G)).map E.compress)
    ((List.replicate k (0 : G)).map E.compress)
    (dotLogTr0 tr (E.compress X) (E.compress Y) a)).2 with ht1
  have h0 : (0 : F) ∉ us := by
    intro h0
    obtain ⟨t, -, ht⟩ := bulletChallenges_zero E _ _ _ h0
    exact hu t ht
  rw [dotlog_verify_eq hg tr ha (hE X) (hE Y)]
  have e := bulletVerify_extra (Gamma := X + E.hash (dotLogTr0 tr (E.compress X) (E.compress Y) a) • Y)
      (X := 0) hE (LG := List.replicate k (0 : G)) (RG := List.replicate k (0 : G)) (k := k)
      (by simp) hk (by simp) (us := us) (tr' := t1)
      (tr := dotLogTr0 tr (E.compress X) (E.compress Y) a) rfl h0 ha hg.glen
  rw [← List.replicate_succ', List.map_replicate, List.map_replicate] at e
  simp only [e, ok_bind, unpack_compress hE]
  refine ⟨_, check_pure_ok (congrArg _ ?_) _⟩
  have z : ∀ ss : List F, lc ss (List.replicate k (0 : G)) = 0 := by
    intro ss
    generalize k = n
    induction ss generalizing n with
    | nil => simp
    | cons s ss ih => cases n <;> simp [List.replicate_succ, ih]
  rw [z, z]; simp

/-- C26 partial: when `R_vec` has the length of `L_vec`, acceptance does constrain
the commitments: `Cx + r • Cy` is determined by the proof through the final
equation.  (Missing: the verifier does not enforce that length, so the property
itself fails.) -/
theorem dotproductlog_bound_partial {E : Env F G P} (hE : E.Lawful) {gens : DotGens G} {k : Nat}
    {g0 h : G} (hg : gens.WF k g0 h) (tr tr' : Tr F P) {a : List F} (ha : a.length = 2 ^ k)
    (X Y : G) (LG RG : List G) (hk : k < 32) (hL : LG.length = k) (hR : RG.length = k)
    (beta' delta' : G) (z1 z2 : F)
    (hv : (DotProductProofLog.mk ⟨LG.map E.compress, RG.map E.compress⟩
        (E.compress delta') (E.compress beta') z1 z2).verify E (2 ^ k) gens tr a
        (E.compress X) (E.compress Y) = .ok tr') :
    ∃ (us : List F) (r : F), us.length = k ∧ (0 : F) ∉ us ∧
      dot a (sVec us) • (E.hash tr' • (lc (us.map (fun u => u * u)) LG +
        lc (us.map (fun u => u⁻¹ * u⁻¹)) RG + (X + r • Y)) + beta') + delta' =
      z1 • (lc (sVec us) gens.gensn.G + dot a (sVec us) • r • g0) + z2 • h := by
  rw [dotlog_verify_eq hg tr ha (hE X) (hE Y)] at hv
  obtain ⟨us, t1, hch⟩ : ∃ us t1, bulletChallenges E (LG.map E.compress) (RG.map E.compress)
    (dotLogTr0 tr (E.compress X) (E.compress Y) a) = (us, t1) := ⟨_, _, rfl⟩
  have hlen : us.length = k := by
    have := bulletChallenges_length E (LG.map E.compress) (RG.map E.compress)
      (dotLogTr0 tr (E.compress X) (E.compress Y) a)
    rw [hch] at this; simp at this; omega
  by_cases h0 : (0 : F) ∈ us
  · exfalso
    have : BulletProof.verify E ⟨LG.map E.compress, RG.map E.compress⟩ (2 ^ k) a
        (dotLogTr0 tr (E.compress X) (E.compress Y) a)
        (X + E.hash (dotLogTr0 tr (E.compress X) (E.compress Y) a) • Y) gens.gensn.G
          = .error .panic := by
      unfold BulletProof.verify BulletProof.scalars
      simp only [hch, List.length_map, hL]
      rw [if_neg (by omega), if_neg (by simp), batchInvert_panic h0]; rfl
    simp only [this, error_bind] at hv
    cases hv
  · refine ⟨us, E.hash (dotLogTr0 tr (E.compress X) (E.compress Y) a), hlen, h0, ?_⟩
    simp only [bulletVerify_eq hE hL hk hR hch h0 ha hg.glen, ok_bind, unpack_compress hE] at hv
    obtain ⟨_, hc, hp⟩ := bind_ok_iff.1 hv
    rw [check_ok_iff] at hc
    have hc := compress_inj hE hc
    cases hp
    exact hc

/-- The hypotheses of the forgery theorems are satisfiable (challenges all 1, k = 1). -/
example : ∃ (E : Env ℚ ℚ ℚ) (gens : DotGens ℚ) (g0 h : ℚ), E.Lawful ∧
    (∀ t, E.hash (t ++ [.chal "u"]) ≠ 0) ∧ gens.WF 1 g0 h := by
  obtain ⟨dg, g0, -, h2, -⟩ := dotGens_ofGens_wf (k := 1) (g := (⟨3, [1, 2, 3], 7⟩ : Gens ℚ)) rfl
  exact ⟨⟨id, some, fun _ => 1⟩, dg, g0, 7, fun _ => rfl, fun _ => by norm_num, h2⟩

end Spartan
