import Verif.Lemmas.SumcheckSound
import Mathlib.Data.Rat.Defs
import Mathlib.Algebra.Field.Rat
import Mathlib.Tactic.NormNum

/-! C29: soundness of `SumcheckInstanceProof::verify`. -/

set_option linter.unusedSectionVars false

namespace Spartan
open Spec Polynomial
variable {F G P : Type} [Field F] [AddCommGroup G] [Module F G]
  [DecidableEq F] [DecidableEq P] [DecidableEq G]

theorem loop_sound {E : Env F G P} {d : Nat} : ∀ (cps : List (CompressedUniPoly F)) (f : List F → F)
    (claim : F) (rs : List F) (tr tr' : Tr F P), IndivDegree cps.length d f →
    scVerifyLoop E d cps claim tr = .ok (f rs, rs, tr') → claim ≠ cubeSum cps.length f [] →
    ∃ (i : Nat) (t : Tr F P) (cs : List F) (q : F[X]), i < cps.length ∧
      cs.length = d + 1 ∧
      (⟨cs⟩ : UniPoly F).append "poly" t ++ [.chal "challenge_nextround"] <+: tr' ∧ tr <+: t ∧
      rs.getD i 0 = E.hash ((⟨cs⟩ : UniPoly F).append "poly" t ++ [.chal "challenge_nextround"]) ∧
      (∀ x, q.eval x = polyEval cs x - cubeSum (cps.length - 1 - i) f (rs.take i ++ [x])) ∧
      q ≠ 0 ∧ q.natDegree ≤ d ∧ q.eval (rs.getD i 0) = 0
  | [], f, claim, rs, tr, tr', _, h, hne => by
    rw [scVerifyLoop] at h
    cases h
    exact absurd (cubeSum_zero f []).symm hne
  | cp :: cps, f, claim, rs, tr, tr', hf, h, hne => by
    obtain ⟨r, e1, tr1, rs', rfl, h1, h2⟩ := scVerifyLoop_cons_ok h
    obtain ⟨hl, -, hs, ht, hr, he⟩ := scVerifyRound_ok h1
    obtain ⟨hpre, hrl⟩ := scVerifyLoop_prefix h2
    obtain ⟨q, hq0, hqd, hqe⟩ := exists_diff hf hl hs hne
    by_cases hgood : e1 = cubeSum cps.length f [r]
    · refine ⟨0, tr, sentPoly cp claim, q, by simp, hl, by rw [← ht]; exact hpre, List.prefix_refl _,
        ?_, by simpa using hqe, hq0, hqd, ?_⟩
      · rw [List.getD_cons_zero, ← ht]; exact hr
      · rw [List.getD_cons_zero, hqe, ← he, hgood, sub_self]
    · obtain ⟨i, t, cs, q', hi, hcl, hp, htt, hhash, hqe', h0', hd', hz'⟩ :=
        loop_sound cps (fun l => f (r :: l)) e1 rs' tr1 tr' (indivDegree_cons hf r) h2
          (by rw [cubeSum_cons]; exact hgood)
      refine ⟨i + 1, t, cs, q', by simp [hi], hcl, hp, ?_, by simpa using hhash, ?_, h0', hd',
        by simpa using hz'⟩
      · refine List.IsPrefix.trans ?_ htt
        rw [ht]
        exact (append_prefix _ _ _).trans (List.prefix_append _ _)
      · intro x
        rw [hqe' x, cubeSum_cons]
        simp [show cps.length - (i + 1) = cps.length - 1 - i by omega]

/-- C29, Fiat–Shamir form.  Suppose verification of `numRounds` messages against a wrong sum of
`f` ends with the value of `f` at the derived point.  Then in some round `i` the challenge, the
hash of a transcript ending with the coefficients `cs` sent in that round, is a root of a nonzero
polynomial of degree at most `d`, namely of the difference between the polynomial sent and the
true partial sum of `f` at the earlier challenges. -/
theorem sumcheck_sound {E : Env F G P} {d n : Nat} {polys : List (CompressedUniPoly F)}
    {f : List F → F} (hf : IndivDegree n d f) {claim : F} {rs : List F} {tr tr' : Tr F P}
    (h : scVerify E polys claim n d tr = .ok (f rs, rs, tr')) (hne : claim ≠ cubeSum n f []) :
    ∃ (i : Nat) (t : Tr F P) (cs : List F) (q : F[X]), i < n ∧ cs.length = d + 1 ∧
      (⟨cs⟩ : UniPoly F).append "poly" t ++ [.chal "challenge_nextround"] <+: tr' ∧ tr <+: t ∧
      rs.getD i 0 = E.hash ((⟨cs⟩ : UniPoly F).append "poly" t ++ [.chal "challenge_nextround"]) ∧
      (∀ x, q.eval x = polyEval cs x - cubeSum (n - 1 - i) f (rs.take i ++ [x])) ∧
      q ≠ 0 ∧ q.natDegree ≤ d ∧ q.eval (rs.getD i 0) = 0 := by
  unfold scVerify at h
  obtain ⟨_, hn, h'⟩ := bind_ok h
  have hn := check_ok hn
  subst hn
  exact loop_sound polys f claim rs tr tr' hf h' hne

/-- C29, counting form.  Fix any strategy `σ` choosing each message from the challenges seen so
far, and a wrong claim.  Of the `|F|^n` challenge vectors at most `n·d·|F|^(n-1)` can be the ones
derived in an accepting run of the verifier that ends with the correct final evaluation. -/
theorem sumcheck_sound_count [Fintype F] {d n : Nat} (σ : List F → CompressedUniPoly F)
    {f : List F → F} (hf : IndivDegree n d f) {claim : F} (hne : claim ≠ cubeSum n f []) :
    Set.ncard {rs : Fin n → F | ∃ (E : Env F G P) (tr tr' : Tr F P),
      scVerify E ((List.range n).map fun i => σ ((List.ofFn rs).take i)) claim n d tr
        = .ok (f (List.ofFn rs), List.ofFn rs, tr')} ≤ n * d * Fintype.card F ^ (n - 1) := by
  classical
  refine le_trans ?_ (coin_count n σ claim f hf hne)
  rw [← Set.ncard_coe_finset]
  apply Set.ncard_le_ncard
  · rintro rs ⟨E, tr, tr', h⟩
    unfold scVerify at h
    obtain ⟨_, -, h⟩ := bind_ok h
    simp only [Finset.coe_filter, Finset.mem_univ, true_and, Set.mem_setOf_eq]
    refine coinAcc_of_loop (E := E) (List.ofFn rs) σ claim f tr tr' ?_
    rw [List.length_ofFn]
    exact h
  · exact Set.toFinite _

/-- C29: a wrong number of messages panics. -/
theorem sumcheck_wrong_counts_panic (E : Env F G P) (polys : List (CompressedUniPoly F)) (claim : F)
    {n : Nat} (d : Nat) (tr : Tr F P) (h : polys.length ≠ n) :
    scVerify E polys claim n d tr = .error .panic := by
  unfold scVerify; rw [check_false h]; rfl

/-- C29: every accepted message has exactly `d` compressed coefficients. -/
theorem sumcheck_ok_shape {E : Env F G P} {polys : List (CompressedUniPoly F)} {claim e : F}
    {n d : Nat} {rs : List F} {tr tr' : Tr F P} (h : scVerify E polys claim n d tr = .ok (e, rs, tr')) :
    polys.length = n ∧ rs.length = n ∧ ∀ cp ∈ polys, cp.coeffs.length = d := by
  unfold scVerify at h
  obtain ⟨_, hn', h'⟩ := bind_ok h
  have hn := check_ok hn'
  refine ⟨hn, by rw [(scVerifyLoop_prefix h').2, hn], ?_⟩
  clear hn h hn'
  rename' h' => h
  induction polys generalizing claim rs tr with
  | nil => simp
  | cons cp cps ih =>
    obtain ⟨r, e1, tr1, rs', rfl, h1, h2⟩ := scVerifyLoop_cons_ok h
    obtain ⟨-, hl, -⟩ := scVerifyRound_ok h1
    intro c hc
    rcases List.mem_cons.1 hc with rfl | hc
    · exact hl
    · exact ih h2 c hc

/-- Out of `Out`: the only failure of a computation is a panic. -/
def PanicOnly {α : Type} (x : Out α) : Prop := ∀ e, x = .error e → e = .panic

theorem PanicOnly.bind {α β : Type} {x : Out α} {f : α → Out β} (hx : PanicOnly x)
    (hf : ∀ a, PanicOnly (f a)) : PanicOnly (x >>= f) := by
  intro e h
  cases x with
  | error e' => cases h; exact hx _ rfl
  | ok a => exact hf a e h

theorem panicOnly_ok {α : Type} (a : α) : PanicOnly (.ok a : Out α) := by intro e h; cases h
theorem panicOnly_panic {α : Type} : PanicOnly (.error .panic : Out α) := by intro e h; cases h; rfl
theorem panicOnly_check {b : Prop} {_ : Decidable b} : PanicOnly (check b) := by
  unfold check; split
  · exact panicOnly_ok _
  · exact panicOnly_panic

/-- C29: a rejection by `SumcheckInstanceProof::verify` is always a panic (a failed assertion),
never an `Err`, although the function returns `Result`. -/
theorem sumcheck_reject_is_panic (E : Env F G P) (polys : List (CompressedUniPoly F)) (claim : F)
    (n d : Nat) (tr : Tr F P) : PanicOnly (scVerify E polys claim n d tr) := by
  refine panicOnly_check.bind fun _ => ?_
  induction polys generalizing claim tr with
  | nil => exact panicOnly_ok _
  | cons cp cps ih =>
    unfold scVerifyLoop
    refine PanicOnly.bind ?_ fun ⟨r, e, t⟩ => (ih e t).bind fun _ => panicOnly_ok _
    unfold scVerifyRound
    refine PanicOnly.bind ?_ fun p => PanicOnly.bind ?_ fun k => panicOnly_check.bind fun _ =>
      PanicOnly.bind ?_ fun e0 => panicOnly_check.bind fun _ => PanicOnly.bind ?_ fun _ => panicOnly_ok _
    · unfold CompressedUniPoly.decompress; split
      · exact panicOnly_panic
      · exact panicOnly_ok _
    · exact panicOnly_check.bind fun _ => panicOnly_ok _
    · unfold UniPoly.evalAtZero; split
      · exact panicOnly_panic
      · exact panicOnly_ok _
    · unfold UniPoly.evaluate; split
      · exact panicOnly_panic
      · exact panicOnly_ok _

/-! Non-vacuity: `f x = x` over ℚ (one round, degree one, true sum 1).  The cheating claim 3
is accepted when the challenge is 1, where the cheating message `2 - x`, whose sum is 3,
meets `x`. -/

theorem indiv_id : IndivDegree 1 1 (fun l : List ℚ => l.getD 0 0) := by
  intro pre post h
  have : pre = [] := by cases pre with
    | nil => rfl
    | cons => simp at h; omega
  subst this
  exact ⟨X, natDegree_X_le, fun x => by simp⟩

example : (3 : ℚ) ≠ cubeSum 1 (fun l => l.getD 0 0) [] := by
  rw [cubeSum_succ, cubeSum_zero, cubeSum_zero]; norm_num

example : scVerify (⟨id, some, fun _ => 1⟩ : Env ℚ ℚ ℚ) [⟨[2]⟩] 3 1 1 [] =
    .ok ((fun l : List ℚ => l.getD 0 0) [1], [1],
      (⟨[2, -1]⟩ : UniPoly ℚ).append "poly" [] ++ [.chal "challenge_nextround"]) := by
  have e : (3 : ℚ) - 2 - 2 = -1 := by norm_num
  simp [scVerify, scVerifyLoop, scVerifyRound, CompressedUniPoly.decompress, UniPoly.degree,
    UniPoly.evalAtZero, UniPoly.evalAtOne, UniPoly.evaluate, UniPoly.evalLoop, check, bind, Except.bind,
    pure, Except.pure, Env.challenge, e]
  norm_num

end Spartan
