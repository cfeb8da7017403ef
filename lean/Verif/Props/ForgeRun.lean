import Verif.Props.Machine
import Verif.Props.NIZK
import Verif.Props.SNARK

/-!
C38 and C70 are false for the hash of the code: the forged proofs of `Props/NIZK` and `Props/SNARK` on the limbs, points,
generators and transcript of the program.  The condition is on the challenges of the one run only.
-/

set_option linter.unusedSectionVars false

namespace Spartan
open Spec MParams

section Run
variable {F G P : Type} [Field F] [AddCommGroup G] [Module F G]
  [DecidableEq F] [DecidableEq P] [DecidableEq G]

/-- The oracle that answers one where the given oracle answers zero to a folding challenge, and zero where it answers one
to a round challenge. -/
def tameHash (hash : Tr F P → F) : Tr F P → F := fun t =>
  match t.getLast? with
  | some (.chal l) =>
    if l = "u" ∧ hash t = 0 then 1 else if l = "challenge_nextround" ∧ hash t = 1 then 0 else hash t
  | _ => hash t

/-- No folding challenge of the run with transcript `T` is zero and no round challenge is one. -/
def Tame (hash : Tr F P → F) (T : Tr F P) : Prop :=
  (∀ t, t ++ [.chal "u"] <+: T → hash (t ++ [.chal "u"]) ≠ 0) ∧
  ∀ t, t ++ [.chal "challenge_nextround"] <+: T → hash (t ++ [.chal "challenge_nextround"]) ≠ 1

theorem tameHash_chal (hash : Tr F P → F) (t : Tr F P) (l : String) :
    tameHash hash (t ++ [.chal l]) =
      if l = "u" ∧ hash (t ++ [.chal l]) = 0 then 1
      else if l = "challenge_nextround" ∧ hash (t ++ [.chal l]) = 1 then 0 else hash (t ++ [.chal l]) := by
  unfold tameHash
  rw [List.getLast?_concat]

theorem tameHash_fold (hash : Tr F P → F) (t : Tr F P) : tameHash hash (t ++ [.chal "u"]) ≠ 0 := by
  rw [tameHash_chal]
  split_ifs with h h'
  · exact one_ne_zero
  · exact absurd h'.1 (by decide)
  · exact fun e => h ⟨rfl, e⟩

theorem tameHash_round (hash : Tr F P → F) (t : Tr F P) : tameHash hash (t ++ [.chal "challenge_nextround"]) ≠ 1 := by
  rw [tameHash_chal]
  split_ifs with h h'
  · exact absurd h.1 (by decide)
  · exact zero_ne_one
  · exact fun e => h' ⟨rfl, e⟩

theorem agree_of_tame {hash : Tr F P → F} {T : Tr F P} (h : Tame hash T) : Agree T hash (tameHash hash) := by
  intro t l hl
  rw [tameHash_chal]
  split_ifs with h1 h2
  · obtain ⟨rfl, h0⟩ := h1
    exact absurd h0 (h.1 t hl)
  · obtain ⟨rfl, h0⟩ := h2
    exact absurd h0 (h.2 t hl)
  · rfl

/-- C38 is FALSE for every hash function: for every instance of `Instance::new` with a constraint, satisfiable or not,
and every input of the declared length there are a proof object and a transcript `T` such that the verifier accepts the
proof, unless a folding challenge in `T` is zero or a round challenge in `T` is one. -/
theorem nizk_forgery_run {E : Env F G P} (hE : E.Lawful) {K : Codec F} {nc nv ni : Nat}
    {A B C : List (Nat × Nat × List UInt8)} {I : Inst F} (hnew : Inst.new K nc nv ni A B C = .ok (.ok I)) (hc : 1 ≤ nc)
    (hsz : I.inst.numVars ≤ 2 ^ 62) (S : GenSrc G) (label : List UInt8) {input : List F} (hi : input.length = ni)
    (tr : Tr F P) :
    ∃ gens pf T, NIZKGens.new S label nv ni = .ok gens ∧
      NIZK.verify (E.withHash (tameHash E.hash)) pf I input gens tr = .ok T ∧ tr <+: T ∧
      (Tame E.hash T → NIZK.verify E pf I input gens tr = .ok T) := by
  obtain ⟨hA, hB, hC, hIe⟩ := new_ok_entries hnew
  obtain ⟨k, j, hwf, -, hk, hj⟩ := builtR1CS_wf hA hB hC
  have hj62 : j ≤ 62 := (Nat.pow_le_pow_iff_right (a := 2) (by norm_num)).1 (by
    rw [← hj]; rw [hIe] at hsz; exact hsz)
  obtain ⟨gens, g0, h, hg, hgw⟩ := r1csGens_wf S hj62 label
  obtain ⟨pf, T, hv⟩ := nizk_forgery (hE.withHash (tameHash E.hash)) (tameHash_fold E.hash) (tameHash_round E.hash) (I := I)
    (by rw [hIe]; exact hwf) (hk hc) hj62 hgw (input := input) (by rw [hi, hIe]; rfl) tr
  have hl := (nizk_run_local (E := E) (h' := tameHash E.hash) (vars := []) (tape := fun _ => 0)).2 pf T hv
  exact ⟨gens, pf, T, by unfold NIZKGens.new; rw [hj]; exact hg, hv, hl.1, fun ht => hl.2 (agree_of_tame ht)⟩

/-- C70 is FALSE for every hash function, in the same way; here the round challenges do not matter. -/
theorem snark_forgery_run (h2 : (2 : F) ≠ 0) (h3 : (3 : F) ≠ 0) {E : Env F G P} (hE : E.Lawful)
    {K : Codec F} {nc nv ni nz : Nat} {A B C : List (Nat × Nat × List UInt8)} {I : Inst F}
    (hnew : Inst.new K nc nv ni A B C = .ok (.ok I)) (hc : 1 ≤ nc)
    (hnz : nextPow2 nz = nextPow2 (max (max I.inst.A.M.length I.inst.B.M.length) I.inst.C.M.length))
    (hnz2 : 2 ≤ nextPow2 nz) (hnz58 : nextPow2 nz ≤ 2 ^ 58) (hsc : I.inst.numCons ≤ 2 ^ 61)
    (hsv : I.inst.numVars ≤ 2 ^ 60)
    (S : GenSrc G) (ls le : List UInt8) {inputs : List F} (hin : inputs.length = ni) (tr : Tr F P) (tape : Tape F) :
    ∃ gens comm decomm pf T, SNARKGens.new S ls le nc nv ni nz = .ok gens ∧
      SNARK.encode E I gens = .ok (comm, decomm) ∧
      snarkForge (E.withHash (nonzeroFold E.hash)) comm decomm inputs gens tr tape = .ok (pf, T) ∧
      (NoZeroFold E.hash T → SNARK.verify E pf comm inputs gens tr = .ok T) := by
  obtain ⟨gens, comm, decomm, pf, T, hg, he, hp, hv⟩ := snark_forgery h2 h3
    (hE.withHash (nonzeroFold E.hash)) (nonzeroFold_ne E.hash) hnew hc hnz hnz2 hnz58 hsc hsv S ls le hin tr tape
  exact ⟨gens, comm, decomm, pf, T, hg, he, hp, fun hz => (snarkV_local (agree_of_noZero hz) _ _ _ _ _ _ hv).2 List.prefix_rfl⟩

end Run

open Mach

/-- The system `1 * 1 = 0` on the scalars of the program: it has an instance, and no assignment satisfies it. -/
theorem machine_unsat (digest : R1CS Sc → List UInt8) (nv ni : Nat) : ∃ I,
    Inst.new (codec digest) 1 nv ni [(0, nv, encField 1)] [(0, nv, encField 1)] [] = .ok (.ok I) ∧
      I.inst.A.M.length = 2 ∧ I.inst.B.M.length = 2 ∧ I.inst.C.M.length = 2 ∧ I.inst.numCons = 2 ∧
      I.inst.numVars = varsPadded nv ni ∧
      ∀ (vars input : List Sc), input.length = ni → vars.length ≤ I.inst.numVars →
        I.isSat vars input = .ok (.ok false) := by
  have h1 : (codec digest).fromBytes (encField 1) = some 1 := by
    obtain ⟨a, e, ha⟩ := field_bytes digest (w := 1) (by decide +kernel)
    rw [e]
    congr 1
    refine Sc.val_inj ?_
    rw [ha, ← val_natCast, Nat.cast_one]
  obtain ⟨I, hI⟩ := (instance_new_ok_iff (codec digest) 1 nv ni [(0, nv, encField 1)] [(0, nv, encField 1)] []).2
    (by simp [h1])
  have hl : I.inst.A.M.length = 2 ∧ I.inst.B.M.length = 2 ∧ I.inst.C.M.length = 2 ∧ I.inst.numCons = 2 ∧
      I.inst.numVars = varsPadded nv ni := by
    obtain ⟨-, -, -, rfl⟩ := new_ok_entries hI
    exact ⟨built_one_length _ _ _ (by simp), built_one_length _ _ _ (by simp), built_one_length _ _ _ (by simp),
      rfl, rfl⟩
  refine ⟨I, hI, hl.1, hl.2.1, hl.2.2.1, hl.2.2.2.1, hl.2.2.2.2, ?_⟩
  intro vars input hi hvl
  obtain ⟨b, hb, hiff⟩ := padding_preserves_sat hI hvl hi
  rw [hb]
  congr 2
  rw [Bool.eq_false_iff]
  intro hbt
  have := hiff.1 hbt 0 (by norm_num)
  rw [rowDot_eq _ (by simp [parsed, zvec, fit_length]), rowDot_eq _ (by simp [parsed])] at this
  have e := zvec_getD_ge (fit nv vars) input 0
  rw [fit_length, add_zero] at e
  simp only [parsed, List.map_cons, List.map_nil, List.sum_cons, List.sum_nil, if_true, h1,
    Option.getD_some, e, List.getD_cons_zero] at this
  norm_num at this

/-- C38 is FALSE of the program: the constraint `1 * 1 = 0`, with any number of variables and any public input, has a
proof that `NIZK::verify` accepts, unless a folding challenge of its transcript is zero or a round challenge is one. -/
theorem machine_nizk_unsound (f : Pt.Formulas) (name : String) (digest : R1CS Sc → List UInt8) (label : List UInt8)
    (nv : Nat) (input : List Sc) (hsz : varsPadded nv input.length ≤ 2 ^ 62) :
    ∃ I gens pf T,
      Inst.new (codec digest) 1 nv input.length [(0, nv, encField 1)] [(0, nv, encField 1)] [] = .ok (.ok I) ∧
      (∀ vars : List Sc, vars.length ≤ I.inst.numVars → I.isSat vars input = .ok (.ok false)) ∧
      NIZKGens.new (src f) label nv input.length = .ok gens ∧
      NIZK.verify ((env f name).withHash (tameHash (env f name).hash)) pf I input gens [] = .ok T ∧
      (Tame (env f name).hash T → NIZK.verify (env f name) pf I input gens [] = .ok T) := by
  obtain ⟨I, hI, -, -, -, -, hv, hu⟩ := machine_unsat digest nv input.length
  obtain ⟨gens, pf, T, h1, h2, -, h3⟩ := nizk_forgery_run (machine_encodings (f := f) name).2.2 hI le_rfl
    (by rw [hv]; exact hsz) (src f) label rfl []
  exact ⟨I, gens, pf, T, hI, fun vars => hu vars input rfl, h1, h2, h3⟩

/-- C70 is FALSE of the program: the program `snarkForge` makes, from public data, a proof of `1 * 1 = 0` that
`SNARK::verify` accepts, unless a folding challenge of its transcript is zero. -/
theorem machine_snark_unsound (f : Pt.Formulas) (name : String) (digest : R1CS Sc → List UInt8) (ls le : List UInt8)
    (nv : Nat) (input : List Sc) (hsz : varsPadded nv input.length ≤ 2 ^ 60) (tape : Tape Sc) :
    ∃ I gens comm decomm pf T,
      Inst.new (codec digest) 1 nv input.length [(0, nv, encField 1)] [(0, nv, encField 1)] [] = .ok (.ok I) ∧
      (∀ vars : List Sc, vars.length ≤ I.inst.numVars → I.isSat vars input = .ok (.ok false)) ∧
      SNARKGens.new (src f) ls le 1 nv input.length 2 = .ok gens ∧
      SNARK.encode (env f name) I gens = .ok (comm, decomm) ∧
      snarkForge ((env f name).withHash (nonzeroFold (env f name).hash)) comm decomm input gens [] tape = .ok (pf, T) ∧
      (NoZeroFold (env f name).hash T → SNARK.verify (env f name) pf comm input gens [] = .ok T) := by
  obtain ⟨I, hI, lA, lB, lC, hn, hv, hu⟩ := machine_unsat digest nv input.length
  obtain ⟨gens, comm, decomm, pf, T, h1, h2, h3, h4⟩ := snark_forgery_run two_ne three_ne
    (machine_encodings (f := f) name).2.2 hI le_rfl (nz := 2) (by rw [lA, lB, lC]; rfl) (by rw [nextPow2_two])
    (by rw [nextPow2_two]; norm_num) (by rw [hn]; norm_num) (by rw [hv]; exact hsz) (src f) ls le rfl [] tape
  exact ⟨I, gens, comm, decomm, pf, T, hI, fun vars => hu vars input rfl, h1, h2, h3, h4⟩

/-- With two variables and one public input. -/
example (f : Pt.Formulas) (digest : R1CS Sc → List UInt8) : ∃ I gens pf T,
    Inst.new (codec digest) 1 2 1 [(0, 2, encField 1)] [(0, 2, encField 1)] [] = .ok (.ok I) ∧
    (∀ vars : List Sc, vars.length ≤ I.inst.numVars → I.isSat vars [7] = .ok (.ok false)) ∧
    NIZKGens.new (src f) [1] 2 1 = .ok gens ∧
    NIZK.verify ((env f "nizk_example").withHash (tameHash (env f "nizk_example").hash)) pf I [7] gens [] = .ok T ∧
    (Tame (env f "nizk_example").hash T → NIZK.verify (env f "nizk_example") pf I [7] gens [] = .ok T) :=
  machine_nizk_unsound f "nizk_example" digest [1] 2 [7]
    (by rw [varsPadded_eq]; exact (Nat.le_of_eq (nextPow2_pow 1)).trans (by norm_num))

end Spartan
