import Verif.Lemmas.Rank1
import Verif.Model.AddrMembership
import Batteries.Tactic.Init

/-!
The templates of the circuits have rank-1 constraints.
-/

set_option linter.unusedVariables false
set_option linter.unnecessarySeqFocus false

namespace Spartan.Circuit
open Rank1

/-- Affine functions of the signals. -/
syntax "aff" "[" term,* "]" : tactic
macro_rules
  | `(tactic| aff [$ts,*]) => do
    let ts := ts.getElems
    `(tactic| repeat' (first
        | exact Aff.const _ | exact Aff.var _ $[| exact Aff.comp $ts _]*
        | eapply Aff.neg | eapply Aff.sub | eapply Aff.add | eapply Aff.mulConst | eapply Aff.constMul
        | eapply Aff.ite | (eapply Aff.sum; intro _ _)))

/-- Affine functions of the signals with at most a given number of terms. -/
syntax "affle" "[" term,* "]" : tactic
macro_rules
  | `(tactic| affle [$ts,*]) =>
    `(tactic| (eapply Aff.mono; (focus (aff [$ts,*]; done)); (focus (norm_num; done))))

/-- Functions with one product. -/
syntax "quad" "[" term,* "]" : tactic
macro_rules
  | `(tactic| quad [$ts,*]) => do
    `(tactic| repeat' (first
        | (eapply Quad.mul <;> (aff [$ts,*]; done))
        | (eapply Quad.sub; rotate_left; (focus (aff [$ts,*]; done)))
        | (eapply Quad.add; rotate_left; (focus (aff [$ts,*]; done)))
        | (eapply Quad.rsub; (focus (aff [$ts,*]; done)))
        | (eapply Quad.radd; (focus (aff [$ts,*]; done)))))

/-- Functions with one product and at most a given number of terms. -/
syntax "quadle" "[" term,* "]" : tactic
macro_rules
  | `(tactic| quadle [$ts,*]) =>
    `(tactic| (eapply Quad.mono; (focus (quad [$ts,*]; done)); (focus (norm_num; done))))

/-- A component, with affine or quadratic functions of the signals as inputs. -/
syntax "tcomp" ident "[" term,* "]" : tactic
macro_rules
  | `(tactic| tcomp $t [$ts,*]) =>
    `(tactic| (eapply $t <;> (intros; (try simp only [ite_apply, lane]); first | (affle [$ts,*]; done) | (quadle [$ts,*]; done) | (norm_num; done))))

/-- An equation between functions of the signals. -/
syntax "r1eq" "[" term,* "]" : tactic
macro_rules
  | `(tactic| r1eq [$ts,*]) => do
    `(tactic| first
        | (eapply R1.affEq <;> (aff [$ts,*]; done))
        | (eapply R1.eqQuad; (focus (aff [$ts,*]; done)); (focus (quad [$ts,*]; done)))
        | (eapply R1.quadEq; (focus (quad [$ts,*]; done)); (focus (aff [$ts,*]; done))))

/-- Internal signals, conjunctions and loops. -/
macro "r1" : tactic => `(tactic| repeat' (first
        | (eapply R1.and) | (eapply R1.ex1; beta_reduce) | (eapply R1.ex; beta_reduce) | (eapply R1.ex2; beta_reduce)
        | (eapply R1.forallLt; intro _ _)
        | (eapply R1.forallRange; intro _ _ _) | (eapply R1.forallMem; intro _ _) | (eapply R1.imp; intro _)))

/-- A goal with a bound. -/
syntax "r1le" "(" tacticSeq ")" : tactic
macro_rules
  | `(tactic| r1le ($t)) => `(tactic| (eapply R1.mono; (case h => $t); (case hm => norm_num)))

variable {F : Type} [Field F] {ι : Type}

attribute [local irreducible] IsZero IsEqual Num2Bits LessThan GreaterThan GreaterEqThan AddIncomplete AddComplete Double
  KWith K MulSteps Mul EfficientECDSA SBox MatrixMul AddRoundConst FullRound PartialRound PoseidonWith Poseidon MultiMux1
  MerkleWith MerkleTreeInclusionProof PubKeyMembershipWith circomMds circomRoundKeys

theorem r1_isZero {a o : (ι → F) → F} (ha : Aff 20 a) (ho : Aff 8 o) : R1 80 (fun x => IsZero (a x) (o x)) := by
  unfold IsZero
  r1le (r1 <;> r1eq [ha, ho])

theorem r1_isZeroQ {a o : (ι → F) → F} (ha : Quad 20 a) (ho : Aff 8 o) : R1 102 (fun x => IsZero (a x) (o x)) :=
  R1.tmp (fun x y => IsZero y (o x)) ha (r1_isZero ((Aff.var _).mono (by norm_num)) (ho.comp _))

theorem r1_isEqual {a b o : (ι → F) → F} (ha : Aff 8 a) (hb : Aff 10 b) (ho : Aff 8 o) :
    R1 80 (fun x => IsEqual (a x) (b x) (o x)) := by
  unfold IsEqual
  exact r1_isZero (by affle [ha, hb]) ho

theorem r1_num2Bits (n : ℕ) {a : (ι → F) → F} {o : (ι → F) → ℕ → F} (ha : Aff 20 a) (ho : ∀ i, Aff 2 (fun x => o x i)) :
    R1 (n * 7 + (n * 2 + 22)) (fun x => Num2Bits n (a x) (o x)) := by
  unfold Num2Bits
  eapply R1.mono
  case h => r1 <;> r1eq [ha, (ho _)]
  case hm => omega

theorem r1_lessThan (n : ℕ) {a b o : (ι → F) → F} (ha : Aff 8 a) (hb : Aff 8 b) (ho : Aff 8 o) :
    R1 ((n + 1) * 9 + 50) (fun x => LessThan n (a x) (b x) (o x)) := by
  unfold LessThan
  eapply R1.mono
  case h =>
    r1
    · exact r1_num2Bits _ (by affle [ha, hb]) (fun _ => by affle [])
    · r1eq [ho]
  case hm => omega

theorem r1_greaterThan (n : ℕ) {a b o : (ι → F) → F} (ha : Aff 8 a) (hb : Aff 8 b) (ho : Aff 8 o) :
    R1 ((n + 1) * 9 + 50) (fun x => GreaterThan n (a x) (b x) (o x)) := by
  unfold GreaterThan
  exact r1_lessThan n hb ha ho

theorem r1_greaterEqThan (n : ℕ) {a b o : (ι → F) → F} (ha : Aff 7 a) (hb : Aff 8 b) (ho : Aff 8 o) :
    R1 ((n + 1) * 9 + 50) (fun x => GreaterEqThan n (a x) (b x) (o x)) := by
  unfold GreaterEqThan
  exact r1_lessThan n hb (by affle [ha]) ho

theorem r1_addIncomplete {xP yP xQ yQ oX oY : (ι → F) → F} (h1 : Aff 4 xP) (h2 : Aff 4 yP) (h3 : Aff 4 xQ) (h4 : Aff 4 yQ)
    (h5 : Aff 4 oX) (h6 : Aff 4 oY) :
    R1 100 (fun x => AddIncomplete (xP x) (yP x) (xQ x) (yQ x) (oX x) (oY x)) := by
  unfold AddIncomplete
  r1le (r1 <;> r1eq [h1, h2, h3, h4, h5, h6])

theorem r1_addComplete {xP yP xQ yQ oX oY : (ι → F) → F} (h1 : Aff 4 xP) (h2 : Aff 4 yP) (h3 : Aff 4 xQ) (h4 : Aff 4 yQ)
    (h5 : Aff 4 oX) (h6 : Aff 4 oY) :
    R1 1000 (fun x => AddComplete (xP x) (yP x) (xQ x) (yQ x) (oX x) (oY x)) := by
  unfold AddComplete AND OR
  r1le (r1 <;> first
    | r1eq [h1, h2, h3, h4, h5, h6]
    | tcomp r1_isEqual [h1, h2, h3, h4]
    | tcomp r1_isZero [h1, h3]
    | tcomp r1_isZeroQ [])

theorem r1_addIncompleteQ {xP yP xQ yQ oX oY : (ι → F) → F} (h1 : Aff 4 xP) (h2 : Quad 8 yP) (h3 : Aff 4 xQ) (h4 : Aff 4 yQ)
    (h5 : Aff 4 oX) (h6 : Aff 4 oY) :
    R1 110 (fun x => AddIncomplete (xP x) (yP x) (xQ x) (yQ x) (oX x) (oY x)) :=
  R1.tmp (fun x y => AddIncomplete (xP x) y (xQ x) (yQ x) (oX x) (oY x)) h2
    (r1_addIncomplete (h1.comp _) ((Aff.var _).mono (by norm_num)) (h3.comp _) (h4.comp _) (h5.comp _) (h6.comp _))

theorem r1_addCompleteQ {xP yP xQ yQ oX oY : (ι → F) → F} (h1 : Aff 4 xP) (h2 : Quad 8 yP) (h3 : Aff 4 xQ) (h4 : Aff 4 yQ)
    (h5 : Aff 4 oX) (h6 : Aff 4 oY) :
    R1 1010 (fun x => AddComplete (xP x) (yP x) (xQ x) (yQ x) (oX x) (oY x)) :=
  R1.tmp (fun x y => AddComplete (xP x) y (xQ x) (yQ x) (oX x) (oY x)) h2
    (r1_addComplete (h1.comp _) ((Aff.var _).mono (by norm_num)) (h3.comp _) (h4.comp _) (h5.comp _) (h6.comp _))

theorem r1_addCompleteQQ {xP yP xQ yQ oX oY : (ι → F) → F} (h1 : Aff 4 xP) (h2 : Aff 4 yP) (h3 : Quad 8 xQ)
    (h4 : Quad 8 yQ) (h5 : Aff 4 oX) (h6 : Aff 4 oY) :
    R1 1020 (fun x => AddComplete (xP x) (yP x) (xQ x) (yQ x) (oX x) (oY x)) := by
  obtain ⟨p, q, r, u, v, w, g1, g2, g3, g4, g5⟩ := h4
  refine R1.tmp (fun x y => AddComplete (xP x) (yP x) y (yQ x) (oX x) (oY x)) h3 (n := 1010) ?_
  exact R1.tmp (fun (x : ι ⊕ Unit → F) y => AddComplete (xP fun i => x (.inl i)) (yP fun i => x (.inl i)) (x (.inr ())) y
    (oX fun i => x (.inl i)) (oY fun i => x (.inl i))) (m := 8)
    ⟨p, q, r, _, _, _, g1.comp _, g2.comp _, g3.comp _, g4, fun x => g5 _⟩
    (r1_addComplete (h1.comp _) (h2.comp _) ((Aff.var _).mono (by norm_num)) ((Aff.var _).mono (by norm_num))
      (h5.comp _) (h6.comp _))

theorem r1_double {xP yP oX oY : (ι → F) → F} (h1 : Aff 4 xP) (h2 : Aff 4 yP) (h5 : Aff 4 oX) (h6 : Aff 4 oY) :
    R1 100 (fun x => Double (xP x) (yP x) (oX x) (oY x)) := by
  unfold Double
  r1le (r1 <;> r1eq [h1, h2, h5, h6])

theorem r1_kWith {slo shi : (ι → F) → F} {kl kh o : (ι → F) → ℕ → F} (h1 : Aff 2 slo) (h2 : Aff 2 shi)
    (h3 : ∀ i, Aff 2 (fun x => kl x i)) (h4 : ∀ i, Aff 2 (fun x => kh x i)) (h5 : ∀ i, Aff 2 (fun x => o x i)) :
    R1 15000 (fun x => KWith (slo x) (shi x) (kl x) (kh x) (o x)) := by
  unfold KWith AND OR
  r1le (r1 <;> first
    | r1eq [h1, h2, (h3 _), (h4 _), (h5 _)]
    | tcomp r1_num2Bits [h1, h2, (h3 _), (h4 _)]
    | tcomp r1_greaterThan [h1, h2]
    | tcomp r1_greaterEqThan [h1, h2]
    | tcomp r1_isEqual [h1, h2])

theorem r1_k {s : (ι → F) → F} {o : (ι → F) → ℕ → F} (h5 : ∀ i, Aff 2 (fun x => o x i)) :
    R1 15000 (fun x => K (s x) (o x)) := by
  unfold K
  r1
  tcomp r1_kWith [(h5 _)]

theorem r1_mulSteps {k : (ι → F) → ℕ → F} {xP yP oX oY : (ι → F) → F} (hk : ∀ i, Aff 2 (fun x => k x i)) (h1 : Aff 2 xP)
    (h2 : Aff 2 yP) (h5 : Aff 2 oX) (h6 : Aff 2 oY) :
    R1 100000 (fun x => MulSteps (k x) (xP x) (yP x) (oX x) (oY x)) := by
  unfold MulSteps
  r1le (r1 <;> first
    | tcomp r1_double [h1, h2]
    | tcomp r1_addIncomplete [h1, h2]
    | tcomp r1_addIncompleteQ [h1, (hk _), h2]
    | tcomp r1_addComplete []
    | tcomp r1_addCompleteQ [h1, (hk _), h2]
    | tcomp r1_addCompleteQQ [(hk _), h1, h2, h5, h6])

theorem r1_effEcdsa {k : (ι → F) → ℕ → F} {s tx ty ux uy oX oY : (ι → F) → F} (hk : ∀ i, Aff 2 (fun x => k x i))
    (h1 : Aff 2 tx) (h2 : Aff 2 ty) (h3 : Aff 2 ux) (h4 : Aff 2 uy) (h5 : Aff 2 oX) (h6 : Aff 2 oY) :
    R1 120000 (fun x => EfficientECDSA (s x) (tx x) (ty x) (ux x) (uy x) (k x) (oX x) (oY x)) := by
  unfold EfficientECDSA Mul
  r1le (r1 <;> first
    | tcomp r1_k [(hk _)]
    | tcomp r1_mulSteps [(hk _), h1, h2]
    | tcomp r1_addComplete [h3, h4, h5, h6])

theorem r1_sBox {a o : (ι → F) → F} (ha : Aff 8 a) (ho : Aff 8 o) : R1 60 (fun x => SBox (a x) (o x)) := by
  unfold SBox
  r1le (r1 <;> r1eq [ha, ho])

theorem r1_matrixMul {a o : (ι → F) → ℕ → F} (ha : ∀ i, Aff 8 (fun x => a x i)) (ho : ∀ i, Aff 8 (fun x => o x i)) :
    R1 120 (fun x => MatrixMul (a x) (o x)) := by
  unfold MatrixMul
  r1le (r1 <;> r1eq [(ha _), (ho _)])

theorem r1_addRoundConst (pos : ℕ) {a o : (ι → F) → ℕ → F} (ha : ∀ i, Aff 8 (fun x => a x i))
    (ho : ∀ i, Aff 8 (fun x => o x i)) : R1 57 (fun x => AddRoundConst pos (a x) (o x)) := by
  unfold AddRoundConst
  r1le (r1 <;> r1eq [(ha _), (ho _)])

theorem r1_fullRound (pos : ℕ) {a o : (ι → F) → ℕ → F} (ha : ∀ i, Aff 8 (fun x => a x i))
    (ho : ∀ i, Aff 8 (fun x => o x i)) : R1 400 (fun x => FullRound pos (a x) (o x)) := by
  unfold FullRound
  r1le (r1 <;> first
    | tcomp r1_addRoundConst [(ha _)]
    | tcomp r1_sBox []
    | tcomp r1_matrixMul [(ho _)])

theorem r1_partialRound (pos : ℕ) {a o : (ι → F) → ℕ → F} (ha : ∀ i, Aff 8 (fun x => a x i))
    (ho : ∀ i, Aff 8 (fun x => o x i)) : R1 300 (fun x => PartialRound pos (a x) (o x)) := by
  unfold PartialRound
  r1le (r1 <;> first
    | tcomp r1_addRoundConst [(ha _)]
    | tcomp r1_sBox []
    | tcomp r1_matrixMul [(ho _)])

theorem r1_poseidon {a b o : (ι → F) → F} (ha : Aff 2 a) (hb : Aff 2 b) (ho : Aff 2 o) :
    R1 25000 (fun x => Poseidon (a x) (b x) (o x)) := by
  unfold Poseidon PoseidonWith
  r1le (r1 <;> first
    | r1eq [ha, hb, ho]
    | tcomp r1_fullRound []
    | tcomp r1_partialRound [])

theorem r1_multiMux1 (n : ℕ) {c : (ι → F) → ℕ → ℕ → F} {s : (ι → F) → F} {o : (ι → F) → ℕ → F}
    (hc : ∀ i j, Aff 2 (fun x => c x i j)) (hs : Aff 2 s) (ho : ∀ i, Aff 2 (fun x => o x i)) :
    R1 (n * 11) (fun x => MultiMux1 n (c x) (s x) (o x)) := by
  unfold MultiMux1
  eapply R1.mono
  case h => r1 <;> r1eq [(hc _ _), hs, (ho _)]
  case hm => omega

theorem r1_merkle (d : ℕ) {l r : (ι → F) → F} {p s : (ι → F) → ℕ → F} (hl : Aff 2 l) (hr : Aff 2 r)
    (hp : ∀ i, Aff 2 (fun x => p x i)) (hs : ∀ i, Aff 2 (fun x => s x i)) :
    R1 (d * 26000 + 20) (fun x => MerkleTreeInclusionProof d (l x) (p x) (s x) (r x)) := by
  unfold MerkleTreeInclusionProof MerkleWith
  eapply R1.mono
  case h =>
    r1 <;> first
      | r1eq [hl, hr, (hp _)]
      | tcomp r1_poseidon []
      | (eapply r1_multiMux1 <;> intros; (focus (rename_i i j; rcases i with _ | i <;> rcases j with _ | j <;> simp only [muxInput] <;> affle [(hs _)])); all_goals affle [(hp _)])
  case hm => omega

theorem r1_pubKeyMembership (d : ℕ) {s r tx ty ux uy : (ι → F) → F} {p q : (ι → F) → ℕ → F} (h0 : Aff 2 r)
    (h1 : Aff 2 tx) (h2 : Aff 2 ty) (h3 : Aff 2 ux) (h4 : Aff 2 uy) (hp : ∀ i, Aff 2 (fun x => p x i))
    (hq : ∀ i, Aff 2 (fun x => q x i)) :
    R1 (d * 26000 + 200000)
      (fun x => PubKeyMembership d (s x) (r x) (tx x) (ty x) (ux x) (uy x) (p x) (q x)) := by
  unfold PubKeyMembership PubKeyMembershipWith
  eapply R1.mono
  case h =>
    r1 <;> first
      | r1eq [h0]
      | tcomp r1_effEcdsa [h1, h2, h3, h4]
      | tcomp r1_poseidon []
      | tcomp r1_merkle [(hp _), (hq _)]
  case hm => omega

end Spartan.Circuit
