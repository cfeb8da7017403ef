import Verif.Lemmas.Sigma
import Mathlib.Algebra.Field.Rat
import Mathlib.Tactic.NormNum
import Mathlib.Tactic.FieldSimp

/-!
C21-C24: completeness, special soundness and simulation of the sigma protocols.
Everywhere `g0, h` are the two generators of a one-element basis, `E` is the
environment (point codec and transcript hash).  After a successful `verify`,
the challenge that was used is `E.hash tr'` where `tr'` is the returned
transcript, because the challenge is the last thing drawn.
-/

set_option linter.unusedSectionVars false

namespace Spartan
variable {F G P : Type} [Field F] [AddCommGroup G] [Module F G] [DecidableEq P] [DecidableEq G]

/-- The same environment with another transcript hash. -/
def Env.withHash (E : Env F G P) (H : Tr F P → F) : Env F G P := { E with hash := H }

omit [Field F] [AddCommGroup G] [Module F G] [DecidableEq P] [DecidableEq G] in
theorem Env.Lawful.withHash {E : Env F G P} (h : E.Lawful) (H : Tr F P → F) :
    (E.withHash H).Lawful := h

/-! ### C21 knowledge proof -/

/-- C21 completeness. -/
theorem knowledge_complete {E : Env F G P} (hE : E.Lawful) (g0 h : G) (tr : Tr F P)
    (tape : Tape F) (x r : F) :
    ∃ pf C tr' tape', KnowledgeProof.prove E (Gens.single g0 h) tr tape x r = .ok (pf, C, tr', tape') ∧
      C = E.compress (x • g0 + r • h) ∧
      pf.verify E (Gens.single g0 h) tr C = .ok tr' := by
  simp only [KnowledgeProof.prove, commit1_single, ok_bind, pure_ok]
  refine ⟨_, _, _, _, rfl, rfl, ?_⟩
  rw [KnowledgeProof.verify_ok_iff hE]
  refine ⟨rfl, _, _, hE _, hE _, ?_⟩
  simp only [Env.challenge, Tape.next, knowTr]
  module

/-- C21 special soundness: two accepted runs with the same commitment and first
message but different challenges give an opening of the commitment. -/
theorem knowledge_special_sound {E : Env F G P} (hE : E.Lawful) {g0 h : G} {tr t₁ t₂ : Tr F P}
    {C alpha : P} {H₁ H₂ : Tr F P → F} {z1 z2 z1' z2' : F}
    (h₁ : (KnowledgeProof.mk alpha z1 z2).verify (E.withHash H₁) (Gens.single g0 h) tr C = .ok t₁)
    (h₂ : (KnowledgeProof.mk alpha z1' z2').verify (E.withHash H₂) (Gens.single g0 h) tr C = .ok t₂)
    (hc : H₁ t₁ ≠ H₂ t₂) :
    E.decompress C = some (((z1 - z1') / (H₁ t₁ - H₂ t₂)) • g0 + ((z2 - z2') / (H₁ t₁ - H₂ t₂)) • h) := by
  rw [KnowledgeProof.verify_ok_iff (hE.withHash _)] at h₁ h₂
  obtain ⟨rfl, C1, a1, hC1, ha1, e1⟩ := h₁
  obtain ⟨rfl, C2, a2, hC2, ha2, e2⟩ := h₂
  simp only [Env.withHash] at *
  rw [hC1] at hC2; cases hC2
  rw [ha1] at ha2; cases ha2
  rw [hC1]; congr 1
  set c := H₁ (knowTr tr C alpha); set c' := H₂ (knowTr tr C alpha)
  have hd : c - c' ≠ 0 := sub_ne_zero.mpr hc
  have : (c - c') • C1 = (z1 - z1') • g0 + (z2 - z2') • h := by
    have : c • C1 = z1 • g0 + z2 • h - a1 := by rw [e1]; abel
    have h' : c' • C1 = z1' • g0 + z2' • h - a1 := by rw [e2]; abel
    rw [sub_smul, this, h']; module
  calc C1 = (c - c')⁻¹ • (c - c') • C1 := by rw [smul_smul, inv_mul_cancel₀ hd, one_smul]
    _ = _ := by rw [this]; simp only [smul_add, smul_smul, div_eq_inv_mul]

/-- C21 simulation: for every challenge value `c`, response `(z1,z2)` and valid
commitment there is exactly one first message (as a group element) for which the
verifier accepts. -/
theorem knowledge_simulate {E : Env F G P} (hE : E.Lawful) (g0 h Cg : G) (tr : Tr F P)
    (z1 z2 c : F) (a : G) :
    (∃ t, (KnowledgeProof.mk (E.compress a) z1 z2).verify (E.withHash fun _ => c)
      (Gens.single g0 h) tr (E.compress Cg) = .ok t) ↔ a = z1 • g0 + z2 • h - c • Cg := by
  simp only [KnowledgeProof.verify_ok_iff (hE.withHash _)]
  constructor
  · rintro ⟨t, -, C', a', hC, ha, e⟩
    simp only [Env.withHash] at *
    rw [hE] at hC ha; cases hC; cases ha
    rw [e]; abel
  · rintro rfl
    refine ⟨_, rfl, Cg, _, hE _, hE _, ?_⟩
    simp only [Env.withHash]; abel

/-- C21 simulation, distribution: for a fixed challenge every response pair is
produced by exactly one pair of tape values, so honest responses are uniform. -/
theorem knowledge_responses_bijective (E : Env F G P) (g0 h : G) (tr : Tr F P) (x r c z1 z2 : F) :
    ∃! t : F × F, ∀ tape : Tape F, tape 0 = t.1 → tape 1 = t.2 →
      ∃ alpha C tr' tape', KnowledgeProof.prove (E.withHash fun _ => c) (Gens.single g0 h) tr tape x r
        = .ok (⟨alpha, z1, z2⟩, C, tr', tape') := by
  have key : ∀ tape : Tape F, (∃ alpha C tr' tape', KnowledgeProof.prove (E.withHash fun _ => c)
      (Gens.single g0 h) tr tape x r = .ok (⟨alpha, z1, z2⟩, C, tr', tape')) ↔
      x * c + tape 0 = z1 ∧ r * c + tape 1 = z2 := by
    intro tape
    simp [KnowledgeProof.prove, commit1_single, pure_ok, Env.challenge, Env.withHash, Tape.next]
  simp only [key]
  refine ⟨(z1 - x * c, z2 - r * c), ?_, ?_⟩
  · rintro tape h0 h1; simp [h0, h1]
  · rintro ⟨t1, t2⟩ ht
    have := ht (fun n => if n = 0 then t1 else t2) (by simp) (by simp)
    simp only [if_true, one_ne_zero, if_false] at this
    rw [← this.1, ← this.2]; simp

/-! ### C22 equality proof -/

/-- C22 completeness (same committed value `v`). -/
theorem equality_complete {E : Env F G P} (hE : E.Lawful) (g0 h : G) (tr : Tr F P)
    (tape : Tape F) (v s1 s2 : F) :
    ∃ pf C1 C2 tr' tape',
      EqualityProof.prove E (Gens.single g0 h) tr tape v s1 v s2 = .ok (pf, C1, C2, tr', tape') ∧
      C1 = E.compress (v • g0 + s1 • h) ∧ C2 = E.compress (v • g0 + s2 • h) ∧
      pf.verify E (Gens.single g0 h) tr C1 C2 = .ok tr' := by
  simp only [EqualityProof.prove, commit1_single, ok_bind, pure_ok]
  refine ⟨_, _, _, _, _, rfl, rfl, rfl, ?_⟩
  rw [EqualityProof.verify_ok_iff hE]
  refine ⟨rfl, _, _, _, hE _, hE _, hE _, ?_⟩
  simp only [Env.challenge, Tape.next, eqTr, Gens.single]
  module

/-- C22 special soundness: the two commitments differ by a known multiple of `h`
(so whoever can open one to `v` can open the other to `v`). -/
theorem equality_special_sound {E : Env F G P} (hE : E.Lawful) {g0 h : G} {tr t₁ t₂ : Tr F P}
    {C1 C2 alpha : P} {H₁ H₂ : Tr F P → F} {z z' : F}
    (h₁ : (EqualityProof.mk alpha z).verify (E.withHash H₁) (Gens.single g0 h) tr C1 C2 = .ok t₁)
    (h₂ : (EqualityProof.mk alpha z').verify (E.withHash H₂) (Gens.single g0 h) tr C1 C2 = .ok t₂)
    (hc : H₁ t₁ ≠ H₂ t₂) :
    ∃ P1 P2, E.decompress C1 = some P1 ∧ E.decompress C2 = some P2 ∧
      P1 - P2 = ((z - z') / (H₁ t₁ - H₂ t₂)) • h := by
  rw [EqualityProof.verify_ok_iff (hE.withHash _)] at h₁ h₂
  obtain ⟨rfl, P1, P2, a1, hP1, hP2, ha1, e1⟩ := h₁
  obtain ⟨rfl, Q1, Q2, a2, hQ1, hQ2, ha2, e2⟩ := h₂
  simp only [Env.withHash, Gens.single] at *
  rw [hP1] at hQ1; cases hQ1
  rw [hP2] at hQ2; cases hQ2
  rw [ha1] at ha2; cases ha2
  refine ⟨P1, P2, hP1, hP2, ?_⟩
  set c := H₁ (eqTr tr C1 C2 alpha); set c' := H₂ (eqTr tr C1 C2 alpha)
  have hd : c - c' ≠ 0 := sub_ne_zero.mpr hc
  have : (c - c') • (P1 - P2) = (z - z') • h := by
    rw [sub_smul z z', e1, e2]; module
  rw [div_eq_inv_mul, ← smul_smul, ← this, smul_smul, inv_mul_cancel₀ hd, one_smul]

/-- C22 simulation: exactly one first message is accepted for given challenge and response. -/
theorem equality_simulate {E : Env F G P} (hE : E.Lawful) (g0 h A B : G) (tr : Tr F P)
    (z c : F) (a : G) :
    (∃ t, (EqualityProof.mk (E.compress a) z).verify (E.withHash fun _ => c)
      (Gens.single g0 h) tr (E.compress A) (E.compress B) = .ok t) ↔ a = z • h - c • (A - B) := by
  simp only [EqualityProof.verify_ok_iff (hE.withHash _), Gens.single]
  constructor
  · rintro ⟨t, -, A', B', a', hA, hB, ha, e⟩
    simp only [Env.withHash] at *
    rw [hE] at hA hB ha; cases hA; cases hB; cases ha
    rw [e]; abel
  · rintro rfl
    refine ⟨_, rfl, A, B, _, hE _, hE _, hE _, ?_⟩
    simp only [Env.withHash]; abel

/-! ### C23 product proof -/

/-- C23 completeness. -/
theorem product_complete {E : Env F G P} (hE : E.Lawful) (g0 h : G) (tr : Tr F P)
    (tape : Tape F) (x rX y rY rZ : F) :
    ∃ pf X Y Z tr' tape',
      ProductProof.prove E (Gens.single g0 h) tr tape x rX y rY (x * y) rZ
        = .ok (pf, X, Y, Z, tr', tape') ∧
      X = E.compress (x • g0 + rX • h) ∧ Y = E.compress (y • g0 + rY • h) ∧
      Z = E.compress ((x * y) • g0 + rZ • h) ∧
      pf.verify E (Gens.single g0 h) tr X Y Z = .ok tr' := by
  have hs : ∀ X' : G, ({ n := 1, G := [X'], h := (Gens.single g0 h).h } : Gens G)
      = Gens.single X' h := fun _ => rfl
  simp only [ProductProof.prove, commit1_single, ok_bind, pure_ok, decompressU_compress hE, hs]
  refine ⟨_, _, _, _, _, _, rfl, rfl, rfl, rfl, ?_⟩
  rw [ProductProof.verify_ok_iff hE]
  refine ⟨rfl, _, _, _, _, _, _, hE _, hE _, hE _, hE _, hE _, hE _, ?_, ?_, ?_⟩ <;>
    simp only [Env.challenge, Tape.next] <;> module

/-- C23 special soundness: openings `(x,rX)`, `(y,rY)` of `X`, `Y` and an opening
of `Z` to the product `x*y`. -/
theorem product_special_sound {E : Env F G P} (hE : E.Lawful) {g0 h : G} {tr t₁ t₂ : Tr F P}
    {X Y Z alpha beta delta : P} {H₁ H₂ : Tr F P → F}
    {z1 z2 z3 z4 z5 w1 w2 w3 w4 w5 : F}
    (h₁ : (ProductProof.mk alpha beta delta z1 z2 z3 z4 z5).verify (E.withHash H₁)
      (Gens.single g0 h) tr X Y Z = .ok t₁)
    (h₂ : (ProductProof.mk alpha beta delta w1 w2 w3 w4 w5).verify (E.withHash H₂)
      (Gens.single g0 h) tr X Y Z = .ok t₂)
    (hc : H₁ t₁ ≠ H₂ t₂) :
    ∃ x rX y rY rZ : F, x = (z1 - w1) / (H₁ t₁ - H₂ t₂) ∧ y = (z3 - w3) / (H₁ t₁ - H₂ t₂) ∧
      E.decompress X = some (x • g0 + rX • h) ∧
      E.decompress Y = some (y • g0 + rY • h) ∧
      E.decompress Z = some ((x * y) • g0 + rZ • h) := by
  rw [ProductProof.verify_ok_iff (hE.withHash _)] at h₁ h₂
  obtain ⟨rfl, X1, Y1, Z1, a1, b1, d1, hX1, hY1, hZ1, ha1, hb1, hd1, e1, e2, e3⟩ := h₁
  obtain ⟨rfl, X2, Y2, Z2, a2, b2, d2, hX2, hY2, hZ2, ha2, hb2, hd2, f1, f2, f3⟩ := h₂
  simp only [Env.withHash] at *
  rw [hX1] at hX2; cases hX2
  rw [hY1] at hY2; cases hY2
  rw [hZ1] at hZ2; cases hZ2
  rw [ha1] at ha2; cases ha2
  rw [hb1] at hb2; cases hb2
  rw [hd1] at hd2; cases hd2
  rw [hX1, hY1, hZ1]
  set t := prodTr tr X Y Z alpha beta delta
  set c := H₁ t; set c' := H₂ t
  have hd : c - c' ≠ 0 := sub_ne_zero.mpr hc
  have solve : ∀ {u v w : G}, (c - c') • u = v → u = (c - c')⁻¹ • v := by
    rintro u v - rfl; rw [smul_smul, inv_mul_cancel₀ hd, one_smul]
  have q1 : X1 = (c - c')⁻¹ • ((z1 - w1) • g0 + (z2 - w2) • h) := by
    apply solve (w := 0)
    rw [sub_smul, sub_smul, sub_smul]
    have : c • X1 = z1 • g0 + z2 • h - a1 := by rw [← e1]; abel
    rw [this]
    have : c' • X1 = w1 • g0 + w2 • h - a1 := by rw [← f1]; abel
    rw [this]; abel
  have q2 : Y1 = (c - c')⁻¹ • ((z3 - w3) • g0 + (z4 - w4) • h) := by
    apply solve (w := 0)
    rw [sub_smul, sub_smul, sub_smul]
    have : c • Y1 = z3 • g0 + z4 • h - b1 := by rw [← e2]; abel
    rw [this]
    have : c' • Y1 = w3 • g0 + w4 • h - b1 := by rw [← f2]; abel
    rw [this]; abel
  have q3 : Z1 = (c - c')⁻¹ • ((z3 - w3) • X1 + (z5 - w5) • h) := by
    apply solve (w := 0)
    rw [sub_smul, sub_smul, sub_smul]
    have : c • Z1 = z3 • X1 + z5 • h - d1 := by rw [← e3]; abel
    rw [this]
    have : c' • Z1 = w3 • X1 + w5 • h - d1 := by rw [← f3]; abel
    rw [this]; abel
  refine ⟨_, (c - c')⁻¹ * (z2 - w2), _, (c - c')⁻¹ * (z4 - w4),
    (c - c')⁻¹ * ((z3 - w3) * ((c - c')⁻¹ * (z2 - w2)) + (z5 - w5)), rfl, rfl, ?_, ?_, ?_⟩
  · rw [q1]; congr 1; simp only [div_eq_inv_mul]; module
  · rw [q2]; congr 1; simp only [div_eq_inv_mul]; module
  · rw [q3, q1]; congr 1; simp only [div_eq_inv_mul]; module

/-! ### C24 dot-product proof -/

/-- C24 completeness, any vector length. -/
theorem dotproduct_complete {E : Env F G P} (hE : E.Lawful) (g0 h : G) {gensn : Gens G}
    (hg : gensn.WF) (tr : Tr F P) (tape : Tape F) (x a : List F) (bx bY : F)
    (hx : x.length = a.length) (hn : gensn.n = a.length) :
    ∃ pf Cx Cy tr' tape',
      DotProductProof.prove E (Gens.single g0 h) gensn tr tape x bx a (dot x a) bY
        = .ok (pf, Cx, Cy, tr', tape') ∧
      Cx = E.compress (lc x gensn.G + bx • gensn.h) ∧
      Cy = E.compress (dot x a • g0 + bY • h) ∧
      pf.verify E (Gens.single g0 h) gensn tr a Cx Cy = .ok tr' := by
  have hd : gensn.n = (tape.nextVec x.length).1.length := by simp [hx, hn]
  have hip : innerProduct a (tape.nextVec x.length).1 = .ok (dot a (tape.nextVec x.length).1) :=
    innerProduct_eq (by simp [hx])
  have c1 : check ((Gens.single g0 h).n = 1) = .ok () := check_true rfl
  simp only [DotProductProof.prove, check_true hx, check_true hn, c1, ok_bind,
    commitV_eq hg (hn.trans hx.symm), commit1_single, commitV_eq hg hd, hip, pure_ok]
  refine ⟨_, _, _, _, _, rfl, rfl, rfl, ?_⟩
  rw [DotProductProof.verify_ok_iff hg]
  refine ⟨hn, by simp [hx], rfl, _, _, _, _, hE _, hE _, hE _, hE _, ?_, ?_⟩
  · simp only [Env.challenge]
    rw [lc_axpy _ _ (by simp)]
    module
  · simp only [Env.challenge]
    rw [dot_axpy _ _ (by simp), dot_comm a]
    module

/-- C24 special soundness: a vector opening of `Cx` and an opening of `Cy` to its
inner product with `a`. -/
theorem dotproduct_special_sound {E : Env F G P} {g0 h : G} {gensn : Gens G} (hg : gensn.WF)
    {tr t₁ t₂ : Tr F P} {a : List F} {Cx Cy delta beta : P} {H₁ H₂ : Tr F P → F}
    {z z' : List F} {zd zd' zb zb' : F}
    (h₁ : (DotProductProof.mk delta beta z zd zb).verify (E.withHash H₁) (Gens.single g0 h) gensn
      tr a Cx Cy = .ok t₁)
    (h₂ : (DotProductProof.mk delta beta z' zd' zb').verify (E.withHash H₂) (Gens.single g0 h) gensn
      tr a Cx Cy = .ok t₂)
    (hc : H₁ t₁ ≠ H₂ t₂) :
    ∃ (x : List F) (rx ry : F), x.length = a.length ∧
      E.decompress Cx = some (lc x gensn.G + rx • gensn.h) ∧
      E.decompress Cy = some (dot x a • g0 + ry • h) := by
  rw [DotProductProof.verify_ok_iff hg] at h₁ h₂
  obtain ⟨hn, hz, rfl, X1, Y1, d1, b1, hX1, hY1, hd1, hb1, e1, e2⟩ := h₁
  obtain ⟨-, hz', rfl, X2, Y2, d2, b2, hX2, hY2, hd2, hb2, f1, f2⟩ := h₂
  simp only [Env.withHash] at *
  rw [hX1] at hX2; cases hX2
  rw [hY1] at hY2; cases hY2
  rw [hd1] at hd2; cases hd2
  rw [hb1] at hb2; cases hb2
  rw [hX1, hY1]
  set t := dotTr tr Cx Cy a delta beta
  set c := H₁ t; set c' := H₂ t
  have hd : c - c' ≠ 0 := sub_ne_zero.mpr hc
  have solve : ∀ {u v w : G}, (c - c') • u = v → u = (c - c')⁻¹ • v := by
    rintro u v - rfl; rw [smul_smul, inv_mul_cancel₀ hd, one_smul]
  have hzz : z.length = z'.length := hz.trans hz'.symm
  have hlc : ∀ {M : Type} [AddCommGroup M] [Module F M] (p : List M),
      lc (List.zipWith (fun u v => (c - c')⁻¹ * u + (-(c - c')⁻¹) * v) z z') p =
      (c - c')⁻¹ • (lc z p - lc z' p) := by
    intro M _ _ p
    rw [lc_zipWith_left (fun _ _ => rfl) p hzz]; module
  refine ⟨List.zipWith (fun u v => (c - c')⁻¹ * u + (-(c - c')⁻¹) * v) z z',
    (c - c')⁻¹ * (zd - zd'), (c - c')⁻¹ * (zb - zb'), by simp [hz, hz'], ?_, ?_⟩
  · rw [hlc]; congr 1
    rw [mul_smul, ← smul_add]
    apply solve (w := 0)
    have e : c • X1 = lc z gensn.G + zd • gensn.h - d1 := by rw [← e1]; abel
    have f : c' • X1 = lc z' gensn.G + zd' • gensn.h - d1 := by rw [← f1]; abel
    rw [sub_smul, e, f]; module
  · unfold dot at *
    rw [hlc]; congr 1
    rw [mul_smul, smul_eq_mul, mul_smul, ← smul_add]
    apply solve (w := 0)
    have e : c • Y1 = lc z a • g0 + zb • h - b1 := by rw [← e2]; abel
    have f : c' • Y1 = lc z' a • g0 + zb' • h - b1 := by rw [← f2]; abel
    rw [sub_smul, e, f]; module

/-- C24: a response vector of the wrong length makes the verifier panic, it is
never accepted. -/
theorem dotproduct_wrong_length {E : Env F G P} {g0 h : G} {gensn : Gens G} (hg : gensn.WF)
    {tr : Tr F P} {a : List F} {Cx Cy : P} (pf : DotProductProof F P)
    (hl : pf.z.length ≠ a.length) (t : Tr F P) :
    pf.verify E (Gens.single g0 h) gensn tr a Cx Cy ≠ .ok t := by
  rw [Ne, DotProductProof.verify_ok_iff hg]; tauto

/-! Non-vacuity: the hypotheses are met over ℚ with the identity codec. -/

/-- A toy environment: points are their own encoding, the challenge is the length of the log. -/
def toyEnv : Env ℚ ℚ ℚ := { compress := id, decompress := some, hash := fun t => t.length }

theorem toyEnv_lawful : toyEnv.Lawful := fun _ => rfl

example : ∃ (H₁ H₂ : Tr ℚ ℚ → ℚ) (t₁ t₂ : Tr ℚ ℚ),
    (KnowledgeProof.mk (3 : ℚ) 8 0).verify (toyEnv.withHash H₁) (Gens.single 1 5) [] 5 = .ok t₁ ∧
    (KnowledgeProof.mk (3 : ℚ) 13 0).verify (toyEnv.withHash H₂) (Gens.single 1 5) [] 5 = .ok t₂ ∧
    H₁ t₁ ≠ H₂ t₂ := by
  refine ⟨fun _ => 1, fun _ => 2, _, _, (KnowledgeProof.verify_ok_iff (toyEnv_lawful.withHash _)).2
    ⟨rfl, 5, 3, rfl, rfl, ?_⟩, (KnowledgeProof.verify_ok_iff (toyEnv_lawful.withHash _)).2
    ⟨rfl, 5, 3, rfl, rfl, ?_⟩, by norm_num⟩ <;> norm_num [Env.withHash]

example : ∃ (H₁ H₂ : Tr ℚ ℚ → ℚ) (t₁ t₂ : Tr ℚ ℚ),
    (DotProductProof.mk (3 : ℚ) 6 [4, 2] 0 0).verify (toyEnv.withHash H₁) (Gens.single 1 5)
      ⟨2, [1, 1], 7⟩ [] [2, 3] 3 8 = .ok t₁ ∧
    (DotProductProof.mk (3 : ℚ) 6 [5, 4] 0 0).verify (toyEnv.withHash H₂) (Gens.single 1 5)
      ⟨2, [1, 1], 7⟩ [] [2, 3] 3 8 = .ok t₂ ∧ H₁ t₁ ≠ H₂ t₂ := by
  refine ⟨fun _ => 1, fun _ => 2, _, _, (DotProductProof.verify_ok_iff (gensn := ⟨2, [1, 1], 7⟩) (by rfl)).2
    ⟨rfl, rfl, rfl, 3, 8, 3, 6, rfl, rfl, rfl, rfl, ?_, ?_⟩, (DotProductProof.verify_ok_iff (gensn := ⟨2, [1, 1], 7⟩) (by rfl)).2
    ⟨rfl, rfl, rfl, 3, 8, 3, 6, rfl, rfl, rfl, rfl, ?_, ?_⟩, by norm_num⟩ <;>
    norm_num [Env.withHash, dot]

end Spartan
