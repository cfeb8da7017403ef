import Verif.Model.Sigma
import Verif.Lemmas.LC

/-! Acceptance conditions of the sigma protocols, in closed form. -/

set_option linter.unusedSectionVars false

namespace Spartan
variable {F G P : Type} [Field F] [AddCommGroup G] [Module F G] [DecidableEq P] [DecidableEq G]

/-- transcript after the knowledge proof -/
def knowTr (tr : Tr F P) (C alpha : P) : Tr F P :=
  (((tr.protocol "knowledge proof").point "C" C).point "alpha" alpha) ++ [.chal "c"]

theorem ite_ok_iff {α : Type} {b : Prop} {_ : Decidable b} {x y : α} {e : Fail} :
    (if b then (pure x : Out α) else .error e) = .ok y ↔ b ∧ x = y := by
  by_cases h : b <;> simp [h, pure, Except.pure]

theorem KnowledgeProof.verify_ok_iff {E : Env F G P} (hE : E.Lawful) {pf : KnowledgeProof F P}
    {g0 h : G} {tr tr' : Tr F P} {C : P} :
    pf.verify E (Gens.single g0 h) tr C = .ok tr' ↔
      tr' = knowTr tr C pf.alpha ∧ ∃ C' a', E.decompress C = some C' ∧
        E.decompress pf.alpha = some a' ∧
        pf.z1 • g0 + pf.z2 • h = E.hash (knowTr tr C pf.alpha) • C' + a' := by
  unfold KnowledgeProof.verify
  simp only [commit1_single, ok_bind, bind_ok_iff, unpack_ok_iff, ite_ok_iff, Env.challenge,
    compress_eq_iff hE]
  constructor
  · rintro ⟨C', hC, a', ha, he, rfl⟩; exact ⟨rfl, C', a', hC, ha, he⟩
  · rintro ⟨rfl, C', a', hC, ha, he⟩; exact ⟨C', hC, a', ha, he, rfl⟩

def eqTr (tr : Tr F P) (C1 C2 alpha : P) : Tr F P :=
  ((((tr.protocol "equality proof").point "C1" C1).point "C2" C2).point "alpha" alpha)
    ++ [.chal "c"]

theorem EqualityProof.verify_ok_iff {E : Env F G P} (hE : E.Lawful) {pf : EqualityProof F P}
    {g : Gens G} {tr tr' : Tr F P} {C1 C2 : P} :
    pf.verify E g tr C1 C2 = .ok tr' ↔
      tr' = eqTr tr C1 C2 pf.alpha ∧ ∃ C1' C2' a', E.decompress C1 = some C1' ∧
        E.decompress C2 = some C2' ∧ E.decompress pf.alpha = some a' ∧
        pf.z • g.h = E.hash (eqTr tr C1 C2 pf.alpha) • (C1' - C2') + a' := by
  unfold EqualityProof.verify
  simp only [bind_ok_iff, unpack_ok_iff, ite_ok_iff, Env.challenge,
    compress_eq_iff hE]
  constructor
  · rintro ⟨C1', hC1, C2', hC2, a', ha, he, rfl⟩; exact ⟨rfl, C1', C2', a', hC1, hC2, ha, he⟩
  · rintro ⟨rfl, C1', C2', a', hC1, hC2, ha, he⟩; exact ⟨C1', hC1, C2', hC2, a', ha, he, rfl⟩

def prodTr (tr : Tr F P) (X Y Z alpha beta delta : P) : Tr F P :=
  (((((((tr.protocol "product proof").point "X" X).point "Y" Y).point "Z" Z).point "alpha"
    alpha).point "beta" beta).point "delta" delta) ++ [.chal "c"]

theorem checkEquality_true_iff {E : Env F G P} (hE : E.Lawful) {Pt X : P} {c z1 z2 : F}
    {g0 h : G} {b : Bool} :
    ProductProof.checkEquality E Pt X c (Gens.single g0 h) z1 z2 = .ok b ↔
      ∃ P' X', E.decompress Pt = some P' ∧ E.decompress X = some X' ∧
        b = decide (P' + c • X' = z1 • g0 + z2 • h) := by
  unfold ProductProof.checkEquality
  simp only [commit1_single, ok_bind, bind_ok_iff, decompressU_ok_iff, compress_eq_iff hE,
    pure_ok, Except.ok.injEq]
  constructor
  · rintro ⟨C', hC, a', ha, rfl⟩; exact ⟨C', a', hC, ha, rfl⟩
  · rintro ⟨C', a', hC, ha, rfl⟩; exact ⟨C', hC, a', ha, rfl⟩

theorem ite_err_iff {α : Type} {b : Bool} {x : Out α} {y : α} {e : Fail} :
    (if b = false then (.error e : Out α) else x) = .ok y ↔ b = true ∧ x = .ok y := by
  cases b <;> simp

theorem ProductProof.verify_ok_iff {E : Env F G P} (hE : E.Lawful) {pf : ProductProof F P}
    {g0 h : G} {tr tr' : Tr F P} {X Y Z : P} :
    pf.verify E (Gens.single g0 h) tr X Y Z = .ok tr' ↔
      tr' = prodTr tr X Y Z pf.alpha pf.beta pf.delta ∧
      ∃ X' Y' Z' a' b' d', E.decompress X = some X' ∧ E.decompress Y = some Y' ∧
        E.decompress Z = some Z' ∧ E.decompress pf.alpha = some a' ∧
        E.decompress pf.beta = some b' ∧ E.decompress pf.delta = some d' ∧
        a' + E.hash tr' • X' = pf.z1 • g0 + pf.z2 • h ∧
        b' + E.hash tr' • Y' = pf.z3 • g0 + pf.z4 • h ∧
        d' + E.hash tr' • Z' = pf.z3 • X' + pf.z5 • h := by
  unfold ProductProof.verify
  have hs : ∀ X' : G, ({ n := 1, G := [X'], h := (Gens.single g0 h).h } : Gens G)
      = Gens.single X' h := fun _ => rfl
  simp only [bind_ok_iff, unpack_ok_iff, Env.challenge, hs,
    checkEquality_true_iff hE, ite_err_iff, pure_ok, Except.ok.injEq]
  constructor
  · rintro ⟨b1, ⟨a', X', ha, hX, rfl⟩, h1, b2, ⟨b', Y', hb, hY, rfl⟩, h2, X2, hX2, b3,
      ⟨d', Z', hd, hZ, rfl⟩, h3, rfl⟩
    rw [hX] at hX2; cases hX2
    exact ⟨rfl, X', Y', Z', a', b', d', hX, hY, hZ, ha, hb, hd, of_decide_eq_true h1,
      of_decide_eq_true h2, of_decide_eq_true h3⟩
  · rintro ⟨rfl, X', Y', Z', a', b', d', hX, hY, hZ, ha, hb, hd, h1, h2, h3⟩
    exact ⟨_, ⟨a', X', ha, hX, rfl⟩, decide_eq_true h1, _, ⟨b', Y', hb, hY, rfl⟩,
      decide_eq_true h2, X', hX, _, ⟨d', Z', hd, hZ, rfl⟩, decide_eq_true h3, rfl⟩

def dotTr (tr : Tr F P) (Cx Cy : P) (a : List F) (delta beta : P) : Tr F P :=
  (((((tr.protocol "dot product proof").point "Cx" Cx).point "Cy" Cy).scalars "a" a).point
    "delta" delta).point "beta" beta ++ [.chal "c"]

theorem DotProductProof.verify_ok_iff {E : Env F G P} {pf : DotProductProof F P}
    {g0 h : G} {gensn : Gens G} (hg : gensn.WF) {tr tr' : Tr F P} {a : List F} {Cx Cy : P} :
    pf.verify E (Gens.single g0 h) gensn tr a Cx Cy = .ok tr' ↔
      gensn.n = a.length ∧ pf.z.length = a.length ∧
      tr' = dotTr tr Cx Cy a pf.delta pf.beta ∧
      ∃ Cx' Cy' d' b', E.decompress Cx = some Cx' ∧ E.decompress Cy = some Cy' ∧
        E.decompress pf.delta = some d' ∧ E.decompress pf.beta = some b' ∧
        E.hash tr' • Cx' + d' = lc pf.z gensn.G + pf.z_delta • gensn.h ∧
        E.hash tr' • Cy' + b' = dot pf.z a • g0 + pf.z_beta • h := by
  have hip : ∀ r, innerProduct pf.z a = .ok r ↔ pf.z.length = a.length ∧ r = dot pf.z a := by
    intro r
    by_cases hl : pf.z.length = a.length
    · simp [innerProduct_eq hl, hl, eq_comm]
    · simp [innerProduct, check, hl]
  unfold DotProductProof.verify
  simp only [bind_ok_iff, unpack_ok_iff, Env.challenge, commit1_single,
    Except.ok.injEq, check_ok_iff, commitV_ok_iff hg, hip, exists_and_left]
  constructor
  · rintro ⟨h1, -, _, _, Cx', hx, d', hd, r1, ⟨hz, rfl⟩, za, ⟨hz', rfl⟩, Cy', hy, b', hb, r2, rfl, he⟩
    obtain ⟨hee, rfl⟩ := ite_ok_iff.1 he
    exact ⟨h1, hz', rfl, Cx', hx, Cy', hy, d', hd, b', hb, hee.1, hee.2⟩
  · rintro ⟨h1, hz, rfl, Cx', hx, Cy', hy, d', hd, b', hb, he1, he2⟩
    exact ⟨h1, rfl, ⟨⟩, ⟨⟩, Cx', hx, d', hd, _, ⟨by omega, rfl⟩, _, ⟨hz, rfl⟩, Cy', hy, b', hb, _, rfl,
      ite_ok_iff.2 ⟨⟨he1, he2⟩, rfl⟩⟩

end Spartan
