import Verif.Lemmas.RBRSparse
import Verif.Props.NIZKSound
import Verif.Props.SNARK
import Verif.Spec.SnarkExtract

/-! Tables read off honest commitments, and coordinates on the two streams of generators. -/

set_option linter.unusedSectionVars false

namespace Spartan
open Spec
variable {F G P M N : Type} [Field F] [AddCommGroup G] [Module F G] [AddCommGroup M] [Module F M]
  [AddCommGroup N] [Module F N] [DecidableEq F] [DecidableEq P] [DecidableEq G] [DecidableEq N]

theorem rowsOf_flatten (w : Nat) : ∀ (n : Nat) (Z : List F), Z.length = n * w → (rowsOf w n Z).flatten = Z
  | 0, Z, h => by
    have : Z = [] := List.length_eq_zero_iff.1 (by omega)
    simp [rowsOf, this]
  | n + 1, Z, h => by
    rw [rowsOf, List.flatten_cons, rowsOf_flatten w n _ (by rw [List.length_drop, h]; simp [Nat.succ_mul]),
      List.take_append_drop]

theorem rowsOf_eq (w : Nat) : ∀ (n : Nat) (Z : List F),
    rowsOf w n Z = (List.range n).map fun i => (Z.drop (i * w)).take w
  | 0, Z => rfl
  | n + 1, Z => by
    rw [rowsOf, rowsOf_eq w n, List.range_succ_eq_map, List.map_cons, List.map_map]
    simp only [Nat.zero_mul, List.drop_zero, List.drop_drop]
    congr 1
    apply List.map_congr_left
    intro i _
    simp only [Function.comp]
    rw [Nat.succ_mul, Nat.add_comm]

/-- The table of an honest commitment is read off the representations of its rows. -/
theorem honest_rows {E : Env F G P} (hE : E.Lawful) {rep : P → M} {π : M →ₗ[F] G} (hrep : IsRep E rep π)
    {ell n : Nat} (hn : n = 2 ^ (ell - ell / 2)) {v : M →ₗ[F] F} {x : M →ₗ[F] (Fin n → F)} {g0 h : M}
    {Gm : List M} (hx : ReadsPc v x g0 h Gm) {Z : List F} (hZ : Z.length = 2 ^ ell) {gens : DotGens G}
    (hg : gens.WF (ell - ell / 2) (π g0) (π h)) (hG : gens.gensn.G = Gm.map π) {C : List P} {b : List F}
    {t : Option (Tape F)} (hc : (dn ell Z).commit E gens none = .ok (C, b, t))
    (hF : Free π (rowRels rep Gm Z C)) :
    C.length = 2 ^ (ell / 2) ∧ extractVars x (2 ^ (ell / 2)) (C.map rep) = Z := by
  have hGl : Gm.length = n := by rw [hn, ← hg.glen, hG, List.length_map]
  have hcm := commit_eq E hZ hg none
  unfold dn at hc
  rw [hcm] at hc
  simp only [commitBlinds, Except.ok.injEq, Prod.mk.injEq] at hc
  obtain ⟨hC, -, -⟩ := hc
  have hrc : rowComms gens.gensn.G (π h) (rowsOf (2 ^ (ell - ell / 2)) (2 ^ (ell / 2)) Z)
      (List.replicate (2 ^ (ell / 2)) (0 : F)) =
      (List.range (2 ^ (ell / 2))).map fun i => π (lc ((Z.drop (i * n)).take n) Gm) := by
    unfold rowComms
    rw [rowsOf_eq, ← hn]
    apply List.ext_getElem (by simp)
    intro i h1 h2
    simp only [List.getElem_zipWith, List.getElem_map, List.getElem_range, List.getElem_replicate, zero_smul,
      add_zero]
    rw [map_lc, hG]
  rw [hrc, List.map_map] at hC
  have hCl : C.length = 2 ^ (ell / 2) := by rw [← hC]; simp
  refine ⟨hCl, ?_⟩
  have hrow : C.map rep = (List.range (2 ^ (ell / 2))).map fun i => lc ((Z.drop (i * n)).take n) Gm := by
    apply List.ext_getElem (by simp [hCl])
    intro i h1 h2
    have hi : i < 2 ^ (ell / 2) := by simpa using h2
    have hmem : (C.map rep).getD i 0 - lc ((Z.drop (i * n)).take n) Gm ∈ rowRels rep Gm Z C := by
      unfold rowRels
      rw [hGl]
      exact List.mem_map.2 ⟨i, List.mem_range.2 (by omega), rfl⟩
    have hz := hF _ hmem (by
      rw [map_sub, List.getD_eq_getElem _ _ h1, List.getElem_map]
      have hCi : C[i]'(by omega) = E.compress (π (lc ((Z.drop (i * n)).take n) Gm)) := by
        simp only [← hC, List.getElem_map, List.getElem_range, Function.comp]
      rw [hCi, hrep _ _ (hE _), sub_self])
    rw [List.getD_eq_getElem _ _ h1] at hz
    rw [sub_eq_zero.1 hz]
    simp
  unfold extractVars
  rw [hrow, List.take_of_length_le (by simp), List.flatMap_map]
  have hZn : Z.length = 2 ^ (ell / 2) * n := by rw [hZ, hn, two_pow_split]
  have : ∀ i ∈ List.range (2 ^ (ell / 2)), co x (lc ((Z.drop (i * n)).take n) Gm) = (Z.drop (i * n)).take n := by
    intro i hi
    have hi := List.mem_range.1 hi
    apply hx.xG
    rw [List.length_take, List.length_drop, hZn]
    apply min_eq_left
    rw [← Nat.sub_mul]
    exact Nat.le_mul_of_pos_left _ (by omega)
  rw [List.flatMap_congr this, List.flatMap_def, ← rowsOf_eq n, rowsOf_flatten n _ _ hZn]

/-! ### two streams -/

theorem ReadsPc.lift {n : Nat} {v : M →ₗ[F] F} {x : M →ₗ[F] (Fin n → F)} {g0 h : M} {Gm : List M}
    (H : ReadsPc v x g0 h Gm) {p : N →ₗ[F] M} {ι : M →ₗ[F] N} (hp : ∀ m, p (ι m) = m) :
    ReadsPc (v ∘ₗ p) (x ∘ₗ p) (ι g0) (ι h) (Gm.map ι) where
  vg := by simp [hp, H.vg]
  vh := by simp [hp, H.vh]
  vG z := by rw [← map_lc, LinearMap.comp_apply, hp, H.vG]
  xg := by simp [hp, H.xg]
  xh := by simp [hp, H.xh]
  xG z hz := by
    have := H.xG z hz
    unfold co at this ⊢
    rw [← map_lc, LinearMap.comp_apply, hp]; exact this

theorem ReadsBasis.lift {n : Nat} {x : M →ₗ[F] (Fin n → F)} {g : Gens M} (H : ReadsBasis x g)
    {p : N →ₗ[F] M} {ι : M →ₗ[F] N} (hp : ∀ m, p (ι m) = m) {g' : Gens N} (hG : g'.G = g.G.map ι)
    (hh : g'.h = ι g.h) : ReadsBasis (x ∘ₗ p) g' := by
  intro z t hz
  have := H z t hz
  unfold co at this ⊢
  rw [hG, hh, ← map_lc, ← map_smul, ← map_add, LinearMap.comp_apply, hp]; exact this

/-- Coordinates of a prefix of the stream. -/
theorem readsPc_at {J w : Nat} (hw : w + 1 < numGens J) :
    ReadsPc (F := F) (LinearMap.proj ⟨w, by omega⟩ : Comb F J →ₗ[F] F) (firstCo J w (by omega))
      (unit F J w) (unit F J (w + 1)) ((List.range w).map (unit F J)) := by
  have hz : ∀ b, w ≤ b → firstCo (F := F) J w (by omega) (unit F J b) = 0 := by
    intro b hb
    funext i
    have : (i : ℕ) ≠ b := by have := i.2; omega
    simp [firstCo, LinearMap.funLeft_apply, unit, this]
  refine ⟨by simp [unit], by simp [unit], fun z => ?_, hz _ le_rfl, hz _ (by omega), fun z hl => ?_⟩
  · rw [map_lc]
    have : ∀ z : List F, ∀ l : List Nat, (∀ i ∈ l, i < w) →
        lc z ((l.map (unit F J)).map (LinearMap.proj (R := F) (φ := fun _ => F) (⟨w, by omega⟩ : Fin (numGens J)))) = 0 := by
      intro z
      induction z with
      | nil => intro l _; simp
      | cons a z ih =>
        intro l hl
        cases l with
        | nil => simp
        | cons i l =>
          have h1 : w ≠ i := by have := hl i (by simp); omega
          have h2 : LinearMap.proj (R := F) (φ := fun _ => F) (⟨w, by omega⟩ : Fin (numGens J)) (unit F J i) = 0 := by
            simp [unit, h1]
          rw [List.map_cons, List.map_cons, lc_cons, h2, smul_zero, zero_add]
          exact ih l fun i hi => hl i (by simp [hi])
    exact this z _ (by simp)
  · have := firstCo_units (F := F) (j := J) (n := w) (by omega) hl 0 (b := w) le_rfl
    rw [zero_smul, add_zero] at this
    exact this

theorem width_mono {a b : Nat} (h : a ≤ b) : width a ≤ width b :=
  Nat.pow_le_pow_right (by norm_num) (by omega)

theorem width_lt_of_le {l J : Nat} (h : l ≤ J) : width l + 1 < numGens J :=
  lt_of_le_of_lt (Nat.add_le_add_right (width_mono h) 1) (width_lt J)

/-- The generators of a commitment to a table are a prefix of their stream. -/
theorem tableGens_formal {S : GenSrc G} {l J : Nat} (hl : l - l / 2 < 64) (hJ : l ≤ J) {label : List UInt8}
    {gens : DotGens G} (hg : polyCommitGens S l label = .ok gens) :
    gens.WF (l - l / 2) (evalComb J (stream S label) (unit F J (width l)))
        (evalComb J (stream S label) (unit F J (width l + 1))) ∧
      gens.gensn.G = ((List.range (width l)).map (unit F J)).map (evalComb J (stream S label)) := by
  obtain ⟨dg, g0, h0, e1, e2, e3, e4⟩ := polyCommitGens_wf S (ell := l) hl label
  rw [e1] at hg
  cases hg
  obtain ⟨q1, q2⟩ := gens_new_map (F := F) S label J (width l + 1) (width_lt_of_le hJ)
  have hr : (formalBasis F J (width l + 1)).G = (List.range (width l)).map (unit F J) ++ [unit F J (width l)] := by
    simp [formalBasis, List.range_succ]
  rw [show 2 ^ (l - l / 2) = width l from rfl] at e3 e4
  rw [q1, hr, List.map_append] at e3
  obtain ⟨a1, a2⟩ := List.append_inj' e3 rfl
  rw [q2] at e4
  obtain rfl : g0 = _ := by simpa using a2
  subst e4
  exact ⟨e2, a1⟩

/-- Coordinates on the second stream. -/
def tabV (F : Type) [Field F] (j J l : Nat) (h : l ≤ J) : Comb2 F j J →ₗ[F] F :=
  (LinearMap.proj ⟨width l, by have := width_lt_of_le h; omega⟩ : Comb F J →ₗ[F] F) ∘ₗ LinearMap.snd F _ _
def tabX (F : Type) [Field F] (j J l : Nat) (h : l ≤ J) : Comb2 F j J →ₗ[F] (Fin (width l) → F) :=
  firstCo J (width l) (by have := width_lt_of_le h; omega) ∘ₗ LinearMap.snd F _ _

theorem tab_reads (j : Nat) {J l : Nat} (h : l ≤ J) :
    ReadsPc (tabV F j J l h) (tabX F j J l h) (tableBasis F j J l).g0 (tableBasis F j J l).h (tableBasis F j J l).G := by
  have := (readsPc_at (F := F) (width_lt_of_le h)).lift (N := Comb2 F j J) (p := LinearMap.snd F _ _)
    (ι := LinearMap.inr F _ _) (fun m => rfl)
  rw [List.map_map] at this
  exact this

theorem table_formal (j : Nat) {S : GenSrc G} {l J : Nat} (hl : l - l / 2 < 64) (hJ : l ≤ J) {ls le : List UInt8}
    {gens : DotGens G} (hg : polyCommitGens S l le = .ok gens) :
    gens.WF (l - l / 2) (evalComb2 j J (stream S ls) (stream S le) (tableBasis F j J l).g0)
        (evalComb2 j J (stream S ls) (stream S le) (tableBasis F j J l).h) ∧
      gens.gensn.G = (tableBasis F j J l).G.map (evalComb2 j J (stream S ls) (stream S le)) := by
  have e : ∀ m : Comb F J, evalComb2 (F := F) j J (stream S ls) (stream S le) (0, m) = evalComb J (stream S le) m := by
    intro m; simp [evalComb2]
  obtain ⟨h1, h2⟩ := tableGens_formal (F := F) hl hJ hg
  refine ⟨?_, ?_⟩
  · simp only [tableBasis, e]; exact h1
  · rw [h2]
    simp only [tableBasis, List.map_map]
    apply List.map_congr_left
    intro i _
    simp only [Function.comp, e]

/-- Equations of the evaluation proof exist whenever it is accepted. -/
theorem sparseRels_ok {E : Env F G P} {rep : P → M} {π : M →ₗ[F] G} {gens : SparseGens G} {b : EvalBasis M}
    {pf : SparseEvalProof F P} {comm : SparseComm P} {rx ry evals : List F} {tr tr' : Tr F P}
    (hok : sparseVerify E pf comm rx ry evals gens tr = .ok tr') :
    ∃ es, sparseRels E rep π gens b pf comm rx ry evals tr = .ok es := by
  unfold sparseVerify at hok
  unfold sparseRels
  simp only at hok ⊢
  obtain ⟨_, -, hok⟩ := bind_ok hok
  unfold netVerify at hok
  simp only at hok
  obtain ⟨_, -, hok⟩ := bind_ok hok
  obtain ⟨⟨cMem, rM, cOps, cDot, rO, tr1⟩, hpl, hok⟩ := bind_ok hok
  rw [hpl, ok_bind]
  simp only at hok ⊢
  obtain ⟨_, -, hok⟩ := bind_ok hok
  obtain ⟨_, -, hok⟩ := bind_ok hok
  obtain ⟨_, -, hok⟩ := bind_ok hok
  unfold hashLayerVerify derefsVerify at hok
  unfold hashRels
  simp only at hok ⊢
  obtain ⟨_, -, hok⟩ := bind_ok hok
  obtain ⟨tr1, hder, hok⟩ := bind_ok hok
  obtain ⟨⟨cs1, w1, t1⟩, hc1, hder⟩ := bind_ok hder
  rw [hc1, ok_bind]
  simp only at hder ⊢
  rw [hder, ok_bind]
  obtain ⟨_, -, hok⟩ := bind_ok hok
  obtain ⟨⟨cs2, w2, t2⟩, hc2, hok⟩ := bind_ok hok
  rw [hc2, ok_bind]
  simp only at hok ⊢
  obtain ⟨tr2, hops, hok⟩ := bind_ok hok
  rw [hops, ok_bind]
  obtain ⟨⟨cs3, w3, t3⟩, hc3, hok⟩ := bind_ok hok
  rw [hc3, ok_bind]
  exact ⟨_, rfl⟩

end Spartan
