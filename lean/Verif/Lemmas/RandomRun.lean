import Verif.Lemmas.Oracle
import Mathlib.Topology.LocallyConstant.Basic

/-!
How often a run that depends on the hash only through its own challenges meets an unfavourable answer to
one of them.  `T H` is the transcript of the run with the hash `H`.
-/

set_option linter.unusedSectionVars false

namespace Spartan

section
variable {F P W : Type}

/-- The message is a folding challenge. -/
def isFold : Msg F P → Bool
  | .chal l => l == "u"
  | _ => false

/-- Number of folding challenges of a transcript. -/
def folds (t : Tr F P) : Nat := t.countP isFold

theorem folds_append (s t : Tr F P) : folds (s ++ t) = folds s + folds t := List.countP_append

theorem folds_fold (s : Tr F P) : folds (s ++ [.chal "u"]) = folds s + 1 := by
  rw [folds_append]; rfl

/-- Two prefixes of a transcript that end in a folding challenge and have equally many of them coincide. -/
theorem fold_prefix_unique {s t T : Tr F P} (hs : s ++ [.chal "u"] <+: T) (ht : t ++ [.chal "u"] <+: T)
    (h : folds s = folds t) : s = t := by
  have key : ∀ {s t : Tr F P}, s ++ [.chal "u"] <+: t ++ [.chal "u"] → folds s = folds t → s = t := by
    intro s t hst h
    rcases List.prefix_concat_iff.1 hst with e | e
    · exact (List.append_inj' e rfl).1
    · obtain ⟨u, rfl⟩ := e
      rw [folds_append, folds_fold] at h
      omega
  rcases List.prefix_or_prefix_of_prefix hs ht with e | e
  · exact key e h
  · exact (key e h.symm).symm

theorem range_finite [Finite W] (T : (Tr F P → W) → Tr F P)
    (hloc : ∀ H H', (∀ t l, t ++ [.chal l] <+: T H → H (t ++ [.chal l]) = H' (t ++ [.chal l])) → T H' = T H) :
    (Set.range T).Finite := by
  let _ : TopologicalSpace W := ⊥
  have _ : DiscreteTopology W := ⟨rfl⟩
  refine IsLocallyConstant.range_finite (f := T) ?_
  rw [IsLocallyConstant.iff_exists_open]
  intro H
  refine ⟨Set.pi {t | t <+: T H} fun t => {H t}, ?_, ?_, ?_⟩
  · refine isOpen_set_pi ?_ fun t _ => isOpen_discrete _
    refine (List.finite_toSet (T H).inits).subset fun t ht => ?_
    exact (List.mem_inits _ _).2 ht
  · intro t _; rfl
  · intro H' hH'
    refine hloc H H' fun t l ht => ?_
    exact (hH' _ ht).symm

theorem ncard_biUnion_range_le {X : Type} [Finite X] (N : Nat) (f : Nat → Set X) :
    Set.ncard (⋃ i ∈ Finset.range N, f i) ≤ ∑ i ∈ Finset.range N, Set.ncard (f i) := by
  induction N with
  | zero => simp
  | succ N ih =>
    rw [Finset.sum_range_succ, Finset.range_add_one, Finset.set_biUnion_insert, Set.union_comm]
    exact (Set.ncard_union_le _ _).trans (Nat.add_le_add_right ih _)

/-- A point of the domain that is queried whatever is answered there receives an answer in `Z` for at most
a fraction `|Z| / |W|` of the functions. -/
theorem stable_count {D : Type} [Fintype D] [DecidableEq D] [Fintype W] (q : (D → W) → Option D)
    (hq : ∀ h t w, q h = some t → q (Function.update h t w) = some t) (Z : Finset W) :
    Set.ncard {h : D → W | ∃ t, q h = some t ∧ h t ∈ Z} * Fintype.card W ≤
      Z.card * Fintype.card W ^ Fintype.card D := by
  classical
  let B : Finset (D → W) := Finset.univ.filter fun h => ∃ t, q h = some t ∧ h t ∈ Z
  have hB : {h : D → W | ∃ t, q h = some t ∧ h t ∈ Z} = ↑B := by
    ext h; simp [B]
  rw [hB, Set.ncard_coe_finset]
  have hcard : Z.card * Fintype.card W ^ Fintype.card D = (Z ×ˢ (Finset.univ : Finset (D → W))).card := by
    rw [Finset.card_product, Finset.card_univ, Fintype.card_fun]
  have hcard' : B.card * Fintype.card W = (B ×ˢ (Finset.univ : Finset W)).card := by
    rw [Finset.card_product, Finset.card_univ]
  rw [hcard, hcard']
  have hmem : ∀ h ∈ B, ∃ t, q h = some t ∧ h t ∈ Z := fun h hh => by simpa [B] using hh
  refine Finset.card_le_card_of_injOn
    (fun p => match q p.1 with
      | some t => (p.1 t, Function.update p.1 t p.2)
      | none => (p.2, p.1)) ?_ ?_
  · rintro ⟨h, w⟩ hp
    obtain ⟨t, ht, hz⟩ := hmem h (Finset.mem_product.1 hp).1
    simp only [ht, Finset.coe_product, Set.mem_prod, Finset.mem_coe, Finset.mem_univ, and_true]
    exact hz
  · rintro ⟨h, w⟩ hp ⟨h', w'⟩ hp' e
    obtain ⟨t, ht, hz⟩ := hmem h (Finset.mem_product.1 hp).1
    obtain ⟨t', ht', hz'⟩ := hmem h' (Finset.mem_product.1 hp').1
    simp only [ht, ht', Prod.mk.injEq] at e
    obtain ⟨e1, e2⟩ := e
    have e3 : t = t' := by
      have a := hq h t w ht
      rw [e2, hq h' t' w' ht'] at a
      exact (Option.some.inj a).symm
    subst e3
    have ew : w = w' := by
      have := congrFun e2 t
      simpa using this
    subst ew
    have eh : h = h' := by
      funext x
      by_cases hx : x = t
      · rw [hx]; exact e1
      · have := congrFun e2 x
        simpa [hx] using this
    rw [eh]

open Classical in
/-- If the run has at most `N` folding challenges, one of them is answered in `Z` for at most a fraction
`N |Z| / |W|` of the hash functions. -/
theorem fold_count [Fintype W] [Nonempty W] (T : (Tr F P → W) → Tr F P) (N : Nat) (Z : Finset W)
    (hloc : ∀ H H', (∀ t l, t ++ [.chal l] <+: T H → H (t ++ [.chal l]) = H' (t ++ [.chal l])) → T H' = T H)
    (hN : ∀ H, folds (T H) ≤ N) :
    ∃ D₀ : Finset (Tr F P), ∀ D, D₀ ⊆ D →
      Set.ncard {h : D → W | ∃ H : Tr F P → W, (∀ t : D, H t = h t) ∧
        ∃ t, t ++ [.chal "u"] <+: T H ∧ H (t ++ [.chal "u"]) ∈ Z} * Fintype.card W ≤
      N * Z.card * Fintype.card W ^ D.card := by
  have hfin := range_finite T hloc
  have hfin2 : {t : Tr F P | ∃ H, t <+: T H}.Finite := by
    have : {t : Tr F P | ∃ H, t <+: T H} = ⋃ X ∈ Set.range T, {t | t <+: X} := by
      ext t; simp
    rw [this]
    refine hfin.biUnion fun X _ => (List.finite_toSet X.inits).subset fun t ht => (List.mem_inits _ _).2 ht
  refine ⟨hfin2.toFinset, fun D hD => ?_⟩
  have hD' : ∀ H t, t <+: T H → t ∈ D := fun H t ht => hD (hfin2.mem_toFinset.2 ⟨H, ht⟩)
  let w0 : W := Classical.arbitrary W
  let ext : (D → W) → Tr F P → W := fun h t => if ht : t ∈ D then h ⟨t, ht⟩ else w0
  have hext : ∀ h (t : D), ext h t = h t := fun h t => by simp [ext]
  -- only the restriction to `D` matters
  have hres : ∀ (h : D → W) (H : Tr F P → W), (∀ t : D, H t = h t) → T H = T (ext h) := by
    intro h H hH
    refine (hloc H (ext h) fun t l ht => ?_).symm
    rw [hH ⟨_, hD' H _ ht⟩]
    exact (hext h ⟨_, hD' H _ ht⟩).symm
  let Q (i : Nat) (h : D → W) (t : D) : Prop :=
    ∃ s, t.1 = s ++ [.chal "u"] ∧ s ++ [.chal "u"] <+: T (ext h) ∧ folds s = i
  have hQ : ∀ i h t t', Q i h t → Q i h t' → t = t' := by
    rintro i h t t' ⟨s, e, hp, hi⟩ ⟨s', e', hp', hi'⟩
    refine Subtype.ext ?_
    rw [e, e', fold_prefix_unique hp hp' (hi.trans hi'.symm)]
  let q (i : Nat) (h : D → W) : Option D := if hx : ∃ t, Q i h t then some hx.choose else none
  have hq : ∀ i h t, q i h = some t ↔ Q i h t := by
    intro i h t
    constructor
    · intro e
      by_cases hx : ∃ t, Q i h t
      · simp only [q, dif_pos hx, Option.some.injEq] at e
        rw [← e]; exact hx.choose_spec
      · simp only [q, dif_neg hx] at e
        cases e
    · intro e
      have hx : ∃ t, Q i h t := ⟨t, e⟩
      simp only [q, dif_pos hx, Option.some.injEq]
      exact hQ i h _ _ hx.choose_spec e
  have hstab : ∀ i h t w, q i h = some t → q i (Function.update h t w) = some t := by
    intro i h t w e
    obtain ⟨s, e1, hp, hi⟩ := (hq i h t).1 e
    refine (hq i _ t).2 ⟨s, e1, ?_, hi⟩
    by_contra hn
    have heq : T (ext h) = T (ext (Function.update h t w)) := by
      refine hloc _ _ fun u l hu => ?_
      have hne : u ++ [.chal l] ≠ t.1 := fun e2 => hn (e1 ▸ e2 ▸ hu)
      have hm := hD' _ _ hu
      have a := hext h ⟨_, hm⟩
      have b := hext (Function.update h t w) ⟨_, hm⟩
      rw [a, b, Function.update_of_ne fun e3 => hne (congrArg Subtype.val e3)]
    exact hn (heq ▸ hp)
  have hsub : {h : D → W | ∃ H : Tr F P → W, (∀ t : D, H t = h t) ∧
        ∃ t, t ++ [.chal "u"] <+: T H ∧ H (t ++ [.chal "u"]) ∈ Z} ⊆
      ⋃ i ∈ Finset.range N, {h : D → W | ∃ t, q i h = some t ∧ h t ∈ Z} := by
    rintro h ⟨H, hH, s, hp, hz⟩
    have hm := hD' _ _ hp
    have hp' := hp
    rw [hres h H hH] at hp
    have hlt : folds s < N := by
      refine lt_of_lt_of_le ?_ (hN (ext h))
      obtain ⟨v, hv⟩ := hp
      rw [← hv, folds_append, folds_fold]
      omega
    simp only [Set.mem_iUnion]
    refine ⟨folds s, Finset.mem_range.2 hlt, ⟨_, hm⟩, (hq _ _ _).2 ⟨s, rfl, hp, rfl⟩, ?_⟩
    rw [← hH]; exact hz
  have h1 : Set.ncard {h : D → W | ∃ H : Tr F P → W, (∀ t : D, H t = h t) ∧
        ∃ t, t ++ [.chal "u"] <+: T H ∧ H (t ++ [.chal "u"]) ∈ Z} ≤
      ∑ i ∈ Finset.range N, Set.ncard {h : D → W | ∃ t, q i h = some t ∧ h t ∈ Z} :=
    (Set.ncard_le_ncard hsub (Set.toFinite _)).trans (ncard_biUnion_range_le _ _)
  refine (Nat.mul_le_mul_right _ h1).trans ?_
  rw [Finset.sum_mul]
  refine (Finset.sum_le_sum fun i _ => stable_count (q i) (hstab i) Z).trans ?_
  rw [Finset.sum_const, Finset.card_range, smul_eq_mul, mul_assoc, Fintype.card_coe]

end

end Spartan
