import Verif.Spec.Oracle
import Verif.Lemmas.Rounds
import Mathlib.Data.Fintype.BigOperators
import Mathlib.Data.Set.Card
import Mathlib.Algebra.Order.BigOperators.Group.Finset

/-! Counting the hash functions for which an adaptive prover finds an unfavourable challenge. -/

namespace Spartan
open Spec
variable {F P M W : Type} [Field F]

/-! ### The first `q` answers of a random function -/

section count
variable {D : Type}

/-- Answers of the function `h` to the first questions. -/
def oAns (h : D → W) (ask : List W → D) : Nat → List W
  | 0 => []
  | n + 1 => oAns h ask n ++ [h (ask (oAns h ask n))]

theorem oAns_update [DecidableEq D] (h : D → W) (ask : List W → D) (e : D) (x : W) : ∀ (i : Nat),
    (∀ i' < i, ask (oAns h ask i') ≠ e) → oAns (Function.update h e x) ask i = oAns h ask i
  | 0, _ => rfl
  | i + 1, hi => by
    have ih := oAns_update h ask e x i fun i' hi' => hi i' (by omega)
    simp only [oAns, ih]
    rw [Function.update_of_ne (hi i (by omega))]

open Classical in
theorem oracle_count_one [Fintype D] [Fintype W] [Nonempty W] {d : Nat} (ask : List W → D) (bad : List W → Set W)
    (hb : ∀ l, ∃ s : Finset W, s.card ≤ d ∧ bad l ⊆ ↑s) (i : Nat) :
    (Finset.univ.filter fun h : D → W => (∀ i' < i, ask (oAns h ask i') ≠ ask (oAns h ask i)) ∧
      h (ask (oAns h ask i)) ∈ bad (oAns h ask i)).card ≤ d * Fintype.card W ^ (Fintype.card D - 1) := by
  set S := Finset.univ.filter fun h : D → W => (∀ i' < i, ask (oAns h ask i') ≠ ask (oAns h ask i)) ∧
      h (ask (oAns h ask i)) ∈ bad (oAns h ask i) with hS
  have hD : 0 < Fintype.card D := Fintype.card_pos_iff.2 ⟨ask []⟩
  have hF : 0 < Fintype.card W := Fintype.card_pos
  let φ : (D → W) × W → (D → W) := fun y => Function.update y.1 (ask (oAns y.1 ask i)) y.2
  have hkey : ∀ h ∈ S, ∀ x, oAns (φ (h, x)) ask i = oAns h ask i := by
    intro h hh x
    rw [hS, Finset.mem_filter] at hh
    exact oAns_update h ask _ x i hh.2.1
  have hle := Finset.card_le_mul_card_image (f := φ) (S ×ˢ (Finset.univ : Finset W)) d (by
    intro h' _
    obtain ⟨s, hs, hsub⟩ := hb (oAns h' ask i)
    refine le_trans ?_ hs
    refine Finset.card_le_card_of_injOn (fun y => y.1 (ask (oAns h' ask i))) ?_ ?_
    · rintro ⟨h, x⟩ hy
      simp only [Finset.coe_filter, Finset.mem_product, Set.mem_setOf_eq] at hy
      obtain ⟨⟨hh, -⟩, rfl⟩ := hy
      apply hsub
      rw [hkey h hh x]
      exact (Finset.mem_filter.1 (hS ▸ hh)).2.2
    · rintro ⟨h, x⟩ hy ⟨g, z⟩ hz e
      simp only [Finset.coe_filter, Finset.mem_product, Set.mem_setOf_eq] at hy hz
      obtain ⟨⟨hh, -⟩, e1⟩ := hy
      obtain ⟨⟨hg, -⟩, e2⟩ := hz
      have k1 := hkey h hh x
      have k2 := hkey g hg z
      rw [e1] at k1
      rw [e2] at k2
      simp only [φ] at e1 e2 e
      rw [← k1] at e1
      rw [← k2] at e2
      have hx : x = z := by
        have a1 := congrFun e1 (ask (oAns h' ask i))
        have a2 := congrFun e2 (ask (oAns h' ask i))
        rw [Function.update_self] at a1 a2
        rw [a1, a2]
      subst hx
      have : h = g := by
        funext u
        by_cases hu : u = ask (oAns h' ask i)
        · rw [hu]; exact e
        · have a1 := congrFun e1 u
          have a2 := congrFun e2 u
          rw [Function.update_of_ne hu] at a1 a2
          rw [a1, a2]
      rw [this])
  rw [Finset.card_product, Finset.card_univ] at hle
  have himg : (Finset.image φ (S ×ˢ (Finset.univ : Finset W))).card ≤ Fintype.card W ^ Fintype.card D := by
    refine le_trans (Finset.card_le_univ _) ?_
    rw [Fintype.card_fun]
  have h2 : S.card * Fintype.card W ≤ d * Fintype.card W ^ (Fintype.card D - 1) * Fintype.card W := by
    refine le_trans hle (le_trans (Nat.mul_le_mul_left d himg) (le_of_eq ?_))
    rw [mul_assoc, ← pow_succ, Nat.sub_add_cancel hD]
  exact Nat.le_of_mul_le_mul_right h2 hF

open Classical in
theorem oracle_count [Fintype D] [Fintype W] [Nonempty W] {d : Nat} (ask : List W → D) (bad : List W → Set W)
    (hb : ∀ l, ∃ s : Finset W, s.card ≤ d ∧ bad l ⊆ ↑s) (q : Nat) :
    Set.ncard {h : D → W | ∃ i < q, (∀ i' < i, ask (oAns h ask i') ≠ ask (oAns h ask i)) ∧
      h (ask (oAns h ask i)) ∈ bad (oAns h ask i)} ≤ q * d * Fintype.card W ^ (Fintype.card D - 1) := by
  have hsub : {h : D → W | ∃ i < q, (∀ i' < i, ask (oAns h ask i') ≠ ask (oAns h ask i)) ∧
      h (ask (oAns h ask i)) ∈ bad (oAns h ask i)} ⊆
      ↑((Finset.range q).biUnion fun i => Finset.univ.filter fun h : D → W =>
        (∀ i' < i, ask (oAns h ask i') ≠ ask (oAns h ask i)) ∧
          h (ask (oAns h ask i)) ∈ bad (oAns h ask i)) := by
    rintro h ⟨i, hi, h1⟩
    simp only [Finset.coe_biUnion, Set.mem_iUnion, Finset.coe_filter, Set.mem_setOf_eq, Finset.mem_univ, true_and]
    exact ⟨i, Finset.mem_coe.2 (Finset.mem_range.2 hi), h1⟩
  refine le_trans (Set.ncard_le_ncard hsub (Set.toFinite _)) ?_
  rw [Set.ncard_coe_finset]
  refine le_trans Finset.card_biUnion_le ?_
  refine le_trans (Finset.sum_le_sum fun i _ => oracle_count_one ask bad hb i) ?_
  rw [Finset.sum_const, Finset.card_range, smul_eq_mul, mul_assoc]

end count

/-! ### Transcripts -/

theorem strip_annot (rep : P → M) (t : Tr F P) : strip (annot rep t) = t := by
  unfold strip annot
  rw [List.map_map]
  conv_rhs => rw [← List.map_id t]
  apply List.map_congr_left
  intro m _
  cases m <;> rfl

theorem rounds_annot (L : Tr F P → F) (rep : P → M) : ∀ (ms tr : Tr F P) (cur : List (Msg F M)),
    rounds (fun t => L (strip t)) Prod.snd (annot rep tr) cur (annot rep ms) = rounds L rep tr cur ms
  | [], tr, cur => rfl
  | m :: ms, tr, cur => by
    have ih := rounds_annot L rep ms
    have hc : ∀ m : Msg F P, annot rep tr ++ [mapPt (fun p => (p, rep p)) m] = annot rep (tr ++ [m]) := by
      intro m; simp [annot]
    have hcons : annot rep (m :: ms) = mapPt (fun p => (p, rep p)) m :: annot rep ms := rfl
    rw [hcons]
    have hm : mapPt Prod.snd (mapPt (fun p => (p, rep p)) m) = mapPt rep m := by cases m <;> rfl
    have h1 := hc m
    cases m <;> simp only [mapPt] at h1 hm ⊢ <;> simp only [rounds, h1, ih, strip_annot, mapPt]

theorem rounds_congr {H L : Tr F P → F} (rep : P → M) : ∀ (ms tr : Tr F P) (cur : List (Msg F M)),
    (∀ a l b, ms = a ++ .chal l :: b → H (tr ++ a ++ [.chal l]) = L (tr ++ a ++ [.chal l])) →
    rounds H rep tr cur ms = rounds L rep tr cur ms
  | [], _, _, _ => rfl
  | m :: ms, tr, cur, h => by
    have ih := fun cur => rounds_congr (H := H) (L := L) rep ms (tr ++ [m]) cur (by
      intro a l b e
      have := h (m :: a) l b (by rw [e]; rfl)
      simpa using this)
    have h0 := fun l (e : m = .chal l) => h [] l ms (by rw [e]; rfl)
    cases m <;> simp only [rounds, ih]
    have := h0 _ rfl
    simp only [List.append_nil] at this
    rw [this]

theorem rounds_split (H : Tr F P → F) (rep : P → M) : ∀ (ms tr : Tr F P) (cur : List (Msg F M))
    (hist : List (Round F M)) (m : List (Msg F M)) (x : F) (rest : List (Round F M)),
    (rounds H rep tr cur ms).1 = hist ++ (m, x) :: rest →
    ∃ a l b, ms = a ++ .chal l :: b ∧ rounds H rep tr cur a = (hist, m) ∧ x = H (tr ++ a ++ [.chal l])
  | [], tr, cur, hist, m, x, rest, h => by simp [rounds] at h
  | y :: ms, tr, cur, hist, m, x, rest, h => by
    have step : ∀ cur', (rounds H rep (tr ++ [y]) cur' ms).1 = hist ++ (m, x) :: rest →
        (∀ a, rounds H rep tr cur (y :: a) = rounds H rep (tr ++ [y]) cur' a) →
        ∃ a l b, y :: ms = a ++ .chal l :: b ∧ rounds H rep tr cur a = (hist, m) ∧
          x = H (tr ++ a ++ [.chal l]) := by
      intro cur' h' hr
      obtain ⟨a, l, b, e1, e2, e3⟩ := rounds_split H rep ms (tr ++ [y]) cur' hist m x rest h'
      exact ⟨y :: a, l, b, by rw [e1]; rfl, by rw [hr]; exact e2, by rw [e3]; simp⟩
    cases y with
    | chal l =>
      simp only [rounds] at h
      cases hist with
      | nil =>
        simp only [List.nil_append, List.cons.injEq, Prod.mk.injEq] at h
        exact ⟨[], l, ms, rfl, by simp [rounds, h.1.1], by rw [← h.1.2]; simp⟩
      | cons r hist =>
        simp only [List.cons_append, List.cons.injEq] at h
        obtain ⟨a, l', b, e1, e2, e3⟩ := rounds_split H rep ms (tr ++ [.chal l]) [] hist m x rest h.2
        exact ⟨.chal l :: a, l', b, by rw [e1]; rfl, by simp only [rounds, e2, h.1], by rw [e3]; simp⟩
    | bytes l d => exact step _ (by simpa only [rounds] using h) fun a => by simp only [rounds]
    | u64 l d => exact step _ (by simpa only [rounds] using h) fun a => by simp only [rounds]
    | blob l d => exact step _ (by simpa only [rounds] using h) fun a => by simp only [rounds]
    | scalar l d => exact step _ (by simpa only [rounds] using h) fun a => by simp only [rounds]
    | point l d => exact step _ (by simpa only [rounds] using h) fun a => by simp only [rounds]

/-! ### What the prover knows after some answers -/

theorem answers_length (H : Tr F P → W) (ask : List W → Tr F (P × M)) : ∀ n, (answers H ask n).length = n
  | 0 => rfl
  | n + 1 => by simp [answers, answers_length H ask n]

theorem answers_take (H : Tr F P → W) (ask : List W → Tr F (P × M)) : ∀ n i, i ≤ n →
    (answers H ask n).take i = answers H ask i
  | 0, i, h => by obtain rfl : i = 0 := by omega
                  rfl
  | n + 1, i, h => by
    rcases Nat.lt_or_ge n i with h' | h'
    · obtain rfl : i = n + 1 := by omega
      rw [List.take_of_length_le (by rw [answers_length])]
    · rw [answers, List.take_append_of_le_length (by rw [answers_length]; exact h'), answers_take H ask n i h']

theorem answers_get (H : Tr F P → W) (ask : List W → Tr F (P × M)) (n i : Nat) (h : i < n) :
    (answers H ask n)[i]? = some (H (strip (query H ask i))) := by
  have h1 : ((answers H ask n).take (i + 1))[i]? = (answers H ask n)[i]? := by
    simp [List.getElem?_take]
  rw [← h1, answers_take H ask n (i + 1) h, answers,
    List.getElem?_append_right (by rw [answers_length]), answers_length]
  simp [query]

open Classical in
/-- The challenges known from the answers `l`. -/
noncomputable def look (red : W → F) (ask : List W → Tr F (P × M)) (l : List W) (t : Tr F P) : F :=
  match (List.range l.length).find? fun i => strip (ask (l.take i)) = t with
  | some i =>
    match l[i]? with
    | some w => red w
    | none => 0
  | none => 0

theorem look_eq (red : W → F) (H : Tr F P → W) (ask : List W → Tr F (P × M)) {n i : Nat} (h : i < n) :
    look red ask (answers H ask n) (strip (query H ask i)) = red (H (strip (query H ask i))) := by
  classical
  unfold look
  cases hf : (List.range (answers H ask n).length).find?
      fun k => strip (ask ((answers H ask n).take k)) = strip (query H ask i) with
  | none =>
    exfalso
    rw [List.find?_eq_none] at hf
    have := hf i (List.mem_range.2 (by rw [answers_length]; exact h))
    rw [answers_take H ask n i h.le] at this
    simp [query] at this
  | some k =>
    have h1 := List.find?_some hf
    have h2 := List.mem_range.1 (List.mem_of_find?_eq_some hf)
    rw [answers_length] at h2
    rw [answers_take H ask n k h2.le] at h1
    simp only [decide_eq_true_eq] at h1
    simp only
    rw [answers_get H ask n k h2]
    unfold query at *
    simp only [h1]

/-- The unfavourable values for the next answer, after the answers `l`. -/
noncomputable def badNext (red : W → F) (bad : Bads F M) (ask : List W → Tr F (P × M)) (tr : Tr F P)
    (l : List W) : Set W :=
  let R := rounds (fun t => look red ask l (strip t)) Prod.snd ((ask l).take tr.length) []
    ((ask l).drop tr.length).dropLast
  {w | red w ∈ bad R.1 R.2}

/-- `red` has at most `c` arguments for every value. -/
def Fibres (red : W → F) (c : Nat) : Prop := ∀ x, ∃ s : Finset W, s.card ≤ c ∧ ∀ w, red w = x → w ∈ s

theorem Fibres.preimage {red : W → F} {c d : Nat} (h : Fibres red c) {S : Set F} (hS : AtMost d S) :
    ∃ s : Finset W, s.card ≤ d * c ∧ {w | red w ∈ S} ⊆ ↑s := by
  classical
  obtain ⟨s, hs, hsub⟩ := hS
  choose f hf1 hf2 using h
  refine ⟨s.biUnion f, le_trans Finset.card_biUnion_le ?_, ?_⟩
  · refine le_trans (Finset.sum_le_sum fun x _ => hf1 x) ?_
    rw [Finset.sum_const, smul_eq_mul]
    exact Nat.mul_le_mul_right c hs
  · intro w hw
    rw [Finset.mem_coe, Finset.mem_biUnion]
    exact ⟨red w, hsub hw, hf2 _ w rfl⟩

theorem fiat_shamir_count [Fintype W] [Nonempty W] {d c : Nat} {red : W → F} (hc : Fibres red c)
    (bad : Bads F M) (hb : ∀ hist ms, AtMost d (bad hist ms))
    (D : Finset (Tr F P)) (ask : List W → Tr F (P × M)) (hask : ∀ l, strip (ask l) ∈ D) (q : Nat) (tr : Tr F P) :
    Set.ncard {h : D → W | ∃ H : Tr F P → W, (∀ t : D, H t = h t) ∧ ∃ rep ms, Asked H ask q rep tr ms ∧
      Hit bad (rounds (fun t => red (H t)) rep tr [] ms).1} ≤ q * (d * c) * Fintype.card W ^ (D.card - 1) := by
  classical
  have hc := oracle_count (fun l => (⟨strip (ask l), hask l⟩ : D)) (badNext red bad ask tr)
    (fun l => hc.preimage (hb _ _)) q
  rw [Fintype.card_coe] at hc
  refine le_trans (Set.ncard_le_ncard ?_ (Set.toFinite _)) hc
  rintro h ⟨H, hH, rep, ms, hA, hist, m, x, rest, hr, hx⟩
  have hans : ∀ n, oAns h (fun l => (⟨strip (ask l), hask l⟩ : D)) n = answers H ask n := by
    intro n
    induction n with
    | zero => rfl
    | succ n ih => simp only [oAns, ih, answers, ← hH]
  obtain ⟨a, l, b, e1, e2, e3⟩ := rounds_split (fun t => red (H t)) rep ms tr [] hist m x rest hr
  have hex := hA.complete a l b e1
  have hfind := Nat.find_spec hex
  have hmin : ∀ i' < Nat.find hex, strip (query H ask i') ≠ tr ++ a ++ [.chal l] := by
    intro i' hi' e
    exact Nat.find_min hex hi' ⟨by omega, e⟩
  set i := Nat.find hex
  obtain ⟨hi, hq⟩ := hfind
  refine ⟨i, hi, ?_, ?_⟩
  · intro i' hi' e
    rw [hans, hans, Subtype.mk.injEq] at e
    exact hmin i' hi' (by rw [← hq]; exact e)
  · rw [hans, ← hH]
    change H (strip (query H ask i)) ∈ _
    rw [hq]
    unfold badNext
    simp only [Set.mem_setOf_eq] at e3 ⊢
    rw [← e3]
    obtain ⟨t, ht⟩ := hA.annotated i hi
    have ht' : t = tr ++ a ++ [.chal l] := by rw [← hq, ht, strip_annot]
    have hq' : ask (answers H ask i) = annot rep (tr ++ a ++ [.chal l]) := by rw [← ht']; exact ht
    have h1 : (ask (answers H ask i)).take tr.length = annot rep tr := by
      rw [hq']; unfold annot; rw [← List.map_take, List.append_assoc, List.take_left']; rfl
    have h2 : ((ask (answers H ask i)).drop tr.length).dropLast = annot rep a := by
      rw [hq']; unfold annot
      rw [← List.map_drop, List.append_assoc, List.drop_left' rfl, ← List.map_dropLast, List.dropLast_concat]
    simp only [h1, h2]
    rw [rounds_annot, rounds_congr (L := fun t => red (H t)) rep a tr [] ?_, e2]
    · exact hx
    · intro a' l' b' e
      have hsp : strip (query H ask i) = tr ++ a' ++ .chal l' :: (b' ++ [.chal l]) := by
        rw [hq, e]; simp
      obtain ⟨i', hi', hs⟩ := hA.inOrder i hi a' l' _ hsp (by simp)
      rw [← hs]
      exact look_eq red H ask hi'

end Spartan
