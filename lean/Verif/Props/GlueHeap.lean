import Verif.Model.Glue
import Mathlib.Data.List.Basic
import Mathlib.Tactic.Common

/-!
C108: the table of objects of the JavaScript glue.
-/

namespace Spartan.Glue

variable {O : Type}

/-- The tables reachable by correct use, each with the objects that are held: handles are released only while they are
held (releasing one of the constants is allowed, too). -/
inductive Hist : Heap O → (ℕ → Option (Js O)) → Prop
  | init : Hist Heap.init fun _ => none
  | add {h h' : Heap O} {L : ℕ → Option (Js O)} {v : Js O} {i : ℕ} :
      Hist h L → h.add v = some (i, h') → Hist h' (Function.update L i (some v))
  | take {h : Heap O} {L : ℕ → Option (Js O)} {v : Js O} {i : ℕ} :
      Hist h L → L i = some v → Hist (h.take i).2 (Function.update L i none)
  | const {h : Heap O} {L : ℕ → Option (Js O)} {i : ℕ} : Hist h L → i < 132 → Hist (h.take i).2 L

/-- The free slots, in the order in which they will be used. -/
def Linked (slots : List (Js O)) : Js O → List ℕ → Prop
  | nx, [] => nx = .num slots.length
  | nx, i :: fr => nx = .num i ∧ i < slots.length ∧ Linked slots (slots.getD i .undef) fr

structure Inv (h : Heap O) (L : ℕ → Option (Js O)) (fr : List ℕ) : Prop where
  len : 132 ≤ h.slots.length
  linked : Linked h.slots h.next fr
  nodup : fr.Nodup
  free : ∀ i, i ∈ fr ↔ 132 ≤ i ∧ i < h.slots.length ∧ L i = none
  held : ∀ i v, L i = some v → 132 ≤ i ∧ i < h.slots.length ∧ h.slots.getD i .undef = v
  c0 : ∀ i < 129, h.slots.getD i .undef = .undef
  c1 : h.slots.getD 129 .undef = .null
  c2 : h.slots.getD 130 .undef = .bool true
  c3 : h.slots.getD 131 .undef = .bool false

theorem setAt_length {l : List (Js O)} {i : ℕ} {v : Js O} (h : i < l.length) : (setAt l i v).length = l.length := by
  rw [setAt, if_pos h, List.length_set]

theorem setAt_getD {l : List (Js O)} {i : ℕ} {v : Js O} (h : i < l.length) (j : ℕ) :
    (setAt l i v).getD j .undef = if j = i then v else l.getD j .undef := by
  rw [setAt, if_pos h]
  by_cases e : j = i
  · subst e
    rw [if_pos rfl, List.getD_eq_getElem?_getD, List.getElem?_set_self h, Option.getD_some]
  · rw [if_neg e, List.getD_eq_getElem?_getD, List.getElem?_set_ne (Ne.symm e), List.getD_eq_getElem?_getD]

theorem Linked.set {l : List (Js O)} {i : ℕ} {v : Js O} (h : i < l.length) :
    ∀ {fr : List ℕ} {nx : Js O}, i ∉ fr → Linked l nx fr → Linked (setAt l i v) nx fr
  | [], nx, _, hl => by rw [Linked, setAt_length h]; exact hl
  | j :: fr, nx, hi, hl => by
    refine ⟨hl.1, by rw [setAt_length h]; exact hl.2.1, ?_⟩
    rw [setAt_getD h, if_neg (fun e => hi (by rw [e]; exact List.mem_cons_self))]
    exact Linked.set h (fun hm => hi (List.mem_cons_of_mem _ hm)) hl.2.2

theorem inv_init : Inv (O := O) Heap.init (fun _ => none) [] where
  len := by simp [Heap.init]
  linked := by simp [Linked, Heap.init]
  nodup := List.nodup_nil
  free := fun i => by simp [Heap.init]
  held := fun i v h => by simp at h
  c0 := fun i hi => by
    rcases Nat.lt_or_ge i 128 with h | h
    · rw [Heap.init, List.getD_eq_getElem?_getD, List.getElem?_append_left (by rw [List.length_replicate]; exact h),
        List.getElem?_replicate, if_pos h, Option.getD_some]
    · obtain rfl : i = 128 := by omega
      simp [Heap.init, List.getD_eq_getElem?_getD]
  c1 := by simp [Heap.init, List.getD_eq_getElem?_getD]
  c2 := by simp [Heap.init, List.getD_eq_getElem?_getD]
  c3 := by simp [Heap.init, List.getD_eq_getElem?_getD]

theorem inv_add_reuse {h : Heap O} {L : ℕ → Option (Js O)} {i : ℕ} {fr : List ℕ} (H : Inv h L (i :: fr)) (v : Js O) :
    ∃ h', h.add v = some (i, h') ∧ h'.slots.length = h.slots.length ∧ Inv h' (Function.update L i (some v)) fr := by
  obtain ⟨hn, hi, hl⟩ := H.linked
  obtain ⟨h132, -, hL⟩ := (H.free i).mp List.mem_cons_self
  have hnd := List.nodup_cons.mp H.nodup
  refine ⟨⟨setAt h.slots i v, h.slots.getD i .undef⟩, ?_, setAt_length hi, ?_⟩
  · rw [Heap.add, hn]
    simp only [if_neg (Nat.ne_of_lt hi)]
  · refine ⟨?_, ?_, hnd.2, ?_, ?_, ?_, ?_, ?_, ?_⟩
    · rw [setAt_length hi]; exact H.len
    · exact Linked.set hi hnd.1 hl
    · intro j
      show j ∈ fr ↔ 132 ≤ j ∧ j < (setAt h.slots i v).length ∧ _
      rw [setAt_length hi]
      by_cases e : j = i
      · subst e
        rw [Function.update_self]
        exact ⟨fun hm => absurd hm hnd.1, fun hm => by simp at hm⟩
      · rw [Function.update_of_ne e, ← H.free j, List.mem_cons, or_iff_right e]
    · intro j w hj
      show 132 ≤ j ∧ j < (setAt h.slots i v).length ∧ (setAt h.slots i v).getD j .undef = w
      rw [setAt_length hi, setAt_getD hi]
      by_cases e : j = i
      · subst e
        rw [Function.update_self] at hj
        exact ⟨h132, hi, by rw [if_pos rfl]; exact Option.some.inj hj⟩
      · rw [Function.update_of_ne e] at hj
        rw [if_neg e]
        exact H.held j w hj
    · intro j hj
      show (setAt h.slots i v).getD j .undef = _
      rw [setAt_getD hi, if_neg (by omega)]; exact H.c0 j hj
    · show (setAt h.slots i v).getD _ .undef = _
      rw [setAt_getD hi, if_neg (by omega)]; exact H.c1
    · show (setAt h.slots i v).getD _ .undef = _
      rw [setAt_getD hi, if_neg (by omega)]; exact H.c2
    · show (setAt h.slots i v).getD _ .undef = _
      rw [setAt_getD hi, if_neg (by omega)]; exact H.c3

theorem getD_append_one (l : List (Js O)) (v : Js O) {j : ℕ} (h : j < l.length) :
    (l ++ [v]).getD j .undef = l.getD j .undef := by
  rw [List.getD_eq_getElem?_getD, List.getElem?_append_left h, List.getD_eq_getElem?_getD]

/-- The table as if it had been extended beforehand. -/
theorem inv_extend {h : Heap O} {L : ℕ → Option (Js O)} (H : Inv h L []) :
    Inv ⟨h.slots ++ [.num (h.slots.length + 1)], .num h.slots.length⟩ L [h.slots.length] := by
  have hlen : (h.slots ++ [Js.num (O := O) (h.slots.length + 1)]).length = h.slots.length + 1 := by simp
  refine ⟨?_, ?_, by simp, ?_, ?_, ?_, ?_, ?_, ?_⟩
  · have := H.len; simp only [hlen]; omega
  · refine ⟨rfl, by simp only [hlen]; omega, ?_⟩
    simp [Linked, List.getD_eq_getElem?_getD]
  · intro i
    simp only [hlen, List.mem_singleton]
    have h1 := H.free i
    have h2 := H.held i
    have := H.len
    constructor
    · rintro rfl
      refine ⟨H.len, by omega, ?_⟩
      cases hL : L h.slots.length with
      | none => rfl
      | some v => exact absurd (h2 v hL).2.1 (by omega)
    · rintro ⟨a, b, c⟩
      by_contra hne
      exact absurd (h1.mpr ⟨a, by omega, c⟩) (by simp)
  · intro i v hi
    obtain ⟨a, b, c⟩ := H.held i v hi
    exact ⟨a, by simp only [hlen]; omega, by rw [getD_append_one _ _ b]; exact c⟩
  · intro i hi
    have := H.len
    rw [getD_append_one _ _ (by omega)]; exact H.c0 i hi
  all_goals
    have := H.len
    rw [getD_append_one _ _ (by omega)]
  · exact H.c1
  · exact H.c2
  · exact H.c3

theorem inv_add {h : Heap O} {L : ℕ → Option (Js O)} {fr : List ℕ} (H : Inv h L fr) (v : Js O) :
    ∃ i h' fr', h.add v = some (i, h') ∧ 132 ≤ i ∧ L i = none ∧ Inv h' (Function.update L i (some v)) fr' ∧
      h'.slots.length = h.slots.length + (if fr = [] then 1 else 0) := by
  cases fr with
  | cons i fr =>
    obtain ⟨h', e, hlen, H'⟩ := inv_add_reuse H v
    have := (H.free i).mp List.mem_cons_self
    exact ⟨i, h', fr, e, this.1, this.2.2, H', by simp [hlen]⟩
  | nil =>
    have H1 := inv_extend H
    obtain ⟨h', e, hlen, H'⟩ := inv_add_reuse H1 v
    have := (H1.free _).mp List.mem_cons_self
    refine ⟨_, h', [], ?_, this.1, this.2.2, H', by simp [hlen]⟩
    rw [← e, Heap.add, Heap.add, H.linked]
    simp

theorem inv_take {h : Heap O} {L : ℕ → Option (Js O)} {fr : List ℕ} (H : Inv h L fr) {i : ℕ} {v : Js O} (hi : L i = some v) :
    Inv (h.take i).2 (Function.update L i none) (i :: fr) := by
  obtain ⟨h132, hlt, -⟩ := H.held i v hi
  have hnf : i ∉ fr := fun hm => by rw [((H.free i).mp hm).2.2] at hi; cases hi
  have e : (h.take i).2 = ⟨setAt h.slots i h.next, .num i⟩ := by
    show h.drop i = _
    rw [Heap.drop, if_neg (by omega)]
  rw [e]
  refine ⟨?_, ?_, List.nodup_cons.mpr ⟨hnf, H.nodup⟩, ?_, ?_, ?_, ?_, ?_, ?_⟩
  · rw [setAt_length hlt]; exact H.len
  · refine ⟨rfl, by rw [setAt_length hlt]; exact hlt, ?_⟩
    rw [setAt_getD hlt, if_pos rfl]
    exact Linked.set hlt hnf H.linked
  · intro j
    show j ∈ i :: fr ↔ 132 ≤ j ∧ j < (setAt h.slots i h.next).length ∧ _
    rw [setAt_length hlt, List.mem_cons]
    by_cases e : j = i
    · subst e
      rw [Function.update_self]
      exact ⟨fun _ => ⟨h132, hlt, rfl⟩, fun _ => Or.inl rfl⟩
    · rw [Function.update_of_ne e, ← H.free j, or_iff_right e]
  · intro j w hj
    show 132 ≤ j ∧ j < (setAt h.slots i h.next).length ∧ (setAt h.slots i h.next).getD j .undef = w
    rw [setAt_length hlt, setAt_getD hlt]
    by_cases e : j = i
    · subst e; rw [Function.update_self] at hj; cases hj
    · rw [Function.update_of_ne e] at hj
      rw [if_neg e]
      exact H.held j w hj
  · intro j hj
    show (setAt h.slots i h.next).getD j .undef = _
    rw [setAt_getD hlt, if_neg (by omega)]; exact H.c0 j hj
  · show (setAt h.slots i h.next).getD _ .undef = _
    rw [setAt_getD hlt, if_neg (by omega)]; exact H.c1
  · show (setAt h.slots i h.next).getD _ .undef = _
    rw [setAt_getD hlt, if_neg (by omega)]; exact H.c2
  · show (setAt h.slots i h.next).getD _ .undef = _
    rw [setAt_getD hlt, if_neg (by omega)]; exact H.c3

theorem hist_inv {h : Heap O} {L : ℕ → Option (Js O)} (H : Hist h L) : ∃ fr, Inv h L fr := by
  induction H with
  | init => exact ⟨_, inv_init⟩
  | add _ e ih =>
    obtain ⟨fr, ih⟩ := ih
    obtain ⟨i, h', fr', e', -, -, H', -⟩ := inv_add ih _
    rw [e] at e'
    obtain ⟨rfl, rfl⟩ := Prod.mk.injEq .. ▸ Option.some.inj e'
    exact ⟨_, H'⟩
  | take _ e ih =>
    obtain ⟨fr, ih⟩ := ih
    exact ⟨_, inv_take ih e⟩
  | const _ hi ih =>
    obtain ⟨fr, ih⟩ := ih
    refine ⟨fr, ?_⟩
    show Inv (Heap.drop _ _) _ _
    rw [Heap.drop, if_pos hi]
    exact ih

/-- C108.  After every history of correct use: a new object gets a handle that is not held and is not a constant; every
held handle yields its object; and the constants are in place. -/
theorem heap_table {h : Heap O} {L : ℕ → Option (Js O)} (H : Hist h L) :
    (∀ v, ∃ i h', h.add v = some (i, h') ∧ 132 ≤ i ∧ L i = none) ∧
    (∀ i v, L i = some v → h.get i = v ∧ (h.take i).1 = v) ∧
    h.get 128 = .undef ∧ h.get 129 = .null ∧ h.get 130 = .bool true ∧ h.get 131 = .bool false := by
  obtain ⟨fr, I⟩ := hist_inv H
  refine ⟨fun v => ?_, fun i v hi => ⟨(I.held i v hi).2.2, (I.held i v hi).2.2⟩, I.c0 128 (by omega), I.c1, I.c2, I.c3⟩
  obtain ⟨i, h', _, e, a, b, -, -⟩ := inv_add I v
  exact ⟨i, h', e, a, b⟩

/-- C108.  Nothing leaks: the table grows only when every slot is in use, and then by one. -/
theorem heap_no_leak {h h' : Heap O} {L : ℕ → Option (Js O)} (H : Hist h L) {v : Js O} {i : ℕ}
    (e : h.add v = some (i, h')) : h'.slots.length = h.slots.length ∨
      (h'.slots.length = h.slots.length + 1 ∧ ∀ j, 132 ≤ j → j < h.slots.length → L j ≠ none) := by
  obtain ⟨fr, I⟩ := hist_inv H
  obtain ⟨_, _, _, e', -, -, -, hl⟩ := inv_add I v
  rw [e] at e'
  obtain ⟨rfl, rfl⟩ := Prod.mk.injEq .. ▸ Option.some.inj e'
  split at hl
  · rename_i hf
    subst hf
    exact Or.inr ⟨hl, fun j h1 h2 h3 => absurd ((I.free j).mpr ⟨h1, h2, h3⟩) (by simp)⟩
  · exact Or.inl (by omega)

/-- Correct use is needed: after a held handle is released twice, the next two objects get the same handle. -/
theorem double_release_aliases {h : Heap O} {L : ℕ → Option (Js O)} (H : Hist h L) {i : ℕ} {v : Js O} (hi : L i = some v)
    (b c : Js O) : ∃ h1 h2, ((h.take i).2.take i).2.add b = some (i, h1) ∧ h1.add c = some (i, h2) := by
  obtain ⟨fr, I⟩ := hist_inv H
  obtain ⟨h132, hlt, -⟩ := I.held i v hi
  have e1 : (h.take i).2 = ⟨setAt h.slots i h.next, .num i⟩ := by
    show h.drop i = _
    rw [Heap.drop, if_neg (by omega)]
  have e2 : ((h.take i).2.take i).2 = ⟨setAt (setAt h.slots i h.next) i (.num i), .num i⟩ := by
    rw [e1]
    show Heap.drop _ i = _
    rw [Heap.drop, if_neg (by omega)]
  rw [e2]
  have hl : i < (setAt h.slots i h.next).length := by rw [setAt_length hlt]; exact hlt
  generalize setAt h.slots i h.next = l at hl
  have hl' : i < (setAt l i (.num i)).length := by rw [setAt_length hl]; exact hl
  refine ⟨⟨setAt (setAt l i (.num i)) i b, .num i⟩, ⟨_, _⟩, ?_, rfl⟩
  simp only [Heap.add, if_neg (Nat.ne_of_lt hl')]
  rw [setAt_getD hl, if_pos rfl]

/-- A history with a reused handle. -/
example (a b : Js O) : ∃ h : Heap O, Hist h (fun i => if i = 132 then some b else none) ∧ h.get 132 = b := by
  have h0 := Hist.init (O := O)
  obtain ⟨i, h1, e, -, -⟩ := (heap_table h0).1 a
  obtain rfl : i = 132 := by
    have : Heap.init.add a = some (132, _) := rfl
    rw [this] at e; exact (Prod.mk.inj (Option.some.inj e)).1.symm
  have H1 := Hist.add h0 e
  have H2 := Hist.take H1 (i := 132) (v := a) (by simp)
  have e1 : (h1.take 132).2.next = .num 132 := by
    simp [Heap.take, Heap.drop]
  obtain ⟨i, h2, e', -, -⟩ := (heap_table H2).1 b
  obtain rfl : i = 132 := by
    rw [Heap.add, e1] at e'
    exact (Prod.mk.inj (Option.some.inj e')).1.symm
  have H3 := Hist.add H2 e'
  refine ⟨h2, ?_, ((heap_table H3).2.1 132 b (by simp)).1⟩
  convert H3 using 1
  funext j
  by_cases hj : j = 132
  · subst hj; simp
  · simp [hj]

end Spartan.Glue
