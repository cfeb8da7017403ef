import Verif.Model.Reader
import Verif.Spec.Circom
import Verif.Lemmas.LimbsRep

/-! Lemmas on the readers. -/

set_option exponentiation.threshold 2000

namespace Spartan
open Spec MParams

/-- The bytes `bs` stand at position `p` of the file. -/
def At (f : List UInt8) (p : Nat) (bs : List UInt8) : Prop :=
  p + bs.length ≤ f.length ∧ (f.drop p).take bs.length = bs

theorem At.left {f : List UInt8} {p : Nat} {a b : List UInt8} (h : At f p (a ++ b)) : At f p a := by
  obtain ⟨h1, h2⟩ := h
  rw [List.length_append] at h1 h2
  refine ⟨by omega, ?_⟩
  have := congrArg (List.take a.length) h2
  rwa [List.take_take, List.take_left, Nat.min_eq_left (by omega)] at this

theorem At.right {f : List UInt8} {p : Nat} {a b : List UInt8} (h : At f p (a ++ b)) :
    At f (p + a.length) b := by
  obtain ⟨h1, h2⟩ := h
  rw [List.length_append] at h1 h2
  refine ⟨by omega, ?_⟩
  have := congrArg (List.drop a.length) h2
  rwa [List.drop_take, List.drop_left, List.drop_drop, Nat.add_sub_cancel_left] at this

theorem at_self (f : List UInt8) : At f 0 f := by simp [At]

/-- The reader `rd` turns the bytes `bs`, wherever they stand, into `v`. -/
def Reads {α : Type} (rd : Reader α) (bs : List UInt8) (v : α) : Prop :=
  ∀ f p, At f p bs → rd f p = .ok (v, p + bs.length)

theorem readBytes_reads (bs : List UInt8) : Reads (readBytes bs.length) bs bs := by
  intro f p h
  rw [readBytes, if_pos h.1, h.2]

theorem readLE_reads {n x : Nat} (hx : x < 256 ^ n) : Reads (readLE n) (leBytes n x) x := by
  intro f p h
  have := readBytes_reads (leBytes n x) f p h
  rw [leBytes_length] at this
  rw [readLE, this]
  simp only [leNat_leBytes, leBytes_length, Nat.mod_eq_of_lt hx]

theorem lt_256_4 {x : Nat} (h : x < 2 ^ 32) : x < 256 ^ 4 := lt_of_lt_of_le h (by norm_num)

theorem lt_256_8 {x : Nat} (h : x < 2 ^ 64) : x < 256 ^ 8 := lt_of_lt_of_le h (by norm_num)

/-- The integer that `read_field` makes of the encoding of `x`. -/
def swapped (x : Nat) : Nat := leNat (leBytes 32 x).reverse

/-- The field elements `read_field` accepts. -/
def Readable (x : Nat) : Prop := swapped x < secqOrder

instance (x : Nat) : Decidable (Readable x) := by unfold Readable; infer_instance

theorem coreToRepr_swapped (x : Nat) : coreToRepr (swapped x) = leBytes 32 x := by
  have := leBytes_leNat (leBytes 32 x).reverse
  rw [List.length_reverse, leBytes_length] at this
  rw [coreToRepr, beBytes32, swapped, this, List.reverse_reverse]

theorem readField_reads {x : Nat} (hx : Readable x) : Reads readField (encField x) (swapped x) := by
  intro f p h
  have := readBytes_reads (encField x) f p h
  rw [encField, leBytes_length] at this
  have hc : coreFromRepr (leBytes 32 x) = some (swapped x) := by
    rw [coreFromRepr, if_pos ⟨leBytes_length _ _, hx⟩]; rfl
  rw [readField, this]
  simp only [hc, encField, leBytes_length]

theorem readMany_reads {α β : Type} {rd : Reader α} {enc : β → List UInt8} {val : β → α} :
    ∀ xs : List β, (∀ x ∈ xs, Reads rd (enc x) (val x)) →
      Reads (readMany rd xs.length) (xs.map enc).flatten (xs.map val)
  | [], _ => by
    intro f p _
    simp [readMany]
  | x :: xs, hx => by
    intro f p h
    rw [List.map_cons, List.flatten_cons] at h
    have h1 := hx x (by simp) f p h.left
    have h2 := readMany_reads xs (fun y hy => hx y (by simp [hy])) f _ h.right
    rw [List.length_cons, readMany, h1]
    simp only [h2, List.map_cons, List.flatten_cons, List.length_append, Nat.add_assoc]

theorem readTerm_reads {t : Nat × Nat} (h1 : t.1 < 2 ^ 32) (h2 : Readable t.2) :
    Reads readTerm (leBytes 4 t.1 ++ encField t.2) (t.1, swapped t.2) := by
  intro f p h
  have e1 := readLE_reads (n := 4) (lt_256_4 h1) f p h.left
  have e2 := readField_reads h2 f _ h.right
  simp only [readTerm, e1, bind, Except.bind, e2, pure, Except.pure, List.length_append,
    Nat.add_assoc]

/-- Within the limits of the format and readable. -/
def LCOk (l : LinComb) : Prop := l.length < 2 ^ 32 ∧ ∀ t ∈ l, t.1 < 2 ^ 32 ∧ Readable t.2

/-- The terms as the reader returns them. -/
def lcRead (l : LinComb) : List (Nat × Nat) := l.map fun t => (t.1, swapped t.2)

theorem readConstraintVec_reads {l : LinComb} (h : LCOk l) :
    Reads readConstraintVec (encLinComb l) (lcRead l) := by
  intro f p hp
  obtain ⟨h1, h2⟩ := h
  unfold encLinComb at hp ⊢
  have e1 := readLE_reads (n := 4) (lt_256_4 h1) f p hp.left
  have hr : ∀ t ∈ l, Reads readTerm (leBytes 4 t.1 ++ encField t.2) (t.1, swapped t.2) := by
    intro t ht
    obtain ⟨a, b⟩ := h2 t ht
    exact readTerm_reads a b
  have e2 := readMany_reads l hr f _ hp.right
  simp only [readConstraintVec, e1, bind, Except.bind]
  rw [e2]
  simp only [lcRead, List.length_append, Nat.add_assoc]

def ConOk (c : Con) : Prop := LCOk c.a ∧ LCOk c.b ∧ LCOk c.c

def conRead (c : Con) : CircomConstraint := (lcRead c.a, lcRead c.b, lcRead c.c)

theorem readConstraint_reads {c : Con} (h : ConOk c) :
    Reads readConstraint (encCon c) (conRead c) := by
  intro f p hp
  have e1 := readConstraintVec_reads h.1 f p hp.left
  have e2 := readConstraintVec_reads h.2.1 f _ hp.right.left
  have e3 := readConstraintVec_reads h.2.2 f _ hp.right.right
  simp only [readConstraint, e1, bind, Except.bind, e2, e3, pure, Except.pure, conRead]
  simp only [encCon, List.length_append, Nat.add_assoc]

def HeadOk (h : Head) : Prop :=
  h.prime.length = 32 ∧ h.nWires < 2 ^ 32 ∧ h.nPubOut < 2 ^ 32 ∧ h.nPubIn < 2 ^ 32 ∧
    h.nPrvIn < 2 ^ 32 ∧ h.nLabels < 2 ^ 64

/-- The header as the reader returns it. -/
def headRead (h : Head) (nCons : Nat) : R1csHeader :=
  ⟨32, h.prime, h.nWires, h.nPubOut, h.nPubIn, h.nPrvIn, h.nLabels, nCons⟩

theorem encHead_length {h : Head} (hh : HeadOk h) (nCons : Nat) : (encHead h nCons).length = 64 := by
  simp only [encHead, List.length_append, leBytes_length, hh.1]

theorem readHeader_reads {h : Head} (hh : HeadOk h) {nCons : Nat} (hn : nCons < 2 ^ 32) :
    Reads (readHeader 64) (encHead h nCons) (headRead h nCons) := by
  intro f p hp
  obtain ⟨g0, g1, g2, g3, g4, g5⟩ := hh
  have e1 := readLE_reads (n := 4) (x := 32) (by norm_num) f p hp.left
  have r := hp.right
  have e2 := readBytes_reads h.prime f _ r.left
  rw [g0] at e2
  have r := r.right
  have e3 := readLE_reads (n := 4) (x := h.nWires) (lt_256_4 g1) f _ r.left
  have r := r.right
  have e4 := readLE_reads (n := 4) (x := h.nPubOut) (lt_256_4 g2) f _ r.left
  have r := r.right
  have e5 := readLE_reads (n := 4) (x := h.nPubIn) (lt_256_4 g3) f _ r.left
  have r := r.right
  have e6 := readLE_reads (n := 4) (x := h.nPrvIn) (lt_256_4 g4) f _ r.left
  have r := r.right
  have e7 := readLE_reads (n := 8) (x := h.nLabels) (lt_256_8 g5) f _ r.left
  have r := r.right
  have e8 := readLE_reads (n := 4) (x := nCons) (lt_256_4 hn) f _ r
  simp only [leBytes_length, g0] at e1 e2 e3 e4 e5 e6 e7 e8
  simp only [readHeader, e1, e2, e3, e4, e5, e6, e7, e8, bind, Except.bind, pure, Except.pure]
  rw [if_neg (by norm_num)]
  simp only [headRead, encHead, List.length_append, leBytes_length, g0, Nat.add_assoc]

theorem readMap_reads {h : Head} {m : List Nat} {nCons : Nat} (hm : m.length = h.nWires)
    (h64 : ∀ x ∈ m, x < 2 ^ 64) (h0 : m.head? = some 0) :
    Reads (readMap (encMap m).length (headRead h nCons)) (encMap m) m := by
  intro f p hp
  have e := readMany_reads (rd := readLE 8) (enc := leBytes 8) (val := id) m
    (fun x hx => readLE_reads (lt_256_8 (h64 x hx))) f p hp
  have hl : (encMap m).length = m.length * 8 := by
    clear h0 e hp hm
    induction m with
    | nil => rfl
    | cons x m ih =>
      have := ih (fun y hy => h64 y (by simp [hy]))
      simp only [encMap, List.map_cons, List.flatten_cons, List.length_append, leBytes_length,
        List.length_cons] at this ⊢
      omega
  rw [readMap, if_neg (by rw [hl, headRead, hm]; simp)]
  have e' : readMany (readLE 8) (headRead h nCons).nWires f p = .ok (m, p + (encMap m).length) := by
    rw [headRead, ← hm, e, List.map_id]; rfl
  rw [e']
  cases m with
  | nil => simp at h0
  | cons x m =>
    simp only [List.head?_cons, Option.some.injEq] at h0
    subst h0
    simp [bind, Except.bind, pure, Except.pure]

/-- Types, offsets and sizes of the sections that start at `p`. -/
def secTable : Nat → List (Nat × List UInt8) → List (Nat × Nat × Nat)
  | _, [] => []
  | p, s :: ss => (s.1, p + 12, s.2.length) :: secTable (p + 12 + s.2.length) ss

theorem secTable_types : ∀ (p : Nat) (ss : List (Nat × List UInt8)),
    (secTable p ss).map Prod.fst = ss.map Prod.fst
  | _, [] => rfl
  | p, s :: ss => by rw [secTable, List.map_cons, secTable_types, List.map_cons]

theorem secTable_mem {f : List UInt8} : ∀ {ss : List (Nat × List UInt8)} {p : Nat}, At f p (encSections ss) →
    ∀ {ty body}, (ty, body) ∈ ss → ∃ off, (ty, off, body.length) ∈ secTable p ss ∧ At f off body
  | s :: ss, p, h, ty, body, hm => by
    rw [encSections, List.map_cons, List.flatten_cons] at h
    rcases List.mem_cons.mp hm with rfl | hm
    · refine ⟨p + 12, by simp [secTable], ?_⟩
      have := h.left.right.right
      rw [leBytes_length, leBytes_length] at this
      exact this
    · have hr := h.right
      have hl : (encSection s).length = 12 + s.2.length := by
        simp only [encSection, List.length_append, leBytes_length]; omega
      rw [hl, ← Nat.add_assoc] at hr
      obtain ⟨off, h1, h2⟩ := secTable_mem hr hm
      exact ⟨off, by simp [secTable, h1], h2⟩

theorem readSections_eq {f : List UInt8} (hf : f.length < 2 ^ 63) :
    ∀ (ss : List (Nat × List UInt8)), (∀ s ∈ ss, s.1 < 2 ^ 32) → ∀ (p : Nat),
      At f p (encSections ss) → ∀ acc, ∃ q,
      readSections ss.length acc f p = .ok ((secTable p ss).reverse ++ acc, q)
  | [], _, p, _, acc => ⟨p, rfl⟩
  | s :: ss, ht, p, h, acc => by
    rw [encSections, List.map_cons, List.flatten_cons] at h
    have h1 := h.left.left
    have h2 := h.left.right.left
    have h3 := h.left.right.right
    have hsz : s.2.length < 2 ^ 63 := by have := h3.1; omega
    have e1 := readLE_reads (n := 4) (x := s.1) (lt_256_4 (ht s (by simp))) f p h1
    have e2 := readLE_reads (n := 8) (x := s.2.length)
      (lt_of_lt_of_le hsz (by norm_num)) f _ h2
    simp only [leBytes_length] at e1 e2
    have hl : (encSection s).length = 12 + s.2.length := by
      simp only [encSection, List.length_append, leBytes_length]; omega
    have hr := h.right
    rw [hl, ← Nat.add_assoc] at hr
    have e3 : seekCur (p + 4 + 8) s.2.length = .ok (p + 12 + s.2.length) := by
      have := hr.1
      rw [seekCur]
      simp only [if_pos hsz]
      rw [if_neg (by omega)]
      congr 1
    obtain ⟨q, hq⟩ := readSections_eq hf ss (fun x hx => ht x (by simp [hx])) _ hr
      ((s.1, p + 12, s.2.length) :: acc)
    refine ⟨q, ?_⟩
    rw [List.length_cons, readSections, e1]
    simp only [e2, e3]
    rw [hq, secTable]
    simp

theorem findSection_eq {L : List (Nat × Nat × Nat)} (hn : (L.map Prod.fst).Nodup)
    {ty off size : Nat} (h : (ty, off, size) ∈ L) : findSection ty L = .ok (off, size) := by
  have : L.find? (fun s => s.1 == ty) = some (ty, off, size) := by
    induction L with
    | nil => simp at h
    | cons s L ih =>
      rw [List.map_cons, List.nodup_cons] at hn
      rcases List.mem_cons.mp h with rfl | h
      · simp
      · rw [List.find?_cons_of_neg, ih hn.2 h]
        intro hc
        have : s.1 = ty := by simpa using hc
        exact hn.1 (List.mem_map.mpr ⟨_, h, this.symm⟩)
  rw [findSection, this]

end Spartan
