import Verif.Lemmas.Reader
import Verif.Props.Scalar

/-!
Properties C59, C60 and C61: reading circom's files.
-/

set_option exponentiation.threshold 2000

namespace Spartan
open Spec MParams

/-! ### C61 -/

/-- The exact behaviour of `read_field` on 32 available bytes: the bytes are read as a *big-endian*
integer, which is returned when it is below `p`; otherwise the program panics. -/
theorem read_field_exact {f bs : List UInt8} {p : Nat} (h : At f p bs) (hl : bs.length = 32) :
    readField f p = if leNat bs.reverse < secpP then .ok (leNat bs.reverse, p + 32)
      else .error .panic := by
  have e := readBytes_reads bs f p h
  rw [hl] at e
  rw [readField, e]
  simp only [coreFromRepr, hl, true_and, show secqOrder = secpP by decide +kernel]
  split_ifs <;> rfl

/-- 27 low bytes that are not all `0xff` leave the byte-swapped value below `p`. -/
theorem leNat_reverse_lt (bs : List UInt8) (hl : bs.length = 32)
    (h27 : leNat (bs.take 27) ≠ 256 ^ 27 - 1) :
    leNat bs.reverse < 256 ^ 32 - 2 ^ 32 - 977 := by
  have h1 : bs.reverse = (bs.drop 27).reverse ++ (bs.take 27).reverse := by
    rw [← List.reverse_append, List.take_append_drop]
  have l5 : (bs.drop 27).reverse.length = 5 := by simp [hl]
  have l27 : (bs.take 27).reverse.length = 27 := by simp [hl]
  have h4 := leNat_lt (bs.drop 27).reverse
  have h5 := leNat_lt (bs.take 27).reverse
  have h6 : leNat (bs.take 27).reverse ≠ 256 ^ 27 - 1 := by
    intro hc
    apply h27
    have hrep : leNat (List.replicate 27 (255 : UInt8)) = 256 ^ 27 - 1 := by decide +kernel
    have : (bs.take 27).reverse = List.replicate 27 255 :=
      leNat_inj (by rw [l27, List.length_replicate]) (by rw [hc, hrep])
    have h' : bs.take 27 = List.replicate 27 255 := by
      rw [← List.reverse_reverse (bs.take 27), this, List.reverse_replicate]
    rw [h', hrep]
  rw [h1, leNat_append, l5]
  rw [l5] at h4
  rw [l27] at h5
  generalize leNat (bs.take 27).reverse = a at *
  generalize leNat (bs.drop 27).reverse = b at *
  norm_num at h4 h5 h6 ⊢
  omega

theorem leNat_take_mod (bs : List UInt8) (n : Nat) (h : n ≤ bs.length) :
    leNat (bs.take n) = leNat bs % 256 ^ n := by
  have e := leNat_append (bs.take n) (bs.drop n)
  have hl := leNat_lt (bs.take n)
  rw [List.take_append_drop] at e
  rw [List.length_take, min_eq_left h] at e hl
  rw [e, Nat.add_mul_mod_self_left, Nat.mod_eq_of_lt hl]

/-- A value whose low 27 bytes are not all `0xff` is accepted by `read_field`. -/
theorem readable_of_mod {x : Nat} (hx : x < 256 ^ 32) (h27 : x % 2 ^ 216 ≠ 2 ^ 216 - 1) :
    Readable x := by
  have h := leNat_reverse_lt (leBytes 32 x) (leBytes_length 32 x) (by
    rw [leNat_take_mod _ _ (by rw [leBytes_length]; norm_num), leNat_leBytes, Nat.mod_eq_of_lt hx]
    intro hc
    apply h27
    rw [show (2 : ℕ) ^ 216 = 256 ^ 27 by norm_num]
    exact hc)
  unfold Readable swapped
  have ho : secqOrder = 256 ^ 32 - 2 ^ 32 - 977 := by decide +kernel
  rw [ho]
  exact h

/-- C61, the part that holds: the encoding of `x < p` is read, and read so that the bytes handed to
the proof system are the encoding of `x`, unless the low 27 bytes of `x` are all `0xff`.  Missing: the
remaining values (`read_field_rejects_valid`) and the rejection of values from `p` on
(`read_field_accepts_noncanonical`). -/
theorem read_field_partial {f : List UInt8} {p x : Nat} (hx : x < secpP)
    (h27 : x % 2 ^ 216 ≠ 2 ^ 216 - 1) (h : At f p (encField x)) :
    ∃ c, readField f p = .ok (c, p + 32) ∧ coreToRepr c = encField x ∧
      ∃ a, paramsP.fromBytes (coreToRepr c) = some a ∧ a.Rep secpP (x : ZMod secpP) := by
  have hx256 : x < 256 ^ 32 := lt_trans hx (by decide +kernel)
  have hread : Readable x := readable_of_mod hx256 h27
  have e := readField_reads hread f p h
  refine ⟨swapped x, ?_, coreToRepr_swapped x, ?_⟩
  · rw [e, encField, leBytes_length]
  · rw [coreToRepr_swapped]
    have hl : leNat (leBytes 32 x) = x := by rw [leNat_leBytes, Nat.mod_eq_of_lt hx256]
    have := scalar_from_bytes (bs := leBytes 32 x) (leBytes_length 32 x)
    rw [hl] at this
    obtain ⟨a, ha⟩ := this.1.mpr hx
    exact ⟨a, ha, (this.2 a ha).1⟩

/-- C61 is false: `2^240 - 1` is a field element, and reading its encoding panics. -/
theorem read_field_rejects_valid : 2 ^ 240 - 1 < secpP ∧
    readField (encField (2 ^ 240 - 1)) 0 = .error .panic := by
  refine ⟨by decide +kernel, ?_⟩
  rw [read_field_exact (at_self (encField _)) (leBytes_length _ _), if_neg (by decide +kernel)]

/-- C61 is false: the encoding of `p + 1`, which is not the encoding of a field element, is read. -/
theorem read_field_accepts_noncanonical :
    ∃ c, readField (encField (secpP + 1)) 0 = .ok (c, 32) := by
  refine ⟨leNat (encField (secpP + 1)).reverse, ?_⟩
  rw [read_field_exact (at_self (encField _)) (leBytes_length _ _), if_pos (by decide +kernel)]

/-- Non-vacuity: `-1` satisfies the hypotheses of `read_field_partial`. -/
example : (secpP - 1) % 2 ^ 216 ≠ 2 ^ 216 - 1 := by decide +kernel

/-! ### C59 -/

/-- Terms with their coefficients as 32 bytes: what the constraint system says, and what the reader
hands on. -/
def termBytes (l : LinComb) : List (Nat × List UInt8) := l.map fun t => (t.1, encField t.2)

def coreBytes (l : List (Nat × Nat)) : List (Nat × List UInt8) := l.map fun t => (t.1, coreToRepr t.2)

/-- Fits the format (32-bit counts and wires), with coefficients that `read_field` accepts. -/
def LCFits (l : LinComb) : Prop := l.length < 2 ^ 32 ∧ ∀ t ∈ l, t.1 < 2 ^ 32 ∧ Readable t.2

/-- C59 for readable coefficients: for every constraint system within the limits of the format, every
order of the sections and any further sections of other types, reading the file returns the header,
the constraints in order with the bytes of their coefficients, and the wire map.  Missing:
coefficients `read_field` rejects (`r1cs_read_panics`). -/
theorem r1cs_read_partial {h : Head} {cs : List Con} {m : List Nat} {secs : List (Nat × List UInt8)}
    (hp : h.prime.length = 32) (hw : h.nWires < 2 ^ 32) (hpo : h.nPubOut < 2 ^ 32)
    (hpi : h.nPubIn < 2 ^ 32) (hpr : h.nPrvIn < 2 ^ 32) (hlab : h.nLabels < 2 ^ 64)
    (hcl : cs.length < 2 ^ 32) (hcs : ∀ c ∈ cs, LCFits c.a ∧ LCFits c.b ∧ LCFits c.c)
    (hm : m.length = h.nWires) (h64 : ∀ x ∈ m, x < 2 ^ 64) (hm0 : m.head? = some 0)
    (hty : ∀ s ∈ secs, s.1 < 2 ^ 32) (hnd : (secs.map Prod.fst).Nodup) (hsl : secs.length < 2 ^ 32)
    (hlen : (encR1cs secs).length < 2 ^ 63)
    (h1 : (1, encHead h cs.length) ∈ secs) (h2 : (2, encCons cs) ∈ secs) (h3 : (3, encMap m) ∈ secs) :
    ∃ file, fromReader (encR1cs secs) = .ok file ∧
      file.header = ⟨32, h.prime, h.nWires, h.nPubOut, h.nPubIn, h.nPrvIn, h.nLabels, cs.length⟩ ∧
      file.wireMap = m ∧
      (file.constraints.map fun c => (coreBytes c.1, coreBytes c.2.1, coreBytes c.2.2)) =
        cs.map fun c => (termBytes c.a, termBytes c.b, termBytes c.c) := by
  have hH : HeadOk h := ⟨hp, hw, hpo, hpi, hpr, hlab⟩
  have a0 := at_self (encR1cs secs)
  have hdef : encR1cs secs = [0x72, 0x31, 0x63, 0x73] ++ (leBytes 4 1 ++ (leBytes 4 secs.length ++
    encSections secs)) := rfl
  generalize encR1cs secs = f at *
  have a : At f 0 ([0x72, 0x31, 0x63, 0x73] ++ (leBytes 4 1 ++ (leBytes 4 secs.length ++
    encSections secs))) := hdef ▸ a0
  have e1 := readBytes_reads _ f _ a.left
  have a := a.right
  have e2 := readLE_reads (n := 4) (x := 1) (by norm_num) f _ a.left
  have a := a.right
  have e3 := readLE_reads (n := 4) (lt_256_4 hsl) f _ a.left
  have a := a.right
  simp only [leBytes_length, List.length_cons, List.length_nil, Nat.zero_add, Nat.reduceAdd]
    at e1 e2 e3 a
  obtain ⟨q, e4⟩ := readSections_eq hlen secs hty _ a []
  rw [List.append_nil] at e4
  have hnd' : ((secTable 12 secs).reverse.map Prod.fst).Nodup := by
    rw [List.map_reverse, List.nodup_reverse, secTable_types]; exact hnd
  obtain ⟨o1, m1, t1⟩ := secTable_mem a h1
  obtain ⟨o2, m2, t2⟩ := secTable_mem a h2
  obtain ⟨o3, m3, t3⟩ := secTable_mem a h3
  have f1 := findSection_eq hnd' (List.mem_reverse.mpr m1)
  have f2 := findSection_eq hnd' (List.mem_reverse.mpr m2)
  have f3 := findSection_eq hnd' (List.mem_reverse.mpr m3)
  rw [encHead_length hH] at f1
  have e5 := readHeader_reads hH hcl f _ t1
  have e6 := readMany_reads (rd := readConstraint) (enc := encCon) (val := conRead) cs
    (fun c hc => readConstraint_reads (hcs c hc)) f _ t2
  have e7 := readMap_reads (nCons := cs.length) hm h64 hm0 f _ t3
  refine ⟨⟨headRead h cs.length, cs.map conRead, m⟩, ?_, rfl, rfl, ?_⟩
  · have e6' : readMany readConstraint (headRead h cs.length).nConstraints f o2 =
        .ok (cs.map conRead, o2 + (cs.map encCon).flatten.length) := e6
    have hne : ¬ (headRead h cs.length).fieldSize ≠ 32 := by simp [headRead]
    simp only [fromReader, e1, e2, e3, e4, f1, f2, f3, e5, e6', e7, bind, Except.bind, pure,
      Except.pure, ne_eq, not_true_eq_false, if_false, if_neg hne]
  · rw [List.map_map]
    apply List.map_congr_left
    intro c _
    have hb : ∀ l, coreBytes (lcRead l) = termBytes l := by
      intro l
      simp only [coreBytes, lcRead, termBytes, List.map_map]
      apply List.map_congr_left
      intro t _
      simp only [Function.comp, coreToRepr_swapped, encField]
    simp only [Function.comp, conRead, hb]

/-- The sizes `load_r1cs_from_bin` derives from the file: the constant and the public wires count as
inputs. -/
theorem r1cs_load_sizes {f : List UInt8} {file : R1csFile} (h : fromReader f = .ok file)
    (hlt : 1 + file.header.nPubIn + file.header.nPubOut ≤ file.header.nWires)
    (h32 : file.header.nWires < 2 ^ 32) :
    loadR1cs f = .ok (⟨1 + file.header.nPubIn + file.header.nPubOut,
      file.header.nWires - (1 + file.header.nPubIn + file.header.nPubOut), file.header.nWires,
      file.constraints⟩, file.wireMap) := by
  unfold loadR1cs
  rw [h]
  simp only
  have e : (1 + file.header.nPubIn + file.header.nPubOut) % 2 ^ 32 =
      1 + file.header.nPubIn + file.header.nPubOut := Nat.mod_eq_of_lt (by omega)
  rw [e, show file.header.nWires + 2 ^ 64 - (1 + file.header.nPubIn + file.header.nPubOut) =
    (file.header.nWires - (1 + file.header.nPubIn + file.header.nPubOut)) + 2 ^ 64 by omega,
    Nat.add_mod_right, Nat.mod_eq_of_lt (by omega)]

/-- The size of a section is not checked against the file: the size `2^64 - 12` sends the reader back to the beginning of
the same section, which it then reads as often as the file claims to have sections, and stays there. -/
theorem r1cs_section_loops {f : List UInt8} {p ty size : Nat} (hp : p + 12 < 2 ^ 63) (hsize : size + 12 = 2 ^ 64)
    (h1 : readLE 4 f p = .ok (ty, p + 4)) (h2 : readLE 8 f (p + 4) = .ok (size, p + 12)) :
    ∀ (n : Nat) (acc : List (Nat × Nat × Nat)),
      readSections n acc f p = .ok (List.replicate n (ty, p + 12, size) ++ acc, p) := by
  have hs : seekCur (p + 12) size = .ok p := by
    have hz : (size : Int) + 12 = 2 ^ 64 := by exact_mod_cast hsize
    have e : ((p + 12 : ℕ) : Int) + (size : Int) - 2 ^ 64 = (p : Int) := by
      push_cast
      linarith
    unfold seekCur
    simp only
    rw [if_neg (by omega), e, if_neg (by omega), Int.toNat_natCast]
  intro n
  induction n with
  | zero => intro acc; rfl
  | succ n ih =>
    intro acc
    rw [readSections, h1]
    simp only
    rw [h2]
    simp only
    rw [hs]
    simp only
    rw [ih, List.replicate_succ', List.append_assoc, List.singleton_append]

/-- The hypotheses are met by the twelve bytes of such a section. -/
example : readLE 4 (leBytes 4 7 ++ leBytes 8 (2 ^ 64 - 12)) 0 = .ok (7, 0 + 4) ∧
    readLE 8 (leBytes 4 7 ++ leBytes 8 (2 ^ 64 - 12)) (0 + 4) = .ok (2 ^ 64 - 12, 0 + 12) := by
  decide +kernel

/-- The header of the examples: two wires. -/
def exHead : Head := ⟨leBytes 32 secpP, 2, 0, 1, 0, 2⟩

/-- C59 is false: a constraint system with a coefficient `2^240 - 1` cannot be read. -/
theorem r1cs_read_panics :
    loadR1cs (encR1cs [(1, encHead exHead 1), (2, encCons [⟨[(1, 2 ^ 240 - 1)], [(0, 1)], [(1, 1)]⟩]),
      (3, encMap [0, 1])]) = .error .panic := by
  decide +kernel

/-- Non-vacuity of `r1cs_read_partial`: sections in another order and an unknown section. -/
example : ∃ file, fromReader (encR1cs [(7, [1, 2, 3]), (3, encMap [0, 1]),
    (2, encCons [⟨[(1, secpP - 1)], [(0, 1)], [(1, 1)]⟩]), (1, encHead exHead 1)]) = .ok file := by
  obtain ⟨file, h, -⟩ := r1cs_read_partial (h := exHead)
    (cs := [⟨[(1, secpP - 1)], [(0, 1)], [(1, 1)]⟩]) (m := [0, 1])
    (secs := [(7, [1, 2, 3]), (3, encMap [0, 1]),
      (2, encCons [⟨[(1, secpP - 1)], [(0, 1)], [(1, 1)]⟩]), (1, encHead exHead 1)])
    (by decide +kernel) (by decide +kernel) (by decide +kernel) (by decide +kernel)
    (by decide +kernel) (by decide +kernel) (by decide +kernel)
    (by
      intro c hc
      simp only [List.mem_singleton] at hc
      subst hc
      refine ⟨⟨by simp, ?_⟩, ⟨by simp, ?_⟩, ⟨by simp, ?_⟩⟩
      all_goals
        intro t ht
        simp only [List.mem_singleton] at ht
        subst ht
        exact ⟨by norm_num, by decide +kernel⟩)
    (by decide) (by decide) (by decide) (by simp) (by simp) (by simp) (by decide +kernel)
    (by simp) (by simp) (by simp)
  exact ⟨file, h⟩

/-! ### C60 -/

/-- A witness file is read, with the size field of the witness section taken modulo `2^32`. -/
theorem wtns_read_core {version : Nat} {prime : List UInt8} {ws : List Nat} {rest : List UInt8}
    (hv : version ≤ 2) (hp : prime.length = 32) (hw : ws.length < 2 ^ 32)
    (hr : ∀ w ∈ ws, Readable w) :
    ∃ l, loadWitness (encWtns version prime (32 * ws.length % 2 ^ 32) ws ++ rest) = .ok l ∧
      l.map coreToRepr = ws.map encField := by
  obtain ⟨size, hsize⟩ : ∃ s, s = 32 * ws.length % 2 ^ 32 := ⟨_, rfl⟩
  have hs64 : size < 2 ^ 64 := by
    rw [hsize]; exact lt_trans (Nat.mod_lt _ (by norm_num)) (by norm_num)
  have a := (at_self (encWtns version prime size ws ++ rest)).left
  rw [← hsize]
  generalize encWtns version prime size ws ++ rest = f at a ⊢
  unfold encWtns at a
  have e1 := readBytes_reads _ f _ a.left
  have a := a.right
  have e2 := readLE_reads (n := 4) (x := version) (by omega) f _ a.left
  have a := a.right
  have e3 := readLE_reads (n := 4) (x := 2) (by norm_num) f _ a.left
  have a := a.right
  have e4 := readLE_reads (n := 4) (x := 1) (by norm_num) f _ a.left
  have a := a.right
  have e5 := readLE_reads (n := 8) (x := 40) (by norm_num) f _ a.left
  have a := a.right
  have e6 := readLE_reads (n := 4) (x := 32) (by norm_num) f _ a.left
  have a := a.right
  have e7 := readBytes_reads prime f _ a.left
  have a := a.right
  have e8 := readLE_reads (n := 4) (lt_256_4 hw) f _ a.left
  have a := a.right
  have e9 := readLE_reads (n := 4) (x := 2) (by norm_num) f _ a.left
  have a := a.right
  have e10 := readLE_reads (n := 8) (lt_256_8 hs64) f _ a.left
  have e11 := readMany_reads (rd := readField) (enc := encField) (val := swapped) ws
    (fun w hw => readField_reads (hr w hw)) f _ a.right
  rw [hp] at e7
  simp only [leBytes_length, hp, List.length_cons, List.length_nil, Nat.zero_add, Nat.reduceAdd]
    at e1 e2 e3 e4 e5 e6 e7 e8 e9 e10 e11
  refine ⟨ws.map swapped, ?_, ?_⟩
  · have hs : ¬ size ≠ ws.length * 32 % 2 ^ 32 := by rw [hsize, mul_comm]; simp
    simp only [loadWitness, e1, e2, e3, e4, e5, e6, e7, e8, e9, e10, e11, bind, Except.bind, pure,
      Except.pure, ne_eq, not_true_eq_false, if_false, if_neg (not_lt.mpr hv), if_neg hs]
  · rw [List.map_map]
    apply List.map_congr_left
    intro w _
    simp only [Function.comp, coreToRepr_swapped, encField]

/-- C60 for readable values: a witness of fewer than `2^27` readable values is read back exactly.
Missing: the other values (`wtns_read_panics`), and rejection of every malformed size field
(`wtns_size_wraps`). -/
theorem wtns_read_partial {version : Nat} {prime : List UInt8} {ws : List Nat} {rest : List UInt8}
    (hv : version ≤ 2) (hp : prime.length = 32) (hw : ws.length < 2 ^ 27)
    (hr : ∀ w ∈ ws, Readable w) :
    ∃ l, loadWitness (encWtns version prime (32 * ws.length) ws ++ rest) = .ok l ∧
      l.map coreToRepr = ws.map encField := by
  have := wtns_read_core (rest := rest) hv hp (by omega) hr
  rwa [Nat.mod_eq_of_lt (by omega)] at this

/-- C60 is false for the size field: `2^27` values with a section size of zero are accepted. -/
theorem wtns_size_wraps {version : Nat} {prime : List UInt8} {ws : List Nat}
    (hv : version ≤ 2) (hp : prime.length = 32) (hw : ws.length = 2 ^ 27)
    (hr : ∀ w ∈ ws, Readable w) :
    ∃ l, loadWitness (encWtns version prime 0 ws) = .ok l ∧ l.map coreToRepr = ws.map encField := by
  have := wtns_read_core (rest := []) hv hp (by omega) hr
  rwa [List.append_nil, hw, show 32 * 2 ^ 27 % 2 ^ 32 = 0 by norm_num] at this

/-- C60 is false for the witness value `2^240 - 1`. -/
theorem wtns_read_panics : loadWitness (encWtns 2 (leBytes 32 secpP) 64 [1, 2 ^ 240 - 1]) =
    .error .panic := by
  decide +kernel

/-- Reading steps, inverted. -/
theorem readBytes_inv {n p q : Nat} {f bs : List UInt8} (h : readBytes n f p = .ok (bs, q)) :
    At f p bs ∧ bs.length = n ∧ q = p + n := by
  unfold readBytes at h
  split_ifs at h with h1
  simp only [Except.ok.injEq, Prod.mk.injEq] at h
  obtain ⟨rfl, rfl⟩ := h
  have hl : ((f.drop p).take n).length = n := by simp; omega
  exact ⟨⟨by rw [hl]; exact h1, by rw [hl]⟩, hl, rfl⟩

theorem readLE_inv {n p q x : Nat} {f : List UInt8} (h : readLE n f p = .ok (x, q)) :
    At f p (leBytes n x) ∧ q = p + n := by
  unfold readLE at h
  cases e : readBytes n f p with
  | error r => rw [e] at h; cases h
  | ok v =>
    obtain ⟨bs, q'⟩ := v
    rw [e] at h
    simp only [Except.ok.injEq, Prod.mk.injEq] at h
    obtain ⟨rfl, rfl⟩ := h
    obtain ⟨h1, h2, h3⟩ := readBytes_inv e
    refine ⟨?_, h3⟩
    rw [← h2, leBytes_leNat]; exact h1

theorem rd_bind_inv {α β : Type} {x : Rd α} {k : α → Rd β} {y : β}
    (h : (x >>= k) = .ok y) : ∃ v, x = .ok v ∧ k v = .ok y := by
  cases x with
  | error e => cases h
  | ok v => exact ⟨v, rfl, h⟩

theorem rd_ite_inv {β : Type} {c : Prop} {_ : Decidable c} {e : RdFail} {k : Rd β} {y : β}
    (h : (if c then .error e else k) = .ok y) : ¬ c ∧ k = .ok y := by
  by_cases hc : c
  · rw [if_pos hc] at h; cases h
  · rw [if_neg hc] at h; exact ⟨hc, h⟩

theorem readMany_length {α : Type} {rd : Reader α} : ∀ {n : Nat} {f : List UInt8} {p q : Nat}
    {l : List α}, readMany rd n f p = .ok (l, q) → l.length = n
  | 0, f, p, q, l, h => by
      simp only [readMany, Except.ok.injEq, Prod.mk.injEq] at h
      rw [← h.1]; rfl
  | n + 1, f, p, q, l, h => by
      rw [readMany] at h
      cases e : rd f p with
      | error r => rw [e] at h; cases h
      | ok v =>
        obtain ⟨a, q'⟩ := v
        rw [e] at h
        simp only at h
        cases e2 : readMany rd n f q' with
        | error r => rw [e2] at h; cases h
        | ok w =>
          obtain ⟨as, q''⟩ := w
          rw [e2] at h
          simp only [Except.ok.injEq, Prod.mk.injEq] at h
          rw [← h.1, List.length_cons, readMany_length e2]

/-- C60: malformed files are rejected.  Whatever is accepted starts with the magic bytes, a version
up to 2, two sections, a header section of 40 bytes for 32-byte fields, and a witness section whose
size field is the number of values times 32 modulo `2^32`. -/
theorem wtns_accepted_header {f : List UInt8} {l : List Nat} (h : loadWitness f = .ok l) :
    At f 0 [119, 116, 110, 115] ∧ (∃ version ≤ 2, At f 4 (leBytes 4 version)) ∧
      At f 8 (leBytes 4 2) ∧ At f 12 (leBytes 4 1) ∧ At f 16 (leBytes 8 40) ∧
      At f 24 (leBytes 4 32) ∧ At f 60 (leBytes 4 l.length) ∧ At f 64 (leBytes 4 2) ∧
      At f 68 (leBytes 8 (l.length * 32 % 2 ^ 32)) := by
  unfold loadWitness at h
  obtain ⟨⟨magic, p1⟩, h1, h⟩ := rd_bind_inv h
  obtain ⟨c1, h⟩ := rd_ite_inv h
  obtain ⟨⟨version, p2⟩, h2, h⟩ := rd_bind_inv h
  obtain ⟨c2, h⟩ := rd_ite_inv h
  obtain ⟨⟨ns, p3⟩, h3, h⟩ := rd_bind_inv h
  obtain ⟨c3, h⟩ := rd_ite_inv h
  obtain ⟨⟨st, p4⟩, h4, h⟩ := rd_bind_inv h
  obtain ⟨c4, h⟩ := rd_ite_inv h
  obtain ⟨⟨ss, p5⟩, h5, h⟩ := rd_bind_inv h
  obtain ⟨c5, h⟩ := rd_ite_inv h
  obtain ⟨⟨fs, p6⟩, h6, h⟩ := rd_bind_inv h
  obtain ⟨c6, h⟩ := rd_ite_inv h
  obtain ⟨⟨pr, p7⟩, h7, h⟩ := rd_bind_inv h
  obtain ⟨⟨wl, p8⟩, h8, h⟩ := rd_bind_inv h
  obtain ⟨⟨st2, p9⟩, h9, h⟩ := rd_bind_inv h
  obtain ⟨c9, h⟩ := rd_ite_inv h
  obtain ⟨⟨ss2, p10⟩, h10, h⟩ := rd_bind_inv h
  obtain ⟨c10, h⟩ := rd_ite_inv h
  obtain ⟨⟨ws, p11⟩, h11, h⟩ := rd_bind_inv h
  have hws : ws = l := by simpa [pure, Except.pure] using h
  subst hws
  simp only [ne_eq, not_not] at c1 c2 c3 c4 c5 c6 c9 c10
  have hl := readMany_length h11
  obtain ⟨a1, -, rfl⟩ := readBytes_inv h1
  obtain ⟨a2, rfl⟩ := readLE_inv h2
  obtain ⟨a3, rfl⟩ := readLE_inv h3
  obtain ⟨a4, rfl⟩ := readLE_inv h4
  obtain ⟨a5, rfl⟩ := readLE_inv h5
  obtain ⟨a6, rfl⟩ := readLE_inv h6
  obtain ⟨-, -, rfl⟩ := readBytes_inv h7
  obtain ⟨a8, rfl⟩ := readLE_inv h8
  obtain ⟨a9, rfl⟩ := readLE_inv h9
  obtain ⟨a10, rfl⟩ := readLE_inv h10
  subst c1 c3 c4 c5 c6 c9 c10 hl
  exact ⟨a1, ⟨version, not_lt.mp c2, a2⟩, a3, a4, a5, a6, a8, a9, a10⟩

end Spartan
