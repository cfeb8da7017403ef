import Verif.Props.GlueEx
import Verif.Lemmas.Utf
import Verif.Spec.GlueStr

/-!
C133: texts pass between JavaScript and the module unchanged.
C134: the block of a text is not always as long as the module is told.
-/

namespace Spartan.Glue

open Spartan.Utf

variable {O : Type}

/-! ### Encoding -/

theorem utf8_length_char (c : Char) : (String.utf8EncodeChar c).length =
    if c.toNat ≤ 0x7F then 1 else if c.toNat ≤ 0x7FF then 2 else if c.toNat ≤ 0xFFFF then 3 else 4 := by
  have hv : c.val.toNat = c.toNat := rfl
  rw [String.utf8EncodeChar]
  simp only [hv]
  split_ifs <;> rfl

theorem utf8_cons (c : Char) (cs : List Char) : utf8 (c :: cs) = String.utf8EncodeChar c ++ utf8 cs := by
  rw [utf8, utf8, List.flatMap_cons]

theorem utf8_append (a b : List Char) : utf8 (a ++ b) = utf8 a ++ utf8 b := by rw [utf8, utf8, utf8, List.flatMap_append]

/-- Three bytes for each code unit are enough. -/
theorem utf8_room {s : JStr} {cs : List Char} (h : Text s cs) : (utf8 cs).length ≤ s.length * 3 := by
  induction h with
  | nil => exact Nat.zero_le _
  | one hu _ ih =>
    rename_i u s c cs _
    have := u.toNat_lt
    rw [utf8_cons, List.length_append, utf8_length_char, List.length_cons]
    split_ifs <;> omega
  | pair _ _ _ _ ih =>
    rw [utf8_cons, List.length_append, utf8_length_char, List.length_cons, List.length_cons]
    split_ifs <;> omega
  | low _ _ ih =>
    rw [utf8_cons, List.length_append, List.length_cons]
    have : (String.utf8EncodeChar '\uFFFD').length = 3 := rfl
    omega
  | high _ _ _ ih =>
    rw [utf8_cons, List.length_append, List.length_cons]
    have : (String.utf8EncodeChar '\uFFFD').length = 3 := rfl
    omega

theorem encodeInto_all : ∀ (cs : List ℕ) (room : ℕ), (encodeAll cs).length ≤ room → encodeInto cs room = encodeAll cs
  | [], _, _ => rfl
  | c :: cs, room, h => by
    rw [encodeAll, List.flatMap_cons, List.length_append] at h
    rw [encodeInto, if_pos (by omega), encodeInto_all cs _ (by rw [encodeAll]; omega), encodeAll, encodeAll,
      List.flatMap_cons]

/-- C133: into a view with less room the longest prefix of the code points that fits is written, and never a byte beyond
the view. -/
theorem encode_into_fits : ∀ (cs : List ℕ) (room : ℕ), (encodeInto cs room).length ≤ room ∧
    ∃ n, encodeInto cs room = encodeAll (cs.take n) ∧ (n < cs.length → room < (encodeAll (cs.take (n + 1))).length)
  | [], room => ⟨Nat.zero_le _, 0, rfl, fun h => absurd h (Nat.lt_irrefl 0)⟩
  | c :: cs, room => by
    rw [encodeInto]
    split_ifs with h
    · obtain ⟨h1, n, h2, h3⟩ := encode_into_fits cs (room - (encodeCp c).length)
      refine ⟨by rw [List.length_append]; omega, n + 1, ?_, fun hn => ?_⟩
      · rw [h2, List.take_succ_cons, encodeAll, encodeAll, List.flatMap_cons]
      · have := h3 (by simpa using hn)
        rw [List.take_succ_cons, encodeAll, List.flatMap_cons, List.length_append]
        rw [encodeAll] at this
        omega
    · refine ⟨Nat.zero_le _, 0, rfl, fun _ => ?_⟩
      rw [List.take_succ_cons, encodeAll, List.flatMap_cons, List.length_append]
      omega


theorem encode_text {s : JStr} {cs : List Char} (h : Text s cs) : encodeAll (scalarValues s) = utf8 cs := by
  rw [text_iff.1 h, encodeAll_chars]

/-- The part of a string before the first code unit above 127. -/
def front (s : JStr) : JStr := s.takeWhile fun u => decide (u.toNat ≤ 0x7F)

def frontBytes (s : JStr) : List UInt8 := (front s).map fun u => .ofNat u.toNat

theorem front_cons_le {u : UInt16} (t : JStr) (h : u.toNat ≤ 0x7F) : front (u :: t) = u :: front t := by
  rw [front, List.takeWhile_cons_of_pos (by simpa using h)]; rfl

theorem front_cons_gt {u : UInt16} (t : JStr) (h : 0x7F < u.toNat) : front (u :: t) = [] := by
  rw [front, List.takeWhile_cons_of_neg (by simpa using h)]

theorem front_length_le (s : JStr) : (front s).length ≤ s.length := (List.takeWhile_sublist _).length_le

theorem frontBytes_length (s : JStr) : (frontBytes s).length = (front s).length := by rw [frontBytes, List.length_map]

/-- The text of a string is that of its front followed by that of the rest. -/
theorem text_split : ∀ (s : JStr) {cs : List Char}, Text (s.drop (front s).length) cs →
    ∃ as, Text s (as ++ cs) ∧ utf8 as = frontBytes s ∧ Ascii as ∧ as.length = (front s).length
  | [], cs, h => ⟨[], h, rfl, fun c hc => (List.not_mem_nil hc).elim, rfl⟩
  | u :: t, cs, h => by
    by_cases hu : u.toNat ≤ 0x7F
    · rw [front_cons_le t hu, List.length_cons, List.drop_succ_cons] at h
      obtain ⟨as, ht, hb, ha, hl⟩ := text_split t h
      obtain ⟨c, hc⟩ := char_of (n := u.toNat) (by omega)
      refine ⟨c :: as, .one hc.symm ht, ?_, ?_, ?_⟩
      · have hv : c.val.toNat = u.toNat := hc
        rw [utf8_cons, hb, frontBytes, frontBytes, front_cons_le t hu, List.map_cons, String.utf8EncodeChar]
        simp only [hv, if_pos hu]
        rfl
      · intro x hx
        rcases List.mem_cons.1 hx with rfl | hx
        · omega
        · exact ha x hx
      · rw [front_cons_le t hu, List.length_cons, List.length_cons, hl]
    · rw [front_cons_gt t (by omega)] at h ⊢
      exact ⟨[], h, by rw [frontBytes, front_cons_gt t (by omega)]; rfl, fun c hc => (List.not_mem_nil hc).elim, rfl⟩

/-! ### Memory -/

theorem write_nil (mem : List UInt8) (p : ℕ) : write mem p [] = mem := by
  rw [write, List.length_nil, Nat.add_zero, List.append_nil, List.take_append_drop]

theorem write_write {mem : List UInt8} {i : ℕ} {a b : List UInt8} (h : i + a.length + b.length ≤ mem.length) :
    write (write mem i a) (i + a.length) b = write mem i (a ++ b) := by
  refine List.ext_getElem? fun j => ?_
  rw [write_get (by rw [write_length (by omega)]; omega), write_get (by omega),
    write_get (by rw [List.length_append]; omega), List.length_append]
  by_cases h1 : i ≤ j ∧ j < i + a.length
  · rw [if_neg (by omega), if_pos h1, if_pos (by omega), List.getElem?_append_left (by omega)]
  · by_cases h2 : i + a.length ≤ j ∧ j < i + a.length + b.length
    · rw [if_pos h2, if_pos (by omega), List.getElem?_append_right (by omega)]
      congr 1; omega
    · rw [if_neg h2, if_neg h1, if_neg (by omega)]

/-- The state after writing to the memory of the instance `k`. -/
def wrote (s : St O) (k i : ℕ) (bs : List UInt8) : St O :=
  { s with insts := Function.update s.insts k { s.insts k with mem := write (s.insts k).mem i bs } }

theorem wrote_inst (s : St O) (k i : ℕ) (bs : List UInt8) :
    (wrote s k i bs).insts k = { s.insts k with mem := write (s.insts k).mem i bs } := Function.update_self ..

theorem wrote_wrote {s : St O} {k i : ℕ} {a b : List UInt8} (h : i + a.length + b.length ≤ (s.insts k).mem.length) :
    wrote (wrote s k i a) k (i + a.length) b = wrote s k i (a ++ b) := by
  rw [wrote, wrote_inst, wrote, wrote]
  simp only [Function.update_idem, write_write h]

theorem wrote_nil (s : St O) (k i : ℕ) : wrote s k i [] = s := by
  rw [wrote, write_nil, Function.update_eq_self]

theorem wrote_ready {base k : ℕ} {s : St O} {L : ℕ → Option (Js O)} (R : Ready base k s L) {i : ℕ} {bs : List UInt8}
    (h : i + bs.length ≤ (s.insts k).mem.length) : Ready base k (wrote s k i bs) L := by
  refine ⟨R.cur, R.u8, R.i32, ?_, R.hist⟩
  rw [wrote_inst]
  exact ⟨R.inv.sp_le, R.inv.base_le, by rw [write_length h]; exact R.inv.mem_ge, by rw [write_length h]; exact R.inv.inside,
    R.inv.disj⟩

theorem wrote_content {k : ℕ} {s : St O} {i : ℕ} {bs : List UInt8} (h : i + bs.length ≤ (s.insts k).mem.length) {b : ℕ × ℕ}
    (hd : i + bs.length ≤ b.1 ∨ b.1 + b.2 ≤ i) : content ((wrote s k i bs).insts k) b = content (s.insts k) b := by
  rw [wrote_inst]; exact content_write_other h hd

/-- Writing inside the newest block keeps the others. -/
theorem wrote_kept {base k : ℕ} {s : St O} {L : ℕ → Option (Js O)} (R : Ready base k s L) {p n i : ℕ} {bl : List (ℕ × ℕ)}
    {bs : List UInt8} (hb : (s.insts k).blocks = (p, n) :: bl) (h1 : p ≤ i) (h2 : i + bs.length ≤ p + n) :
    Ready base k (wrote s k i bs) L ∧ Kept bl (s.insts k) ((wrote s k i bs).insts k) := by
  obtain ⟨-, hin, -⟩ := R.inv.inside (p, n) (by rw [hb]; exact List.mem_cons_self)
  have hin' : p + n ≤ (s.insts k).mem.length := hin
  refine ⟨wrote_ready R (by omega), fun b hm => wrote_content (by omega) ?_⟩
  have hd := R.inv.disj
  rw [hb, List.pairwise_cons] at hd
  rcases hd.1 b hm with h | h
  · left; have h' : p + n ≤ b.1 := h; omega
  · right; have h' : b.1 + b.2 ≤ p := h; omega

theorem storeByte_ok {s : St O} {k i : ℕ} {b : UInt8} (h : i < (s.insts k).mem.length) :
    storeByte (k, (s.insts k).gen) i b s = (.ok (), wrote s k i [b]) := by
  rw [storeByte, byteLength_self, if_pos h]; rfl

theorem asciiLoop_ok {ptr k : ℕ} : ∀ (arg : JStr) (off : ℕ) (s : St O), ptr + off + arg.length ≤ (s.insts k).mem.length →
    asciiLoop (k, (s.insts k).gen) ptr arg off s = (.ok (off + (front arg).length), wrote s k (ptr + off) (frontBytes arg))
  | [], off, s, _ => by
    rw [asciiLoop, frontBytes, front]
    show _ = (_, wrote s k (ptr + off) [])
    rw [wrote_nil]; rfl
  | u :: t, off, s, h => by
    rw [List.length_cons] at h
    rw [asciiLoop]
    by_cases hu : 0x7F < u.toNat
    · rw [if_pos hu, frontBytes, front_cons_gt t hu]
      show _ = (_, wrote s k (ptr + off) [])
      rw [wrote_nil]; rfl
    · rw [if_neg hu, bind_ok (storeByte_ok (by omega)), frontBytes, front_cons_le t (by omega)]
      have e := asciiLoop_ok (ptr := ptr) (k := k) t (off + 1) (wrote s k (ptr + off) [.ofNat u.toNat])
        (by rw [wrote_inst]; show _ ≤ (write _ _ _).length; rw [write_length (by rw [List.length_singleton]; omega)]; omega)
      rw [show ((wrote s k (ptr + off) [.ofNat u.toNat]).insts k).gen = (s.insts k).gen by rw [wrote_inst]] at e
      have hfl := front_length_le t
      have e2 := wrote_wrote (s := s) (k := k) (i := ptr + off) (a := [.ofNat u.toNat]) (b := frontBytes t)
        (by rw [List.length_singleton, frontBytes_length]; omega)
      rw [List.length_singleton] at e2
      rw [e, List.length_cons, ← Nat.add_assoc ptr off 1, e2, Nat.add_assoc off 1, Nat.add_comm 1]
      rfl

theorem malloc_some {E : Exports O} {base k : ℕ} (G : Alloc E base) {s : St O} {L : ℕ → Option (Js O)}
    (R : Ready base k s L) (n : ℕ) : malloc E n s = (.error .trap, s) ∧ E.malloc n (s.insts k) = none ∨
    ∃ p w, E.malloc n (s.insts k) = some (p, w) ∧ malloc E n s = (.ok p, { s with insts := Function.update s.insts k w }) ∧
      Same base k s { s with insts := Function.update s.insts k w } L L ∧ w.blocks = (p, n) :: (s.insts k).blocks := by
  cases hm : E.malloc n (s.insts k) with
  | none =>
    refine Or.inl ⟨?_, rfl⟩
    rw [malloc, withWasm_eq R.cur, hm]
    simp only [Function.update_eq_self]
  | some r =>
    obtain ⟨p, w⟩ := r
    obtain ⟨Iw, hbl, hsp, hk⟩ := G.malloc R.inv hm
    obtain ⟨hin1, hin2, hin3⟩ := Iw.inside (p, n) (by rw [hbl]; exact List.mem_cons_self)
    have ew : (Function.update s.insts k w) k = w := Function.update_self ..
    refine Or.inr ⟨p, w, rfl, ?_, ⟨setInst R Iw R.hist, ?_, ?_, fun _ _ h => h, ?_⟩, hbl⟩
    · rw [malloc, withWasm_eq R.cur, hm]
      simp only [toU32_nat hin3]
    · show (Function.update s.insts k w k).sp = _
      rw [ew, hsp]
    · intro b hb
      show content (Function.update s.insts k w k) b = _
      rw [ew, hk b hb]
    · intro b hb
      show b ∈ (Function.update s.insts k w k).blocks
      rw [ew, hbl]; exact List.mem_cons_of_mem _ hb

theorem realloc_some {R : Realloc} {base k : ℕ} (G : ReallocOk R base) {s : St O} {L : ℕ → Option (Js O)}
    (Rd : Ready base k s L) {p n m : ℕ} {bl : List (ℕ × ℕ)} (hb : (s.insts k).blocks = (p, n) :: bl) (hm : n ≤ m) :
    realloc R p n m s = (.error .trap, s) ∧ R p n m (s.insts k) = none ∨
    ∃ q w, realloc R p n m s = (.ok q, { s with insts := Function.update s.insts k w }) ∧
      Ready base k { s with insts := Function.update s.insts k w } L ∧ w.blocks = (q, m) :: bl ∧ w.sp = (s.insts k).sp ∧
      Kept bl (s.insts k) w ∧ content w (q, n) = content (s.insts k) (p, n) := by
  cases hr : R p n m (s.insts k) with
  | none =>
    refine Or.inl ⟨?_, rfl⟩
    rw [realloc, withWasm_eq Rd.cur, hr]
    simp only [Function.update_eq_self]
  | some r =>
    obtain ⟨q, w⟩ := r
    obtain ⟨Iw, hbl, hsp, hk, hc⟩ := G Rd.inv hb hm hr
    obtain ⟨hin1, hin2, hin3⟩ := Iw.inside (q, m) (by rw [hbl]; exact List.mem_cons_self)
    refine Or.inr ⟨q, w, ?_, setInst Rd Iw Rd.hist, hbl, hsp, hk, hc⟩
    rw [realloc, withWasm_eq Rd.cur, hr]
    simp only [toU32_nat hin3]

theorem setSub_ok {s : St O} {k i j : ℕ} {bs : List UInt8} (h1 : i ≤ j) (h2 : j ≤ (s.insts k).mem.length)
    (hl : bs.length ≤ j - i) : setSub (k, (s.insts k).gen) i j bs s = (.ok (), wrote s k i bs) := by
  have hi : clamp s (k, (s.insts k).gen) i = i := by rw [clamp, byteLength_self]; omega
  have hj : clamp s (k, (s.insts k).gen) j = j := by rw [clamp, byteLength_self]; omega
  rw [setSub, hi, hj, if_neg (by omega)]; rfl

theorem encodeString_ok (into : Bool) {arg : JStr} {cs : List Char} (ht : Text arg cs) {s : St O} {k i j : ℕ} (h1 : i ≤ j)
    (h2 : j ≤ (s.insts k).mem.length) (hl : (utf8 cs).length ≤ j - i) :
    encodeString into arg (k, (s.insts k).gen) i j s = (.ok (utf8 cs).length, wrote s k i (utf8 cs)) := by
  have hi : clamp s (k, (s.insts k).gen) i = i := by rw [clamp, byteLength_self]; omega
  have hj : clamp s (k, (s.insts k).gen) j = j := by rw [clamp, byteLength_self]; omega
  have e : (if into then encodeInto (scalarValues arg) (j - i) else encodeAll (scalarValues arg)) = utf8 cs := by
    rw [encodeInto_all _ _ (by rw [encode_text ht]; exact hl), encode_text ht, ite_self]
  rw [encodeString]
  simp only [hi, hj, e, setSub_ok h1 h2 hl]

/-! ### C133: texts for the module -/

/-- How many bytes are reserved for a string: with `realloc`, one for each code unit before the first one above 127, and three
for each of the others. -/
def reserved (R : Option Realloc) (arg : JStr) (cs : List Char) : ℕ := match R with
  | none => (utf8 cs).length
  | some _ => (front arg).length + (arg.length - (front arg).length) * 3

/-- The allocator refuses a request made in a state as it should be. -/
def Refuses (E : Exports O) (R : Option Realloc) (base : ℕ) : Prop :=
  ∃ w n, WInv base w ∧ (E.malloc n w = none ∨ ∃ R', R = some R' ∧ ∃ p m bl, w.blocks = (p, n) :: bl ∧ R' p n m w = none)

/-- C133: a string is handed to the module as the UTF-8 of its text, in a block of its own, and nothing else is touched; this
fails only when the allocator refuses. -/
theorem pass_string {E : Exports O} {R : Option Realloc} {base k : ℕ} (G : Alloc E base) (GR : ∀ r, R = some r → ReallocOk r base)
    {s : St O} {L : ℕ → Option (Js O)} (Rd : Ready base k s L) (into : Bool) {arg : JStr} {cs : List Char} (ht : Text arg cs) :
    (∃ s', passString E R into arg s = (.error .trap, s') ∧ Refuses E R base ∧ Same base k s s' L L) ∨
    ∃ p n s', passString E R into arg s = (.ok p, s') ∧ s'.vecLen = (utf8 cs).length ∧ Same base k s s' L L ∧
      (s'.insts k).blocks = (p, n) :: (s.insts k).blocks ∧ n = reserved R arg cs ∧ (utf8 cs).length ≤ n ∧
      content (s'.insts k) (p, (utf8 cs).length) = utf8 cs := by
  cases R with
  | none =>
    simp only [passString, encode_text ht]
    rcases malloc_some G Rd (utf8 cs).length with ⟨e, h0⟩ | ⟨p, w, -, e, S1, hbl⟩
    · exact Or.inl ⟨s, bind_err e, ⟨_, _, Rd.inv, Or.inl h0⟩, Same.refl Rd⟩
    obtain ⟨c, e2, R2⟩ := getU8_ok S1.ready
    have ew : (Function.update s.insts k w) k = w := Function.update_self ..
    have hb2 : (({ s with insts := Function.update s.insts k w, u8 := c } : St O).insts k).blocks =
        (p, (utf8 cs).length) :: (s.insts k).blocks := by
      show (Function.update s.insts k w k).blocks = _
      rw [ew, hbl]
    obtain ⟨hin1, hin2, hin3⟩ := R2.inv.inside (p, (utf8 cs).length) (by rw [hb2]; exact List.mem_cons_self)
    have e3 := setSub_ok (s := { s with insts := Function.update s.insts k w, u8 := c }) (k := k) (i := p)
      (j := p + (utf8 cs).length) (bs := utf8 cs) (by omega) hin2 (by omega)
    obtain ⟨R3, K3⟩ := wrote_kept R2 (i := p) (bs := utf8 cs) hb2 (le_refl _) (le_refl _)
    refine Or.inr ⟨p, (utf8 cs).length, { wrote { s with insts := Function.update s.insts k w, u8 := c } k p (utf8 cs) with
      vecLen := (utf8 cs).length }, ?_, rfl, ?_, ?_, rfl, le_refl _, ?_⟩
    · rw [bind_ok e, bind_ok e2, bind_ok e3]; rfl
    · refine ⟨⟨R3.cur, R3.u8, R3.i32, R3.inv, R3.hist⟩, ?_, fun b hb => (K3 b hb).trans (S1.kept b hb), fun _ _ h => h, fun b hb => ?_⟩
      · exact (congrArg Wasm.sp (wrote_inst _ _ _ _)).trans S1.sp
      · have : ((wrote { s with insts := Function.update s.insts k w, u8 := c } k p (utf8 cs)).insts k).blocks = _ :=
          (congrArg Wasm.blocks (wrote_inst _ _ _ _)).trans hb2
        exact this ▸ List.mem_cons_of_mem _ hb
    · exact (congrArg Wasm.blocks (wrote_inst _ _ _ _)).trans hb2
    · show content ((wrote _ k p (utf8 cs)).insts k) _ = _
      rw [wrote_inst]; exact content_write_self hin2
  | some r =>
    have hfl := front_length_le arg
    simp only [passString]
    rcases malloc_some G Rd arg.length with ⟨e, h0⟩ | ⟨p, w, -, e, S1, hbl⟩
    · exact Or.inl ⟨s, bind_err e, ⟨_, _, Rd.inv, Or.inl h0⟩, Same.refl Rd⟩
    obtain ⟨c, e2, R2⟩ := getU8_ok S1.ready
    rw [bind_ok e, bind_ok e2]
    have ew : (Function.update s.insts k w) k = w := Function.update_self ..
    generalize hs2 : ({ s with insts := Function.update s.insts k w, u8 := c } : St O) = s2 at R2
    have ei2 : s2.insts k = w := by rw [← hs2]; exact ew
    have eg : (({ s with insts := Function.update s.insts k w } : St O).insts k).gen = (s2.insts k).gen := by
      rw [ei2]; exact congrArg Wasm.gen ew
    rw [eg]
    have S2 : Same base k s s2 L L := by
      refine ⟨R2, ?_, ?_, S1.ext, ?_⟩
      · rw [ei2]; exact (congrArg Wasm.sp ew).symm.trans S1.sp
      · intro b hb
        rw [ei2, ← S1.kept b hb]; exact congrArg (content · b) ew.symm
      · intro b hb
        rw [ei2, hbl]; exact List.mem_cons_of_mem _ hb
    have hb2 : (s2.insts k).blocks = (p, arg.length) :: (s.insts k).blocks := by rw [ei2, hbl]
    clear hs2 eg ei2 ew e e2 hbl S1
    obtain ⟨hin1, hin2, hin3⟩ := R2.inv.inside (p, arg.length) (by rw [hb2]; exact List.mem_cons_self)
    have hin2' : p + arg.length ≤ (s2.insts k).mem.length := hin2
    have e3 := asciiLoop_ok (ptr := p) (k := k) arg 0 s2 (by omega)
    rw [Nat.add_zero, Nat.zero_add] at e3
    rw [bind_ok e3]
    have hbl' := frontBytes_length arg
    obtain ⟨R3, K3⟩ := wrote_kept R2 (i := p) (bs := frontBytes arg) hb2 (le_refl _) (by omega)
    have hb3 : ((wrote s2 k p (frontBytes arg)).insts k).blocks = (p, arg.length) :: (s.insts k).blocks := by
      rw [wrote_inst]; exact hb2
    have hc3 : content ((wrote s2 k p (frontBytes arg)).insts k) (p, (frontBytes arg).length) = frontBytes arg := by
      rw [wrote_inst]; exact content_write_self (by omega)
    have S3 : Same base k s (wrote s2 k p (frontBytes arg)) L L := by
      refine ⟨R3, ?_, fun b hb => (K3 b hb).trans (S2.kept b hb), S2.ext, fun b hb => by rw [hb3]; exact List.mem_cons_of_mem _ hb⟩
      refine (congrArg Wasm.sp (wrote_inst _ _ _ _)).trans ?_
      exact S2.sp
    obtain ⟨cs', ht', -⟩ := scalarValues_text (arg.drop (front arg).length)
    obtain ⟨as, hta, hua, -, hal⟩ := text_split arg ht'
    obtain rfl := ht.unique hta
    have hroom := utf8_room ht'
    rw [List.length_drop] at hroom
    generalize wrote s2 k p (frontBytes arg) = s3 at R3 hb3 hc3 S3
    clear e3 K3 hin1 hin2 hin3 hin2' hb2 S2 R2
    rw [utf8_append, hua]
    by_cases hne : (front arg).length ≠ arg.length
    · rw [if_pos hne]
      have erest : (if (front arg).length ≠ 0 then arg.drop (front arg).length else arg) = arg.drop (front arg).length := by
        split
        · rfl
        · rename_i h0
          rw [not_not.1 h0, List.drop_zero]
      rw [erest, List.length_drop]
      generalize hm : (front arg).length + (arg.length - (front arg).length) * 3 = m
      rcases realloc_some (GR r rfl) R3 hb3 (m := m) (by omega) with ⟨e4, h0⟩ | ⟨q, w4, e4, R4, hb4, hsp4, K4, hc4⟩
      · exact Or.inl ⟨_, bind_err e4, ⟨_, _, R3.inv, Or.inr ⟨r, rfl, _, _, _, hb3, h0⟩⟩, S3⟩
      right
      obtain ⟨c5, e5, R5⟩ := getU8_ok R4
      rw [bind_ok e4, bind_ok e5]
      have ew : (Function.update s3.insts k w4) k = w4 := Function.update_self ..
      generalize hs5 : ({ s3 with insts := Function.update s3.insts k w4, u8 := c5 } : St O) = s5 at R5
      have ei5 : s5.insts k = w4 := by rw [← hs5]; exact ew
      have eg : (({ s3 with insts := Function.update s3.insts k w4 } : St O).insts k).gen = (s5.insts k).gen := by
        rw [ei5]; exact congrArg Wasm.gen ew
      rw [eg]
      have hb5 : (s5.insts k).blocks = (q, m) :: (s.insts k).blocks := by rw [ei5, hb4]
      obtain ⟨hin1, hin2, hin3⟩ := R5.inv.inside (q, m) (by rw [hb5]; exact List.mem_cons_self)
      have hin2' : q + m ≤ (s5.insts k).mem.length := hin2
      have e6 := encodeString_ok into ht' (s := s5) (k := k) (i := q + (front arg).length) (j := q + m) (by omega) hin2'
        (by omega)
      obtain ⟨R6, K6⟩ := wrote_kept R5 (i := q + (front arg).length) (bs := utf8 cs') hb5 (by omega) (by omega)
      have hb6 : ((wrote s5 k (q + (front arg).length) (utf8 cs')).insts k).blocks = (q, m) :: (s.insts k).blocks := by
        rw [wrote_inst]; exact hb5
      refine ⟨q, m, { wrote s5 k (q + (front arg).length) (utf8 cs') with vecLen := (front arg).length + (utf8 cs').length },
        ?_, ?_, ⟨⟨R6.cur, R6.u8, R6.i32, R6.inv, R6.hist⟩, ?_, ?_, S3.ext, ?_⟩, hb6, hm.symm, ?_, ?_⟩
      · rw [bind_ok e6]; rfl
      · rw [List.length_append, hbl']
      · refine (congrArg Wasm.sp (wrote_inst _ _ _ _)).trans ?_
        show (s5.insts k).sp = _
        rw [ei5, hsp4, S3.sp]
      · intro b hb
        refine (K6 b hb).trans ?_
        rw [ei5, K4 b hb, S3.kept b hb]
      · intro b hb
        show b ∈ ((wrote s5 k (q + (front arg).length) (utf8 cs')).insts k).blocks
        rw [hb6]; exact List.mem_cons_of_mem _ hb
      · rw [List.length_append, hbl']; omega
      · show content ((wrote s5 k (q + (front arg).length) (utf8 cs')).insts k) _ = _
        rw [wrote_inst]
        refine List.ext_getElem? fun j => ?_
        rw [content_get]
        by_cases hj : j < (frontBytes arg ++ utf8 cs').length
        · rw [if_pos hj]
          rw [List.length_append] at hj
          show (write (s5.insts k).mem _ _)[q + j]? = _
          rw [write_get (by omega)]
          by_cases hj1 : j < (front arg).length
          · rw [if_neg (by omega), List.getElem?_append_left (by omega), ei5]
            have h1 := content_get w4 (q, arg.length) j
            have h2 := content_get (s3.insts k) (p, arg.length) j
            have h3 := content_get (s3.insts k) (p, (frontBytes arg).length) j
            rw [if_pos (by show j < arg.length; omega)] at h1 h2
            rw [if_pos (by show j < (frontBytes arg).length; omega), hc3] at h3
            rw [hc4, h2] at h1
            rw [h3]
            exact h1.symm
          · rw [if_pos (by omega), List.getElem?_append_right (by omega)]
            congr 1; omega
        · rw [if_neg hj, List.getElem?_eq_none (by omega)]
    · rw [if_neg hne]
      have hne' : (front arg).length = arg.length := not_not.1 hne
      have hcs : cs' = [] := by
        rw [hne', List.drop_length] at ht'
        cases ht'; rfl
      subst hcs
      rw [show utf8 [] = [] from rfl, List.append_nil]
      refine Or.inr ⟨p, arg.length, { s3 with vecLen := (front arg).length }, rfl, hbl'.symm,
        ⟨⟨R3.cur, R3.u8, R3.i32, R3.inv, R3.hist⟩, S3.sp, S3.kept, S3.ext, S3.sub⟩, hb3, ?_, by omega, hc3⟩
      rw [reserved]; omega

/-! ### C133: texts from the module -/

theorem getString_eq {base k : ℕ} {s : St O} {L : ℕ → Option (Js O)} (Rd : Ready base k s L) {p n : ℕ}
    (h : p + n ≤ (s.insts k).mem.length) :
    ∃ c, Ready base k { s with u8 := c } L ∧ getString p n s =
      ((match decodeCps .init (content (s.insts k) (p, n)) with
        | none => .error .typeErr
        | some r => .ok (r.flatMap cpUnits)), { s with u8 := c }) := by
  obtain ⟨c, e, R1⟩ := getU8_ok Rd
  refine ⟨c, R1, ?_⟩
  rw [getString, bind_ok e, act]
  have hb : byteLength { s with u8 := c } (k, (s.insts k).gen) = (s.insts k).mem.length := byteLength_self _ _
  simp only [clamp, hb]
  rw [show min p (s.insts k).mem.length = p by omega, show min (p + n) (s.insts k).mem.length = p + n by omega,
    Nat.add_sub_cancel_left]
  show (match decodeCps .init (content (s.insts k) (p, n)) with
    | none => _
    | some cs => _) = _
  cases decodeCps .init (content (s.insts k) (p, n)) <;> rfl

theorem units_chars (cs : List Char) : (cs.map Char.toNat).flatMap cpUnits = utf16 cs := by
  rw [utf16, List.flatMap_map]
  exact List.flatMap_congr fun c _ => cpUnits_char c

/-- C133: bytes of the module that are the UTF-8 of a text are read as that text. -/
theorem get_string {base k : ℕ} {s : St O} {L : ℕ → Option (Js O)} (Rd : Ready base k s L) {p n : ℕ} {cs : List Char}
    (h : p + n ≤ (s.insts k).mem.length) (hc : content (s.insts k) (p, n) = utf8 cs) :
    ∃ s', getString p n s = (.ok (utf16 cs), s') ∧ Same base k s s' L L ∧ (s'.insts k).blocks = (s.insts k).blocks := by
  obtain ⟨c, R1, e⟩ := getString_eq Rd h
  refine ⟨{ s with u8 := c }, ?_, ⟨R1, rfl, fun _ _ => rfl, fun _ _ h => h, fun _ h => h⟩, rfl⟩
  rw [e, hc, dec_utf8]
  simp only [units_chars]

/-- C133: bytes that are not UTF-8 are refused, they do not become some other text. -/
theorem get_string_refuses {base k : ℕ} {s : St O} {L : ℕ → Option (Js O)} (Rd : Ready base k s L) {p n : ℕ}
    (h : p + n ≤ (s.insts k).mem.length) (hc : ∀ cs, content (s.insts k) (p, n) ≠ utf8 cs) :
    ∃ s', getString p n s = (.error .typeErr, s') ∧ Same base k s s' L L ∧ (s'.insts k).blocks = (s.insts k).blocks := by
  obtain ⟨c, R1, e⟩ := getString_eq Rd h
  refine ⟨{ s with u8 := c }, ?_, ⟨R1, rfl, fun _ _ => rfl, fun _ _ h => h, fun _ h => h⟩, rfl⟩
  rw [e]
  cases hd : decodeCps .init (content (s.insts k) (p, n)) with
  | none => rfl
  | some r =>
    obtain ⟨cs, h1, -⟩ := dec_iff.1 hd
    exact absurd h1 (hc cs)

/-- C133: a text passed to the module and read back is the text that was passed. -/
theorem string_round_trip {E : Exports O} {R : Option Realloc} {base k : ℕ} (G : Alloc E base)
    (GR : ∀ r, R = some r → ReallocOk r base) {s s' : St O} {L : ℕ → Option (Js O)} (Rd : Ready base k s L) (into : Bool)
    (cs : List Char) {p : ℕ} (e : passString E R into (utf16 cs) s = (.ok p, s')) :
    ∃ s'', getString p s'.vecLen s' = (.ok (utf16 cs), s'') := by
  rcases pass_string G GR Rd into (text_utf16 cs) with ⟨s1, e1, -⟩ | ⟨q, n, s1, e1, hv, S, hb, -, hn, hc⟩
  · rw [e] at e1; cases e1
  · obtain ⟨h1, rfl⟩ := Prod.mk.injEq .. ▸ e.symm.trans e1
    obtain rfl := Except.ok.inj h1
    obtain ⟨-, hin, -⟩ := S.ready.inv.inside (p, n) (by rw [hb]; exact List.mem_cons_self)
    have hin' : p + n ≤ (s'.insts k).mem.length := hin
    rw [hv]
    obtain ⟨s2, e2, -⟩ := get_string S.ready (p := p) (n := (utf8 cs).length) (by omega) hc
    exact ⟨s2, e2⟩

/-- C133: the text of a panic reaches `console.error` unchanged and its block is released, also when it is not UTF-8. -/
theorem import_error {E : Exports O} {base k : ℕ} (G : Alloc E base) {s : St O} {L : ℕ → Option (Js O)} (Rd : Ready base k s L)
    {p n : ℕ} (hn : n < 2 ^ 32) {bl : List (ℕ × ℕ)} (hb : (s.insts k).blocks = (p, n) :: bl) :
    ∃ s', Ready base k s' L ∧ (s'.insts k).sp = (s.insts k).sp ∧ (s'.insts k).blocks = bl ∧
      Kept bl (s.insts k) (s'.insts k) ∧
      (∀ cs, content (s.insts k) (p, n) = utf8 cs → importError E p n s = (.ok (utf16 cs), s')) ∧
      ((∀ cs, content (s.insts k) (p, n) ≠ utf8 cs) → importError E p n s = (.error .typeErr, s')) := by
  obtain ⟨-, hin, hp⟩ := Rd.inv.inside (p, n) (by rw [hb]; exact List.mem_cons_self)
  obtain ⟨c, R1, e⟩ := getString_eq Rd hin
  obtain ⟨If, hbf, hsf, hkf⟩ := G.free Rd.inv hb
  have ef : free E p n { s with u8 := c } =
      (.ok (), { s with u8 := c, insts := Function.update s.insts k (E.free p n (s.insts k)) }) := by
    rw [free, withWasm_eq R1.cur, toU32_nat hp, toU32_nat hn]
  have ew : (Function.update s.insts k (E.free p n (s.insts k))) k = E.free p n (s.insts k) := Function.update_self ..
  refine ⟨{ s with u8 := c, insts := Function.update s.insts k (E.free p n (s.insts k)) }, setInst R1 If Rd.hist, ?_, ?_, ?_, ?_, ?_⟩
  · exact (congrArg Wasm.sp ew).trans hsf
  · exact (congrArg Wasm.blocks ew).trans hbf
  · intro b hm
    exact (congrArg (content · b) ew).trans (hkf b hm)
  · intro cs hc
    refine tryFinally_eq (s1 := { s with u8 := c }) ?_ ef
    rw [e, hc, dec_utf8]
    simp only [units_chars]
  · intro hc
    refine tryFinally_eq (s1 := { s with u8 := c }) ?_ ef
    rw [e]
    cases hd : decodeCps .init (content (s.insts k) (p, n)) with
    | none => rfl
    | some r =>
      obtain ⟨cs, h1, -⟩ := dec_iff.1 hd
      exact absurd h1 (hc cs)

/-- C133: an error of the module is thrown with its text. -/
theorem import_throw (mkError : JStr → O) {base k : ℕ} {s : St O} {L : ℕ → Option (Js O)} (Rd : Ready base k s L) {p n : ℕ}
    {cs : List Char} (h : p + n ≤ (s.insts k).mem.length) (hc : content (s.insts k) (p, n) = utf8 cs) :
    ∃ s', importThrow mkError p n s = (.error (.thrown (.obj (mkError (utf16 cs)))), s') ∧ Same base k s s' L L := by
  obtain ⟨s', e, S, -⟩ := get_string Rd h hc
  exact ⟨s', by rw [importThrow, bind_ok e]; rfl, S⟩

/-- C133: a string made for the module gets a new handle, and the table has the text under it. -/
theorem import_string_new (str : JStr → O) {base k : ℕ} {s : St O} {L : ℕ → Option (Js O)} (Rd : Ready base k s L) {p n : ℕ}
    {cs : List Char} (h : p + n ≤ (s.insts k).mem.length) (hc : content (s.insts k) (p, n) = utf8 cs) :
    ∃ i s', importStringNew str p n s = (.ok i, s') ∧ L i = none ∧ 132 ≤ i ∧
      Same base k s s' L (Function.update L i (some (.obj (str (utf16 cs))))) := by
  obtain ⟨s1, e, S, -⟩ := get_string Rd h hc
  obtain ⟨i, h', ea, hi, hl⟩ := (heap_table S.ready.hist).1 (.obj (str (utf16 cs)))
  refine ⟨i, { s1 with heap := h' }, ?_, hl, hi, ⟨⟨S.ready.cur, S.ready.u8, S.ready.i32, S.ready.inv, S.ready.hist.add ea⟩,
    S.sp, S.kept, ?_, S.sub⟩⟩
  · rw [importStringNew, bind_ok e, act]
    simp only [ea]
  · intro j v hj
    by_cases hij : j = i
    · subst hij
      rw [hl] at hj; cases hj
    · rw [Function.update_of_ne hij]; exact hj

theorem writeI32_ok {base k : ℕ} {s : St O} {L : ℕ → Option (Js O)} (Rd : Ready base k s L) {p j x : ℕ} (h4 : p % 4 = 0)
    (hp : p + 4 * j + 4 ≤ base) : ∃ c, writeI32 p j x s = (.ok (), wrote { s with i32 := c } k (p + 4 * j) (le4 x)) ∧
      Same base k s (wrote { s with i32 := c } k (p + 4 * j) (le4 x)) L L ∧
      ((wrote { s with i32 := c } k (p + 4 * j) (le4 x)).insts k).blocks = (s.insts k).blocks := by
  obtain ⟨c, e, R1⟩ := getI32_ok Rd
  have hm := Rd.inv.mem_ge
  have hl : (le4 x).length = 4 := rfl
  have hw : p + 4 * j + (le4 x).length ≤ (({ s with i32 := c } : St O).insts k).mem.length := by
    show _ ≤ (s.insts k).mem.length
    omega
  have hbl : ((wrote { s with i32 := c } k (p + 4 * j) (le4 x)).insts k).blocks = (s.insts k).blocks := by rw [wrote_inst]
  refine ⟨c, ?_, ⟨wrote_ready R1 hw, by rw [wrote_inst], fun b hb => ?_, fun _ _ h => h, fun b hb => by rw [hbl]; exact hb⟩, hbl⟩
  · rw [writeI32, bind_ok e, act]
    have hb : byteLength { s with i32 := c } (k, (s.insts k).gen) = (s.insts k).mem.length := byteLength_self _ _
    rw [hb, if_pos ⟨h4, by omega⟩]; rfl
  · refine wrote_content hw (Or.inl ?_)
    have := (Rd.inv.inside b hb).1
    omega

theorem word_wrote {s : St O} {k i x : ℕ} (hx : x < 2 ^ 32) (h : i + 4 ≤ (s.insts k).mem.length) :
    word ((wrote s k i (le4 x)).insts k).mem i = x := by
  have hl : (le4 x).length = 4 := rfl
  rw [wrote_inst]
  refine word_of hx fun j hj => ?_
  show (write _ _ _)[i + j]? = _
  rw [write_get (by omega), if_pos (by omega), Nat.add_sub_cancel_left]

theorem word_wrote_other {s : St O} {k i j x : ℕ} (h : i + 4 ≤ (s.insts k).mem.length) (hd : j + 4 ≤ i ∨ i + 4 ≤ j) :
    word ((wrote s k i (le4 x)).insts k).mem j = word (s.insts k).mem j := by
  have hl : (le4 x).length = 4 := rfl
  have key : ∀ m < 4, ((wrote s k i (le4 x)).insts k).mem[j + m]? = (s.insts k).mem[j + m]? := fun m hm => by
    rw [wrote_inst]
    show (write _ _ _)[j + m]? = _
    rw [write_get (by omega), if_neg (by omega)]
  have k0 := key 0 (by omega)
  rw [Nat.add_zero] at k0
  simp only [word, List.getD_eq_getElem?_getD, k0, key 1 (by omega), key 2 (by omega), key 3 (by omega)]

/-- C133: the module finds address and length of the UTF-8 of the stack trace at the address it gave. -/
theorem import_stack {E : Exports O} {R : Option Realloc} {base k : ℕ} (G : Alloc E base)
    (GR : ∀ r, R = some r → ReallocOk r base) {s : St O} {L : ℕ → Option (Js O)} (Rd : Ready base k s L) (into : Bool)
    {ret : JStr} {cs : List Char} (ht : Text ret cs) (hlen : (utf8 cs).length < 2 ^ 32) {arg0 : ℕ} (h4 : arg0 % 4 = 0)
    (hb : arg0 + 8 ≤ base) :
    (∃ s', importStack E R into arg0 ret s = (.error .trap, s') ∧ Refuses E R base ∧ Same base k s s' L L) ∨
    ∃ p n s', importStack E R into arg0 ret s = (.ok (), s') ∧ Same base k s s' L L ∧
      (s'.insts k).blocks = (p, n) :: (s.insts k).blocks ∧ word (s'.insts k).mem arg0 = p ∧
      word (s'.insts k).mem (arg0 + 4) = (utf8 cs).length ∧ content (s'.insts k) (p, (utf8 cs).length) = utf8 cs := by
  rcases pass_string G GR Rd into ht with ⟨s1, e1, hr, S⟩ | ⟨p, n, s1, e1, hv, S, hbl, -, hn, hc⟩
  · exact Or.inl ⟨s1, by rw [importStack, bind_err e1], hr, S⟩
  right
  have e2 : getVecLen s1 = (.ok (utf8 cs).length, s1) := by rw [getVecLen, hv]
  obtain ⟨hin1, hin2, hin3⟩ := S.ready.inv.inside (p, n) (by rw [hbl]; exact List.mem_cons_self)
  have hin1' : base ≤ p := hin1
  have hin2' : p + n ≤ (s1.insts k).mem.length := hin2
  obtain ⟨c3, e3, S3, hb3⟩ := writeI32_ok S.ready (p := arg0) (j := 1) (x := (utf8 cs).length) h4 (by omega)
  obtain ⟨c4, e4, S4, hb4⟩ := writeI32_ok S3.ready (p := arg0) (j := 0) (x := p) h4 (by omega)
  have hm1 : arg0 + 8 ≤ (s1.insts k).mem.length := by omega
  have hl4 : ∀ x, (le4 x).length = 4 := fun x => rfl
  have hm3 : arg0 + 8 ≤ ((wrote { s1 with i32 := c3 } k (arg0 + 4 * 1) (le4 (utf8 cs).length)).insts k).mem.length := by
    have := S3.ready.inv.mem_ge
    omega
  refine ⟨p, n, _, ?_, (S.trans S3).trans S4, by rw [hb4, hb3, hbl], ?_, ?_, ?_⟩
  · rw [importStack, bind_ok e1, bind_ok e2, bind_ok e3, e4]
  · exact word_wrote (s := { wrote { s1 with i32 := c3 } k (arg0 + 4 * 1) (le4 (utf8 cs).length) with i32 := c4 })
      (i := arg0) hin3 (by show _ ≤ ((wrote _ k _ _).insts k).mem.length; omega)
  · refine (word_wrote_other (s := { wrote { s1 with i32 := c3 } k (arg0 + 4 * 1) (le4 (utf8 cs).length) with i32 := c4 })
      (i := arg0) (j := arg0 + 4) (by show _ ≤ ((wrote _ k _ _).insts k).mem.length; omega) (Or.inr (le_refl _))).trans ?_
    exact word_wrote (s := { s1 with i32 := c3 }) (i := arg0 + 4) hlen (by show _ ≤ (s1.insts k).mem.length; omega)
  · have hsub : ∀ {w w' : Wasm}, content w' (p, n) = content w (p, n) →
        content w' (p, (utf8 cs).length) = content w (p, (utf8 cs).length) := fun {w w'} h => by
      have ht : ∀ w : Wasm, content w (p, (utf8 cs).length) = (content w (p, n)).take (utf8 cs).length := fun w => by
        rw [content, content, List.take_take, Nat.min_eq_left hn]
      rw [ht, ht, h]
    have hmem : (p, n) ∈ (s1.insts k).blocks := by rw [hbl]; exact List.mem_cons_self
    rw [hsub ((S3.trans S4).kept (p, n) hmem), hc]

/-! ### C134 -/

/-- For ASCII the block is as long as the module is told. -/
theorem reserved_ascii {arg : JStr} {cs : List Char} (ht : Text arg cs) (ha : Ascii cs) (R : Option Realloc) :
    reserved R arg cs = (utf8 cs).length := by
  cases R with
  | none => rfl
  | some r =>
    obtain ⟨cs', ht', -⟩ := scalarValues_text (arg.drop (front arg).length)
    obtain ⟨as, hta, hua, -, hal⟩ := text_split arg ht'
    obtain rfl := ht.unique hta
    have hall : (front arg).length = arg.length := by
      have key : ∀ {s : JStr} {cs : List Char}, Text s cs → Ascii cs → front s = s := by
        intro s cs h
        induction h with
        | nil => intro _; rfl
        | one hu _ ih =>
          intro ha
          rw [front_cons_le _ (by have := ha _ List.mem_cons_self; omega), ih fun c hc => ha c (List.mem_cons_of_mem _ hc)]
        | pair hh hl hc _ _ =>
          intro ha
          have := ha _ List.mem_cons_self
          omega
        | low _ _ _ => intro ha; exact absurd (ha _ List.mem_cons_self) (by decide)
        | high _ _ _ _ => intro ha; exact absurd (ha _ List.mem_cons_self) (by decide)
      rw [key ht ha]
    have hcs : cs' = [] := by
      rw [hall, List.drop_length] at ht'
      cases ht'; rfl
    subst hcs
    rw [List.append_nil, hua, frontBytes_length, reserved]
    omega

/-- C134, what holds: the block of an ASCII string, and of every string when the module has no `realloc`, is as long as the
module is told, so that it can release it. -/
theorem string_block_partial {E : Exports O} {R : Option Realloc} {base k : ℕ} (G : Alloc E base)
    (GR : ∀ r, R = some r → ReallocOk r base) {s s' : St O} {L : ℕ → Option (Js O)} (Rd : Ready base k s L) (into : Bool)
    {arg : JStr} {cs : List Char} (ht : Text arg cs) (ha : Ascii cs ∨ R = none) {p : ℕ}
    (e : passString E R into arg s = (.ok p, s')) : (s'.insts k).blocks = (p, s'.vecLen) :: (s.insts k).blocks := by
  rcases pass_string G GR Rd into ht with ⟨s1, e1, -⟩ | ⟨q, n, s1, e1, hv, S, hb, hn, -, -⟩
  · rw [e] at e1; cases e1
  · obtain ⟨h1, rfl⟩ := Prod.mk.injEq .. ▸ e.symm.trans e1
    obtain rfl := Except.ok.inj h1
    rw [hb, hv, hn]
    rcases ha with ha | rfl
    · rw [reserved_ascii ht ha]
    · rfl

/-- Characters whose UTF-8 has two or four bytes leave room. -/
theorem utf8_room_lt {s : JStr} {cs : List Char} (h : Text s cs) {c : Char} (hc : c ∈ cs)
    (h3 : c.toNat ≤ 0x7FF ∨ 0xFFFF < c.toNat) : (utf8 cs).length < s.length * 3 := by
  induction h with
  | nil => exact (List.not_mem_nil hc).elim
  | one hu ht ih =>
    rename_i u s c' cs
    have := u.toNat_lt
    have hr := utf8_room ht
    rw [utf8_cons, List.length_append, utf8_length_char, List.length_cons]
    rcases List.mem_cons.1 hc with rfl | hc
    · split_ifs <;> omega
    · have := ih hc
      split_ifs <;> omega
  | pair _ _ _ ht ih =>
    have hr := utf8_room ht
    rw [utf8_cons, List.length_append, utf8_length_char, List.length_cons, List.length_cons]
    split_ifs <;> omega
  | low _ ht ih =>
    have : (String.utf8EncodeChar '\uFFFD').length = 3 := rfl
    rw [utf8_cons, List.length_append, List.length_cons]
    rcases List.mem_cons.1 hc with rfl | hc
    · exact absurd h3 (by decide)
    · have := ih hc
      omega
  | high _ _ ht ih =>
    have : (String.utf8EncodeChar '\uFFFD').length = 3 := rfl
    rw [utf8_cons, List.length_append, List.length_cons]
    rcases List.mem_cons.1 hc with rfl | hc
    · exact absurd h3 (by decide)
    · have := ih hc
      omega

/-- C134 is false: for every string with a character outside ASCII that does not have three bytes in UTF-8, the module is told
a length that is not the length of the block: no block with that address and length is allocated. -/
theorem string_block_false {E : Exports O} {r : Realloc} {base k : ℕ} (G : Alloc E base) (GR : ReallocOk r base) {s s' : St O}
    {L : ℕ → Option (Js O)} (Rd : Ready base k s L) (into : Bool) {arg : JStr} {cs : List Char} (ht : Text arg cs) {c : Char}
    (hc : c ∈ cs) (hc1 : 128 ≤ c.toNat) (hc2 : c.toNat ≤ 0x7FF ∨ 0xFFFF < c.toNat) {p : ℕ}
    (e : passString E (some r) into arg s = (.ok p, s')) : (p, s'.vecLen) ∉ (s'.insts k).blocks := by
  rcases pass_string G (fun r' h => by obtain rfl := Option.some.inj h; exact GR) Rd into ht with
    ⟨s1, e1, -⟩ | ⟨q, n, s1, e1, hv, S, hb, hn, -, -⟩
  · rw [e] at e1; cases e1
  obtain ⟨h1, rfl⟩ := Prod.mk.injEq .. ▸ e.symm.trans e1
  obtain rfl := Except.ok.inj h1
  obtain ⟨cs', ht', -⟩ := scalarValues_text (arg.drop (front arg).length)
  obtain ⟨as, hta, hua, haa, hal⟩ := text_split arg ht'
  obtain rfl := ht.unique hta
  have hc' : c ∈ cs' := by
    rcases List.mem_append.1 hc with h | h
    · exact absurd (haa c h) (by omega)
    · exact h
  have hlt := utf8_room_lt ht' hc' hc2
  rw [List.length_drop] at hlt
  have hpos : 0 < (utf8 cs').length := by
    obtain ⟨l1, l2, rfl⟩ := List.append_of_mem hc'
    have := utf8_length_char c
    rw [utf8_append, utf8_cons, List.length_append, List.length_append]
    split_ifs at this <;> omega
  have hl : s'.vecLen = (front arg).length + (utf8 cs').length := by
    rw [hv, utf8_append, List.length_append, hua, frontBytes_length]
  rw [reserved] at hn
  intro hmem
  rw [hb] at hmem
  rcases List.mem_cons.1 hmem with h | h
  · have := (Prod.mk.injEq .. ▸ h).2
    omega
  · have hd := S.ready.inv.disj
    rw [hb, List.pairwise_cons] at hd
    rcases hd.1 _ h with h | h
    · have h' : p + n ≤ p := h
      omega
    · have h' : p + s'.vecLen ≤ p := h
      omega

end Spartan.Glue
