import Mathlib.Data.List.Basic
import Mathlib.Tactic.NormNum
import Verif.Model.GlueStr
import Verif.Spec.Utf

/-!
The encoder and decoder of `Model/GlueStr.lean` are UTF-8.
-/

namespace Spartan.Utf

open Spartan.Glue

theorem char_bounds (c : Char) : c.toNat < 0xD800 ∨ 0xE000 ≤ c.toNat ∧ c.toNat < 0x110000 := by
  rcases c.valid with h | h
  · left
    have : c.val.toNat < 0xD800 := h
    exact this
  · right
    have h1 : 0xDFFF < c.val.toNat := h.1
    have h2 : c.val.toNat < 0x110000 := h.2
    exact ⟨h1, h2⟩

theorem char_of {n : ℕ} (h : n < 0xD800 ∨ 0xE000 ≤ n ∧ n < 0x110000) : ∃ c : Char, c.toNat = n := by
  refine ⟨Char.ofNat n, ?_⟩
  have hv : n.isValidChar := by
    rcases h with h | h
    · exact Or.inl h
    · exact Or.inr ⟨h.1, h.2⟩
  rw [Char.ofNat, dif_pos hv]
  rfl

theorem char_ext {a b : Char} (h : a.toNat = b.toNat) : a = b := by
  apply Char.ext
  exact UInt32.toNat_inj.1 h

theorem range1 : List.range 1 = [0] := rfl
theorem range2 : List.range 2 = [0, 1] := rfl
theorem range3 : List.range 3 = [0, 1, 2] := rfl

theorem encodeCp_char (c : Char) : encodeCp c.toNat = String.utf8EncodeChar c := by
  have hb := char_bounds c
  have hv : c.val.toNat = c.toNat := rfl
  rw [encodeCp, String.utf8EncodeChar]
  simp only [hv]
  by_cases h1 : c.toNat ≤ 0x7F
  · rw [if_pos h1, if_pos h1]
  · rw [if_neg h1, if_neg h1]
    by_cases h2 : c.toNat ≤ 0x7FF
    · simp only [if_pos h2, range1, List.map_cons, List.map_nil]
      refine congrArg₂ _ (congrArg _ ?_) (congrArg₂ _ (congrArg _ ?_) rfl) <;> norm_num <;> omega
    · simp only [if_neg h2]
      by_cases h3 : c.toNat ≤ 0xFFFF
      · simp only [if_pos h3, range2, List.map_cons, List.map_nil]
        refine congrArg₂ _ (congrArg _ ?_) (congrArg₂ _ (congrArg _ ?_) (congrArg₂ _ (congrArg _ ?_) rfl)) <;> norm_num <;> omega
      · simp only [if_neg h3, range3, List.map_cons, List.map_nil]
        refine congrArg₂ _ (congrArg _ ?_) (congrArg₂ _ (congrArg _ ?_) (congrArg₂ _ (congrArg _ ?_)
          (congrArg₂ _ (congrArg _ ?_) rfl))) <;> norm_num <;> omega

theorem encodeAll_chars (cs : List Char) : encodeAll (cs.map Char.toNat) = utf8 cs := by
  rw [encodeAll, utf8, List.flatMap_map]
  exact List.flatMap_congr fun c _ => encodeCp_char c

/-! ### From code units to characters -/

theorem scalarValues_text : ∀ s : JStr, ∃ cs, Text s cs ∧ scalarValues s = cs.map Char.toNat
  | [] => ⟨[], .nil, rfl⟩
  | [u] => by
    have hu := u.toNat_lt
    rw [scalarValues]
    by_cases h : 0xD800 ≤ u.toNat ∧ u.toNat ≤ 0xDFFF
    · rw [if_pos h]
      refine ⟨['\uFFFD'], ?_, rfl⟩
      by_cases hh : u.toNat < 0xDC00
      · exact .high ⟨h.1, hh⟩ (fun v hv => by cases hv) .nil
      · exact .low ⟨by omega, by omega⟩ .nil
    · rw [if_neg h]
      obtain ⟨c, hc⟩ := char_of (n := u.toNat) (by omega)
      exact ⟨[c], .one hc.symm .nil, by rw [List.map_cons, List.map_nil, hc]⟩
  | u :: v :: t => by
    have hu := u.toNat_lt
    have hv := v.toNat_lt
    rw [scalarValues]
    by_cases hp : 0xD800 ≤ u.toNat ∧ u.toNat ≤ 0xDBFF ∧ 0xDC00 ≤ v.toNat ∧ v.toNat ≤ 0xDFFF
    · rw [if_pos hp]
      obtain ⟨cs, ht, e⟩ := scalarValues_text t
      obtain ⟨c, hc⟩ := char_of (n := 0x10000 + (u.toNat - 0xD800) * 0x400 + (v.toNat - 0xDC00)) (by omega)
      refine ⟨c :: cs, .pair ⟨by omega, by omega⟩ ⟨by omega, by omega⟩ (by rw [hc]; omega) ht, by rw [e, List.map_cons, hc]⟩
    · rw [if_neg hp]
      obtain ⟨cs, ht, e⟩ := scalarValues_text (v :: t)
      by_cases h : 0xD800 ≤ u.toNat ∧ u.toNat ≤ 0xDFFF
      · rw [if_pos h]
        refine ⟨'\uFFFD' :: cs, ?_, by rw [e]; rfl⟩
        by_cases hh : u.toNat < 0xDC00
        · refine .high ⟨h.1, hh⟩ (fun w hw => ?_) ht
          obtain rfl := Option.some.inj hw
          intro hl
          have := hl.1; have := hl.2
          omega
        · exact .low ⟨by omega, by omega⟩ ht
      · rw [if_neg h]
        obtain ⟨c, hc⟩ := char_of (n := u.toNat) (by omega)
        exact ⟨c :: cs, .one hc.symm ht, by rw [e, List.map_cons, hc]⟩

theorem not_surrogate {u : UInt16} {c : Char} (h : u.toNat = c.toNat) : ¬ High u ∧ ¬ Low u := by
  have hb := char_bounds c
  constructor <;> rintro ⟨h1, h2⟩ <;> omega

/-- The text of a string is unique. -/
theorem Text.unique {s : JStr} {a b : List Char} (h : Text s a) (h' : Text s b) : a = b := by
  induction h generalizing b with
  | nil => cases h'; rfl
  | one hc ht ih =>
    rename_i u s c cs
    have hb := char_bounds c
    cases h' with
    | one hc' ht' => rw [ih ht', char_ext (hc.symm.trans hc')]
    | pair hh _ _ _ => exact absurd hh (by rintro ⟨h1, h2⟩; omega)
    | low hl _ => exact absurd hl (by rintro ⟨h1, h2⟩; omega)
    | high hh _ _ => exact absurd hh (by rintro ⟨h1, h2⟩; omega)
  | pair hh hl hc ht ih =>
    rename_i u v s c cs
    cases h' with
    | one hc' _ => exact absurd hh (not_surrogate hc').1
    | pair _ _ hc' ht' => rw [ih ht', char_ext (hc.trans hc'.symm)]
    | low hl' _ => exact absurd hh (by rintro ⟨h1, h2⟩; have := hl'.1; omega)
    | high _ hn _ => exact absurd hl (hn v rfl)
  | low hl ht ih =>
    cases h' with
    | one hc' _ => exact absurd hl (not_surrogate hc').2
    | pair hh _ _ _ => exact absurd hh (by rintro ⟨h1, h2⟩; have := hl.1; omega)
    | low _ ht' => rw [ih ht']
    | high hh _ _ => exact absurd hh (by rintro ⟨h1, h2⟩; have := hl.1; omega)
  | high hh hn ht ih =>
    cases h' with
    | one hc' _ => exact absurd hh (not_surrogate hc').1
    | pair _ hl _ _ => exact absurd hl (hn _ rfl)
    | low hl _ => exact absurd hh (by rintro ⟨h1, h2⟩; have := hl.1; omega)
    | high _ _ ht' => rw [ih ht']

theorem text_iff {s : JStr} {cs : List Char} : Text s cs ↔ scalarValues s = cs.map Char.toNat := by
  obtain ⟨cs', ht, e⟩ := scalarValues_text s
  constructor
  · intro h
    rw [h.unique ht, e]
  · intro h
    rw [e] at h
    rwa [← List.map_injective_iff.2 (fun a b => char_ext) h]

/-- The text of UTF-16 is what was encoded. -/
theorem text_utf16 : ∀ cs : List Char, Text (utf16 cs) cs
  | [] => .nil
  | c :: cs => by
    have hb := char_bounds c
    have ih := text_utf16 cs
    rw [utf16, List.flatMap_cons, units]
    split
    · exact .one (by rw [UInt16.toNat_ofNat']; omega) ih
    · refine .pair ⟨?_, ?_⟩ ⟨?_, ?_⟩ ?_ ih <;> simp only [UInt16.toNat_ofNat'] <;> omega

theorem cpUnits_char (c : Char) : cpUnits c.toNat = units c := by
  rw [cpUnits, units]
  by_cases h : c.toNat ≤ 0xFFFF
  · rw [if_pos h, if_pos (by omega)]
  · rw [if_neg h, if_neg (by omega)]

/-! ### The decoder -/

theorem dec_step {d d' : Dec} {b : UInt8} {o : Option ℕ} (h : d.step b = some (d', o)) (t : List UInt8) :
    decodeCps d (b :: t) = (decodeCps d' t).map (o.toList ++ ·) := by
  rw [decodeCps, h]
  simp only
  cases decodeCps d' t <;> rfl

theorem dec_fail {d : Dec} {b : UInt8} (h : d.step b = none) (t : List UInt8) : decodeCps d (b :: t) = none := by
  rw [decodeCps, h]

theorem step1 {b : UInt8} (h : b.toNat ≤ 0x7F) : Dec.init.step b = some (.init, some b.toNat) := by
  rw [Dec.step]; simp only [Dec.init, if_true, if_pos h]

theorem step2 {b : UInt8} (h : 0xC2 ≤ b.toNat ∧ b.toNat ≤ 0xDF) :
    Dec.init.step b = some (⟨b.toNat % 32, 0, 1, 0x80, 0xBF⟩, none) := by
  rw [Dec.step]; simp only [Dec.init, if_true, if_pos h]; rw [if_neg (by omega)]

theorem step3 {b : UInt8} (h : 0xE0 ≤ b.toNat ∧ b.toNat ≤ 0xEF) : Dec.init.step b =
    some (⟨b.toNat % 16, 0, 2, if b.toNat = 0xE0 then 0xA0 else 0x80, if b.toNat = 0xED then 0x9F else 0xBF⟩, none) := by
  rw [Dec.step]; simp only [Dec.init, if_true, if_pos h]; rw [if_neg (by omega), if_neg (by omega)]

theorem step4 {b : UInt8} (h : 0xF0 ≤ b.toNat ∧ b.toNat ≤ 0xF4) : Dec.init.step b =
    some (⟨b.toNat % 8, 0, 3, if b.toNat = 0xF0 then 0x90 else 0x80, if b.toNat = 0xF4 then 0x8F else 0xBF⟩, none) := by
  rw [Dec.step]; simp only [Dec.init, if_true, if_pos h]; rw [if_neg (by omega), if_neg (by omega), if_neg (by omega)]

theorem stepBad {b : UInt8} (h : 0x7F < b.toNat) (h2 : ¬ (0xC2 ≤ b.toNat ∧ b.toNat ≤ 0xF4)) : Dec.init.step b = none := by
  rw [Dec.step]; simp only [Dec.init, if_true]
  rw [if_neg (by omega), if_neg (by omega), if_neg (by omega), if_neg (by omega)]

theorem stepLast {cp k l u : ℕ} {b : UInt8} (h : l ≤ b.toNat ∧ b.toNat ≤ u) :
    (⟨cp, k, k + 1, l, u⟩ : Dec).step b = some (.init, some (cp * 64 + b.toNat % 64)) := by
  rw [Dec.step]; simp only [Nat.add_one_ne_zero, if_false, if_pos h, if_true, Dec.init]

theorem stepMid {cp k n l u : ℕ} {b : UInt8} (h : l ≤ b.toNat ∧ b.toNat ≤ u) (hn : n ≠ 0) (hk : k + 1 ≠ n) :
    (⟨cp, k, n, l, u⟩ : Dec).step b = some (⟨cp * 64 + b.toNat % 64, k + 1, n, 0x80, 0xBF⟩, none) := by
  rw [Dec.step]; simp only [if_neg hn, if_neg hk, if_pos h]

theorem stepOut {cp k n l u : ℕ} {b : UInt8} (h : ¬ (l ≤ b.toNat ∧ b.toNat ≤ u)) (hn : n ≠ 0) :
    (⟨cp, k, n, l, u⟩ : Dec).step b = none := by
  rw [Dec.step]; simp only [if_neg hn, if_neg h]

theorem decEnd {cp k n l u : ℕ} (hn : n ≠ 0) : decodeCps ⟨cp, k, n, l, u⟩ [] = none := by
  rw [decodeCps, if_pos hn]

/-- The decoder reads the bytes of a character. -/
theorem dec_char (c : Char) (t : List UInt8) :
    decodeCps .init (String.utf8EncodeChar c ++ t) = (decodeCps .init t).map (c.toNat :: ·) := by
  have hb := char_bounds c
  have hv : c.val.toNat = c.toNat := rfl
  rw [String.utf8EncodeChar]
  simp only [hv]
  generalize c.toNat = n at hb ⊢
  by_cases h1 : n ≤ 0x7F
  · rw [if_pos h1]
    have e : (UInt8.ofNat n).toNat = n := by rw [UInt8.toNat_ofNat']; omega
    rw [List.cons_append, List.nil_append, dec_step (step1 (by omega)), e]
    rfl
  · rw [if_neg h1]
    have em : ∀ x, (UInt8.ofNat (x % 0x40 + 0x80)).toNat = x % 64 + 128 := fun x => by rw [UInt8.toNat_ofNat']; omega
    by_cases h2 : n ≤ 0x7FF
    · rw [if_pos h2]
      have e0 : (UInt8.ofNat (n / 64 % 0x20 + 0xc0)).toNat = n / 64 + 192 := by rw [UInt8.toNat_ofNat']; omega
      simp only [List.cons_append, List.nil_append]
      rw [dec_step (step2 (by omega)), dec_step (stepLast (k := 0) (by rw [em]; omega)), em, e0,
        show (n / 64 + 192) % 32 * 64 + (n % 64 + 128) % 64 = n by omega]
      cases decodeCps .init t <;> rfl
    · rw [if_neg h2]
      by_cases h3 : n ≤ 0xFFFF
      · rw [if_pos h3]
        have e0 : (UInt8.ofNat (n / 4096 % 0x10 + 0xe0)).toNat = n / 4096 + 224 := by rw [UInt8.toNat_ofNat']; omega
        simp only [List.cons_append, List.nil_append]
        rw [dec_step (step3 (by omega)), e0, dec_step (stepMid (by rw [em]; split_ifs <;> omega) (by omega) (by omega)),
          dec_step (stepLast (k := 1) (by rw [em]; omega)), em, em,
          show ((n / 4096 + 224) % 16 * 64 + (n / 64 % 64 + 128) % 64) * 64 + (n % 64 + 128) % 64 = n by omega]
        cases decodeCps .init t <;> rfl
      · rw [if_neg h3]
        have e0 : (UInt8.ofNat (n / 262144 % 0x08 + 0xf0)).toNat = n / 262144 + 240 := by rw [UInt8.toNat_ofNat']; omega
        simp only [List.cons_append, List.nil_append]
        rw [dec_step (step4 (by omega)), e0, dec_step (stepMid (by rw [em]; split_ifs <;> omega) (by omega) (by omega)),
          dec_step (stepMid (by rw [em]; omega) (by omega) (by omega)),
          dec_step (stepLast (k := 2) (by rw [em]; omega)), em, em, em,
          show (((n / 262144 + 240) % 8 * 64 + (n / 4096 % 64 + 128) % 64) * 64 + (n / 64 % 64 + 128) % 64) * 64 +
            (n % 64 + 128) % 64 = n by omega]
        cases decodeCps .init t <;> rfl

theorem dec_utf8 : ∀ cs : List Char, decodeCps .init (utf8 cs) = some (cs.map Char.toNat)
  | [] => rfl
  | c :: cs => by
    rw [utf8, List.flatMap_cons, dec_char]
    have := dec_utf8 cs
    rw [utf8] at this
    rw [this]; rfl

/-- If the decoder does not fail, the bytes start with those of a character. -/
theorem dec_head {b : UInt8} {t : List UInt8} {r : List ℕ} (h : decodeCps .init (b :: t) = some r) :
    ∃ (c : Char) (t' : List UInt8), b :: t = String.utf8EncodeChar c ++ t' ∧ t'.length ≤ t.length := by
  have ofN : ∀ (x : UInt8) (n : ℕ), n = x.toNat → UInt8.ofNat n = x := fun x n hn => by rw [hn]; exact UInt8.ofNat_toNat
  by_cases h1 : b.toNat ≤ 0x7F
  · obtain ⟨c, hc⟩ := char_of (n := b.toNat) (by omega)
    have hv : c.val.toNat = b.toNat := hc
    refine ⟨c, t, ?_, le_refl _⟩
    rw [String.utf8EncodeChar]
    simp only [hv, if_pos h1, ofN _ _ rfl]
    rfl
  by_cases hr : 0xC2 ≤ b.toNat ∧ b.toNat ≤ 0xF4
  swap
  · rw [dec_fail (stepBad (by omega) hr)] at h; cases h
  by_cases h2 : b.toNat ≤ 0xDF
  · rw [dec_step (step2 ⟨hr.1, h2⟩)] at h
    match t with
    | [] => rw [decEnd (by omega)] at h; cases h
    | b1 :: t =>
      by_cases k1 : 0x80 ≤ b1.toNat ∧ b1.toNat ≤ 0xBF
      swap
      · rw [dec_fail (stepOut k1 (by omega))] at h; cases h
      obtain ⟨c, hc⟩ := char_of (n := b.toNat % 32 * 64 + b1.toNat % 64) (by omega)
      have hv : c.val.toNat = b.toNat % 32 * 64 + b1.toNat % 64 := hc
      refine ⟨c, t, ?_, by simp⟩
      rw [String.utf8EncodeChar]
      simp only [hv]
      rw [if_neg (by omega), if_pos (by omega), ofN b _ (by omega), ofN b1 _ (by omega)]
      rfl
  by_cases h3 : b.toNat ≤ 0xEF
  · rw [dec_step (step3 ⟨by omega, h3⟩)] at h
    match t with
    | [] => rw [decEnd (by omega)] at h; cases h
    | b1 :: t =>
      by_cases k1 : (if b.toNat = 0xE0 then 0xA0 else 0x80) ≤ b1.toNat ∧ b1.toNat ≤ (if b.toNat = 0xED then 0x9F else 0xBF)
      swap
      · rw [dec_fail (stepOut k1 (by omega))] at h; cases h
      rw [dec_step (stepMid k1 (by omega) (by omega))] at h
      match t with
      | [] => rw [decEnd (by omega)] at h; cases h
      | b2 :: t =>
        by_cases k2 : 0x80 ≤ b2.toNat ∧ b2.toNat ≤ 0xBF
        swap
        · rw [dec_fail (stepOut k2 (by omega))] at h; cases h
        obtain ⟨c, hc⟩ := char_of (n := (b.toNat % 16 * 64 + b1.toNat % 64) * 64 + b2.toNat % 64)
          (by split_ifs at k1 <;> omega)
        have hv : c.val.toNat = (b.toNat % 16 * 64 + b1.toNat % 64) * 64 + b2.toNat % 64 := hc
        refine ⟨c, t, ?_, by simp; omega⟩
        rw [String.utf8EncodeChar]
        simp only [hv]
        rw [if_neg (by split_ifs at k1 <;> omega), if_neg (by split_ifs at k1 <;> omega), if_pos (by omega),
          ofN b _ (by omega), ofN b1 _ (by split_ifs at k1 <;> omega), ofN b2 _ (by omega)]
        rfl
  · rw [dec_step (step4 ⟨by omega, hr.2⟩)] at h
    match t with
    | [] => rw [decEnd (by omega)] at h; cases h
    | b1 :: t =>
      by_cases k1 : (if b.toNat = 0xF0 then 0x90 else 0x80) ≤ b1.toNat ∧ b1.toNat ≤ (if b.toNat = 0xF4 then 0x8F else 0xBF)
      swap
      · rw [dec_fail (stepOut k1 (by omega))] at h; cases h
      rw [dec_step (stepMid k1 (by omega) (by omega))] at h
      match t with
      | [] => rw [decEnd (by omega)] at h; cases h
      | b2 :: t =>
        by_cases k2 : 0x80 ≤ b2.toNat ∧ b2.toNat ≤ 0xBF
        swap
        · rw [dec_fail (stepOut k2 (by omega))] at h; cases h
        rw [dec_step (stepMid k2 (by omega) (by omega))] at h
        match t with
        | [] => rw [decEnd (by omega)] at h; cases h
        | b3 :: t =>
          by_cases k3 : 0x80 ≤ b3.toNat ∧ b3.toNat ≤ 0xBF
          swap
          · rw [dec_fail (stepOut k3 (by omega))] at h; cases h
          obtain ⟨c, hc⟩ := char_of
            (n := ((b.toNat % 8 * 64 + b1.toNat % 64) * 64 + b2.toNat % 64) * 64 + b3.toNat % 64)
            (by split_ifs at k1 <;> omega)
          have hv : c.val.toNat = ((b.toNat % 8 * 64 + b1.toNat % 64) * 64 + b2.toNat % 64) * 64 + b3.toNat % 64 := hc
          refine ⟨c, t, ?_, by simp; omega⟩
          rw [String.utf8EncodeChar]
          simp only [hv]
          rw [if_neg (by split_ifs at k1 <;> omega), if_neg (by split_ifs at k1 <;> omega),
            if_neg (by split_ifs at k1 <;> omega),
            ofN b _ (by split_ifs at k1 <;> omega), ofN b1 _ (by split_ifs at k1 <;> omega), ofN b2 _ (by omega),
            ofN b3 _ (by omega)]
          rfl

/-- The decoder accepts exactly UTF-8. -/
theorem dec_iff {bs : List UInt8} {r : List ℕ} :
    decodeCps .init bs = some r ↔ ∃ cs, bs = utf8 cs ∧ r = cs.map Char.toNat := by
  constructor
  · intro h
    have key : ∀ n (bs : List UInt8) (r : List ℕ), bs.length ≤ n → decodeCps .init bs = some r → ∃ cs, bs = utf8 cs := by
      intro n
      induction n with
      | zero => intro bs r hl _; exact ⟨[], by rw [List.length_eq_zero_iff.1 (Nat.le_zero.1 hl)]; rfl⟩
      | succ n ih =>
        intro bs r hl h
        match bs with
        | [] => exact ⟨[], rfl⟩
        | b :: t =>
          obtain ⟨c, t', e, hlt⟩ := dec_head h
          rw [e, dec_char] at h
          obtain ⟨r', hr', -⟩ := Option.map_eq_some_iff.1 h
          obtain ⟨cs, rfl⟩ := ih t' r' (by rw [List.length_cons] at hl; omega) hr'
          exact ⟨c :: cs, e⟩
    obtain ⟨cs, rfl⟩ := key _ _ _ (le_refl _) h
    rw [dec_utf8] at h
    exact ⟨cs, rfl, (Option.some.inj h).symm⟩
  · rintro ⟨cs, rfl, rfl⟩
    exact dec_utf8 cs

end Spartan.Utf
