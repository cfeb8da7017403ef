import Verif.Spec.GenWitness
import Verif.Props.WitnessCalc
import Mathlib.Data.Nat.Log
import Mathlib.Data.Set.Card

/-!
C140: the program `generate_witness.js` computes the witness for the numbers that its JSON file has.
-/

namespace Spartan.Wc

open Spec

variable {σ : Type} {C : Circuit σ} {p : ℕ} {accept : List Entry → Entry → Prop} {wit : List Entry → List ℕ}
  {inputs : σ → List Entry}

/-- The unit in which a number is rounded. -/
abbrev ulp (n : ℕ) : ℕ := 2 ^ (n.log2 - 52)

theorem ulp_pos (n : ℕ) : 0 < ulp n := Nat.two_pow_pos _

/-- C140.  A number survives `JSON.parse` exactly when it has at most 53 significant bits (and is finite). -/
theorem double_exact_iff (n : ℕ) : double n = some n ↔ ulp n ∣ n ∧ n < 2 ^ 1024 := by
  have hu := ulp_pos n
  unfold double
  simp only
  generalize 2 ^ 1024 = H
  change (if roundTo (ulp n) n < H then some (roundTo (ulp n) n) else none) = _ ↔ _
  generalize ulp n = u at *
  constructor
  · intro h
    split at h
    · rename_i hx
      have h := Option.some.inj h
      rw [h] at hx
      rw [roundTo] at h
      exact ⟨⟨_, by rw [mul_comm]; exact h.symm⟩, hx⟩
    · exact nomatch h
  · rintro ⟨hdvd, hlt⟩
    have h0 : n % u = 0 := Nat.mod_eq_zero_of_dvd hdvd
    have e : roundTo u n = n := by
      rw [roundTo, if_pos (by left; rw [h0]; exact hu), Nat.div_mul_cancel hdvd]
    rw [e, if_pos hlt]

/-- Numbers up to `2^53` survive. -/
theorem double_small {n : ℕ} (h : n ≤ 2 ^ 53) : double n = some n := by
  refine (double_exact_iff n).2 ⟨?_, lt_of_le_of_lt h (Nat.pow_lt_pow_right (by decide) (by decide))⟩
  rcases Nat.lt_or_ge n (2 ^ 53) with h' | h'
  · rcases Nat.eq_zero_or_pos n with rfl | hp
    · exact dvd_zero _
    · have : n.log2 < 53 := (Nat.log2_lt (by omega)).2 h'
      rw [ulp, show n.log2 - 52 = 0 by omega, pow_zero]
      exact one_dvd _
  · have : n = 2 ^ 53 := le_antisymm h h'
    subst this
    rw [ulp, Nat.log2_two_pow]
    exact pow_dvd_pow 2 (by norm_num)

theorem digitVal_digitChar {d : ℕ} (h : d < 16) : digitVal d.digitChar = d := by
  interval_cases d <;> decide

theorem foldl_toDigits {b : ℕ} (h1 : 1 < b) (h2 : b ≤ 16) (n : ℕ) :
    (Nat.toDigits b n).foldl (fun n c => b * n + digitVal c) 0 = n ∧ ∀ c ∈ Nat.toDigits b n, digitVal c < b := by
  induction n using Nat.strong_induction_on with
  | _ n ih =>
    rcases Nat.lt_or_ge n b with h | h
    · rw [Nat.toDigits_of_lt_base h]
      have := digitVal_digitChar (lt_of_lt_of_le h h2)
      refine ⟨by simp [this], fun c hc => ?_⟩
      rw [List.mem_singleton.1 hc, this]; exact h
    · obtain ⟨i1, i2⟩ := ih (n / b) (Nat.div_lt_self (by omega) h1)
      have hm : n % b < b := Nat.mod_lt _ (by omega)
      have := digitVal_digitChar (lt_of_lt_of_le hm h2)
      rw [Nat.toDigits_of_base_le h1 h]
      refine ⟨by rw [List.foldl_append, i1]; simp [this, Nat.div_add_mod], fun c hc => ?_⟩
      rcases List.mem_append.1 hc with hc | hc
      · exact i2 c hc
      · rw [List.mem_singleton.1 hc, this]; exact hm

theorem digits_toDigits {b : ℕ} (h1 : 1 < b) (h2 : b ≤ 16) (n : ℕ) : digits b (Nat.toDigits b n) = some n := by
  obtain ⟨e, hl⟩ := foldl_toDigits h1 h2 n
  rw [digits, if_neg, e]
  rintro (h | h)
  · exact Nat.toDigits_ne_nil h
  · obtain ⟨c, hc, hb⟩ := List.any_eq_true.1 h
    have := hl c hc
    simp at hb
    omega

theorem notWhite {b : ℕ} (h1 : 1 < b) (h2 : b ≤ 16) (n : ℕ) : ∀ c ∈ Nat.toDigits b n, c.isWhitespace = false := by
  intro c hc
  by_contra h
  have h := (Bool.not_eq_false _).mp h
  have := (foldl_toDigits h1 h2 n).2 c hc
  have hw : c = ' ' ∨ c = '\t' ∨ c = '\r' ∨ c = '\n' := by
    simp [Char.isWhitespace] at h
    tauto
  rcases hw with rfl | rfl | rfl | rfl
  all_goals
    rw [show digitVal _ = 255 by decide] at this
    omega

theorem trim_id {s : List Char} (h : ∀ c ∈ s, c.isWhitespace = false) :
    ((s.dropWhile Char.isWhitespace).reverse.dropWhile Char.isWhitespace).reverse = s := by
  have key : ∀ t : List Char, (∀ c ∈ t, c.isWhitespace = false) → t.dropWhile Char.isWhitespace = t := by
    intro t ht
    cases t with
    | nil => rfl
    | cons c t => rw [List.dropWhile_cons_of_neg (by simp [ht c (List.mem_cons_self ..)])]
  rw [key s h, key s.reverse (fun c hc => h c (List.mem_reverse.1 hc)), List.reverse_reverse]

theorem bigInt_dec (n : ℕ) : bigIntOfStr (Nat.toDigits 10 n) = some (n : ℤ) := by
  have hd := digits_toDigits (b := 10) (by norm_num) (by norm_num) n
  have hl := (foldl_toDigits (b := 10) (by norm_num) (by norm_num) n).2
  rw [bigIntOfStr, trim_id (notWhite (by norm_num) (by norm_num) n)]
  generalize Nat.toDigits 10 n = t at *
  split
  all_goals first
    | (exfalso; simp [digits] at hd; done)
    | (exfalso
       have := hl _ (List.mem_cons_of_mem _ (List.mem_cons_self ..))
       revert this; decide)
    | (exfalso
       have := hl _ (List.mem_cons_self ..)
       revert this; decide)
    | (rw [hd]; rfl)

theorem bigInt_neg (n : ℕ) : bigIntOfStr ('-' :: Nat.toDigits 10 n) = some (-(n : ℤ)) := by
  rw [bigIntOfStr, trim_id]
  · simp only [digits_toDigits (b := 10) (by norm_num) (by norm_num) n, Option.map_some]
  · intro c hc
    rcases List.mem_cons.1 hc with rfl | hc
    · decide
    · exact notWhite (by norm_num) (by norm_num) n c hc

theorem bigInt_hex (n : ℕ) : bigIntOfStr ('0' :: 'x' :: Nat.toDigits 16 n) = some (n : ℤ) := by
  rw [bigIntOfStr, trim_id]
  · simp only [digits_toDigits (b := 16) (by norm_num) (by norm_num) n, Option.map_some]
    rfl
  · intro c hc
    rcases List.mem_cons.1 hc with rfl | hc
    · decide
    rcases List.mem_cons.1 hc with rfl | hc
    · decide
    · exact notWhite (by norm_num) (by norm_num) n c hc

/-- Numbers that survive `JSON.parse`. -/
def Survives (n : ℤ) : Prop := ulp n.natAbs ∣ n.natAbs ∧ n.natAbs < 2 ^ 1024

theorem bigInt_num {n : ℤ} (h : Survives n) : bigIntOfNum n = some n := by
  rw [bigIntOfNum, (double_exact_iff _).2 h, Option.map_some]
  congr 1
  split <;> omega

mutual
theorem convert_means : ∀ {j x}, Means Survives j x → convert j = some x
  | _, _, .num h => by rw [convert, bigInt_num h]; rfl
  | _, _, .dec n => by rw [convert, bigInt_dec]; rfl
  | _, _, .neg n => by rw [convert, bigInt_neg]; rfl
  | _, _, .hex n => by rw [convert, bigInt_hex]; rfl
  | _, _, .arr h => by rw [convert, convertAll_means h]; rfl
theorem convertAll_means : ∀ {l xs}, MeansAll Survives l xs → convertAll l = some xs
  | _, _, .nil => by rw [convertAll]
  | _, _, .cons h hs => by rw [convertAll, convert_means h, convertAll_means hs]
end

theorem setProp_new (k : List ℕ) (v : Json) : ∀ ps : List (List ℕ × Json), k ∉ ps.map Prod.fst → setProp k v ps = ps ++ [(k, v)]
  | [], _ => rfl
  | (k', v') :: ps, h => by
    rw [List.map_cons, List.mem_cons, not_or] at h
    rw [setProp, if_neg (fun e => h.1 e.symm), setProp_new k v ps h.2]; rfl

theorem parseObject_nodup (ms : List (List ℕ × Json)) (h : (ms.map Prod.fst).Nodup) : parseObject ms = ms := by
  have : ∀ (ms acc : List (List ℕ × Json)), ((acc ++ ms).map Prod.fst).Nodup →
      ms.foldl (fun o kv => setProp kv.1 kv.2 o) acc = acc ++ ms := by
    intro ms
    induction ms with
    | nil => intro acc _; rw [List.append_nil]; rfl
    | cons m ms ih =>
      intro acc hn
      have hk : m.1 ∉ acc.map Prod.fst := by
        rw [List.map_append, List.map_cons] at hn
        intro hm
        exact (List.nodup_append.1 hn).2.2 _ hm _ (List.mem_cons_self ..) rfl
      rw [List.foldl_cons, setProp_new _ _ _ hk, ih _ (by rw [List.append_assoc]; exact hn), List.append_assoc]
      rfl
  exact this ms [] h

theorem setProp_lookup (k k' : List ℕ) (v : Json) : ∀ ps : List (List ℕ × Json),
    (setProp k v ps).lookup k' = if k' = k then some v else ps.lookup k'
  | [] => by
    rcases eq_or_ne k' k with rfl | h
    · simp [setProp]
    · simp [setProp, h]
  | (j, w) :: ps => by
    rw [setProp]
    rcases eq_or_ne j k with rfl | h
    · rw [if_pos rfl]
      rcases eq_or_ne k' j with rfl | h'
      · simp
      · simp [List.lookup_cons, h', beq_false_of_ne h']
    · rw [if_neg h]
      rcases eq_or_ne k' j with rfl | h'
      · simp [h]
      · rw [List.lookup_cons, List.lookup_cons, beq_false_of_ne h', setProp_lookup k k' v ps]

theorem setProp_names (k : List ℕ) (v : Json) : ∀ ps : List (List ℕ × Json), (setProp k v ps).map Prod.fst =
    if k ∈ ps.map Prod.fst then ps.map Prod.fst else ps.map Prod.fst ++ [k]
  | [] => rfl
  | (j, w) :: ps => by
    rw [setProp]
    rcases eq_or_ne j k with rfl | h
    · simp
    · rw [if_neg h, List.map_cons, setProp_names k v ps]
      by_cases hk : k ∈ ps.map Prod.fst
      · rw [if_pos hk, if_pos (by rw [List.map_cons]; exact List.mem_cons_of_mem _ hk)]; rfl
      · rw [if_neg hk, if_neg (by rw [List.map_cons, List.mem_cons, not_or]; exact ⟨fun e => h e.symm, hk⟩)]; rfl

/-- C140.  When a name occurs more than once, its last value counts; every name is used once. -/
theorem last_member_counts (ms : List (List ℕ × Json)) :
    ((parseObject ms).map Prod.fst).Nodup ∧ ∀ k, (parseObject ms).lookup k = ms.reverse.lookup k := by
  induction ms using List.reverseRecOn with
  | nil => exact ⟨List.nodup_nil, fun _ => rfl⟩
  | append_singleton ms m ih =>
    have e : parseObject (ms ++ [m]) = setProp m.1 m.2 (parseObject ms) := by
      rw [parseObject, List.foldl_append]; rfl
    rw [e]
    constructor
    · rw [setProp_names]
      split
      · exact ih.1
      · exact List.nodup_append.2 ⟨ih.1, List.nodup_singleton _, fun a ha b hb e' =>
          ‹_ ∉ _› (by rw [← List.mem_singleton.1 hb, ← e']; exact ha)⟩
    · intro k
      rw [setProp_lookup, ih.2, List.reverse_append, List.reverse_singleton, List.singleton_append]
      obtain ⟨j, w⟩ := m
      rcases eq_or_ne k j with rfl | h
      · simp
      · rw [if_neg h, List.lookup_cons, beq_false_of_ne h]

theorem convertObject_means {ms : List (List ℕ × Json)} {input : List (List ℕ × Nested)}
    (h : List.Forall₂ (fun m i => m.1 = i.1 ∧ Means Survives m.2 i.2) ms input) : convertObject ms = some input := by
  induction h with
  | nil => rfl
  | @cons m i ms is hm _ ih =>
    obtain ⟨k, v⟩ := m
    obtain ⟨k', x⟩ := i
    obtain ⟨hk, hx⟩ := hm
    change k = k' at hk
    subst hk
    rw [convertObject, convert_means hx, ih]

/-- C140.  When the numbers in the JSON file are strings, or JSON numbers of at most 53 significant bits, the program writes the
witness file for exactly these numbers, or fails when they do not fit the circuit. -/
theorem generate_witness_partial (R : Runs C p accept wit inputs) {members : List (List ℕ × Json)}
    {input : List (List ℕ × Nested)} (hm : MeansInput Survives members input) (hc : ∀ m ∈ members, ∀ c ∈ m.1, c < 2 ^ 16) (s : σ)
    (h8 : C.n32 = 8) (hw : C.witnessSize < 2 ^ 27) :
    (Fits C p accept input → generateWitness C 5 members s = .wrote (encWtns 2 (leBytes 32 p)
      (32 * (wit (allEntries p input)).length) (wit (allEntries p input)))) ∧
    (¬ Fits C p accept input → generateWitness C 5 members s = .failed) ∧
    (∀ argc, argc ≠ 5 → generateWitness C argc members s = .usage) := by
  have hc' : ∀ ka ∈ input, ∀ c ∈ ka.1, c < 2 ^ 16 := by
    intro ka hka
    obtain ⟨i, hi, rfl⟩ := List.getElem_of_mem hka
    obtain ⟨hl, hg⟩ := List.forall₂_iff_get.1 hm.2
    have h1 := hg i (by omega) hi
    simp only [List.get_eq_getElem] at h1
    rw [← h1.1]
    exact hc _ (List.getElem_mem _)
  have e : convertObject (parseObject members) = some input := by
    rw [parseObject_nodup _ hm.1, convertObject_means hm.2]
  refine ⟨fun hf => ?_, fun hf => ?_, fun argc h => by rw [generateWitness, if_pos h]⟩
  · rw [generateWitness, if_neg (by simp), e]
    simp only
    rw [wtnsBin_format R hc' false s (C.rawPrime s) h8 hw hf]
  · obtain ⟨err, -, -, h3⟩ := (witness_returned R hc' false s (C.rawPrime s)).2 hf
    rw [generateWitness, if_neg (by simp), e]
    simp only
    rw [h3]

theorem mem_dropWhile {q : Char → Bool} {c : Char} (hq : q c = false) : ∀ {s : List Char}, c ∈ s → c ∈ s.dropWhile q
  | d :: s, h => by
    rcases hd : q d with _ | _
    · rw [List.dropWhile_cons_of_neg (by simp [hd])]; exact h
    · rw [List.dropWhile_cons_of_pos hd]
      rcases List.mem_cons.1 h with rfl | h
      · rw [hq] at hd; exact nomatch hd
      · exact mem_dropWhile hq h

theorem digitVal_other {c : Char} (h : c.isAlphanum = false) : digitVal c = 255 := by
  have h1 : c.isDigit = false ∧ c.isUpper = false ∧ c.isLower = false := by
    simp only [Char.isAlphanum, Char.isAlpha, Bool.or_eq_false_iff] at h
    tauto
  obtain ⟨hd, hu, hl⟩ := h1
  simp only [Char.isDigit, Char.isUpper, Char.isLower, ge_iff_le, Bool.and_eq_false_iff, decide_eq_false_iff_not] at hd hu hl
  have le : ∀ a b : Char, a ≤ b ↔ a.val.toNat ≤ b.val.toNat := fun _ _ => Iff.rfl
  simp only [UInt32.le_iff_toNat_le] at hd hu hl
  rw [digitVal, if_neg, if_neg, if_neg]
  all_goals
    rw [le, le]
    simp at *
    omega

theorem digits_none {r : ℕ} (hr : r ≤ 255) {c : Char} (h : c.isAlphanum = false) {s : List Char} (hc : c ∈ s) :
    digits r s = none := by
  rw [digits, if_pos]
  exact Or.inr (List.any_eq_true.2 ⟨c, hc, by rw [digitVal_other h]; simpa using hr⟩)

theorem bigInt_none {s : List Char} {c : Char} (hc : c ∈ s) (h1 : c.isAlphanum = false) (h2 : c.isWhitespace = false)
    (h3 : c ≠ '+') (h4 : c ≠ '-') : bigIntOfStr s = none := by
  have hm : c ∈ ((s.dropWhile Char.isWhitespace).reverse.dropWhile Char.isWhitespace).reverse :=
    List.mem_reverse.2 (mem_dropWhile h2 (List.mem_reverse.2 (mem_dropWhile h2 hc)))
  have hne : ∀ d : Char, d.isAlphanum = true → c ≠ d := fun d hd e => by rw [e, hd] at h1; exact nomatch h1
  rw [bigIntOfStr]
  generalize ((s.dropWhile Char.isWhitespace).reverse.dropWhile Char.isWhitespace).reverse = t at hm
  have two : ∀ {x y : Char} {ds : List Char}, x.isAlphanum = true → y.isAlphanum = true → c ∈ x :: y :: ds → c ∈ ds := by
    intro x y ds hx hy h
    rcases List.mem_cons.1 h with h | h
    · exact absurd h (hne _ hx)
    rcases List.mem_cons.1 h with h | h
    · exact absurd h (hne _ hy)
    exact h
  split
  case h_1 => exact nomatch hm
  case h_8 => rw [digits_none (by norm_num) h1 ((List.mem_cons.1 hm).resolve_left h4)]; rfl
  case h_9 => rw [digits_none (by norm_num) h1 ((List.mem_cons.1 hm).resolve_left h3)]; rfl
  case h_10 => rw [digits_none (by norm_num) h1 hm]; rfl
  all_goals
    rw [digits_none (by norm_num) h1 (two (by decide) (by decide) hm)]
    rfl

theorem convertAll_none {a : Json} (ha : convert a = none) : ∀ {l : List Json}, a ∈ l → convertAll l = none
  | b :: l, h => by
    rw [convertAll]
    rcases List.mem_cons.1 h with rfl | h
    · rw [ha]
    · rw [convertAll_none ha h]
      cases convert b <;> rfl

theorem convert_none {j : Json} (h : NoNumber j) : convert j = none := by
  induction h with
  | null => rw [convert]
  | str h h1 h2 h3 h4 => rw [convert, bigInt_none h h1 h2 h3 h4]; rfl
  | arr h _ ih => rw [convert, convertAll_none ih h]; rfl

theorem convertObject_none {m : List ℕ × Json} (hm : convert m.2 = none) : ∀ {ms : List (List ℕ × Json)}, m ∈ ms →
    convertObject ms = none
  | (k, v) :: ms, h => by
    rw [convertObject]
    rcases List.mem_cons.1 h with rfl | h
    · simp only at hm; rw [hm]
    · rw [convertObject_none hm h]
      cases convert v <;> rfl

/-- C140.  A value that is no number makes the program fail, and no file is written. -/
theorem no_number_fails {members : List (List ℕ × Json)} (hn : (members.map Prod.fst).Nodup) {m : List ℕ × Json}
    (hm : m ∈ members) (hb : NoNumber m.2) (s : σ) : generateWitness C 5 members s = .failed := by
  rw [generateWitness, if_neg (by simp), parseObject_nodup _ hn, convertObject_none (convert_none hb) hm]

example (C : Circuit σ) (s : σ) : generateWitness C 5 [([97], .num 3), ([98], .arr [.str "1.5".toList])] s = .failed :=
  no_number_fails (by simp) (List.mem_cons_of_mem _ (List.mem_cons_self ..))
    (.arr (List.mem_cons_self ..) (.str (c := '.') (by decide) (by decide) (by decide) (by decide) (by decide))) s

/-- C140.  Of the `2^k` numbers with `k + 1` binary digits, exactly `2^52` survive as JSON numbers: of the 256-bit numbers that
a field element of this library can be, a fraction of `2^-203`. -/
theorem survivors {k : ℕ} (h1 : 52 ≤ k) (h2 : k < 1024) :
    {n : ℕ | 2 ^ k ≤ n ∧ n < 2 ^ (k + 1) ∧ bigIntOfNum n = some (n : ℤ)}.ncard = 2 ^ 52 := by
  have hset : {n : ℕ | 2 ^ k ≤ n ∧ n < 2 ^ (k + 1) ∧ bigIntOfNum n = some (n : ℤ)} =
      (fun m => m * 2 ^ (k - 52)) '' (Finset.Ico (2 ^ 52) (2 ^ 53) : Set ℕ) := by
    have ek : 2 ^ k = 2 ^ 52 * 2 ^ (k - 52) := by rw [← pow_add]; congr 1; omega
    have ek' : 2 ^ (k + 1) = 2 ^ 53 * 2 ^ (k - 52) := by rw [← pow_add]; congr 1; omega
    have hp : 0 < 2 ^ (k - 52) := Nat.two_pow_pos _
    have hb : ∀ n : ℕ, bigIntOfNum n = some (n : ℤ) ↔ double n = some n := by
      intro n
      rw [bigIntOfNum, Int.natAbs_natCast]
      cases double n with
      | none => simp
      | some x =>
        rw [Option.map_some, if_neg (by omega)]
        simp
    have hlog : ∀ n, 2 ^ k ≤ n → n < 2 ^ (k + 1) → n.log2 = k := by
      intro n ha hb
      have hn : n ≠ 0 := by have := Nat.two_pow_pos k; omega
      exact le_antisymm (Nat.lt_succ_iff.1 ((Nat.log2_lt hn).2 hb)) ((Nat.le_log2 hn).2 ha)
    ext n
    simp only [Set.mem_ofPred_eq, Set.mem_image, Finset.coe_Ico, Set.mem_Ico, hb, double_exact_iff]
    constructor
    · rintro ⟨ha, hlt, hd, -⟩
      rw [ulp, hlog n ha hlt] at hd
      obtain ⟨m, rfl⟩ := hd
      rw [ek, mul_comm] at ha
      rw [ek', mul_comm (2 ^ (k - 52))] at hlt
      exact ⟨m, ⟨Nat.le_of_mul_le_mul_left ha hp, Nat.lt_of_mul_lt_mul_right hlt⟩, mul_comm _ _⟩
    · rintro ⟨m, ⟨ha, hlt⟩, rfl⟩
      have h3 : 2 ^ k ≤ m * 2 ^ (k - 52) := by rw [ek]; exact Nat.mul_le_mul_right _ ha
      have h4 : m * 2 ^ (k - 52) < 2 ^ (k + 1) := by rw [ek']; exact Nat.mul_lt_mul_of_pos_right hlt hp
      refine ⟨h3, h4, ?_, lt_of_lt_of_le h4 (Nat.pow_le_pow_right (by norm_num) (by omega))⟩
      rw [ulp, hlog _ h3 h4]
      exact Dvd.intro_left _ rfl
  rw [hset, Set.InjOn.ncard_image, Set.ncard_coe_finset, Nat.card_Ico]
  · norm_num
  · intro a _ b _ h
    exact Nat.eq_of_mul_eq_mul_right (Nat.two_pow_pos _) h

/-- A JSON number becomes a nearest number of 53 significant bits. -/
theorem double_nearest {n x : ℕ} (h : double n = some x) :
    ulp n ∣ x ∧ ∀ m, ulp n ∣ m → |(x : ℤ) - n| ≤ |(m : ℤ) - n| := by
  have hu := ulp_pos n
  unfold double at h
  simp only at h
  generalize 2 ^ 1024 = H at h
  change (if roundTo (ulp n) n < H then some (roundTo (ulp n) n) else none) = _ at h
  generalize ulp n = u at *
  split at h
  swap
  · exact nomatch h
  have h := Option.some.inj h
  subst h
  refine ⟨Dvd.intro_left _ rfl, ?_⟩
  rintro m ⟨c, rfl⟩
  have hd := Nat.div_add_mod n u
  have hm := Nat.mod_lt n hu
  rw [roundTo]
  generalize n / u = a at *
  generalize n % u = r at *
  subst hd
  rcases Nat.lt_or_ge a c with hc | hc
  · obtain ⟨e, rfl⟩ := Nat.exists_eq_add_of_lt hc
    have hue : 0 ≤ (u : ℤ) * e := by positivity
    rw [abs_of_nonneg (a := (((u * (a + e + 1) : ℕ) : ℤ) - ((u * a + r : ℕ) : ℤ))) (by push_cast; nlinarith)]
    split
    · rw [abs_le]; constructor <;> push_cast <;> rcases ‹_ ∨ _› with h | h <;> nlinarith [h]
    · rw [abs_le]; constructor <;> push_cast <;> nlinarith
  · obtain ⟨e, rfl⟩ := Nat.exists_eq_add_of_le hc
    have hue : 0 ≤ (u : ℤ) * e := by positivity
    rw [abs_of_nonpos (a := (((u * c : ℕ) : ℤ) - ((u * (c + e) + r : ℕ) : ℤ))) (by push_cast; nlinarith)]
    split
    · rw [abs_le]; constructor <;> push_cast <;> nlinarith
    · rename_i hn
      rw [not_or] at hn
      rw [abs_le]; constructor <;> push_cast <;> nlinarith [hn.1]

theorem survives_of_bigInt {n : ℤ} (h : bigIntOfNum n = some n) : Survives n := by
  refine (double_exact_iff _).1 ?_
  rw [bigIntOfNum] at h
  generalize double n.natAbs = d at *
  cases d with
  | none => exact nomatch h
  | some x =>
    rw [Option.map_some] at h
    have h := Option.some.inj h
    congr 1
    split at h <;> omega

mutual
theorem means_of_convert {t S : ℤ → Prop} (hS : ∀ n, bigIntOfNum n = some n → S n) :
    ∀ {j x}, Means t j x → convert j = some x → Means S j x
  | _, _, .num _ => fun h => by
    rw [convert] at h
    obtain ⟨y, hy, e⟩ := Option.map_eq_some_iff.1 h
    exact .num (hS _ (hy.trans (congrArg some (Nested.leaf.inj e))))
  | _, _, .dec n => fun _ => .dec n
  | _, _, .neg n => fun _ => .neg n
  | _, _, .hex n => fun _ => .hex n
  | _, _, .arr hl => fun h => by
    rw [convert] at h
    obtain ⟨y, hy, e⟩ := Option.map_eq_some_iff.1 h
    injection e with e
    subst e
    exact .arr (meansAll_of_convert hS hl hy)
theorem meansAll_of_convert {t S : ℤ → Prop} (hS : ∀ n, bigIntOfNum n = some n → S n) :
    ∀ {l xs}, MeansAll t l xs → convertAll l = some xs → MeansAll S l xs
  | _, _, .nil => fun _ => .nil
  | a :: as, x :: xs, .cons h hs => fun e => by
    rw [convertAll] at e
    cases h1 : convert a with
    | none => rw [h1] at e; exact nomatch e
    | some y =>
      cases h2 : convertAll as with
      | none => rw [h1, h2] at e; exact nomatch e
      | some ys =>
        rw [h1, h2] at e
        obtain ⟨e1, e2⟩ := List.cons.inj (Option.some.inj e)
        subst e1 e2
        exact .cons (means_of_convert hS h h1) (meansAll_of_convert hS hs h2)
end

theorem forall_of_convert {t : ℤ → Prop} {ms : List (List ℕ × Json)} {input : List (List ℕ × Nested)}
    (h : List.Forall₂ (fun m i => m.1 = i.1 ∧ Means t m.2 i.2) ms input) (e : convertObject ms = some input) :
    List.Forall₂ (fun m i => m.1 = i.1 ∧ Means Survives m.2 i.2) ms input := by
  induction h with
  | nil => exact .nil
  | @cons m i ms is hm _ ih =>
    obtain ⟨k, v⟩ := m
    obtain ⟨k', x⟩ := i
    rw [convertObject] at e
    cases h1 : convert v with
    | none => rw [h1] at e; exact nomatch e
    | some y =>
      cases h2 : convertObject ms with
      | none => rw [h1, h2] at e; exact nomatch e
      | some ys =>
        rw [h1, h2] at e
        obtain ⟨e1, e2⟩ := List.cons.inj (Option.some.inj e)
        obtain ⟨rfl, rfl⟩ := Prod.mk.inj e1
        subst e2
        exact .cons ⟨hm.1, means_of_convert (fun _ => survives_of_bigInt) hm.2 h1⟩ (ih h2)

/-- C140.  The restriction in `generate_witness_partial` cannot be weakened: the witness calculator is given the integers that
the file means exactly when every one of them that is written as a JSON number has at most 53 significant bits. -/
theorem input_kept_iff {members : List (List ℕ × Json)} {input : List (List ℕ × Nested)}
    (hm : MeansInput (fun _ => True) members input) :
    convertObject (parseObject members) = some input ↔ MeansInput Survives members input := by
  rw [parseObject_nodup _ hm.1]
  exact ⟨fun e => ⟨hm.1, forall_of_convert hm.2 e⟩, fun h => convertObject_means h.2⟩

/-- C140 is false for JSON numbers of more than 53 significant bits: for the file `{"a": [9007199254740993, [1]]}` the program
writes, without an error, the witness of another input. -/
theorem generate_witness_wrong (s : ExState) :
    generateWitness (exCircuit secpP) 5 [([97], .arr [.num (2 ^ 53 + 1), .arr [.num 1]])] s =
      .wrote (encWtns 2 (leBytes 32 secpP) 128 [1, 2 ^ 53, 2 ^ 53, 1]) ∧
    exWit secpP (allEntries secpP (exInput (2 ^ 53 + 1) 1)) = [1, 2 ^ 53 + 1, 2 ^ 53 + 1, 1] := by
  have hc : ∀ ka ∈ exInput (2 ^ 53) 1, ∀ c ∈ ka.1, c < 2 ^ 16 := fun ka hka c hcm => by
    rw [List.mem_singleton.1 hka] at hcm
    rw [List.mem_singleton.1 hcm]; norm_num
  have e : convertObject (parseObject [([97], .arr [.num (2 ^ 53 + 1), .arr [.num 1]])]) = some (exInput (2 ^ 53) 1) := by
    have h1 : bigIntOfNum 9007199254740993 = some 9007199254740992 := by decide +kernel
    have h2 : bigIntOfNum 1 = some 1 := by decide +kernel
    simp [parseObject, setProp, convertObject, convert, convertAll, h1, h2, exInput]
  constructor
  · rw [generateWitness, if_neg (by simp), e]
    simp only
    rw [wtnsBin_format (ex_runs (p := secpP) (by decide +kernel) (by decide +kernel)) hc false s _ rfl (by decide) (ex_fits _ _ _)]
    rfl
  · decide +kernel

/-- The hypothesis of `input_kept_iff` is met by the file of `generate_witness_wrong`. -/
example : MeansInput (fun _ => True) [([97], .arr [.num (2 ^ 53 + 1), .arr [.num 1]])] (exInput (2 ^ 53 + 1) 1) :=
  ⟨by simp, .cons ⟨rfl, .arr (.cons (.num trivial) (.cons (.arr (.cons (.num trivial) .nil)) .nil))⟩ .nil⟩

/-- The hypotheses of `generate_witness_partial` are met: the same number as a string is kept, and so is a small number. -/
example (s : ExState) :
    generateWitness (exCircuit secpP) 5 [([97], .arr [.str (Nat.toDigits 10 (2 ^ 53 + 1)), .arr [.num 1]])] s =
      .wrote (encWtns 2 (leBytes 32 secpP) 128 [1, 2 ^ 53 + 1, 2 ^ 53 + 1, 1]) := by
  have h := (generate_witness_partial (ex_runs (p := secpP) (by decide +kernel) (by decide +kernel))
    (members := [([97], .arr [.str (Nat.toDigits 10 (2 ^ 53 + 1)), .arr [.num 1]])]) (input := exInput (2 ^ 53 + 1) 1)
    ⟨by simp, .cons ⟨rfl, .arr (.cons (.dec (2 ^ 53 + 1)) (.cons (.arr (.cons (.num (by
      unfold Survives; decide +kernel)) .nil)) .nil))⟩ .nil⟩
    (by simp) s rfl (by decide)).1 (ex_fits _ _ _)
  rw [h, generate_witness_wrong s |>.2]
  rfl

end Spartan.Wc
