import Mathlib.Data.Nat.Digits.Lemmas
import Verif.Spec.WitnessCalc
import Verif.Props.Reader

/-!
C111 and C112: the witness calculator.
-/

namespace Spartan.Wc
open Spec

variable {σ : Type}

/-! ### Numbers -/

theorem foldl_digits (B : ℕ) (arr : List ℕ) : ∀ acc, arr.foldl (fun res x => res * B + x) acc =
    acc * B ^ arr.length + Nat.ofDigits B arr.reverse := by
  induction arr with
  | nil => intro acc; simp
  | cons a as ih =>
    intro acc
    rw [List.foldl_cons, ih, List.reverse_cons, Nat.ofDigits_append, Nat.ofDigits_singleton, List.length_reverse,
      List.length_cons, pow_succ]
    ring

theorem fromArray32_eq (arr : List ℕ) : fromArray32 arr = Nat.ofDigits (2 ^ 32) arr.reverse := by
  rw [fromArray32, foldl_digits, Nat.zero_mul, Nat.zero_add]

theorem parseHex_eq (arr : List ℕ) : parseHex arr = Nat.ofDigits 16 arr.reverse := by
  have : (fun r d : ℕ => 16 * r + d) = fun r d => r * 16 + d := by funext r d; rw [Nat.mul_comm]
  rw [parseHex, this, foldl_digits, Nat.zero_mul, Nat.zero_add]

theorem toArray32Go_eq (rem : ℕ) : ∀ res, toArray32Go rem res = (Nat.digits (2 ^ 32) rem).reverse ++ res := by
  induction rem using Nat.strong_induction_on with
  | _ rem ih =>
    intro res
    rw [toArray32Go]
    split
    · rename_i h; subst h; simp
    · rename_i h
      rw [ih _ (Nat.div_lt_self (by omega) (by norm_num)), Nat.digits_def' (by norm_num) (by omega : 0 < rem)]
      simp

theorem toHexGo_eq (rem : ℕ) : ∀ res, toHexGo rem res = (Nat.digits 16 rem).reverse ++ res := by
  induction rem using Nat.strong_induction_on with
  | _ rem ih =>
    intro res
    rw [toHexGo]
    split
    · rename_i h; subst h; simp
    · rename_i h
      rw [ih _ (Nat.div_lt_self (by omega) (by norm_num)), Nat.digits_def' (by norm_num) (by omega : 0 < rem)]
      simp

theorem ofDigits_zeros (B n : ℕ) (l : List ℕ) : Nat.ofDigits B (l ++ List.replicate n 0) = Nat.ofDigits B l := by
  rw [Nat.ofDigits_append]
  have : ∀ n, Nat.ofDigits B (List.replicate n 0) = 0 := fun n => by
    induction n with
    | zero => rfl
    | succ n ih => rw [List.replicate_succ, Nat.ofDigits_cons, ih]; simp
  rw [this]; simp

/-- C111.  `toArray32` writes a number with exactly `size` limbs below `2^32` if it fits, and `fromArray32` reads it back
in any case. -/
theorem array32_roundtrip (x size : ℕ) : fromArray32 (toArray32 x size) = x ∧ (∀ l ∈ toArray32 x size, l < 2 ^ 32) ∧
    (x < 2 ^ (32 * size) → (toArray32 x size).length = size) := by
  have e : toArray32 x size = List.replicate (size - (Nat.digits (2 ^ 32) x).length) 0 ++ (Nat.digits (2 ^ 32) x).reverse := by
    rw [toArray32, toArray32Go_eq, List.append_nil, List.length_reverse]
  refine ⟨?_, ?_, ?_⟩
  · rw [fromArray32_eq, e, List.reverse_append, List.reverse_reverse, List.reverse_replicate, ofDigits_zeros,
      Nat.ofDigits_digits]
  · intro l hl
    rw [e, List.mem_append, List.mem_replicate, List.mem_reverse] at hl
    rcases hl with ⟨-, rfl⟩ | hl
    · norm_num
    · exact Nat.digits_lt_base (by norm_num) hl
  · intro h
    have := (Nat.digits_length_le_iff (b := 2 ^ 32) (k := size) (by norm_num) x).2 (by rw [← pow_mul]; exact h)
    rw [e, List.length_append, List.length_replicate, List.length_reverse]
    omega

/-- C111.  `normalize` is the residue, also of negative integers. -/
theorem normalize_eq (n : ℤ) {p : ℕ} (hp : 0 < p) : normalize n p = (n % (p : ℤ)).toNat ∧ normalize n p < p := by
  have hp' : (0 : ℤ) < p := by exact_mod_cast hp
  have h1 : 0 ≤ n % (p : ℤ) := Int.emod_nonneg _ hp'.ne'
  have h2 : n % (p : ℤ) < p := Int.emod_lt_of_pos _ hp'
  have key : normalize n p = (n % (p : ℤ)).toNat := by
    rw [normalize]
    congr 1
    rcases lt_or_ge n 0 with hn | hn
    · obtain ⟨m, rfl⟩ : ∃ m : ℤ, n = -m := ⟨-n, by omega⟩
      rw [Int.neg_tmod, Int.tmod_eq_emod_of_nonneg (by omega : 0 ≤ m)]
      have h3 : 0 ≤ m % (p : ℤ) := Int.emod_nonneg _ hp'.ne'
      have h4 : m % (p : ℤ) < p := Int.emod_lt_of_pos _ hp'
      have h5 : (-m) % (p : ℤ) = (-(m % (p : ℤ))) % (p : ℤ) := by
        rw [Int.neg_emod_eq_sub_emod, Int.neg_emod_eq_sub_emod (a := m % (p : ℤ)), Int.sub_emod_emod]
      rw [h5]
      generalize m % (p : ℤ) = r at h3 h4 ⊢
      split
      · rw [← Int.add_emod_right (-r), Int.emod_eq_of_lt (by omega) (by omega)]
      · rw [Int.emod_eq_of_lt (by omega) (by omega)]
    · rw [Int.tmod_eq_emod_of_nonneg hn, if_neg (by omega)]
  rw [key]
  exact ⟨rfl, by omega⟩

mutual
theorem fill_eq : ∀ (a : Nested) (res : List ℤ), fill a res = res ++ leaves a
  | .leaf n, res => by rw [fill, leaves]
  | .node l, res => by rw [fill, leaves, fillAll_eq l]
theorem fillAll_eq : ∀ (l : List Nested) (res : List ℤ), fillAll l res = res ++ leavesAll l
  | [], res => by rw [fillAll, leavesAll, List.append_nil]
  | a :: as, res => by rw [fillAll, leavesAll, fill_eq a, fillAll_eq as, List.append_assoc]
end

theorem flatArray_eq (a : Nested) : flatArray a = leaves a := by rw [flatArray, fill_eq]; rfl

/-! ### Names -/

theorem toHex_spec {n : ℕ} : Nat.ofDigits 16 (toHex n).reverse = n ∧ (∀ d ∈ toHex n, d < 16) ∧
    ∀ k, 0 < k → n < 16 ^ k → (toHex n).length ≤ k := by
  rw [toHex]
  split
  · rename_i h; subst h
    exact ⟨rfl, by simp, fun k hk _ => hk⟩
  · rw [toHexGo_eq, List.append_nil]
    refine ⟨by rw [List.reverse_reverse, Nat.ofDigits_digits], fun d hd => ?_, fun k _ h => ?_⟩
    · exact Nat.digits_lt_base (by norm_num) (List.mem_reverse.1 hd)
    · rw [List.length_reverse]
      exact (Nat.digits_length_le_iff (by norm_num) n).2 h

/-- Eight and eight digits. -/
theorem hexWords_eq {s : List ℕ} (hl : s.length = 16) (hd : ∀ d ∈ s, d < 16) :
    hexWords s = (Nat.ofDigits 16 s.reverse / 2 ^ 32, Nat.ofDigits 16 s.reverse % 2 ^ 32) := by
  have e : s.reverse = (s.drop 8).reverse ++ (s.take 8).reverse := by rw [← List.reverse_append, List.take_append_drop]
  have hlow : Nat.ofDigits 16 (s.drop 8).reverse < 16 ^ 8 := by
    have := Nat.ofDigits_lt_base_pow_length (b := 16) (l := (s.drop 8).reverse) (by norm_num)
      fun x hx => hd x (List.mem_of_mem_drop (List.mem_reverse.1 hx))
    rwa [List.length_reverse, List.length_drop, hl] at this
  have h8 : ((s.drop 8).reverse).length = 8 := by rw [List.length_reverse, List.length_drop, hl]
  have ht : (s.drop 8).take 8 = s.drop 8 := List.take_of_length_le (by rw [List.length_drop, hl])
  rw [hexWords, ht, parseHex_eq, parseHex_eq, e, Nat.ofDigits_append, h8]
  generalize Nat.ofDigits 16 (s.drop 8).reverse = lo at hlow ⊢
  generalize Nat.ofDigits 16 (s.take 8).reverse = hi
  norm_num at hlow ⊢
  omega

theorem fnv_fold (K : UInt64) (cs : List ℕ) (hc : ∀ c ∈ cs, c < 2 ^ 16) : ∀ h : UInt64,
    cs.foldl (fun hash c => (hash ^^^ c) * K.toNat % 2 ^ 64) h.toNat =
      (cs.foldl (fun h c => (h ^^^ UInt64.ofNat c) * K) h).toNat := by
  induction cs with
  | nil => intro h; rfl
  | cons c cs ih =>
    intro h
    rw [List.foldl_cons, List.foldl_cons, ← ih (fun x hx => hc x (List.mem_cons_of_mem _ hx))]
    have := hc c List.mem_cons_self
    rw [UInt64.toNat_mul, UInt64.toNat_xor, UInt64.toNat_ofNat', Nat.mod_eq_of_lt (by omega : c < 2 ^ 64)]

/-- C111.  The two words passed for a name are the halves of its FNV-1a hash. -/
theorem fnvHash_eq {k : List ℕ} (hc : ∀ c ∈ k, c < 2 ^ 16) :
    hexWords (fnvHash k) = ((fnv1a k).toNat / 2 ^ 32, (fnv1a k).toNat % 2 ^ 32) := by
  have e : k.foldl (fun hash c => (hash ^^^ c) * 0x100000001B3 % 2 ^ 64) 0xCBF29CE484222325 = (fnv1a k).toNat :=
    fnv_fold 0x100000001B3 k hc 0xCBF29CE484222325
  rw [fnvHash]
  simp only [e]
  have hlt : (fnv1a k).toNat < 16 ^ 16 := lt_of_lt_of_eq (UInt64.toNat_lt _) (by norm_num)
  obtain ⟨h1, h2, h3⟩ := toHex_spec (n := (fnv1a k).toNat)
  have h4 := h3 16 (by norm_num) hlt
  rw [hexWords_eq (by rw [List.length_append, List.length_replicate]; omega), List.reverse_append, List.reverse_replicate,
    ofDigits_zeros, h1]
  intro d hd
  rcases List.mem_append.1 hd with hd | hd
  · rw [(List.mem_replicate.1 hd).2]; norm_num
  · exact h2 d hd

/-! ### Shared memory -/

theorem limbs_length (C : Circuit σ) (s : σ) : (limbs C s).length = C.n32 := by
  rw [limbs, List.length_map, List.length_range]

theorem limbs_get (C : Circuit σ) (s : σ) {j : ℕ} (h : j < C.n32) : (limbs C s)[j]? = some (u32 (C.read j s)) := by
  rw [limbs, List.getElem?_map, List.getElem?_range h]; rfl

theorem u32_lt (x : ℤ) : u32 x < 2 ^ 32 := by rw [u32]; omega

theorem limbs_lt (C : Circuit σ) (s : σ) : ∀ l ∈ limbs C s, l < 2 ^ 32 := fun l hl => by
  rw [limbs, List.mem_map] at hl
  obtain ⟨j, -, rfl⟩ := hl
  exact u32_lt _

theorem value_lt (C : Circuit σ) (s : σ) : value C s < 2 ^ (32 * C.n32) := by
  have := Nat.ofDigits_lt_base_pow_length (b := 2 ^ 32) (by norm_num) (limbs_lt C s)
  rwa [limbs_length, ← pow_mul] at this

theorem readValue_eq (C : Circuit σ) (s : σ) : readValue C s = value C s := by
  rw [readValue, value, fromArray32_eq]
  congr 1
  refine List.ext_getElem? fun j => ?_
  rcases Nat.lt_or_ge j C.n32 with h | h
  · rw [limbs_get C s h, List.getElem?_reverse (by rw [List.length_map, List.length_range]; exact h), List.length_map,
      List.length_range, List.getElem?_map, List.getElem?_range (by omega)]
    show some (u32 (C.read (C.n32 - 1 - (C.n32 - 1 - j)) s)) = _
    rw [show C.n32 - 1 - (C.n32 - 1 - j) = j by omega]
  · rw [List.getElem?_eq_none (by rw [List.length_reverse, List.length_map, List.length_range]; exact h),
      List.getElem?_eq_none (by rw [limbs_length]; exact h)]

variable {C : Circuit σ} {p : ℕ} {accept : List Entry → Entry → Prop} {wit : List Entry → List ℕ} {inputs : σ → List Entry}

/-- Writing all limbs. -/
theorem writes_spec (R : Runs C p accept wit inputs) (f : ℕ → ℕ) (hf : ∀ j, f j < 2 ^ 32) (n : ℕ) (hn : n ≤ C.n32) (s : σ) :
    inputs ((List.range n).foldl (fun s j => C.write j (f j) s) s) = inputs s ∧
    ∀ j < C.n32, u32 (C.read j ((List.range n).foldl (fun s j => C.write j (f j) s) s)) =
      if j < n then f j else u32 (C.read j s) := by
  induction n with
  | zero => exact ⟨rfl, fun j _ => rfl⟩
  | succ n ih =>
    obtain ⟨i1, i2⟩ := ih (by omega)
    rw [List.range_succ, List.foldl_append]
    refine ⟨by rw [List.foldl_cons, List.foldl_nil, R.write_inputs, i1], fun j hj => ?_⟩
    rw [List.foldl_cons, List.foldl_nil, R.write_read (by omega) hj (hf n)]
    split
    · rename_i h; subst h; rw [if_pos (by omega)]
    · rw [i2 j hj]
      split
      · rw [if_pos (by omega)]
      · rw [if_neg (by omega)]

theorem writeValue_spec (R : Runs C p accept wit inputs) (v : ℤ) (s : σ) :
    inputs (writeValue C p v s) = inputs s ∧ value C (writeValue C p v s) = (v % (p : ℤ)).toNat := by
  obtain ⟨n1, n2⟩ := normalize_eq v R.p_pos
  obtain ⟨a1, a2, a3⟩ := array32_roundtrip (normalize v p) C.n32
  have a3 := a3 (lt_trans n2 R.p_lt)
  obtain ⟨w1, w2⟩ := writes_spec R (fun j => (toArray32 (normalize v p) C.n32).getD (C.n32 - 1 - j) 0)
    (fun j => by
      rw [List.getD_eq_getElem?_getD]
      rcases Nat.lt_or_ge (C.n32 - 1 - j) (toArray32 (normalize v p) C.n32).length with h | h
      · rw [List.getElem?_eq_getElem h]; exact a2 _ (List.getElem_mem h)
      · rw [List.getElem?_eq_none h]; norm_num) C.n32 (le_refl _) s
  refine ⟨w1, ?_⟩
  rw [← n1, ← a1, fromArray32_eq, value]
  congr 1
  refine List.ext_getElem? fun j => ?_
  rcases Nat.lt_or_ge j C.n32 with h | h
  · rw [limbs_get C _ h, List.getElem?_reverse (by rw [a3]; exact h), a3]
    refine (congrArg some ((w2 j h).trans (if_pos h))).trans ?_
    rw [List.getD_eq_getElem?_getD, List.getElem?_eq_getElem (by rw [a3]; omega)]
    rfl
  · rw [List.getElem?_eq_none (by rw [limbs_length]; exact h),
      List.getElem?_eq_none (by rw [List.length_reverse, a3]; exact h)]

/-! ### Inputs -/

/-- The entries of one signal from index `i` on. -/
def entriesFrom (p h i : ℕ) (vs : List ℤ) : List Entry := vs.mapIdx fun j v => ⟨h, i + j, (v % (p : ℤ)).toNat⟩

theorem entriesFrom_cons (p h i : ℕ) (v : ℤ) (vs : List ℤ) :
    entriesFrom p h i (v :: vs) = ⟨h, i, (v % (p : ℤ)).toNat⟩ :: entriesFrom p h (i + 1) vs := by
  rw [entriesFrom, List.mapIdx_cons, entriesFrom]
  simp only [Nat.add_zero]
  congr 2
  funext j v
  rw [show i + (j + 1) = i + 1 + j by omega]

theorem acceptsAll_append (accept : List Entry → Entry → Prop) (xs ys : List Entry) : ∀ log,
    AcceptsAll accept log (xs ++ ys) ↔ AcceptsAll accept log xs ∧ AcceptsAll accept (log ++ xs) ys := by
  induction xs with
  | nil => intro log; simp [AcceptsAll]
  | cons x xs ih => intro log; rw [List.cons_append, AcceptsAll, AcceptsAll, ih, and_assoc]; simp

theorem setValues_spec (R : Runs C p accept wit inputs) (hM hL : ℕ) (vs : List ℤ) : ∀ (i : ℕ) (s : σ),
    (AcceptsAll accept (inputs s) (entriesFrom p (hM * 2 ^ 32 + hL) i vs) → ∃ s', setValues C p hM hL i vs s = .ok s' ∧
      inputs s' = inputs s ++ entriesFrom p (hM * 2 ^ 32 + hL) i vs) ∧
    (¬ AcceptsAll accept (inputs s) (entriesFrom p (hM * 2 ^ 32 + hL) i vs) → setValues C p hM hL i vs s = .error .rejected) := by
  induction vs with
  | nil => intro i s; exact ⟨fun _ => ⟨s, rfl, by simp [entriesFrom]⟩, fun h => absurd trivial h⟩
  | cons v vs ih =>
    intro i s
    obtain ⟨w1, w2⟩ := writeValue_spec R v s
    rw [entriesFrom_cons, AcceptsAll, setValues]
    by_cases ha : accept (inputs s) ⟨hM * 2 ^ 32 + hL, i, (v % (p : ℤ)).toNat⟩
    · rw [← w1, ← w2] at ha
      obtain ⟨s', e, hi⟩ := R.set_ok ha
      rw [e]
      rw [w1, w2] at hi ha
      obtain ⟨i1, i2⟩ := ih (i + 1) s'
      rw [hi] at i1 i2
      constructor
      · rintro ⟨-, h⟩
        obtain ⟨s'', e', h'⟩ := i1 h
        exact ⟨s'', e', by rw [h', List.append_assoc]; rfl⟩
      · intro h
        exact i2 fun h' => h ⟨ha, h'⟩
    · refine ⟨fun h => absurd h.1 ha, fun _ => ?_⟩
      rw [← w1, ← w2] at ha
      rw [R.set_no ha]

/-- The first problem with an input: what `_doCalculateWitness` throws. -/
theorem setKeys_spec (R : Runs C p accept wit inputs) (input : List (List ℕ × Nested)) (hc : ∀ ka ∈ input, ∀ c ∈ ka.1, c < 2 ^ 16) :
    ∀ (n : ℕ) (s : σ),
    ((∀ ka ∈ input, C.sizeOf ((fnv1a ka.1).toNat / 2 ^ 32) ((fnv1a ka.1).toNat % 2 ^ 32) = (leaves ka.2).length) ∧
        AcceptsAll accept (inputs s) (allEntries p input) → ∃ s', setKeys C p input n s = .ok (n + (allEntries p input).length, s') ∧
      inputs s' = inputs s ++ allEntries p input) ∧
    (¬ ((∀ ka ∈ input, C.sizeOf ((fnv1a ka.1).toNat / 2 ^ 32) ((fnv1a ka.1).toNat % 2 ^ 32) = (leaves ka.2).length) ∧
        AcceptsAll accept (inputs s) (allEntries p input)) → ∃ e, setKeys C p input n s = .error e) := by
  induction input with
  | nil =>
    intro n s
    exact ⟨fun _ => ⟨s, rfl, by simp [allEntries]⟩, fun h => absurd ⟨(fun _ h => nomatch h), trivial⟩ h⟩
  | cons ka ks ih =>
    intro n s
    obtain ⟨k, a⟩ := ka
    have hk := fnvHash_eq (hc (k, a) List.mem_cons_self)
    obtain ⟨H, hH⟩ : ∃ H, H = (fnv1a k).toNat := ⟨_, rfl⟩
    have he : allEntries p ((k, a) :: ks) = entriesFrom p H 0 (leaves a) ++ allEntries p ks := by
      rw [allEntries, List.flatMap_cons, entries, entriesFrom, hH]
      simp only [Nat.zero_add]
      rfl
    have hdm : H / 2 ^ 32 * 2 ^ 32 + H % 2 ^ 32 = H := by omega
    have hlen : (entriesFrom p H 0 (leaves a)).length = (leaves a).length := by rw [entriesFrom, List.length_mapIdx]
    rw [he, setKeys, acceptsAll_append, List.forall_mem_cons]
    simp only [hk, flatArray_eq, ← hH]
    obtain ⟨v1, v2⟩ := setValues_spec R (H / 2 ^ 32) (H % 2 ^ 32) (leaves a) 0 s
    rw [hdm] at v1 v2
    by_cases hsz : C.sizeOf (H / 2 ^ 32) (H % 2 ^ 32) = (leaves a).length
    · rw [hsz, if_neg (by omega), if_neg (by omega), if_neg (by omega)]
      by_cases hacc : AcceptsAll accept (inputs s) (entriesFrom p H 0 (leaves a))
      · obtain ⟨s', e, hi⟩ := v1 hacc
        rw [e]
        simp only
        obtain ⟨i1, i2⟩ := ih (fun x hx => hc x (List.mem_cons_of_mem _ hx)) (n + (leaves a).length) s'
        rw [hi] at i1 i2
        constructor
        · rintro ⟨⟨-, h1⟩, -, h2⟩
          obtain ⟨s'', e', h'⟩ := i1 ⟨h1, h2⟩
          refine ⟨s'', ?_, by rw [h', List.append_assoc]⟩
          rw [e', List.length_append, hlen, Nat.add_assoc]
        · intro h
          exact i2 fun h' => h ⟨⟨by first | trivial | rfl, h'.1⟩, hacc, h'.2⟩
      · rw [v2 hacc]
        exact ⟨fun h => absurd h.2.1 hacc, fun _ => ⟨_, rfl⟩⟩
    · refine ⟨fun h => absurd h.1.1 hsz, fun _ => ?_⟩
      split
      · exact ⟨_, rfl⟩
      split
      · exact ⟨_, rfl⟩
      split
      · exact ⟨_, rfl⟩
      · omega

/-- C111.  The circuit receives every value of the input, under the hash of its name and with its index, modulo the prime;
and the calculator throws exactly when the input does not fit the circuit. -/
theorem inputs_set (R : Runs C p accept wit inputs) {input : List (List ℕ × Nested)} (hc : ∀ ka ∈ input, ∀ c ∈ ka.1, c < 2 ^ 16)
    (b : Bool) (s : σ) :
    (Fits C p accept input → ∃ s', doCalculate C p b input s = .ok s' ∧ inputs s' = allEntries p input) ∧
    (¬ Fits C p accept input → ∃ e, doCalculate C p b input s = .error e) := by
  obtain ⟨k1, k2⟩ := setKeys_spec R input hc 0 (C.init b s)
  rw [R.init] at k1 k2
  rw [doCalculate]
  constructor
  · rintro ⟨h1, h2, h3⟩
    obtain ⟨s', e, hi⟩ := k1 ⟨h1, h2⟩
    rw [e]
    simp only
    rw [if_neg (by omega)]
    exact ⟨s', rfl, by rw [hi, List.nil_append]⟩
  · intro h
    by_cases hk : (∀ ka ∈ input, C.sizeOf ((fnv1a ka.1).toNat / 2 ^ 32) ((fnv1a ka.1).toNat % 2 ^ 32) = (leaves ka.2).length) ∧
        AcceptsAll accept [] (allEntries p input)
    · obtain ⟨s', e, hi⟩ := k1 hk
      rw [e]
      simp only
      rw [if_pos (by by_contra hh; exact h ⟨hk.1, hk.2, by omega⟩)]
      exact ⟨_, rfl⟩
    · obtain ⟨e, he⟩ := k2 hk
      rw [he]
      exact ⟨e, rfl⟩

/-! ### Outputs -/

theorem collect_spec (R : Runs C p accept wit inputs) {α : Type} (f : σ → α) (g : ℕ → α)
    (hf : ∀ s, f s = g (value C s)) (is : List ℕ) (his : ∀ i ∈ is, i < C.witnessSize) : ∀ s,
    collect C f is s = is.map fun i => g ((wit (inputs s)).getD i 0) := by
  induction is with
  | nil => intro s; rfl
  | cons i is ih =>
    intro s
    obtain ⟨h1, h2⟩ := R.witness (s := s) (his i List.mem_cons_self)
    rw [collect, ih (fun j hj => his j (List.mem_cons_of_mem _ hj)), h1, List.map_cons, hf, List.getD_eq_getElem?_getD, h2]
    rfl

theorem collect_all (R : Runs C p accept wit inputs) {α : Type} (f : σ → α) (g : ℕ → α)
    (hf : ∀ s, f s = g (value C s)) (s : σ) : collect C f (List.range C.witnessSize) s = (wit (inputs s)).map g := by
  rw [collect_spec R f g hf _ (fun i hi => List.mem_range.1 hi)]
  refine List.ext_getElem? fun j => ?_
  rw [List.getElem?_map, List.getElem?_map]
  rcases Nat.lt_or_ge j C.witnessSize with h | h
  · have h' : j < (wit (inputs s)).length := by rw [R.wit_length]; exact h
    rw [List.getElem?_range h, List.getElem?_eq_getElem h', Option.map_some, Option.map_some, List.getD_eq_getElem?_getD,
      List.getElem?_eq_getElem h']
    rfl
  · rw [List.getElem?_eq_none (by rw [List.length_range]; exact h),
      List.getElem?_eq_none (by rw [R.wit_length]; exact h)]
    rfl

/-- Words are the bytes of the number. -/
theorem bytesOf_digits : ∀ (l : List ℕ), (∀ x ∈ l, x < 2 ^ 32) → bytesOf l = leBytes (4 * l.length) (Nat.ofDigits (2 ^ 32) l)
  | [], _ => rfl
  | x :: xs, h => by
    have hx := h x List.mem_cons_self
    have ih := bytesOf_digits xs fun y hy => h y (List.mem_cons_of_mem _ hy)
    rw [bytesOf, List.flatMap_cons, List.length_cons, Nat.ofDigits_cons, show 4 * (xs.length + 1) = 4 * xs.length + 1 + 1 + 1 + 1 by omega]
    rw [bytesOf] at ih
    rw [ih]
    simp only [leBytes, List.cons_append, List.nil_append, Nat.cast_id]
    generalize Nat.ofDigits (2 ^ 32) xs = y
    have e4 : (x + 2 ^ 32 * y) / 256 / 256 / 256 / 256 = y := by omega
    rw [e4]
    have aux : ∀ a b : ℕ, a % 256 = b % 256 → UInt8.ofNat a = UInt8.ofNat b := fun a b h => by
      apply UInt8.toNat_inj.1
      rw [UInt8.toNat_ofNat', UInt8.toNat_ofNat']
      exact h
    refine List.cons_eq_cons.2 ⟨aux _ _ (by omega), List.cons_eq_cons.2 ⟨aux _ _ (by omega), List.cons_eq_cons.2 ⟨aux _ _ (by omega),
      List.cons_eq_cons.2 ⟨aux _ _ (by omega), rfl⟩⟩⟩⟩

theorem bytesOf_append (a b : List ℕ) : bytesOf (a ++ b) = bytesOf a ++ bytesOf b := List.flatMap_append

theorem bytesOf_flatten (l : List (List ℕ)) : bytesOf l.flatten = (l.map bytesOf).flatten := by
  induction l with
  | nil => rfl
  | cons a l ih => rw [List.flatten_cons, bytesOf_append, ih, List.map_cons, List.flatten_cons]

theorem bytesOf_limbs (C : Circuit σ) (s : σ) : bytesOf (limbs C s) = leBytes (4 * C.n32) (value C s) := by
  rw [bytesOf_digits _ (limbs_lt C s), limbs_length, value]

theorem bytesOf_collect (R : Runs C p accept wit inputs) (s : σ) :
    bytesOf (collect C (limbs C) (List.range C.witnessSize) s).flatten =
      ((wit (inputs s)).map (leBytes (4 * C.n32))).flatten := by
  rw [bytesOf_flatten]
  congr 1
  have : ∀ (is : List ℕ) (s : σ), (collect C (limbs C) is s).map bytesOf = collect C (fun s => bytesOf (limbs C s)) is s := by
    intro is
    induction is with
    | nil => intro s; rfl
    | cons i is ih => intro s; rw [collect, collect, List.map_cons, ih]
  rw [this]
  exact collect_all R _ _ (bytesOf_limbs C) s

/-- C111.  `this.prime` is the circuit's prime. -/
theorem prime_eq (R : Runs C p accept wit inputs) (s : σ) : prime C s = p := by
  rw [prime, readValue_eq, (R.rawPrime s).2]

/-- C111.  The three methods return the circuit's witness for the input, as integers or as bytes, or throw when the input does
not fit. -/
theorem witness_returned (R : Runs C p accept wit inputs) {input : List (List ℕ × Nested)}
    (hc : ∀ ka ∈ input, ∀ c ∈ ka.1, c < 2 ^ 16) (b : Bool) (s0 s : σ) :
    (Fits C p accept input →
      calculateWitness C (prime C s0) b input s = .ok (wit (allEntries p input)) ∧
      calculateBinWitness C (prime C s0) b input s = .ok ((wit (allEntries p input)).map (leBytes (4 * C.n32))).flatten) ∧
    (¬ Fits C p accept input → ∃ e, calculateWitness C (prime C s0) b input s = .error e ∧
      calculateBinWitness C (prime C s0) b input s = .error e ∧ calculateWTNSBin C (prime C s0) b input s = .error e) := by
  rw [prime_eq R]
  obtain ⟨h1, h2⟩ := inputs_set R hc b s
  constructor
  · intro h
    obtain ⟨s', e, hi⟩ := h1 h
    rw [calculateWitness, calculateBinWitness, e]
    simp only
    rw [collect_all R (readValue C) id (readValue_eq C), bytesOf_collect R, hi, List.map_id]
    exact ⟨rfl, rfl⟩
  · intro h
    obtain ⟨e, he⟩ := h2 h
    exact ⟨e, by rw [calculateWitness, he], by rw [calculateBinWitness, he], by rw [calculateWTNSBin, he]⟩

/-- A length below `2^32` is written correctly. -/
theorem hexWords_small {n : ℕ} (h : n < 2 ^ 32) : hexWords (toHex n) = (n, 0) := by
  obtain ⟨h1, -, h3⟩ := toHex_spec (n := n)
  have h4 := h3 8 (by norm_num) (lt_of_lt_of_eq h (by norm_num))
  rw [hexWords, List.take_of_length_le h4, parseHex_eq, h1, List.drop_eq_nil_of_le h4]
  rfl

/-- C111.  The file of `calculateWTNSBin` is the witness file of the format, for circuits over 256-bit fields whose witness takes
less than 4 GB. -/
theorem wtnsBin_format (R : Runs C p accept wit inputs) {input : List (List ℕ × Nested)}
    (hc : ∀ ka ∈ input, ∀ c ∈ ka.1, c < 2 ^ 16) (b : Bool) (s0 s : σ) (h8 : C.n32 = 8) (hw : C.witnessSize < 2 ^ 27)
    (hfit : Fits C p accept input) :
    calculateWTNSBin C (prime C s0) b input s = .ok (encWtns 2 (leBytes 32 p) (32 * (wit (allEntries p input)).length)
      (wit (allEntries p input))) := by
  rw [prime_eq R]
  obtain ⟨s', e, hi⟩ := (inputs_set R hc b s).1 hfit
  rw [calculateWTNSBin, e]
  simp only [h8]
  rw [hexWords_small (by omega : 8 + 8 * 4 < 2 ^ 32), hexWords_small (by omega : 8 * 4 * C.witnessSize < 2 ^ 32)]
  obtain ⟨r1, r2⟩ := R.rawPrime s'
  rw [bytesOf_append, bytesOf_append, bytesOf_append, bytesOf_limbs, bytesOf_collect R, r1, r2, hi, h8, encWtns, R.wit_length]
  have ef : encField = leBytes (4 * 8) := rfl
  rw [ef]
  have e1 : bytesOf [2, 2, 1, 8 + 8 * 4, 0, 8 * 4] = leBytes 4 2 ++ (leBytes 4 2 ++ (leBytes 4 1 ++ (leBytes 8 40 ++ leBytes 4 32))) := rfl
  have e2 : bytesOf [C.witnessSize, 2, 8 * 4 * C.witnessSize, 0] =
      leBytes 4 C.witnessSize ++ (leBytes 4 2 ++ leBytes 8 (32 * C.witnessSize)) := by
    have h := bytesOf_digits [32 * C.witnessSize, 0] (by
      intro x hx
      rcases List.mem_cons.1 hx with rfl | hx
      · omega
      · rw [List.mem_singleton.1 hx]; norm_num)
    rw [show Nat.ofDigits (2 ^ 32) [32 * C.witnessSize, 0] = 32 * C.witnessSize by simp [Nat.ofDigits]] at h
    rw [show (8 * 4 * C.witnessSize) = 32 * C.witnessSize by omega]
    show leBytes 4 C.witnessSize ++ (leBytes 4 2 ++ bytesOf [32 * C.witnessSize, 0]) = _
    rw [h]
    rfl
  rw [e1, e2]
  simp only [List.append_assoc]

/-- C111.  The library's reader accepts the file and reads the circuit's witness (up to the byte order of C60). -/
theorem wtnsBin_read (R : Runs C p accept wit inputs) {input : List (List ℕ × Nested)}
    (hc : ∀ ka ∈ input, ∀ c ∈ ka.1, c < 2 ^ 16) (b : Bool) (s0 s : σ) (h8 : C.n32 = 8) (hw : C.witnessSize < 2 ^ 27)
    (hfit : Fits C p accept input) (hr : ∀ w ∈ wit (allEntries p input), Readable w) :
    ∃ file l, calculateWTNSBin C (prime C s0) b input s = .ok file ∧ loadWitness file = .ok l ∧
      l.map coreToRepr = (wit (allEntries p input)).map encField := by
  obtain ⟨l, h1, h2⟩ := wtns_read_partial (version := 2) (prime := leBytes 32 p) (rest := []) (le_refl _) (MParams.leBytes_length _ _)
    (by rw [R.wit_length]; exact hw) hr
  rw [List.append_nil] at h1
  exact ⟨_, l, wtnsBin_format R hc b s0 s h8 hw hfit, h1, h2⟩

/-- The length field is wrong from 4 GB on: a length of `2^32` is written as `2^28`. -/
theorem hexWords_large : hexWords (toHex (2 ^ 32)) = (2 ^ 28, 0) := by
  have : toHex (2 ^ 32) = [1, 0, 0, 0, 0, 0, 0, 0, 0] := by
    rw [toHex, if_neg (by norm_num), toHexGo_eq]
    norm_num
  rw [this]
  rfl

theorem bad_header {W : ℕ} (hw : W = 2 ^ 27) {ls ws : List ℕ} (h8 : ls.length = 8) {n : ℕ}
    (h60 : At ([119, 116, 110, 115] ++ bytesOf ([2, 2, 1, 8 + 8 * 4, 0, 8 * 4] ++ ls ++ [W, 2, 2 ^ 28, 0] ++ ws)) 60 (leBytes 4 n))
    (h68 : At ([119, 116, 110, 115] ++ bytesOf ([2, 2, 1, 8 + 8 * 4, 0, 8 * 4] ++ ls ++ [W, 2, 2 ^ 28, 0] ++ ws)) 68
      (leBytes 8 (n * 32 % 2 ^ 32))) : False := by
  have hlen : ∀ l : List ℕ, (bytesOf l).length = 4 * l.length := fun l => by
    induction l with
    | nil => rfl
    | cons x l ih => rw [bytesOf, List.flatMap_cons, List.length_append, MParams.leBytes_length, List.length_cons]; rw [bytesOf] at ih; omega
  have hpre : ([119, 116, 110, 115] ++ bytesOf [2, 2, 1, 8 + 8 * 4, 0, 8 * 4] ++ bytesOf ls).length = 60 := by
    rw [List.length_append, List.length_append, hlen, hlen, h8]; rfl
  have e28 : bytesOf [W, 2, 2 ^ 28, 0] = leBytes 4 W ++ (leBytes 4 2 ++ leBytes 8 (2 ^ 28)) := rfl
  rw [bytesOf_append, bytesOf_append, bytesOf_append, e28] at h60 h68
  simp only [← List.append_assoc] at h60 h68
  generalize ([119, 116, 110, 115] ++ bytesOf [2, 2, 1, 8 + 8 * 4, 0, 8 * 4] ++ bytesOf ls) = pre at hpre h60 h68
  simp only [List.append_assoc] at h60 h68
  have d60 : (pre ++ (leBytes 4 W ++ (leBytes 4 2 ++ (leBytes 8 (2 ^ 28) ++ bytesOf ws)))).drop 60 =
      leBytes 4 W ++ (leBytes 4 2 ++ (leBytes 8 (2 ^ 28) ++ bytesOf ws)) := List.drop_left' hpre
  have h60' := h60.2
  rw [MParams.leBytes_length, d60, List.take_left' (MParams.leBytes_length _ _)] at h60'
  have h68' := h68.2
  rw [MParams.leBytes_length, show 68 = 60 + 8 by rfl, ← List.drop_drop, d60, ← List.append_assoc,
    List.drop_left' (by rw [List.length_append, MParams.leBytes_length, MParams.leBytes_length]),
    List.take_left' (MParams.leBytes_length _ _)] at h68'
  have e1 := congrArg leNat h60'
  have e2 := congrArg leNat h68'
  rw [MParams.leNat_leBytes, MParams.leNat_leBytes] at e1 e2
  norm_num at e1 e2
  omega

/-- C111 fails from 4 GB on: the file for a witness of `2^27` values is refused by the reader. -/
theorem wtnsBin_large (R : Runs C p accept wit inputs) {input : List (List ℕ × Nested)}
    (hc : ∀ ka ∈ input, ∀ c ∈ ka.1, c < 2 ^ 16) (b : Bool) (s0 s : σ) (h8 : C.n32 = 8) (hw : C.witnessSize = 2 ^ 27)
    (hfit : Fits C p accept input) :
    ∃ file, calculateWTNSBin C (prime C s0) b input s = .ok file ∧ ∀ l, loadWitness file ≠ .ok l := by
  rw [prime_eq R]
  obtain ⟨s', e, hi⟩ := (inputs_set R hc b s).1 hfit
  rw [calculateWTNSBin, e]
  simp only [h8]
  rw [show 8 * 4 * C.witnessSize = 2 ^ 32 by omega, hexWords_large, hexWords_small (by omega : 8 + 8 * 4 < 2 ^ 32)]
  refine ⟨_, rfl, fun l hl => ?_⟩
  obtain ⟨-, -, -, -, -, -, h60, -, h68⟩ := wtns_accepted_header hl
  clear hl
  generalize (collect C (limbs C) (List.range C.witnessSize) (C.rawPrime s')).flatten = ws at h60 h68
  generalize C.witnessSize = W at hw h60 h68
  exact bad_header hw (by rw [limbs_length, h8]) h60 h68

/-! ### Overlapping calls -/

/-- `_doCalculateWitness` runs to its end when a method is called, but the method goes on only later, after an `await`; in
between other calls may start or go on.  `start` and `finish` are these two parts. -/
inductive Step where
  | start (input : List (List ℕ × Nested))
  | finish

/-- The results of `calculateWitness`, in the order in which the calls go on; `none`: an input was refused. -/
def sched (C : Circuit σ) (p : ℕ) (b : Bool) : List Step → σ → Option (List (List ℕ))
  | [], _ => some []
  | .start x :: r, s => match doCalculate C p b x s with
    | .error _ => none
    | .ok s' => sched C p b r s'
  | .finish :: r, s => (sched C p b r ((List.range C.witnessSize).foldl (fun s i => C.witness i s) s)).map
      (collect C (readValue C) (List.range C.witnessSize) s :: ·)

/-- The witness of the input started last. -/
def lastStarted (p : ℕ) (wit : List Entry → List ℕ) : List (List ℕ × Nested) → List Step → List (List ℕ)
  | _, [] => []
  | _, .start x :: r => lastStarted p wit x r
  | cur, .finish :: r => wit (allEntries p cur) :: lastStarted p wit cur r

theorem inputs_foldl (R : Runs C p accept wit inputs) (is : List ℕ) (his : ∀ i ∈ is, i < C.witnessSize) : ∀ s,
    inputs (is.foldl (fun s i => C.witness i s) s) = inputs s := by
  induction is with
  | nil => intro s; rfl
  | cons i is ih =>
    intro s
    rw [List.foldl_cons, ih (fun j hj => his j (List.mem_cons_of_mem _ hj)), (R.witness (his i List.mem_cons_self)).1]

theorem sched_from (R : Runs C p accept wit inputs) (b : Bool) (steps : List Step)
    (hs : ∀ x, Step.start x ∈ steps → Fits C p accept x ∧ ∀ ka ∈ x, ∀ c ∈ ka.1, c < 2 ^ 16) :
    ∀ (cur : List (List ℕ × Nested)) (s : σ), inputs s = allEntries p cur →
      sched C p b steps s = some (lastStarted p wit cur steps) := by
  induction steps with
  | nil => intro cur s _; rfl
  | cons st r ih =>
    intro cur s h
    have ih := ih fun x hx => hs x (List.mem_cons_of_mem _ hx)
    cases st with
    | start x =>
      obtain ⟨hf, hc⟩ := hs x List.mem_cons_self
      obtain ⟨s', e, hi⟩ := (inputs_set R hc b s).1 hf
      rw [sched, e, lastStarted]
      exact ih x s' hi
    | finish =>
      rw [sched, lastStarted, ih cur _ (by rw [inputs_foldl R _ fun i hi => List.mem_range.1 hi]; exact h),
        collect_all R (readValue C) id (readValue_eq C), h, List.map_id]
      rfl

/-- C112 (exactly).  Under every schedule a call returns the witness of the input that was started last. -/
theorem overlapping_calls (R : Runs C p accept wit inputs) (b : Bool) (x : List (List ℕ × Nested)) (steps : List Step)
    (hs : ∀ y, Step.start y ∈ Step.start x :: steps → Fits C p accept y ∧ ∀ ka ∈ y, ∀ c ∈ ka.1, c < 2 ^ 16) (s : σ) :
    sched C p b (.start x :: steps) s = some (lastStarted p wit x steps) := by
  obtain ⟨hf, hc⟩ := hs x List.mem_cons_self
  obtain ⟨s', e, hi⟩ := (inputs_set R hc b s).1 hf
  rw [sched, e]
  exact sched_from R b steps (fun y hy => hs y (List.mem_cons_of_mem _ hy)) x s' hi

/-- C112 (what holds).  Calls that are awaited one after the other, on the same calculator, return the witnesses of their
inputs.  Missing: overlapping calls, for which it is false (`overlapping_wrong`). -/
theorem sequential_calls_partial (R : Runs C p accept wit inputs) (b : Bool) (xs : List (List (List ℕ × Nested)))
    (hs : ∀ y ∈ xs, Fits C p accept y ∧ ∀ ka ∈ y, ∀ c ∈ ka.1, c < 2 ^ 16) (s : σ) :
    sched C p b (xs.flatMap fun x => [.start x, .finish]) s = some (xs.map fun x => wit (allEntries p x)) := by
  have key : ∀ (xs : List (List (List ℕ × Nested))) (cur : List (List ℕ × Nested)),
      lastStarted p wit cur (xs.flatMap fun x => [.start x, .finish]) = xs.map fun x => wit (allEntries p x) := by
    intro xs
    induction xs with
    | nil => intro cur; rfl
    | cons x xs ih =>
      intro cur
      rw [List.flatMap_cons, List.map_cons]
      exact congrArg (wit (allEntries p x) :: ·) (ih x)
  cases xs with
  | nil => rfl
  | cons x xs =>
    rw [List.flatMap_cons]
    show sched C p b (.start x :: (.finish :: xs.flatMap fun x => [.start x, .finish])) s = _
    rw [overlapping_calls R b x _ (fun y hy => hs y ?_), lastStarted, key]
    · rfl
    · rcases List.mem_cons.1 hy with hy | hy
      · cases hy; exact List.mem_cons_self
      · rcases List.mem_cons.1 hy with hy | hy
        · cases hy
        · obtain ⟨z, hz, hy⟩ := List.mem_flatMap.1 hy
          rcases List.mem_cons.1 hy with hy | hy
          · cases hy; exact List.mem_cons_of_mem _ hz
          · cases List.mem_singleton.1 hy

/-- C112 (what fails).  When two calls are started together, as with `Promise.all`, the first returns the witness of the
second's input. -/
theorem overlapping_wrong (R : Runs C p accept wit inputs) (b : Bool) {x y : List (List ℕ × Nested)}
    (hx : Fits C p accept x ∧ ∀ ka ∈ x, ∀ c ∈ ka.1, c < 2 ^ 16) (hy : Fits C p accept y ∧ ∀ ka ∈ y, ∀ c ∈ ka.1, c < 2 ^ 16) (s : σ) :
    sched C p b [.start x, .start y, .finish, .finish] s = some [wit (allEntries p y), wit (allEntries p y)] :=
  overlapping_calls R b x _ (fun z hz => by
    rcases List.mem_cons.1 hz with hz | hz
    · cases hz; exact hx
    rcases List.mem_cons.1 hz with hz | hz
    · cases hz; exact hy
    · simp at hz) s

/-! ### A circuit -/

/-- State of the example: the shared memory and the inputs set. -/
structure ExState where
  mem : ℕ → ℕ
  log : List Entry

/-- The hash of the name `a`. -/
def exName : ℕ := (fnv1a [97]).toNat

/-- The circuit that multiplies its two inputs `a[0]` and `a[1]`; witness: 1, product, inputs. -/
def exWit (p : ℕ) (log : List Entry) : List ℕ :=
  let x (i : ℕ) := (((log.find? fun e => e.index == i).map Entry.value).getD 0) % p
  [1, x 0 * x 1 % p, x 0, x 1]

def ExAccepts (log : List Entry) (e : Entry) : Prop := e.name = exName ∧ e.index < 2 ∧ ∀ e' ∈ log, e'.index ≠ e.index

instance (log : List Entry) (e : Entry) : Decidable (ExAccepts log e) := by unfold ExAccepts; infer_instance

def exMem (x : ℕ) (j : ℕ) : ℕ := x / 2 ^ (32 * j) % 2 ^ 32

def exCircuit (p : ℕ) : Circuit ExState where
  n32 := 8
  witnessSize := 4
  inputSize := 2
  init _ s := { s with log := [] }
  sizeOf hM hL := if hM * 2 ^ 32 + hL = exName then 2 else -1
  write i v s := { s with mem := fun j => if j = i then v else s.mem j }
  read j s := s.mem j
  set hM hL i s :=
    let e : Entry := ⟨hM * 2 ^ 32 + hL, i, Nat.ofDigits (2 ^ 32) ((List.range 8).map fun j => u32 (s.mem j))⟩
    if ExAccepts s.log e then some { s with log := s.log ++ [e] } else none
  rawPrime s := { s with mem := exMem p }
  witness i s := { s with mem := exMem ((exWit p s.log).getD i 0) }

theorem exMem_value (x n : ℕ) : Nat.ofDigits (2 ^ 32) ((List.range n).map fun j => u32 (exMem x j : ℤ)) = x % 2 ^ (32 * n) := by
  induction n with
  | zero => simp [Nat.mod_one]
  | succ n ih =>
    rw [List.range_succ, List.map_append, Nat.ofDigits_append, ih, List.length_map, List.length_range, List.map_singleton,
      Nat.ofDigits_singleton]
    have h1 : u32 (exMem x n : ℤ) = x / 2 ^ (32 * n) % 2 ^ 32 := by
      rw [u32, exMem]
      generalize x / 2 ^ (32 * n) = y
      omega
    rw [h1, ← pow_mul, Nat.mul_add, Nat.mul_one, pow_add, Nat.mod_mul]

theorem ex_runs {p : ℕ} (h1 : 1 < p) (hp : p < 2 ^ 256) :
    Runs (exCircuit p) p ExAccepts (exWit p) ExState.log where
  p_pos := by omega
  p_lt := hp
  init _ _ := rfl
  write_read {i j v s} _ _ hv := by
    show u32 ((if j = i then v else s.mem j : ℕ) : ℤ) = _
    rcases eq_or_ne i j with rfl | h
    · rw [if_pos rfl, if_pos rfl, u32]; omega
    · rw [if_neg h.symm, if_neg h]; rfl
  write_inputs _ _ _ := rfl
  set_ok {hM hL i s} h := ⟨_, if_pos h, rfl⟩
  set_no {hM hL i s} h := if_neg h
  rawPrime s := ⟨rfl, by
    have := exMem_value p 8
    rw [Nat.mod_eq_of_lt hp] at this
    exact this⟩
  witness {i s} hi := ⟨rfl, by
    have h2 : ∀ w ∈ exWit p s.log, w < p := fun w hw => by
      simp only [exWit, List.mem_cons, List.not_mem_nil, or_false] at hw
      rcases hw with rfl | rfl | rfl | rfl
      · exact h1
      all_goals exact Nat.mod_lt _ (by omega)
    have hl : i < (exWit p s.log).length := hi
    have h3 := exMem_value ((exWit p s.log).getD i 0) 8
    have h4 : (exWit p s.log).getD i 0 < p := by
      rw [List.getD_eq_getElem?_getD, List.getElem?_eq_getElem hl]
      exact h2 _ (List.getElem_mem hl)
    rw [Nat.mod_eq_of_lt (lt_trans h4 hp)] at h3
    show _ = some (value (exCircuit p) { s with mem := exMem ((exWit p s.log).getD i 0) })
    rw [List.getElem?_eq_getElem hl]
    refine congrArg some (Eq.trans ?_ h3.symm)
    rw [List.getD_eq_getElem?_getD, List.getElem?_eq_getElem hl]
    rfl⟩
  wit_length _ := rfl

/-- The input `{a: [x, [y]]}`. -/
def exInput (x y : ℤ) : List (List ℕ × Nested) := [([97], .node [.leaf x, .node [.leaf y]])]

theorem ex_fits (p : ℕ) (x y : ℤ) : Fits (exCircuit p) p ExAccepts (exInput x y) := by
  refine ⟨?_, ?_, by simp [exInput, allEntries, entries, leaves, leavesAll, exCircuit]⟩
  · intro ka hka
    rw [List.mem_singleton.1 hka]
    have key : ∀ H, H = exName → (exCircuit p).sizeOf (H / 2 ^ 32) (H % 2 ^ 32) = 2 := fun H h => if_pos (by omega)
    exact (key _ rfl).trans (by simp [leaves, leavesAll])
  · exact ⟨⟨rfl, by show 0 < 2; omega, fun _ h => nomatch h⟩, ⟨rfl, by show 1 < 2; omega, fun e he => by
      rw [List.mem_singleton.1 he]; show 0 ≠ 1; omega⟩, trivial⟩

/-- Two overlapping calls with different inputs: the first gets 4 · 5 where 2 · 3 was asked for. -/
example : sched (exCircuit 97) 97 false [.start (exInput 2 3), .start (exInput 4 (-92)), .finish, .finish] ⟨fun _ => 0, []⟩ =
    some [[1, 20, 4, 5], [1, 20, 4, 5]] := by
  have hc : ∀ x y, ∀ ka ∈ exInput x y, ∀ c ∈ ka.1, c < 2 ^ 16 := fun x y ka hka c hcm => by
    rw [List.mem_singleton.1 hka] at hcm
    rw [List.mem_singleton.1 hcm]; norm_num
  rw [overlapping_wrong (ex_runs (by norm_num) (by norm_num)) false ⟨ex_fits _ _ _, hc _ _⟩ ⟨ex_fits _ _ _, hc _ _⟩]
  rfl

end Spartan.Wc
