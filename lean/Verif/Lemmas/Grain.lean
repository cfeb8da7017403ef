import Verif.Model.Grain
import Mathlib.Data.Nat.Bitwise
import Mathlib.Tactic.Ring

/-!
The register of `Verif.Model.Grain` as an 80-bit number, for evaluation in the kernel.
-/

namespace Spartan.Grain

/-- The number whose bit `i` is entry `i`. -/
def val : List Bool → Nat
  | [] => 0
  | b :: s => b.toNat + 2 * val s

theorem val_testBit (s : List Bool) (i : Nat) : (val s).testBit i = s.getD i false := by
  induction s generalizing i with
  | nil => simp [val]
  | cons b s ih =>
    cases i with
    | zero => cases b <;> simp [val, Nat.testBit_zero]
    | succ i =>
      rw [Nat.testBit_succ]
      have : (val (b :: s)) / 2 = val s := by cases b <;> simp [val] <;> omega
      rw [this, ih]
      simp

theorem val_append (s : List Bool) (b : Bool) : val (s ++ [b]) = val s + 2 ^ s.length * b.toNat := by
  induction s with
  | nil => simp [val]
  | cons a s ih => simp only [List.cons_append, val, ih, List.length_cons, pow_succ]; ring

theorem val_drop (s : List Bool) : val (s.drop 1) = val s / 2 := by
  cases s with
  | nil => rfl
  | cons b s => cases b <;> simp [val] <;> omega

/-- The new bit. -/
def bitN (w : Nat) : Nat := (w >>> 62 ^^^ w >>> 51 ^^^ w >>> 38 ^^^ w >>> 23 ^^^ w >>> 13 ^^^ w) % 2

/-- The register after one step. -/
def stepN (w : Nat) : Nat := w / 2 + 604462909807314587353088 * bitN w

theorem clock_val {s : List Bool} (hs : s.length = 80) :
    (clock s).1.toNat = bitN (val s) ∧ val (clock s).2 = stepN (val s) ∧ (clock s).2.length = 80 := by
  have hb : (clock s).1.toNat = bitN (val s) := by
    have h1 : (clock s).1 = (val s >>> 62 ^^^ val s >>> 51 ^^^ val s >>> 38 ^^^ val s >>> 23 ^^^ val s >>> 13 ^^^
        val s).testBit 0 := by
      simp only [clock, Nat.testBit_xor, Nat.testBit_shiftRight, val_testBit, Nat.add_zero]
    rw [h1, Nat.testBit_zero, bitN]
    rcases Nat.mod_two_eq_zero_or_one (val s >>> 62 ^^^ val s >>> 51 ^^^ val s >>> 38 ^^^ val s >>> 23 ^^^
      val s >>> 13 ^^^ val s) with h | h <;> rw [h] <;> rfl
  refine ⟨hb, ?_, ?_⟩
  · show val (s.drop 1 ++ [(clock s).1]) = _
    rw [val_append, hb, val_drop, List.length_drop, hs]
    rfl
  · show (s.drop 1 ++ [(clock s).1]).length = 80
    simp [hs]

/-- The warming-up steps on numbers. -/
def warmN : Nat → Nat → Nat
  | 0, w => w
  | n + 1, w => warmN n (stepN w)

theorem warm_val : ∀ (n : Nat) {s : List Bool}, s.length = 80 →
    val (warm n s) = warmN n (val s) ∧ (warm n s).length = 80
  | 0, _, h => ⟨rfl, h⟩
  | n + 1, s, h => by
    obtain ⟨-, h2, h3⟩ := clock_val h
    have := warm_val n h3
    rwa [h2] at this

/-- Bits `acc · 2^n + …` and the register after `n` random bits, in at most `fuel` pairs of steps. -/
def bitsN : Nat → Nat → Nat → Nat → Option (Nat × Nat)
  | 0, n, acc, w => if n = 0 then some (acc, w) else none
  | fuel + 1, n, acc, w =>
    if n = 0 then some (acc, w) else
    if bitN w = 0 then bitsN fuel n acc (stepN (stepN w))
    else bitsN fuel (n - 1) (2 * acc + bitN (stepN w)) (stepN (stepN w))


theorem bitsN_sound (F : Nat) : ∀ (fuel n acc : Nat) (s : List Bool) (v w' : Nat), s.length = 80 → fuel ≤ F →
    bitsN fuel n acc (val s) = some (v, w') →
    (n = 0 → v = acc ∧ w' = val s) ∧
    (∀ m, n = m + 1 → ∀ f, fuel ≤ f → ∃ b s1, next f s = some (b, s1) ∧
      ∃ s', randomBits F m (2 * acc + b.toNat) s1 = some (v, s') ∧ val s' = w' ∧ s'.length = 80)
  | 0, n, acc, s, v, w', hs, hF, h => by
    simp only [bitsN] at h
    split_ifs at h with h0
    cases h
    exact ⟨fun _ => ⟨rfl, rfl⟩, fun m hm => by omega⟩
  | fuel + 1, n, acc, s, v, w', hs, hF, h => by
    simp only [bitsN] at h
    obtain ⟨b1, c1, l1⟩ := clock_val hs
    obtain ⟨b2, c2, l2⟩ := clock_val l1
    split_ifs at h with h0 h1
    · cases h
      exact ⟨fun _ => ⟨rfl, rfl⟩, fun m hm => by omega⟩
    · refine ⟨fun h => absurd h h0, ?_⟩
      rintro m rfl f hf
      rw [← c1, ← c2] at h
      obtain ⟨-, ih⟩ := bitsN_sound F fuel (m + 1) acc _ v w' l2 (by omega) h
      obtain ⟨f, rfl⟩ : ∃ f', f = f' + 1 := ⟨f - 1, by omega⟩
      obtain ⟨b, s1, e, hh⟩ := ih m rfl f (by omega)
      refine ⟨b, s1, ?_, hh⟩
      have hb : (clock s).1 = false := by
        rw [← b1] at h1
        cases hc : (clock s).1 with
        | false => rfl
        | true => rw [hc] at h1; exact absurd h1 (by decide)
      show (if (clock s).1 then _ else next f (clock (clock s).2).2) = _
      rw [hb]
      exact e
    · refine ⟨fun h => absurd h h0, ?_⟩
      rintro m rfl f hf
      obtain ⟨f, rfl⟩ : ∃ f', f = f' + 1 := ⟨f - 1, by omega⟩
      have hb : (clock s).1 = true := by
        rw [← b1] at h1
        cases hc : (clock s).1 with
        | false => rw [hc] at h1; exact absurd rfl h1
        | true => rfl
      refine ⟨(clock (clock s).2).1, (clock (clock s).2).2, ?_, ?_⟩
      · show (if (clock s).1 then _ else next f (clock (clock s).2).2) = _
        rw [hb]; rfl
      · rw [← c1, ← c2, ← b2] at h
        obtain ⟨ih0, ih1⟩ := bitsN_sound F fuel (m + 1 - 1) _ _ v w' l2 (by omega) h
        cases m with
        | zero =>
          obtain ⟨rfl, rfl⟩ := ih0 rfl
          exact ⟨_, rfl, rfl, l2⟩
        | succ m =>
          obtain ⟨b, s1, e, s', e', hh⟩ := ih1 m rfl F (by omega)
          refine ⟨s', ?_, hh⟩
          show (next F (clock (clock s).2).2).bind _ = _
          rw [e]
          exact e'

/-- A successful run on numbers is a run of the script's function. -/
theorem randomBits_of_bitsN {F fuel n : Nat} {s : List Bool} {v w' : Nat} (hs : s.length = 80) (hF : fuel ≤ F)
    (h : bitsN fuel n 0 (val s) = some (v, w')) :
    ∃ s', randomBits F n 0 s = some (v, s') ∧ val s' = w' ∧ s'.length = 80 := by
  obtain ⟨h0, h1⟩ := bitsN_sound F fuel n 0 s v w' hs hF h
  cases n with
  | zero =>
    obtain ⟨rfl, rfl⟩ := h0 rfl
    exact ⟨s, rfl, rfl, hs⟩
  | succ m =>
    obtain ⟨b, s1, e, s', e', hh⟩ := h1 m rfl F hF
    refine ⟨s', ?_, hh⟩
    show (next F s).bind _ = _
    rw [e]
    exact e'

/-- Every number of the list comes out, and the register moves on as listed. -/
def chk (fuel n : Nat) : Nat → List Nat → List Nat → Bool
  | _, [], [] => true
  | w, v :: vs, w' :: ws => (bitsN fuel n 0 w == some (v, w')) && chk fuel n w' vs ws
  | _, _, _ => false

theorem constants_of_chk {p F fuel n : Nat} (hF : fuel ≤ F) (hF0 : 0 < F) : ∀ (vs ws : List Nat) (s : List Bool), s.length = 80 →
    (∀ v ∈ vs, v < p) → chk fuel n (val s) vs ws = true →
    ∃ s', constants p F n vs.length s = some (vs, s') ∧ val s' = ws.getLastD (val s) ∧ s'.length = 80
  | [], [], s, hs, _, _ => ⟨s, rfl, rfl, hs⟩
  | [], _ :: _, _, _, _, h => by simp [chk] at h
  | _ :: _, [], _, _, _, h => by simp [chk] at h
  | v :: vs, w :: ws, s, hs, hp, h => by
    simp only [chk, Bool.and_eq_true, beq_iff_eq] at h
    obtain ⟨s1, e1, rfl, l1⟩ := randomBits_of_bitsN (F := F) hs hF h.1
    obtain ⟨s2, e2, h2, l2⟩ := constants_of_chk hF hF0 vs ws s1 l1 (fun v hv => hp v (by simp [hv])) h.2
    refine ⟨s2, ?_, ?_, l2⟩
    · have e3 : constant p F n F s = some (v, s1) := by
        obtain ⟨F', hF'⟩ : ∃ F', F = F' + 1 := ⟨F - 1, by omega⟩
        have : constant p F n (F' + 1) s = some (v, s1) := by
          show (randomBits F n 0 s).bind _ = _
          rw [e1]
          show (if p ≤ v then _ else some (v, s1)) = _
          rw [if_neg (Nat.not_le.mpr (hp v (by simp)))]
        rwa [← hF'] at this
      show (constant p F n F s).bind _ = _
      rw [e3]
      show (constants p F n vs.length s1).bind _ = _
      rw [e2]
      rfl
    · rw [h2]; cases ws <;> rfl

theorem randList_of_chk {p F fuel n : Nat} (hF : fuel ≤ F) : ∀ (vs ws : List Nat) (s : List Bool), s.length = 80 →
    chk fuel n (val s) vs ws = true →
    ∃ s', randList p F n vs.length s = some (vs.map fun (v : Nat) => (v : ZMod p), s')
  | [], [], s, _, _ => ⟨s, rfl⟩
  | [], _ :: _, _, _, h => by simp [chk] at h
  | _ :: _, [], _, _, h => by simp [chk] at h
  | v :: vs, w :: ws, s, hs, h => by
    simp only [chk, Bool.and_eq_true, beq_iff_eq] at h
    obtain ⟨s1, e1, rfl, l1⟩ := randomBits_of_bitsN (F := F) hs hF h.1
    obtain ⟨s2, e2⟩ := randList_of_chk (p := p) hF vs ws s1 l1 h.2
    refine ⟨s2, ?_⟩
    show (randomBits F n 0 s).bind _ = _
    rw [e1]
    show (randList p F n vs.length s1).bind _ = _
    rw [e2]
    rfl

end Spartan.Grain
