import Verif.Model.WitnessCalc
import Mathlib.Data.Nat.Digits.Defs

/-!
What a compiled circuit does, as seen through its exported functions, and what the witness calculator should make of it.
-/

namespace Spartan.Wc

variable {σ : Type}

/-- The 64-bit FNV-1a hash. -/
def fnv1a (cs : List ℕ) : UInt64 := cs.foldl (fun h c => (h ^^^ UInt64.ofNat c) * 0x100000001B3) 0xCBF29CE484222325

mutual
/-- The integers in a nested array, in order. -/
def leaves : Nested → List ℤ
  | .leaf n => [n]
  | .node l => leavesAll l
def leavesAll : List Nested → List ℤ
  | [] => []
  | a :: as => leaves a ++ leavesAll as
end

/-- An input value: the hash of the signal's name, the index and the value. -/
structure Entry where
  name : ℕ
  index : ℕ
  value : ℕ

/-- The inputs given under one name: the values modulo the prime. -/
def entries (p : ℕ) (ka : List ℕ × Nested) : List Entry :=
  (leaves ka.2).mapIdx fun i v => ⟨(fnv1a ka.1).toNat, i, (v % (p : ℤ)).toNat⟩

def allEntries (p : ℕ) (input : List (List ℕ × Nested)) : List Entry := input.flatMap (entries p)

/-- The circuit accepts the entries one after the other. -/
def AcceptsAll (accept : List Entry → Entry → Prop) : List Entry → List Entry → Prop
  | _, [] => True
  | log, e :: es => accept log e ∧ AcceptsAll accept (log ++ [e]) es

/-- The number in the shared memory. -/
def value (C : Circuit σ) (s : σ) : ℕ := Nat.ofDigits (2 ^ 32) (limbs C s)

/-- The compiled circuit works modulo `p`, keeps the inputs set so far (`inputs`), accepts further ones according to `accept`
and has the witness `wit`. -/
structure Runs (C : Circuit σ) (p : ℕ) (accept : List Entry → Entry → Prop) (wit : List Entry → List ℕ)
    (inputs : σ → List Entry) : Prop where
  p_pos : 0 < p
  p_lt : p < 2 ^ (32 * C.n32)
  init : ∀ b s, inputs (C.init b s) = []
  write_read : ∀ {i j v s}, i < C.n32 → j < C.n32 → v < 2 ^ 32 →
    u32 (C.read j (C.write i v s)) = if i = j then v else u32 (C.read j s)
  write_inputs : ∀ i v s, inputs (C.write i v s) = inputs s
  set_ok : ∀ {hM hL i s}, accept (inputs s) ⟨hM * 2 ^ 32 + hL, i, value C s⟩ →
    ∃ s', C.set hM hL i s = some s' ∧ inputs s' = inputs s ++ [⟨hM * 2 ^ 32 + hL, i, value C s⟩]
  set_no : ∀ {hM hL i s}, ¬ accept (inputs s) ⟨hM * 2 ^ 32 + hL, i, value C s⟩ → C.set hM hL i s = none
  rawPrime : ∀ s, inputs (C.rawPrime s) = inputs s ∧ value C (C.rawPrime s) = p
  witness : ∀ {i s}, i < C.witnessSize → inputs (C.witness i s) = inputs s ∧
    (wit (inputs s))[i]? = some (value C (C.witness i s))
  wit_length : ∀ l, (wit l).length = C.witnessSize

/-- The input fits the circuit. -/
def Fits (C : Circuit σ) (p : ℕ) (accept : List Entry → Entry → Prop) (input : List (List ℕ × Nested)) : Prop :=
  (∀ ka ∈ input, C.sizeOf ((fnv1a ka.1).toNat / 2 ^ 32) ((fnv1a ka.1).toNat % 2 ^ 32) = (leaves ka.2).length) ∧
    AcceptsAll accept [] (allEntries p input) ∧ C.inputSize ≤ (allEntries p input).length

end Spartan.Wc
