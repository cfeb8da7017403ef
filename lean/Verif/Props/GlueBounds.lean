import Verif.Props.Glue

/-!
C109: an argument is copied to the address the module's allocator gave, or nothing is written at all.

`prove_glue`, `verify_glue` and `poseidon_glue` assume an allocator that returns blocks inside the memory.  Here the
allocator is arbitrary.
-/

namespace Spartan.Glue

variable {O : Type}

/-- The bytes of the memory after an argument was written. -/
theorem write_getElem? {mem bs : List UInt8} {p : ℕ} (h : p + bs.length ≤ mem.length) (i : ℕ) :
    (write mem p bs)[i]? = if p ≤ i ∧ i < p + bs.length then bs[i - p]? else mem[i]? := by
  have ht : (mem.take p).length = p := by rw [List.length_take]; omega
  rw [write, List.append_assoc]
  by_cases h1 : i < p
  · rw [List.getElem?_append_left (by omega), List.getElem?_take_of_lt h1, if_neg (by omega)]
  · rw [List.getElem?_append_right (by omega), ht]
    by_cases h2 : i < p + bs.length
    · rw [List.getElem?_append_left (by omega), if_pos ⟨by omega, h2⟩]
    · rw [List.getElem?_append_right (by omega), List.getElem?_drop, if_neg (by omega)]
      congr 1
      omega

/-- Whatever the allocator answers: when the block it gave is not inside the memory, the call throws a range error and
nothing is written to any memory; otherwise exactly the bytes of the block become the argument, the memory keeps its
length, and no other instance of the module is touched. -/
theorem pass_any_module (E : Exports O) (s : St O) {k : ℕ} (hc : s.cur = some k) (hv : ∀ v, s.u8 = some v → v.1 = k)
    (arg : List UInt8) {p : ℕ} {w : Wasm} (hm : E.malloc arg.length (s.insts k) = some (p, w)) :
    (w.mem.length < p % 2 ^ 32 + arg.length → (passArray8 E arg s).1 = .error .rangeErr ∧
      (passArray8 E arg s).2.insts = Function.update s.insts k w) ∧
    (p % 2 ^ 32 + arg.length ≤ w.mem.length → ∃ m : List UInt8, (passArray8 E arg s).1 = .ok (p % 2 ^ 32) ∧
      (passArray8 E arg s).2.insts = Function.update s.insts k { w with mem := m } ∧ m.length = w.mem.length ∧
      ∀ i, m[i]? = if p % 2 ^ 32 ≤ i ∧ i < p % 2 ^ 32 + arg.length then arg[i - p % 2 ^ 32]? else w.mem[i]?) := by
  have hp : toU32 (p : ℤ) = p % 2 ^ 32 := by
    rw [toU32]
    omega
  have e1 : malloc E arg.length s = (.ok (p % 2 ^ 32), { s with insts := Function.update s.insts k w }) := by
    rw [malloc, withWasm_eq hc, hm]
    simp only [hp]
  have ew : (Function.update s.insts k w) k = w := Function.update_self ..
  have e2 : ∃ c, getU8 { s with insts := Function.update s.insts k w } =
      (.ok (k, w.gen), { s with insts := Function.update s.insts k w, u8 := c }) := by
    unfold getU8
    simp only [hc, ew]
    cases hu : s.u8 with
    | none => exact ⟨_, rfl⟩
    | some v =>
      obtain ⟨a, g⟩ := v
      obtain rfl : a = k := hv _ hu
      dsimp only
      split_ifs with hb
      · exact ⟨_, rfl⟩
      · refine ⟨some (a, g), ?_⟩
        have hg : w.gen = g := by
          by_contra hne
          apply hb
          simp only [byteLength, ew]
          rw [if_neg hne]
        rw [hg]
  obtain ⟨c, e2⟩ := e2
  have hlen : byteLength { s with insts := Function.update s.insts k w, u8 := c } (k, w.gen) = w.mem.length := by
    simp only [byteLength, ew, if_true]
  generalize p % 2 ^ 32 = q at *
  have e0 : passArray8 E arg s = (do
      setBytes (k, w.gen) arg q
      act fun s => (.ok q, { s with vecLen := arg.length }) : M O ℕ)
        { s with insts := Function.update s.insts k w, u8 := c } := by
    rw [passArray8, Nat.mul_one, bind_ok e1, bind_ok e2, Nat.div_one]
  constructor
  · intro hlt
    have e3 : setBytes (k, w.gen) arg q { s with insts := Function.update s.insts k w, u8 := c } =
        (.error .rangeErr, { s with insts := Function.update s.insts k w, u8 := c }) := by
      rw [setBytes, hlen, if_pos hlt]
    rw [e0, bind_err e3]
    exact ⟨rfl, rfl⟩
  · intro hle
    have e3 : setBytes (k, w.gen) arg q { s with insts := Function.update s.insts k w, u8 := c } =
        (.ok (), { s with insts := Function.update s.insts k { w with mem := write w.mem q arg }, u8 := c }) := by
      rw [setBytes, hlen, if_neg (by omega)]
      simp only [ew, Function.update_idem]
    rw [e0, bind_ok e3, act]
    exact ⟨write w.mem q arg, rfl, rfl, write_length hle, write_getElem? hle⟩

/-- An allocator that answers with address 1 whatever is asked: in a memory of four bytes two bytes are copied there, and
four bytes are refused. -/
example (E : Exports Unit) (hE : ∀ n w, E.malloc n w = some (1, w)) (s : St Unit) (hc : s.cur = some 0)
    (hu : s.u8 = none) (hi : s.insts 0 = ⟨[9, 9, 9, 9], 0, 0, []⟩) :
    (passArray8 E [5, 6, 7, 8] s).1 = .error .rangeErr ∧
    ∃ m : List UInt8, (passArray8 E [5, 6] s).2.insts 0 = ⟨m, 0, 0, []⟩ ∧ m[0]? = some 9 ∧ m[1]? = some 5 ∧
      m[2]? = some 6 ∧ m[3]? = some 9 := by
  have hv : ∀ v, s.u8 = some v → v.1 = 0 := by rw [hu]; intro v h; cases h
  refine ⟨((pass_any_module E s hc hv [5, 6, 7, 8] (hE _ _)).1 (by rw [hi]; decide)).1, ?_⟩
  obtain ⟨m, _, h2, _, h4⟩ := (pass_any_module E s hc hv [5, 6] (hE _ _)).2 (by rw [hi]; decide)
  refine ⟨m, ?_, ?_, ?_, ?_, ?_⟩
  · rw [h2, Function.update_self, hi]
  all_goals rw [h4, hi]; rfl

end Spartan.Glue
