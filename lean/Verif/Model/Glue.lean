import Mathlib.Logic.Function.Basic
import Mathlib.Algebra.Order.Group.Int

/-!
`packages/lib/src/wasm/wasm.js`: the JavaScript between the TypeScript library and the WebAssembly module.

Modelled: the table of JavaScript objects that the module holds handles to (l. 3–21, 41–48), the views of the module's
memory (l. 27–34, 64–76), the exported functions `prove`, `verify` and `poseidon` (l. 83–159) and the replacement of the
module by `__wbg_finalize_init` (l. 402–410).  The module itself is a parameter (`Exports`).  Strings: `Model/GlueStr.lean`.  Not modelled: the
imported functions other than through their effect on the table, fetching and compiling.
-/

namespace Spartan.Glue

/-- JavaScript values, as far as the table distinguishes them.
The entries of `heap`, `wasm.js` l. 3–5. -/
inductive Js (O : Type) where
  | undef
  | null
  | bool (b : Bool)
  | num (n : ℕ)
  | obj (o : O)

/-- `heap` and `heap_next`, l. 3–9. -/
structure Heap (O : Type) where
  slots : List (Js O)
  next : Js O

variable {O : Type}

/-- l. 3–9. -/
def Heap.init : Heap O :=
  ⟨List.replicate 128 .undef ++ [.undef, .null, .bool true, .bool false], .num 132⟩

/-- `getObject`, l. 7; an index beyond the end reads `undefined`. -/
def Heap.get (h : Heap O) (i : ℕ) : Js O := h.slots.getD i .undef

/-- Assignment to an array element; beyond the end it extends the array.  `wasm.js` l. 13, 46. -/
def setAt (l : List (Js O)) (i : ℕ) (v : Js O) : List (Js O) :=
  if i < l.length then l.set i v else l ++ List.replicate (i - l.length) .undef ++ [v]

/-- `dropObject`, l. 11–15. -/
def Heap.drop (h : Heap O) (i : ℕ) : Heap O :=
  if i < 132 then h else ⟨setAt h.slots i h.next, .num i⟩

/-- `takeObject`, l. 17–21. -/
def Heap.take (h : Heap O) (i : ℕ) : Js O × Heap O := (h.get i, h.drop i)

/-- `addHeapObject`, l. 41–48.  `none`: `heap_next` is not a number (not modelled further). -/
def Heap.add (h : Heap O) (v : Js O) : Option (ℕ × Heap O) :=
  match h.next with
  | .num n =>
    let slots := if n = h.slots.length then h.slots ++ [.num (h.slots.length + 1)] else h.slots
    some (n, ⟨setAt slots n v, slots.getD n .undef⟩)
  | _ => none

/-! ### The module -/

/-- An instance of the module: its memory, the number of times the memory has grown (each growth detaches the views made
before), the stack pointer, and the allocated blocks (address and size), which only specifications look at.
`wasm`, `wasm.js` l. 1. -/
structure Wasm where
  mem : List UInt8
  gen : ℕ
  sp : ℕ
  blocks : List (ℕ × ℕ)

/-- The functions the module exports.  `malloc` returns `none` when it traps.  The others return whether they returned
(`false`: trapped), the state of the module and the table.  Used at `wasm.js` l. 83–159. -/
structure Exports (O : Type) where
  malloc : ℕ → Wasm → Option (ℕ × Wasm)
  free : ℕ → ℕ → Wasm → Wasm
  prove : (retptr p0 l0 p1 l1 p2 l2 : ℕ) → Wasm → Heap O → Bool × Wasm × Heap O
  verify : (retptr p0 l0 p1 l1 p2 l2 : ℕ) → Wasm → Heap O → Bool × Wasm × Heap O
  poseidon : (retptr p0 l0 : ℕ) → Wasm → Heap O → Bool × Wasm × Heap O

/-- The variables of the JavaScript module: `wasm` (`cur`, an index into the instances made so far), the cached views
(instance and growth count at creation), `WASM_VECTOR_LEN` and the table.
`wasm.js` l. 1–9, 27, 55, 64. -/
structure St (O : Type) where
  insts : ℕ → Wasm
  count : ℕ
  cur : Option ℕ
  u8 : Option (ℕ × ℕ)
  i32 : Option (ℕ × ℕ)
  vecLen : ℕ
  heap : Heap O

/-- What can be thrown: an object from the table, a trap of the module, or an error of JavaScript.
Thrown in `wasm.js` l. 83–159. -/
inductive Exn (O : Type) where
  | thrown (v : Js O)
  | trap
  | typeErr
  | rangeErr

/-- JavaScript computations: the state survives an exception.
Semantics of the language, for `wasm.js` l. 83–159. -/
def M (O α : Type) : Type := St O → Except (Exn O) α × St O

/-- A step given by its effect.  Semantics of the language, for `wasm.js` l. 83–159. -/
def act {α : Type} (f : St O → Except (Exn O) α × St O) : M O α := f

/-- Semantics of the language, for `wasm.js` l. 83–159. -/
instance : Monad (M O) where
  pure a := fun s => (.ok a, s)
  bind x f := fun s => match x s with
    | (.ok a, s') => f a s'
    | (.error e, s') => (.error e, s')

/-- `try … finally …`; the final block of the code does not throw unless the body did.
`wasm.js` l. 84–105. -/
def tryFinally {α : Type} (x : M O α) (fin : M O Unit) : M O α := fun s =>
  match x s with
  | (r, s') => match fin s' with
    | (.ok _, s'') => (r, s'')
    | (.error e, s'') => (.error e, s'')

/-- `throw`.  Semantics of the language, for `wasm.js` l. 83–159. -/
def throwE {α : Type} (e : Exn O) : M O α := fun s => (.error e, s)

/-- Conversion of a JavaScript number to an unsigned, and of a result of the module to a signed, 32-bit integer.
`wasm.js` l. 58, 74. -/
def toU32 (x : ℤ) : ℕ := (x % 2 ^ 32).toNat
/-- Arguments of the functions called in `wasm.js` l. 83–159. -/
def toI32 (n : ℕ) : ℤ := if n % 2 ^ 32 < 2 ^ 31 then (n % 2 ^ 32 : ℕ) else (n % 2 ^ 32 : ℕ) - 2 ^ 32

/-- A use of `wasm.f`: a type error when `wasm` is undefined.  `wasm.js` l. 83–159. -/
def withWasm {α : Type} (f : Wasm → Heap O → Except (Exn O) α × Wasm × Heap O) : M O α := fun s =>
  match s.cur with
  | none => (.error .typeErr, s)
  | some k => match f (s.insts k) s.heap with
    | (r, w, h) => (r, { s with insts := Function.update s.insts k w, heap := h })

/-- `wasm.__wbindgen_add_to_stack_pointer`.  `wasm.js` l. 85, 104. -/
def addSp (n : ℤ) : M O ℤ := withWasm fun w h => (.ok (toI32 (toU32 (w.sp + n))), { w with sp := toU32 (w.sp + n) }, h)

/-- `wasm.__wbindgen_malloc(n) >>> 0`.  `wasm.js` l. 58. -/
def malloc (E : Exports O) (n : ℕ) : M O ℕ := withWasm fun w h => match E.malloc n w with
  | some (p, w') => (.ok (toU32 p), w', h)
  | none => (.error .trap, w, h)

/-- `wasm.__wbindgen_free(p, n)`.  `wasm.js` l. 101, 154. -/
def free (E : Exports O) (p n : ℤ) : M O Unit := withWasm fun w h => (.ok (), E.free (toU32 p) (toU32 n) w, h)

/-- `byteLength` of a view: 0 when the memory has grown since.  `wasm.js` l. 30, 67. -/
def byteLength (s : St O) (v : ℕ × ℕ) : ℕ := if (s.insts v.1).gen = v.2 then (s.insts v.1).mem.length else 0

/-- `getUint8Memory0`, l. 29–34. -/
def getU8 : M O (ℕ × ℕ) := fun s =>
  let fresh : Except (Exn O) (ℕ × ℕ) × St O := match s.cur with
    | none => (.error .typeErr, s)
    | some k => (.ok (k, (s.insts k).gen), { s with u8 := some (k, (s.insts k).gen) })
  match s.u8 with
  | none => fresh
  | some v => if byteLength s v = 0 then fresh else (.ok v, s)

/-- `getInt32Memory0`, l. 66–71. -/
def getI32 : M O (ℕ × ℕ) := fun s =>
  let fresh : Except (Exn O) (ℕ × ℕ) × St O := match s.cur with
    | none => (.error .typeErr, s)
    | some k => (.ok (k, (s.insts k).gen), { s with i32 := some (k, (s.insts k).gen) })
  match s.i32 with
  | none => fresh
  | some v => if byteLength s v = 0 then fresh else (.ok v, s)

/-- Overwriting part of the memory.  `wasm.js` l. 59. -/
def write (mem : List UInt8) (p : ℕ) (bs : List UInt8) : List UInt8 := mem.take p ++ bs ++ mem.drop (p + bs.length)

/-- `Uint8Array.prototype.set`.  `wasm.js` l. 59. -/
def setBytes (v : ℕ × ℕ) (bs : List UInt8) (p : ℕ) : M O Unit := fun s =>
  if byteLength s v < p + bs.length then (.error .rangeErr, s)
  else (.ok (), { s with insts := Function.update s.insts v.1 { s.insts v.1 with mem := write (s.insts v.1).mem p bs } })

/-- `passArray8ToWasm0`, l. 57–62. -/
def passArray8 (E : Exports O) (arg : List UInt8) : M O ℕ := do
  let ptr ← malloc E (arg.length * 1)
  let v ← getU8
  setBytes v arg (ptr / 1)
  act fun s => (.ok ptr, { s with vecLen := arg.length })

/-- `WASM_VECTOR_LEN`, read at `wasm.js` l. 87, 89, 91. -/
def getVecLen : M O ℕ := fun s => (.ok s.vecLen, s)

/-- Four bytes of the memory, little endian.  An entry of the view made at `wasm.js` l. 68. -/
def word (mem : List UInt8) (p : ℕ) : ℕ :=
  (mem.getD p 0).toNat + 2 ^ 8 * (mem.getD (p + 1) 0).toNat + 2 ^ 16 * (mem.getD (p + 2) 0).toNat +
    2 ^ 24 * (mem.getD (p + 3) 0).toNat

/-- `getInt32Memory0()[retptr / 4 + k]`.  Simplification: where JavaScript reads `undefined` (negative, fractional or too
large index) the model reads 0.  `wasm.js` l. 93–96. -/
def readI32 (retptr : ℤ) (k : ℕ) : M O ℤ := do
  let v ← getI32
  act fun s => (.ok (if 0 ≤ retptr ∧ retptr % 4 = 0 ∧ retptr + 4 * k + 4 ≤ byteLength s v
    then toI32 (word (s.insts v.1).mem (retptr.toNat + 4 * k)) else 0), s)

/-- `takeObject(r)` for a number read from memory.  `wasm.js` l. 83–159. -/
def takeObj (r : ℤ) : M O (Js O) := fun s =>
  if r < 0 then (.ok .undef, s) else (.ok (s.heap.take r.toNat).1, { s with heap := (s.heap.take r.toNat).2 })

/-- `getArrayU8FromWasm0(r0, r1).slice()`, l. 73–76, with the clamping of `subarray`. -/
def sliceU8 (r0 r1 : ℤ) : M O (List UInt8) := do
  let v ← getU8
  act fun s =>
    let n : ℤ := byteLength s v
    let e : ℤ := toU32 r0 + r1
    let e : ℤ := if e < 0 then max (n + e) 0 else min e n
    (.ok (((s.insts v.1).mem.drop (toU32 r0)).take (e.toNat - toU32 r0)), s)

/-- The call of an exported function, `wasm.js` l. 92, 123, 145. -/
def called (r : Bool × Wasm × Heap O) : Except (Exn O) Unit × Wasm × Heap O :=
  (if r.1 then .ok () else .error .trap, r.2)

/-- `prove`, l. 83–106. -/
def prove (E : Exports O) (circuit vars publicInputs : List UInt8) : M O (List UInt8) :=
  tryFinally (do
    let retptr ← addSp (-16)
    let ptr0 ← passArray8 E circuit
    let len0 ← getVecLen
    let ptr1 ← passArray8 E vars
    let len1 ← getVecLen
    let ptr2 ← passArray8 E publicInputs
    let len2 ← getVecLen
    withWasm fun w h => called (E.prove (toU32 retptr) ptr0 len0 ptr1 len1 ptr2 len2 w h)
    let r0 ← readI32 retptr 0
    let r1 ← readI32 retptr 1
    let r2 ← readI32 retptr 2
    let r3 ← readI32 retptr 3
    if r3 ≠ 0 then do
      let e ← takeObj r2
      throwE (.thrown e)
    else do
      let v4 ← sliceU8 r0 r1
      free E r0 (r1 * 1)
      pure v4) (do let _ ← addSp 16; pure ())

/-- `verify`, l. 114–134. -/
def verify (E : Exports O) (circuit proof publicInput : List UInt8) : M O Bool :=
  tryFinally (do
    let retptr ← addSp (-16)
    let ptr0 ← passArray8 E circuit
    let len0 ← getVecLen
    let ptr1 ← passArray8 E proof
    let len1 ← getVecLen
    let ptr2 ← passArray8 E publicInput
    let len2 ← getVecLen
    withWasm fun w h => called (E.verify (toU32 retptr) ptr0 len0 ptr1 len1 ptr2 len2 w h)
    let r0 ← readI32 retptr 0
    let r1 ← readI32 retptr 1
    let r2 ← readI32 retptr 2
    if r2 ≠ 0 then do
      let e ← takeObj r1
      throwE (.thrown e)
    else pure (decide (r0 ≠ 0))) (do let _ ← addSp 16; pure ())

/-- `poseidon`, l. 140–159. -/
def poseidon (E : Exports O) (inputBytes : List UInt8) : M O (List UInt8) :=
  tryFinally (do
    let retptr ← addSp (-16)
    let ptr0 ← passArray8 E inputBytes
    let len0 ← getVecLen
    withWasm fun w h => called (E.poseidon (toU32 retptr) ptr0 len0 w h)
    let r0 ← readI32 retptr 0
    let r1 ← readI32 retptr 1
    let r2 ← readI32 retptr 2
    let r3 ← readI32 retptr 3
    if r3 ≠ 0 then do
      let e ← takeObj r2
      throwE (.thrown e)
    else do
      let v2 ← sliceU8 r0 r1
      free E r0 (r1 * 1)
      pure v2) (do let _ ← addSp 16; pure ())

/-- The variables when the script is loaded.  `wasm.js` l. 1–9, 27, 55, 64. -/
def St.init : St O := ⟨fun _ => ⟨[], 0, 0, []⟩, 0, none, none, none, 0, Heap.init⟩

/-- `__wbg_finalize_init`, l. 402–410: a new instance, in the state `boot`, becomes `wasm` and the views are forgotten. -/
def finalizeInit (boot : Wasm) (s : St O) : St O :=
  { s with insts := Function.update s.insts s.count boot, count := s.count + 1, cur := some s.count, i32 := none, u8 := none }

end Spartan.Glue
