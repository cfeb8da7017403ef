import Verif.Model.Glue

/-!
`packages/lib/src/wasm/wasm.js`: the strings that pass between JavaScript and the module, in both directions: the text of a
panic (`console.error`, l. 376–386), the text of an error thrown by the module (l. 387–389), strings made for the module
(l. 296–299) and the stack trace that the panic hook asks for (l. 369–375).

`TextEncoder` and `TextDecoder` are modelled from the Encoding Standard.
-/

namespace Spartan.Glue

variable {O : Type}

/-- A JavaScript string: its UTF-16 code units.  `arg` at `wasm.js` l. 184, 195, 202. -/
abbrev JStr := List UInt16

/-- Encoding Standard, UTF-8 encoder: the bytes of a code point.  `TextEncoder`, `wasm.js` l. 169–182. -/
def encodeCp (cp : ℕ) : List UInt8 :=
  if cp ≤ 0x7F then [.ofNat cp]
  else
    let (count, offset) := if cp ≤ 0x7FF then (1, 0xC0) else if cp ≤ 0xFFFF then (2, 0xE0) else (3, 0xF0)
    .ofNat (cp / 64 ^ count + offset) :: (List.range count).map fun i => .ofNat (0x80 + cp / 64 ^ (count - 1 - i) % 64)

/-- Infra Standard, conversion of a string to scalar values: pairs of surrogates are joined, others become U+FFFD.
The argument of `TextEncoder`, `wasm.js` l. 173, 176. -/
def scalarValues : JStr → List ℕ
  | [] => []
  | [u] => [if 0xD800 ≤ u.toNat ∧ u.toNat ≤ 0xDFFF then 0xFFFD else u.toNat]
  | u :: v :: t =>
    if 0xD800 ≤ u.toNat ∧ u.toNat ≤ 0xDBFF ∧ 0xDC00 ≤ v.toNat ∧ v.toNat ≤ 0xDFFF then
      (0x10000 + (u.toNat - 0xD800) * 0x400 + (v.toNat - 0xDC00)) :: scalarValues t
    else (if 0xD800 ≤ u.toNat ∧ u.toNat ≤ 0xDFFF then 0xFFFD else u.toNat) :: scalarValues (v :: t)

/-- The bytes that `encodeInto` writes into a view of `room` bytes: it stops before the first code point that does not fit.
`wasm.js` l. 173. -/
def encodeInto : List ℕ → ℕ → List UInt8
  | [], _ => []
  | c :: cs, room =>
    if (encodeCp c).length ≤ room then encodeCp c ++ encodeInto cs (room - (encodeCp c).length) else []

/-- The bytes that `encode` returns.  `wasm.js` l. 176, 187. -/
def encodeAll (cs : List ℕ) : List UInt8 := cs.flatMap encodeCp

/-- Encoding Standard, UTF-8 decoder: its variables.  `cachedTextDecoder`, `wasm.js` l. 23. -/
structure Dec where
  cp : ℕ
  seen : ℕ
  needed : ℕ
  lower : ℕ
  upper : ℕ

/-- The variables at the start and after a code point.  `wasm.js` l. 23. -/
def Dec.init : Dec := ⟨0, 0, 0, 0x80, 0xBF⟩

/-- Encoding Standard, UTF-8 decoder, one byte: an error (`none`), or the new variables and perhaps a code point.
`wasm.js` l. 38. -/
def Dec.step (d : Dec) (byte : UInt8) : Option (Dec × Option ℕ) :=
  let b := byte.toNat
  if d.needed = 0 then
    if b ≤ 0x7F then some (d, some b)
    else if 0xC2 ≤ b ∧ b ≤ 0xDF then some ({ d with needed := 1, cp := b % 32 }, none)
    else if 0xE0 ≤ b ∧ b ≤ 0xEF then
      some (⟨b % 16, d.seen, 2, if b = 0xE0 then 0xA0 else d.lower, if b = 0xED then 0x9F else d.upper⟩, none)
    else if 0xF0 ≤ b ∧ b ≤ 0xF4 then
      some (⟨b % 8, d.seen, 3, if b = 0xF0 then 0x90 else d.lower, if b = 0xF4 then 0x8F else d.upper⟩, none)
    else none
  else if d.lower ≤ b ∧ b ≤ d.upper then
    let cp := d.cp * 64 + b % 64
    if d.seen + 1 = d.needed then some (⟨0, 0, 0, 0x80, 0xBF⟩, some cp)
    else some (⟨cp, d.seen + 1, d.needed, 0x80, 0xBF⟩, none)
  else none

/-- The decoder on all bytes, in the mode `fatal` and keeping a byte order mark: `none` is the `TypeError`.
`wasm.js` l. 23, 38. -/
def decodeCps : Dec → List UInt8 → Option (List ℕ)
  | d, [] => if d.needed ≠ 0 then none else some []
  | d, b :: t => match d.step b with
    | none => none
    | some (d', o) => match decodeCps d' t with
      | none => none
      | some cs => some (o.toList ++ cs)

/-- The code units of a code point in a JavaScript string.  Result of `decode`, `wasm.js` l. 38. -/
def cpUnits (c : ℕ) : JStr :=
  if c ≤ 0xFFFF then [.ofNat c] else [.ofNat (0xD800 + (c - 0x10000) / 0x400), .ofNat (0xDC00 + (c - 0x10000) % 0x400)]

/-- `getUint8Memory0().subarray(ptr, ptr + len)` for numbers that are not negative: the bounds are cut at the end of the memory.
`wasm.js` l. 38, 189, 212. -/
def clamp (s : St O) (v : ℕ × ℕ) (i : ℕ) : ℕ := min i (byteLength s v)

/-- `getStringFromWasm0`, l. 36–39. -/
def getString (ptr len : ℕ) : M O JStr := do
  let v ← getU8
  act fun s =>
    match decodeCps .init (((s.insts v.1).mem.drop (clamp s v ptr)).take (clamp s v (ptr + len) - clamp s v ptr)) with
    | none => (.error .typeErr, s)
    | some cs => (.ok (cs.flatMap cpUnits), s)

/-- `__wbindgen_realloc`, used at `wasm.js` l. 211; `none` when it traps. -/
abbrev Realloc := ℕ → ℕ → ℕ → Wasm → Option (ℕ × Wasm)

/-- `realloc(ptr, len, n) >>> 0`, l. 211. -/
def realloc (R : Realloc) (p n m : ℕ) : M O ℕ := withWasm fun w h => match R p n m w with
  | some (q, w') => (.ok (toU32 q), w', h)
  | none => (.error .trap, w, h)

/-- `mem[i] = code`: without effect outside the view.  `wasm.js` l. 204. -/
def storeByte (v : ℕ × ℕ) (i : ℕ) (b : UInt8) : M O Unit := fun s =>
  if i < byteLength s v then
    (.ok (), { s with insts := Function.update s.insts v.1 { s.insts v.1 with mem := write (s.insts v.1).mem i [b] } })
  else (.ok (), s)

/-- The loop of `passStringToWasm0`, l. 201–205: the part of the string that is left, and `offset`; the result is `offset`. -/
def asciiLoop (v : ℕ × ℕ) (ptr : ℕ) : JStr → ℕ → M O ℕ
  | [], offset => pure offset
  | u :: t, offset => if 0x7F < u.toNat then pure offset else do
    storeByte v (ptr + offset) (.ofNat u.toNat)
    asciiLoop v ptr t (offset + 1)

/-- `view.set(buf)` on `subarray(i, j)` of the view `v`.  `wasm.js` l. 177, 189. -/
def setSub (v : ℕ × ℕ) (i j : ℕ) (bs : List UInt8) : M O Unit := fun s =>
  if clamp s v j - clamp s v i < bs.length then (.error .rangeErr, s)
  else
    let w : Wasm := { s.insts v.1 with mem := write (s.insts v.1).mem (clamp s v i) bs }
    (.ok (), { s with insts := Function.update s.insts v.1 w })

/-- `encodeString(arg, view)`, l. 171–182, with `view` the part from `i` to `j` of `v`; the result is `written`.  `into`: the
runtime has `encodeInto`. -/
def encodeString (into : Bool) (arg : JStr) (v : ℕ × ℕ) (i j : ℕ) : M O ℕ := fun s =>
  let bs := if into then encodeInto (scalarValues arg) (clamp s v j - clamp s v i) else encodeAll (scalarValues arg)
  match setSub v i j bs s with
  | (.ok _, s') => (.ok bs.length, s')
  | (.error e, s') => (.error e, s')

/-- `passStringToWasm0`, l. 184–220.  `R = none`: the module has no `__wbindgen_realloc`. -/
def passString (E : Exports O) (R : Option Realloc) (into : Bool) (arg : JStr) : M O ℕ :=
  match R with
  | none => do
    let buf := encodeAll (scalarValues arg)
    let ptr ← malloc E buf.length
    let v ← getU8
    setSub v ptr (ptr + buf.length) buf
    act fun s => (.ok ptr, { s with vecLen := buf.length })
  | some R => do
    let len := arg.length
    let ptr ← malloc E len
    let mem ← getU8
    let offset ← asciiLoop mem ptr arg 0
    if offset ≠ len then do
      let rest := if offset ≠ 0 then arg.drop offset else arg
      let len' := offset + rest.length * 3
      let ptr' ← realloc R ptr len len'
      let v ← getU8
      let written ← encodeString into rest v (ptr' + offset) (ptr' + len')
      act fun s => (.ok ptr', { s with vecLen := offset + written })
    else act fun s => (.ok ptr, { s with vecLen := offset })

/-- `getInt32Memory0()[arg0 / 4 + k] = x`: without effect outside the view.  `wasm.js` l. 373–374. -/
def writeI32 (arg0 k x : ℕ) : M O Unit := do
  let v ← getI32
  act fun s => if arg0 % 4 = 0 ∧ arg0 + 4 * k + 4 ≤ byteLength s v then
      let bs : List UInt8 := [.ofNat x, .ofNat (x / 2 ^ 8), .ofNat (x / 2 ^ 16), .ofNat (x / 2 ^ 24)]
      let w : Wasm := { s.insts v.1 with mem := write (s.insts v.1).mem (arg0 + 4 * k) bs }
      (.ok (), { s with insts := Function.update s.insts v.1 w })
    else (.ok (), s)

/-- `__wbg_stack_658279fe44541cf6`, l. 369–375; `ret` is the property `stack` of the object `arg1`. -/
def importStack (E : Exports O) (R : Option Realloc) (into : Bool) (arg0 : ℕ) (ret : JStr) : M O Unit := do
  let ptr1 ← passString E R into ret
  let len1 ← getVecLen
  writeI32 arg0 1 len1
  writeI32 arg0 0 ptr1

/-- `__wbg_error_f851667af71bcfc6`, l. 376–386.  The result is what `console.error` is called with.  The final block runs with
or without an exception. -/
def importError (E : Exports O) (arg0 arg1 : ℕ) : M O JStr :=
  tryFinally (getString arg0 arg1) (free E arg0 arg1)

/-- `__wbindgen_throw`, l. 387–389, with `mkError` for `new Error(…)`. -/
def importThrow (mkError : JStr → O) (arg0 arg1 : ℕ) : M O Unit := do
  let m ← getString arg0 arg1
  throwE (.thrown (.obj (mkError m)))

/-- `__wbindgen_string_new`, l. 296–299, with `str` for the string as an object of the table.  Simplification: a broken table
(`Heap.add` gives `none`) is a type error. -/
def importStringNew (str : JStr → O) (arg0 arg1 : ℕ) : M O ℕ := do
  let m ← getString arg0 arg1
  act fun s => match s.heap.add (.obj (str m)) with
    | some (i, h) => (.ok i, { s with heap := h })
    | none => (.error .typeErr, s)

end Spartan.Glue
