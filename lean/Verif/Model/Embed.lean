import Mathlib.Data.List.Basic

/-!
`packages/lib/embedWasmBytes.ts`: writing the wasm module into a source file, and `packages/lib/src/wasm/index.ts`, which
instantiates it.
-/

namespace Spartan.Embed

/-- A Node `Buffer`: a part of an `ArrayBuffer`, whose bytes are `store`.  External: the type of
what `readFileSync` returns at `packages/lib/embedWasmBytes.ts` l. 7. -/
structure Buffer where
  store : List UInt8
  offset : ℕ
  length : ℕ

/-- `fs.readFileSync` (Node's `lib/fs.js`, `tryCreateBuffer` and `Buffer.allocUnsafe`): files of fewer than 4096 bytes go to
the next free place of a shared store of 8192 bytes, others to a store of their own.  `pool` is the shared store and `free`
the next free place, which has room for the file.  Simplification: a file of size zero, which Node reads in chunks, is
treated like other small files.  `embedWasmBytes.ts` l. 7. -/
def readFileSync (pool : List UInt8) (free : ℕ) (file : List UInt8) : Buffer :=
  if file.length < 4096 then
    ⟨pool.take free ++ file ++ pool.drop (free + file.length), free, file.length⟩
  else ⟨file, 0, file.length⟩

/-- `new Uint8Array(wasm.buffer)`: all bytes of the store.  `embedWasmBytes.ts` l. 9. -/
def wholeStore (b : Buffer) : List UInt8 := b.store

/-- The decimal digits of a byte.  External, below the call of `toString` at
`packages/lib/embedWasmBytes.ts` l. 12. -/
def byteDigits (b : UInt8) : List Char :=
  let n := b.toNat
  let d (k : ℕ) : Char := Char.ofNat (48 + k)
  if n < 10 then [d n] else if n < 100 then [d (n / 10), d (n % 10)] else [d (n / 100), d (n / 10 % 10), d (n % 10)]

/-- `bytes.toString()`: the elements in decimal, joined by commas.  `embedWasmBytes.ts` l. 12. -/
def toStr (bs : List UInt8) : List Char := [','].intercalate (bs.map byteDigits)

/-- The text of the source file.  `embedWasmBytes.ts` l. 11–13. -/
def sourceFile (bs : List UInt8) : List Char :=
  "\n    export const wasmBytes = new Uint8Array([".toList ++ toStr bs ++ "]);\n  ".toList

/-- The script.  `embedWasmBytes.ts` l. 6–16. -/
def embedWasmBytes (pool : List UInt8) (free : ℕ) (file : List UInt8) : List Char :=
  sourceFile (wholeStore (readFileSync pool free file))

end Spartan.Embed
