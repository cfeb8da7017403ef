import Verif.Model.Glue
import Verif.Props.GlueHeap

/-!
What the JavaScript glue expects of the WebAssembly module.
-/

namespace Spartan.Glue

variable {O : Type}

/-- The bytes of a block. -/
def content (w : Wasm) (b : ℕ × ℕ) : List UInt8 := (w.mem.drop b.1).take b.2

/-- The layout of the memory: the stack lies below `base`, the allocated blocks lie above it and do not overlap. -/
structure WInv (base : ℕ) (w : Wasm) : Prop where
  sp_le : w.sp ≤ base
  base_le : base ≤ 2 ^ 31
  mem_ge : base ≤ w.mem.length
  inside : ∀ b ∈ w.blocks, base ≤ b.1 ∧ b.1 + b.2 ≤ w.mem.length ∧ b.1 < 2 ^ 32
  disj : w.blocks.Pairwise fun a b => a.1 + a.2 ≤ b.1 ∨ b.1 + b.2 ≤ a.1

/-- The blocks `bs` are untouched. -/
def Kept (bs : List (ℕ × ℕ)) (w w' : Wasm) : Prop := ∀ b ∈ bs, content w' b = content w b

/-- Handles are kept. -/
def HExt (L L' : ℕ → Option (Js O)) : Prop := ∀ i v, L i = some v → L' i = some v

abbrev Bytes := List UInt8

/-- What a call leaves in the 16 bytes at `sp` for a function that returns bytes or an error: address and length of a block
with the bytes, or the handle of the error and a nonzero word. -/
def ReturnsBytes (base : ℕ) (bs : List (ℕ × ℕ)) (w : Wasm) (L : ℕ → Option (Js O)) (res : Except (Js O) Bytes)
    (r : Bool × Wasm × Heap O) : Prop :=
  r.1 = true ∧ WInv base r.2.1 ∧ r.2.1.sp = w.sp ∧ Kept bs w r.2.1 ∧ ∃ L', Hist r.2.2 L' ∧ HExt L L' ∧
    match res with
    | .ok out => ∃ q, r.2.1.blocks = (q, out.length) :: bs ∧ content r.2.1 (q, out.length) = out ∧ out.length < 2 ^ 31 ∧
        word r.2.1.mem w.sp = q ∧ word r.2.1.mem (w.sp + 4) = out.length ∧ word r.2.1.mem (w.sp + 12) = 0
    | .error e => ∃ i, r.2.1.blocks = bs ∧ L i = none ∧ L' i = some e ∧ i < 2 ^ 31 ∧ word r.2.1.mem (w.sp + 8) = i ∧
        word r.2.1.mem (w.sp + 12) = 1

/-- The same for a function that returns a truth value. -/
def ReturnsBool (base : ℕ) (bs : List (ℕ × ℕ)) (w : Wasm) (L : ℕ → Option (Js O)) (res : Except (Js O) Bool)
    (r : Bool × Wasm × Heap O) : Prop :=
  r.1 = true ∧ WInv base r.2.1 ∧ r.2.1.sp = w.sp ∧ Kept bs w r.2.1 ∧ ∃ L', Hist r.2.2 L' ∧ HExt L L' ∧ r.2.1.blocks = bs ∧
    match res with
    | .ok b => word r.2.1.mem w.sp = b.toNat ∧ word r.2.1.mem (w.sp + 8) = 0
    | .error e => ∃ i, L i = none ∧ L' i = some e ∧ i < 2 ^ 31 ∧ word r.2.1.mem (w.sp + 4) = i ∧
        word r.2.1.mem (w.sp + 8) = 1

/-- What a function that panics leaves: it owned the blocks of its arguments and may have released them or not, and at most
`d` bytes of its stack are still in use. -/
def Panics (base d : ℕ) (bs : List (ℕ × ℕ)) (w : Wasm) (L : ℕ → Option (Js O)) (r : Bool × Wasm × Heap O) : Prop :=
  r.1 = false ∧ WInv base r.2.1 ∧ (∀ b ∈ bs, b ∈ r.2.1.blocks) ∧ r.2.1.sp ≤ w.sp ∧ w.sp ≤ r.2.1.sp + d ∧ r.2.1.sp % 4 = 0 ∧
    Kept bs w r.2.1 ∧ ∃ L', Hist r.2.2 L' ∧ HExt L L'

/-- The allocator. -/
structure Alloc (E : Exports O) (base : ℕ) : Prop where
  malloc : ∀ {w w' : Wasm} {n p : ℕ}, WInv base w → E.malloc n w = some (p, w') →
    WInv base w' ∧ w'.blocks = (p, n) :: w.blocks ∧ w'.sp = w.sp ∧ Kept w.blocks w w'
  free : ∀ {w : Wasm} {p n : ℕ} {bs : List (ℕ × ℕ)}, WInv base w → w.blocks = (p, n) :: bs →
    WInv base (E.free p n w) ∧ (E.free p n w).blocks = bs ∧ (E.free p n w).sp = w.sp ∧ Kept bs w (E.free p n w)

/-- The module implements the relations `P`, `V` and `H` between arguments and results of the three functions (result `none`:
panic), which own the blocks of their arguments and use at most `d` bytes of stack. -/
structure Good (E : Exports O) (base d : ℕ) (P : Bytes → Bytes → Bytes → Option (Except (Js O) Bytes) → Prop)
    (V : Bytes → Bytes → Bytes → Option (Except (Js O) Bool) → Prop) (H : Bytes → Option (Except (Js O) Bytes) → Prop) : Prop
    extends Alloc E base where
  prove : ∀ {w : Wasm} {h : Heap O} {L : ℕ → Option (Js O)} {p0 p1 p2 : ℕ} {a b c : Bytes} {bs : List (ℕ × ℕ)},
    WInv base w → Hist h L → w.sp + 16 ≤ base → d ≤ w.sp → w.sp % 4 = 0 →
    w.blocks = (p2, c.length) :: (p1, b.length) :: (p0, a.length) :: bs →
    content w (p0, a.length) = a → content w (p1, b.length) = b → content w (p2, c.length) = c →
    (∃ res, P a b c (some res) ∧ ReturnsBytes base bs w L res (E.prove w.sp p0 a.length p1 b.length p2 c.length w h)) ∨
    P a b c none ∧ Panics base d bs w L (E.prove w.sp p0 a.length p1 b.length p2 c.length w h)
  verify : ∀ {w : Wasm} {h : Heap O} {L : ℕ → Option (Js O)} {p0 p1 p2 : ℕ} {a b c : Bytes} {bs : List (ℕ × ℕ)},
    WInv base w → Hist h L → w.sp + 16 ≤ base → d ≤ w.sp → w.sp % 4 = 0 →
    w.blocks = (p2, c.length) :: (p1, b.length) :: (p0, a.length) :: bs →
    content w (p0, a.length) = a → content w (p1, b.length) = b → content w (p2, c.length) = c →
    (∃ res, V a b c (some res) ∧ ReturnsBool base bs w L res (E.verify w.sp p0 a.length p1 b.length p2 c.length w h)) ∨
    V a b c none ∧ Panics base d bs w L (E.verify w.sp p0 a.length p1 b.length p2 c.length w h)
  poseidon : ∀ {w : Wasm} {h : Heap O} {L : ℕ → Option (Js O)} {p0 : ℕ} {a : Bytes} {bs : List (ℕ × ℕ)},
    WInv base w → Hist h L → w.sp + 16 ≤ base → d ≤ w.sp → w.sp % 4 = 0 → w.blocks = (p0, a.length) :: bs →
    content w (p0, a.length) = a →
    (∃ res, H a (some res) ∧ ReturnsBytes base bs w L res (E.poseidon w.sp p0 a.length w h)) ∨
    H a none ∧ Panics base d bs w L (E.poseidon w.sp p0 a.length w h)

/-- The memory after copies of the arguments have been made one after the other; `none` when the allocator refuses one. -/
def allocs (E : Exports O) : List Bytes → Wasm → Option Wasm
  | [], w => some w
  | a :: as, w => match E.malloc a.length w with
    | none => none
    | some (p, w') => allocs E as { w' with mem := write w'.mem p a }

/-- What a caller sees of a result. -/
def seen {α : Type} : Except (Js O) α → Except (Exn O) α
  | .ok a => .ok a
  | .error e => .error (.thrown e)

/-- The state between calls: `wasm` is the instance `k`, the views belong to it, its memory is laid out as it should be,
and the handles `L` are held. -/
structure Ready (base k : ℕ) (s : St O) (L : ℕ → Option (Js O)) : Prop where
  cur : s.cur = some k
  u8 : ∀ v, s.u8 = some v → v.1 = k
  i32 : ∀ v, s.i32 = some v → v.1 = k
  inv : WInv base (s.insts k)
  hist : Hist s.heap L

end Spartan.Glue
