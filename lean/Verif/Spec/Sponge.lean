import Verif.Model.Merlin

/-!
What a sponge computes: it absorbs blocks one by one, each followed by the permutation.
A cell of a block is either a byte that is added to the state or an instruction to clear the byte (after it
was output).
-/

namespace Spartan.Merlin

/-- The 200 bytes of the sponge. -/
abbrev SState : Type := Fin 200 → UInt8

/-- A block: its cells from position 0 on, and the padding byte behind them. -/
abbrev Block : Type := List (Option UInt8) × UInt8

/-- The state with the cells of a block added (`some b`) or cleared (`none`). -/
def overlay (cells : List (Option UInt8)) (st : SState) : SState := fun j =>
  match cells[j.val]? with
  | none => st j
  | some none => 0
  | some (some b) => st j ^^^ b

/-- What is added behind the cells of a block: the padding byte, the constant `04` after it, and `80` in the last
byte of the rate of 168 bytes. -/
def padding (len : Nat) (b : UInt8) : SState := fun j =>
  (if j.val = len then b else 0) ^^^ (if j.val = len + 1 then 0x04 else 0) ^^^ (if j.val = 167 then 0x80 else 0)

/-- One block: cells, padding, permutation. -/
def absorbBlock (f : SState → SState) (st : SState) (b : Block) : SState :=
  f fun j => overlay b.1 st j ^^^ padding b.1.length b.2 j

/-- The first state of STROBE-128 (STROBE specification, section 5.1): `01`, the rate `R + 2 = 168`, `01 00 01`, the
length in bits of the name, and the name `STROBEv1.0.2`; then zeros. -/
def firstState : SState := fun j =>
  [1, 168, 1, 0, 1, 96, 0x53, 0x54, 0x52, 0x4f, 0x42, 0x45, 0x76, 0x31, 0x2e, 0x30, 0x2e, 0x32].getD j 0

/-- The sponge on a list of blocks, from the first state. -/
def sponge (f : SState → SState) (blocks : List Block) : SState :=
  blocks.foldl (absorbBlock f) (f firstState)

/-- The first `n` bytes of the state. -/
def output (n : Nat) (st : SState) : List UInt8 :=
  (List.range n).map fun i => if h : i < 200 then st ⟨i, h⟩ else 0

/-! ### The framing of STROBE and Merlin -/

/-- What a transcript feeds to the sponge, as small steps: `mark` begins an operation. -/
inductive Micro
  | mark
  | byte (b : UInt8)
  | sq
  deriving DecidableEq

/-- Blocks absorbed so far, cells of the current block, begin marker. -/
structure AState where
  done : List Block
  cur : List (Option UInt8)
  pb : Nat

/-- Before the first step. -/
def AState.start : AState := ⟨[], [], 0⟩

/-- Add a cell; a full block is absorbed. -/
def AState.push (a : AState) (c : Option UInt8) (pb : Nat) : AState :=
  if a.cur.length + 1 = 166 then ⟨a.done ++ [(a.cur ++ [c], UInt8.ofNat pb)], [], 0⟩
  else ⟨a.done, a.cur ++ [c], pb⟩

/-- One small step: `mark` writes the old begin marker and sets the new one behind it. -/
def AState.step (a : AState) : Micro → AState
  | .mark => a.push (some (UInt8.ofNat a.pb)) (a.cur.length + 1)
  | .byte b => a.push (some b) a.pb
  | .sq => a.push none a.pb

/-- The current block ends here. -/
def AState.force (a : AState) : AState := ⟨a.done ++ [(a.cur, UInt8.ofNat a.pb)], [], 0⟩

/-- Absorb bytes. -/
def bytesM (l : List UInt8) : List Micro := l.map .byte

/-- The small steps of the first half of a call: the label and the length of the data; the flags of `meta-AD` are `M | A = 18`. -/
def metaM (label : List UInt8) (n : Nat) : List Micro := bytesM (UInt8.ofNat 18 :: (label ++ leBytes 4 n))

/-- The second half: `AD` with the flag `A = 2`, or `PRF` with the flags `I | A | C = 7`. -/
def bodyM : Call → List Micro
  | .append _ data => bytesM (UInt8.ofNat 2 :: data)
  | .chal _ n => .byte (UInt8.ofNat 7) :: List.replicate n .sq

/-- The label of a call. -/
def Call.label : Call → List UInt8
  | .append label _ => label
  | .chal label _ => label

/-- The length of the data or of the challenge. -/
def Call.len : Call → Nat
  | .append _ data => data.length
  | .chal _ n => n

/-- The small steps of a call. -/
def callM (c : Call) : List Micro := .mark :: (metaM c.label c.len ++ .mark :: bodyM c)

/-- The small steps of a challenge up to the permutation before its output. -/
def finM (label : List UInt8) (n : Nat) : List Micro :=
  .mark :: (metaM label n ++ [.mark, .byte (UInt8.ofNat 7)])

/-- The small steps of `Strobe128::new`. -/
def newM : List Micro := .mark :: bytesM (UInt8.ofNat 18 :: ascii "Merlin v1.0")

/-- The state after small steps. -/
def AState.run (a : AState) (l : List Micro) : AState := l.foldl AState.step a

/-- The permutation before an output. -/
def AState.forced (a : AState) : AState := if a.cur.length = 0 then a else a.force

/-- The state after a call. -/
def AState.call (a : AState) : Call → AState
  | .append label data => a.run (callM (.append label data))
  | .chal label n => (a.run (finM label n)).forced.run (List.replicate n .sq)

/-- The blocks absorbed before the output of a challenge. -/
def history (name : List UInt8) (calls : List Call) (label : List UInt8) (n : Nat) : List Block :=
  ((((Call.append (ascii "dom-sep") name :: calls).foldl AState.call (AState.start.run newM)).run
    (finM label n)).forced).done

end Spartan.Merlin
