import Verif.Model.Base
import Verif.Model.Challenge
import Verif.Model.Group

/-!
The Merlin transcript below `packages/Spartan-secq/src/transcript.rs`.

merlin 3.0.0 (`Cargo.lock`) is a dependency whose source is not in `/repo`; `transcript.rs` and `strobe.rs`
of that crate are transcribed here, with the permutation Keccak-f[1600] as a parameter.
Positions are `u8` in the code and never exceed 166, so plain numbers are used.
-/

namespace Spartan.Merlin

/-- `STROBE_R`: how many bytes of the state one block may change.
External (merlin `strobe.rs`), below the calls at `transcript.rs` l. 15, 19, 23, 28. -/
def strobeR : Nat := 166

/-- The 200 bytes of the sponge.
External (merlin `strobe.rs`), below the calls at `transcript.rs` l. 15, 19, 23, 28. -/
abbrev KState : Type := Fin 200 → UInt8

/-- `state[i] ^= b`.
External (merlin `strobe.rs`), below the calls at `transcript.rs` l. 15, 19, 23, 28. -/
def xorAt (st : KState) (i : Nat) (b : UInt8) : KState := fun j => if j.val = i then st j ^^^ b else st j

/-- `state[i] = b`.
External (merlin `strobe.rs`), below the calls at `transcript.rs` l. 15, 19, 23, 28. -/
def setAt (st : KState) (i : Nat) (b : UInt8) : KState := fun j => if j.val = i then b else st j

/-- `state[i]` for `i < 200`.
External (merlin `strobe.rs`), below the calls at `transcript.rs` l. 15, 19, 23, 28. -/
def byteAt (st : KState) (i : Nat) : UInt8 := if h : i < 200 then st ⟨i, h⟩ else 0

/-- `Strobe128`, merlin `strobe.rs`. -/
structure Strobe where
  state : KState
  pos : Nat
  posBegin : Nat
  curFlags : Nat

/-- The flags `FLAG_I`, `FLAG_A`, `FLAG_C`, `FLAG_T`, `FLAG_M`, `FLAG_K` are 1, 2, 4, 8, 16, 32;
`meta_ad` uses `M | A`, `ad` uses `A`, `prf` uses `I | A | C`.
External (merlin `strobe.rs`), below the calls at `transcript.rs` l. 15, 19, 23, 28. -/
def flagsMetaAd : Nat := 18
/-- External (merlin `strobe.rs`), below the calls at `transcript.rs` l. 15, 19, 23, 28. -/
def flagsAd : Nat := 2
/-- External (merlin `strobe.rs`), below the calls at `transcript.rs` l. 15, 19, 23, 28. -/
def flagsPrf : Nat := 7

/-- `Strobe128::run_f`.
External (merlin `strobe.rs`), below the calls at `transcript.rs` l. 15, 19, 23, 28. -/
def runF (f : KState → KState) (s : Strobe) : Strobe :=
  let st := xorAt s.state s.pos (UInt8.ofNat s.posBegin)
  let st := xorAt st (s.pos + 1) 0x04
  let st := xorAt st (strobeR + 1) 0x80
  { s with state := f st, pos := 0, posBegin := 0 }

/-- The body of the loop of `Strobe128::absorb`.
External (merlin `strobe.rs`), below the calls at `transcript.rs` l. 15, 19, 23, 28. -/
def absorbByte (f : KState → KState) (s : Strobe) (b : UInt8) : Strobe :=
  let s := { s with state := xorAt s.state s.pos b, pos := s.pos + 1 }
  if s.pos = strobeR then runF f s else s

/-- `Strobe128::absorb`.
External (merlin `strobe.rs`), below the calls at `transcript.rs` l. 15, 19, 23, 28. -/
def absorb (f : KState → KState) (s : Strobe) (data : List UInt8) : Strobe := data.foldl (absorbByte f) s

/-- The body of the loop of `Strobe128::squeeze`.
External (merlin `strobe.rs`), below the calls at `transcript.rs` l. 15, 19, 23, 28. -/
def squeezeByte (f : KState → KState) (s : Strobe) : UInt8 × Strobe :=
  let b := byteAt s.state s.pos
  let s := { s with state := setAt s.state s.pos 0, pos := s.pos + 1 }
  (b, if s.pos = strobeR then runF f s else s)

/-- `Strobe128::squeeze` into a buffer of `n` bytes.
External (merlin `strobe.rs`), below the calls at `transcript.rs` l. 15, 19, 23, 28. -/
def squeeze (f : KState → KState) : Nat → Strobe → List UInt8 × Strobe
  | 0, s => ([], s)
  | n + 1, s =>
    let (b, s) := squeezeByte f s
    let (bs, s) := squeeze f n s
    (b :: bs, s)

/-- `Strobe128::begin_op`: both `assert`s are panics.
External (merlin `strobe.rs`), below the calls at `transcript.rs` l. 15, 19, 23, 28. -/
def beginOp (f : KState → KState) (flags : Nat) (more : Bool) (s : Strobe) : Out Strobe :=
  if more then do
    check (s.curFlags = flags)
    pure s
  else do
    check (flags &&& 8 = 0)
    let old := s.posBegin
    let s := { s with posBegin := s.pos + 1, curFlags := flags }
    let s := absorb f s [UInt8.ofNat old, UInt8.ofNat flags]
    pure (if flags &&& (4 ||| 32) ≠ 0 ∧ s.pos ≠ 0 then runF f s else s)

/-- `Strobe128::meta_ad`.
External (merlin `strobe.rs`), below the calls at `transcript.rs` l. 15, 19, 23, 28. -/
def metaAd (f : KState → KState) (data : List UInt8) (more : Bool) (s : Strobe) : Out Strobe := do
  let s ← beginOp f flagsMetaAd more s
  pure (absorb f s data)

/-- `Strobe128::ad`.
External (merlin `strobe.rs`), below the calls at `transcript.rs` l. 15, 19, 23, 28. -/
def ad (f : KState → KState) (data : List UInt8) (more : Bool) (s : Strobe) : Out Strobe := do
  let s ← beginOp f flagsAd more s
  pure (absorb f s data)

/-- `Strobe128::prf` into a buffer of `n` bytes.
External (merlin `strobe.rs`), below the calls at `transcript.rs` l. 15, 19, 23, 28. -/
def prf (f : KState → KState) (n : Nat) (more : Bool) (s : Strobe) : Out (List UInt8 × Strobe) := do
  let s ← beginOp f flagsPrf more s
  pure (squeeze f n s)

/-- The ASCII bytes of a byte-string literal.  The literals `b"…"` of `transcript.rs` l. 15. -/
def ascii (s : String) : List UInt8 := s.toByteArray.data.toList

/-- `initial_state` of `Strobe128::new` before the permutation: six parameter bytes and a name.
External (merlin `strobe.rs`), below the calls at `transcript.rs` l. 15, 19, 23, 28. -/
def initialState : KState := fun j => (([1, 168, 1, 0, 1, 96] ++ ascii "STROBEv1.0.2")[j.val]?).getD 0

/-- `Strobe128::new`.
External (merlin `strobe.rs`), below the calls at `transcript.rs` l. 15, 19, 23, 28. -/
def strobeNew (f : KState → KState) (protocol : List UInt8) : Out Strobe :=
  metaAd f protocol false ⟨f initialState, 0, 0, 0⟩

/-- `encode_usize_as_u32`: panics above `u32::MAX`.
External (merlin `transcript.rs`), below the calls at `transcript.rs` l. 15, 19, 23, 28. -/
def encodeLen (n : Nat) : Out (List UInt8) := do
  check (n ≤ 2 ^ 32 - 1)
  pure (leBytes 4 n)

/-- `Transcript::append_message`.
External (merlin `transcript.rs`), called at `transcript.rs` l. 15, 19, 23. -/
def appendMessage (f : KState → KState) (label data : List UInt8) (s : Strobe) : Out Strobe := do
  let len ← encodeLen data.length
  let s ← metaAd f label false s
  let s ← metaAd f len true s
  ad f data false s

/-- `Transcript::challenge_bytes` into a buffer of `n` bytes.
External (merlin `transcript.rs`), called at `transcript.rs` l. 28. -/
def challengeBytes (f : KState → KState) (label : List UInt8) (n : Nat) (s : Strobe) :
    Out (List UInt8 × Strobe) := do
  let len ← encodeLen n
  let s ← metaAd f label false s
  let s ← metaAd f len true s
  prf f n false s

/-- `Transcript::new`.  External (merlin `transcript.rs`), called at `wasm.rs` l. 43, 76. -/
def transcriptNew (f : KState → KState) (label : List UInt8) : Out Strobe := do
  let s ← strobeNew f (ascii "Merlin v1.0")
  appendMessage f (ascii "dom-sep") label s

/-- A call on the transcript: a message, or a challenge of `n` bytes.
The calls are those of `transcript.rs` l. 15, 19, 23, 28. -/
inductive Call
  | append (label data : List UInt8)
  | chal (label : List UInt8) (n : Nat)
  deriving DecidableEq

/-- One call; the bytes of a challenge are dropped.  `transcript.rs` l. 15, 19, 23, 28. -/
def call (f : KState → KState) (s : Strobe) : Call → Out Strobe
  | .append label data => appendMessage f label data s
  | .chal label n => do
    let r ← challengeBytes f label n s
    pure r.2

/-- The bytes of a challenge of `n` bytes made after a sequence of calls on a new transcript.
`transcript.rs` l. 26–30. -/
def challengeAfter (f : KState → KState) (name : List UInt8) (calls : List Call) (label : List UInt8) (n : Nat) :
    Out (List UInt8) := do
  let s ← transcriptNew f name
  let s ← calls.foldlM (call f) s
  let r ← challengeBytes f label n s
  pure r.1

end Spartan.Merlin
