import Verif.Model.Bincode

/-!
The command-line tool that turns a compiled circom circuit into the circuit file of the library:
`circuit_reader/src/bin/gen_spartan_inst.rs`.
-/

namespace Spartan

/-- The sign that `str::parse` drops.  `gen_spartan_inst.rs` l. 11. -/
def stripPlus : List Char → List Char
  | '+' :: t => t
  | s => s

/-- `str::parse::<usize>` (Rust's core library, called at `gen_spartan_inst.rs` l. 11): an optional
`+`, then at least one decimal digit and nothing else; an error when the number does not fit. -/
def parseUsize (bits : Nat) (s : List Char) : Option Nat :=
  let ds := stripPlus s
  if ds = [] then none
  else if ds.all Char.isDigit then
    let n := ds.foldl (fun n c => n * 10 + (c.toNat - '0'.toNat)) 0
    if n < 2 ^ bits then some n else none
  else none

/-- `main` of `gen_spartan_inst.rs`, l. 8–24.  `args` is `std::env::args()`, with the name of the
program at index 0; `files` is what `File::open` and reading find under a path (relative to the
working directory).  The result is the path and the contents of the file written.  Every failure is a
panic; `bincode::serialize` of an instance cannot fail.  Not modelled: failures of creating and
writing the output file, and the line printed. -/
def genSpartanInst {F P : Type} [Field F] (W : Wire F P) (K : Codec F)
    (files : String → Option (List UInt8)) (args : List String) : Out (String × List UInt8) :=
  match args[1]?, args[2]?, args[3]? with
  | some inPath, some outPath, some num =>
    match parseUsize W.bits num.toList, files inPath with
    | some numPub, some f => do
      let inst ← loadAsSpartanInst K f numPub
      pure (outPath, W.fInst.enc inst)
    | _, _ => .error .panic
  | _, _, _ => .error .panic

end Spartan
