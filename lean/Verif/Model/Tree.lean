import Verif.Model.Lib
import Verif.Model.Poseidon
import Verif.Spec.Merkle

/-!
The TypeScript hash and Merkle tree helpers: `packages/lib/src/helpers/poseidon.ts` and
`helpers/tree.ts`, with the class `IncrementalMerkleTree` of `@zk-kit/incremental-merkle-tree` 1.0.0
that `tree.ts` wraps.  The sources of that package are not in the repository; the model follows its
published code.  `none` is a thrown exception.  A method that throws after it has changed the tree
leaves the changes, so methods return the tree as well.
-/

namespace Spartan.Lib

/-! ### helpers/poseidon.ts -/

/-- The loop of `Poseidon.hash`, poseidon.ts l. 7–9, from input `i` on. -/
def fillInputs : List Nat → Nat → List UInt8 → Option (List UInt8)
  | [], _, bs => some bs
  | n :: ns, i, bs => do fillInputs ns (i + 1) (← setAt bs (bigIntToLeBytes n 32) (i * 32))

/-- `Poseidon.hash`, poseidon.ts l. 5–13.  A panic of the wasm function is an exception. -/
def poseidonHash (inputs : List Nat) : Option Nat := do
  let inputsBytes ← fillInputs inputs 0 (List.replicate (32 * inputs.length) 0)
  match wasmPoseidon inputsBytes with
  | .ok result => bytesLeToBigInt result
  | .error _ => none

/-- `Poseidon.hashPubKey`, poseidon.ts l. 19–25: digits 0 to 63 and 64 to 127 of the hexadecimal string
are the first 32 bytes and the next 32 bytes. -/
def hashPubKey (pubKey : List UInt8) : Option Nat := do
  let x ← bytesToBigInt (slice pubKey 0 32)
  let y ← bytesToBigInt (slice pubKey 32 64)
  poseidonHash [x, y]

/-! ### @zk-kit/incremental-merkle-tree -/

/-- `IncrementalMerkleTree` with arity 2.  `nodes` has a row of nodes for each level below the root; an
assignment behind the end of a row leaves holes, which are `none`.
External (`@zk-kit/incremental-merkle-tree`), held at `tree.ts` l. 8 and 15. -/
structure MerkleTree where
  depth : Nat
  zeroes : List Nat
  nodes : List (List (Option Nat))
  root : Nat
  deriving DecidableEq

/-- The loop of the constructor: the hashes of empty subtrees and the default root.
External, called at `tree.ts` l. 15. -/
def zeroLoop (hash : List Nat → Option Nat) : Nat → Nat → Option (List Nat × Nat)
  | 0, z => some ([], z)
  | d + 1, z => do
    let (zs, r) ← zeroLoop hash d (← hash [z, z])
    some (z :: zs, r)

/-- `new IncrementalMerkleTree(hash, depth, BigInt(0))`, called from the constructor of `Tree`, tree.ts
l. 10–16: the depth must be between 1 and 32. -/
def MerkleTree.new (hash : List Nat → Option Nat) (depth : Nat) : Option MerkleTree :=
  if depth < 1 ∨ 32 < depth then none else do
    let (zs, r) ← zeroLoop hash depth 0
    some ⟨depth, zs, List.replicate depth [], r⟩

/-- `arr[i] = v` for an array that may be too short.
External, below the calls at `tree.ts` l. 19 and 23. -/
def assign (row : List (Option Nat)) (i : Nat) (v : Nat) : List (Option Nat) :=
  if i < row.length then row.set i (some v) else row ++ List.replicate (i - row.length) none ++ [some v]

/-- The nodes at `level` with a given index, or the zero of the level behind the end of the row.
External, below the calls at `tree.ts` l. 19 and 23. -/
def nodeOrZero (zeroes : List Nat) (nodes : List (List (Option Nat))) (level i : Nat) : Option Nat :=
  let row := nodes.getD level []
  if i < row.length then row.getD i none else zeroes[level]?

/-- The hash of two children; an `undefined` child is a `TypeError`.
External, below the calls at `tree.ts` l. 19 and 23. -/
def hashChildren (hash : List Nat → Option Nat) (l r : Option Nat) : Option Nat := do
  hash [← l, ← r]

/-- The loop shared by `insert` and `update`: write the node, hash it with its neighbour and go one
level up, for the given number of levels from `level` on.  The second component is the new root.
External, below the calls at `tree.ts` l. 19 and 23. -/
def climb (hash : List Nat → Option Nat) (zeroes : List Nat) :
    Nat → Nat → Nat → Nat → List (List (Option Nat)) → List (List (Option Nat)) × Option Nat
  | 0, _, _, node, nodes => (nodes, some node)
  | n + 1, level, index, node, nodes =>
    let start := index - index % 2
    let nodes := nodes.set level (assign (nodes.getD level []) index node)
    match hashChildren hash (nodeOrZero zeroes nodes level start) (nodeOrZero zeroes nodes level (start + 1)) with
    | none => (nodes, none)
    | some parent => climb hash zeroes n (level + 1) (index / 2) parent nodes

/-- The end of `insert` and `update`: the root is stored if the loop returned.
External, below the calls at `tree.ts` l. 19 and 23. -/
def MerkleTree.store (t : MerkleTree) (r : List (List (Option Nat)) × Option Nat) : MerkleTree × Bool :=
  match r.2 with
  | some root => ({ t with nodes := r.1, root := root }, true)
  | none => ({ t with nodes := r.1 }, false)

/-- `insert`, tree.ts l. 18–20: the tree afterwards and whether the method returned. -/
def MerkleTree.insert (hash : List Nat → Option Nat) (t : MerkleTree) (leaf : Nat) : MerkleTree × Bool :=
  let row := t.nodes.getD 0 []
  if 2 ^ t.depth ≤ row.length then (t, false)
  else t.store (climb hash t.zeroes t.depth 0 row.length leaf t.nodes)

/-- `delete`, tree.ts l. 22–24: an update with the zero of level 0. -/
def MerkleTree.delete (hash : List Nat → Option Nat) (t : MerkleTree) (index : Nat) : MerkleTree × Bool :=
  if index < (t.nodes.getD 0 []).length then
    t.store (climb hash t.zeroes t.depth 0 index (t.zeroes.getD 0 0) t.nodes)
  else (t, false)

/-- A call of `insert` or `delete`.  `tree.ts` l. 18–24. -/
def MerkleTree.apply (hash : List Nat → Option Nat) (t : MerkleTree) : Spec.TreeOp → MerkleTree × Bool
  | .insert leaf => t.insert hash leaf
  | .delete index => t.delete hash index

/-- A sequence of calls, each of which may throw.  `tree.ts` l. 18–24. -/
def MerkleTree.run (hash : List Nat → Option Nat) : List Spec.TreeOp → MerkleTree → MerkleTree × List Bool
  | [], t => (t, [])
  | op :: ops, t =>
    let r := t.apply hash op
    let rest := MerkleTree.run hash ops r.1
    (rest.1, r.2 :: rest.2)

/-- `leaves`, tree.ts l. 26–28. -/
def MerkleTree.leaves (t : MerkleTree) : List (Option Nat) := t.nodes.getD 0 []

/-- `indexOf`, tree.ts l. 34–36; `none` is -1. -/
def MerkleTree.indexOf (t : MerkleTree) (leaf : Nat) : Option Nat := t.leaves.idxOf? (some leaf)

/-- `MerkleProof`, types/index.ts l. 6–10.  Each entry of `siblings` is a list, with one element as the
trees are binary; the model has the element. -/
structure MerkleProof where
  root : Nat
  siblings : List (Option Nat)
  pathIndices : List Nat
  deriving DecidableEq

/-- The loop of `createProof`.  External, below the call at `tree.ts` l. 39. -/
def pathLoop (t : MerkleTree) : Nat → Nat → Nat → List (Option Nat) × List Nat
  | 0, _, _ => ([], [])
  | n + 1, level, index =>
    let sib := nodeOrZero t.zeroes t.nodes level (if index % 2 = 0 then index + 1 else index - 1)
    let rest := pathLoop t n (level + 1) (index / 2)
    (sib :: rest.1, index % 2 :: rest.2)

/-- `createProof`, tree.ts l. 38–45. -/
def MerkleTree.createProof (t : MerkleTree) (index : Nat) : Option MerkleProof :=
  if index < (t.nodes.getD 0 []).length then
    let r := pathLoop t t.depth 0 index
    some ⟨t.root, r.1, r.2⟩
  else none

/-- `children.splice(position, 0, node)` on the list with one sibling: positions from 1 on append,
as does `undefined` for 0.  External, below the call at `tree.ts` l. 48. -/
def splice (position : Option Nat) (node : Nat) (sibling : Option Nat) : Option Nat × Option Nat :=
  match position with
  | some (_ + 1) => (sibling, some node)
  | _ => (some node, sibling)

/-- The loop of `verifyProof`.  External, below the call at `tree.ts` l. 48. -/
def verifyLoop (hash : List Nat → Option Nat) : List (Option Nat) → List Nat → Nat → Option Nat
  | [], _, node => some node
  | s :: ss, ps, node => do
    let c := splice ps.head? node s
    verifyLoop hash ss ps.tail (← hashChildren hash c.1 c.2)

/-- `verifyProof`, tree.ts l. 47–49. -/
def verifyMerkleProof (hash : List Nat → Option Nat) (proof : MerkleProof) (leaf : Nat) : Option Bool := do
  let node ← verifyLoop hash proof.siblings proof.pathIndices leaf
  some (proof.root == node)

end Spartan.Lib
