import Mathlib.Data.Nat.Notation

/-! Merkle paths over a two-to-one hash. -/

namespace Spartan.Spec

variable {F : Type}

/-- The pair hashed at one level: the node `h` is the right child when `right` holds. -/
def pairAt (right : Bool) (h sibling : F) : F × F := if right then (sibling, h) else (h, sibling)

/-- The node reached from `leaf` after `n` levels. -/
def pathNode (H : F → F → F) (leaf : F) (right : ℕ → Bool) (siblings : ℕ → F) : ℕ → F
  | 0 => leaf
  | n + 1 =>
    let p := pairAt (right n) (pathNode H leaf right siblings n) (siblings n)
    H p.1 p.2

/-- The node with index `i` at height `l` of the complete binary tree over the leaves. -/
def subtree (H : F → F → F) (leaves : ℕ → F) : ℕ → ℕ → F
  | 0, i => leaves i
  | l + 1, i => H (subtree H leaves l (2 * i)) (subtree H leaves l (2 * i + 1))

/-- The Merkle root of a list of leaves in a tree of the given depth; missing leaves are `zero`. -/
def merkleRoot (H : F → F → F) (zero : F) (depth : ℕ) (leaves : List F) : F :=
  subtree H (fun i => leaves.getD i zero) depth 0

/-- A call that changes a tree. -/
inductive TreeOp where
  | insert (leaf : ℕ)
  | delete (index : ℕ)

/-- What a call does to the list of leaves, and whether it returns: a tree of depth `d` has room for
`2^d` leaves, and a deleted leaf becomes 0. -/
def treeStep (d : ℕ) (leaves : List ℕ) : TreeOp → List ℕ × Bool
  | .insert leaf => if leaves.length < 2 ^ d then (leaves ++ [leaf], true) else (leaves, false)
  | .delete index => if index < leaves.length then (leaves.set index 0, true) else (leaves, false)

/-- The leaves after a sequence of calls, and which of them returned. -/
def treeRun (d : ℕ) : List TreeOp → List ℕ → List ℕ × List Bool
  | [], leaves => (leaves, [])
  | op :: ops, leaves =>
    let r := treeStep d leaves op
    let rest := treeRun d ops r.1
    (rest.1, r.2 :: rest.2)

end Spartan.Spec
