import Verif.Spec.Rounds

/-! Vocabulary for the non-interactive proofs with the transcript hash as a random function: a prover
that evaluates the hash adaptively.  `W` is the type of hash values (the bytes from which a challenge is
computed). -/

namespace Spartan.Spec
variable {F P M W : Type} [Field F]

/-- A transcript in which every point carries the combination of generators by which it was made. -/
def annot (rep : P → M) (tr : Tr F P) : Tr F (P × M) := tr.map (mapPt fun p => (p, rep p))

/-- The bare transcript. -/
def strip (tr : Tr F (P × M)) : Tr F P := tr.map (mapPt Prod.fst)

/-- The answers to the first `n` hash evaluations of a prover; `ask` computes the next transcript to be
hashed from the answers received so far. -/
def answers (H : Tr F P → W) (ask : List W → Tr F (P × M)) : Nat → List W
  | 0 => []
  | n + 1 => answers H ask n ++ [H (strip (ask (answers H ask n)))]

/-- The transcript hashed in evaluation number `i`. -/
def query (H : Tr F P → W) (ask : List W → Tr F (P × M)) (i : Nat) : Tr F (P × M) :=
  ask (answers H ask i)

/-- The `q` hash evaluations of a prover whose proof makes the verifier extend the transcript `tr` by
`ms`: the prover used one combination per point (otherwise it knows two for the same point, hence a
relation between the generators), evaluated successive challenges of one transcript in order (as
computing them does: the transcript state after a challenge contains it), and evaluated all challenges of
its own proof. -/
structure Asked (H : Tr F P → W) (ask : List W → Tr F (P × M)) (q : Nat) (rep : P → M)
    (tr ms : Tr F P) : Prop where
  annotated : ∀ i < q, ∃ t, query H ask i = annot rep t
  inOrder : ∀ i < q, ∀ a l b, strip (query H ask i) = tr ++ a ++ .chal l :: b → b ≠ [] →
    ∃ i' < i, strip (query H ask i') = tr ++ a ++ [.chal l]
  complete : ∀ a l b, ms = a ++ .chal l :: b → ∃ i < q, strip (query H ask i) = tr ++ a ++ [.chal l]

end Spartan.Spec
