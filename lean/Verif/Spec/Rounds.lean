import Verif.Model.Base
import Mathlib.Data.Finset.Card

/-! Vocabulary for round-by-round soundness: an accepted non-interactive run read as the run of a
public-coin protocol in which the prover sends messages and receives random challenges. -/

namespace Spartan.Spec
variable {F P M : Type} [Field F]

/-- A message with its point replaced by `rep` of it. -/
def mapPt (rep : P → M) : Msg F P → Msg F M
  | .bytes l d => .bytes l d
  | .u64 l n => .u64 l n
  | .blob l d => .blob l d
  | .scalar l x => .scalar l x
  | .point l p => .point l (rep p)
  | .chal l => .chal l

/-- One round: what the prover sent since the previous challenge, and the challenge received. -/
abbrev Round (F M : Type) := List (Msg F M) × F

/-- The rounds of a run that extends the transcript `tr` by `ms`, and the messages sent after the last
challenge.  `cur` holds the messages sent since the previous challenge; the challenge is the hash of
everything absorbed before it. -/
def rounds (H : Tr F P → F) (rep : P → M) :
    Tr F P → List (Msg F M) → List (Msg F P) → List (Round F M) × List (Msg F M)
  | _, cur, [] => ([], cur)
  | tr, cur, m :: ms =>
    match m with
    | .chal l =>
      ((cur, H (tr ++ [.chal l])) :: (rounds H rep (tr ++ [.chal l]) [] ms).1,
        (rounds H rep (tr ++ [.chal l]) [] ms).2)
    | m => rounds H rep (tr ++ [m]) (cur ++ [mapPt rep m]) ms

/-- For every history and every message of the prover, a set of unfavourable challenges. -/
abbrev Bads (F M : Type) := List (Round F M) → List (Msg F M) → Set F

/-- The set `S` has at most `d` elements. -/
def AtMost (d : Nat) (S : Set F) : Prop := ∃ s : Finset F, s.card ≤ d ∧ S ⊆ ↑s

/-- Some round of `Rs` received a challenge that was unfavourable when it was drawn. -/
def Hit (B : Bads F M) (Rs : List (Round F M)) : Prop :=
  ∃ hist ms x rest, Rs = hist ++ (ms, x) :: rest ∧ x ∈ B hist ms

/-- The run of a prover strategy `σ` (next message from the challenges received) on the challenges
`xs`, the challenges `past` having been received already. -/
def play (σ : List F → List (Msg F M)) (past : List F) : List F → List (Round F M)
  | [] => []
  | x :: xs => (σ past, x) :: play σ (past ++ [x]) xs

end Spartan.Spec
