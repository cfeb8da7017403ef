import Verif.Model.Poly

/-!
The variant of `DensePolynomial::commit_inner` for several threads (feature `multicore`),
`dense_mlpoly.rs` l. 148–162: a parallel iterator of rayon (1.7.0 in `Cargo.lock`), collected into a vector.

rayon is not in `/repo`; transcribed are `bridge_producer_consumer` (splitting a range in two while it likes to),
`join` (both halves run, in any interleaving; a panic is passed on when the other half is finished), the
consumer of `collect` (each part writes its results into its own part of the vector's memory) and the check
of the number of writes.  Whether a range is split and which thread runs which part when is left open: the
theorems are about every sequence of steps.
-/

namespace Spartan.Par

/-- A part of the work.  Producer: `len` numbers from `lo` on; consumer: `room` places from `at` on.
External (rayon `plumbing/mod.rs`, `collect/consumer.rs`), called at `dense_mlpoly.rs` l. 153–160. -/
inductive Task where
  /-- `helper` has not decided yet whether to split -/
  | todo (lo len pos room : ℕ)
  /-- `fold_with`: `k` numbers are done -/
  | fold (lo len pos room k : ℕ)
  /-- `join_context` of two parts -/
  | join (l r : Task)
  /-- `CollectResult`: `k` places from `pos` on are filled -/
  | done (pos k : ℕ)
  | panicked

/-- The memory of the vector; `none`: not initialised.  `Vec::reserve`, below `dense_mlpoly.rs` l. 160. -/
abbrev Mem (α : Type) := ℕ → Option α

/-- `CollectReducer::reduce`.  External (rayon `collect/consumer.rs`), below `dense_mlpoly.rs` l. 160. -/
def reduce (a m b k : ℕ) : Task := if a + m = b then .done a (m + k) else .done a m

variable {α : Type}

/-- One step of one thread.  External (rayon), below `dense_mlpoly.rs` l. 153–160; `f` is the closure of
l. 155–159. -/
inductive Step (f : ℕ → Out α) : Task → Mem α → Task → Mem α → Prop where
  /-- `splitter.try_split` says yes: both sides are split at `len / 2` -/
  | split {lo len pos room m} : 2 ≤ len → len / 2 ≤ room →
    Step f (.todo lo len pos room) m
      (.join (.todo lo (len / 2) pos (len / 2)) (.todo (lo + len / 2) (len - len / 2) (pos + len / 2) (room - len / 2))) m
  /-- the assertion of `CollectConsumer::split_at` -/
  | splitPanic {lo len pos room m} : 2 ≤ len → ¬ len / 2 ≤ room → Step f (.todo lo len pos room) m .panicked m
  /-- `splitter.try_split` says no -/
  | start {lo len pos room m} : Step f (.todo lo len pos room) m (.fold lo len pos room 0) m
  /-- `CollectFolder::consume` -/
  | item {lo len pos room k m v} : k < len → k < room → f (lo + k) = .ok v →
    Step f (.fold lo len pos room k) m (.fold lo len pos room (k + 1)) (Function.update m (pos + k) (some v))
  /-- the assertion of `CollectFolder::consume` -/
  | itemPanic {lo len pos room k m v} : k < len → ¬ k < room → f (lo + k) = .ok v →
    Step f (.fold lo len pos room k) m .panicked m
  /-- the closure panics -/
  | fail {lo len pos room k m e} : k < len → f (lo + k) = .error e → Step f (.fold lo len pos room k) m .panicked m
  /-- `complete` -/
  | finish {lo len pos room m} : Step f (.fold lo len pos room len) m (.done pos len) m
  | left {l l' r m m'} : Step f l m l' m' → Step f (.join l r) m (.join l' r) m'
  | right {l r r' m m'} : Step f r m r' m' → Step f (.join l r) m (.join l r') m'
  | reduce {a i b k m} : Step f (.join (.done a i) (.done b k)) m (reduce a i b k) m
  | panicLeft {b k m} : Step f (.join .panicked (.done b k)) m .panicked m
  | panicRight {a i m} : Step f (.join (.done a i) .panicked) m .panicked m
  | panicBoth {m} : Step f (.join .panicked .panicked) m .panicked m

/-- Any number of steps, counted. -/
inductive Steps (f : ℕ → Out α) : ℕ → Task → Mem α → Task → Mem α → Prop where
  | refl {t m} : Steps f 0 t m t m
  | tail {n t m t' m' t'' m''} : Steps f n t m t' m' → Step f t' m' t'' m'' → Steps f (n + 1) t m t'' m''

/-- The whole work.  `dense_mlpoly.rs` l. 153–154. -/
def begin (n : ℕ) : Task := .todo 0 n 0 n

/-- `collect_with_consumer`: the number of writes is checked, then the memory becomes the vector.  `none`: not
finished.  External (rayon `collect/mod.rs`), `dense_mlpoly.rs` l. 160. -/
def collected (n : ℕ) (m : Mem α) : Task → Option (Out (List (Option α)))
  | .done _ k => some (if k = n then .ok ((List.range n).map m) else .error .panic)
  | .panicked => some (.error .panic)
  | _ => none

section
variable {F G P : Type} [Field F] [AddCommGroup G] [Module F G] [DecidableEq F] [DecidableEq P] [DecidableEq G]

/-- The closure, `dense_mlpoly.rs` l. 155–159. -/
def commitRow (E : Env F G P) (d : Dense F) (blinds : List F) (g : Gens G) (rSize i : ℕ) : Out P := do
  check (rSize * (i + 1) ≤ d.Z.length)
  let b ← idx blinds i
  let c ← commitV ((d.Z.drop (rSize * i)).take rSize) b g
  pure (E.compress c)

/-- `commit_inner` with the feature `multicore`, `dense_mlpoly.rs` l. 148–162: the possible results.  The list
contains `none` if memory that was not written is returned. -/
inductive CommitInner (E : Env F G P) (d : Dense F) (blinds : List F) (g : Gens G) : Out (List (Option P)) → Prop where
  | noRows : blinds.length = 0 → CommitInner E d blinds g (.error .panic)
  | shape : blinds.length ≠ 0 → blinds.length * (d.Z.length / blinds.length) ≠ d.Z.length →
    CommitInner E d blinds g (.error .panic)
  | run {k t m r} : blinds.length ≠ 0 → blinds.length * (d.Z.length / blinds.length) = d.Z.length →
    Steps (commitRow E d blinds g (d.Z.length / blinds.length)) k (begin blinds.length) (fun _ => none) t m →
    collected blinds.length m t = some r → CommitInner E d blinds g r

end

end Spartan.Par
