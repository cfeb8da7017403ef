import Verif.Props.Glue

/-!
C109 for whole histories, C110 (what panics leave behind), and a module that meets the specification.
-/

namespace Spartan.Glue

variable {O : Type}

/-! ### Histories -/

/-- What the library does with the glue; `init` is the completion of one of the (possibly overlapping) initializations. -/
inductive Ev where
  | init
  | prove (a b c : Bytes)
  | verify (a b c : Bytes)
  | poseidon (a : Bytes)

inductive Ans (O : Type) where
  | done
  | bytes (r : Except (Exn O) Bytes)
  | bool (r : Except (Exn O) Bool)

def step (E : Exports O) (boot : Wasm) (s : St O) : Ev → Ans O × St O
  | .init => (.done, finalizeInit boot s)
  | .prove a b c => (.bytes (prove E a b c s).1, (prove E a b c s).2)
  | .verify a b c => (.bool (verify E a b c s).1, (verify E a b c s).2)
  | .poseidon a => (.bytes (poseidon E a s).1, (poseidon E a s).2)

def run (E : Exports O) (boot : Wasm) : St O → List Ev → List (Ans O)
  | _, [] => []
  | s, e :: es => (step E boot s e).1 :: run E boot (step E boot s e).2 es

/-- The answers a caller may get: before the first initialization a type error; afterwards what the module's functions
allow, or a trap when the module panics or the allocator refuses. -/
inductive Allowed (E : Exports O) (base : ℕ) (P : Bytes → Bytes → Bytes → Option (Except (Js O) Bytes) → Prop)
    (V : Bytes → Bytes → Bytes → Option (Except (Js O) Bool) → Prop) (H : Bytes → Option (Except (Js O) Bytes) → Prop) :
    Bool → List Ev → List (Ans O) → Prop
  | nil {b} : Allowed E base P V H b [] []
  | init {b es as} : Allowed E base P V H true es as → Allowed E base P V H b (.init :: es) (.done :: as)
  | early_prove {a b c es as} : Allowed E base P V H false es as →
      Allowed E base P V H false (.prove a b c :: es) (.bytes (.error .typeErr) :: as)
  | early_verify {a b c es as} : Allowed E base P V H false es as →
      Allowed E base P V H false (.verify a b c :: es) (.bool (.error .typeErr) :: as)
  | early_poseidon {a es as} : Allowed E base P V H false es as →
      Allowed E base P V H false (.poseidon a :: es) (.bytes (.error .typeErr) :: as)
  | prove {a b c es as res} : P a b c (some res) → Allowed E base P V H true es as →
      Allowed E base P V H true (.prove a b c :: es) (.bytes (seen res) :: as)
  | verify {a b c es as res} : V a b c (some res) → Allowed E base P V H true es as →
      Allowed E base P V H true (.verify a b c :: es) (.bool (seen res) :: as)
  | poseidon {a es as res} : H a (some res) → Allowed E base P V H true es as →
      Allowed E base P V H true (.poseidon a :: es) (.bytes (seen res) :: as)
  | trap_prove {a b c es as} : P a b c none ∨ (∃ w, WInv base w ∧ allocs E [a, b, c] w = none) →
      Allowed E base P V H true es as → Allowed E base P V H true (.prove a b c :: es) (.bytes (.error .trap) :: as)
  | trap_verify {a b c es as} : V a b c none ∨ (∃ w, WInv base w ∧ allocs E [a, b, c] w = none) →
      Allowed E base P V H true es as → Allowed E base P V H true (.verify a b c :: es) (.bool (.error .trap) :: as)
  | trap_poseidon {a es as} : H a none ∨ (∃ w, WInv base w ∧ allocs E [a] w = none) →
      Allowed E base P V H true es as → Allowed E base P V H true (.poseidon a :: es) (.bytes (.error .trap) :: as)

theorem early {α : Type} {s : St O} (h : s.cur = none) (body : ℤ → M O α) :
    tryFinally (do let retptr ← addSp (-16); body retptr) (do let _ ← addSp 16; pure ()) s = (.error .typeErr, s) := by
  have e : ∀ n, addSp n s = (.error .typeErr, s) := fun n => by
    unfold addSp withWasm
    simp only [h]
  rw [tryFinally, bind_err (e _)]
  simp only [bind_err (e 16)]

theorem finalize_inst (boot : Wasm) (s : St O) : (finalizeInit boot s).insts s.count = boot := Function.update_self ..

theorem finalize_ready {base : ℕ} {boot : Wasm} (hb : WInv base boot) {s : St O} {L : ℕ → Option (Js O)}
    (hh : Hist s.heap L) : Ready base s.count (finalizeInit boot s) L where
  cur := rfl
  u8 _ h := by cases h
  i32 _ h := by cases h
  inv := by rw [finalize_inst]; exact hb
  hist := hh

/-- What the history proof needs of a call. -/
theorem CallOk.next {α : Type} {E : Exports O} {base d k : ℕ} {s : St O} {L : ℕ → Option (Js O)} {args : List Bytes}
    {P : Option (Except (Js O) α) → Prop} {r : Except (Exn O) α × St O} (R : Ready base k s L) (h4 : (s.insts k).sp % 4 = 0)
    (h : CallOk E base d k s L args P r) :
    (∃ L', Ready base k r.2 L') ∧ (s.insts k).sp ≤ (r.2.insts k).sp + d ∧ (r.2.insts k).sp % 4 = 0 ∧
    (r.1 = .error .trap ∧ (P none ∨ ∃ w, WInv base w ∧ allocs E args w = none) ∨ ∃ res, P (some res) ∧ r.1 = seen res) := by
  obtain ⟨L', R', -, -, -, ho⟩ := h
  refine ⟨⟨L', R'⟩, ?_⟩
  rcases ho with ⟨ht, ⟨h1, h2⟩ | ⟨h1, h2, h3, h4⟩⟩ | ⟨h1, -, h3⟩
  · exact ⟨by omega, by omega, Or.inl ⟨ht, Or.inr ⟨{ s.insts k with sp := (s.insts k).sp - 16 }, ⟨le_trans (Nat.sub_le _ _) R.inv.sp_le, R.inv.base_le, R.inv.mem_ge,
      R.inv.inside, R.inv.disj⟩, h1⟩⟩⟩
  · exact ⟨h3, h4, Or.inl ⟨ht, Or.inl h1⟩⟩
  · exact ⟨by omega, by omega, Or.inr h3⟩

theorem run_ready {E : Exports O} {base d : ℕ} {P V H} (G : Good E base d P V H) {boot : Wasm} (hb : WInv base boot)
    (h4 : boot.sp % 4 = 0) (es : List Ev) : ∀ {k : ℕ} {s : St O} {L : ℕ → Option (Js O)},
    16 + es.length * d ≤ boot.sp →
    Ready base k s L → 16 + es.length * d ≤ (s.insts k).sp → (s.insts k).sp % 4 = 0 →
    Allowed E base P V H true es (run E boot s es) := by
  induction es with
  | nil => intro k s L _ _ _ _; exact .nil
  | cons e es ih =>
    intro k s L hB R hs hs4
    rw [List.length_cons, Nat.add_one_mul] at hB hs
    cases e with
    | init =>
      refine .init (ih (k := s.count) (by omega) (finalize_ready hb R.hist) ?_ ?_)
      · show _ ≤ ((finalizeInit boot s).insts s.count).sp
        rw [finalize_inst]; omega
      · show ((finalizeInit boot s).insts s.count).sp % 4 = 0
        rw [finalize_inst]; exact h4
    | prove a b c =>
      obtain ⟨⟨L', R'⟩, h1, h2, h3⟩ := (prove_glue G R (by omega) hs4 a b c).next R hs4
      have ih' := ih (by omega) R' (by omega) h2
      rw [run, step]
      rcases h3 with ⟨ho, hn⟩ | ⟨res, hP, ho⟩
      · rw [ho]; exact .trap_prove hn ih'
      · rw [ho]; exact .prove hP ih'
    | verify a b c =>
      obtain ⟨⟨L', R'⟩, h1, h2, h3⟩ := (verify_glue G R (by omega) hs4 a b c).next R hs4
      have ih' := ih (by omega) R' (by omega) h2
      rw [run, step]
      rcases h3 with ⟨ho, hn⟩ | ⟨res, hP, ho⟩
      · rw [ho]; exact .trap_verify hn ih'
      · rw [ho]; exact .verify hP ih'
    | poseidon a =>
      obtain ⟨⟨L', R'⟩, h1, h2, h3⟩ := (poseidon_glue G R (by omega) hs4 a).next R hs4
      have ih' := ih (by omega) R' (by omega) h2
      rw [run, step]
      rcases h3 with ⟨ho, hn⟩ | ⟨res, hP, ho⟩
      · rw [ho]; exact .trap_poseidon hn ih'
      · rw [ho]; exact .poseidon hP ih'

theorem run_early {E : Exports O} {base d : ℕ} {P V H} (G : Good E base d P V H) {boot : Wasm} (hb : WInv base boot)
    (h4 : boot.sp % 4 = 0) (es : List Ev) : ∀ {s : St O} {L : ℕ → Option (Js O)}, 16 + es.length * d ≤ boot.sp →
    s.cur = none → Hist s.heap L → Allowed E base P V H false es (run E boot s es) := by
  induction es with
  | nil => intro s L _ _ _; exact .nil
  | cons e es ih =>
    intro s L hB hc hh
    rw [List.length_cons, Nat.add_one_mul] at hB
    cases e with
    | init =>
      refine .init (run_ready G hb h4 es (k := s.count) (by omega) (finalize_ready hb hh) ?_ ?_)
      · show _ ≤ ((finalizeInit boot s).insts s.count).sp
        rw [finalize_inst]; omega
      · show ((finalizeInit boot s).insts s.count).sp % 4 = 0
        rw [finalize_inst]; exact h4
    | prove a b c =>
      have e : prove E a b c s = (.error .typeErr, s) := early hc _
      rw [run, step, e]
      exact .early_prove (ih (by omega) hc hh)
    | verify a b c =>
      have e : verify E a b c s = (.error .typeErr, s) := early hc _
      rw [run, step, e]
      exact .early_verify (ih (by omega) hc hh)
    | poseidon a =>
      have e : poseidon E a s = (.error .typeErr, s) := early hc _
      rw [run, step, e]
      exact .early_poseidon (ih (by omega) hc hh)

/-- C109.  For every history of calls and completed initializations, in any order, every answer is right, as long as the
stack of the module suffices for every call to panic. -/
theorem glue_history {E : Exports O} {base d : ℕ} {P V H} (G : Good E base d P V H) {boot : Wasm} (hb : WInv base boot)
    (h4 : boot.sp % 4 = 0) (es : List Ev) (hB : 16 + es.length * d ≤ boot.sp) :
    Allowed E base P V H false es (run E boot St.init es) :=
  run_early G hb h4 es hB rfl .init

/-! ### Panics -/

/-- C110 (what holds).  A call that throws an error the module returned leaves the stack pointer, the blocks, their contents
and the handles of the caller as they were. -/
theorem failed_call_clean_partial {E : Exports O} {base d k : ℕ} {P V H} (G : Good E base d P V H) {s s' : St O}
    {L : ℕ → Option (Js O)} (R : Ready base k s L) (h16 : 16 + d ≤ (s.insts k).sp) (h4 : (s.insts k).sp % 4 = 0) {a b c : Bytes}
    {e : Js O} (h : verify E a b c s = (.error (.thrown e), s')) :
    (s'.insts k).sp = (s.insts k).sp ∧ (s'.insts k).blocks = (s.insts k).blocks ∧ Kept (s.insts k).blocks (s.insts k) (s'.insts k) ∧
      ∀ i v, L i = some v → s'.heap.get i = v := by
  obtain ⟨L', R', hx, -, hk, ho⟩ := verify_glue G R h16 h4 a b c
  rw [h] at R' hk ho
  rcases ho with ⟨ho, -⟩ | ⟨h1, h2, -⟩
  · cases ho
  · exact ⟨h1, h2, hk, fun i v hv => ((heap_table R'.hist).2.1 i v (hx i v hv)).1⟩

/-- A call of `verify` during which the module panics with `d` bytes of its stack in use. -/
theorem panic_leaks {E : Exports O} {base k d : ℕ} (A : Alloc E base) {a b c : Bytes}
    (hv : ∀ r p0 p1 p2 w h, E.verify r p0 a.length p1 b.length p2 c.length w h = (false, { w with sp := w.sp - d }, h))
    {s : St O} {L : ℕ → Option (Js O)} (R : Ready base k s L) (h16 : 16 + d ≤ (s.insts k).sp)
    (hm : allocs E [a, b, c] { s.insts k with sp := (s.insts k).sp - 16 } ≠ none) :
    (verify E a b c s).1 = .error .trap ∧ Ready base k (verify E a b c s).2 L ∧
      ((verify E a b c s).2.insts k).sp = (s.insts k).sp - d ∧
      ∃ p0 p1 p2, ((verify E a b c s).2.insts k).blocks =
        (p2, c.length) :: (p1, b.length) :: (p0, a.length) :: (s.insts k).blocks := by
  obtain ⟨p, hp⟩ : ∃ p, (s.insts k).sp = p + 16 := ⟨(s.insts k).sp - 16, by omega⟩
  have hle := R.inv.sp_le
  have hbl := R.inv.base_le
  have eu : ∀ w : Wasm, Function.update s.insts k w k = w := fun w => Function.update_self ..
  have R1 : Ready base k { s with insts := Function.update s.insts k { s.insts k with sp := p } } L :=
    (addSp_ok R (n := -16) (p := p) (by rw [hp]; omega) (by omega)).2
  obtain ⟨s2, S2, h⟩ := pass3 A R1 a b c fun p0 l0 p1 l1 p2 l2 => (do
    withWasm fun w h => called (E.verify (toU32 (p : ℤ)) p0 l0 p1 l1 p2 l2 w h)
    let r0 ← readI32 (p : ℤ) 0
    let r1 ← readI32 (p : ℤ) 1
    let r2 ← readI32 (p : ℤ) 2
    if r2 ≠ 0 then do
      let e ← takeObj r1
      throwE (.thrown e)
    else pure (decide (r0 ≠ 0)))
  simp only [eu] at h
  rcases h with ⟨-, h0⟩ | ⟨p0, p1, p2, hb, -, -, -, -, h⟩
  · rw [show (s.insts k).sp - 16 = p by omega] at hm
    exact absurd h0 hm
  have hs2 : (s2.insts k).sp = p := by rw [S2.sp]; exact congrArg Wasm.sp (eu _)
  have ew : (withWasm fun w h => called (E.verify (toU32 (p : ℤ)) p0 a.length p1 b.length p2 c.length w h)) s2 =
      (.error .trap, { s2 with insts := Function.update s2.insts k { s2.insts k with sp := (s2.insts k).sp - d } }) := by
    rw [withWasm_eq S2.ready.cur, hv]; rfl
  have R3 := setInst S2.ready (w := { s2.insts k with sp := (s2.insts k).sp - d })
    ⟨le_trans (Nat.sub_le _ _) S2.ready.inv.sp_le, S2.ready.inv.base_le, S2.ready.inv.mem_ge, S2.ready.inv.inside,
      S2.ready.inv.disj⟩ S2.ready.hist
  have eu2 : ∀ w : Wasm, Function.update s2.insts k w k = w := fun w => Function.update_self ..
  obtain ⟨e, R4⟩ := frame_eq (body := fun retptr => (do
      let p0 ← passArray8 E a; let l0 ← getVecLen; let p1 ← passArray8 E b; let l1 ← getVecLen
      let p2 ← passArray8 E c; let l2 ← getVecLen
      withWasm fun w h => called (E.verify (toU32 retptr) p0 l0 p1 l1 p2 l2 w h)
      let r0 ← readI32 retptr 0
      let r1 ← readI32 retptr 1
      let r2 ← readI32 retptr 2
      if r2 ≠ 0 then do
        let e ← takeObj r1
        throwE (.thrown e)
      else pure (decide (r0 ≠ 0)))) R hp (h.trans (bind_err ew)) R3
    (by show (Function.update s2.insts k { s2.insts k with sp := (s2.insts k).sp - d } k).sp ≤ p
        rw [eu2]; show (s2.insts k).sp - d ≤ p; omega)
  have hV : verify E a b c s = _ := e
  rw [hV]
  refine ⟨rfl, R4, ?_, p0, p1, p2, ?_⟩
  · show (Function.update (Function.update s2.insts k { s2.insts k with sp := (s2.insts k).sp - d }) k _ k).sp = _
    rw [Function.update_self]
    show (Function.update s2.insts k { s2.insts k with sp := (s2.insts k).sp - d } k).sp + 16 = _
    rw [eu2]
    show (s2.insts k).sp - d + 16 = _
    omega
  · show (Function.update (Function.update s2.insts k { s2.insts k with sp := (s2.insts k).sp - d }) k _ k).blocks = _
    rw [Function.update_self]
    show (Function.update s2.insts k { s2.insts k with sp := (s2.insts k).sp - d } k).blocks = _
    rw [eu2]
    exact hb

/-- The state after `n` calls of `verify` whose exceptions are caught. -/
def verifyMany (E : Exports O) (a b c : Bytes) (s : St O) : ℕ → St O
  | 0 => s
  | n + 1 => (verify E a b c (verifyMany E a b c s n)).2

/-- C110 (what fails).  When the module panics with `d` bytes of its stack in use, each call lowers the stack pointer by `d`
for good and leaves the copies of its three arguments allocated, so that only so many panics fit. -/
theorem panics_leak {E : Exports O} {base k d : ℕ} (A : Alloc E base) {a b c : Bytes}
    (hv : ∀ r p0 p1 p2 w h, E.verify r p0 a.length p1 b.length p2 c.length w h = (false, { w with sp := w.sp - d }, h))
    {s : St O} {L : ℕ → Option (Js O)} (R : Ready base k s L) (n : ℕ) (h16 : 16 + n * d ≤ (s.insts k).sp)
    (hm : ∀ i < n, allocs E [a, b, c] { (verifyMany E a b c s i).insts k with
      sp := ((verifyMany E a b c s i).insts k).sp - 16 } ≠ none) :
    (∀ i < n, (verify E a b c (verifyMany E a b c s i)).1 = .error .trap) ∧
    ((verifyMany E a b c s n).insts k).sp = (s.insts k).sp - n * d ∧
    ((verifyMany E a b c s n).insts k).blocks.length = (s.insts k).blocks.length + 3 * n := by
  suffices h : Ready base k (verifyMany E a b c s n) L ∧ (∀ i < n, (verify E a b c (verifyMany E a b c s i)).1 = .error .trap) ∧
      ((verifyMany E a b c s n).insts k).sp = (s.insts k).sp - n * d ∧
      ((verifyMany E a b c s n).insts k).blocks.length = (s.insts k).blocks.length + 3 * n from h.2
  induction n with
  | zero => exact ⟨R, fun i hi => absurd hi (Nat.not_lt_zero i), by rw [Nat.zero_mul]; rfl, rfl⟩
  | succ n ih =>
    rw [Nat.add_one_mul] at h16
    obtain ⟨R', ht, hsp, hbl⟩ := ih (by omega) fun i hi => hm i (by omega)
    obtain ⟨h1, h2, h3, p0, p1, p2, h4⟩ := panic_leaks A hv R' (by rw [hsp]; omega) (hm n (by omega))
    refine ⟨h2, fun i hi => ?_, ?_, ?_⟩
    · rcases Nat.lt_succ_iff_lt_or_eq.1 hi with hi | rfl
      · exact ht i hi
      · exact h1
    · rw [verifyMany, h3, hsp, Nat.add_one_mul]; omega
    · rw [verifyMany, h4, List.length_cons, List.length_cons, List.length_cons, hbl]; omega

end Spartan.Glue
