import Verif.Model.Async
import Verif.Props.Lib
import Verif.Props.Prover

/-!
The asynchronous calls of the library, for every interleaving.
-/

namespace Spartan.Async

variable {S : Sys}

/-! ### Following one call through a history -/

theorem exec_snoc (w : World) (acts : List Act) (a : Act) : exec S w (acts ++ [a]) = step S (exec S w acts) a := by
  unfold exec
  rw [List.foldl_append]
  rfl

theorem exec_append (w : World) (as bs : List Act) : exec S w (as ++ bs) = exec S (exec S w as) bs :=
  List.foldl_append

theorem step_other {w : World} {a : Act} {k : ℕ} (ha : a ≠ .resume k) {c : Call} (h : w.calls[k]? = some c) :
    (step S w a).calls[k]? = some c := by
  have hlt : k < w.calls.length := by
    rw [List.getElem?_eq_some_iff] at h
    exact h.1
  cases a with
  | verify => simpa only [step, List.getElem?_append_left hlt] using h
  | prove => simpa only [step, List.getElem?_append_left hlt] using h
  | init => simpa only [step, List.getElem?_append_left hlt] using h
  | write => exact h
  | setFile => exact h
  | resume j =>
    have hj : j ≠ k := fun e => ha (e ▸ rfl)
    simp only [step]
    cases w.calls[j]? with
    | none => exact h
    | some c' => simpa only [List.getElem?_set_ne hj] using h

theorem step_self {w : World} {k : ℕ} {c : Call} (h : w.calls[k]? = some c) :
    (step S w (.resume k)).calls[k]? = some (resume S w c).1 := by
  have hlt : k < w.calls.length := by
    rw [List.getElem?_eq_some_iff] at h
    exact h.1
  simp only [step, h, List.getElem?_set_self hlt]

/-- The world after the first `n` actions. -/
noncomputable def atTime (S : Sys) (w : World) (acts : List Act) (n : ℕ) : World := exec S w (acts.take n)

theorem atTime_succ {w : World} {acts : List Act} {n : ℕ} (h : n < acts.length) :
    atTime S w acts (n + 1) = step S (atTime S w acts n) acts[n] := by
  unfold atTime
  rw [List.take_succ_eq_append_getElem h, exec_snoc]

theorem track {w : World} {acts : List Act} {k : ℕ} {c0 : Call} {I : ℕ → Call → Prop}
    (h0 : w.calls[k]? = some c0) (hI : I 0 c0) (hmono : ∀ n c, I n c → I (n + 1) c)
    (hstep : ∀ n c, n < acts.length → I n c → I (n + 1) (resume S (atTime S w acts n) c).1) :
    ∀ n ≤ acts.length, ∃ c, (atTime S w acts n).calls[k]? = some c ∧ I n c := by
  intro n
  induction n with
  | zero => intro _; exact ⟨c0, by simpa [atTime, exec] using h0, hI⟩
  | succ n ih =>
    intro hn
    obtain ⟨c, hc, hIc⟩ := ih (by omega)
    rw [atTime_succ (by omega)]
    by_cases ha : acts[n]'(by omega) = .resume k
    · rw [ha]
      exact ⟨_, step_self hc, hstep n c (by omega) hIc⟩
    · exact ⟨c, step_other ha hc, hmono n c hIc⟩

theorem track_end {w : World} {acts : List Act} {k : ℕ} {c0 : Call} {I : ℕ → Call → Prop}
    (h0 : w.calls[k]? = some c0) (hI : I 0 c0) (hmono : ∀ n c, I n c → I (n + 1) c)
    (hstep : ∀ n c, n < acts.length → I n c → I (n + 1) (resume S (atTime S w acts n) c).1) {c : Call}
    (hc : (exec S w acts).calls[k]? = some c) : I acts.length c := by
  obtain ⟨c', h, hI⟩ := track h0 hI hmono hstep acts.length (le_refl _)
  rw [atTime, List.take_length, hc] at h
  cases h
  exact hI

/-! ### What a step changes -/

theorem resume_fst_files (w : World) (c : Call) :
    (resume S w c).2.files = w.files ∧ (resume S w c).2.mem = w.mem ∧ (w.ready = true → (resume S w c).2.ready = true) := by
  unfold resume
  split <;> (try split) <;> (try split) <;> exact ⟨rfl, rfl, fun h => by first | exact h | rfl⟩

theorem step_ready {w : World} (a : Act) (h : w.ready = true) : (step S w a).ready = true := by
  cases a with
  | resume k =>
    simp only [step]
    split
    · exact h
    · exact (resume_fst_files w _).2.2 h
  | _ => exact h

theorem exec_ready {w : World} (acts : List Act) (h : w.ready = true) : (exec S w acts).ready = true := by
  induction acts generalizing w with
  | nil => exact h
  | cons a as ih => exact ih (step_ready a h)

theorem step_mem {w : World} {a : Act} {x : ℕ} (h : ∀ bs, a ≠ .write x bs) : (step S w a).mem x = w.mem x := by
  cases a with
  | resume k =>
    simp only [step]
    split
    · rfl
    · simp only [(resume_fst_files w _).2.1]
  | write y bs =>
    have hy : x ≠ y := fun e => h bs (e ▸ rfl)
    simp only [step, Function.update_of_ne hy]
  | _ => rfl

theorem step_files {w : World} {a : Act} {x : String} (h : ∀ bs, a ≠ .setFile x bs) :
    (step S w a).files x = w.files x := by
  cases a with
  | resume k =>
    simp only [step]
    split
    · rfl
    · simp only [(resume_fst_files w _).1]
  | setFile y bs =>
    have hy : x ≠ y := fun e => h bs (e ▸ rfl)
    simp only [step, Function.update_of_ne hy]
  | _ => rfl

theorem exec_mem {w : World} {acts : List Act} {x : ℕ} (h : ∀ a ∈ acts, ∀ bs, a ≠ .write x bs) :
    (exec S w acts).mem x = w.mem x := by
  induction acts generalizing w with
  | nil => rfl
  | cons a as ih =>
    exact (ih fun b hb => h b (List.mem_cons_of_mem _ hb)).trans (step_mem (h a List.mem_cons_self))

theorem exec_files {w : World} {acts : List Act} {x : String} (h : ∀ a ∈ acts, ∀ bs, a ≠ .setFile x bs) :
    (exec S w acts).files x = w.files x := by
  induction acts generalizing w with
  | nil => rfl
  | cons a as ih =>
    exact (ih fun b hb => h b (List.mem_cons_of_mem _ hb)).trans (step_files (h a List.mem_cons_self))

/-! ### verify -/

/-- What `verify` knows at each point. -/
def VInv (S : Sys) (w : World) (acts : List Act) (remote : Bool) (path : String) (proof pub : ℕ) (n : ℕ) : Call → Prop
  | .verifyFetch q p u => remote = true ∧ q = path ∧ p = proof ∧ u = pub
  | .verifyLoaded c p u => p = proof ∧ u = pub ∧
      ∃ l ≤ n, (remote = false → l = 0) ∧ c = (atTime S w acts l).files path
  | .verifyRet r | .verifyDone r => ∃ l j, l ≤ j ∧ j ≤ n ∧ (remote = false → l = 0) ∧
      r = match (atTime S w acts l).files path with
        | none => none
        | some c => verifyBody S (atTime S w acts j) c proof pub
  | _ => False

theorem VInv.mono {w : World} {acts : List Act} {remote : Bool} {path : String} {proof pub n : ℕ} {c : Call}
    (h : VInv S w acts remote path proof pub n c) : VInv S w acts remote path proof pub (n + 1) c := by
  cases c with
  | verifyLoaded c p u =>
    obtain ⟨h1, h2, l, h3, h4⟩ := h
    exact ⟨h1, h2, l, h3.trans (Nat.le_succ _), h4⟩
  | verifyRet r =>
    obtain ⟨l, j, h1, h2, h3⟩ := h
    exact ⟨l, j, h1, h2.trans (Nat.le_succ _), h3⟩
  | verifyDone r =>
    obtain ⟨l, j, h1, h2, h3⟩ := h
    exact ⟨l, j, h1, h2.trans (Nat.le_succ _), h3⟩
  | _ => exact h

theorem VInv.resume {w : World} {acts : List Act} {remote : Bool} {path : String} {proof pub n : ℕ} {c : Call}
    (h : VInv S w acts remote path proof pub n c) :
    VInv S w acts remote path proof pub (n + 1) (Async.resume S (atTime S w acts n) c).1 := by
  cases c with
  | verifyFetch q p u =>
    obtain ⟨h1, rfl, rfl, rfl⟩ := h
    exact ⟨rfl, rfl, n, Nat.le_succ _, fun e => (by rw [h1] at e; cases e), rfl⟩
  | verifyLoaded c p u =>
    obtain ⟨rfl, rfl, l, h3, h4, h5⟩ := h
    cases c with
    | none =>
      refine ⟨l, n, h3, Nat.le_succ _, h4, ?_⟩
      rw [← h5]
    | some c =>
      simp only [Async.resume]
      cases hb : verifyBody S (atTime S w acts n) c p u with
      | none =>
        refine ⟨l, n, h3, Nat.le_succ _, h4, ?_⟩
        rw [← h5]; exact hb.symm
      | some b =>
        refine ⟨l, n, h3, Nat.le_succ _, h4, ?_⟩
        rw [← h5]; exact hb.symm
  | verifyRet r =>
    obtain ⟨l, j, h1, h2, h3⟩ := h
    exact ⟨l, j, h1, h2.trans (Nat.le_succ _), h3⟩
  | verifyDone r =>
    obtain ⟨l, j, h1, h2, h3⟩ := h
    exact ⟨l, j, h1, h2.trans (Nat.le_succ _), h3⟩
  | _ => exact h.elim

/-- C115: whatever else runs, and whatever the program does to its arrays meanwhile, the result of `verify` is that of
the pure verifier on the circuit at one moment and the proof and public input at one later moment of the call; a
local circuit is the one at the time of the call.  Until the module is there, its answer counts as a failure. -/
theorem verify_one_moment {w0 : World} {pre post : List Act} {remote : Bool} {path : String} {proof pub : ℕ}
    {r : Option Bool}
    (h : (exec S w0 (pre ++ .verify remote path proof pub :: post)).calls[(exec S w0 pre).calls.length]? =
      some (.verifyDone r)) :
    ∃ l j, l ≤ j ∧ j ≤ post.length ∧ (remote = false → l = 0) ∧
      ∃ wl wj, wl = exec S w0 (pre ++ .verify remote path proof pub :: post.take l) ∧
        wj = exec S w0 (pre ++ .verify remote path proof pub :: post.take j) ∧
        r = match wl.files path with
          | none => none
          | some c => Lib.verify (fun x => if wj.ready then S.wasmVerify c (wj.mem proof) x else .error .panic)
              (wj.mem pub) := by
  have e : ∀ l, exec S w0 (pre ++ .verify remote path proof pub :: l) =
      exec S (step S (exec S w0 pre) (.verify remote path proof pub)) l := fun l => exec_append _ _ _
  simp only [e] at h ⊢
  obtain ⟨l, j, h1, h2, h3, h4⟩ := track_end
    (I := VInv S (step S (exec S w0 pre) (.verify remote path proof pub)) post remote path proof pub)
    (c0 := loadCircuit (exec S w0 pre) remote path (.verifyFetch path proof pub) (fun c => .verifyLoaded c proof pub))
    (by simp only [step, List.getElem?_append_right (le_refl _), Nat.sub_self, List.getElem?_cons_zero])
    (by
      unfold loadCircuit
      cases remote
      · exact ⟨rfl, rfl, 0, le_refl _, fun _ => rfl, rfl⟩
      · exact ⟨rfl, rfl, rfl, rfl⟩)
    (fun n c hc => hc.mono) (fun n c _ hc => hc.resume) h
  exact ⟨l, j, h1, h2, h3, _, _, rfl, rfl, h4⟩

/-- C115: if the module is there when `verify` is called, and neither the program nor the server changes what the call
was given until it ends, then its result is that of the pure verifier on what it was given — for every number of
other calls and every interleaving. -/
theorem verify_concurrent {w0 : World} {pre post : List Act} {remote : Bool} {path : String} {proof pub : ℕ}
    {r : Option Bool} (hready : (exec S w0 pre).ready = true)
    (hproof : ∀ a ∈ post, ∀ bs, a ≠ .write proof bs) (hpub : ∀ a ∈ post, ∀ bs, a ≠ .write pub bs)
    (hfile : ∀ a ∈ post, ∀ bs, a ≠ .setFile path bs)
    (h : (exec S w0 (pre ++ .verify remote path proof pub :: post)).calls[(exec S w0 pre).calls.length]? =
      some (.verifyDone r)) :
    r = match (exec S w0 pre).files path with
      | none => none
      | some c => Lib.verify (S.wasmVerify c ((exec S w0 pre).mem proof)) ((exec S w0 pre).mem pub) := by
  obtain ⟨l, j, -, -, -, wl, wj, rfl, rfl, hr⟩ := verify_one_moment h
  have e : ∀ l, exec S w0 (pre ++ .verify remote path proof pub :: l) =
      exec S (step S (exec S w0 pre) (.verify remote path proof pub)) l := fun l => exec_append _ _ _
  have sub : ∀ n, ∀ a ∈ post.take n, a ∈ post := fun n a ha => List.mem_of_mem_take ha
  rw [e, e, exec_files (fun a ha => hfile a (sub l a ha)), exec_mem (fun a ha => hproof a (sub j a ha)),
    exec_mem (fun a ha => hpub a (sub j a ha)), exec_ready _ (step_ready _ hready)] at hr
  exact hr

/-- C115: whatever happens, `verify` returns true only if the module was there and the pure verifier accepts
a proof and a public input that were in the given arrays at one moment of the call. -/
theorem verify_true_valid {w0 : World} {pre post : List Act} {remote : Bool} {path : String} {proof pub : ℕ}
    (h : (exec S w0 (pre ++ .verify remote path proof pub :: post)).calls[(exec S w0 pre).calls.length]? =
      some (.verifyDone (some true))) :
    ∃ l j c wl wj, l ≤ j ∧ j ≤ post.length ∧ wl = exec S w0 (pre ++ .verify remote path proof pub :: post.take l) ∧
      wj = exec S w0 (pre ++ .verify remote path proof pub :: post.take j) ∧ wl.files path = some c ∧ wj.ready = true ∧
      Lib.verify (S.wasmVerify c (wj.mem proof)) (wj.mem pub) = some true := by
  obtain ⟨l, j, h1, h2, -, wl, wj, hl, hj, hr⟩ := verify_one_moment h
  cases hf : wl.files path with
  | none => rw [hf] at hr; cases hr
  | some c =>
    rw [hf] at hr
    refine ⟨l, j, c, wl, wj, h1, h2, hl, hj, hf, ?_⟩
    cases hw : wj.ready with
    | true => simp only [hw, if_true] at hr; exact ⟨rfl, hr.symm⟩
    | false =>
      simp only [hw, Bool.false_eq_true, if_false] at hr
      obtain ⟨p, bs, -, -, -, h⟩ := lib_verify_iff.mp hr.symm
      cases h

/-! ### Initialization -/

theorem init_inv {w : World} (h : ∀ c ∈ w.calls, c = .initHook ∨ c = .initDone → w.ready = true) (a : Act) :
    ∀ c ∈ (step S w a).calls, c = .initHook ∨ c = .initDone → (step S w a).ready = true := by
  cases a with
  | verify remote path proof pub =>
    intro c hc hh
    rcases List.mem_append.mp hc with hc | hc
    · exact h c hc hh
    · rw [List.mem_singleton] at hc
      subst hc
      unfold loadCircuit at hh
      cases remote <;> simp at hh
  | prove gen path remote sig m mp =>
    intro c hc hh
    rcases List.mem_append.mp hc with hc | hc
    · exact h c hc hh
    · rw [List.mem_singleton] at hc
      subst hc
      cases hp : Lib.proverInputs sig (w.mem m) mp <;> rw [hp] at hh <;> simp at hh
  | init =>
    intro c hc hh
    rcases List.mem_append.mp hc with hc | hc
    · exact h c hc hh
    · rw [List.mem_singleton] at hc
      subst hc
      cases hr : w.ready
      · simp [hr] at hh
      · exact hr
  | write x bs => exact h
  | setFile x bs => exact h
  | resume k =>
    simp only [step]
    cases hk : w.calls[k]? with
    | none => exact h
    | some c0 =>
      intro c hc hh
      have h0 := h c0 (List.mem_of_getElem? hk)
      rcases List.mem_or_eq_of_mem_set hc with hc | rfl
      · exact (resume_fst_files w c0).2.2 (h c hc hh)
      · cases c0 with
        | initInstantiate => rfl
        | initHook => exact h0 (.inl rfl)
        | initDone => exact h0 (.inr rfl)
        | initCompile => simp [resume] at hh
        | verifyFetch => simp [resume] at hh
        | verifyLoaded c p u =>
          cases c with
          | none => simp [resume] at hh
          | some c =>
            simp only [resume] at hh
            split at hh <;> simp at hh
        | verifyRet => simp [resume] at hh
        | verifyDone => simp [resume] at hh
        | proveWitness gen path remote input r v m pub =>
          simp only [resume] at hh
          split at hh
          · simp at hh
          · unfold loadCircuit at hh
            cases remote <;> simp at hh
        | proveFetch => simp [resume] at hh
        | proveLoaded c wit r v m pub =>
          cases c with
          | none => simp [resume] at hh
          | some c =>
            simp only [resume] at hh
            split at hh
            · simp at hh
            · split at hh <;> simp at hh
        | proveDone => simp [resume] at hh

/-- C115: once a call of `initWasm` has ended, the module is there, whatever other calls of it are under way. -/
theorem init_done_ready {w0 : World} (h0 : w0.calls = []) {acts : List Act} {k : ℕ}
    (h : (exec S w0 acts).calls[k]? = some .initDone) : (exec S w0 acts).ready = true := by
  have inv : ∀ acts : List Act, ∀ c ∈ (exec S w0 acts).calls, c = .initHook ∨ c = .initDone →
      (exec S w0 acts).ready = true := by
    intro acts
    induction acts using List.reverseRecOn with
    | nil => intro c hc; exact absurd (show c ∈ w0.calls from hc) (by rw [h0]; exact List.not_mem_nil)
    | append_singleton as a ih =>
      rw [exec_snoc]
      exact init_inv ih a
  exact inv _ _ (List.mem_of_getElem? h) (.inr rfl)

/-- C115: the module is there only after some call of `initWasm` has instantiated it. -/
theorem ready_loaded {w0 : World} (hr : w0.ready = false) {acts : List Act} (h : (exec S w0 acts).ready = true) :
    ∃ c ∈ (exec S w0 acts).calls, c = .initHook ∨ c = .initDone := by
  induction acts using List.reverseRecOn with
  | nil => rw [show exec S w0 [] = w0 from rfl, hr] at h; cases h
  | append_singleton as a ih =>
    rw [exec_snoc] at h ⊢
    generalize exec S w0 as = w at ih h ⊢
    have old : w.ready = true → ∃ c ∈ (step S w a).calls, c = .initHook ∨ c = .initDone := by
      intro hw
      obtain ⟨c, hc, hh⟩ := ih hw
      cases a with
      | verify remote path proof pub => exact ⟨c, List.mem_append_left _ hc, hh⟩
      | prove gen path remote sig m mp => exact ⟨c, List.mem_append_left _ hc, hh⟩
      | init => exact ⟨c, List.mem_append_left _ hc, hh⟩
      | write x bs => exact ⟨c, hc, hh⟩
      | setFile x bs => exact ⟨c, hc, hh⟩
      | resume k =>
        simp only [step]
        obtain ⟨j, hj⟩ := List.getElem?_of_mem hc
        cases hk : w.calls[k]? with
        | none => exact ⟨c, hc, hh⟩
        | some c0 =>
          by_cases hjk : k = j
          · subst hjk
            rw [hk] at hj
            obtain rfl := Option.some.inj hj
            refine ⟨.initDone, ?_, .inr rfl⟩
            have e : (resume S w c0).1 = .initDone := by rcases hh with rfl | rfl <;> rfl
            have hlt : k < w.calls.length := (List.getElem?_eq_some_iff.mp hk).1
            show Call.initDone ∈ (w.calls.set k (resume S w c0).1)
            rw [e]
            exact List.mem_set hlt _
          · refine ⟨c, ?_, hh⟩
            show c ∈ (w.calls.set k (resume S w c0).1)
            apply List.mem_of_getElem? (i := j)
            rw [List.getElem?_set_ne hjk]
            exact hj
    cases hw : w.ready
    · cases a with
      | verify remote path proof pub => rw [show (step S w (.verify remote path proof pub)).ready = w.ready from rfl, hw] at h; cases h
      | prove gen path remote sig m mp => rw [show (step S w (.prove gen path remote sig m mp)).ready = w.ready from rfl, hw] at h; cases h
      | init => rw [show (step S w .init).ready = w.ready from rfl, hw] at h; cases h
      | write x bs => rw [show (step S w (.write x bs)).ready = w.ready from rfl, hw] at h; cases h
      | setFile x bs => rw [show (step S w (.setFile x bs)).ready = w.ready from rfl, hw] at h; cases h
      | resume k =>
        simp only [step] at h ⊢
        cases hk : w.calls[k]? with
        | none => rw [hk] at h; simp only [hw] at h; cases h
        | some c0 =>
          rw [hk] at h
          have hlt : k < w.calls.length := (List.getElem?_eq_some_iff.mp hk).1
          have hr2 : (resume S w c0).2.ready = true := h
          have e : (resume S w c0).1 = .initHook := by
            cases c0 with
            | initInstantiate => rfl
            | initHook => simp [resume, hw] at hr2
            | initDone => simp [resume, hw] at hr2
            | initCompile => simp [resume, hw] at hr2
            | verifyFetch => simp [resume, hw] at hr2
            | verifyLoaded c p u =>
              cases c with
              | none => simp [resume, hw] at hr2
              | some c =>
                simp only [resume] at hr2
                split at hr2 <;> simp [hw] at hr2
            | verifyRet => simp [resume, hw] at hr2
            | verifyDone => simp [resume, hw] at hr2
            | proveWitness gen path remote input r v m pub =>
              simp only [resume] at hr2
              split at hr2 <;> simp [hw] at hr2
            | proveFetch => simp [resume, hw] at hr2
            | proveLoaded c wit r v m pub =>
              cases c with
              | none => simp [resume, hw] at hr2
              | some c =>
                simp only [resume] at hr2
                split at hr2
                · simp [hw] at hr2
                · split at hr2 <;> simp [hw] at hr2
            | proveDone => simp [resume, hw] at hr2
          refine ⟨.initHook, ?_, .inl rfl⟩
          show Call.initHook ∈ (w.calls.set k (resume S w c0).1)
          rw [e]
          exact List.mem_set hlt _
    · exact old hw

/-- The hypotheses are met after a whole call of `initWasm`, and not before its second continuation. -/
theorem ready_loaded_applies {w0 : World} (h0 : w0.calls = []) (hr : w0.ready = false) :
    (exec S w0 [.init, .resume 0]).ready = false ∧ (exec S w0 [.init, .resume 0, .resume 0]).ready = true := by
  have s1 : step S w0 .init = { w0 with calls := [.initCompile] } := by
    simp only [step, h0, hr, List.nil_append, Bool.false_eq_true, if_false]
  constructor
  · show (step S (step S w0 .init) (.resume 0)).ready = false
    rw [s1]
    exact hr
  · show (step S (step S (step S w0 .init) (.resume 0)) (.resume 0)).ready = true
    rw [s1]
    rfl

/-! ### prove -/

/-- The public input in the result of `prove`, as it is read now. -/
def Proved.publicInput (p : Proved) (mem : ℕ → Bytes) : Lib.PublicInput := ⟨p.r, p.rV, mem p.msgHash, p.circuitPubInput⟩

/-- The `wasm.prove` that a call meets: with the circuit of the world `wl`, at the moment of the world `wj`. -/
def proverAt (S : Sys) (wl wj : World) (path : String) (witness pub : Bytes) : Out Bytes :=
  match wl.files path with
  | none => .error .panic
  | some c => if wj.ready then S.wasmProve wj.seed c witness pub else .error .panic

theorem proverInputs_msg {sig M : Bytes} {mp : Lib.MerkleProof} {i : Lib.WitnessInput} {p : Lib.PublicInput}
    (h : Lib.proverInputs sig M mp = some (i, p)) : p.msgHash = M := by
  cases hs : Lib.fromSig sig with
  | none =>
    unfold Lib.proverInputs at h
    rw [hs] at h
    cases h
  | some x =>
    obtain ⟨r, s, v⟩ := x
    cases hc : Lib.computeEffEcdsaPubInput r v M with
    | none =>
      have e : Lib.proverInputs sig M mp = none := by
        unfold Lib.proverInputs
        generalize Lib.computeEffEcdsaPubInput = f at hc ⊢
        rw [hs]
        refine (Option.bind_some _ _).trans ?_
        change f r v M >>= _ = _
        rw [hc]
        rfl
      rw [e] at h
      cases h
    | some y =>
      rw [proverInputs_some hs hc, Option.some.injEq, Prod.mk.injEq] at h
      rw [← h.2]

theorem prove_none {sig M : Bytes} {mp : Lib.MerkleProof} (h : Lib.proverInputs sig M mp = none)
    (g : Lib.WitnessInput → Option Bytes) (f : Bytes → Bytes → Out Bytes) : Lib.prove g f sig M mp = none := by
  unfold Lib.prove
  rw [h]; rfl

theorem prove_some {sig M : Bytes} {mp : Lib.MerkleProof} {i : Lib.WitnessInput} {p : Lib.PublicInput}
    (h : Lib.proverInputs sig M mp = some (i, p))
    (g : Lib.WitnessInput → Option Bytes) (f : Bytes → Bytes → Out Bytes) : Lib.prove g f sig M mp =
      match g i with
      | none => none
      | some wit => match p.circuitPubInput.serialize with
        | none => none
        | some bs => match f wit bs with
          | .ok proof => some (proof, p)
          | .error _ => none := by
  unfold Lib.prove
  rw [h]
  show (g i >>= fun wit => _) = _
  cases g i with
  | none => rfl
  | some wit =>
    show (p.circuitPubInput.serialize >>= fun bs => _) = _
    cases p.circuitPubInput.serialize with
    | none => rfl
    | some bs => rfl

/-- What `prove` knows at each point; `M` is the message hash at the time of the call. -/
def PInv (S : Sys) (w : World) (acts : List Act) (gen path : String) (sig : Bytes) (msg : ℕ)
    (mp : Lib.MerkleProof) (M : Bytes) (n : ℕ) : Call → Prop
  | .proveWitness g q _ input r v m pub => g = gen ∧ q = path ∧ m = msg ∧
      Lib.proverInputs sig M mp = some (input, ⟨r, v, M, pub⟩)
  | .proveFetch q wit r v m pub => q = path ∧ m = msg ∧
      ∃ input, Lib.proverInputs sig M mp = some (input, ⟨r, v, M, pub⟩) ∧ S.witnessGen gen input = some wit
  | .proveLoaded c wit r v m pub => m = msg ∧
      (∃ input, Lib.proverInputs sig M mp = some (input, ⟨r, v, M, pub⟩) ∧ S.witnessGen gen input = some wit) ∧
      ∃ l ≤ n, c = (atTime S w acts l).files path
  | .proveDone res => (∃ l j, l ≤ j ∧ j ≤ n ∧
      res.map (fun p => (p.proof, (⟨p.r, p.rV, M, p.circuitPubInput⟩ : Lib.PublicInput))) =
        Lib.prove (S.witnessGen gen) (proverAt S (atTime S w acts l) (atTime S w acts j) path) sig M mp) ∧
      ∀ p, res = some p → p.msgHash = msg
  | _ => False

section
variable {w : World} {acts : List Act} {gen path : String} {sig M : Bytes} {msg n : ℕ} {mp : Lib.MerkleProof} {c : Call}

theorem PInv.mono (h : PInv S w acts gen path sig msg mp M n c) : PInv S w acts gen path sig msg mp M (n + 1) c := by
  cases c with
  | proveLoaded c wit r v m pub =>
    obtain ⟨h1, h2, l, h3, h4⟩ := h
    exact ⟨h1, h2, l, h3.trans (Nat.le_succ _), h4⟩
  | proveDone res =>
    obtain ⟨⟨l, j, h1, h2, h3⟩, h4⟩ := h
    exact ⟨⟨l, j, h1, h2.trans (Nat.le_succ _), h3⟩, h4⟩
  | _ => exact h

theorem PInv.resume (h : PInv S w acts gen path sig msg mp M n c) :
    PInv S w acts gen path sig msg mp M (n + 1) (Async.resume S (atTime S w acts n) c).1 := by
  cases c with
  | proveWitness g q remote input r v m pub =>
    obtain ⟨rfl, rfl, rfl, hp⟩ := h
    simp only [Async.resume]
    cases hw : S.witnessGen g input with
    | none =>
      refine ⟨⟨n, n, le_refl _, Nat.le_succ _, ?_⟩, fun p hp => by cases hp⟩
      rw [prove_some hp, hw]; rfl
    | some wit =>
      simp only [loadCircuit]
      cases remote
      · exact ⟨rfl, ⟨input, hp, hw⟩, n, Nat.le_succ _, rfl⟩
      · exact ⟨rfl, rfl, input, hp, hw⟩
  | proveFetch q wit r v m pub =>
    obtain ⟨rfl, rfl, h⟩ := h
    exact ⟨rfl, h, n, Nat.le_succ _, rfl⟩
  | proveLoaded c wit r v m pub =>
    obtain ⟨rfl, ⟨input, hp, hw⟩, l, hl, hc⟩ := h
    cases c with
    | none =>
      refine ⟨⟨l, n, hl, Nat.le_succ _, ?_⟩, fun p hp => by cases hp⟩
      rw [prove_some hp, hw]
      simp only [proverAt, ← hc]
      cases pub.serialize <;> rfl
    | some c =>
      simp only [Async.resume]
      cases hs : pub.serialize with
      | none =>
        refine ⟨⟨l, n, hl, Nat.le_succ _, ?_⟩, fun p hp => by cases hp⟩
        rw [prove_some hp, hw]
        simp only [hs]; rfl
      | some bs =>
        simp only
        cases hq : callProve S (atTime S w acts n) c wit bs with
        | ok proof =>
          refine ⟨⟨l, n, hl, Nat.le_succ _, ?_⟩, fun p hp => by cases hp; rfl⟩
          rw [prove_some hp, hw]
          simp only [hs, proverAt, ← hc]
          unfold callProve at hq
          rw [hq]; rfl
        | error e =>
          refine ⟨⟨l, n, hl, Nat.le_succ _, ?_⟩, fun p hp => by cases hp⟩
          rw [prove_some hp, hw]
          simp only [hs, proverAt, ← hc]
          unfold callProve at hq
          rw [hq]; rfl
  | proveDone res =>
    obtain ⟨⟨l, j, h1, h2, h3⟩, h4⟩ := h
    exact ⟨⟨l, j, h1, h2.trans (Nat.le_succ _), h3⟩, h4⟩
  | _ => exact h.elim

end

/-- C116: whatever else runs, the proof that `prove` returns, and the numbers of its public input, are those of the pure
prover on the message hash at the time of the call, with the circuit at one moment of the call and fresh randomness;
the result refers to the caller's array for the message hash. -/
theorem prove_one_moment {w0 : World} {pre post : List Act} {gen path : String} {remote : Bool} {sig : Bytes} {msg : ℕ}
    {mp : Lib.MerkleProof} {res : Option Proved}
    (h : (exec S w0 (pre ++ .prove gen path remote sig msg mp :: post)).calls[(exec S w0 pre).calls.length]? =
      some (.proveDone res)) :
    (∃ l j, l ≤ j ∧ j ≤ post.length ∧ ∃ wl wj, wl = exec S w0 (pre ++ .prove gen path remote sig msg mp :: post.take l) ∧
      wj = exec S w0 (pre ++ .prove gen path remote sig msg mp :: post.take j) ∧
      res.map (fun p => (p.proof, (⟨p.r, p.rV, (exec S w0 pre).mem msg, p.circuitPubInput⟩ : Lib.PublicInput))) =
        Lib.prove (S.witnessGen gen) (proverAt S wl wj path) sig ((exec S w0 pre).mem msg) mp) ∧
    ∀ p, res = some p → p.msgHash = msg := by
  have e : ∀ l, exec S w0 (pre ++ .prove gen path remote sig msg mp :: l) =
      exec S (step S (exec S w0 pre) (.prove gen path remote sig msg mp)) l := fun l => exec_append _ _ _
  simp only [e] at h ⊢
  have hc0 : ∃ c0, (step S (exec S w0 pre) (.prove gen path remote sig msg mp)).calls[(exec S w0 pre).calls.length]? =
      some c0 ∧ PInv S (step S (exec S w0 pre) (.prove gen path remote sig msg mp)) post gen path sig msg mp
        ((exec S w0 pre).mem msg) 0 c0 := by
    refine ⟨_, by simp only [step, List.getElem?_append_right (le_refl _), Nat.sub_self, List.getElem?_cons_zero]; rfl, ?_⟩
    cases hp : Lib.proverInputs sig ((exec S w0 pre).mem msg) mp with
    | none =>
      refine ⟨⟨0, 0, le_refl _, le_refl _, ?_⟩, fun p hp => by cases hp⟩
      rw [prove_none hp]; rfl
    | some x =>
      obtain ⟨i, p⟩ := x
      have hm := proverInputs_msg hp
      refine ⟨rfl, rfl, rfl, ?_⟩
      rw [hp, ← hm]
  obtain ⟨c0, hc, hI⟩ := hc0
  obtain ⟨⟨l, j, h1, h2, h3⟩, h4⟩ := track_end
    (I := PInv S (step S (exec S w0 pre) (.prove gen path remote sig msg mp)) post gen path sig msg mp
        ((exec S w0 pre).mem msg)) hc hI (fun n c hc => hc.mono) (fun n c _ hc => hc.resume) h
  exact ⟨⟨l, j, h1, h2, _, _, rfl, rfl, h3⟩, h4⟩

/-- What is left of C116: if the program does not change the array with the message hash, the circuit does not change and
the module is there, then the result, read at any later time, is that of the pure prover on what the call was given, for
some fresh randomness — for every number of other calls and every interleaving.  Missing: the program may not change
the array; `prove_message_changed` shows that this is needed. -/
theorem prove_concurrent_partial {w0 : World} {pre post : List Act} {gen path : String} {remote : Bool} {sig : Bytes}
    {msg : ℕ} {mp : Lib.MerkleProof} {res : Option Proved} {c : Bytes} (hready : (exec S w0 pre).ready = true)
    (hmsg : ∀ a ∈ post, ∀ bs, a ≠ .write msg bs) (hfile : ∀ a ∈ post, ∀ bs, a ≠ .setFile path bs)
    (hc : (exec S w0 pre).files path = some c)
    (h : (exec S w0 (pre ++ .prove gen path remote sig msg mp :: post)).calls[(exec S w0 pre).calls.length]? =
      some (.proveDone res)) :
    ∃ seed, res.map (fun p => (p.proof,
        p.publicInput (exec S w0 (pre ++ .prove gen path remote sig msg mp :: post)).mem)) =
      Lib.prove (S.witnessGen gen) (S.wasmProve seed c) sig ((exec S w0 pre).mem msg) mp := by
  obtain ⟨⟨l, j, -, -, wl, wj, rfl, rfl, hr⟩, hm⟩ := prove_one_moment h
  have e : ∀ l, exec S w0 (pre ++ .prove gen path remote sig msg mp :: l) =
      exec S (step S (exec S w0 pre) (.prove gen path remote sig msg mp)) l := fun l => exec_append _ _ _
  have sub : ∀ n, ∀ a ∈ post.take n, a ∈ post := fun n a ha => List.mem_of_mem_take ha
  have hmem : (exec S w0 (pre ++ .prove gen path remote sig msg mp :: post)).mem msg = (exec S w0 pre).mem msg := by
    rw [e, exec_mem hmsg]; rfl
  refine ⟨(exec S w0 (pre ++ .prove gen path remote sig msg mp :: post.take j)).seed, ?_⟩
  have e1 : proverAt S (exec S w0 (pre ++ .prove gen path remote sig msg mp :: post.take l))
      (exec S w0 (pre ++ .prove gen path remote sig msg mp :: post.take j)) path =
      S.wasmProve (exec S w0 (pre ++ .prove gen path remote sig msg mp :: post.take j)).seed c := by
    funext wit bs
    have hf : (exec S w0 (pre ++ .prove gen path remote sig msg mp :: post.take l)).files path = some c := by
      rw [e, exec_files (fun a ha => hfile a (sub l a ha))]; exact hc
    have hr : (exec S w0 (pre ++ .prove gen path remote sig msg mp :: post.take j)).ready = true := by
      rw [e, exec_ready _ (step_ready _ hready)]
    unfold proverAt
    rw [hf, hr]
    rfl
  rw [← e1, ← hr]
  cases res with
  | none => rfl
  | some p =>
    simp only [Option.map_some, Proved.publicInput, hm p rfl, hmem]

theorem proverInputs_checked {sig M : Bytes} {mp : Lib.MerkleProof} {i : Lib.WitnessInput} {p : Lib.PublicInput}
    (h : Lib.proverInputs sig M mp = some (i, p)) : Lib.verifyEffEcdsaPubInput p = some true := by
  cases hs : Lib.fromSig sig with
  | none =>
    unfold Lib.proverInputs at h
    rw [hs] at h
    cases h
  | some x =>
    obtain ⟨r, s, v⟩ := x
    cases hc : Lib.computeEffEcdsaPubInput r v M with
    | none =>
      have e : Lib.proverInputs sig M mp = none := by
        unfold Lib.proverInputs
        generalize Lib.computeEffEcdsaPubInput = f at hc ⊢
        rw [hs]
        refine (Option.bind_some _ _).trans ?_
        change f r v M >>= _ = _
        rw [hc]
        rfl
      rw [e] at h
      cases h
    | some y =>
      rw [proverInputs_some hs hc, Option.some.injEq, Prod.mk.injEq] at h
      rw [← h.2]
      unfold Lib.verifyEffEcdsaPubInput
      generalize Lib.computeEffEcdsaPubInput = f at hc ⊢
      change (f r v M >>= _) = _
      rw [hc]
      simp

/-- Public values belong to one message hash, as a number modulo the group order. -/
theorem checked_message {r v : ℕ} {M M' : Bytes} {c : Lib.CircuitPubInput}
    (h : Lib.verifyEffEcdsaPubInput ⟨r, v, M, c⟩ = some true)
    (h' : Lib.verifyEffEcdsaPubInput ⟨r, v, M', c⟩ = some true) :
    (leNat M.reverse : ZMod secpN) = (leNat M'.reverse : ZMod secpN) := by
  obtain ⟨R, -, ht, hu⟩ := verify_pub_input_iff.mp h
  obtain ⟨R', -, -, hu'⟩ := verify_pub_input_iff.mp h'
  have hr : ((r : ZMod secpN)⁻¹) ≠ 0 := by
    intro e
    simp only [e, zero_smul] at ht
    obtain ⟨a, b, hab, h0, -⟩ := ht
    exact absurd h0.symm (WeierstrassCurve.Affine.Point.some_ne_zero _)
  have hU : (-((r : ZMod secpN)⁻¹ * (leNat M.reverse : ZMod secpN))) • Lib.basePoint =
      (-((r : ZMod secpN)⁻¹ * (leNat M'.reverse : ZMod secpN))) • Lib.basePoint := by
    obtain ⟨a, b, hab, h0, h1, h2⟩ := hu
    obtain ⟨a', b', hab', h0', h1', h2'⟩ := hu'
    simp only at h0 h0' h1 h1' h2 h2'
    rw [h0, h0']
    have ea : a = a' := ZMod.val_injective _ (h1.symm.trans h1')
    have eb : b = b' := ZMod.val_injective _ (h2.symm.trans h2')
    subst ea eb
    rfl
  rw [← sub_eq_zero, ← sub_smul, smul_eq_zero] at hU
  rcases hU with hU | hU
  · have : (r : ZMod secpN)⁻¹ * ((leNat M'.reverse : ZMod secpN) - (leNat M.reverse : ZMod secpN)) = 0 := by
      linear_combination hU
    rcases mul_eq_zero.mp this with h | h
    · exact absurd h hr
    · exact (sub_eq_zero.mp h).symm
  · exact absurd hU (WeierstrassCurve.Affine.Point.some_ne_zero _)

/-- C116 is false.  The result refers to the caller's array: if the program has changed the message hash in it since
the call, to another number modulo the group order, then the public input of the result does not pass the
verifier's check — although nothing was wrong with the call. -/
theorem prove_message_changed {w0 : World} {pre post : List Act} {gen path : String} {remote : Bool} {sig : Bytes}
    {msg : ℕ} {mp : Lib.MerkleProof} {p : Proved}
    (h : (exec S w0 (pre ++ .prove gen path remote sig msg mp :: post)).calls[(exec S w0 pre).calls.length]? =
      some (.proveDone (some p)))
    {w : World} (hw : w = exec S w0 (pre ++ .prove gen path remote sig msg mp :: post))
    (hM : (leNat (w.mem msg).reverse : ZMod secpN) ≠ (leNat ((exec S w0 pre).mem msg).reverse : ZMod secpN)) :
    Lib.verifyEffEcdsaPubInput (p.publicInput (exec S w0 pre).mem) = some true ∧
    Lib.verifyEffEcdsaPubInput (p.publicInput w.mem) ≠ some true := by
  obtain ⟨⟨l, j, -, -, wl, wj, -, -, hr⟩, hm⟩ := prove_one_moment h
  have hpm := hm p rfl
  cases hp : Lib.proverInputs sig ((exec S w0 pre).mem msg) mp with
  | none => rw [prove_none hp] at hr; cases hr
  | some x =>
    obtain ⟨i, q⟩ := x
    rw [prove_some hp] at hr
    have hq : (⟨p.r, p.rV, (exec S w0 pre).mem msg, p.circuitPubInput⟩ : Lib.PublicInput) = q := by
      revert hr
      cases S.witnessGen gen i with
      | none => intro hr; cases hr
      | some wit =>
        cases q.circuitPubInput.serialize with
        | none => intro hr; cases hr
        | some bs =>
          simp only
          cases proverAt S wl wj path wit bs with
          | error e => intro hr; cases hr
          | ok proof =>
            intro hr
            rw [Option.map_some, Option.some.injEq, Prod.mk.injEq] at hr
            exact hr.2
    have h1 : Lib.verifyEffEcdsaPubInput ⟨p.r, p.rV, (exec S w0 pre).mem msg, p.circuitPubInput⟩ = some true := by
      rw [hq]; exact proverInputs_checked hp
    unfold Proved.publicInput
    rw [hpm]
    refine ⟨h1, fun h2 => hM (checked_message h2 h1)⟩

/-! ### Every call ends -/

/-- The number of continuations a call still needs. -/
def rank : Call → ℕ
  | .verifyFetch .. => 3
  | .verifyLoaded .. => 2
  | .verifyRet _ => 1
  | .proveWitness .. => 3
  | .proveFetch .. => 2
  | .proveLoaded .. => 1
  | .initCompile => 3
  | .initInstantiate => 2
  | .initHook => 1
  | _ => 0

theorem rank_resume (w : World) (c : Call) : rank (resume S w c).1 ≤ rank c - 1 := by
  have hl : ∀ (remote : Bool) path f g, rank (loadCircuit w remote path f g) ≤ max (rank f) (rank (g (w.files path))) := by
    intro remote path f g
    unfold loadCircuit
    split
    · exact le_max_left _ _
    · exact le_max_right _ _
  cases c with
  | proveWitness gen path remote input r v m pub =>
    simp only [resume]
    split
    · simp [rank]
    · exact (hl remote path (.proveFetch path _ r v m pub) (fun c => .proveLoaded c _ r v m pub)).trans
        (show max 2 1 ≤ 3 - 1 by decide)
  | verifyLoaded c p u =>
    cases c with
    | none => simp [resume, rank]
    | some c => simp only [resume]; split <;> simp [rank]
  | proveLoaded c wit r v m pub =>
    cases c with
    | none => simp [resume, rank]
    | some c =>
      simp only [resume]
      split
      · simp [rank]
      · split <;> simp [rank]
  | _ => simp [resume, rank]

theorem rank_le (c : Call) : rank c ≤ 3 := by cases c <;> simp [rank]

/-- C115: a call that is continued three times has ended, whatever happens in between. -/
theorem call_ends {w : World} {acts : List Act} {k : ℕ} (hk : k < w.calls.length)
    (hn : 3 ≤ (acts.filter fun a => match a with | .resume j => j == k | _ => false).length) :
    ∃ c, (exec S w acts).calls[k]? = some c ∧
      ((∃ r, c = .verifyDone r) ∨ (∃ r, c = .proveDone r) ∨ c = .initDone) := by
  have key : ∀ (acts : List Act), ∃ c, (exec S w acts).calls[k]? = some c ∧
      rank c ≤ 3 - (acts.filter fun a => match a with | .resume j => j == k | _ => false).length := by
    intro acts
    induction acts using List.reverseRecOn with
    | nil => exact ⟨w.calls[k], List.getElem?_eq_getElem hk, rank_le _⟩
    | append_singleton as a ih =>
      obtain ⟨c, hc, hr⟩ := ih
      rw [exec_snoc, List.filter_append, List.length_append]
      by_cases ha : a = .resume k
      · subst ha
        refine ⟨_, step_self hc, ?_⟩
        have := rank_resume (S := S) (exec S w as) c
        simp only [List.filter_cons, beq_self_eq_true, if_true, List.filter_nil, List.length_singleton]
        omega
      · refine ⟨c, step_other ha hc, ?_⟩
        have e : ([a].filter fun a => match a with | .resume j => j == k | _ => false) = [] := by
          rw [List.filter_eq_nil_iff]
          intro b hb
          rw [List.mem_singleton] at hb
          subst hb
          cases b with
          | resume j =>
            have : j ≠ k := fun e => ha (e ▸ rfl)
            simp [this]
          | _ => simp
        rw [e, List.length_nil, Nat.add_zero]
        exact hr
  obtain ⟨c, hc, hr⟩ := key acts
  refine ⟨c, hc, ?_⟩
  have h0 : rank c = 0 := by omega
  cases c with
  | verifyDone r => exact .inl ⟨r, rfl⟩
  | proveDone r => exact .inr (.inl ⟨r, rfl⟩)
  | initDone => exact .inr (.inr rfl)
  | _ => simp [rank] at h0

/-- C115, safety and progress together: a call of `verify`, made when the module is there and left alone, that is
continued three times has returned what the pure verifier says of its arguments. -/
theorem verify_answers {w0 : World} {pre post : List Act} {remote : Bool} {path : String} {proof pub : ℕ}
    (hready : (exec S w0 pre).ready = true)
    (hproof : ∀ a ∈ post, ∀ bs, a ≠ .write proof bs) (hpub : ∀ a ∈ post, ∀ bs, a ≠ .write pub bs)
    (hfile : ∀ a ∈ post, ∀ bs, a ≠ .setFile path bs) {c : Bytes} (hc : (exec S w0 pre).files path = some c)
    (hn : 3 ≤ (post.filter fun a => match a with
      | .resume j => j == (exec S w0 pre).calls.length
      | _ => false).length) :
    (exec S w0 (pre ++ .verify remote path proof pub :: post)).calls[(exec S w0 pre).calls.length]? =
      some (.verifyDone (Lib.verify (S.wasmVerify c ((exec S w0 pre).mem proof)) ((exec S w0 pre).mem pub))) := by
  have e : exec S w0 (pre ++ .verify remote path proof pub :: post) =
      exec S (step S (exec S w0 pre) (.verify remote path proof pub)) post := exec_append _ _ _
  have hk : (exec S w0 pre).calls.length < (step S (exec S w0 pre) (.verify remote path proof pub)).calls.length := by
    simp only [step, List.length_append, List.length_singleton]
    omega
  obtain ⟨c1, h1, hd⟩ := call_ends (S := S) hk hn
  obtain ⟨c2, h2, hI⟩ := track (S := S)
    (I := VInv S (step S (exec S w0 pre) (.verify remote path proof pub)) post remote path proof pub)
    (c0 := loadCircuit (exec S w0 pre) remote path (.verifyFetch path proof pub) (fun c => .verifyLoaded c proof pub))
    (k := (exec S w0 pre).calls.length)
    (by simp only [step, List.getElem?_append_right (le_refl _), Nat.sub_self, List.getElem?_cons_zero])
    (by
      unfold loadCircuit
      cases remote
      · exact ⟨rfl, rfl, 0, le_refl _, fun _ => rfl, rfl⟩
      · exact ⟨rfl, rfl, rfl, rfl⟩)
    (fun n c hc => hc.mono) (fun n c _ hc => hc.resume) post.length (le_refl _)
  rw [atTime, List.take_length, h1] at h2
  cases h2
  obtain ⟨r, hr⟩ : ∃ r, c1 = .verifyDone r := by
    rcases hd with h | ⟨r, rfl⟩ | rfl
    · exact h
    · exact hI.elim
    · exact hI.elim
  rw [hr, ← e] at h1
  have := verify_concurrent hready hproof hpub hfile h1
  simp only [hc] at this
  rw [h1, this]

/-! ### Verifying too early -/

theorem verify_failing {ser : Bytes} {p : Lib.PublicInput} {bs : Bytes} (h1 : Lib.PublicInput.deserialize ser = some p)
    (h2 : Lib.verifyEffEcdsaPubInput p = some true) (h3 : p.circuitPubInput.serialize = some bs) :
    Lib.verify (fun _ => .error .panic) ser = some false := by
  unfold Lib.verify
  generalize Lib.verifyEffEcdsaPubInput = f at h2 ⊢
  rw [h1]
  refine (Option.bind_some _ _).trans ?_
  change f p >>= _ = _
  rw [h2, h3]
  rfl

theorem verify_undecodable {ser : Bytes} {f : Bytes → Out Bool} (h1 : Lib.PublicInput.deserialize ser = none) :
    Lib.verify f ser = none := by
  unfold Lib.verify
  generalize Lib.verifyEffEcdsaPubInput = g
  rw [h1]
  rfl

theorem verify_accepting {ser : Bytes} {p : Lib.PublicInput} {bs : Bytes} {f : Bytes → Out Bool}
    (h1 : Lib.PublicInput.deserialize ser = some p) (h3 : p.circuitPubInput.serialize = some bs) (hf : f bs = .ok true) :
    Lib.verify f ser = Lib.verifyEffEcdsaPubInput p := by
  unfold Lib.verify
  generalize Lib.verifyEffEcdsaPubInput = g
  rw [h1]
  refine (Option.bind_some _ _).trans ?_
  rw [h3]
  cases g p with
  | none => rfl
  | some b =>
    refine (Option.bind_some _ _).trans ?_
    simp only [hf, Bool.true_and]
    rfl

/-- C117 is false.  A program that calls `initWasm` and `verify` without waiting for the first gets the answer false for
every proof that the verifier accepts: the exception of the missing module is taken for a wrong proof. -/
theorem verify_too_early {w0 : World} (h0 : w0.calls = []) (hr : w0.ready = false) {path : String} {proof pub : ℕ}
    {c : Bytes} (hc : w0.files path = some c)
    (hv : Lib.verify (S.wasmVerify c (w0.mem proof)) (w0.mem pub) = some true) :
    (exec S w0 [.init, .verify false path proof pub, .resume 1, .resume 1]).calls[1]? = some (.verifyDone (some false)) := by
  obtain ⟨p, bs, h1, h2, h3, -⟩ := lib_verify_iff.mp hv
  have e : ∀ w : World, w.ready = false → w.mem = w0.mem → verifyBody S w c proof pub = some false := by
    intro w hw hm
    have hcv : callVerify S w c (w.mem proof) = fun _ => .error .panic := by
      funext x
      unfold callVerify
      rw [hw]; rfl
    unfold verifyBody
    rw [hcv, hm]
    exact verify_failing h1 h2 h3
  have s1 : step S w0 .init = { w0 with calls := [.initCompile] } := by
    simp only [step, h0, hr, List.nil_append, Bool.false_eq_true, if_false]
  have s2 : step S { w0 with calls := [.initCompile] } (.verify false path proof pub) =
      { w0 with calls := [.initCompile, .verifyLoaded (some c) proof pub] } := by
    simp only [step, loadCircuit, hc, Bool.false_eq_true, if_false, List.cons_append, List.nil_append]
  have s3 : step S { w0 with calls := [.initCompile, .verifyLoaded (some c) proof pub] } (.resume 1) =
      { w0 with calls := [.initCompile, .verifyRet (some false)] } := by
    simp only [step, List.getElem?_cons_succ, List.getElem?_cons_zero, resume]
    rw [e { w0 with calls := [.initCompile, .verifyLoaded (some c) proof pub] } hr rfl]
    rfl
  show (step S (step S (step S (step S w0 .init) (.verify false path proof pub)) (.resume 1)) (.resume 1)).calls[1]? = _
  rw [s1, s2, s3]
  rfl

/-- What is left of C117: once the module is there, and without interference, `verify` returns false only if the public
values are wrong or the module's verifier does not accept.  Missing: calls before that, see `verify_too_early`, and
panics of the verifier (C39), which are also answered by false. -/
theorem verify_false_partial {w0 : World} {pre post : List Act} {remote : Bool} {path : String} {proof pub : ℕ}
    (hready : (exec S w0 pre).ready = true)
    (hproof : ∀ a ∈ post, ∀ bs, a ≠ .write proof bs) (hpub : ∀ a ∈ post, ∀ bs, a ≠ .write pub bs)
    (hfile : ∀ a ∈ post, ∀ bs, a ≠ .setFile path bs)
    (h : (exec S w0 (pre ++ .verify remote path proof pub :: post)).calls[(exec S w0 pre).calls.length]? =
      some (.verifyDone (some false))) :
    ∃ c p bs, (exec S w0 pre).files path = some c ∧ Lib.PublicInput.deserialize ((exec S w0 pre).mem pub) = some p ∧
      p.circuitPubInput.serialize = some bs ∧
      (Lib.verifyEffEcdsaPubInput p = some false ∨ S.wasmVerify c ((exec S w0 pre).mem proof) bs ≠ .ok true) := by
  have hr := verify_concurrent hready hproof hpub hfile h
  cases hc : (exec S w0 pre).files path with
  | none => rw [hc] at hr; cases hr
  | some c =>
    simp only [hc] at hr
    cases hp : Lib.PublicInput.deserialize ((exec S w0 pre).mem pub) with
    | none =>
      have : Lib.verify (S.wasmVerify c ((exec S w0 pre).mem proof)) ((exec S w0 pre).mem pub) = none := by
        exact verify_undecodable hp
      rw [this] at hr; cases hr
    | some p =>
      obtain ⟨bs, hs⟩ : ∃ bs, p.circuitPubInput.serialize = some bs := ⟨_, circuit_serialize_eq (deserialize_fits hp)⟩
      refine ⟨c, p, bs, rfl, rfl, hs, ?_⟩
      by_cases hw : S.wasmVerify c ((exec S w0 pre).mem proof) bs = .ok true
      swap
      · exact .inr hw
      left
      have e : Lib.verify (S.wasmVerify c ((exec S w0 pre).mem proof)) ((exec S w0 pre).mem pub) =
          Lib.verifyEffEcdsaPubInput p := by
        exact verify_accepting hp hs hw
      rw [← e]; exact hr.symm

/-! ### The hypotheses are met -/

/-- A module that accepts everything and proves everything. -/
def exSys : Sys := ⟨fun _ _ _ => .ok true, fun _ _ _ _ => .ok [7], fun _ _ => some [5]⟩

/-- A program with the message hash `1` in its first array, before initialization. -/
def exWorld (ser : Bytes) : World :=
  ⟨false, fun _ => some [], fun a => if a = 0 then [1] else if a = 1 then [8] else ser, 0, []⟩

theorem ex_eff : ∃ c : ℕ × ℕ × ℕ × ℕ, Lib.computeEffEcdsaPubInput Koblitz.secpGx 27 [1] = some c ∧
    c.1 < 2 ^ 256 ∧ c.2.1 < 2 ^ 256 ∧ c.2.2.1 < 2 ^ 256 ∧ c.2.2.2 < 2 ^ 256 := by
  have hr : ((Koblitz.secpGx : ℕ) : ZMod secpN) ≠ 0 := by
    intro h
    rw [ZMod.natCast_eq_zero_iff] at h
    exact absurd h (by decide +kernel)
  have hm : msgNum [1] ≠ 0 := by
    unfold msgNum
    rw [show leNat ([1] : List UInt8).reverse = 1 by decide, Nat.cast_one]; exact one_ne_zero
  have hL : Spec.IsLift Lib.basePoint Koblitz.secpGx (decide (27 % 2 = 0)) := by
    refine ⟨_, Koblitz.secpG_on, rfl, ?_⟩
    rw [ZMod.val_natCast]
    decide +kernel
  have hlt : ∀ x : ZMod secpP, x.val < 2 ^ 256 := fun x => lt_trans (ZMod.val_lt x) (by decide +kernel)
  obtain ⟨-, -, h⟩ := computeEff_eq hL hr hm
  exact ⟨_, h, hlt _, hlt _, hlt _, hlt _⟩

/-- A public input that passes the checks. -/
theorem ex_public : ∃ ser, Lib.verify (exSys.wasmVerify [] [8]) ser = some true := by
  obtain ⟨c, hc, h1, h2, h3, h4⟩ := ex_eff
  have hf : PubFits ⟨0, c.1, c.2.1, c.2.2.1, c.2.2.2⟩ := ⟨by norm_num, h1, h2, h3, h4⟩
  obtain ⟨ser, -, -, hd⟩ := pub_input_roundtrip
    (p := ⟨Koblitz.secpGx, 27, [1], ⟨0, c.1, c.2.1, c.2.2.1, c.2.2.2⟩⟩) (show Koblitz.secpGx < 2 ^ 256 by decide +kernel) (by norm_num) hf
  obtain ⟨bs, hb, -⟩ := circuit_pub_input_roundtrip hf
  refine ⟨ser, lib_verify_iff.mpr ⟨_, bs, hd, ?_, hb, rfl⟩⟩
  unfold Lib.verifyEffEcdsaPubInput
  generalize Lib.computeEffEcdsaPubInput = f at hc ⊢
  change (f _ _ _ >>= _) = _
  rw [hc]
  simp

/-- Non-vacuity of `verify_answers`: after an initialization, two overlapping calls of `verify`, while the program writes
to another array.  And of `verify_too_early`. -/
example : ∃ ser,
    (exec exSys (exWorld ser) ([.init, .resume 0, .resume 0, .resume 0, .verify true "d" 1 3] ++
      .verify false "c" 1 2 :: [.resume 1, .resume 2, .write 0 [9], .resume 1, .resume 2, .resume 2])).calls[2]? =
        some (.verifyDone (some true)) ∧
    (exec exSys (exWorld ser) [.init, .verify false "c" 1 2, .resume 1, .resume 1]).calls[1]? =
      some (.verifyDone (some false)) := by
  obtain ⟨ser, hs⟩ := ex_public
  refine ⟨ser, ?_, verify_too_early rfl rfl (c := []) rfl hs⟩
  have hd : (exec exSys (exWorld ser) [.init, .resume 0, .resume 0, .resume 0, .verify true "d" 1 3]).calls[0]? =
      some .initDone := rfl
  have := verify_answers (S := exSys) (w0 := exWorld ser) (remote := false) (path := "c") (proof := 1) (pub := 2)
    (pre := [.init, .resume 0, .resume 0, .resume 0, .verify true "d" 1 3])
    (post := [.resume 1, .resume 2, .write 0 [9], .resume 1, .resume 2, .resume 2]) (init_done_ready rfl hd)
    (by simp) (by simp) (by simp) (c := []) rfl (le_refl 3)
  refine this.trans ?_
  exact congrArg (fun r => some (Call.verifyDone r)) hs

/-- The signature with `r` the x-coordinate of the generator and `s = 1`. -/
def exSig : Bytes := Lib.beBytes 32 Koblitz.secpGx ++ Lib.beBytes 32 1 ++ [27]

/-- The same program, later. -/
def exLater (mem : ℕ → Bytes) (seed : ℕ) (calls : List Call) : World := ⟨true, fun _ => some [], mem, seed, calls⟩

/-- Non-vacuity of `prove_concurrent_partial` and `prove_message_changed`: a call of `prove` during which the program
overwrites the message hash. -/
example : ∃ p, (exec exSys (exLater (exWorld []).mem 0 []) ([] ++
      .prove "g" "c" false exSig 0 ⟨0, [], []⟩ :: [.resume 0, .write 0 [2], .resume 0])).calls[0]? =
        some (.proveDone (some p)) ∧
    Lib.verifyEffEcdsaPubInput (p.publicInput (exWorld []).mem) = some true ∧
    Lib.verifyEffEcdsaPubInput (p.publicInput (Function.update (exWorld []).mem 0 [2])) ≠ some true := by
  obtain ⟨c, hc, h1, h2, h3, h4⟩ := ex_eff
  have hs : Lib.fromSig exSig = some (Koblitz.secpGx, 1, 27) :=
    sig_full (r := Koblitz.secpGx) (s := 1) (by decide +kernel) (by norm_num) 27
  have hp := proverInputs_some (mp := ⟨0, [], []⟩) hs hc
  have hf : PubFits ⟨0, c.1, c.2.1, c.2.2.1, c.2.2.2⟩ := ⟨by norm_num, h1, h2, h3, h4⟩
  obtain ⟨bs, hb, -⟩ := circuit_pub_input_roundtrip hf
  obtain ⟨q, hq⟩ : ∃ q : Lib.CircuitPubInput, q = ⟨0, c.1, c.2.1, c.2.2.1, c.2.2.2⟩ := ⟨_, rfl⟩
  obtain ⟨i, hi⟩ : ∃ i, Lib.proverInputs exSig [1] ⟨0, [], []⟩ = some (i, ⟨Koblitz.secpGx, 27, [1], q⟩) := by
    rw [hq]; exact ⟨_, hp⟩
  rw [← hq] at hb
  have s1 : step exSys (exLater (exWorld []).mem 0 []) (.prove "g" "c" false exSig 0 ⟨0, [], []⟩) =
      (exLater (exWorld []).mem 0 [.proveWitness "g" "c" false i Koblitz.secpGx 27 0 q]) := by
    simp only [step, exLater, show (exWorld []).mem 0 = [1] from rfl, hi, List.nil_append]
  have s2 : step exSys (exLater (exWorld []).mem 0 [.proveWitness "g" "c" false i Koblitz.secpGx 27 0 q])
      (.resume 0) =
      (exLater (exWorld []).mem 0 [.proveLoaded (some []) [5] Koblitz.secpGx 27 0 q]) := rfl
  have s3 : step exSys (exLater (exWorld []).mem 0 [.proveLoaded (some []) [5] Koblitz.secpGx 27 0 q])
      (.write 0 [2]) = (exLater (Function.update (exWorld []).mem 0 [2]) 0
        [.proveLoaded (some []) [5] Koblitz.secpGx 27 0 q]) := rfl
  have s4 : step exSys (exLater (Function.update (exWorld []).mem 0 [2]) 0
        [.proveLoaded (some []) [5] Koblitz.secpGx 27 0 q]) (.resume 0) =
      exLater (Function.update (exWorld []).mem 0 [2]) 1 [.proveDone (some ⟨[7], Koblitz.secpGx, 27, 0, q⟩)] := by
    simp only [step, exLater, List.getElem?_cons_zero, resume, callProve, hb, exSys, if_true, List.set_cons_zero]
  have e : exec exSys (exLater (exWorld []).mem 0 []) ([] ++
      .prove "g" "c" false exSig 0 ⟨0, [], []⟩ :: [.resume 0, .write 0 [2], .resume 0]) =
      exLater (Function.update (exWorld []).mem 0 [2]) 1 [.proveDone (some ⟨[7], Koblitz.secpGx, 27, 0, q⟩)] := by
    simp only [exec, List.nil_append, List.foldl_cons, List.foldl_nil]
    rw [s1, s2, s3, s4]
  have hdone : (exec exSys (exLater (exWorld []).mem 0 []) ([] ++
      .prove "g" "c" false exSig 0 ⟨0, [], []⟩ :: [.resume 0, .write 0 [2], .resume 0])).calls[0]? =
        some (.proveDone (some ⟨[7], Koblitz.secpGx, 27, 0, q⟩)) := by rw [e]; rfl
  refine ⟨_, hdone, prove_message_changed (pre := []) (w := exLater (Function.update (exWorld []).mem 0 [2]) 1
    [.proveDone (some ⟨[7], Koblitz.secpGx, 27, 0, q⟩)]) hdone e.symm ?_⟩
  show ((leNat [2] : ℕ) : ZMod secpN) ≠ ((leNat [1] : ℕ) : ZMod secpN)
  decide +kernel

end Spartan.Async
