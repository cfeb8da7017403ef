import Verif.Spec.Sponge
import Verif.Lemmas.LimbsRep

/-!
The framing of the Merlin transcript can be parsed back.
-/

namespace Spartan.Merlin

def AState.Ok (a : AState) : Prop := a.cur.length < 166 ∧ a.pb ≤ a.cur.length

/-- The cell and the marker that a step writes. -/
def AState.cell (a : AState) : Micro → Option UInt8
  | .mark => some (UInt8.ofNat a.pb)
  | .byte b => some b
  | .sq => none

def AState.mk' (a : AState) : Micro → Nat
  | .mark => a.cur.length + 1
  | .byte _ => a.pb
  | .sq => a.pb

theorem AState.step_eq (a : AState) (m : Micro) : a.step m = a.push (a.cell m) (a.mk' m) := by
  cases m <;> rfl

theorem AState.mk'_le {a : AState} (h : a.Ok) (m : Micro) : a.mk' m ≤ a.cur.length + 1 := by
  have := h.2
  cases m <;> simp only [AState.mk'] <;> omega

theorem ofNat_inj {m n : Nat} (hm : m ≤ 166) (hn : n ≤ 166) (h : UInt8.ofNat m = UInt8.ofNat n) : m = n := by
  have := congrArg UInt8.toNat h
  rw [UInt8.toNat_ofNat', UInt8.toNat_ofNat'] at this
  omega

theorem AState.push_ok {a : AState} (h : a.Ok) (c : Option UInt8) {pb : Nat} (hp : pb ≤ a.cur.length + 1) :
    (a.push c pb).Ok := by
  unfold AState.push AState.Ok
  have h1 := h.1
  split_ifs with h2
  · simp
  · simp only [List.length_append, List.length_singleton]
    exact ⟨by omega, hp⟩

theorem AState.step_ok {a : AState} (h : a.Ok) (m : Micro) : (a.step m).Ok := by
  rw [AState.step_eq]; exact push_ok h _ (mk'_le h m)

theorem AState.force_ok (a : AState) : a.force.Ok := by
  unfold AState.force AState.Ok; simp

/-- A push determines the state before it, the cell and the marker. -/
theorem AState.push_inj {a a' : AState} (h : a.Ok) (h' : a'.Ok) {c c' : Option UInt8} {p p' : Nat}
    (hp : p ≤ a.cur.length + 1) (hp' : p' ≤ a'.cur.length + 1) (e : a.push c p = a'.push c' p') :
    a.done = a'.done ∧ a.cur = a'.cur ∧ c = c' ∧ p = p' := by
  have h1 := h.1
  have h1' := h'.1
  unfold AState.push at e
  split_ifs at e with h2 h3 h3
  · simp only [AState.mk.injEq, and_true] at e
    obtain ⟨e1, e2⟩ := List.append_inj' e rfl
    simp only [List.cons.injEq, Prod.mk.injEq, and_true] at e2
    obtain ⟨e3, e4⟩ := List.append_inj' e2.1 rfl
    refine ⟨e1, e3, by simpa using e4, ofNat_inj ?_ ?_ e2.2⟩ <;> omega
  · simp only [AState.mk.injEq] at e
    have := e.2.1
    simp at this
  · simp only [AState.mk.injEq] at e
    have := e.2.1
    simp at this
  · simp only [AState.mk.injEq] at e
    obtain ⟨e1, e2, e3⟩ := e
    obtain ⟨e4, e5⟩ := List.append_inj' e2 rfl
    exact ⟨e1, e4, by simpa using e5, e3⟩

theorem AState.step_inj {a a' : AState} (h : a.Ok) (h' : a'.Ok) {m m' : Micro} (e : a.step m = a'.step m') :
    m = m' ∧ a = a' := by
  rw [AState.step_eq, AState.step_eq] at e
  obtain ⟨e1, e2, e3, e4⟩ := push_inj h h' (mk'_le h m) (mk'_le h' m') e
  obtain ⟨d, c, p⟩ := a
  obtain ⟨d', c', p'⟩ := a'
  simp only at e1 e2
  subst e1 e2
  have hp := h.2
  have hp' := h'.2
  have hl := h.1
  simp only at hp hp' hl
  cases m <;> cases m' <;> simp only [AState.cell, AState.mk', reduceCtorEq, Option.some.injEq] at e3 e4
  · have := ofNat_inj (m := p) (n := p') (by omega) (by omega) e3
    subst this
    exact ⟨rfl, rfl⟩
  · omega
  · omega
  · subst e3 e4; exact ⟨rfl, rfl⟩
  · subst e4; exact ⟨rfl, rfl⟩

theorem AState.step_force {a a' : AState} (h : a.Ok) (h' : a'.Ok) (m : Micro) : a.step m ≠ a'.force := by
  intro e
  rw [AState.step_eq] at e
  unfold AState.push AState.force at e
  have h1 := h'.1
  split_ifs at e with h2
  · simp only [AState.mk.injEq, and_true] at e
    obtain ⟨-, e2⟩ := List.append_inj' e rfl
    simp only [List.cons.injEq, Prod.mk.injEq, and_true] at e2
    rw [← e2.1, List.length_append, List.length_singleton] at h1
    omega
  · simp only [AState.mk.injEq] at e
    have := e.2.1
    simp at this

theorem AState.force_inj {a a' : AState} (h : a.Ok) (h' : a'.Ok) (e : a.force = a'.force) : a = a' := by
  obtain ⟨d, c, p⟩ := a
  obtain ⟨d', c', p'⟩ := a'
  unfold AState.force at e
  simp only [AState.mk.injEq, and_true] at e
  obtain ⟨e1, e2⟩ := List.append_inj' e rfl
  simp only [List.cons.injEq, Prod.mk.injEq, and_true] at e2
  have hp := h.2
  have hp' := h'.2
  have hl := h.1
  have hl' := h'.1
  simp only at hp hp' hl hl' hl'
  have := ofNat_inj (by omega) (by omega) e2.2
  rw [e1, e2.1, this]

theorem AState.step_start (a : AState) (m : Micro) : a.step m ≠ AState.start := by
  intro e
  rw [AState.step_eq] at e
  unfold AState.push AState.start at e
  split_ifs at e with h2 <;> simp at e

theorem AState.force_start (a : AState) : a.force ≠ AState.start := by
  intro e
  unfold AState.force AState.start at e
  simp at e

/-- The small steps that lead to a state; absorbing a short block early is not a step. -/
inductive Reach : List Micro → AState → Prop
  | start : Reach [] AState.start
  | step {l : List Micro} {a : AState} (m : Micro) : Reach l a → Reach (l ++ [m]) (a.step m)
  | force {l : List Micro} {a : AState} : Reach l a → Reach l a.force

theorem Reach.ok {l : List Micro} {a : AState} (h : Reach l a) : a.Ok := by
  induction h with
  | start => exact ⟨by simp [AState.start], by simp [AState.start]⟩
  | step m _ ih => exact AState.step_ok ih m
  | force _ _ => exact AState.force_ok _

/-- The steps can be read off the state. -/
theorem Reach.unique {l : List Micro} {a : AState} (h : Reach l a) : ∀ {l' : List Micro}, Reach l' a → l = l' := by
  induction h with
  | start =>
    intro l' h'
    generalize hs : AState.start = s at h'
    cases h' with
    | start => rfl
    | step m _ => exact absurd hs.symm (AState.step_start _ m)
    | force _ => exact absurd hs.symm (AState.force_start _)
  | @step l a m hr ih =>
    intro l' h'
    generalize hs : a.step m = s at h'
    cases h' with
    | start => exact absurd hs (AState.step_start _ m)
    | @step l2 a2 m2 hr2 =>
      obtain ⟨e1, e2⟩ := AState.step_inj hr.ok hr2.ok hs
      subst e1 e2
      rw [ih hr2]
    | force hr2 => exact absurd hs (AState.step_force hr.ok hr2.ok m)
  | @force l a hr ih =>
    intro l' h'
    generalize hs : a.force = s at h'
    cases h' with
    | start => exact absurd hs (AState.force_start _)
    | @step l2 a2 m2 hr2 => exact absurd hs.symm (AState.step_force hr2.ok hr.ok m2)
    | force hr2 =>
      have := AState.force_inj hr.ok hr2.ok hs
      subst this
      exact ih hr2

/-! ### The code follows the small steps -/

/-- The sponge state of the code and the blocks. -/
def Rel (f : KState → KState) (s : Strobe) (a : AState) : Prop :=
  s.pos = a.cur.length ∧ s.posBegin = a.pb ∧ s.state = overlay a.cur (sponge f a.done)

theorem overlay_xor (cells : List (Option UInt8)) (st : KState) (b : UInt8) :
    xorAt (overlay cells st) cells.length b = overlay (cells ++ [some b]) st := by
  funext j
  unfold xorAt overlay
  by_cases h : j.val = cells.length
  · rw [if_pos h, h, List.getElem?_concat_length]
    simp
  · rw [if_neg h]
    by_cases h2 : j.val < cells.length
    · rw [List.getElem?_append_left h2]
    · rw [List.getElem?_eq_none (by omega), List.getElem?_eq_none (by simp; omega)]

theorem overlay_set (cells : List (Option UInt8)) (st : KState) :
    setAt (overlay cells st) cells.length 0 = overlay (cells ++ [none]) st := by
  funext j
  unfold setAt overlay
  by_cases h : j.val = cells.length
  · rw [if_pos h, h, List.getElem?_concat_length]
  · rw [if_neg h]
    by_cases h2 : j.val < cells.length
    · rw [List.getElem?_append_left h2]
    · rw [List.getElem?_eq_none (by omega), List.getElem?_eq_none (by simp; omega)]

theorem overlay_nil (st : KState) : overlay [] st = st := by
  funext j; simp [overlay]

theorem absorbBlock_xorAt (f : KState → KState) (st : KState) (b : Block) :
    absorbBlock f st b =
      f (xorAt (xorAt (xorAt (overlay b.1 st) b.1.length b.2) (b.1.length + 1) 0x04) 167 0x80) := by
  unfold absorbBlock padding xorAt
  congr 1
  funext j
  have e : ∀ x y z w : UInt8, x ^^^ (y ^^^ z ^^^ w) = ((x ^^^ y) ^^^ z) ^^^ w := fun x y z w => by
    rw [← UInt8.xor_assoc, ← UInt8.xor_assoc]
  rw [e]
  split_ifs <;> simp

theorem output_byteAt (n : Nat) (st : KState) : output n st = (List.range n).map (byteAt st) := rfl

theorem runF_rel {f : KState → KState} {s : Strobe} {a : AState} (h : Rel f s a) :
    Rel f (runF f s) a.force := by
  obtain ⟨h1, h2, h3⟩ := h
  refine ⟨rfl, rfl, ?_⟩
  unfold runF AState.force
  simp only [overlay_nil]
  unfold sponge
  rw [List.foldl_append, List.foldl_cons, List.foldl_nil]
  rw [absorbBlock_xorAt, h1, h2, h3]
  rfl

theorem push_rel {f : KState → KState} {s s' : Strobe} {a : AState} {c : Option UInt8} {pb : Nat}
    (hpos : s'.pos = a.cur.length + 1) (hb : s'.posBegin = pb)
    (hst : s'.state = overlay (a.cur ++ [c]) (sponge f a.done)) :
    Rel f (if s'.pos = strobeR then runF f s' else s') (a.push c pb) := by
  unfold AState.push
  have hrel : Rel f s' ⟨a.done, a.cur ++ [c], pb⟩ := ⟨by simp [hpos], hb, hst⟩
  by_cases h : a.cur.length + 1 = 166
  · rw [if_pos h, if_pos (by rw [hpos]; exact h)]
    exact runF_rel hrel
  · rw [if_neg h, if_neg (by rw [hpos]; exact h)]
    exact hrel

theorem absorbByte_rel {f : KState → KState} {s : Strobe} {a : AState} (h : Rel f s a) (b : UInt8) :
    Rel f (absorbByte f s b) (a.step (.byte b)) := by
  obtain ⟨h1, h2, h3⟩ := h
  exact push_rel (s := s) (s' := { s with state := xorAt s.state s.pos b, pos := s.pos + 1 }) (by simp [h1]) h2
    (by simp only [h1, h3, overlay_xor])

theorem mark_rel {f : KState → KState} {s : Strobe} {a : AState} (h : Rel f s a) (fl : Nat) :
    Rel f (absorbByte f { s with posBegin := s.pos + 1, curFlags := fl } (UInt8.ofNat s.posBegin)) (a.step .mark) := by
  obtain ⟨h1, h2, h3⟩ := h
  exact push_rel (s := s) (s' := { s with
      posBegin := s.pos + 1, curFlags := fl, state := xorAt s.state s.pos (UInt8.ofNat s.posBegin), pos := s.pos + 1 })
    (by simp [h1]) (by simp [h1]) (by simp only [h1, h2, h3, overlay_xor])

theorem squeezeByte_rel {f : KState → KState} {s : Strobe} {a : AState} (h : Rel f s a) :
    Rel f (squeezeByte f s).2 (a.step .sq) := by
  obtain ⟨h1, h2, h3⟩ := h
  exact push_rel (s := s) (s' := { s with state := setAt s.state s.pos 0, pos := s.pos + 1 }) (by simp [h1]) h2
    (by simp only [h1, h3, overlay_set])

/-! ### The code runs the small steps -/

theorem absorb_flags (f : KState → KState) (data : List UInt8) : ∀ s : Strobe, (absorb f s data).curFlags = s.curFlags := by
  induction data with
  | nil => intro s; rfl
  | cons b data ih =>
    intro s
    show (absorb f (absorbByte f s b) data).curFlags = _
    rw [ih]
    unfold absorbByte runF
    simp only
    split_ifs <;> rfl

theorem AState.run_append (a : AState) (l l' : List Micro) : a.run (l ++ l') = (a.run l).run l' := by
  simp [AState.run, List.foldl_append]

theorem Reach.run {l : List Micro} {a : AState} (h : Reach l a) : ∀ m : List Micro, Reach (l ++ m) (a.run m) := by
  intro m
  induction m generalizing l a with
  | nil => simpa [AState.run] using h
  | cons x m ih =>
    have := ih (h.step x)
    rw [List.append_assoc] at this
    exact this

theorem Reach.forced {l : List Micro} {a : AState} (h : Reach l a) : Reach l a.forced := by
  unfold AState.forced
  split_ifs
  · exact h
  · exact h.force

theorem absorb_rel {f : KState → KState} (data : List UInt8) :
    ∀ {s : Strobe} {a : AState}, Rel f s a → Rel f (absorb f s data) (a.run (bytesM data)) := by
  induction data with
  | nil => intro s a h; exact h
  | cons b data ih => intro s a h; exact ih (absorbByte_rel h b)

theorem squeeze_rel {f : KState → KState} (n : Nat) :
    ∀ {s : Strobe} {a : AState}, Rel f s a → Rel f (squeeze f n s).2 (a.run (List.replicate n .sq)) := by
  induction n with
  | zero => intro s a h; exact h
  | succ n ih => intro s a h; exact ih (squeezeByte_rel h)

theorem begin_rel {f : KState → KState} {s : Strobe} {a : AState} (h : Rel f s a) (fl : Nat) :
    Rel f (absorb f { s with posBegin := s.pos + 1, curFlags := fl } [UInt8.ofNat s.posBegin, UInt8.ofNat fl])
      (a.run [.mark, .byte (UInt8.ofNat fl)]) :=
  absorbByte_rel (mark_rel h fl) _

theorem metaAd_rel {f : KState → KState} {s : Strobe} {a : AState} (h : Rel f s a) (data : List UInt8) :
    ∃ s', metaAd f data false s = .ok s' ∧ s'.curFlags = flagsMetaAd ∧
      Rel f s' (a.run (.mark :: bytesM (UInt8.ofNat 18 :: data))) := by
  refine ⟨_, rfl, ?_, ?_⟩
  · rw [absorb_flags]
    exact absorb_flags _ _ _
  · exact absorb_rel data (begin_rel h flagsMetaAd)

theorem metaAd_more {f : KState → KState} {s : Strobe} (hs : s.curFlags = flagsMetaAd) (data : List UInt8) :
    metaAd f data true s = .ok (absorb f s data) := by
  unfold metaAd beginOp check
  rw [if_pos rfl, if_pos hs]
  rfl

theorem ad_rel {f : KState → KState} {s : Strobe} {a : AState} (h : Rel f s a) (data : List UInt8) :
    ∃ s', ad f data false s = .ok s' ∧ Rel f s' (a.run (.mark :: bytesM (UInt8.ofNat 2 :: data))) :=
  ⟨_, rfl, absorb_rel data (begin_rel h flagsAd)⟩

/-- The first half of every call. -/
theorem meta_rel {f : KState → KState} {s : Strobe} {a : AState} (h : Rel f s a) (label : List UInt8) (n : Nat) :
    ∃ s1 s2, metaAd f label false s = .ok s1 ∧ metaAd f (leBytes 4 n) true s1 = .ok s2 ∧
      Rel f s2 (a.run (.mark :: metaM label n)) := by
  obtain ⟨s1, e1, hf, hr⟩ := metaAd_rel h label
  refine ⟨s1, _, e1, metaAd_more hf _, ?_⟩
  have := absorb_rel (leBytes 4 n) hr
  rw [← AState.run_append] at this
  have e : Micro.mark :: metaM label n =
      (Micro.mark :: bytesM (UInt8.ofNat 18 :: label)) ++ bytesM (leBytes 4 n) := by
    simp [metaM, bytesM]
  rw [e]
  exact this

theorem encodeLen_ok {n : Nat} (h : n < 2 ^ 32) : encodeLen n = .ok (leBytes 4 n) := by
  unfold encodeLen check
  rw [if_pos (by omega)]
  rfl

theorem appendMessage_rel {f : KState → KState} {s : Strobe} {a : AState} (h : Rel f s a) (label data : List UInt8)
    (hl : data.length < 2 ^ 32) :
    ∃ s', appendMessage f label data s = .ok s' ∧ Rel f s' (a.call (.append label data)) := by
  obtain ⟨s1, s2, e1, e2, hr⟩ := meta_rel h label data.length
  obtain ⟨s3, e3, hr3⟩ := ad_rel hr data
  refine ⟨s3, ?_, ?_⟩
  · unfold appendMessage
    rw [encodeLen_ok hl]
    show (metaAd f label false s >>= fun s => metaAd f (leBytes 4 data.length) true s >>= fun s => ad f data false s) = _
    rw [e1]
    show (metaAd f (leBytes 4 data.length) true s1 >>= fun s => ad f data false s) = _
    rw [e2]
    exact e3
  · rw [← AState.run_append] at hr3
    exact hr3

theorem beginPrf_rel {f : KState → KState} {s : Strobe} {a : AState} (h : Rel f s a) :
    ∃ s', beginOp f flagsPrf false s = .ok s' ∧ Rel f s' (a.run [.mark, .byte (UInt8.ofNat 7)]).forced := by
  refine ⟨_, rfl, ?_⟩
  have hr := begin_rel h flagsPrf
  unfold AState.forced
  have h1 := hr.1
  by_cases h0 : (a.run [.mark, .byte (UInt8.ofNat 7)]).cur.length = 0
  · rw [if_pos h0, if_neg]
    · exact hr
    · rw [h1]; exact fun h => h.2 h0
  · rw [if_neg h0, if_pos]
    · exact runF_rel hr
    · rw [h1]; exact ⟨by decide, h0⟩

theorem challengeBytes_rel {f : KState → KState} {s : Strobe} {a : AState} (h : Rel f s a) (label : List UInt8)
    {n : Nat} (hn : n < 2 ^ 32) :
    ∃ s', Rel f s' (a.run (finM label n)).forced ∧ challengeBytes f label n s = .ok (squeeze f n s') := by
  obtain ⟨s1, s2, e1, e2, hr⟩ := meta_rel h label n
  obtain ⟨s3, e3, hr3⟩ := beginPrf_rel hr
  refine ⟨s3, ?_, ?_⟩
  · rw [← AState.run_append] at hr3
    exact hr3
  · unfold challengeBytes
    rw [encodeLen_ok hn]
    show (metaAd f label false s >>= fun s => metaAd f (leBytes 4 n) true s >>= fun s => prf f n false s) = _
    rw [e1]
    show (metaAd f (leBytes 4 n) true s1 >>= fun s => prf f n false s) = _
    rw [e2]
    show prf f n false s2 = _
    unfold prf
    rw [e3]
    rfl

/-- A call whose data has a length that fits into 32 bits. -/
def Call.Small (c : Call) : Prop := c.len < 2 ^ 32

theorem call_rel {f : KState → KState} {s : Strobe} {a : AState} (h : Rel f s a) (c : Call) (hc : c.Small) :
    ∃ s', Merlin.call f s c = .ok s' ∧ Rel f s' (a.call c) := by
  cases c with
  | append label data => exact appendMessage_rel h label data hc
  | chal label n =>
    obtain ⟨s1, hr, e⟩ := challengeBytes_rel (n := n) h label hc
    refine ⟨(squeeze f n s1).2, ?_, squeeze_rel n hr⟩
    unfold Merlin.call
    simp only
    rw [e]
    rfl

theorem calls_rel {f : KState → KState} (cs : List Call) : ∀ {s : Strobe} {a : AState}, Rel f s a →
    (∀ c ∈ cs, c.Small) → ∃ s', cs.foldlM (Merlin.call f) s = .ok s' ∧ Rel f s' (cs.foldl AState.call a) := by
  induction cs with
  | nil => intro s a h _; exact ⟨s, rfl, h⟩
  | cons c cs ih =>
    intro s a h hc
    obtain ⟨s1, e1, h1⟩ := call_rel h c (hc c List.mem_cons_self)
    obtain ⟨s2, e2, h2⟩ := ih h1 (fun c' hc' => hc c' (List.mem_cons_of_mem _ hc'))
    refine ⟨s2, ?_, h2⟩
    rw [List.foldlM_cons, e1]
    exact e2

theorem initialState_eq : initialState = firstState := by
  funext j
  revert j
  decide +kernel

theorem transcriptNew_rel (f : KState → KState) (name : List UInt8) (hn : name.length < 2 ^ 32) :
    ∃ s, transcriptNew f name = .ok s ∧ Rel f s ((AState.start.run newM).call (.append (ascii "dom-sep") name)) := by
  have h0 : Rel f ⟨f initialState, 0, 0, 0⟩ AState.start :=
    ⟨rfl, rfl, (congrArg f initialState_eq).trans (overlay_nil _).symm⟩
  obtain ⟨s1, e1, -, h1⟩ := metaAd_rel h0 (ascii "Merlin v1.0")
  obtain ⟨s2, e2, h2⟩ := appendMessage_rel h1 (ascii "dom-sep") name hn
  refine ⟨s2, ?_, h2⟩
  unfold transcriptNew strobeNew
  rw [e1]
  exact e2

theorem squeezeByte_out {f : KState → KState} {s : Strobe} {a : AState} (h : Rel f s a) (ha : a.Ok) :
    (squeezeByte f s).1 = byteAt (sponge f a.done) a.cur.length := by
  obtain ⟨h1, -, h3⟩ := h
  show byteAt s.state s.pos = _
  rw [h1, h3]
  unfold byteAt
  have := ha.1
  rw [dif_pos (by omega), dif_pos (by omega)]
  unfold overlay
  simp

/-- The output of a challenge that starts at the beginning of a block and ends before its end. -/
theorem squeeze_out {f : KState → KState} (n : Nat) : ∀ {s : Strobe} {a : AState}, Rel f s a → a.Ok →
    a.cur.length + n ≤ 166 →
    (squeeze f n s).1 = (List.range n).map (fun i => byteAt (sponge f a.done) (a.cur.length + i)) := by
  induction n with
  | zero => intro s a _ _ _; rfl
  | succ n ih =>
    intro s a h ha hl
    have hs := squeezeByte_rel h
    show (squeezeByte f s).1 :: (squeeze f n (squeezeByte f s).2).1 = _
    rw [squeezeByte_out h ha, List.range_succ_eq_map, List.map_cons, List.map_map]
    congr 1
    by_cases hn : n = 0
    · subst hn; rfl
    · have hpush : a.step .sq = ⟨a.done, a.cur ++ [none], a.pb⟩ := by
        unfold AState.step AState.push
        simp only
        rw [if_neg (by omega)]
      rw [hpush] at hs
      rw [ih hs (by rw [← hpush]; exact AState.step_ok ha _) (by simp; omega)]
      refine List.map_congr_left fun i _ => ?_
      simp [Function.comp, Nat.add_assoc, Nat.add_comm 1]

theorem forced_cur (a : AState) : a.forced.cur = [] := by
  unfold AState.forced AState.force
  split_ifs with h
  · exact List.length_eq_zero_iff.mp h
  · rfl

/-! ### The steps are determined by the history -/

theorem reach_call {l : List Micro} {a : AState} (h : Reach l a) (c : Call) : Reach (l ++ callM c) (a.call c) := by
  cases c with
  | append label data => exact h.run _
  | chal label n =>
    have := (h.run (finM label n)).forced.run (List.replicate n .sq)
    have e : l ++ callM (.chal label n) = l ++ finM label n ++ List.replicate n .sq := by
      simp [callM, finM, bodyM, Call.label, Call.len]
    rw [e]
    exact this

theorem reach_calls (cs : List Call) : ∀ {l : List Micro} {a : AState}, Reach l a →
    Reach (l ++ cs.flatMap callM) (cs.foldl AState.call a) := by
  induction cs with
  | nil => intro l a h; simpa using h
  | cons c cs ih =>
    intro l a h
    have := ih (reach_call h c)
    rw [List.append_assoc] at this
    rw [List.flatMap_cons]
    exact this

theorem mark_split {A A' X X' : List Micro} (hA : Micro.mark ∉ A) (hA' : Micro.mark ∉ A')
    (e : A ++ .mark :: X = A' ++ .mark :: X') : A = A' ∧ X = X' := by
  induction A generalizing A' with
  | nil =>
    cases A' with
    | nil => simpa using e
    | cons y A' =>
      simp only [List.nil_append, List.cons_append, List.cons.injEq] at e
      exact absurd (e.1 ▸ List.mem_cons_self) hA'
  | cons x A ih =>
    cases A' with
    | nil =>
      simp only [List.nil_append, List.cons_append, List.cons.injEq] at e
      exact absurd (e.1 ▸ List.mem_cons_self) hA
    | cons y A' =>
      simp only [List.cons_append, List.cons.injEq] at e
      obtain ⟨h1, h2⟩ := ih (fun h => hA (List.mem_cons_of_mem _ h)) (fun h => hA' (List.mem_cons_of_mem _ h)) e.2
      exact ⟨by rw [e.1, h1], h2⟩

theorem bytesM_inj {l l' : List UInt8} (h : bytesM l = bytesM l') : l = l' :=
  List.map_injective_iff.mpr (fun _ _ h => Micro.byte.inj h) h

theorem mark_bytesM (l : List UInt8) : Micro.mark ∉ bytesM l := by simp [bytesM]

theorem mark_bodyM (c : Call) : Micro.mark ∉ bodyM c := by
  cases c with
  | append _ data => exact mark_bytesM _
  | chal _ n => simp [bodyM]

theorem metaM_inj {l l' : List UInt8} {n n' : Nat} (h : metaM l n = metaM l' n') :
    l = l' ∧ leBytes 4 n = leBytes 4 n' := by
  have := bytesM_inj h
  simp only [List.cons.injEq, true_and] at this
  exact List.append_inj' this (by rw [MParams.leBytes_length, MParams.leBytes_length])

theorem leBytes4_inj {n n' : Nat} (hn : n < 2 ^ 32) (hn' : n' < 2 ^ 32) (h : leBytes 4 n = leBytes 4 n') : n = n' := by
  have := congrArg leNat h
  rw [MParams.leNat_leBytes, MParams.leNat_leBytes] at this
  omega

theorem call_inj {c c' : Call} (hl : c.label = c'.label) (hb : bodyM c = bodyM c') : c = c' := by
  cases c with
  | append l d =>
    cases c' with
    | append l' d' =>
      have := bytesM_inj hb
      simp only [List.cons.injEq, true_and] at this
      simp only [Call.label] at hl
      rw [hl, this]
    | chal l' n' =>
      simp only [bodyM, bytesM, List.map_cons, List.cons.injEq, Micro.byte.injEq] at hb
      exact absurd hb.1 (by decide)
  | chal l n =>
    cases c' with
    | append l' d' =>
      simp only [bodyM, bytesM, List.map_cons, List.cons.injEq, Micro.byte.injEq] at hb
      exact absurd hb.1 (by decide)
    | chal l' n' =>
      simp only [bodyM, List.cons.injEq, true_and] at hb
      have := congrArg List.length hb
      simp only [List.length_replicate] at this
      simp only [Call.label] at hl
      rw [hl, this]

theorem calls_fin_head (cs : List Call) (label : List UInt8) (n : Nat) :
    ∃ X, cs.flatMap callM ++ finM label n = .mark :: X := by
  cases cs with
  | nil => exact ⟨_, rfl⟩
  | cons c cs => exact ⟨_, rfl⟩

theorem calls_fin_inj (cs : List Call) : ∀ {cs' : List Call} {label label' : List UInt8} {n n' : Nat},
    n < 2 ^ 32 → n' < 2 ^ 32 → cs.flatMap callM ++ finM label n = cs'.flatMap callM ++ finM label' n' →
    cs = cs' ∧ label = label' ∧ n = n' := by
  have hm : ∀ l n, Micro.mark ∉ metaM l n := fun l n => mark_bytesM _
  induction cs with
  | nil =>
    intro cs' label label' n n' hn hn' e
    cases cs' with
    | nil =>
      simp only [List.flatMap_nil, List.nil_append, finM, List.cons.injEq, true_and] at e
      obtain ⟨h1, h2⟩ := metaM_inj (mark_split (hm _ _) (hm _ _) e).1
      exact ⟨rfl, h1, leBytes4_inj hn hn' h2⟩
    | cons c' cs' =>
      exfalso
      obtain ⟨X, hX⟩ := calls_fin_head cs' label' n'
      rw [List.flatMap_cons, List.append_assoc, hX] at e
      simp only [List.flatMap_nil, List.nil_append, finM, callM, List.cons_append, List.append_assoc,
        List.cons.injEq, true_and] at e
      have := (mark_split (hm _ _) (hm _ _) e).2
      have h1 : Micro.mark ∈ [Micro.byte (UInt8.ofNat 7)] := by rw [this]; simp
      simp at h1
  | cons c cs ih =>
    intro cs' label label' n n' hn hn' e
    obtain ⟨X, hX⟩ := calls_fin_head cs label n
    cases cs' with
    | nil =>
      exfalso
      rw [List.flatMap_cons, List.append_assoc, hX] at e
      simp only [List.flatMap_nil, List.nil_append, finM, callM, List.cons_append, List.append_assoc,
        List.cons.injEq, true_and] at e
      have := (mark_split (hm _ _) (hm _ _) e).2
      have h1 : Micro.mark ∈ [Micro.byte (UInt8.ofNat 7)] := by rw [← this]; simp
      simp at h1
    | cons c' cs' =>
      obtain ⟨X', hX'⟩ := calls_fin_head cs' label' n'
      rw [List.flatMap_cons, List.append_assoc, hX, List.flatMap_cons, List.append_assoc, hX'] at e
      simp only [callM, List.cons_append, List.append_assoc, List.cons.injEq, true_and] at e
      obtain ⟨h1, h2⟩ := mark_split (hm _ _) (hm _ _) e
      obtain ⟨h3, h4⟩ := mark_split (mark_bodyM c) (mark_bodyM c') h2
      have hc := call_inj (metaM_inj h1).1 h3
      have := ih hn hn' (cs' := cs') (label := label) (label' := label') (n := n) (n' := n') (by rw [hX, hX', h4])
      exact ⟨by rw [hc, this.1], this.2⟩

end Spartan.Merlin
