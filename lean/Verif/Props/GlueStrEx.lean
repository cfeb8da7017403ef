import Verif.Props.GlueStr

/-!
A module with `realloc`, and texts passed to it.  Beside C133 and C134.
-/

namespace Spartan.Glue

open Spartan.Utf

variable {O : Type}

/-- Copies the block to the end of the memory. -/
def demoRealloc : Realloc := fun p n m w => if w.mem.length < 2 ^ 32 then some (w.mem.length,
  { w with mem := w.mem ++ (content w (p, n) ++ List.replicate (m - n) 0), gen := w.gen + 1,
           blocks := (w.mem.length, m) :: w.blocks.tail }) else none

theorem demoRealloc_ok (base : ℕ) : ReallocOk demoRealloc base := by
  intro w w' p n m q bs I hb hm h
  rw [demoRealloc] at h
  split at h
  swap
  · cases h
  rename_i hl
  obtain ⟨rfl, rfl⟩ := Prod.mk.injEq .. ▸ Option.some.inj h
  obtain ⟨-, hin, -⟩ := I.inside (p, n) (by rw [hb]; exact List.mem_cons_self)
  have hin' : p + n ≤ w.mem.length := hin
  have lc : (content w (p, n)).length = n := by rw [content, List.length_take, List.length_drop]; simp only; omega
  have ln : (w.mem ++ (content w (p, n) ++ List.replicate (m - n) 0)).length = w.mem.length + m := by
    rw [List.length_append, List.length_append, List.length_replicate, lc]; omega
  have hI : ∀ b ∈ bs, base ≤ b.1 ∧ b.1 + b.2 ≤ w.mem.length ∧ b.1 < 2 ^ 32 := fun b h =>
    I.inside b (by rw [hb]; exact List.mem_cons_of_mem _ h)
  have hd := I.disj
  rw [hb, List.pairwise_cons] at hd
  refine ⟨⟨I.sp_le, I.base_le, ?_, ?_, ?_⟩, by rw [hb, List.tail_cons], rfl, ?_, ?_⟩
  · show _ ≤ (w.mem ++ (content w (p, n) ++ List.replicate (m - n) 0)).length
    rw [ln]; have := I.mem_ge; omega
  · intro b hbm
    show _ ∧ _ ≤ (w.mem ++ (content w (p, n) ++ List.replicate (m - n) 0)).length ∧ _
    rw [ln]
    rw [hb, List.tail_cons] at hbm
    rcases List.mem_cons.1 hbm with rfl | hbm
    · exact ⟨I.mem_ge, le_refl _, hl⟩
    · obtain ⟨h1, h2, h3⟩ := hI b hbm
      exact ⟨h1, by omega, h3⟩
  · show ((w.mem.length, m) :: w.blocks.tail).Pairwise _
    rw [hb, List.tail_cons]
    exact List.pairwise_cons.2 ⟨fun b h => Or.inr (hI b h).2.1, hd.2⟩
  · intro b hbm
    have := (hI b hbm).2.1
    rw [content, content]
    show ((w.mem ++ _).drop b.1).take b.2 = _
    rw [List.drop_append_of_le_length (by omega), List.take_append_of_le_length (by rw [List.length_drop]; omega)]
    rfl
  · rw [content]
    show ((w.mem ++ _).drop w.mem.length).take n = _
    rw [List.drop_left, List.take_append_of_le_length (by omega), List.take_of_length_le (by omega)]

/-- 64 bytes of memory, half of it stack. -/
def tinyBoot : Wasm := ⟨List.replicate 64 0, 0, 32, []⟩

theorem tinyBoot_inv : WInv 32 tinyBoot where
  sp_le := le_refl _
  base_le := by decide
  mem_ge := by decide
  inside b hb := by cases hb
  disj := List.Pairwise.nil

def tiny : St O := finalizeInit tinyBoot St.init

theorem tiny_ready : Ready 32 0 (tiny (O := O)) fun _ => none := finalize_ready (s := St.init) tinyBoot_inv .init

/-- The result is the number `p`. -/
def okIs (r : Except (Exn O) ℕ) (p : ℕ) : Bool := match r with
  | .ok q => q == p
  | .error _ => false

theorem okIs_eq {r : Except (Exn O) ℕ} {p : ℕ} (h : okIs r p = true) : r = .ok p := by
  cases r with
  | ok q => rw [beq_iff_eq.1 h]
  | error e => cases h

/-- The hypotheses of `pass_string` and `string_round_trip` are met, for a text with characters of one to four bytes. -/
example : ∃ s', passString (O := Unit) demo (some demoRealloc) true (utf16 ['a', 'é', '€', '😀']) tiny = (.ok 69, s') ∧
    s'.vecLen = 10 ∧ (∃ s'', getString 69 s'.vecLen s' = (.ok (utf16 ['a', 'é', '€', '😀']), s'')) := by
  have h : passString (O := Unit) demo (some demoRealloc) true (utf16 ['a', 'é', '€', '😀']) tiny = (.ok 69, _) :=
    Prod.ext (okIs_eq (by decide +kernel)) rfl
  exact ⟨_, h, by decide +kernel, string_round_trip (demo_alloc 32)
    (fun r hr => by obtain rfl := Option.some.inj hr; exact demoRealloc_ok 32) tiny_ready true _ h⟩

/-- A lone surrogate becomes the replacement character. -/
example : Text [0x61, 0xD800, 0x62] ['a', '�', 'b'] :=
  .one rfl (.high ⟨by decide, by decide⟩ (fun v hv => by obtain rfl := Option.some.inj hv; exact fun h => absurd h.1 (by decide))
    (.one rfl .nil))

/-- The hypotheses of `string_block_false` are met: for the text of `a` and `é` the module is told a length of 3 bytes, the block
has 4. -/
example : ∃ s', passString (O := Unit) demo (some demoRealloc) true (utf16 ['a', 'é']) tiny = (.ok 66, s') ∧ s'.vecLen = 3 ∧
    (66, 3) ∉ (s'.insts 0).blocks ∧ (66, 4) ∈ (s'.insts 0).blocks := by
  obtain ⟨s', h, ev, hm⟩ : ∃ s', passString (O := Unit) demo (some demoRealloc) true (utf16 ['a', 'é']) tiny = (.ok 66, s') ∧
      s'.vecLen = 3 ∧ (66, 4) ∈ (s'.insts 0).blocks :=
    ⟨_, Prod.ext (okIs_eq (by decide +kernel)) rfl, by decide +kernel, by decide +kernel⟩
  refine ⟨s', h, ev, ?_, hm⟩
  have := string_block_false (demo_alloc 32) (demoRealloc_ok 32) tiny_ready true (text_utf16 ['a', 'é']) (c := 'é') (by decide)
    (by decide) (by decide) h
  rwa [ev] at this

/-- A text of the module in its memory, for `get_string`, `import_error`, `import_throw` and `import_string_new`: what
`passString` wrote. -/
example : ∃ s' s'', passString (O := Unit) demo none false (utf16 ['h', 'i', '€']) tiny = (.ok 64, s') ∧
    importError demo 64 5 s' = (.ok (utf16 ['h', 'i', '€']), s'') ∧ (s''.insts 0).blocks = [] := by
  have h : passString (O := Unit) demo none false (utf16 ['h', 'i', '€']) tiny = (.ok 64, _) :=
    Prod.ext (okIs_eq (by decide +kernel)) rfl
  rcases pass_string (demo_alloc (O := Unit) 32) (R := none) (fun r hr => by cases hr) tiny_ready false
    (text_utf16 ['h', 'i', '€']) with ⟨s1, e1, -⟩ | ⟨p, n, s1, e1, hv, S, hb, hn, -, hc⟩
  · rw [h] at e1; cases e1
  obtain ⟨h1, rfl⟩ := Prod.mk.injEq .. ▸ h.symm.trans e1
  obtain rfl := Except.ok.inj h1
  obtain ⟨s2, -, -, hb2, -, hok, -⟩ := import_error (demo_alloc (O := Unit) 32) S.ready (p := 64) (n := 5) (by decide)
    (bl := []) (by rw [hb, hn]; rfl)
  exact ⟨_, s2, h, hok _ hc, hb2⟩

/-- Bytes that are not UTF-8, for `get_string_refuses`: the second byte of a character is missing. -/
example (cs : List Char) : ([0xC3] : List UInt8) ≠ utf8 cs := fun h => by
  have := dec_utf8 cs
  rw [← h, show decodeCps .init [0xC3] = none from rfl] at this
  cases this

/-- The hypotheses of `import_stack` are met. -/
example : (∃ s', importStack (O := O) demo (some demoRealloc) true 8 (utf16 ['a', 'é']) tiny = (.error .trap, s') ∧
      Refuses (O := O) demo (some demoRealloc) 32 ∧ Same 32 0 tiny s' (fun _ => none) fun _ => none) ∨
    ∃ p n s', importStack (O := O) demo (some demoRealloc) true 8 (utf16 ['a', 'é']) tiny = (.ok (), s') ∧
      Same 32 0 tiny s' (fun _ => none) (fun _ => none) ∧ (s'.insts 0).blocks = [(p, n)] ∧ word (s'.insts 0).mem 8 = p ∧
      word (s'.insts 0).mem 12 = 3 ∧ content (s'.insts 0) (p, 3) = utf8 ['a', 'é'] :=
  import_stack (demo_alloc 32) (fun r hr => by obtain rfl := Option.some.inj hr; exact demoRealloc_ok 32) tiny_ready true
    (text_utf16 ['a', 'é']) (by decide) (by decide) (by decide)

end Spartan.Glue
