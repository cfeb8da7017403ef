import Verif.Lemmas.Merlin
import Verif.Lemmas.Plain
import Verif.Props.Bincode
import Verif.Props.FiatShamir
import Verif.Props.SqrtQ
import Verif.Props.Programs

/-!
C93: the hash input of a challenge determines everything absorbed before it.
-/

namespace Spartan.Merlin
open Spec

attribute [local irreducible] newM ascii AState.run AState.forced finM AState.call

/-- C93, the calls: for every permutation, the bytes of a challenge are the first bytes of the sponge
run on a list of blocks that only depends on the name of the transcript and the calls made on it.  No call panics. -/
theorem challenge_is_sponge (f : KState → KState) {name : List UInt8} (hname : name.length < 2 ^ 32)
    {calls : List Call} (hc : ∀ c ∈ calls, c.Small) (label : List UInt8) {n : Nat} (hn : n ≤ 166) :
    challengeAfter f name calls label n = .ok (output n (sponge f (history name calls label n))) := by
  obtain ⟨s1, e1, h1⟩ := transcriptNew_rel f name hname
  obtain ⟨s2, e2, h2⟩ := calls_rel calls h1 hc
  rw [← List.foldl_cons] at h2
  obtain ⟨s3, h3, e3⟩ := challengeBytes_rel (n := n) h2 label (by omega)
  have hr : Reach _ _ := ((reach_calls (Call.append (ascii "dom-sep") name :: calls)
    (Reach.start.run newM)).run (finM label n)).forced
  have hout := squeeze_out n h3 hr.ok (by rw [forced_cur]; simp only [List.length_nil]; omega)
  unfold challengeAfter
  rw [e1]
  show (calls.foldlM (call f) s1 >>= fun s => challengeBytes f label n s >>= fun r => pure r.1) = _
  rw [e2]
  show (challengeBytes f label n s2 >>= fun r => pure r.1) = _
  rw [e3]
  show Except.ok (squeeze f n s3).1 = _
  rw [hout]
  simp only [forced_cur, List.length_nil, Nat.zero_add]
  rfl

/-- C93, the calls: that list of blocks determines the name, the calls and their order, every label, every
message and the length of every output. -/
theorem history_injective {name name' : List UInt8} {calls calls' : List Call} {label label' : List UInt8}
    {n n' : Nat} (hn : n < 2 ^ 32) (hn' : n' < 2 ^ 32)
    (h : history name calls label n = history name' calls' label' n') :
    name = name' ∧ calls = calls' ∧ label = label' ∧ n = n' := by
  have key : ∀ (nm : List UInt8) (cs : List Call) (lb : List UInt8) (k : Nat), ∃ a : AState,
      a.done = history nm cs lb k ∧ a.cur = [] ∧ a.pb = 0 ∧
      Reach (newM ++ ((Call.append (ascii "dom-sep") nm :: cs).flatMap callM ++ finM lb k)) a := by
    intro nm cs lb k
    have hr := ((reach_calls (Call.append (ascii "dom-sep") nm :: cs)
      (Reach.start.run newM)).run (finM lb k)).forced
    rw [List.nil_append, List.append_assoc] at hr
    refine ⟨_, rfl, forced_cur _, ?_, hr⟩
    have hk := hr.ok.2
    rw [forced_cur] at hk
    simpa using hk
  obtain ⟨a, hd, hc, hp, hr⟩ := key name calls label n
  obtain ⟨a', hd', hc', hp', hr'⟩ := key name' calls' label' n'
  have ha : a = a' := by
    obtain ⟨d, c, p⟩ := a
    obtain ⟨d', c', p'⟩ := a'
    simp only at hd hc hp hd' hc' hp'
    rw [hd, hc, hp, hd', hc', hp', h]
  subst ha
  have hl := List.append_cancel_left (hr.unique hr')
  obtain ⟨e1, e2, e3⟩ := calls_fin_inj _ hn hn' hl
  simp only [List.cons.injEq, Call.append.injEq, true_and] at e1
  exact ⟨e1.1, e1.2, e2, e3⟩

/-! ### The messages of the proof system -/

theorem ascii_injective {s s' : String} (h : ascii s = ascii s') : s = s' := by
  unfold ascii at h
  exact String.toByteArray_inj.mp (ByteArray.ext (Array.toList_inj.mp h))

/-- The call that the methods of `transcript.rs` (l. 14–57) and Merlin's `append_u64` make for a message. -/
def encMsg : Msg (ZMod secpP) EncPt → Call
  | .bytes l d => .append (ascii l) (ascii d)
  | .u64 l n => .append (ascii l) (leBytes 8 n)
  | .blob l d => .append (ascii l) d
  | .scalar l x => .append (ascii l) (leBytes 32 x.val)
  | .point l p => .append (ascii l) p.1
  | .chal l => .chal (ascii l) 64

theorem encPt_length (p : EncPt) : p.1.length = 1 ∨ p.1.length = 33 ∨ p.1.length = 65 := by
  obtain ⟨bs, h⟩ := p
  cases bs with
  | nil => simp [sec1Shape] at h
  | cons t rest =>
    simp only [sec1Shape, Bool.or_eq_true, Bool.and_eq_true, beq_iff_eq] at h
    simp only [List.length_cons]
    omega

theorem encMsg_small {m : Msg (ZMod secpP) EncPt} (h : Plain m) : (encMsg m).Small := by
  cases m with
  | bytes l d => exact h.2.2
  | u64 l n => simp only [encMsg, Call.Small, Call.len, MParams.leBytes_length]; norm_num
  | blob l d => exact h.2
  | scalar l x => simp only [encMsg, Call.Small, Call.len, MParams.leBytes_length]; norm_num
  | point l p =>
    have := encPt_length p
    simp only [encMsg, Call.Small, Call.len]
    omega
  | chal l => simp only [encMsg, Call.Small, Call.len]; norm_num

theorem encMsg_injective {m m' : Msg (ZMod secpP) EncPt} (h : Plain m) (h' : Plain m') (e : encMsg m = encMsg m') :
    m = m' := by
  have hs : ∀ x y : ZMod secpP, leBytes 32 x.val = leBytes 32 y.val → x = y := by
    intro x y h
    have h2 := congrArg leNat h
    have hx : x.val < 256 ^ 32 := lt_of_lt_of_le (lt_trans (ZMod.val_lt x) MParams.valid_P.lt) (by norm_num)
    have hy : y.val < 256 ^ 32 := lt_of_lt_of_le (lt_trans (ZMod.val_lt y) MParams.valid_P.lt) (by norm_num)
    rw [MParams.leNat_leBytes, MParams.leNat_leBytes, Nat.mod_eq_of_lt hx, Nat.mod_eq_of_lt hy] at h2
    exact ZMod.val_injective _ h2
  have hl : ∀ x : ZMod secpP, (leBytes 32 x.val).length = 32 := fun x => MParams.leBytes_length _ _
  have hu : ∀ n : Nat, (leBytes 8 n).length = 8 := fun n => MParams.leBytes_length _ _
  cases m <;> cases m' <;> simp only [encMsg, Call.append.injEq, Call.chal.injEq, reduceCtorEq, and_true] at e
  case bytes.bytes l d l' d' => rw [ascii_injective e.1, ascii_injective e.2]
  case u64.u64 l n l' n' =>
    have h2 := congrArg leNat e.2
    rw [MParams.leNat_leBytes, MParams.leNat_leBytes, Nat.mod_eq_of_lt (lt_of_lt_of_le h.2 (by norm_num)),
      Nat.mod_eq_of_lt (lt_of_lt_of_le h'.2 (by norm_num))] at h2
    rw [ascii_injective e.1, h2]
  case blob.blob l d l' d' => rw [ascii_injective e.1, e.2]
  case scalar.scalar l x l' x' => rw [ascii_injective e.1, hs _ _ e.2]
  case point.point l p l' p' => rw [ascii_injective e.1, Subtype.ext e.2]
  case chal.chal l l' => rw [ascii_injective e]
  case blob.bytes l d l' d' => exact absurd ((ascii_injective e.1).symm.trans h.1) h'.1
  case blob.u64 l d l' d' => exact absurd ((ascii_injective e.1).symm.trans h.1) h'.1
  case blob.scalar l d l' d' => exact absurd ((ascii_injective e.1).symm.trans h.1) h'
  case blob.point l d l' d' => exact absurd ((ascii_injective e.1).symm.trans h.1) h'
  case bytes.blob l d l' d' => exact absurd ((ascii_injective e.1).trans h'.1) h.1
  case u64.blob l d l' d' => exact absurd ((ascii_injective e.1).trans h'.1) h.1
  case scalar.blob l d l' d' => exact absurd ((ascii_injective e.1).trans h'.1) h
  case point.blob l d l' d' => exact absurd ((ascii_injective e.1).trans h'.1) h
  case bytes.u64 l d l' n => exact absurd (by rw [e.2, hu]; decide) h.2.1
  case bytes.scalar l d l' x => exact absurd (by rw [e.2, hl]; decide) h.2.1
  case bytes.point l d l' p => exact absurd (by rw [e.2]; rcases encPt_length p with h | h | h <;> rw [h] <;> decide) h.2.1
  case u64.bytes l d l' n => exact absurd (by rw [← e.2, hu]; decide) h'.2.1
  case scalar.bytes l d l' x => exact absurd (by rw [← e.2, hl]; decide) h'.2.1
  case point.bytes l p l' d =>
    exact absurd (by rw [← e.2]; rcases encPt_length p with h | h | h <;> rw [h] <;> decide) h'.2.1
  case u64.scalar l n l' x => have := congrArg List.length e.2; rw [hu, hl] at this; omega
  case scalar.u64 l n l' x => have := congrArg List.length e.2; rw [hu, hl] at this; omega
  case u64.point l n l' p => have := congrArg List.length e.2; rw [hu] at this; have := encPt_length p; omega
  case point.u64 l p l' n => have := congrArg List.length e.2; rw [hu] at this; have := encPt_length p; omega
  case scalar.point l x l' p => have := congrArg List.length e.2; rw [hl] at this; have := encPt_length p; omega
  case point.scalar l p l' x => have := congrArg List.length e.2; rw [hl] at this; have := encPt_length p; omega

/-- C93, the messages: of two sequences of messages of the proof system, made of scalars, points, constants,
counters and the digest, the hash inputs are the same only if the sequences are. -/
theorem transcript_injective {name name' : String} {ms ms' : Tr (ZMod secpP) EncPt} {l l' : String}
    (h : ∀ m ∈ ms, Plain m) (h' : ∀ m ∈ ms', Plain m)
    (e : history (ascii name) (ms.map encMsg) (ascii l) 64 = history (ascii name') (ms'.map encMsg) (ascii l') 64) :
    name = name' ∧ ms = ms' ∧ l = l' := by
  obtain ⟨h1, h2, h3, -⟩ := history_injective (by norm_num) (by norm_num) e
  refine ⟨ascii_injective h1, ?_, ascii_injective h3⟩
  clear e h1 h3
  induction ms generalizing ms' with
  | nil =>
    cases ms' with
    | nil => rfl
    | cons _ _ => simp at h2
  | cons m ms ih =>
    cases ms' with
    | nil => simp at h2
    | cons m' ms' =>
      simp only [List.map_cons, List.cons.injEq] at h2
      rw [encMsg_injective (h m List.mem_cons_self) (h' m' List.mem_cons_self) h2.1,
        ih (fun x hx => h x (List.mem_cons_of_mem _ hx)) (fun x hx => h' x (List.mem_cons_of_mem _ hx)) h2.2]

/-- The sponge input behind a challenge: `t` are the messages of the transcript `name` including the request for
the challenge at the end. -/
def blocks (name : String) (t : Tr (ZMod secpP) EncPt) : List Block :=
  match t.getLast? with
  | some (.chal l) => history (ascii name) (t.dropLast.map encMsg) (ascii l) 64
  | _ => []

/-- The first 64 bytes of a state. -/
def output64 (st : KState) : Bytes64 := ⟨output 64 st, by simp [output]⟩

/-- The challenge scalar that the code derives (`transcript.rs` l. 26–38): Merlin's bytes, reduced by
`from_bytes_wide`.  `none` stands for a panic, and for a list of messages that does not end in a request. -/
noncomputable def codeChallenge (f : KState → KState) (name : String) (t : Tr (ZMod secpP) EncPt) :
    Option (ZMod secpP) :=
  match t.getLast? with
  | some (.chal l) =>
    match challengeAfter f (ascii name) (t.dropLast.map encMsg) (ascii l) 64 with
    | .ok bs => if h : bs.length = 64 then some (challengeValue ⟨bs, h⟩) else none
    | .error _ => none
  | _ => none

theorem blocks_chal (name : String) (ms : Tr (ZMod secpP) EncPt) (l : String) :
    blocks name (ms ++ [.chal l]) = history (ascii name) (ms.map encMsg) (ascii l) 64 := by
  unfold blocks
  rw [List.getLast?_concat, List.dropLast_concat]

/-- C93: a challenge is the reduction of 64 bytes of the sponge run on the blocks of the messages before it. -/
theorem code_challenge (f : KState → KState) {name : String} (hname : (ascii name).length < 2 ^ 32)
    {ms : Tr (ZMod secpP) EncPt} (h : Plains ms) (l : String) :
    codeChallenge f name (ms ++ [.chal l]) =
      some (challengeValue (output64 (sponge f (blocks name (ms ++ [.chal l]))))) := by
  have e := challenge_is_sponge f hname (calls := ms.map encMsg) (by
    intro c hc
    obtain ⟨m, hm, rfl⟩ := List.mem_map.mp hc
    exact encMsg_small (h m hm)) (ascii l) (n := 64) (by norm_num)
  rw [blocks_chal]
  unfold codeChallenge
  rw [List.getLast?_concat, List.dropLast_concat]
  simp only
  rw [e]
  simp only
  rw [dif_pos (by simp [output])]
  rfl

theorem blocks_injective {name name' : String} {ms ms' : Tr (ZMod secpP) EncPt} {l l' : String}
    (h : Plains ms) (h' : Plains ms') (e : blocks name (ms ++ [.chal l]) = blocks name' (ms' ++ [.chal l'])) :
    name = name' ∧ ms = ms' ∧ l = l' := by
  rw [blocks_chal, blocks_chal] at e
  exact transcript_injective h h' e

/-! ### Accepted proofs -/

/-- C93 for `NIZK::verify`: whatever the proof and the public input, every challenge of an accepting run is
the reduction of 64 bytes of the sponge on the blocks of the messages before it, and no two challenges of
accepting runs, on whatever instances and proofs, have the same blocks unless all messages before them are the
same. -/
theorem nizk_challenges {f : KState → KState} {name : String} (hname : (ascii name).length < 2 ^ 32)
    {sqrt : ZMod secpN → Option (ZMod secpN)} {hash : Tr (ZMod secpP) EncPt → ZMod secpP}
    (hcode : ∀ t x, Plains t → codeChallenge f name t = some x → hash t = x)
    {pf : NIZK (ZMod secpP) EncPt} {I : Inst (ZMod secpP)} {input : List (ZMod secpP)} {gens : R1CSGens Secq}
    {tr : Tr (ZMod secpP) EncPt} (hd : I.digest.length < 2 ^ 32)
    (hv : NIZK.verify (secqEnvE sqrt hash) pf I input gens [] = .ok tr) {a b : Tr (ZMod secpP) EncPt} {l : String}
    (e : tr = a ++ .chal l :: b) :
    hash (a ++ [.chal l]) = challengeValue (output64 (sponge f (blocks name (a ++ [.chal l])))) ∧
    ∀ {pf' : NIZK (ZMod secpP) EncPt} {I' : Inst (ZMod secpP)} {input' : List (ZMod secpP)} {gens' : R1CSGens Secq}
      {tr' : Tr (ZMod secpP) EncPt}, I'.digest.length < 2 ^ 32 →
      NIZK.verify (secqEnvE sqrt hash) pf' I' input' gens' [] = .ok tr' →
      ∀ {a' b' : Tr (ZMod secpP) EncPt} {l' : String}, tr' = a' ++ .chal l' :: b' →
        blocks name (a ++ [.chal l]) = blocks name (a' ++ [.chal l']) → a = a' ∧ l = l' := by
  have key : ∀ {pf : NIZK (ZMod secpP) EncPt} {I : Inst (ZMod secpP)} {input : List (ZMod secpP)} {gens : R1CSGens Secq}
      {tr : Tr (ZMod secpP) EncPt}, I.digest.length < 2 ^ 32 →
      NIZK.verify (secqEnvE sqrt hash) pf I input gens [] = .ok tr →
      ∀ {a b : Tr (ZMod secpP) EncPt} {l : String}, tr = a ++ .chal l :: b → Plains a := by
    intro pf I input gens tr hd hv a b l e
    have h := nizk_plain (tr := []) (by intro m hm; cases hm) hd tr hv
    rw [e] at h
    exact (Plains.append.mp h).1
  have h := key hd hv e
  refine ⟨hcode _ _ (h.chal) (code_challenge f hname h l), ?_⟩
  intro pf' I' input' gens' tr' hd' hv' a' b' l' e' he
  exact (blocks_injective h (key hd' hv' e') he).2

/-- C93 for `SNARK::verify`; the numbers in the commitment are machine words. -/
theorem snark_challenges {f : KState → KState} {name : String} (hname : (ascii name).length < 2 ^ 32)
    {sqrt : ZMod secpN → Option (ZMod secpN)} {hash : Tr (ZMod secpP) EncPt → ZMod secpP}
    (hcode : ∀ t x, Plains t → codeChallenge f name t = some x → hash t = x)
    {pf : SNARK (ZMod secpP) EncPt} {comm : R1CSComm EncPt} {input : List (ZMod secpP)} {gens : SNARKGens Secq}
    {tr : Tr (ZMod secpP) EncPt} (hd : Fits comm)
    (hv : SNARK.verify (secqEnvE sqrt hash) pf comm input gens [] = .ok tr) {a b : Tr (ZMod secpP) EncPt} {l : String}
    (e : tr = a ++ .chal l :: b) :
    hash (a ++ [.chal l]) = challengeValue (output64 (sponge f (blocks name (a ++ [.chal l])))) ∧
    ∀ {pf' : SNARK (ZMod secpP) EncPt} {comm' : R1CSComm EncPt} {input' : List (ZMod secpP)} {gens' : SNARKGens Secq}
      {tr' : Tr (ZMod secpP) EncPt}, Fits comm' →
      SNARK.verify (secqEnvE sqrt hash) pf' comm' input' gens' [] = .ok tr' →
      ∀ {a' b' : Tr (ZMod secpP) EncPt} {l' : String}, tr' = a' ++ .chal l' :: b' →
        blocks name (a ++ [.chal l]) = blocks name (a' ++ [.chal l']) → a = a' ∧ l = l' := by
  have key : ∀ {pf : SNARK (ZMod secpP) EncPt} {comm : R1CSComm EncPt} {input : List (ZMod secpP)}
      {gens : SNARKGens Secq} {tr : Tr (ZMod secpP) EncPt}, Fits comm →
      SNARK.verify (secqEnvE sqrt hash) pf comm input gens [] = .ok tr →
      ∀ {a b : Tr (ZMod secpP) EncPt} {l : String}, tr = a ++ .chal l :: b → Plains a := by
    intro pf comm input gens tr hd hv a b l e
    have h := snark_plain (tr := []) (by intro m hm; cases hm) hd tr hv
    rw [e] at h
    exact (Plains.append.mp h).1
  have h := key hd hv e
  refine ⟨hcode _ _ (h.chal) (code_challenge f hname h l), ?_⟩
  intro pf' comm' input' gens' tr' hd' hv' a' b' l' e' he
  exact (blocks_injective h (key hd' hv' e') he).2

theorem nizk_ends {E : Env (ZMod secpP) Secq EncPt} {pf : NIZK (ZMod secpP) EncPt} {I : Inst (ZMod secpP)}
    {input : List (ZMod secpP)} {gens : R1CSGens Secq} {tr : Tr (ZMod secpP) EncPt} :
    Post (NIZK.verify E pf I input gens tr) (fun t => ∃ a l, t = a ++ .chal l :: []) := by
  have he : ∀ {pf : EqualityProof (ZMod secpP) EncPt} {g : Gens Secq} {tr : Tr (ZMod secpP) EncPt} {C1 C2 : EncPt},
      Post (pf.verify E g tr C1 C2) (fun t => ∃ a l, t = a ++ .chal l :: []) := by
    intro pf g tr C1 C2
    unfold EqualityProof.verify
    simp only [Env.challenge]
    exact Post.any fun _ => Post.any fun _ => Post.any fun _ => Post.ite (Post.pure ⟨_, _, rfl⟩) Post.err
  have hr : ∀ {pf : R1CSProof (ZMod secpP) EncPt} {nv nc : Nat} {ev : ZMod secpP × ZMod secpP × ZMod secpP}
      {tr : Tr (ZMod secpP) EncPt}, Post (pf.verify E nv nc input ev gens tr)
        (fun r => ∃ a l, r.2.2 = a ++ .chal l :: []) := by
    intro pf nv nc ev tr
    unfold R1CSProof.verify
    simp only [Env.challenge]
    repeat first
      | exact Post.bind he fun t7 h7 => Post.pure h7
      | refine Post.any fun _ => ?_
  unfold NIZK.verify
  refine Post.any fun _ => Post.any fun _ => Post.bind hr fun r hr => ?_
  exact Post.any fun _ => Post.any fun _ => Post.pure hr

theorem sponge_const (k : KState) (bs : List Block) : sponge (fun _ => k) bs = k := by
  unfold sponge
  induction bs with
  | nil => rfl
  | cons b bs ih => exact ih

/-- The hypotheses of `nizk_challenges` are met: the shipped example circuit with `x = 2`, the name
used by the wasm interface, and a sponge whose permutation is replaced by a constant. -/
theorem nizk_challenges_met (S : GenSrc Secq) (tape : Tape (ZMod secpP)) :
    ∃ (f : KState → KState) (hash : Tr (ZMod secpP) EncPt → ZMod secpP) (I : Inst (ZMod secpP)) (gens : R1CSGens Secq)
      (pf : NIZK (ZMod secpP) EncPt) (input : List (ZMod secpP)) (tr a b : Tr (ZMod secpP) EncPt) (l : String),
      (ascii "nizk_example").length < 2 ^ 32 ∧
      (∀ t x, Plains t → codeChallenge f "nizk_example" t = some x → hash t = x) ∧ I.digest.length < 2 ^ 32 ∧
      NIZK.verify (secqEnvE k256Sqrt hash) pf I input gens [] = .ok tr ∧ tr = a ++ .chal l :: b := by
  let k : KState := fun _ => 1
  have hn : (ascii "nizk_example").length < 2 ^ 32 := by decide +kernel
  have hk : challengeValue (output64 k) ≠ 0 := by
    rw [(challengeValue_eq _).1, Ne, ZMod.natCast_eq_zero_iff]
    decide +kernel
  have hend : ∀ t x, Plains t → codeChallenge (fun _ => k) "nizk_example" t = some x → challengeValue (output64 k) = x := by
    intro t x hp hx
    rcases List.eq_nil_or_concat t with rfl | ⟨ms, m, rfl⟩
    · cases hx
    · have hp' := Plains.append.mp (by rw [List.concat_eq_append] at hp; exact hp)
      rw [List.concat_eq_append] at hx
      cases m with
      | chal l =>
        rw [code_challenge _ hn hp'.1, sponge_const] at hx
        exact Option.some.inj hx
      | _ => unfold codeChallenge at hx; rw [List.getLast?_concat] at hx; cases hx
  obtain ⟨I, hI, -, hsat⟩ := Programs.cubic_r1cs (fun _ => [1]) (z := 2) (by unfold CoreScalar.Valid secpP; norm_num)
  have hsz : I.inst.numVars ≤ 2 ^ 62 := by
    obtain ⟨-, -, -, rfl⟩ := new_ok_entries hI
    show varsPadded 4 1 ≤ _
    rw [varsPadded_eq, show max 4 (1 + 1) = 2 ^ 2 from rfl, nextPow2_pow 2]
    norm_num
  have hdg : I.digest = [1] := by
    obtain ⟨-, -, -, rfl⟩ := new_ok_entries hI
    rfl
  obtain ⟨gens, pf, tr', -, -, hv⟩ := nizk_complete_nonzero (E := secqEnvE k256Sqrt fun _ => challengeValue (output64 k))
    Koblitz.secp_consts.1 Koblitz.secp_consts.2.1 (secqEnvE_lawful k256Sqrt_spec _) (fun _ => hk) hI (by norm_num) hsz
    S [1] hsat [] tape
  obtain ⟨a, l, e⟩ := nizk_ends _ hv
  exact ⟨fun _ => k, _, I, gens, pf, _, tr', a, [], l, hn, hend, by rw [hdg]; decide, hv, e⟩

/-! ### The forgery bounds for a random function of the sponge input -/

/-- Functions on the images of an injective map are as many as functions on its arguments. -/
theorem ncard_pull {α β W : Type} [Finite W] [DecidableEq β] (D : Finset α) (e : α → β)
    (Q : (D.image e → W) → Prop) (Q' : (D → W) → Prop)
    (hQ : ∀ h, Q h → Q' fun t => h ⟨e t.1, Finset.mem_image_of_mem e t.2⟩) :
    Set.ncard {h | Q h} ≤ Set.ncard {h | Q' h} := by
  refine Set.ncard_le_ncard_of_injOn (fun h t => h ⟨e t.1, Finset.mem_image_of_mem e t.2⟩) (fun h hh => hQ h hh) ?_
    (Set.toFinite _)
  intro h1 _ h2 _ he
  funext ⟨b, hb⟩
  obtain ⟨a, ha, rfl⟩ := Finset.mem_image.mp hb
  exact congrFun he ⟨a, ha⟩

theorem secqEnvE_hash (sqrt : ZMod secpN → Option (ZMod secpN)) (h1 h2 : Tr (ZMod secpP) EncPt → ZMod secpP) :
    { secqEnvE sqrt h1 with hash := h2 } = secqEnvE sqrt h2 := by
  unfold secqEnvE
  rfl

theorem secqE_isRep_hash {M : Type} [AddCommGroup M] [Module (ZMod secpP) M]
    (sqrt : ZMod secpN → Option (ZMod secpN)) (h1 h2 : Tr (ZMod secpP) EncPt → ZMod secpP)
    (rep : EncPt → M) (ev : M →ₗ[ZMod secpP] Secq) :
    IsRep (secqEnvE sqrt h1) rep ev ↔ IsRep (secqEnvE sqrt h2) rep ev := Iff.rfl

/-- C93 with C87: a random function of the sponge input in place of the sponge.  A prover that evaluates it at
most `2^100` times, always on inputs of the form that the code absorbs, obtains an accepted proof with folding
vectors of equal length, from which neither a relation between the generators nor a satisfying assignment
can be read off, for a fraction of at most `2^-152` of all functions. -/
theorem nizk_fiat_shamir_sponge {sqrt : ZMod secpN → Option (ZMod secpN)} (hs : SqrtSpec sqrt)
    {K : Codec (ZMod secpP)} {nc nv ni : Nat} {A B C : List (Nat × Nat × List UInt8)}
    {I : Inst (ZMod secpP)} (hnew : Inst.new K nc nv ni A B C = .ok (.ok I)) (hsz : I.inst.numVars ≤ 2 ^ 62) :
    ∃ j, I.inst.numVars = 2 ^ j ∧
    ∀ (name : String) (S : GenSrc Secq) (label : List UInt8) (gens : R1CSGens Secq)
      (D : Finset (Tr (ZMod secpP) EncPt)) (q : Nat)
      (ask : List Bytes64 → Tr (ZMod secpP) (EncPt × Comb (ZMod secpP) j))
      (out : List Bytes64 → NIZK (ZMod secpP) EncPt × List (ZMod secpP) × (EncPt → Comb (ZMod secpP) j)),
      NIZKGens.new S label nv ni = .ok gens → (∀ l, strip (ask l) ∈ D) →
      (∀ t ∈ D, ∃ ms l, Plains ms ∧ t = ms ++ [.chal l]) → q ≤ 2 ^ 100 →
      Set.ncard {h : D.image (blocks name) → Bytes64 | ∃ (H : List Block → Bytes64)
          (pf : NIZK (ZMod secpP) EncPt) (input : List (ZMod secpP)) (rep : EncPt → Comb (ZMod secpP) j)
          (ms : Tr (ZMod secpP) EncPt), (∀ b : D.image (blocks name), H b = h b) ∧
          out (answers (fun t => H (blocks name t)) ask q) = (pf, input, rep) ∧
          Asked (fun t => H (blocks name t)) ask q rep [] ms ∧
          IsRep (secqEnvE sqrt fun t => challengeValue (H (blocks name t))) rep (evalComb j (stream S label)) ∧
          pf.sat.evalVars.bullet.L.length = pf.sat.evalVars.bullet.R.length ∧
          NIZK.verify (secqEnvE sqrt fun t => challengeValue (H (blocks name t))) pf I input gens [] = .ok ms ∧
          (∀ es, nizkRels (secqEnvE sqrt fun t => challengeValue (H (blocks name t))) rep
            (evalComb j (stream S label)) gens
            (formalGens (ZMod secpP) j) (unit (ZMod secpP) j (width j)) (unit (ZMod secpP) j (width j + 1))
            pf I input [] = .ok es → ∀ e ∈ es, evalComb j (stream S label) e = 0 → e = 0) ∧
          I.isSat (extracted j rep pf.sat.commVars) input ≠ .ok (.ok true)} * 2 ^ 152 ≤
        Nat.card Bytes64 ^ (D.image (blocks name)).card := by
  have : Fintype Bytes64 := Fintype.ofFinite _
  obtain ⟨j, hj, X⟩ := nizk_fiat_shamir hnew hsz
  refine ⟨j, hj, ?_⟩
  intro name S label gens D q ask out hg hD hplain hq
  have h := X Secq EncPt Bytes64 challengeValue _ (secqEnvE sqrt fun _ => 0) S label gens [] D q ask out
    challenge_fibres (secqEnvE_lawful hs _) hg hD
  rw [← Nat.card_eq_fintype_card] at h
  simp only [secqEnvE_hash] at h
  rw [Finset.card_image_of_injOn]
  · refine secq_arith (a := 360) (b := 152) (d := 6) (q := q) (by decide +kernel) (by norm_num) ?_ hq
    refine le_trans (Nat.mul_le_mul_right _ (ncard_pull D (blocks name) _ _ ?_)) h
    rintro g ⟨H, pf, input, rep, ms, h1, h2, h3, h4, h5, h6, h7, h8⟩
    exact ⟨fun t => H (blocks name t), pf, input, rep, ms, fun t => h1 ⟨blocks name t.1, Finset.mem_image_of_mem _ t.2⟩,
      h2, h3, (secqE_isRep_hash sqrt _ _ rep _).mp h4, h5, h6, h7, h8⟩
  · intro t ht t' ht' e
    obtain ⟨ms, l, hp, rfl⟩ := hplain t ht
    obtain ⟨ms', l', hp', rfl⟩ := hplain t' ht'
    obtain ⟨-, rfl, rfl⟩ := blocks_injective hp hp' e
    rfl

/-- The same for `SNARK::verify` and instances with up to `2^30` non-zero entries and dimensions: a fraction of at
most `2^-119` of all functions of the sponge input. -/
theorem snark_fiat_shamir_sponge {sqrt : ZMod secpN → Option (ZMod secpN)} (hs : SqrtSpec sqrt)
    {K : Codec (ZMod secpP)} {nc nv ni nz : Nat} {A B C : List (Nat × Nat × List UInt8)}
    {I : Inst (ZMod secpP)} (hnew : Inst.new K nc nv ni A B C = .ok (.ok I)) (hc : 1 ≤ nc)
    (hnz : nextPow2 nz = nextPow2 (max (max I.inst.A.M.length I.inst.B.M.length) I.inst.C.M.length))
    (hnz30 : nextPow2 nz ≤ 2 ^ 30) (hsc : I.inst.numCons ≤ 2 ^ 30) (hsv : 2 * I.inst.numVars ≤ 2 ^ 30) :
    ∃ k j m n, I.inst.numCons = 2 ^ k ∧ I.inst.numVars = 2 ^ j ∧ m = max k (j + 1) ∧ nextPow2 nz = 2 ^ n ∧
    ∀ (name : String) (S : GenSrc Secq) (ls le : List UInt8) (gens : SNARKGens Secq) (comm : R1CSComm EncPt)
      (decomm : MultiDense (ZMod secpP)) (D : Finset (Tr (ZMod secpP) EncPt)) (q : Nat)
      (ask : List Bytes64 → Tr (ZMod secpP) (EncPt × Comb2 (ZMod secpP) j (tabSize m n)))
      (out : List Bytes64 → SNARK (ZMod secpP) EncPt × List (ZMod secpP) ×
        (EncPt → Comb2 (ZMod secpP) j (tabSize m n))),
      SNARKGens.new S ls le nc nv ni nz = .ok gens →
      SNARK.encode (secqEnvE sqrt fun _ => 0) I gens = .ok (comm, decomm) →
      (∀ l, strip (ask l) ∈ D) → (∀ t ∈ D, ∃ ms l, Plains ms ∧ t = ms ++ [.chal l]) → q ≤ 2 ^ 100 →
      Set.ncard {h : D.image (blocks name) → Bytes64 | ∃ (H : List Block → Bytes64)
          (pf : SNARK (ZMod secpP) EncPt) (input : List (ZMod secpP))
          (rep : EncPt → Comb2 (ZMod secpP) j (tabSize m n)) (ms : Tr (ZMod secpP) EncPt),
          (∀ b : D.image (blocks name), H b = h b) ∧
          out (answers (fun t => H (blocks name t)) ask q) = (pf, input, rep) ∧
          Asked (fun t => H (blocks name t)) ask q rep [] ms ∧
          IsRep (secqEnvE sqrt fun t => challengeValue (H (blocks name t))) rep
            (evalComb2 j (tabSize m n) (stream S ls) (stream S le)) ∧ SNARK.Shaped pf ∧
          SNARK.verify (secqEnvE sqrt fun t => challengeValue (H (blocks name t))) pf comm input gens [] = .ok ms ∧
          (∀ es, snarkRels (secqEnvE sqrt fun t => challengeValue (H (blocks name t))) rep
            (evalComb2 j (tabSize m n) (stream S ls) (stream S le)) gens
            (satGens (ZMod secpP) j (tabSize m n)) (unit (ZMod secpP) j (width j), 0)
            (unit (ZMod secpP) j (width j + 1), 0)
            (evalBasis (ZMod secpP) j (tabSize m n) n m) pf comm decomm input [] = .ok es → ∀ e ∈ es,
              evalComb2 j (tabSize m n) (stream S ls) (stream S le) e = 0 → e = 0) ∧
          I.isSat (extracted j (fun p => (rep p).1) pf.sat.commVars) input ≠ .ok (.ok true)} * 2 ^ 119 ≤
        Nat.card Bytes64 ^ (D.image (blocks name)).card := by
  have : Fintype Bytes64 := Fintype.ofFinite _
  have hbig : 2 ^ 33 < secpP := by decide +kernel
  obtain ⟨k, j, m, n, hk, hj, hm, hn, X⟩ := snark_fiat_shamir hnew hc hnz
    (le_trans hnz30 (by norm_num)) (le_trans hsc (by norm_num))
    (by have : (2 : ℕ) ^ 30 ≤ 2 ^ 60 := by norm_num
        omega) (by
      intro i hi0 hi h0
      have hi' : i ≤ 3 * 2 ^ 30 + 2 ^ 30 := le_trans hi (by
        have := max_le hsc hsv
        omega)
      rw [ZMod.natCast_eq_zero_iff] at h0
      have := Nat.le_of_dvd hi0 h0
      have h33 : (2 : ℕ) ^ 33 = 8 * 2 ^ 30 := by norm_num
      omega)
  refine ⟨k, j, m, n, hk, hj, hm, hn, ?_⟩
  intro name S ls le gens comm decomm D q ask out hg henc hD hplain hq
  have h := X Secq EncPt Bytes64 challengeValue _ (secqEnvE sqrt fun _ => 0) S ls le gens comm decomm []
    D q ask out challenge_fibres (secqEnvE_lawful hs _) hg henc hD
  have hm30 : 2 ^ m ≤ 2 ^ 30 := by
    rw [hm]
    rcases max_cases k (j + 1) with ⟨e, -⟩ | ⟨e, -⟩
    · rw [e, ← hk]; exact hsc
    · rw [e, pow_succ, mul_comm, ← hj]; exact hsv
  have hn30 : 2 ^ n ≤ 2 ^ 30 := by rw [← hn]; exact hnz30
  have hd : 4 * (3 * 2 ^ n + 2 ^ m) ≤ 2 ^ 34 := by
    have h34 : (2 : ℕ) ^ 34 = 16 * 2 ^ 30 := by norm_num
    omega
  rw [← Nat.card_eq_fintype_card] at h
  simp only [secqEnvE_hash] at h
  rw [Finset.card_image_of_injOn]
  · refine secq_arith (a := 393) (b := 119) (d := 4 * (3 * 2 ^ n + 2 ^ m)) (q := q)
      (le_trans (Nat.mul_le_mul_right _ hd) (by decide +kernel)) (by norm_num) ?_ hq
    refine le_trans (Nat.mul_le_mul_right _ (ncard_pull D (blocks name) _ _ ?_)) h
    rintro g ⟨H, pf, input, rep, ms, h1, h2, h3, h4, h5, h6, h7, h8⟩
    exact ⟨fun t => H (blocks name t), pf, input, rep, ms,
      fun t => h1 ⟨blocks name t.1, Finset.mem_image_of_mem _ t.2⟩,
      h2, h3, (secqE_isRep_hash sqrt _ _ rep _).mp h4, h5, h6, h7, h8⟩
  · intro t ht t' ht' e
    obtain ⟨ms, l, hp, rfl⟩ := hplain t ht
    obtain ⟨ms', l', hp', rfl⟩ := hplain t' ht'
    obtain ⟨-, rfl, rfl⟩ := blocks_injective hp hp' e
    rfl

end Spartan.Merlin
