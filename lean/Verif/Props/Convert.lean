import Verif.Props.Reader
import Verif.Props.NIZK
import Verif.Props.Concrete

/-!
Properties C62 and C66: what the Spartan instance made from a circom circuit states, and what an
accepted proof for it shows.
-/

set_option exponentiation.threshold 2000

namespace Spartan
open Spec MParams

variable {F : Type} [Field F] [DecidableEq F]

/-! ### The rows of the converted matrices -/

theorem triples_sum (val : Nat → F) (sel : CircomConstraint → List (Nat × Nat)) (z : List F) (i : Nat) :
    ∀ (cs : List CircomConstraint) (s : Nat),
      ((cs.mapIdx fun k c => (sel c).map fun t => (k + s, t.1, val t.2)).flatten.map fun e =>
        if e.1 = i then e.2.2 * z.getD e.2.1 0 else 0).sum =
      if s ≤ i then ((cs[i - s]?).map fun c => evalLC val (sel c) z).getD 0 else 0
  | [], s => by simp
  | c :: cs, s => by
      have ih := triples_sum val sel z i cs (s + 1)
      rw [List.mapIdx_cons, List.flatten_cons, List.map_append, List.sum_append, List.map_map]
      have e : (fun k (c : CircomConstraint) => (sel c).map fun t => (k + 1 + s, t.1, val t.2)) =
          fun k c => (sel c).map fun t => (k + (s + 1), t.1, val t.2) := by
        funext k c; rw [Nat.add_right_comm, Nat.add_assoc]
      rw [e, ih]
      rcases lt_trichotomy i s with h | h | h
      · rw [if_neg (by omega), if_neg (by omega), add_zero]
        apply List.sum_eq_zero
        intro x hx
        simp only [List.mem_map, Function.comp] at hx
        obtain ⟨t, -, rfl⟩ := hx
        rw [if_neg (by omega)]
      · subst h
        rw [if_neg (by omega), if_pos le_rfl, add_zero, Nat.sub_self, List.getElem?_cons_zero]
        simp only [Option.map_some, Option.getD_some, evalLC]
        congr 1
        apply List.map_congr_left
        intro t _
        simp [Function.comp]
      · rw [if_pos (by omega), if_pos (by omega), show i - s = (i - (s + 1)) + 1 by omega,
          List.getElem?_cons_succ]
        rw [add_eq_right]
        apply List.sum_eq_zero
        intro x hx
        simp only [List.mem_map, Function.comp] at hx
        obtain ⟨t, -, rfl⟩ := hx
        rw [if_neg (by omega)]

/-- The field value of a coefficient of the reader: its bytes, parsed by the proof system. -/
def coefVal (K : Codec F) (c : Nat) : F := (K.fromBytes (coreToRepr c)).getD 0

/-- A constraint of the reader, in the form of the specification. -/
def toCon (c : CircomConstraint) : Con := ⟨c.1, c.2.1, c.2.2⟩

theorem rowDot_matTriples (K : Codec F) (sel : CircomConstraint → List (Nat × Nat))
    (cs : List CircomConstraint) (z : List F) (hw : ∀ c ∈ cs, ∀ t ∈ sel c, t.1 < z.length)
    {i : Nat} (hi : i < cs.length) :
    rowDot (parsed K (matTriples sel cs)) z i = evalLC (coefVal K) (sel cs[i]) z := by
  have hp : parsed K (matTriples sel cs) =
      (cs.mapIdx fun k c => (sel c).map fun t => (k + 0, t.1, coefVal K t.2)).flatten := by
    unfold parsed matTriples
    rw [List.map_flatten]
    congr 1
    apply List.ext_getElem?
    intro k
    simp only [List.getElem?_map, List.getElem?_mapIdx, Option.map_map]
    congr 1
    funext c
    simp only [List.map_map, Function.comp_def, coefVal, Nat.add_zero]
  rw [rowDot_eq]
  · rw [hp, triples_sum, if_pos (Nat.zero_le _), Nat.sub_zero, List.getElem?_eq_getElem hi]
    rfl
  · rw [hp]
    intro e he
    rw [List.mem_flatten] at he
    obtain ⟨l, hl, he⟩ := he
    rw [List.mem_mapIdx] at hl
    obtain ⟨k, hk, rfl⟩ := hl
    rw [List.mem_map] at he
    obtain ⟨t, ht, rfl⟩ := he
    exact hw _ (List.getElem_mem hk) t ht

/-- The circuit is within the limits of the conversion: wires are declared and coefficients are
canonical. -/
def Convertible (K : Codec F) (r : CircomR1CS) : Prop :=
  ∀ c ∈ r.constraints, ∀ t ∈ c.1 ++ c.2.1 ++ c.2.2,
    t.1 < r.numVariables ∧ (K.fromBytes (coreToRepr t.2)).isSome

theorem convert_eq {K : Codec F} {r : CircomR1CS} {numPub : Nat} (h : Convertible K r) :
    ∃ I, convertToSpartan K r numPub = .ok I ∧
      Inst.new K r.constraints.length r.numVariables numPub (matTriples (·.1) r.constraints)
        (matTriples (·.2.1) r.constraints) (matTriples (·.2.2) r.constraints) = .ok (.ok I) := by
  obtain ⟨I, hI⟩ := (instance_new_ok_iff K r.constraints.length r.numVariables numPub
    (matTriples (·.1) r.constraints) (matTriples (·.2.1) r.constraints)
    (matTriples (·.2.2) r.constraints)).2 (by
      have key : ∀ (sel : CircomConstraint → List (Nat × Nat)),
          (∀ c, ∀ t ∈ sel c, t ∈ c.1 ++ c.2.1 ++ c.2.2) →
          ∀ e ∈ matTriples sel r.constraints, e.1 < r.constraints.length ∧
            e.2.1 < r.numVariables + numPub + 1 ∧ (K.fromBytes e.2.2).isSome := by
        intro sel hsel e he
        unfold matTriples at he
        rw [List.mem_flatten] at he
        obtain ⟨l, hl, he⟩ := he
        rw [List.mem_mapIdx] at hl
        obtain ⟨k, hk, rfl⟩ := hl
        rw [List.mem_map] at he
        obtain ⟨t, ht, rfl⟩ := he
        obtain ⟨h1, h2⟩ := h _ (List.getElem_mem hk) t (hsel _ t ht)
        exact ⟨hk, by simp only; omega, h2⟩
      intro e he
      rw [List.mem_append, List.mem_append] at he
      rcases he with (he | he) | he
      · exact key _ (fun c t ht => by simp [ht]) e he
      · exact key _ (fun c t ht => by simp [ht]) e he
      · exact key _ (fun c t ht => by simp [ht]) e he)
  exact ⟨I, by rw [convertToSpartan, hI], hI⟩

/-- What the converted instance says, exactly: the constraints hold of the variables.  The public
inputs do not occur, and neither does the condition that wire 0 is one. -/
theorem convert_sat_iff {K : Codec F} {r : CircomR1CS} {numPub : Nat} {I : Inst F}
    (h : Convertible K r) (hI : convertToSpartan K r numPub = .ok I) {vars x : List F}
    (hv : vars.length = r.numVariables) (hx : x.length = numPub) :
    ∃ b, I.isSat vars x = .ok (.ok b) ∧
      (b = true ↔ ConsHold (coefVal K) (r.constraints.map toCon) vars) := by
  obtain ⟨I', hI', hnew⟩ := convert_eq (numPub := numPub) h
  rw [hI] at hI'
  cases hI'
  have hnv : vars.length ≤ I.inst.numVars := by
    obtain ⟨-, -, -, rfl⟩ := new_ok_entries hnew
    rw [hv]
    exact (le_varsPadded r.numVariables numPub).1
  obtain ⟨b, hb, hiff⟩ := padding_preserves_sat hnew hnv hx
  refine ⟨b, hb, hiff.trans ?_⟩
  have hfit : fit r.numVariables vars = vars := by
    unfold fit; rw [hv, Nat.sub_self]; simp [← hv]
  rw [hfit]
  have hz : ∀ (l : LinComb), (∀ t ∈ l, t.1 < r.numVariables) →
      evalLC (coefVal K) l (zvec vars x) = evalLC (coefVal K) l vars := by
    intro l hl
    unfold evalLC
    congr 1
    apply List.map_congr_left
    intro t ht
    unfold zvec
    rw [List.getD_append _ _ _ _ (by rw [hv]; exact hl t ht)]
  have hw : ∀ c ∈ r.constraints, (∀ t ∈ c.1, t.1 < r.numVariables) ∧
      (∀ t ∈ c.2.1, t.1 < r.numVariables) ∧ (∀ t ∈ c.2.2, t.1 < r.numVariables) := by
    intro c hc
    refine ⟨fun t ht => ?_, fun t ht => ?_, fun t ht => ?_⟩
    all_goals
      have := h c hc t (by simp [ht])
      exact this.1
  have hlt : ∀ n, n < r.numVariables → n < (zvec vars x).length := by
    intro n hn
    unfold zvec
    rw [List.length_append, hv]; omega
  have rA := fun (i : Nat) (hi : i < r.constraints.length) =>
    rowDot_matTriples K (fun c => c.1) r.constraints (zvec vars x)
      (fun c hc t ht => hlt _ ((hw c hc).1 t ht)) hi
  have rB := fun (i : Nat) (hi : i < r.constraints.length) =>
    rowDot_matTriples K (fun c => c.2.1) r.constraints (zvec vars x)
      (fun c hc t ht => hlt _ ((hw c hc).2.1 t ht)) hi
  have rC := fun (i : Nat) (hi : i < r.constraints.length) =>
    rowDot_matTriples K (fun c => c.2.2) r.constraints (zvec vars x)
      (fun c hc t ht => hlt _ ((hw c hc).2.2 t ht)) hi
  unfold Sat ConsHold
  constructor
  · intro hs c hc
    rw [List.mem_map] at hc
    obtain ⟨c', hc', rfl⟩ := hc
    obtain ⟨i, hi, rfl⟩ := List.getElem_of_mem hc'
    have := hs i hi
    rw [rA i hi, rB i hi, rC i hi, hz _ (hw _ hc').1, hz _ (hw _ hc').2.1, hz _ (hw _ hc').2.2] at this
    exact this
  · intro hs i hi
    have hc' := List.getElem_mem hi
    have := hs (toCon r.constraints[i]) (List.mem_map.mpr ⟨_, hc', rfl⟩)
    rw [rA i hi, rB i hi, rC i hi, hz _ (hw _ hc').1, hz _ (hw _ hc').2.1, hz _ (hw _ hc').2.2]
    exact this

/-- C62, one direction: a witness of the circuit satisfies the converted instance.  Missing: the
converse, which is false (`convert_zero_satisfies`, `convert_not_sound`). -/
theorem convert_partial {K : Codec F} {r : CircomR1CS} {x w : List F} (h : Convertible K r)
    (hw : w.length = r.numVariables)
    (hs : CircomSat (coefVal K) (r.constraints.map toCon) x w) :
    ∃ I, convertToSpartan K r x.length = .ok I ∧ I.isSat w x = .ok (.ok true) := by
  obtain ⟨I, hI, -⟩ := convert_eq (numPub := x.length) h
  obtain ⟨b, hb, hiff⟩ := convert_sat_iff h hI hw rfl
  rw [hiff.mpr hs.2.2] at hb
  exact ⟨I, hI, hb⟩

theorem evalLC_zero (val : Nat → F) (l : LinComb) (n : Nat) :
    evalLC val l (List.replicate n 0) = 0 := by
  apply List.sum_eq_zero
  intro x hx
  rw [List.mem_map] at hx
  obtain ⟨t, -, rfl⟩ := hx
  have : (List.replicate n (0 : F)).getD t.1 0 = 0 := by
    rw [List.getD_eq_getElem?_getD, List.getElem?_replicate]
    split_ifs <;> rfl
  rw [this, mul_zero]

/-- C62 is false in the other direction: the all-zero assignment satisfies the instance made from
*every* circuit, for *every* public input. -/
theorem convert_zero_satisfies {K : Codec F} {r : CircomR1CS} {numPub : Nat} {I : Inst F}
    (h : Convertible K r) (hI : convertToSpartan K r numPub = .ok I) {x : List F}
    (hx : x.length = numPub) :
    I.isSat (List.replicate r.numVariables 0) x = .ok (.ok true) := by
  obtain ⟨b, hb, hiff⟩ := convert_sat_iff h hI (List.length_replicate) hx
  rw [hiff.mpr] at hb
  · exact hb
  · intro c _
    simp only [evalLC_zero, mul_zero]

/-- The public inputs are irrelevant: what satisfies the converted instance with one public input
satisfies it with all of them. -/
theorem convert_ignores_inputs {K : Codec F} {r : CircomR1CS} {numPub : Nat} {I : Inst F}
    (h : Convertible K r) (hI : convertToSpartan K r numPub = .ok I) {vars x y : List F}
    (hv : vars.length = r.numVariables) (hx : x.length = numPub) (hy : y.length = numPub) :
    I.isSat vars x = I.isSat vars y := by
  obtain ⟨b, hb, h1⟩ := convert_sat_iff h hI hv hx
  obtain ⟨c, hc, h2⟩ := convert_sat_iff h hI hv hy
  rw [hb, hc]
  congr 2
  exact Bool.eq_iff_iff.mpr (h1.trans h2.symm)

/-- The circuit of the counterexample: `w0 * w0 = 0`, one public wire. -/
def badCircuit (one : Nat) : CircomR1CS := ⟨2, 0, 2, [([(0, one)], [(0, one)], [])]⟩

/-- C62 is false: a circuit without any witness whose converted instance is satisfiable for every
public input. -/
theorem convert_not_sound {K : Codec F} {one : Nat} (h1 : K.fromBytes (coreToRepr one) = some 1) :
    (∀ x w : List F, ¬ CircomSat (coefVal K) ((badCircuit one).constraints.map toCon) x w) ∧
    ∃ I, convertToSpartan K (badCircuit one) 1 = .ok I ∧
      ∀ x : F, ∃ w, I.isSat w [x] = .ok (.ok true) := by
  have hc : Convertible K (badCircuit one) := by
    intro c hc t ht
    simp only [badCircuit, List.mem_singleton] at hc
    subst hc
    simp only [List.append_nil, List.mem_append, List.mem_singleton, or_self] at ht
    subst ht
    exact ⟨by simp [badCircuit], by rw [h1]; rfl⟩
  constructor
  · rintro x w ⟨h0, -, hs⟩
    have := hs (toCon ([(0, one)], [(0, one)], [])) (by simp [badCircuit])
    simp only [toCon, evalLC, List.map_cons, List.map_nil, List.sum_cons, List.sum_nil, add_zero,
      h0, mul_one, coefVal, h1, Option.getD_some] at this
    exact one_ne_zero this
  · obtain ⟨I, hI, -⟩ := convert_eq (numPub := 1) hc
    exact ⟨I, hI, fun x => ⟨_, convert_zero_satisfies hc hI rfl⟩⟩

/-! ### The codec of the proof system -/

/-- The scalar parsing of the proof system, as values of the field. -/
def secpCodec (digest : R1CS (ZMod secpP) → List UInt8) : Codec (ZMod secpP) where
  fromBytes := fun bs => if bs.length = 32 ∧ leNat bs < secpP then some (leNat bs : ZMod secpP) else none
  digest := digest

/-- It is the limb code of `Scalar::from_bytes`. -/
theorem secpCodec_eq (digest : R1CS (ZMod secpP) → List UInt8) {bs : List UInt8}
    (hl : bs.length = 32) :
    ((secpCodec digest).fromBytes bs).isSome = (paramsP.fromBytes bs).isSome ∧
    ∀ a, paramsP.fromBytes bs = some a → ∃ x, (secpCodec digest).fromBytes bs = some x ∧
      a.Rep secpP x := by
  obtain ⟨h1, h2⟩ := scalar_from_bytes hl
  constructor
  · rw [Bool.eq_iff_iff, Option.isSome_iff_exists, Option.isSome_iff_exists, h1]
    simp only [secpCodec, hl, true_and]
    constructor
    · rintro ⟨x, hx⟩; by_contra hc; rw [if_neg hc] at hx; cases hx
    · intro h; exact ⟨_, if_pos h⟩
  · intro a ha
    refine ⟨_, if_pos ⟨hl, h1.mp ⟨a, ha⟩⟩, (h2 a ha).1⟩

/-- What `load_r1cs_from_bin` returns on the encoding of a constraint system: a system that can be
converted, with as many constraints and terms, the number of wires of the header, and the same
meaning. -/
theorem load_circom {digest : R1CS (ZMod secpP) → List UInt8}
    {h : Head} {cs : List Con} {m : List Nat} {secs : List (Nat × List UInt8)}
    (hp : h.prime.length = 32) (hw : h.nWires < 2 ^ 32) (hpo : h.nPubOut < 2 ^ 32)
    (hpi : h.nPubIn < 2 ^ 32) (hpr : h.nPrvIn < 2 ^ 32) (hlab : h.nLabels < 2 ^ 64)
    (hcl : cs.length < 2 ^ 32) (hcs : ∀ c ∈ cs, LCFits c.a ∧ LCFits c.b ∧ LCFits c.c)
    (hm : m.length = h.nWires) (h64 : ∀ x ∈ m, x < 2 ^ 64) (hm0 : m.head? = some 0)
    (hty : ∀ s ∈ secs, s.1 < 2 ^ 32) (hnd : (secs.map Prod.fst).Nodup) (hsl : secs.length < 2 ^ 32)
    (hlen : (encR1cs secs).length < 2 ^ 63)
    (h1 : (1, encHead h cs.length) ∈ secs) (h2 : (2, encCons cs) ∈ secs) (h3 : (3, encMap m) ∈ secs)
    (hwire : ∀ c ∈ cs, ∀ t ∈ c.a ++ c.b ++ c.c, t.1 < h.nWires ∧ t.2 < secpP) :
    ∃ r wm, loadR1cs (encR1cs secs) = .ok (r, wm) ∧ Convertible (secpCodec digest) r ∧
      r.numVariables = h.nWires ∧
      (r.constraints.map fun c => (coreBytes c.1, coreBytes c.2.1, coreBytes c.2.2)) =
        (cs.map fun c => (termBytes c.a, termBytes c.b, termBytes c.c)) ∧
      ∀ vars : List (ZMod secpP),
        (ConsHold (coefVal (secpCodec digest)) (r.constraints.map toCon) vars ↔
          ConsHold (fun n => (n : ZMod secpP)) cs vars) := by
  obtain ⟨file, hf, hhead, -, hcons⟩ := r1cs_read_partial hp hw hpo hpi hpr hlab hcl hcs hm h64 hm0 hty
    hnd hsl hlen h1 h2 h3
  obtain ⟨r, hr, hrc, hrv⟩ : ∃ r : CircomR1CS, loadR1cs (encR1cs secs) = .ok (r, file.wireMap) ∧
      r.constraints = file.constraints ∧ r.numVariables = h.nWires := by
    refine ⟨_, by rw [loadR1cs, hf], rfl, ?_⟩
    simp only [hhead]
  rw [← hrc] at hcons
  obtain ⟨K, hK⟩ : ∃ K, K = secpCodec digest := ⟨_, rfl⟩
  have hval : ∀ n, n < secpP → K.fromBytes (encField n) = some (n : ZMod secpP) := by
    intro n hn
    have hl : leNat (leBytes 32 n) = n := by
      rw [leNat_leBytes, Nat.mod_eq_of_lt (lt_trans hn (by decide +kernel))]
    rw [hK, encField]
    simp only [secpCodec, leBytes_length, hl, true_and, if_pos hn]
  have hmem : ∀ c ∈ r.constraints, ∃ c' ∈ cs, coreBytes c.1 = termBytes c'.a ∧
      coreBytes c.2.1 = termBytes c'.b ∧ coreBytes c.2.2 = termBytes c'.c := by
    intro c hc
    have := List.mem_map_of_mem (f := fun c : CircomConstraint =>
      (coreBytes c.1, coreBytes c.2.1, coreBytes c.2.2)) hc
    rw [hcons, List.mem_map] at this
    obtain ⟨c', hc', e⟩ := this
    simp only [Prod.mk.injEq] at e
    exact ⟨c', hc', e.1.symm, e.2.1.symm, e.2.2.symm⟩
  have hmem' : ∀ c' ∈ cs, ∃ c ∈ r.constraints, coreBytes c.1 = termBytes c'.a ∧
      coreBytes c.2.1 = termBytes c'.b ∧ coreBytes c.2.2 = termBytes c'.c := by
    intro c' hc'
    have := List.mem_map_of_mem (f := fun c : Con => (termBytes c.a, termBytes c.b, termBytes c.c)) hc'
    rw [← hcons, List.mem_map] at this
    obtain ⟨c, hc, e⟩ := this
    simp only [Prod.mk.injEq] at e
    exact ⟨c, hc, e.1, e.2.1, e.2.2⟩
  have hterm : ∀ {l : List (Nat × Nat)} {l' : LinComb}, coreBytes l = termBytes l' → ∀ t ∈ l,
      ∃ t' ∈ l', t.1 = t'.1 ∧ coreToRepr t.2 = encField t'.2 := by
    intro l l' e t ht
    have := List.mem_map_of_mem (f := fun t : Nat × Nat => (t.1, coreToRepr t.2)) ht
    rw [show l.map (fun t : Nat × Nat => (t.1, coreToRepr t.2)) = coreBytes l from rfl, e, termBytes,
      List.mem_map] at this
    obtain ⟨t', ht', e'⟩ := this
    simp only [Prod.mk.injEq] at e'
    exact ⟨t', ht', e'.1.symm, e'.2.symm⟩
  have hconv : Convertible K r := by
    intro c hc t ht
    obtain ⟨c', hc', ea, eb, ec⟩ := hmem c hc
    have key : ∃ t' ∈ c'.a ++ c'.b ++ c'.c, t.1 = t'.1 ∧ coreToRepr t.2 = encField t'.2 := by
      rw [List.mem_append, List.mem_append] at ht
      rcases ht with (ht | ht) | ht
      · obtain ⟨t', ht', e⟩ := hterm ea t ht; exact ⟨t', by simp [ht'], e⟩
      · obtain ⟨t', ht', e⟩ := hterm eb t ht; exact ⟨t', by simp [ht'], e⟩
      · obtain ⟨t', ht', e⟩ := hterm ec t ht; exact ⟨t', by simp [ht'], e⟩
    obtain ⟨t', ht', e1, e2⟩ := key
    obtain ⟨w1, w2⟩ := hwire c' hc' t' ht'
    rw [e1, e2, hrv, hval _ w2]
    exact ⟨w1, rfl⟩
  have heval : ∀ {l : List (Nat × Nat)} {l' : LinComb} (vars : List (ZMod secpP)),
      coreBytes l = termBytes l' → (∀ t ∈ l', t.2 < secpP) →
      evalLC (coefVal K) l vars = evalLC (fun n => (n : ZMod secpP)) l' vars := by
    intro l l' vars e hlt
    have h1 : evalLC (coefVal K) l vars =
        ((coreBytes l).map fun t => (K.fromBytes t.2).getD 0 * vars.getD t.1 0).sum := by
      simp only [evalLC, coreBytes, List.map_map, Function.comp_def, coefVal]
    rw [h1, e]
    simp only [evalLC, termBytes, List.map_map]
    congr 1
    apply List.map_congr_left
    intro t ht
    simp only [Function.comp, hval _ (hlt t ht), Option.getD_some]
  refine ⟨r, _, hr, hK ▸ hconv, hrv, hcons, ?_⟩
  rw [← hK]
  intro vars
  have hlt : ∀ c' ∈ cs, (∀ t ∈ c'.a, t.2 < secpP) ∧ (∀ t ∈ c'.b, t.2 < secpP) ∧
      (∀ t ∈ c'.c, t.2 < secpP) := by
    intro c' hc'
    refine ⟨fun t ht => ?_, fun t ht => ?_, fun t ht => ?_⟩
    all_goals
      have := hwire c' hc' t (by simp [ht])
      exact this.2
  unfold ConsHold
  constructor
  · intro hs c' hc'
    obtain ⟨c, hc, ea, eb, ec⟩ := hmem' c' hc'
    obtain ⟨la, lb, lc⟩ := hlt c' hc'
    have := hs (toCon c) (List.mem_map.mpr ⟨c, hc, rfl⟩)
    simp only [toCon] at this
    rw [heval vars ea la, heval vars eb lb, heval vars ec lc] at this
    exact this
  · intro hs c hc
    rw [List.mem_map] at hc
    obtain ⟨c, hc, rfl⟩ := hc
    obtain ⟨c', hc', ea, eb, ec⟩ := hmem c hc
    obtain ⟨la, lb, lc⟩ := hlt c' hc'
    simp only [toCon]
    rw [heval vars ea la, heval vars eb lb, heval vars ec lc]
    exact hs c' hc'

/-- From the bytes of the circuit file to the statement: the instance loaded from the encoding of a
constraint system is satisfied exactly by the assignments for which the constraints hold, the
coefficients being the field elements encoded in the file. -/
theorem load_sat_iff {digest : R1CS (ZMod secpP) → List UInt8}
    {h : Head} {cs : List Con} {m : List Nat} {secs : List (Nat × List UInt8)}
    (hp : h.prime.length = 32) (hw : h.nWires < 2 ^ 32) (hpo : h.nPubOut < 2 ^ 32)
    (hpi : h.nPubIn < 2 ^ 32) (hpr : h.nPrvIn < 2 ^ 32) (hlab : h.nLabels < 2 ^ 64)
    (hcl : cs.length < 2 ^ 32) (hcs : ∀ c ∈ cs, LCFits c.a ∧ LCFits c.b ∧ LCFits c.c)
    (hm : m.length = h.nWires) (h64 : ∀ x ∈ m, x < 2 ^ 64) (hm0 : m.head? = some 0)
    (hty : ∀ s ∈ secs, s.1 < 2 ^ 32) (hnd : (secs.map Prod.fst).Nodup) (hsl : secs.length < 2 ^ 32)
    (hlen : (encR1cs secs).length < 2 ^ 63)
    (h1 : (1, encHead h cs.length) ∈ secs) (h2 : (2, encCons cs) ∈ secs) (h3 : (3, encMap m) ∈ secs)
    (hwire : ∀ c ∈ cs, ∀ t ∈ c.a ++ c.b ++ c.c, t.1 < h.nWires ∧ t.2 < secpP) (numPub : Nat) :
    ∃ I, loadAsSpartanInst (secpCodec digest) (encR1cs secs) numPub = .ok I ∧
      ∀ vars x : List (ZMod secpP), vars.length = h.nWires → x.length = numPub →
        ∃ b, I.isSat vars x = .ok (.ok b) ∧ (b = true ↔ ConsHold (fun n => (n : ZMod secpP)) cs vars) := by
  obtain ⟨r, wm, hr, hconv, hrv, -, hiff'⟩ := load_circom (digest := digest) hp hw hpo hpi hpr hlab hcl hcs hm h64 hm0 hty
    hnd hsl hlen h1 h2 h3 hwire
  obtain ⟨I, hI, -⟩ := convert_eq (numPub := numPub) hconv
  refine ⟨I, ?_, ?_⟩
  · rw [loadAsSpartanInst, hr]
    exact hI
  · intro vars x hv hx
    obtain ⟨b, hb, hiff⟩ := convert_sat_iff hconv hI (hv.trans hrv.symm) hx
    exact ⟨b, hb, hiff.trans (hiff' vars)⟩

/-! ### C66 -/

section wasm
variable {G P : Type} [AddCommGroup G] [Module F G] [DecidableEq P] [DecidableEq G]

theorem varsPadded_idem (nv ni : Nat) : varsPadded (varsPadded nv ni) ni = varsPadded nv ni := by
  have h := (le_varsPadded nv ni).2
  rw [varsPadded_eq (varsPadded nv ni) ni, max_eq_left (by omega)]
  rw [varsPadded_eq]
  exact nextPow2_pow _

/-- The 32-byte chunks of a public input. -/
def chunks (bs : List UInt8) (n : Nat) : List (List UInt8) :=
  (List.range n).map fun i => (bs.drop (i * 32)).take 32

/-- C66 is false: for every convertible circuit with at least one constraint — satisfiable or not —
and every public input of canonical values there are proof bytes that the wasm verifier accepts.
The hypothesis on the hash (no folding challenge is zero) only excludes a panic of the prover. -/
theorem wasm_verify_forgery (h2 : (2 : F) ≠ 0) (h3 : (3 : F) ≠ 0) {W : WasmEnv F G P}
    (hE : W.env.Lawful) (hu : ∀ t, W.env.hash (t ++ [.chal "u"]) ≠ 0)
    (hser : ∀ pf, W.decProof (W.encProof pf) = some pf)
    {r : CircomR1CS} (hr : Convertible W.codec r) (hc : r.constraints ≠ [])
    {numPub : Nat} {I : Inst F} (hI : convertToSpartan W.codec r numPub = .ok I)
    (hsz : I.inst.numVars ≤ 2 ^ 62) {circuit : List UInt8} (hcirc : W.decInst circuit = some I)
    {pub : List UInt8} (hlen : numPub * 32 ≤ pub.length)
    (hcanon : ∀ b ∈ chunks pub numPub, (W.codec.fromBytes b).isSome)
    (label : List UInt8) (tr0 : Tr F P) :
    ∃ proof, wasmVerify W label tr0 circuit proof pub = .ok true := by
  obtain ⟨I', hI', hnew⟩ := convert_eq (numPub := numPub) hr
  rw [hI] at hI'
  cases hI'
  obtain ⟨hni, hnv⟩ : I.inst.numInputs = numPub ∧ I.inst.numVars = varsPadded r.numVariables numPub := by
    obtain ⟨-, -, -, rfl⟩ := new_ok_entries hnew
    exact ⟨rfl, rfl⟩
  obtain ⟨x, hx, hxl⟩ : ∃ x, assignmentU W.codec (chunks pub numPub) = .ok x ∧ x.length = numPub := by
    rcases assignment_new_result W.codec (chunks pub numPub) with ⟨-, e⟩ | ⟨⟨v, hv, e⟩, -⟩
    · exact ⟨_, by rw [assignmentU, e], by simp [chunks]⟩
    · have := hcanon v hv
      rw [e] at this; cases this
  have hsat := convert_zero_satisfies hr hI hxl
  obtain ⟨gens, pf, tr', hg, -, hv⟩ := nizk_complete_nonzero h2 h3 hE hu hnew
    (List.length_pos_iff.mpr hc) hsz W.src label hsat tr0 (fun _ => 0)
  refine ⟨W.encProof pf, ?_⟩
  have hg' : NIZKGens.new W.src label I.inst.numVars I.inst.numInputs = .ok gens := by
    rw [hni, hnv, ← hg]
    unfold NIZKGens.new
    rw [varsPadded_idem]
  have hs : inputSlices pub I.inst.numInputs = .ok (chunks pub numPub) := by
    rw [hni, inputSlices, if_pos hlen]; rfl
  unfold wasmVerify
  rw [hcirc, hser]
  simp only [hg', hs, hx, hv, ok_bind]
  rfl

/-- C69: the prover and the verifier of the wasm interface agree.  For every convertible circuit,
every witness of its constraints (as a file of readable canonical values) and every public input,
whether or not it is the one in the witness, `prove` returns a proof and `verify` returns true on it. -/
theorem wasm_prove_verify (h2 : (2 : F) ≠ 0) (h3 : (3 : F) ≠ 0) {W : WasmEnv F G P}
    (hE : W.env.Lawful) (hu : ∀ t, W.env.hash (t ++ [.chal "u"]) ≠ 0)
    (hser : ∀ pf, W.decProof (W.encProof pf) = some pf)
    {r : CircomR1CS} (hr : Convertible W.codec r) (hc : r.constraints ≠ [])
    {numPub : Nat} {I : Inst F} (hI : convertToSpartan W.codec r numPub = .ok I)
    (hsz : I.inst.numVars ≤ 2 ^ 62) {circuit : List UInt8} (hcirc : W.decInst circuit = some I)
    {pub : List UInt8} (hlen : numPub * 32 ≤ pub.length)
    (hcanon : ∀ b ∈ chunks pub numPub, (W.codec.fromBytes b).isSome)
    {version : Nat} {prime : List UInt8} {ws : List Nat}
    (hv : version ≤ 2) (hp : prime.length = 32) (hw : ws.length < 2 ^ 27)
    (hwl : ws.length = r.numVariables)
    (hws : ∀ w ∈ ws, Readable w ∧ (W.codec.fromBytes (encField w)).isSome)
    (hsat : ConsHold (coefVal W.codec) (r.constraints.map toCon)
      (ws.map fun w => (W.codec.fromBytes (encField w)).getD 0))
    (label : List UInt8) (tr0 : Tr F P) (tape : Tape F) :
    ∃ proof, wasmProve W label tr0 tape circuit (encWtns version prime (32 * ws.length) ws) pub = .ok proof ∧
      wasmVerify W label tr0 circuit proof pub = .ok true := by
  obtain ⟨I', hI', hnew⟩ := convert_eq (numPub := numPub) hr
  rw [hI] at hI'
  cases hI'
  obtain ⟨hni, hnv⟩ : I.inst.numInputs = numPub ∧ I.inst.numVars = varsPadded r.numVariables numPub := by
    obtain ⟨-, -, -, rfl⟩ := new_ok_entries hnew
    exact ⟨rfl, rfl⟩
  obtain ⟨x, hx, hxl, hxe⟩ : ∃ x, assignmentU W.codec (chunks pub numPub) = .ok x ∧
      x.length = numPub ∧ x = (chunks pub numPub).map fun b => (W.codec.fromBytes b).getD 0 := by
    rcases assignment_new_result W.codec (chunks pub numPub) with ⟨-, e⟩ | ⟨⟨v, hv, e⟩, -⟩
    · exact ⟨_, by rw [assignmentU, e], by simp [chunks], rfl⟩
    · have := hcanon v hv
      rw [e] at this; cases this
  have hread : ∀ w ∈ ws, Readable w := by
    intro w hw
    obtain ⟨a, b⟩ := hws w hw
    exact a
  obtain ⟨l, hl, hlb⟩ := wtns_read_partial (rest := []) hv hp hw hread
  rw [List.append_nil] at hl
  obtain ⟨vars, hvars, hve⟩ : ∃ vars, assignmentU W.codec (l.map coreToRepr) = .ok vars ∧
      vars = ws.map fun w => (W.codec.fromBytes (encField w)).getD 0 := by
    rw [hlb]
    rcases assignment_new_result W.codec (ws.map encField) with ⟨-, e⟩ | ⟨⟨v, hv, e⟩, -⟩
    · exact ⟨_, by rw [assignmentU, e], by rw [List.map_map]; rfl⟩
    · rw [List.mem_map] at hv
      obtain ⟨w, hw, rfl⟩ := hv
      obtain ⟨a, b⟩ := hws w hw
      rw [e] at b; cases b
  have hsat' : I.isSat vars x = .ok (.ok true) := by
    obtain ⟨b, hb, hiff⟩ := convert_sat_iff hr hI (vars := vars) (by rw [hve, List.length_map, hwl]) hxl
    rw [hiff.mpr] at hb
    · exact hb
    · rw [hve]; exact hsat
  obtain ⟨gens, pf, tr', hg, hprove, hverify⟩ := nizk_complete_nonzero h2 h3 hE hu hnew
    (List.length_pos_iff.mpr hc) hsz W.src label hsat' tr0 tape
  have hg' : NIZKGens.new W.src label I.inst.numVars I.inst.numInputs = .ok gens := by
    rw [hni, hnv, ← hg]
    unfold NIZKGens.new
    rw [varsPadded_idem]
  have hs : inputSlices pub I.inst.numInputs = .ok (chunks pub numPub) := by
    rw [hni, inputSlices, if_pos hlen]; rfl
  refine ⟨W.encProof pf, ?_, ?_⟩
  · unfold wasmProve
    rw [hl]
    simp only [hvars, hcirc, hg', hs, hx, hprove, ok_bind]
    rfl
  · unfold wasmVerify
    rw [hcirc, hser]
    simp only [hg', hs, hx, hverify, ok_bind]
    rfl

/-- What is left of C66: an accepted proof was decoded, the public inputs are canonical and the
NIZK verifier accepted it for exactly these inputs and this circuit.  Missing: everything about the
circuit's witness; `wasm_verify_forgery` shows that it cannot be proved. -/
theorem wasm_verify_partial {W : WasmEnv F G P} {label : List UInt8} {tr0 : Tr F P}
    {circuit proof pub : List UInt8} (h : wasmVerify W label tr0 circuit proof pub = .ok true) :
    ∃ I pf gens tr', W.decInst circuit = some I ∧ W.decProof proof = some pf ∧
      NIZKGens.new W.src label I.inst.numVars I.inst.numInputs = .ok gens ∧
      I.inst.numInputs * 32 ≤ pub.length ∧
      (∀ b ∈ chunks pub I.inst.numInputs, (W.codec.fromBytes b).isSome) ∧
      NIZK.verify W.env pf I ((chunks pub I.inst.numInputs).map fun b => (W.codec.fromBytes b).getD 0)
        gens tr0 = .ok tr' := by
  unfold wasmVerify at h
  cases hi : W.decInst circuit with
  | none => rw [hi] at h; cases h
  | some I =>
    cases hp : W.decProof proof with
    | none => rw [hi, hp] at h; cases h
    | some pf =>
      rw [hi, hp] at h
      simp only at h
      obtain ⟨gens, hg, h⟩ := bind_ok h
      obtain ⟨sl, hs, h⟩ := bind_ok h
      obtain ⟨xs, hx, h⟩ := bind_ok h
      have hsl : I.inst.numInputs * 32 ≤ pub.length ∧ sl = chunks pub I.inst.numInputs := by
        unfold inputSlices at hs
        split_ifs at hs with hc
        simp only [Except.ok.injEq] at hs
        exact ⟨hc, hs.symm⟩
      obtain ⟨hl, rfl⟩ := hsl
      have hxs : (∀ b ∈ chunks pub I.inst.numInputs, (W.codec.fromBytes b).isSome) ∧
          xs = (chunks pub I.inst.numInputs).map fun b => (W.codec.fromBytes b).getD 0 := by
        unfold assignmentU at hx
        rcases assignment_new_result W.codec (chunks pub I.inst.numInputs) with ⟨a, e⟩ | ⟨-, e⟩
        · rw [e] at hx
          simp only [Except.ok.injEq] at hx
          exact ⟨a, hx.symm⟩
        · rw [e] at hx; cases hx
      obtain ⟨hcan, rfl⟩ := hxs
      cases hv : NIZK.verify W.env pf I ((chunks pub I.inst.numInputs).map fun b =>
          (W.codec.fromBytes b).getD 0) gens tr0 with
      | ok tr' => exact ⟨I, pf, gens, tr', rfl, rfl, hg, hl, hcan, hv⟩
      | error e =>
        rw [hv] at h
        cases e <;> simp [pure, Except.pure] at h

end wasm

end Spartan
