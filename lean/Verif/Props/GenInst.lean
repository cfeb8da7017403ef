import Verif.Model.GenInst
import Verif.Props.Bincode

/-!
From a compiled circom circuit to an accepted proof: the command-line tool that writes the circuit
file (run natively, with a 64-bit `usize`), and the wasm prover and verifier (32-bit `usize`) that
read it.
-/

namespace Spartan
open Spec MParams

/-! ### The command line -/

/-- The decimal notation of a number that fits is read as the number, with or without a plus sign. -/
theorem parse_decimal {bits n : Nat} (h : n < 2 ^ bits) :
    parseUsize bits (toString n).toList = some n ∧ parseUsize bits ('+' :: (toString n).toList) = some n := by
  have hd : (toString n).toList = Nat.toDigits 10 n := Nat.toList_repr
  have hne : Nat.toDigits 10 n ≠ [] := Nat.toDigits_ne_nil
  have hall : (Nat.toDigits 10 n).all Char.isDigit = true := by
    rw [List.all_eq_true]
    intro c hc
    exact Nat.isDigit_of_mem_toDigits (by norm_num) (by norm_num) hc
  have hval : (Nat.toDigits 10 n).foldl (fun n c => n * 10 + (c.toNat - '0'.toNat)) 0 = n := by
    have := Nat.ofDigitChars_toDigits (b := 10) (n := n) (by norm_num) (by norm_num)
    rw [Nat.ofDigitChars_eq_foldl] at this
    simpa only [Nat.mul_comm 10] using this
  rw [hd]
  constructor
  · have hp : ∀ t, Nat.toDigits 10 n ≠ '+' :: t := by
      intro t e
      have : ('+').isDigit = true := Nat.isDigit_of_mem_toDigits (b := 10) (n := n) (by norm_num) (by norm_num)
        (by rw [e]; exact List.mem_cons_self)
      revert this; decide
    unfold parseUsize stripPlus
    split
    · rename_i t e; exact absurd e (hp t)
    · simp only [if_neg hne, hall, hval, if_pos h, if_true]
  · unfold parseUsize stripPlus
    simp only [if_neg hne, hall, hval, if_pos h, if_true]

/-- Nothing but an optional plus sign and the digits of a number that fits is read as a number. -/
theorem parse_only_decimal {bits n : Nat} {s : List Char} (h : parseUsize bits s = some n) :
    n < 2 ^ bits ∧ ∃ ds, ds ≠ [] ∧ (s = ds ∨ s = '+' :: ds) ∧ (∀ c ∈ ds, c.isDigit = true) ∧
      Nat.ofDigitChars 10 ds 0 = n := by
  obtain ⟨ds, hds, hs⟩ : ∃ ds, ds = stripPlus s ∧ (s = ds ∨ s = '+' :: ds) := by
    refine ⟨_, rfl, ?_⟩
    unfold stripPlus
    split
    · exact .inr rfl
    · exact .inl rfl
  unfold parseUsize at h
  rw [← hds] at h
  simp only at h
  split_ifs at h with h1 h2 h3
  cases h
  refine ⟨h3, ds, h1, hs, fun c hc => List.all_eq_true.mp h2 c hc, ?_⟩
  rw [Nat.ofDigitChars_eq_foldl]
  simp only [Nat.mul_comm 10]

/-! ### The circuit file -/

/-- `secs` are the sections of an r1cs file for the constraints `cs` on `h.nWires` wires: the format's
limits hold, and every coefficient is one that `read_field` accepts (see C61). -/
structure Compiled (h : Head) (cs : List Con) (m : List Nat) (secs : List (Nat × List UInt8)) : Prop where
  prime : h.prime.length = 32
  wires : h.nWires < 2 ^ 32
  pubOut : h.nPubOut < 2 ^ 32
  pubIn : h.nPubIn < 2 ^ 32
  prvIn : h.nPrvIn < 2 ^ 32
  labels : h.nLabels < 2 ^ 64
  cons : cs.length < 2 ^ 32
  terms : ∀ c ∈ cs, LCFits c.a ∧ LCFits c.b ∧ LCFits c.c
  mapLen : m.length = h.nWires
  map64 : ∀ x ∈ m, x < 2 ^ 64
  map0 : m.head? = some 0
  types : ∀ s ∈ secs, s.1 < 2 ^ 32
  nodup : (secs.map Prod.fst).Nodup
  nsecs : secs.length < 2 ^ 32
  len : (encR1cs secs).length < 2 ^ 63
  sec1 : (1, encHead h cs.length) ∈ secs
  sec2 : (2, encCons cs) ∈ secs
  sec3 : (3, encMap m) ∈ secs

/-- The triples of a matrix, from the constraints as the file states them. -/
def triplesOf (l : List (List (Nat × List UInt8))) : List (Nat × Nat × List UInt8) :=
  (l.mapIdx fun i l => l.map fun t => (i, t.1, t.2)).flatten

theorem matTriples_bytes (sel : CircomConstraint → List (Nat × Nat)) (cs : List CircomConstraint) :
    matTriples sel cs = triplesOf (cs.map fun c => coreBytes (sel c)) := by
  unfold matTriples triplesOf
  congr 1
  apply List.ext_getElem?
  intro k
  simp only [List.getElem?_mapIdx, List.getElem?_map, Option.map_map]
  congr 1
  funext c
  simp only [Function.comp_def, coreBytes, List.map_map]

theorem triplesOf_length (l : List (List (Nat × List UInt8))) :
    (triplesOf l).length = (l.map List.length).sum := by
  unfold triplesOf
  rw [List.length_flatten]
  congr 1
  apply List.ext_getElem?
  intro k
  simp only [List.getElem?_map, List.getElem?_mapIdx, Option.map_map]
  congr 1
  funext c
  simp

theorem mem_triplesOf {l : List (List (Nat × List UInt8))} {e : Nat × Nat × List UInt8} :
    e ∈ triplesOf l ↔ ∃ (i : Nat) (hi : i < l.length), (e.2.1, e.2.2) ∈ l[i] ∧ e.1 = i := by
  unfold triplesOf
  rw [List.mem_flatten]
  constructor
  · rintro ⟨r, hr, he⟩
    rw [List.mem_mapIdx] at hr
    obtain ⟨i, hi, rfl⟩ := hr
    rw [List.mem_map] at he
    obtain ⟨t, ht, rfl⟩ := he
    exact ⟨i, hi, ht, rfl⟩
  · rintro ⟨i, hi, ht, he⟩
    refine ⟨_, List.mem_mapIdx.mpr ⟨i, hi, rfl⟩, List.mem_map.mpr ⟨_, ht, ?_⟩⟩
    rw [← he]

section
variable {F P : Type} [Field F]

/-- The instance the tool builds from a file: `Instance::new` on the constraints the file states. -/
def instanceOf (K : Codec F) (cs : List Con) (nWires numPub : Nat) : Out (Except RErr (Inst F)) :=
  Inst.new K cs.length nWires numPub (triplesOf (cs.map fun c => termBytes c.a))
    (triplesOf (cs.map fun c => termBytes c.b)) (triplesOf (cs.map fun c => termBytes c.c))

theorem load_compiled {h : Head} {cs : List Con} {m : List Nat} {secs : List (Nat × List UInt8)}
    (hf : Compiled h cs m secs) (K : Codec F) (numPub : Nat) :
    loadAsSpartanInst K (encR1cs secs) numPub = match instanceOf K cs h.nWires numPub with
      | .ok (.ok I) => .ok I
      | .ok (.error _) => .error .panic
      | .error e => .error e := by
  obtain ⟨file, hr, hhead, -, hcons⟩ := r1cs_read_partial hf.prime hf.wires hf.pubOut hf.pubIn hf.prvIn
    hf.labels hf.cons hf.terms hf.mapLen hf.map64 hf.map0 hf.types hf.nodup hf.nsecs hf.len hf.sec1 hf.sec2
    hf.sec3
  have hl : file.constraints.length = cs.length := by
    have := congrArg List.length hcons
    simpa using this
  have ha : (file.constraints.map fun c => coreBytes c.1) = cs.map fun c => termBytes c.a := by
    have := congrArg (List.map Prod.fst) hcons
    simpa [List.map_map, Function.comp_def] using this
  have hb : (file.constraints.map fun c => coreBytes c.2.1) = cs.map fun c => termBytes c.b := by
    have := congrArg (List.map fun t => t.2.1) hcons
    simpa [List.map_map, Function.comp_def] using this
  have hc : (file.constraints.map fun c => coreBytes c.2.2) = cs.map fun c => termBytes c.c := by
    have := congrArg (List.map fun t => t.2.2) hcons
    simpa [List.map_map, Function.comp_def] using this
  unfold loadAsSpartanInst loadR1cs
  rw [hr]
  simp only [hhead, ok_bind]
  unfold convertToSpartan instanceOf
  simp only [matTriples_bytes, ha, hb, hc, hl]
  rfl

variable {W : Wire F P} {K : Codec F} {files : String → Option (List UInt8)} {args : List String}
  {inPath outPath num : String}

/-- The tool on a compiled circuit. -/
theorem gen_eq {h : Head} {cs : List Con} {m : List Nat} {secs : List (Nat × List UInt8)}
    (hf : Compiled h cs m secs) {numPub : Nat} (h1 : args[1]? = some inPath) (h2 : args[2]? = some outPath)
    (h3 : args[3]? = some num) (hnum : parseUsize W.bits num.toList = some numPub)
    (hfile : files inPath = some (encR1cs secs)) :
    genSpartanInst W K files args = match instanceOf K cs h.nWires numPub with
      | .ok (.ok I) => .ok (outPath, W.fInst.enc I)
      | .ok (.error _) => .error .panic
      | .error e => .error e := by
  unfold genSpartanInst
  rw [h1, h2, h3]
  simp only
  rw [hnum, hfile]
  simp only
  rw [load_compiled hf]
  rcases instanceOf K cs h.nWires numPub with e | (e | I) <;> rfl

variable [DecidableEq F]

/-- C102, when a file is written: exactly when every wire that occurs is declared (or is one of the
positions of the public input and the constant after the declared ones) and every coefficient is the
encoding of a field element.  Otherwise the tool panics and writes nothing. -/
theorem gen_ok_iff {h : Head} {cs : List Con} {m : List Nat} {secs : List (Nat × List UInt8)}
    (hf : Compiled h cs m secs) {numPub : Nat} (h1 : args[1]? = some inPath) (h2 : args[2]? = some outPath)
    (h3 : args[3]? = some num) (hnum : parseUsize W.bits num.toList = some numPub)
    (hfile : files inPath = some (encR1cs secs)) :
    ((∃ out, genSpartanInst W K files args = .ok (outPath, out)) ↔
      ∀ c ∈ cs, ∀ t ∈ c.a ++ c.b ++ c.c, t.1 < h.nWires + numPub + 1 ∧ (K.fromBytes (encField t.2)).isSome) ∧
    ((¬ ∃ out, genSpartanInst W K files args = .ok (outPath, out)) →
      genSpartanInst W K files args = .error .panic) := by
  have e := gen_eq (W := W) (K := K) (files := files) hf h1 h2 h3 hnum hfile
  have key : (∃ I, instanceOf K cs h.nWires numPub = .ok (.ok I)) ↔
      ∀ c ∈ cs, ∀ t ∈ c.a ++ c.b ++ c.c, t.1 < h.nWires + numPub + 1 ∧
        (K.fromBytes (encField t.2)).isSome := by
    unfold instanceOf
    rw [instance_new_ok_iff]
    constructor
    · intro hall c hc t ht
      obtain ⟨i, hi, rfl⟩ := List.mem_iff_getElem.mp hc
      have mk : ∀ sel : Con → LinComb, t ∈ sel cs[i] →
          (i, t.1, encField t.2) ∈ triplesOf (cs.map fun c => termBytes (sel c)) := by
        intro sel hs
        rw [mem_triplesOf]
        refine ⟨i, by simpa using hi, ?_, rfl⟩
        rw [List.getElem_map]
        exact List.mem_map.mpr ⟨t, hs, rfl⟩
      have hm : (i, t.1, encField t.2) ∈ triplesOf (cs.map fun c => termBytes c.a) ++
          triplesOf (cs.map fun c => termBytes c.b) ++ triplesOf (cs.map fun c => termBytes c.c) := by
        rw [List.mem_append, List.mem_append] at ht ⊢
        rcases ht with (ht | ht) | ht
        · exact .inl (.inl (mk _ ht))
        · exact .inl (.inr (mk _ ht))
        · exact .inr (mk _ ht)
      exact (hall _ hm).2
    · intro hall e he
      have mk : ∀ sel : Con → LinComb, (∀ c, ∀ t ∈ sel c, t ∈ c.a ++ c.b ++ c.c) →
          e ∈ triplesOf (cs.map fun c => termBytes (sel c)) →
          e.1 < cs.length ∧ e.2.1 < h.nWires + numPub + 1 ∧ (K.fromBytes e.2.2).isSome := by
        intro sel hsel hs
        rw [mem_triplesOf] at hs
        obtain ⟨i, hi, ht, e1⟩ := hs
        rw [List.getElem_map, termBytes, List.mem_map] at ht
        obtain ⟨t, ht, e2⟩ := ht
        have hi' : i < cs.length := by simpa using hi
        rw [Prod.mk.injEq] at e2
        rw [← e2.1, ← e2.2, e1]
        exact ⟨hi', hall _ (List.getElem_mem hi') t (hsel _ t ht)⟩
      rw [List.mem_append, List.mem_append] at he
      rcases he with (he | he) | he
      · exact mk _ (fun c t ht => by simp [ht]) he
      · exact mk _ (fun c t ht => by simp [ht]) he
      · exact mk _ (fun c t ht => by simp [ht]) he
  rw [e, ← key]
  rcases hi : instanceOf K cs h.nWires numPub with e | (e | I)
  · unfold instanceOf at hi
    rw [instance_new_result] at hi
    split at hi <;> cases hi
  · simp
  · simp

/-- C103 is false.  What the tool writes depends on the number of wires and the constraints only: two
files that agree on these — whatever prime field they were compiled for, and whatever wires they
declare public — give the same circuit file. -/
theorem gen_ignores_header {h h' : Head} {cs : List Con} {m m' : List Nat}
    {secs secs' : List (Nat × List UInt8)} (hf : Compiled h cs m secs) (hf' : Compiled h' cs m' secs')
    (hw : h.nWires = h'.nWires) {inPath' : String} {numPub : Nat} {args' : List String}
    (h1 : args[1]? = some inPath) (h1' : args'[1]? = some inPath')
    (h2 : args[2]? = some outPath) (h2' : args'[2]? = some outPath)
    (h3 : args[3]? = some num) (h3' : args'[3]? = some num) (hnum : parseUsize W.bits num.toList = some numPub)
    (hfile : files inPath = some (encR1cs secs)) (hfile' : files inPath' = some (encR1cs secs')) :
    genSpartanInst W K files args = genSpartanInst W K files args' := by
  rw [gen_eq hf h1 h2 h3 hnum hfile, gen_eq hf' h1' h2' h3' hnum hfile', hw]

end

/-! ### From the compiled circuit to an accepted proof -/

theorem nextPow2_le {n k : Nat} (h : n ≤ 2 ^ k) : nextPow2 n ≤ 2 ^ k :=
  Nat.pow_le_pow_right (by norm_num) (Nat.clog_le_of_le_pow h)

theorem consPadded_le {n k : Nat} (h : n ≤ 2 ^ k) (hk : 1 ≤ k) : consPadded n ≤ 2 ^ k := by
  have h2 : 2 ≤ 2 ^ k := by
    calc 2 = 2 ^ 1 := rfl
      _ ≤ 2 ^ k := Nat.pow_le_pow_right (by norm_num) hk
  rw [consPadded_eq]
  split_ifs
  · omega
  · exact h2
  · exact nextPow2_le h

/-- The circuit is of a size that a 32-bit machine can load: at most `2^30` wires and constraints,
less than `2^30` public inputs, at most `2^31` terms on each side. -/
def FitsWasm (h : Head) (cs : List Con) (numPub : Nat) : Prop :=
  h.nWires ≤ 2 ^ 30 ∧ cs.length ≤ 2 ^ 30 ∧ numPub < 2 ^ 30 ∧ (cs.map fun c => c.a.length).sum ≤ 2 ^ 31 ∧
    (cs.map fun c => c.b.length).sum ≤ 2 ^ 31 ∧ (cs.map fun c => c.c.length).sum ≤ 2 ^ 31

variable {files : String → Option (List UInt8)} {args : List String} {inPath outPath num : String}

/-- The bytes of an instance do not depend on the width of `usize`. -/
theorem inst_bytes_width (a b : Nat) (I : Inst (ZMod secpP)) :
    (secqWire a).fInst.enc I = (secqWire b).fInst.enc I := rfl

theorem gen_circuit {digest : R1CS (ZMod secpP) → List UInt8} (hdig : ∀ i, (digest i).length < 2 ^ 32)
    {h : Head} {cs : List Con} {m : List Nat} {secs : List (Nat × List UInt8)} (hf : Compiled h cs m secs)
    (hwire : ∀ c ∈ cs, ∀ t ∈ c.a ++ c.b ++ c.c, t.1 < h.nWires ∧ t.2 < secpP)
    {numPub : Nat} (hfit : FitsWasm h cs numPub) (h1 : args[1]? = some inPath) (h2 : args[2]? = some outPath)
    (h3 : args[3]? = some num) (hnum : parseUsize 64 num.toList = some numPub)
    (hfile : files inPath = some (encR1cs secs)) :
    ∃ r I, Convertible (secpCodec digest) r ∧ convertToSpartan (secpCodec digest) r numPub = .ok I ∧
      genSpartanInst (secqWire 64) (secpCodec digest) files args = .ok (outPath, (secqWire 32).fInst.enc I) ∧
      (secqWire 32).okInst I ∧ I.inst.numVars ≤ 2 ^ 62 ∧ r.numVariables = h.nWires ∧
      r.constraints.length = cs.length ∧
      ∀ vars : List (ZMod secpP),
        (ConsHold (coefVal (secpCodec digest)) (r.constraints.map toCon) vars ↔
          ConsHold (fun n => (n : ZMod secpP)) cs vars) := by
  obtain ⟨r, wm, hr, hconv, hrv, hcons, hiff⟩ := load_circom (digest := digest) hf.prime hf.wires hf.pubOut
    hf.pubIn hf.prvIn hf.labels hf.cons hf.terms hf.mapLen hf.map64 hf.map0 hf.types hf.nodup hf.nsecs hf.len
    hf.sec1 hf.sec2 hf.sec3 hwire
  obtain ⟨I, hI, hnew⟩ := convert_eq (numPub := numPub) hconv
  have hl : r.constraints.length = cs.length := by
    have := congrArg List.length hcons
    simpa using this
  obtain ⟨f1, f2, f3, fa, fb, fc⟩ := hfit
  have hA : (matTriples (·.1) r.constraints).length ≤ 2 ^ 31 := by
    have := congrArg (List.map Prod.fst) hcons
    simp only [List.map_map, Function.comp_def] at this
    rw [matTriples_bytes, this, triplesOf_length]
    simpa [List.map_map, Function.comp_def, termBytes] using fa
  have hB : (matTriples (·.2.1) r.constraints).length ≤ 2 ^ 31 := by
    have := congrArg (List.map fun t => t.2.1) hcons
    simp only [List.map_map, Function.comp_def] at this
    rw [matTriples_bytes, this, triplesOf_length]
    simpa [List.map_map, Function.comp_def, termBytes] using fb
  have hC : (matTriples (·.2.2) r.constraints).length ≤ 2 ^ 31 := by
    have := congrArg (List.map fun t => t.2.2) hcons
    simp only [List.map_map, Function.comp_def] at this
    rw [matTriples_bytes, this, triplesOf_length]
    simpa [List.map_map, Function.comp_def, termBytes] using fc
  have hvp : varsPadded r.numVariables numPub ≤ 2 ^ 30 := by
    rw [varsPadded_eq, hrv]
    exact nextPow2_le (by omega)
  have hcp : consPadded r.constraints.length ≤ 2 ^ 30 := consPadded_le (by omega) (by norm_num)
  have hbits : (secqWire 32).bits = 32 := rfl
  have hok : (secqWire 32).okR1CS I.inst := by
    refine okR1CS_of_new hnew ?_ ?_
    · rw [hbits]
      have : max (matTriples (·.1) r.constraints).length (max (matTriples (·.2.1) r.constraints).length
        (matTriples (·.2.2) r.constraints).length) ≤ 2 ^ 31 := by
        rw [max_le_iff, max_le_iff]; exact ⟨hA, hB, hC⟩
      omega
    · rw [hbits]; omega
  have hd : (secqWire 32).fits I.digest := by
    obtain ⟨-, -, -, rfl⟩ := new_ok_entries hnew
    exact hdig _
  have hnv : I.inst.numVars ≤ 2 ^ 62 := by
    obtain ⟨-, -, -, rfl⟩ := new_ok_entries hnew
    exact hvp.trans (by norm_num)
  refine ⟨r, I, hconv, hI, ?_, ⟨hok, hd⟩, hnv, hrv, hl, hiff⟩
  unfold genSpartanInst
  rw [h1, h2, h3]
  simp only
  rw [show (secqWire 64).bits = 64 from rfl, hnum, hfile]
  simp only [loadAsSpartanInst, hr, ok_bind, hI, inst_bytes_width 64 32]
  rfl

/-- C102: for every circuit in the r1cs format that a 32-bit machine can load, the tool writes a circuit
file; read back by the wasm module, it is satisfied exactly by the assignments for which the
constraints of the compiled circuit hold. -/
theorem gen_sat_iff {digest : R1CS (ZMod secpP) → List UInt8} (hdig : ∀ i, (digest i).length < 2 ^ 32)
    {h : Head} {cs : List Con} {m : List Nat} {secs : List (Nat × List UInt8)} (hf : Compiled h cs m secs)
    (hwire : ∀ c ∈ cs, ∀ t ∈ c.a ++ c.b ++ c.c, t.1 < h.nWires ∧ t.2 < secpP)
    {numPub : Nat} (hfit : FitsWasm h cs numPub) (h1 : args[1]? = some inPath) (h2 : args[2]? = some outPath)
    (h3 : args[3]? = some num) (hnum : parseUsize 64 num.toList = some numPub)
    (hfile : files inPath = some (encR1cs secs)) :
    ∃ circuit I, genSpartanInst (secqWire 64) (secpCodec digest) files args = .ok (outPath, circuit) ∧
      (secqWire 32).fInst.deserialize circuit = .ok I ∧ I.inst.numInputs = numPub ∧
      ∀ vars x : List (ZMod secpP), vars.length = h.nWires → x.length = numPub →
        ∃ b, I.isSat vars x = .ok (.ok b) ∧ (b = true ↔ ConsHold (fun n => (n : ZMod secpP)) cs vars) := by
  obtain ⟨r, I, hconv, hI, hgen, hok, -, hrv, -, hiff⟩ := gen_circuit (files := files) hdig hf hwire hfit h1 h2 h3
    hnum hfile
  refine ⟨_, I, hgen, instance_bytes_roundtrip (secqWire_lawful (by norm_num) (by norm_num)) hok, ?_, ?_⟩
  · obtain ⟨I', hI', hnew⟩ := convert_eq (numPub := numPub) hconv
    rw [hI] at hI'
    cases hI'
    obtain ⟨-, -, -, rfl⟩ := new_ok_entries hnew
    rfl
  · intro vars x hv hx
    obtain ⟨b, hb, hb'⟩ := convert_sat_iff hconv hI (hv.trans hrv.symm) hx
    exact ⟨b, hb, hb'.trans (hiff vars)⟩

/-- C102, end to end: the r1cs file of any circuit with at least one constraint, through the tool; then
any witness file for which the constraints hold and any public input of canonical values, through the
wasm prover; then the wasm verifier on the proof: it returns true. -/
theorem gen_prove_verify {sqrt : ZMod secpN → Option (ZMod secpN)} (hs : SqrtSpec sqrt)
    {hash : Tr (ZMod secpP) EncPt → ZMod secpP} (hu : ∀ t, hash (t ++ [.chal "u"]) ≠ 0)
    {src : GenSrc Secq} {digest : R1CS (ZMod secpP) → List UInt8} (hdig : ∀ i, (digest i).length < 2 ^ 32)
    {h : Head} {cs : List Con} {m : List Nat} {secs : List (Nat × List UInt8)} (hf : Compiled h cs m secs)
    (hc : cs ≠ [])
    (hwire : ∀ c ∈ cs, ∀ t ∈ c.a ++ c.b ++ c.c, t.1 < h.nWires ∧ t.2 < secpP)
    {numPub : Nat} (hfit : FitsWasm h cs numPub) (h1 : args[1]? = some inPath) (h2 : args[2]? = some outPath)
    (h3 : args[3]? = some num) (hnum : parseUsize 64 num.toList = some numPub)
    (hfile : files inPath = some (encR1cs secs)) :
    ∃ circuit, genSpartanInst (secqWire 64) (secpCodec digest) files args = .ok (outPath, circuit) ∧
      ∀ (pub : List UInt8), numPub * 32 ≤ pub.length → (∀ b ∈ chunks pub numPub, leNat b < secpP) →
      ∀ (version : Nat) (prime : List UInt8) (ws : List Nat), version ≤ 2 → prime.length = 32 →
        ws.length = h.nWires → ws.length < 2 ^ 27 → (∀ w ∈ ws, Readable w ∧ w < secpP) →
        ConsHold (fun n => (n : ZMod secpP)) cs (ws.map fun w : Nat => (w : ZMod secpP)) →
      ∀ (label : List UInt8) (tr0 : Tr (ZMod secpP) EncPt) (tape : Tape (ZMod secpP)),
      ∃ proof, wasmProve ((secqWire 32).wasmEnv (secqEnvE sqrt hash) src (secpCodec digest)) label tr0 tape
          circuit (encWtns version prime (32 * ws.length) ws) pub = .ok proof ∧
        wasmVerify ((secqWire 32).wasmEnv (secqEnvE sqrt hash) src (secpCodec digest)) label tr0
          circuit proof pub = .ok true := by
  obtain ⟨r, I, hconv, hI, hgen, hok, hnv, hrv, hrl, hiff⟩ := gen_circuit (files := files) hdig hf hwire hfit h1
    h2 h3 hnum hfile
  refine ⟨_, hgen, ?_⟩
  intro pub hlen hcanon version prime ws hv hp hwl hw hws hsat label tr0 tape
  refine wasm_prove_verify_secq hs hu (by norm_num) (by norm_num) hconv ?_ hI hok hnv hlen hcanon hv hp hw
    (hwl.trans hrv.symm) hws ((hiff _).2 hsat) label tr0 tape
  intro e
  rw [e] at hrl
  exact hc (List.length_eq_zero_iff.mp hrl.symm)

/-- The same circuit file has accepted proofs for every public input, whatever the circuit says: see
C66. -/
theorem gen_forgery {sqrt : ZMod secpN → Option (ZMod secpN)} (hs : SqrtSpec sqrt)
    {hash : Tr (ZMod secpP) EncPt → ZMod secpP} (hu : ∀ t, hash (t ++ [.chal "u"]) ≠ 0)
    {src : GenSrc Secq} {digest : R1CS (ZMod secpP) → List UInt8} (hdig : ∀ i, (digest i).length < 2 ^ 32)
    {h : Head} {cs : List Con} {m : List Nat} {secs : List (Nat × List UInt8)} (hf : Compiled h cs m secs)
    (hc : cs ≠ []) (hw0 : h.nWires < 2 ^ 27)
    (hwire : ∀ c ∈ cs, ∀ t ∈ c.a ++ c.b ++ c.c, t.1 < h.nWires ∧ t.2 < secpP)
    {numPub : Nat} (hfit : FitsWasm h cs numPub) (h1 : args[1]? = some inPath) (h2 : args[2]? = some outPath)
    (h3 : args[3]? = some num) (hnum : parseUsize 64 num.toList = some numPub)
    (hfile : files inPath = some (encR1cs secs)) :
    ∃ circuit, genSpartanInst (secqWire 64) (secpCodec digest) files args = .ok (outPath, circuit) ∧
      ∀ (pub : List UInt8), numPub * 32 ≤ pub.length → (∀ b ∈ chunks pub numPub, leNat b < secpP) →
      ∀ (label : List UInt8) (tr0 : Tr (ZMod secpP) EncPt),
      ∃ proof, wasmVerify ((secqWire 32).wasmEnv (secqEnvE sqrt hash) src (secpCodec digest)) label tr0
          circuit proof pub = .ok true := by
  obtain ⟨circuit, hgen, hall⟩ := gen_prove_verify (files := files) (src := src) hs hu hdig hf hc hwire hfit h1 h2
    h3 hnum hfile
  refine ⟨circuit, hgen, ?_⟩
  intro pub hlen hcanon label tr0
  have hz : ConsHold (fun n => (n : ZMod secpP)) cs
      ((List.replicate h.nWires 0).map fun w : Nat => (w : ZMod secpP)) := by
    have e : (List.replicate h.nWires 0).map (fun w : Nat => (w : ZMod secpP)) =
        List.replicate h.nWires 0 := by simp
    rw [e]
    intro c _
    rw [evalLC_zero, evalLC_zero, evalLC_zero, zero_mul]
  have hr : ∀ w ∈ List.replicate h.nWires 0, Readable w ∧ w < secpP := by
    intro w hw
    rw [List.mem_replicate] at hw
    rw [hw.2]
    decide +kernel
  obtain ⟨proof, -, hv⟩ := hall pub hlen hcanon 2 (List.replicate 32 0) (List.replicate h.nWires 0) (le_refl 2)
    (by simp) (by simp) (by simpa using hw0) hr hz label tr0 (fun _ => 0)
  exact ⟨proof, hv⟩

/-! ### C103 -/

/-- What is left of C103: a file with a coefficient that is not the encoding of an element of the
library's field — the only sign of another field that is looked at — is refused.  Missing: that the
prime in the header is the library's; `gen_accepts_foreign` shows that it cannot be proved. -/
theorem gen_foreign_partial {digest : R1CS (ZMod secpP) → List UInt8} {bits : Nat}
    {h : Head} {cs : List Con} {m : List Nat} {secs : List (Nat × List UInt8)} (hf : Compiled h cs m secs)
    (hco : ∃ c ∈ cs, ∃ t ∈ c.a ++ c.b ++ c.c, secpP ≤ t.2 ∧ t.2 < 2 ^ 256)
    {numPub : Nat} (h1 : args[1]? = some inPath) (h2 : args[2]? = some outPath)
    (h3 : args[3]? = some num) (hnum : parseUsize bits num.toList = some numPub)
    (hfile : files inPath = some (encR1cs secs)) :
    genSpartanInst (secqWire bits) (secpCodec digest) files args = .error .panic := by
  obtain ⟨hiff, hpan⟩ := gen_ok_iff (W := secqWire bits) (K := secpCodec digest) hf h1 h2 h3 hnum hfile
  apply hpan
  rw [hiff]
  intro hall
  obtain ⟨c, hc, t, ht, hlo, hhi⟩ := hco
  obtain ⟨-, hs⟩ := hall c hc t ht
  have hn : leNat (encField t.2) = t.2 := by
    rw [encField, leNat_leBytes, Nat.mod_eq_of_lt]
    exact lt_of_lt_of_eq hhi (by norm_num)
  simp only [secpCodec, hn] at hs
  rw [if_neg (by omega)] at hs
  cases hs

/-- The example: `w1 * w1 = w2` on three wires, `w1` public, compiled for the field of `prime`. -/
def squareHead (prime : Nat) : Head := ⟨leBytes 32 prime, 3, 0, 1, 0, 3⟩

def squareCons : List Con := [⟨[(1, 1)], [(1, 1)], [(2, 1)]⟩]

def squareSecs (prime : Nat) : List (Nat × List UInt8) :=
  [(1, encHead (squareHead prime) 1), (2, encCons squareCons), (3, encMap [0, 1, 2])]

theorem square_compiled (prime : Nat) : Compiled (squareHead prime) squareCons [0, 1, 2] (squareSecs prime) where
  prime := leBytes_length _ _
  wires := by norm_num [squareHead]
  pubOut := by norm_num [squareHead]
  pubIn := by norm_num [squareHead]
  prvIn := by norm_num [squareHead]
  labels := by norm_num [squareHead]
  cons := by norm_num [squareCons]
  terms := by
    intro c hc
    simp only [squareCons, List.mem_singleton] at hc
    subst hc
    refine ⟨⟨by simp, ?_⟩, ⟨by simp, ?_⟩, ⟨by simp, ?_⟩⟩
    all_goals
      intro t ht
      simp only [List.mem_singleton] at ht
      subst ht
      exact ⟨by norm_num, by decide +kernel⟩
  mapLen := rfl
  map64 := by decide
  map0 := rfl
  types := by simp [squareSecs]
  nodup := by simp [squareSecs]
  nsecs := by simp [squareSecs]
  len := by
    simp [squareSecs, encR1cs, encSections, encSection, encHead, encCons, encMap, squareHead, squareCons,
      encCon, encLinComb, encField, leBytes_length]
  sec1 := by simp [squareSecs, squareCons]
  sec2 := by simp [squareSecs]
  sec3 := by simp [squareSecs]

/-- C103 is false: the circuit compiled for the field of any prime is accepted, and the circuit file is
the one of the same constraints over the library's field. -/
theorem gen_accepts_foreign (digest : R1CS (ZMod secpP) → List UInt8) (prime : Nat) :
    ∃ circuit, ∀ q ∈ [prime, secpP],
      genSpartanInst (secqWire 64) (secpCodec digest) (fun _ => some (encR1cs (squareSecs q)))
        ["gen_spartan_inst", "c.r1cs", "c.circuit", toString 1] = .ok ("c.circuit", circuit) := by
  have hn : parseUsize (secqWire 64).bits (toString 1).toList = some 1 := (parse_decimal (by norm_num [secqWire])).1
  have h : ∀ q, (∃ circuit, genSpartanInst (secqWire 64) (secpCodec digest)
      (fun _ => some (encR1cs (squareSecs q))) ["gen_spartan_inst", "c.r1cs", "c.circuit", toString 1] =
        .ok ("c.circuit", circuit)) := by
    intro q
    refine (gen_ok_iff (square_compiled q) rfl rfl rfl hn rfl).1.2 ?_
    intro c hc t ht
    simp only [squareCons, List.mem_singleton] at hc
    subst hc
    have h1 := secpCodec_encField digest (w := 1) (by decide +kernel)
    simp only [List.cons_append, List.nil_append, List.mem_cons, List.not_mem_nil, or_false] at ht
    rcases ht with rfl | rfl | rfl <;> exact ⟨by norm_num [squareHead], by rw [h1]; rfl⟩
  obtain ⟨circuit, hc⟩ := h secpP
  refine ⟨circuit, ?_⟩
  intro q hq
  rw [← hc]
  have e := gen_eq (W := secqWire 64) (K := secpCodec digest) (outPath := "c.circuit") (inPath := "c.r1cs")
    (args := ["gen_spartan_inst", "c.r1cs", "c.circuit", toString 1])
    (files := fun _ => some (encR1cs (squareSecs q))) (square_compiled q) rfl rfl rfl hn rfl
  have e' := gen_eq (W := secqWire 64) (K := secpCodec digest) (outPath := "c.circuit") (inPath := "c.r1cs")
    (args := ["gen_spartan_inst", "c.r1cs", "c.circuit", toString 1])
    (files := fun _ => some (encR1cs (squareSecs secpP))) (square_compiled secpP) rfl rfl rfl hn rfl
  rw [e, e', show (squareHead q).nWires = (squareHead secpP).nWires from rfl]

/-- Non-vacuity of the end-to-end theorem: `3 * 3 = 9`, from the files to the verifier's answer. -/
example {sqrt : ZMod secpN → Option (ZMod secpN)} (hs : SqrtSpec sqrt) (src : GenSrc Secq)
    (tape : Tape (ZMod secpP)) : ∃ circuit proof,
    genSpartanInst (secqWire 64) (secpCodec fun _ => [1, 2, 3]) (fun _ => some (encR1cs (squareSecs secpP)))
      ["gen_spartan_inst", "c.r1cs", "c.circuit", toString 1] = .ok ("c.circuit", circuit) ∧
    wasmProve ((secqWire 32).wasmEnv (secqEnvE sqrt fun _ => 5) src (secpCodec fun _ => [1, 2, 3])) [] [] tape
      circuit (encWtns 2 (leBytes 32 secpP) 96 [1, 3, 9]) (leBytes 32 3) = .ok proof ∧
    wasmVerify ((secqWire 32).wasmEnv (secqEnvE sqrt fun _ => 5) src (secpCodec fun _ => [1, 2, 3])) [] []
      circuit proof (leBytes 32 3) = .ok true := by
  obtain ⟨circuit, hg, hall⟩ := gen_prove_verify (files := fun _ => some (encR1cs (squareSecs secpP)))
    (args := ["gen_spartan_inst", "c.r1cs", "c.circuit", toString 1]) (src := src) (hash := fun _ => 5) hs
    (fun _ => by decide +kernel) (digest := fun _ => [1, 2, 3]) (fun _ => by norm_num) (square_compiled secpP)
    (by simp [squareCons])
    (by
      intro c hc t ht
      simp only [squareCons, List.mem_singleton] at hc
      subst hc
      simp only [List.cons_append, List.nil_append, List.mem_cons, List.not_mem_nil, or_false] at ht
      rcases ht with rfl | rfl | rfl <;> exact ⟨by norm_num [squareHead], by decide +kernel⟩)
    (numPub := 1) (by norm_num [FitsWasm, squareHead, squareCons]) rfl rfl rfl (parse_decimal (by norm_num)).1 rfl
  have hch : chunks (leBytes 32 3) 1 = [leBytes 32 3] := by decide +kernel
  have h3 : leNat (leBytes 32 3) = 3 := by decide +kernel
  obtain ⟨proof, hp, hv⟩ := hall (leBytes 32 3) (by rw [leBytes_length])
    (by intro b hb; rw [hch, List.mem_singleton] at hb; rw [hb, h3]; decide +kernel)
    2 (leBytes 32 secpP) [1, 3, 9] (le_refl 2) (leBytes_length _ _) rfl (by norm_num) (by decide +kernel)
    (by
      intro c hc
      simp only [squareCons, List.mem_singleton] at hc
      subst hc
      simp only [evalLC, List.map_cons, List.map_nil, List.sum_cons, List.sum_nil, add_zero]
      norm_num)
    [] [] tape
  exact ⟨circuit, proof, hg, hp, hv⟩

/-- Non-vacuity of `gen_foreign_partial`: the coefficient `p + 1` is read, and refused. -/
example (digest : R1CS (ZMod secpP) → List UInt8) (cs : List Con) (hcs : cs = [⟨[(1, secpP + 1)], [(1, 1)], [(2, 1)]⟩])
    (secs : List (Nat × List UInt8))
    (hsecs : secs = [(1, encHead (squareHead 7) 1), (2, encCons cs), (3, encMap [0, 1, 2])]) :
    genSpartanInst (secqWire 64) (secpCodec digest) (fun _ => some (encR1cs secs))
      ["gen_spartan_inst", "c.r1cs", "c.circuit", toString 1] = .error .panic := by
  have hf : Compiled (squareHead 7) cs [0, 1, 2] secs := by
    subst hcs hsecs
    refine ⟨leBytes_length _ _, by norm_num [squareHead], by norm_num [squareHead], by norm_num [squareHead],
      by norm_num [squareHead], by norm_num [squareHead], by simp, ?_, rfl, by decide, rfl, by simp, by simp,
      by simp, ?_, by simp, by simp, by simp⟩
    · intro c hc
      rw [List.mem_singleton] at hc
      subst hc
      refine ⟨⟨by simp, ?_⟩, ⟨by simp, ?_⟩, ⟨by simp, ?_⟩⟩
      all_goals
        intro t ht
        rw [List.mem_singleton] at ht
        subst ht
        exact ⟨by norm_num, by decide +kernel⟩
    · simp [encR1cs, encSections, encSection, encHead, encCons, encMap, squareHead,
        encCon, encLinComb, encField, leBytes_length]
  exact gen_foreign_partial hf ⟨_, by rw [hcs]; exact List.mem_singleton.mpr rfl, (1, secpP + 1), by simp,
    Nat.le_succ _, by decide +kernel⟩ rfl rfl rfl (numPub := 1) (parse_decimal (by norm_num)).1 rfl

end Spartan
