import Verif.Props.Compile

/-!
C131: the membership circuits as r1cs files, through the tool that writes the circuit file, the prover and the verifier.
-/

set_option exponentiation.threshold 2000

namespace Spartan
open Spec MParams Lib Mach Rank1
open Spec.Keccak (ethAddress)

attribute [local irreducible] poseidonNat k256Hash PoseidonParams.hash wasmPoseidon poseidonHash Circuit.Poseidon
  Circuit.EfficientECDSA Circuit.CoordsToAddress ethAddress

/-! ### Values whose bytes in reverse are not too large -/

theorem readable_pred {x : ℕ} (hx : x < secpP) (h : ¬ Readable x) : 1 ≤ x ∧ Readable (x - 1) := by
  have hsp : secpP < 256 ^ 32 := by decide +kernel
  have h1 : x % 2 ^ 216 = 2 ^ 216 - 1 := by
    by_contra hc
    exact h (readable_of_mod (lt_trans hx hsp) hc)
  have h0 : 1 ≤ x := by
    rcases Nat.eq_zero_or_pos x with rfl | hx
    · norm_num at h1
    · exact hx
  refine ⟨h0, readable_of_mod (lt_of_le_of_lt (Nat.sub_le _ _) (lt_trans hx hsp)) ?_⟩
  omega

/-! ### A file for a circuit -/

/-- `secs` are the sections of an r1cs file with the constraints `cs` for the circuit `R` of depth `d`: of exactly the
inputs of which `R` holds, the constraints hold for some values of the internal signals. -/
def FileFor (d : ℕ) (R : (s root Tx Ty Ux Uy : ZMod secpP) → (path sib : ℕ → ZMod secpP) → Prop)
    (h : Head) (cs : List Con) (m : List ℕ) (secs : List (ℕ × List UInt8)) : Prop :=
  Compiled h cs m secs ∧ (∀ c ∈ cs, ∀ t ∈ c.a ++ c.b ++ c.c, t.1 < h.nWires ∧ t.2 < secpP) ∧
  h.nWires < 2 ^ 26 ∧ cs.length < 2 ^ 26 ∧ (cs.map fun c => c.a.length + c.b.length + c.c.length).sum < 2 ^ 26 ∧
  ∀ s root Tx Ty Ux Uy path sib, R s root Tx Ty Ux Uy path sib ↔
    ∃ y, (wireValues d s root Tx Ty Ux Uy path sib y).length = h.nWires ∧
      ConsHold (fun n => (n : ZMod secpP)) cs (wireValues d s root Tx Ty Ux Uy path sib y)

theorem evalLC_congr' {co co' : ℕ → ZMod secpP} {l : LinComb} (h : ∀ t ∈ l, co t.2 = co' t.2) (w : List (ZMod secpP)) :
    evalLC co l w = evalLC co' l w := by
  unfold evalLC
  congr 1
  exact List.map_congr_left fun t ht => by rw [h t ht]

/-- Reading such a file gives a system of constraints for the circuit. -/
theorem file_system {d : ℕ} {R : (s root Tx Ty Ux Uy : ZMod secpP) → (path sib : ℕ → ZMod secpP) → Prop}
    {h : Head} {cs : List Con} {m : List ℕ} {secs : List (ℕ × List UInt8)} (hf : FileFor d R h cs m secs) :
    ∃ rc wm, loadR1cs (encR1cs secs) = .ok (rc, wm) ∧ SystemFor d R rc ∧ rc.numVariables = h.nWires ∧
      ∀ w : List (ZMod secpP), ConsHold coefRes (rc.constraints.map toCon) w ↔ ConsHold (fun n => (n : ZMod secpP)) cs w := by
  obtain ⟨hc, hwire, h1, h2, h3, h4⟩ := hf
  obtain ⟨rc, wm, hr, hconv, hrv, hcons, hiff⟩ := load_circom (digest := fun _ => []) hc.prime hc.wires hc.pubOut
    hc.pubIn hc.prvIn hc.labels hc.cons hc.terms hc.mapLen hc.map64 hc.map0 hc.types hc.nodup hc.nsecs hc.len
    hc.sec1 hc.sec2 hc.sec3 hwire
  have hco : ∀ c ∈ rc.constraints, ∀ t ∈ c.1 ++ c.2.1 ++ c.2.2, t.1 < rc.numVariables ∧ leNat (coreToRepr t.2) < secpP := by
    intro c hc t ht
    obtain ⟨e1, e2⟩ := hconv c hc t ht
    refine ⟨e1, ?_⟩
    by_contra hlt
    unfold secpCodec at e2
    simp only at e2
    rw [if_neg (by rw [not_and]; exact fun _ => hlt)] at e2
    cases e2
  have hval : ∀ c ∈ rc.constraints, ∀ t ∈ c.1 ++ c.2.1 ++ c.2.2,
      coefRes t.2 = coefVal (secpCodec fun _ => []) t.2 := by
    intro c hc t ht
    have e2 := (hco c hc t ht).2
    unfold coefRes coefVal secpCodec
    simp only
    rw [if_pos ⟨coreToRepr_length _, e2⟩]
    rfl
  have hholds : ∀ w : List (ZMod secpP), ConsHold coefRes (rc.constraints.map toCon) w ↔
      ConsHold (fun n => (n : ZMod secpP)) cs w := by
    intro w
    rw [← hiff w]
    unfold ConsHold
    simp only [List.mem_map, forall_exists_index, and_imp, forall_apply_eq_imp_iff₂, toCon]
    refine forall₂_congr fun c hc => ?_
    rw [evalLC_congr' (fun t ht => hval c hc t (by simp [ht])) w, evalLC_congr' (fun t ht => hval c hc t (by simp [ht])) w,
      evalLC_congr' (fun t ht => hval c hc t (by simp [ht])) w]
  have hl : rc.constraints.length = cs.length := by
    have := congrArg List.length hcons
    simpa using this
  have hsum : (rc.constraints.map fun c => c.1.length + c.2.1.length + c.2.2.length) =
      cs.map fun c => c.a.length + c.b.length + c.c.length := by
    have := congrArg (List.map fun t : List (ℕ × List UInt8) × List (ℕ × List UInt8) × List (ℕ × List UInt8) =>
      t.1.length + t.2.1.length + t.2.2.length) hcons
    simpa [List.map_map, Function.comp_def, coreBytes, termBytes] using this
  refine ⟨rc, wm, hr, ⟨hco, by rw [hrv]; exact h1, by rw [hl]; exact h2, by rw [hsum]; exact h3, ?_⟩, hrv, hholds⟩
  intro s root Tx Ty Ux Uy path sib
  rw [h4]
  refine exists_congr fun y => ?_
  rw [hrv, hholds]

/-! ### Every circuit with constraints has a file -/

/-- A coefficient as one or two that the reader accepts. -/
def coefTerms (t : ℕ × ZMod secpP) : LinComb :=
  if Readable t.2.val then [(t.1, t.2.val)] else [(t.1, t.2.val - 1), (t.1, 1)]

theorem coefTerms_spec (t : ℕ × ZMod secpP) : (coefTerms t).length ≤ 2 ∧
    (∀ u ∈ coefTerms t, u.1 = t.1 ∧ u.2 < secpP ∧ Readable u.2) ∧
    ∀ w : List (ZMod secpP), evalLC (fun n => (n : ZMod secpP)) (coefTerms t) w = w.getD t.1 0 * t.2 := by
  have hlt := ZMod.val_lt t.2
  unfold coefTerms
  split_ifs with h
  · refine ⟨by simp, ?_, fun w => ?_⟩
    · intro u hu
      rw [List.mem_singleton] at hu
      subst hu
      exact ⟨rfl, hlt, h⟩
    · simp [evalLC, mul_comm]
  · obtain ⟨h1, h2⟩ := readable_pred hlt h
    refine ⟨by simp, ?_, fun w => ?_⟩
    · intro u hu
      simp only [List.mem_cons, List.not_mem_nil, or_false] at hu
      rcases hu with rfl | rfl
      · exact ⟨rfl, by simp only; omega, h2⟩
      · exact ⟨rfl, by simp only; omega, (by decide +kernel : Readable 1)⟩
    · simp only [evalLC, List.map_cons, List.map_nil, List.sum_cons, List.sum_nil, add_zero]
      rw [Nat.cast_sub h1, ZMod.natCast_zmod_val]
      ring

/-- A term on an internal wire as two: the value of the wire is the sum of the values of two wires. -/
def wireTerms (N k : ℕ) (t : ℕ × ZMod secpP) : List (ℕ × ZMod secpP) :=
  if t.1 < N then [t] else [t, (t.1 + k, t.2)]

theorem evalLC_append' (co : ℕ → ZMod secpP) (l l' : LinComb) (w : List (ZMod secpP)) :
    evalLC co (l ++ l') w = evalLC co l w + evalLC co l' w := by
  simp [evalLC]

/-- The linear combination of the file. -/
def fileTerms (N k : ℕ) (l : List (ℕ × ZMod secpP)) : LinComb := (l.flatMap (wireTerms N k)).flatMap coefTerms

theorem evalLC_coefTerms (l : List (ℕ × ZMod secpP)) (w : List (ZMod secpP)) :
    evalLC (fun n => (n : ZMod secpP)) (l.flatMap coefTerms) w = numVal l w := by
  induction l with
  | nil => rfl
  | cons t l ih =>
    have e2 : numVal (t :: l) w = w.getD t.1 0 * t.2 + numVal l w := by
      unfold numVal; rw [List.map_cons, List.sum_cons]
    rw [List.flatMap_cons, evalLC_append', ih, (coefTerms_spec t).2.2, e2]

theorem numVal_wireTerms {N k : ℕ} {w z y1 y2 : List (ZMod secpP)} (hw : w.length = N) (h1 : y1.length = k)
    (h2 : y2.length = k) (hz : z = List.zipWith (· + ·) y1 y2) : ∀ l : List (ℕ × ZMod secpP), (∀ t ∈ l, t.1 < N + k) →
    numVal (l.flatMap (wireTerms N k)) (w ++ (y1 ++ y2)) = numVal l (w ++ z)
  | [], _ => rfl
  | t :: l, ht => by
    have e : ∀ w' : List (ZMod secpP), numVal (t :: l) w' = w'.getD t.1 0 * t.2 + numVal l w' := by
      intro w'; unfold numVal; rw [List.map_cons, List.sum_cons]
    have ea : ∀ (a b : List (ℕ × ZMod secpP)) (w' : List (ZMod secpP)), numVal (a ++ b) w' = numVal a w' + numVal b w' := by
      intro a b w'; unfold numVal; rw [List.map_append, List.sum_append]
    rw [List.flatMap_cons, ea, e, numVal_wireTerms hw h1 h2 hz l fun u hu => ht u (List.mem_cons_of_mem _ hu)]
    congr 1
    have htt := ht t List.mem_cons_self
    unfold wireTerms
    split_ifs with hN
    · simp only [numVal, List.map_cons, List.map_nil, List.sum_cons, List.sum_nil, add_zero]
      rw [List.getD_append _ _ _ _ (by rw [hw]; exact hN), List.getD_append _ _ _ _ (by rw [hw]; exact hN)]
    · simp only [numVal, List.map_cons, List.map_nil, List.sum_cons, List.sum_nil, add_zero]
      rw [List.getD_append_right w (y1 ++ y2) _ t.1 (by omega), List.getD_append_right w (y1 ++ y2) _ (t.1 + k) (by omega),
        List.getD_append_right w z _ _ (by omega), List.getD_append y1 y2 _ (t.1 - w.length) (by omega),
        List.getD_append_right y1 y2 _ (t.1 + k - w.length) (by omega), hw, h1, hz,
        show t.1 + k - N - k = t.1 - N by omega, ← add_mul]
      congr 1
      have hi : t.1 - N < k := by omega
      rw [List.getD_eq_getElem _ _ (by rw [h1]; exact hi), List.getD_eq_getElem _ _ (by rw [h2]; exact hi),
        List.getD_eq_getElem _ _ (by rw [List.length_zipWith, h1, h2, Nat.min_self]; exact hi), List.getElem_zipWith]

theorem fileTerms_length (N k : ℕ) : ∀ l : List (ℕ × ZMod secpP), (fileTerms N k l).length ≤ 4 * l.length
  | [] => le_rfl
  | t :: l => by
    have ih := fileTerms_length N k l
    have hw : (wireTerms N k t).length ≤ 2 := by
      unfold wireTerms
      split_ifs <;> simp
    have hc : ∀ l : List (ℕ × ZMod secpP), (l.flatMap coefTerms).length ≤ 2 * l.length := by
      intro l
      induction l with
      | nil => exact le_rfl
      | cons u l ih =>
        have := (coefTerms_spec u).1
        rw [List.flatMap_cons, List.length_append, List.length_cons]
        omega
    have := hc (wireTerms N k t)
    unfold fileTerms at ih ⊢
    rw [List.flatMap_cons, List.flatMap_append, List.length_append, List.length_cons]
    omega

theorem fileTerms_mem {N k : ℕ} {l : List (ℕ × ZMod secpP)} (hl : ∀ t ∈ l, t.1 < N + k) :
    ∀ u ∈ fileTerms N k l, u.1 < N + 2 * k ∧ u.2 < secpP ∧ Readable u.2 := by
  intro u hu
  unfold fileTerms at hu
  obtain ⟨t, ht, hu⟩ := List.mem_flatMap.1 hu
  obtain ⟨t', ht', ht⟩ := List.mem_flatMap.1 ht
  obtain ⟨e1, e2, e3⟩ := (coefTerms_spec t).2.1 u hu
  have := hl t' ht'
  refine ⟨?_, e2, e3⟩
  rw [e1]
  unfold wireTerms at ht
  split_ifs at ht
  · rw [List.mem_singleton] at ht
    subst ht
    omega
  · simp only [List.mem_cons, List.not_mem_nil, or_false] at ht
    rcases ht with rfl | rfl
    · omega
    · simp only; omega

theorem encLinComb_length (l : LinComb) : (encLinComb l).length = 4 + 36 * l.length := by
  unfold encLinComb
  rw [List.length_append, leBytes_length]
  congr 1
  induction l with
  | nil => rfl
  | cons t l ih =>
    rw [List.map_cons, List.flatten_cons, List.length_append, ih, List.length_append, leBytes_length, encField,
      leBytes_length, List.length_cons]
    ring

theorem encCons_length (cs : List Con) : (encCons cs).length =
    12 * cs.length + 36 * (cs.map fun c => c.a.length + c.b.length + c.c.length).sum := by
  unfold encCons
  induction cs with
  | nil => rfl
  | cons c cs ih =>
    rw [List.map_cons, List.flatten_cons, List.length_append, ih, encCon, List.length_append, List.length_append,
      encLinComb_length, encLinComb_length, encLinComb_length, List.length_cons, List.map_cons, List.sum_cons]
    ring

theorem encMap_length (m : List ℕ) : (encMap m).length = 8 * m.length := by
  unfold encMap
  induction m with
  | nil => rfl
  | cons t l ih => rw [List.map_cons, List.flatten_cons, List.length_append, ih, leBytes_length, List.length_cons]; ring

/-- A circuit that rank-1 constraints can express has an r1cs file, and a witness generator for it whose values can be
read if those of the inputs can. -/
theorem fileFor_of {d n : ℕ} {R : (s root Tx Ty Ux Uy : ZMod secpP) → (path sib : ℕ → ZMod secpP) → Prop}
    (hcongr : ∀ s root Tx Ty Ux Uy path sib path' sib', (∀ i < d, path i = path' i ∧ sib i = sib' i) →
      (R s root Tx Ty Ux Uy path sib ↔ R s root Tx Ty Ux Uy path' sib'))
    (hR1 : R1 n (fun x : Fin (6 + 2 * d) → ZMod secpP => R (sigAt x 5) (sigAt x 0) (sigAt x 1) (sigAt x 2) (sigAt x 3)
      (sigAt x 4) (fun i => sigAt x (6 + i)) (fun i => sigAt x (6 + d + i))))
    (hn : n < 2 ^ 24) (hd : d ≤ 32) {prime : List UInt8} (hp : prime.length = 32) :
    ∃ nW cs m secs, FileFor d R ⟨prime, nW, 0, 5, nW - 6, nW⟩ cs m secs ∧
      ∀ s root Tx Ty Ux Uy path sib, R s root Tx Ty Ux Uy path sib →
        ∃ y, (wireValues d s root Tx Ty Ux Uy path sib y).length = nW ∧
          ConsHold (fun n => (n : ZMod secpP)) cs (wireValues d s root Tx Ty Ux Uy path sib y) ∧
          ∀ v ∈ y, Readable v.val := by
  obtain ⟨k, cs, h1, h2, h3, h4, h5⟩ := numbered_of hcongr hR1
  let N := 7 + 2 * d
  let ft := fileTerms N k
  let cs' : List Con := cs.map fun c => ⟨ft c.1, ft c.2.1, ft c.2.2⟩
  let nW := N + 2 * k
  let h : Head := ⟨prime, nW, 0, 5, nW - 6, nW⟩
  let secs : List (ℕ × List UInt8) := [(1, encHead h cs'.length), (2, encCons cs'), (3, encMap (List.range nW))]
  have hlen : cs'.length = cs.length := List.length_map _
  have hsum : (cs'.map fun c => c.a.length + c.b.length + c.c.length).sum ≤ 4 * n := by
    refine le_trans ?_ (Nat.mul_le_mul_left 4 h3)
    simp only [cs', List.map_map, Function.comp_def]
    rw [← List.sum_map_mul_left]
    refine List.sum_le_sum fun c _ => ?_
    have e1 := fileTerms_length N k c.1
    have e2 := fileTerms_length N k c.2.1
    have e3 := fileTerms_length N k c.2.2
    simp only [ft]
    omega
  have hmem : ∀ c ∈ cs, (∀ t ∈ c.1, t.1 < N + k) ∧ (∀ t ∈ c.2.1, t.1 < N + k) ∧ (∀ t ∈ c.2.2, t.1 < N + k) :=
    fun c hc => ⟨fun t ht => h4 c hc t (by simp [ht]), fun t ht => h4 c hc t (by simp [ht]),
      fun t ht => h4 c hc t (by simp [ht])⟩
  have hterm : ∀ c ∈ cs', ∀ t ∈ c.a ++ c.b ++ c.c, t.1 < nW ∧ t.2 < secpP ∧ Readable t.2 := by
    intro c hc t ht
    obtain ⟨c', hc', rfl⟩ := List.mem_map.1 hc
    obtain ⟨m1, m2, m3⟩ := hmem c' hc'
    rw [List.mem_append, List.mem_append] at ht
    rcases ht with (ht | ht) | ht
    · exact fileTerms_mem m1 t ht
    · exact fileTerms_mem m2 t ht
    · exact fileTerms_mem m3 t ht
  have hl1 : ∀ c ∈ cs', c.a.length + c.b.length + c.c.length ≤ 4 * n := fun c hc =>
    le_trans (List.single_le_sum (fun _ _ => Nat.zero_le _) _
      (List.mem_map_of_mem (f := fun c : Con => c.a.length + c.b.length + c.c.length) hc)) hsum
  have hholds : ∀ s root Tx Ty Ux Uy path sib y1 y2, y1.length = k → y2.length = k →
      (ConsHold (fun n => (n : ZMod secpP)) cs' (wireValues d s root Tx Ty Ux Uy path sib (y1 ++ y2)) ↔
        ∀ c ∈ cs, numVal c.1 (wireValues d s root Tx Ty Ux Uy path sib (List.zipWith (· + ·) y1 y2)) *
          numVal c.2.1 (wireValues d s root Tx Ty Ux Uy path sib (List.zipWith (· + ·) y1 y2)) =
          numVal c.2.2 (wireValues d s root Tx Ty Ux Uy path sib (List.zipWith (· + ·) y1 y2))) := by
    intro s root Tx Ty Ux Uy path sib y1 y2 e1 e2
    unfold ConsHold
    simp only [cs', List.mem_map, forall_exists_index, and_imp, forall_apply_eq_imp_iff₂]
    refine forall₂_congr fun c hc => ?_
    obtain ⟨m1, m2, m3⟩ := hmem c hc
    have hw : ([1, root, Tx, Ty, Ux, Uy, s] ++ (List.range d).map path ++ (List.range d).map sib).length = N := by
      simp [N]; omega
    simp only [ft, fileTerms, evalLC_coefTerms, wireValues]
    rw [numVal_wireTerms hw e1 e2 rfl _ m1, numVal_wireTerms hw e1 e2 rfl _ m2, numVal_wireTerms hw e1 e2 rfl _ m3]
  have hwl : ∀ s root Tx Ty Ux Uy path sib (y : List (ZMod secpP)),
      (wireValues d s root Tx Ty Ux Uy path sib y).length = N + y.length := by
    intro s root Tx Ty Ux Uy path sib y
    simp [wireValues, N]
    omega
  have hN : N ≤ 71 := by simp only [N]; omega
  have hnW : nW < 2 ^ 26 := by simp only [nW]; omega
  refine ⟨nW, cs', List.range nW, secs, ⟨⟨hp, by simp only; omega, by norm_num, by norm_num, by simp only; omega,
    by simp only; omega, by omega, ?_, List.length_range, ?_, ?_, ?_, by simp [secs, h], by simp [secs, h], ?_, by simp [secs, h],
    by simp [secs, h], by simp [secs, h]⟩, fun c hc t ht => ⟨(hterm c hc t ht).1, (hterm c hc t ht).2.1⟩, hnW, by omega, by omega,
    ?_⟩, ?_⟩
  · intro c hc
    have := hl1 c hc
    refine ⟨⟨by omega, fun t ht => ?_⟩, ⟨by omega, fun t ht => ?_⟩, ⟨by omega, fun t ht => ?_⟩⟩
    all_goals
      obtain ⟨e1, -, e3⟩ := hterm c hc t (by simp [ht])
      exact ⟨by omega, e3⟩
  · intro x hx
    rw [List.mem_range] at hx
    omega
  · rw [List.head?_range, if_neg (by simp only [nW, N]; omega)]
  · intro s hs
    simp only [secs, List.mem_cons, List.not_mem_nil, or_false] at hs
    rcases hs with rfl | rfl | rfl <;> norm_num
  · have e1 := encCons_length cs'
    have e2 := encMap_length (List.range nW)
    rw [List.length_range] at e2
    have e3 : (encHead h cs'.length).length = 64 := by
      simp only [encHead, List.length_append, leBytes_length, h, hp]
    simp only [encR1cs, encSections, secs, encSection, List.map_cons, List.map_nil, List.flatten_cons, List.flatten_nil,
      List.length_append, leBytes_length, e1, e2, e3, List.length_cons, List.length_nil]
    omega
  · intro s root Tx Ty Ux Uy path sib
    rw [h5]
    constructor
    · rintro ⟨y, hy, hc⟩
      refine ⟨y ++ List.replicate k 0, ?_, (hholds _ _ _ _ _ _ _ _ _ _ hy List.length_replicate).2 ?_⟩
      · rw [hwl, List.length_append, hy, List.length_replicate]
        simp only [nW]; omega
      · have : List.zipWith (· + ·) y (List.replicate k 0) = y := by
          refine List.ext_getElem (by simp [hy]) fun i hi hi' => ?_
          simp
        rw [this]
        exact hc
    · rintro ⟨y, hy, hc⟩
      rw [hwl] at hy
      have hyk : y.length = 2 * k := by simp only [nW] at hy; omega
      have l1 : (y.take k).length = k := by rw [List.length_take]; omega
      have l2 : (y.drop k).length = k := by rw [List.length_drop]; omega
      refine ⟨_, ?_, (hholds s root Tx Ty Ux Uy path sib (y.take k) (y.drop k) l1 l2).1 (by
        rw [List.take_append_drop]; exact hc)⟩
      rw [List.length_zipWith, l1, l2, Nat.min_self]
  · intro s root Tx Ty Ux Uy path sib hR
    obtain ⟨y, hy, hc⟩ := (h5 _ _ _ _ _ _ _ _).1 hR
    refine ⟨y.map (fun v => if Readable v.val then v else v - 1) ++ y.map (fun v => if Readable v.val then 0 else 1), ?_,
      (hholds _ _ _ _ _ _ _ _ _ _ (by rw [List.length_map, hy]) (by rw [List.length_map, hy])).2 ?_, ?_⟩
    · rw [hwl, List.length_append, List.length_map, List.length_map, hy]
      simp only [nW]; omega
    · have : List.zipWith (· + ·) (y.map (fun v => if Readable v.val then v else v - 1))
          (y.map (fun v => if Readable v.val then (0 : ZMod secpP) else 1)) = y := by
        refine List.ext_getElem (by simp) fun i hi hi' => ?_
        rw [List.getElem_zipWith, List.getElem_map, List.getElem_map]
        split_ifs <;> ring
      rw [this]
      exact hc
    · intro v hv
      rw [List.mem_append, List.mem_map, List.mem_map] at hv
      rcases hv with ⟨x, -, rfl⟩ | ⟨x, -, rfl⟩
      · split_ifs with hx
        · exact hx
        · obtain ⟨e1, e2⟩ := readable_pred (ZMod.val_lt x) hx
          have : x - 1 = ((x.val - 1 : ℕ) : ZMod secpP) := by
            rw [Nat.cast_sub e1, ZMod.natCast_zmod_val, Nat.cast_one]
          rw [this, ZMod.val_natCast, Nat.mod_eq_of_lt (lt_of_le_of_lt (Nat.sub_le _ _) (ZMod.val_lt x))]
          exact e2
      · split_ifs
        · rw [ZMod.val_zero]; decide +kernel
        · rw [ZMod.val_one]; decide +kernel

variable {files : String → Option (List UInt8)} {args : List String} {inPath outPath num : String}

/-- The tool writes the circuit file for such a system. -/
theorem machine_gen {secs : List (ℕ × List UInt8)}
    {digest : R1CS Sc → List UInt8} {rc : CircomR1CS} {wm : List ℕ} (hr : loadR1cs (encR1cs secs) = .ok (rc, wm))
    {I : Inst Sc} (hI : convertToSpartan (codec digest) rc 5 = .ok I)
    (h1 : args[1]? = some inPath) (h2 : args[2]? = some outPath)
    (h3 : args[3]? = some num) (hnum : parseUsize 64 num.toList = some 5) (hfile : files inPath = some (encR1cs secs)) :
    genSpartanInst (wire 64) (codec digest) files args = .ok (outPath, (wire 32).fInst.enc I) := by
  unfold genSpartanInst
  rw [h1, h2, h3]
  simp only
  rw [show (wire 64).bits = 64 from rfl, hnum, hfile]
  simp only [loadAsSpartanInst, hr, ok_bind, hI]
  rfl

/-- A witness generator for the inputs `H` and the constraints `cs` on `n` signals, as in `Generates`. -/
def GeneratesFile (d : ℕ) (H : WitnessInput → Prop) (n : ℕ) (cs : List Con)
    (values : WitnessInput → List ℕ) (witnessGen : WitnessInput → Option (List UInt8)) : Prop :=
  ∀ w, H w →
    (∃ version prime, version ≤ 2 ∧ prime.length = 32 ∧
      witnessGen w = some (encWtns version prime (32 * (values w).length) (values w))) ∧
    (∀ x ∈ values w, x < secpP) ∧ (values w).length = n ∧
    (∃ y, (values w).map (fun x : ℕ => (x : ZMod secpP)) = inputSignals d w y) ∧
    ConsHold (fun n => (n : ZMod secpP)) cs ((values w).map fun x : ℕ => (x : ZMod secpP))

/-- The values of the input signals can be read by the reader of the witness. -/
def InputsReadable (d : ℕ) (w : WitnessInput) : Prop :=
  ∀ v ∈ inputSignals d w [], Readable v.val

/-- An r1cs file for the circuit and a witness generator for its constraints, with values that the reader accepts if it
accepts those of the inputs. -/
theorem file_generator {d n : ℕ} {R : (s root Tx Ty Ux Uy : ZMod secpP) → (path sib : ℕ → ZMod secpP) → Prop}
    (hcongr : ∀ s root Tx Ty Ux Uy path sib path' sib', (∀ i < d, path i = path' i ∧ sib i = sib' i) →
      (R s root Tx Ty Ux Uy path sib ↔ R s root Tx Ty Ux Uy path' sib'))
    (hR1 : R1 n (fun x : Fin (6 + 2 * d) → ZMod secpP => R (sigAt x 5) (sigAt x 0) (sigAt x 1) (sigAt x 2) (sigAt x 3)
      (sigAt x 4) (fun i => sigAt x (6 + i)) (fun i => sigAt x (6 + d + i))))
    (hn : n < 2 ^ 24) (hd : d ≤ 32) :
    ∃ h cs m secs values witnessGen, FileFor d R h cs m secs ∧
      GeneratesFile d (fun w => R w.s w.root w.Tx w.Ty w.Ux w.Uy (fun k => (w.pathIndices.getD k 0 : ℕ))
        (fun k => ((w.siblings.getD k none).getD 0 : ℕ))) h.nWires cs values witnessGen ∧
      ∀ w, R w.s w.root w.Tx w.Ty w.Ux w.Uy (fun k => (w.pathIndices.getD k 0 : ℕ))
        (fun k => ((w.siblings.getD k none).getD 0 : ℕ)) → InputsReadable d w → ∀ x ∈ values w, Readable x := by
  classical
  obtain ⟨nW, cs, m, secs, hf, hex⟩ := fileFor_of hcongr hR1 hn hd (prime := leBytes 32 secpP) (leBytes_length _ _)
  let P : WitnessInput → List (ZMod secpP) → Prop := fun w y => (inputSignals d w y).length = nW ∧
    ConsHold (fun n => (n : ZMod secpP)) cs (inputSignals d w y) ∧ ∀ v ∈ y, Readable v.val
  let values : WitnessInput → List ℕ := fun w =>
    if hw : ∃ y, P w y then (inputSignals d w hw.choose).map ZMod.val else []
  refine ⟨_, cs, m, secs, values, fun w => some (encWtns 2 (leBytes 32 secpP) (32 * (values w).length) (values w)), hf,
    fun w hR => ?_, fun w hR hin => ?_⟩
  all_goals
    have hw : ∃ y, P w y := hex _ _ _ _ _ _ _ _ hR
    have hv : values w = (inputSignals d w hw.choose).map ZMod.val := dif_pos hw
    have hs := hw.choose_spec
  · have hm : (values w).map (fun x : ℕ => (x : ZMod secpP)) = inputSignals d w hw.choose := by
      rw [hv, List.map_map]
      conv_rhs => rw [← List.map_id (inputSignals d w hw.choose)]
      exact List.map_congr_left fun x _ => ZMod.natCast_zmod_val x
    refine ⟨⟨2, _, le_refl 2, leBytes_length _ _, rfl⟩, ?_, ?_, ⟨_, hm⟩, ?_⟩
    · rw [hv]
      intro x hx
      obtain ⟨z, -, rfl⟩ := List.mem_map.1 hx
      exact ZMod.val_lt z
    · rw [hv, List.length_map]
      exact hs.1
    · rw [hm]
      exact hs.2.1
  · rw [hv]
    intro x hx
    obtain ⟨z, hz, rfl⟩ := List.mem_map.1 hx
    unfold inputSignals wireValues at hz
    rcases List.mem_append.1 hz with hz | hz
    · refine hin z ?_
      unfold inputSignals wireValues
      rw [List.append_nil]
      exact hz
    · exact hs.2.2 z hz

/-- C131: the public key membership circuit has an r1cs file and a witness generator. -/
theorem membership_file {d : ℕ} (hd : d ≤ 32) : ∃ h cs m secs values witnessGen,
    FileFor d (Circuit.PubKeyMembership d) h cs m secs ∧
    GeneratesFile d (fun w => ∃ X Y, HonestInputs d w X Y) h.nWires cs values witnessGen ∧
    ∀ w, (∃ X Y, HonestInputs d w X Y) → InputsReadable d w → ∀ x ∈ values w, Readable x := by
  obtain ⟨h, cs, m, secs, values, witnessGen, h1, h2, h3⟩ := file_generator (d := d) (n := 32 * 26000 + 200000)
    (R := Circuit.PubKeyMembership d)
    (by
      intro s root Tx Ty Ux Uy path sib path' sib' h
      unfold Circuit.PubKeyMembership Circuit.PubKeyMembershipWith
      simp only [merkle_congr h])
    ((Circuit.r1_pubKeyMembership d (aff_sigAt _) (aff_sigAt _) (aff_sigAt _) (aff_sigAt _) (aff_sigAt _)
      (fun _ => aff_sigAt _) (fun _ => aff_sigAt _)).mono (by omega)) (by norm_num) hd
  exact ⟨h, cs, m, secs, values, witnessGen, h1, fun w ⟨X, Y, kBits, _, hw⟩ => h2 w ⟨kBits, X, Y, hw⟩,
    fun w ⟨X, Y, kBits, _, hw⟩ => h3 w ⟨kBits, X, Y, hw⟩⟩

/-- C131: the address membership circuit has an r1cs file and a witness generator. -/
theorem addr_membership_file {d : ℕ} (hd : d ≤ 32) : ∃ h cs m secs values witnessGen,
    FileFor d (Circuit.AddrMembership d) h cs m secs ∧
    GeneratesFile d (fun w => ∃ X Y, HonestAddrInputs d w X Y) h.nWires cs values witnessGen ∧
    ∀ w, (∃ X Y, HonestAddrInputs d w X Y) → InputsReadable d w → ∀ x ∈ values w, Readable x := by
  obtain ⟨h, cs, m, secs, values, witnessGen, h1, h2, h3⟩ := file_generator (d := d) (n := 32 * 26000 + 13000000)
    (R := Circuit.AddrMembership d)
    (by
      intro s root Tx Ty Ux Uy path sib path' sib' h
      unfold Circuit.AddrMembership Circuit.AddrMembershipWith
      simp only [merkle_congr h])
    ((Circuit.r1_addrMembership d (aff_sigAt _) (aff_sigAt _) (aff_sigAt _) (aff_sigAt _) (aff_sigAt _)
      (fun _ => aff_sigAt _) (fun _ => aff_sigAt _)).mono (by omega)) (by norm_num) hd
  exact ⟨h, cs, m, secs, values, witnessGen, h1, fun w ⟨X, Y, kBits, _, hw⟩ => h2 w ⟨kBits, X, Y, _, hw⟩,
    fun w ⟨X, Y, kBits, _, hw⟩ => h3 w ⟨kBits, X, Y, _, hw⟩⟩

/-- A generator for the constraints of the file is one for the system that was read from it. -/
theorem generates_of_file {d : ℕ} {H : WitnessInput → Prop} {n : ℕ} {cs : List Con} {values : WitnessInput → List ℕ}
    {witnessGen : WitnessInput → Option (List UInt8)} {rc : CircomR1CS} (hg : GeneratesFile d H n cs values witnessGen)
    (hn : rc.numVariables = n)
    (hc : ∀ w : List (ZMod secpP), ConsHold coefRes (rc.constraints.map toCon) w ↔
      ConsHold (fun n => (n : ZMod secpP)) cs w) : Generates d H rc values witnessGen := by
  intro w hw
  obtain ⟨h1, h2, h3, h4, h5⟩ := hg w hw
  exact ⟨h1, h2, by rw [hn]; exact h3, h4, (hc _).2 h5⟩

/-- C131: the tool, run on any r1cs file for the public key membership circuit, writes a circuit file with which a member of
a tree of keys gets a proof that the verifier accepts, as in `member_machine_partial`. The exceptional cases are those of
C85; what is missing is that they do not occur. -/
theorem member_file_partial (f : Pt.Formulas)
    {digest : R1CS Sc → List UInt8} (hdig : ∀ i, (digest i).length < 2 ^ 32)
    -- the r1cs file and the witness generator
    {d : ℕ} (hd1 : 1 ≤ d) (hd32 : d ≤ 32) {h : Head} {cs : List Con} {m : List ℕ} {secs : List (ℕ × List UInt8)}
    (hf : FileFor d (Circuit.PubKeyMembership d) h cs m secs)
    {values : WitnessInput → List ℕ} {witnessGen : WitnessInput → Option (List UInt8)}
    (hgen : GeneratesFile d (fun w => ∃ X Y, HonestInputs d w X Y) h.nWires cs values witnessGen)
    -- the run of the tool
    (h1 : args[1]? = some inPath) (h2 : args[2]? = some outPath)
    (h3 : args[3]? = some num) (hnum : parseUsize 64 num.toList = some 5) (hfile : files inPath = some (encR1cs secs))
    -- the tree and the proof
    {ops : List TreeOp} (hops : FieldLeaves ops) {t : MerkleTree} {b : List Bool} (ht : treeAfter d ops = some (t, b))
    {i : ℕ} {mp : MerkleProof} (hmp : t.createProof i = some mp)
    -- the key and the signature
    {Q R : Secp} {r s v : ℕ} {sig msgHash : List UInt8} (hr : r < secpN) (hs : s < secpN) (hv : v < 256)
    (hsig : fromSig sig = some (r, s, v)) (hm : msgNum msgHash ≠ 0)
    (hS : SignedWith Q R (msgNum msgHash) r s (decide (v % 2 = 0)))
    (hleaf : t.leaves[i]? = some (hashPubKey (beBytes 32 (xy Q).1.val ++ beBytes 32 (xy Q).2.val)))
    -- the exceptional cases
    (hlow : ¬ (2 ^ 128 ≤ s + Circuit.tQlo ∧ s < 2 ^ 128))
    (hz : ¬ FalseZero (s • effT r R) (effU r (msgNum msgHash))) (hd : s • effT r R ≠ effU r (msgNum msgHash))
    (hreg : Regular (effT r R) ((s + Circuit.tQ) % Circuit.q))
    (hswap : ∀ x ∈ [t.root, (xy (effT r R)).1.val, (xy (effT r R)).2.val, (xy (effU r (msgNum msgHash))).1.val,
      (xy (effU r (msgNum msgHash))).2.val], swapped x < secpP)
    (hread : ∀ w p, proverInputs sig msgHash mp = some (w, p) → (∃ X Y, HonestInputs d w X Y) →
      ∀ x ∈ values w, Readable x)
    (label : List UInt8) (tape : Tape Sc) :
    ∃ circuit w p ser wit pub pf T, genSpartanInst (wire 64) (codec digest) files args = .ok (outPath, circuit) ∧
      proverInputs sig msgHash mp = some (w, p) ∧ p.circuitPubInput.merkleRoot = t.root ∧ p.msgHash = msgHash ∧
      p.serialize = some ser ∧ witnessGen w = some wit ∧ p.circuitPubInput.serialize = some pub ∧
      wasmProveRun ((wire 32).wasmEnv ((env f "nizk_example").withHash (nonzeroFold (env f "nizk_example").hash))
        (src f) (codec digest)) label [] tape circuit wit pub = .ok (pf, T) ∧
      (NoZeroFold (env f "nizk_example").hash T → ∃ proof,
        Lib.prove witnessGen (wasmProve (wasm f 32 digest) label [] tape circuit) sig msgHash mp = some (proof, p) ∧
        Lib.verify (wasmVerify (wasm f 32 digest) label [] circuit proof) ser = some true) := by
  obtain ⟨rc, wm, hrc, hsys, hnv, hcons⟩ := file_system hf
  obtain ⟨I, w, p, ser, wit, pub, pf, T, e1, e2⟩ := member_machine_partial f (le_refl 32) (by norm_num) hdig hd1 hd32 hsys
    (generates_of_file hgen hnv hcons) hops ht hmp hr hs hv hsig hm hS hleaf hlow hz hd hreg hswap hread label tape
  exact ⟨_, w, p, ser, wit, pub, pf, T, machine_gen hrc e1 h1 h2 h3 hnum hfile, e2⟩

/-- C131: the same for a member of a tree of addresses. -/
theorem address_file_partial (f : Pt.Formulas)
    {digest : R1CS Sc → List UInt8} (hdig : ∀ i, (digest i).length < 2 ^ 32)
    -- the r1cs file and the witness generator
    {d : ℕ} (hd1 : 1 ≤ d) (hd32 : d ≤ 32) {h : Head} {cs : List Con} {m : List ℕ} {secs : List (ℕ × List UInt8)}
    (hf : FileFor d (Circuit.AddrMembership d) h cs m secs)
    {values : WitnessInput → List ℕ} {witnessGen : WitnessInput → Option (List UInt8)}
    (hgen : GeneratesFile d (fun w => ∃ X Y, HonestAddrInputs d w X Y) h.nWires cs values witnessGen)
    -- the run of the tool
    (h1 : args[1]? = some inPath) (h2 : args[2]? = some outPath)
    (h3 : args[3]? = some num) (hnum : parseUsize 64 num.toList = some 5) (hfile : files inPath = some (encR1cs secs))
    -- the tree and the proof
    {ops : List TreeOp} (hops : FieldLeaves ops) {t : MerkleTree} {b : List Bool} (ht : treeAfter d ops = some (t, b))
    {i : ℕ} {mp : MerkleProof} (hmp : t.createProof i = some mp)
    -- the key and the signature
    {Q R : Secp} {r s v : ℕ} {sig msgHash : List UInt8} (hr : r < secpN) (hs : s < secpN) (hv : v < 256)
    (hsig : fromSig sig = some (r, s, v)) (hm : msgNum msgHash ≠ 0)
    (hS : SignedWith Q R (msgNum msgHash) r s (decide (v % 2 = 0)))
    (hleaf : t.leaves[i]? = some (ethAddress (xy Q).1.val (xy Q).2.val))
    -- the exceptional cases
    (hlow : ¬ (2 ^ 128 ≤ s + Circuit.tQlo ∧ s < 2 ^ 128))
    (hz : ¬ FalseZero (s • effT r R) (effU r (msgNum msgHash))) (hd : s • effT r R ≠ effU r (msgNum msgHash))
    (hreg : Regular (effT r R) ((s + Circuit.tQ) % Circuit.q))
    (hswap : ∀ x ∈ [t.root, (xy (effT r R)).1.val, (xy (effT r R)).2.val, (xy (effU r (msgNum msgHash))).1.val,
      (xy (effU r (msgNum msgHash))).2.val], swapped x < secpP)
    (hread : ∀ w p, proverInputs sig msgHash mp = some (w, p) → (∃ X Y, HonestAddrInputs d w X Y) →
      ∀ x ∈ values w, Readable x)
    (label : List UInt8) (tape : Tape Sc) :
    ∃ circuit w p ser wit pub pf T, genSpartanInst (wire 64) (codec digest) files args = .ok (outPath, circuit) ∧
      proverInputs sig msgHash mp = some (w, p) ∧ p.circuitPubInput.merkleRoot = t.root ∧ p.msgHash = msgHash ∧
      p.serialize = some ser ∧ witnessGen w = some wit ∧ p.circuitPubInput.serialize = some pub ∧
      wasmProveRun ((wire 32).wasmEnv ((env f "nizk_example").withHash (nonzeroFold (env f "nizk_example").hash))
        (src f) (codec digest)) label [] tape circuit wit pub = .ok (pf, T) ∧
      (NoZeroFold (env f "nizk_example").hash T → ∃ proof,
        Lib.prove witnessGen (wasmProve (wasm f 32 digest) label [] tape circuit) sig msgHash mp = some (proof, p) ∧
        Lib.verify (wasmVerify (wasm f 32 digest) label [] circuit proof) ser = some true) := by
  obtain ⟨rc, wm, hrc, hsys, hnv, hcons⟩ := file_system hf
  obtain ⟨I, w, p, ser, wit, pub, pf, T, e1, e2⟩ := address_machine_partial f (le_refl 32) (by norm_num) hdig hd1 hd32 hsys
    (generates_of_file hgen hnv hcons) hops ht hmp hr hs hv hsig hm hS hleaf hlow hz hd hreg hswap hread label tape
  exact ⟨_, w, p, ser, wit, pub, pf, T, machine_gen hrc e1 h1 h2 h3 hnum hfile, e2⟩

end Spartan
