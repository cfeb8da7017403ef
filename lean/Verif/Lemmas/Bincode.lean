import Verif.Model.Bincode
import Verif.Lemmas.LimbsRep

/-!
The formats of `Model/Bincode.lean` are lawful: reading inverts writing, reading takes from the input
exactly as many bytes as writing the value makes, and does not look at the bytes behind.
-/

namespace Spartan

open MParams

/-- `ok` says which values the format can carry. -/
structure Fmt.Good {α : Type} (f : Fmt α) (ok : α → Prop) : Prop where
  fwd : ∀ x, ok x → ∀ rest, f.dec (f.enc x ++ rest) = .ok (x, rest)
  bwd : ∀ bs x rest, f.dec bs = .ok (x, rest) → ok x ∧ ∃ pre, bs = pre ++ rest ∧
    pre.length = (f.enc x).length ∧ ∀ rest', f.dec (pre ++ rest') = .ok (x, rest')

namespace Fmt
variable {α β : Type}

theorem Good.congr {f : Fmt α} {ok ok' : α → Prop} (h : f.Good ok) (e : ∀ x, ok' x ↔ ok x) : f.Good ok' :=
  ⟨fun x hx => h.fwd x ((e x).1 hx), fun bs x rest hd =>
    ⟨(e x).2 (h.bwd bs x rest hd).1, (h.bwd bs x rest hd).2⟩⟩

theorem Good.inj {f : Fmt α} {ok : α → Prop} (h : f.Good ok) {x y : α} (hx : ok x) (hy : ok y)
    {r s : List UInt8} (e : f.enc x ++ r = f.enc y ++ s) : x = y ∧ r = s := by
  have := h.fwd x hx r
  rw [e, h.fwd y hy s] at this
  simp only [Except.ok.injEq, Prod.mk.injEq] at this
  exact ⟨this.1.symm, this.2.symm⟩

theorem pow_256_8 : 256 ^ 8 = 2 ^ 64 := by norm_num

theorem good_u64 : u64.Good (fun n => n < 2 ^ 64) where
  fwd n hn rest := by
    have hl := leBytes_length 8 n
    simp only [u64]
    rw [if_pos (by rw [List.length_append]; omega), List.take_left' hl, List.drop_left' hl, leNat_leBytes,
      Nat.mod_eq_of_lt (by rw [pow_256_8]; exact hn)]
  bwd bs x rest h := by
    simp only [u64] at h
    split_ifs at h with hl
    simp only [Except.ok.injEq, Prod.mk.injEq] at h
    obtain ⟨rfl, rfl⟩ := h
    have hl8 : (bs.take 8).length = 8 := by rw [List.length_take]; omega
    refine ⟨?_, bs.take 8, (List.take_append_drop 8 bs).symm, ?_, fun rest' => ?_⟩
    · have := leNat_lt (bs.take 8)
      rwa [hl8, pow_256_8] at this
    · rw [hl8]; exact (leBytes_length 8 _).symm
    · simp only [u64]
      rw [if_pos (by rw [List.length_append]; omega), List.take_left' hl8, List.drop_left' hl8]

theorem good_usize {bits : Nat} (hb : bits ≤ 64) : (usize bits).Good (fun n => n < 2 ^ bits) where
  fwd n hn rest := by
    simp only [usize]
    rw [good_u64.fwd n (lt_of_lt_of_le hn (Nat.pow_le_pow_right (by norm_num) hb)) rest]
    simp only [if_pos hn]
  bwd bs x rest h := by
    simp only [usize] at h
    cases hd : u64.dec bs with
    | error e => rw [hd] at h; cases h
    | ok q =>
      obtain ⟨n, r⟩ := q
      rw [hd] at h
      simp only at h
      split_ifs at h with hn
      simp only [Except.ok.injEq, Prod.mk.injEq] at h
      obtain ⟨rfl, rfl⟩ := h
      obtain ⟨-, pre, e, hl, hp⟩ := good_u64.bwd _ _ _ hd
      refine ⟨hn, pre, e, hl, fun rest' => ?_⟩
      simp only [usize]
      rw [hp rest']
      simp only [if_pos hn]

theorem decMany_fwd {f : Fmt α} {ok : α → Prop} (h : f.Good ok) :
    ∀ (xs : List α), (∀ x ∈ xs, ok x) → ∀ rest,
      decMany f.dec xs.length (xs.flatMap f.enc ++ rest) = .ok (xs, rest)
  | [], _, rest => rfl
  | x :: xs, hx, rest => by
    rw [List.length_cons, decMany, List.flatMap_cons, List.append_assoc, h.fwd x (hx x (by simp))]
    simp only
    rw [decMany_fwd h xs (fun y hy => hx y (by simp [hy])) rest]

theorem decMany_bwd {f : Fmt α} {ok : α → Prop} (h : f.Good ok) :
    ∀ (n : Nat) (bs : List UInt8) (xs : List α) (rest : List UInt8), decMany f.dec n bs = .ok (xs, rest) →
      xs.length = n ∧ (∀ x ∈ xs, ok x) ∧ ∃ pre, bs = pre ++ rest ∧
        pre.length = (xs.flatMap f.enc).length ∧ ∀ rest', decMany f.dec n (pre ++ rest') = .ok (xs, rest')
  | 0, bs, xs, rest, hd => by
    simp only [decMany, Except.ok.injEq, Prod.mk.injEq] at hd
    obtain ⟨rfl, rfl⟩ := hd
    exact ⟨rfl, by simp, [], rfl, rfl, fun _ => rfl⟩
  | n + 1, bs, xs, rest, hd => by
    rw [decMany] at hd
    cases h1 : f.dec bs with
    | error e => rw [h1] at hd; cases hd
    | ok q =>
      obtain ⟨x, r1⟩ := q
      rw [h1] at hd
      simp only at hd
      cases h2 : decMany f.dec n r1 with
      | error e => rw [h2] at hd; cases hd
      | ok q =>
        obtain ⟨ys, r2⟩ := q
        rw [h2] at hd
        simp only [Except.ok.injEq, Prod.mk.injEq] at hd
        obtain ⟨rfl, rfl⟩ := hd
        obtain ⟨hok, p1, e1, l1, g1⟩ := h.bwd _ _ _ h1
        obtain ⟨hl, hoks, p2, e2, l2, g2⟩ := decMany_bwd h n r1 ys r2 h2
        refine ⟨by simp [hl], ?_, p1 ++ p2, by rw [e1, e2, List.append_assoc], ?_, fun rest' => ?_⟩
        · intro y hy
          rcases List.mem_cons.mp hy with rfl | hy
          · exact hok
          · exact hoks y hy
        · rw [List.flatMap_cons, List.length_append, List.length_append, l1, l2]
        · rw [decMany, List.append_assoc, g1]
          simp only
          rw [g2]

theorem good_vec {bits : Nat} (hb : bits ≤ 64) {f : Fmt α} {ok : α → Prop} (h : f.Good ok) :
    (vec bits f).Good (fun xs => xs.length < 2 ^ bits ∧ ∀ x ∈ xs, ok x) where
  fwd xs hx rest := by
    simp only [vec]
    rw [List.append_assoc, (good_usize hb).fwd _ hx.1]
    exact decMany_fwd h xs hx.2 rest
  bwd bs xs rest hd := by
    simp only [vec] at hd
    cases h1 : (usize bits).dec bs with
    | error e => rw [h1] at hd; cases hd
    | ok q =>
      obtain ⟨n, r1⟩ := q
      rw [h1] at hd
      simp only at hd
      obtain ⟨hn, p1, e1, l1, g1⟩ := (good_usize hb).bwd _ _ _ h1
      obtain ⟨hl, hoks, p2, e2, l2, g2⟩ := decMany_bwd h n r1 xs rest hd
      subst hl
      refine ⟨⟨hn, hoks⟩, p1 ++ p2, by rw [e1, e2, List.append_assoc], ?_, fun rest' => ?_⟩
      · simp only [vec]
        rw [List.length_append, List.length_append, l1, l2]
      · simp only [vec]
        rw [List.append_assoc, g1]
        exact g2 rest'

theorem good_pair {f : Fmt α} {g : Fmt β} {okf : α → Prop} {okg : β → Prop} (hf : f.Good okf)
    (hg : g.Good okg) : (pair f g).Good (fun x => okf x.1 ∧ okg x.2) where
  fwd x hx rest := by
    simp only [pair]
    rw [List.append_assoc, hf.fwd _ hx.1]
    simp only
    rw [hg.fwd _ hx.2]
  bwd bs x rest hd := by
    simp only [pair] at hd
    cases h1 : f.dec bs with
    | error e => rw [h1] at hd; cases hd
    | ok q =>
      obtain ⟨a, r1⟩ := q
      rw [h1] at hd
      simp only at hd
      cases h2 : g.dec r1 with
      | error e => rw [h2] at hd; cases hd
      | ok q =>
        obtain ⟨b, r2⟩ := q
        rw [h2] at hd
        simp only [Except.ok.injEq, Prod.mk.injEq] at hd
        obtain ⟨rfl, rfl⟩ := hd
        obtain ⟨ha, p1, e1, l1, g1⟩ := hf.bwd _ _ _ h1
        obtain ⟨hb, p2, e2, l2, g2⟩ := hg.bwd _ _ _ h2
        refine ⟨⟨ha, hb⟩, p1 ++ p2, by rw [e1, e2, List.append_assoc], ?_, fun rest' => ?_⟩
        · simp only [pair]
          rw [List.length_append, List.length_append, l1, l2]
        · simp only [pair]
          rw [List.append_assoc, g1]
          simp only
          rw [g2]

theorem good_struct {f : Fmt α} {ok : α → Prop} (hf : f.Good ok) {mk : α → β} {fields : β → α}
    (h1 : ∀ x, mk (fields x) = x) (h2 : ∀ y, fields (mk y) = y) :
    (struct f mk fields).Good (fun x => ok (fields x)) where
  fwd x hx rest := by
    simp only [struct]
    rw [hf.fwd _ hx]
    simp only [h1]
  bwd bs x rest hd := by
    simp only [struct] at hd
    cases h : f.dec bs with
    | error e => rw [h] at hd; cases hd
    | ok q =>
      obtain ⟨a, r1⟩ := q
      rw [h] at hd
      simp only [Except.ok.injEq, Prod.mk.injEq] at hd
      obtain ⟨rfl, rfl⟩ := hd
      obtain ⟨ha, p1, e1, l1, g1⟩ := hf.bwd _ _ _ h
      refine ⟨by rw [h2]; exact ha, p1, e1, by simp only [struct]; rw [h2, l1], fun rest' => ?_⟩
      simp only [struct]
      rw [g1]

theorem good_u8 : u8.Good (fun _ => True) where
  fwd x _ rest := rfl
  bwd bs x rest hd := by
    cases bs with
    | nil => simp [u8] at hd
    | cons b bs =>
      simp only [u8, Except.ok.injEq, Prod.mk.injEq] at hd
      obtain ⟨rfl, rfl⟩ := hd
      exact ⟨trivial, [b], rfl, rfl, fun _ => rfl⟩

end Fmt

/-- What is assumed of the leaves: a scalar is 32 bytes that read back as the scalar, an encoded point
is its bytes (`from_bytes` keeps them), lengths of encodings fit in a `usize`. -/
structure Wire.Lawful {F P : Type} (W : Wire F P) : Prop where
  bits_lo : 6 ≤ W.bits
  bits_hi : W.bits ≤ 64
  scalar_len : ∀ x, (W.scalar x).length = 32
  raw_scalar : ∀ x, W.raw (W.scalar x) = x
  parse_point : ∀ p, W.parse (W.point p) = some p
  point_parse : ∀ bs p, W.parse bs = some p → W.point p = bs
  point_len : ∀ p, (W.point p).length < 2 ^ W.bits

namespace Wire
variable {F P : Type} {W : Wire F P}

theorem good_scalar (hW : W.Lawful) : W.fScalar.Good (fun _ => True) where
  fwd x _ rest := by
    have hl := hW.scalar_len x
    have h32 : 32 < 2 ^ W.bits := lt_of_lt_of_le (by norm_num) (Nat.pow_le_pow_right (by norm_num) hW.bits_lo)
    simp only [fScalar]
    rw [List.append_assoc, (Fmt.good_usize hW.bits_hi).fwd _ (by rw [hl]; exact h32)]
    simp only [hl]
    rw [if_neg (by rw [List.length_append]; omega), List.take_left' hl, List.drop_left' hl, hW.raw_scalar]
  bwd bs x rest hd := by
    simp only [fScalar] at hd
    cases h1 : (Fmt.usize W.bits).dec bs with
    | error e => rw [h1] at hd; cases hd
    | ok q =>
      obtain ⟨n, r1⟩ := q
      rw [h1] at hd
      simp only at hd
      split_ifs at hd with hc
      push Not at hc
      simp only [Except.ok.injEq, Prod.mk.injEq] at hd
      obtain ⟨rfl, rfl⟩ := hd
      obtain ⟨hn, p1, e1, l1, g1⟩ := (Fmt.good_usize hW.bits_hi).bwd _ _ _ h1
      have hl : (r1.take 32).length = 32 := by rw [List.length_take]; omega
      refine ⟨trivial, p1 ++ r1.take 32, ?_, ?_, fun rest' => ?_⟩
      · rw [e1, List.append_assoc, List.take_append_drop]
      · simp only [fScalar]
        have e8 : ∀ m, ((Fmt.usize W.bits).enc m).length = 8 := fun m => leBytes_length 8 m
        rw [List.length_append, List.length_append, l1, hl, hW.scalar_len, e8, e8]
      · simp only [fScalar]
        rw [List.append_assoc, g1]
        simp only
        rw [if_neg (by rw [List.length_append]; omega), List.take_left' hl, List.drop_left' hl]

theorem good_point (hW : W.Lawful) : W.fPoint.Good (fun _ => True) where
  fwd x _ rest := by
    simp only [fPoint]
    rw [(Fmt.good_vec hW.bits_hi Fmt.good_u8).fwd _ ⟨hW.point_len x, fun _ _ => trivial⟩]
    simp only [hW.parse_point]
  bwd bs x rest hd := by
    simp only [fPoint] at hd
    cases h1 : (Fmt.vec W.bits Fmt.u8).dec bs with
    | error e => rw [h1] at hd; cases hd
    | ok q =>
      obtain ⟨b, r1⟩ := q
      rw [h1] at hd
      simp only at hd
      cases h2 : W.parse b with
      | none => rw [h2] at hd; cases hd
      | some p =>
        rw [h2] at hd
        simp only [Except.ok.injEq, Prod.mk.injEq] at hd
        obtain ⟨rfl, rfl⟩ := hd
        obtain ⟨-, p1, e1, l1, g1⟩ := (Fmt.good_vec hW.bits_hi Fmt.good_u8).bwd _ _ _ h1
        refine ⟨trivial, p1, e1, ?_, fun rest' => ?_⟩
        · simp only [fPoint]
          rw [hW.point_parse _ _ h2, l1]
        · simp only [fPoint]
          rw [g1]
          simp only [h2]

/-- `xs` is a vector whose length fits. -/
def fits {α : Type} (W : Wire F P) (xs : List α) : Prop := xs.length < 2 ^ W.bits

theorem good_scalars (hW : W.Lawful) : W.fScalars.Good W.fits :=
  (Fmt.good_vec hW.bits_hi (good_scalar hW)).congr fun xs => by simp [fits]

theorem good_points (hW : W.Lawful) : W.fPoints.Good W.fits :=
  (Fmt.good_vec hW.bits_hi (good_point hW)).congr fun xs => by simp [fits]

theorem good_knowledge (hW : W.Lawful) : W.fKnowledge.Good (fun _ => True) :=
  (Fmt.good_struct (Fmt.good_pair (good_point hW) (Fmt.good_pair (good_scalar hW) (good_scalar hW)))
    (fun _ => rfl) (fun _ => rfl)).congr fun x => by simp

theorem good_equality (hW : W.Lawful) : W.fEquality.Good (fun _ => True) :=
  (Fmt.good_struct (Fmt.good_pair (good_point hW) (good_scalar hW))
    (fun _ => rfl) (fun _ => rfl)).congr fun x => by simp

theorem good_product (hW : W.Lawful) : W.fProduct.Good (fun _ => True) :=
  (Fmt.good_struct (Fmt.good_pair (good_point hW) (Fmt.good_pair (good_point hW) (Fmt.good_pair (good_point hW)
    (Fmt.good_pair (good_scalar hW) (Fmt.good_pair (good_scalar hW) (Fmt.good_pair (good_scalar hW)
      (Fmt.good_pair (good_scalar hW) (good_scalar hW))))))))
    (fun _ => rfl) (fun _ => rfl)).congr fun x => by simp

theorem good_dot (hW : W.Lawful) : W.fDot.Good (fun x => W.fits x.z) :=
  (Fmt.good_struct (Fmt.good_pair (good_point hW) (Fmt.good_pair (good_point hW) (Fmt.good_pair (good_scalars hW)
    (Fmt.good_pair (good_scalar hW) (good_scalar hW)))))
    (fun _ => rfl) (fun _ => rfl)).congr fun x => by simp

theorem good_bullet (hW : W.Lawful) : W.fBullet.Good (fun x => W.fits x.L ∧ W.fits x.R) :=
  Fmt.good_struct (Fmt.good_pair (good_points hW) (good_points hW)) (fun _ => rfl) (fun _ => rfl)

theorem good_dotLog (hW : W.Lawful) :
    W.fDotLog.Good (fun x => W.fits x.bullet.L ∧ W.fits x.bullet.R) :=
  (Fmt.good_struct (Fmt.good_pair (good_bullet hW) (Fmt.good_pair (good_point hW) (Fmt.good_pair (good_point hW)
    (Fmt.good_pair (good_scalar hW) (good_scalar hW)))))
    (fun _ => rfl) (fun _ => rfl)).congr fun x => by simp

/-- The vectors of a zero-knowledge sum-check proof fit. -/
def okZK (W : Wire F P) (x : ZKSumcheck F P) : Prop :=
  W.fits x.commPolys ∧ W.fits x.commEvals ∧ W.fits x.proofs ∧ ∀ d ∈ x.proofs, W.fits d.z

theorem good_zk (hW : W.Lawful) : W.fZK.Good W.okZK :=
  (Fmt.good_struct (Fmt.good_pair (good_points hW) (Fmt.good_pair (good_points hW)
    (Fmt.good_vec hW.bits_hi (good_dot hW)))) (fun _ => rfl) (fun _ => rfl)).congr fun x => by
    simp [okZK, fits]

/-- The vectors of a satisfiability proof fit. -/
def okR1CSProof (W : Wire F P) (x : R1CSProof F P) : Prop :=
  W.fits x.commVars ∧ W.okZK x.sc1 ∧ W.okZK x.sc2 ∧ W.fits x.evalVars.bullet.L ∧ W.fits x.evalVars.bullet.R

theorem good_r1csProof (hW : W.Lawful) : W.fR1CSProof.Good W.okR1CSProof :=
  (Fmt.good_struct (Fmt.good_pair (good_points hW) (Fmt.good_pair (good_zk hW)
    (Fmt.good_pair (Fmt.good_pair (good_point hW) (Fmt.good_pair (good_point hW) (Fmt.good_pair (good_point hW)
      (good_point hW))))
    (Fmt.good_pair (Fmt.good_pair (good_knowledge hW) (good_product hW)) (Fmt.good_pair (good_equality hW)
      (Fmt.good_pair (good_zk hW) (Fmt.good_pair (good_point hW) (Fmt.good_pair (good_dotLog hW)
        (good_equality hW))))))))) (fun _ => rfl) (fun _ => rfl)).congr fun x => by
    simp [okR1CSProof]

/-- The vectors of a NIZK fit: every length is below `2^bits`. -/
def okNIZK (W : Wire F P) (x : NIZK F P) : Prop := W.okR1CSProof x.sat ∧ W.fits x.rx ∧ W.fits x.ry

theorem good_nizk (hW : W.Lawful) : W.fNIZK.Good W.okNIZK :=
  Fmt.good_struct (Fmt.good_pair (good_r1csProof hW) (Fmt.good_pair (good_scalars hW) (good_scalars hW)))
    (fun _ => rfl) (fun _ => rfl)

/-- Row and column fit in a `usize`. -/
def okEntry (W : Wire F P) (e : Entry F) : Prop := e.row < 2 ^ W.bits ∧ e.col < 2 ^ W.bits

theorem good_entry (hW : W.Lawful) : W.fEntry.Good W.okEntry :=
  (Fmt.good_struct (Fmt.good_pair (Fmt.good_usize hW.bits_hi) (Fmt.good_pair (Fmt.good_usize hW.bits_hi)
    (good_scalar hW))) (fun _ => rfl) (fun _ => rfl)).congr fun x => by simp [okEntry]

/-- The integers of a matrix fit in a `usize`. -/
def okMat (W : Wire F P) (m : SparseMat F) : Prop :=
  m.nx < 2 ^ W.bits ∧ m.ny < 2 ^ W.bits ∧ W.fits m.M ∧ ∀ e ∈ m.M, W.okEntry e

theorem good_mat (hW : W.Lawful) : W.fMat.Good W.okMat :=
  (Fmt.good_struct (Fmt.good_pair (Fmt.good_usize hW.bits_hi) (Fmt.good_pair (Fmt.good_usize hW.bits_hi)
    (Fmt.good_vec hW.bits_hi (good_entry hW)))) (fun _ => rfl) (fun _ => rfl)).congr fun x => by
    simp [okMat, fits]

/-- The integers of an instance fit in a `usize`. -/
def okR1CS (W : Wire F P) (r : R1CS F) : Prop :=
  r.numCons < 2 ^ W.bits ∧ r.numVars < 2 ^ W.bits ∧ r.numInputs < 2 ^ W.bits ∧
    W.okMat r.A ∧ W.okMat r.B ∧ W.okMat r.C

theorem good_r1cs (hW : W.Lawful) : W.fR1CS.Good W.okR1CS :=
  Fmt.good_struct (Fmt.good_pair (Fmt.good_usize hW.bits_hi) (Fmt.good_pair (Fmt.good_usize hW.bits_hi)
    (Fmt.good_pair (Fmt.good_usize hW.bits_hi) (Fmt.good_pair (good_mat hW) (Fmt.good_pair (good_mat hW)
      (good_mat hW)))))) (fun _ => rfl) (fun _ => rfl)

/-- As `okR1CS`, and the digest is not longer than a `usize` counts. -/
def okInst (W : Wire F P) (i : Inst F) : Prop := W.okR1CS i.inst ∧ W.fits i.digest

theorem good_inst (hW : W.Lawful) : W.fInst.Good W.okInst :=
  (Fmt.good_struct (Fmt.good_pair (good_r1cs hW) (Fmt.good_vec hW.bits_hi Fmt.good_u8))
    (fun _ => rfl) (fun _ => rfl)).congr fun x => by simp [okInst, fits]

/-! ### SNARK -/

theorem good_uni (hW : W.Lawful) : W.fUni.Good (fun x => W.fits x.coeffs) :=
  Fmt.good_struct (good_scalars hW) (fun _ => rfl) (fun _ => rfl)

/-- The vectors of a layer proof fit. -/
def okLayerB (W : Wire F P) (x : LayerProofBatched F) : Prop :=
  W.fits x.proof ∧ (∀ u ∈ x.proof, W.fits u.coeffs) ∧ W.fits x.left ∧ W.fits x.right

theorem good_layerB (hW : W.Lawful) : W.fLayerB.Good W.okLayerB :=
  (Fmt.good_struct (Fmt.good_pair (Fmt.good_vec hW.bits_hi (good_uni hW)) (Fmt.good_pair (good_scalars hW)
    (good_scalars hW))) (fun _ => rfl) (fun _ => rfl)).congr fun x => by simp [okLayerB, fits, and_assoc]

/-- The vectors of a batched product proof fit. -/
def okProdB (W : Wire F P) (x : ProdProofBatched F) : Prop :=
  W.fits x.proof ∧ (∀ l ∈ x.proof, W.okLayerB l) ∧ W.fits x.dotpL ∧ W.fits x.dotpR ∧ W.fits x.dotpW

theorem good_prodB (hW : W.Lawful) : W.fProdB.Good W.okProdB :=
  (Fmt.good_struct (Fmt.good_pair (Fmt.good_vec hW.bits_hi (good_layerB hW)) (Fmt.good_pair (good_scalars hW)
    (Fmt.good_pair (good_scalars hW) (good_scalars hW)))) (fun _ => rfl) (fun _ => rfl)).congr fun x => by
    simp [okProdB, fits, and_assoc]

theorem good_memEvals (hW : W.Lawful) : W.fMemEvals.Good (fun x => W.fits x.read ∧ W.fits x.write) :=
  (Fmt.good_struct (Fmt.good_pair (good_scalar hW) (Fmt.good_pair (good_scalars hW) (Fmt.good_pair
    (good_scalars hW) (good_scalar hW)))) (fun _ => rfl) (fun _ => rfl)).congr fun x => by simp

/-- The vectors of a product layer proof fit. -/
def okProdLayer (W : Wire F P) (x : ProdLayerProof F) : Prop :=
  (W.fits x.row.read ∧ W.fits x.row.write) ∧ (W.fits x.col.read ∧ W.fits x.col.write) ∧
    (W.fits x.dotpL ∧ W.fits x.dotpR) ∧ W.okProdB x.mem ∧ W.okProdB x.ops

theorem good_prodLayer (hW : W.Lawful) : W.fProdLayer.Good W.okProdLayer :=
  Fmt.good_struct (Fmt.good_pair (good_memEvals hW) (Fmt.good_pair (good_memEvals hW) (Fmt.good_pair
    (Fmt.good_pair (good_scalars hW) (good_scalars hW)) (Fmt.good_pair (good_prodB hW) (good_prodB hW)))))
    (fun _ => rfl) (fun _ => rfl)

theorem good_addrEvals (hW : W.Lawful) : W.fAddrEvals.Good (fun x => W.fits x.addr ∧ W.fits x.readTs) :=
  (Fmt.good_struct (Fmt.good_pair (good_scalars hW) (Fmt.good_pair (good_scalars hW) (good_scalar hW)))
    (fun _ => rfl) (fun _ => rfl)).congr fun x => by simp

/-- The vectors of a hash layer proof fit. -/
def okHashLayer (W : Wire F P) (x : HashLayerProof F P) : Prop :=
  (W.fits x.row.addr ∧ W.fits x.row.readTs) ∧ (W.fits x.col.addr ∧ W.fits x.col.readTs) ∧ W.fits x.val ∧
    (W.fits x.derefRow ∧ W.fits x.derefCol) ∧ (W.fits x.ops.bullet.L ∧ W.fits x.ops.bullet.R) ∧
    (W.fits x.mem.bullet.L ∧ W.fits x.mem.bullet.R) ∧ (W.fits x.derefs.bullet.L ∧ W.fits x.derefs.bullet.R)

theorem good_hashLayer (hW : W.Lawful) : W.fHashLayer.Good W.okHashLayer :=
  Fmt.good_struct (Fmt.good_pair (good_addrEvals hW) (Fmt.good_pair (good_addrEvals hW) (Fmt.good_pair
    (good_scalars hW) (Fmt.good_pair (Fmt.good_pair (good_scalars hW) (good_scalars hW)) (Fmt.good_pair
      (good_dotLog hW) (Fmt.good_pair (good_dotLog hW) (good_dotLog hW)))))))
    (fun _ => rfl) (fun _ => rfl)

/-- The vectors of a SNARK fit. -/
def okSNARK (W : Wire F P) (x : SNARK F P) : Prop :=
  W.okR1CSProof x.sat ∧ W.fits x.eval.derefs ∧ W.okProdLayer x.eval.net.prod ∧ W.okHashLayer x.eval.net.hash

theorem good_snark (hW : W.Lawful) : W.fSNARK.Good W.okSNARK :=
  (Fmt.good_struct (Fmt.good_pair (good_r1csProof hW) (Fmt.good_pair (Fmt.good_pair (good_scalar hW)
    (Fmt.good_pair (good_scalar hW) (good_scalar hW))) (Fmt.good_struct (Fmt.good_pair (good_points hW)
      (Fmt.good_struct (Fmt.good_pair (good_prodLayer hW) (good_hashLayer hW)) (fun _ => rfl) (fun _ => rfl)))
      (fun _ => rfl) (fun _ => rfl)))) (fun _ => rfl) (fun _ => rfl)).congr fun x => by simp [okSNARK]

end Wire
end Spartan
