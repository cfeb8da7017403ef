import Verif.Model.Bullet
import Verif.Lemmas.LC
import Mathlib.Tactic.FieldSimp

/-! Helper lemmas for the bullet reduction. -/

set_option linter.unusedSectionVars false

namespace Spartan
variable {F G P : Type} [Field F] [AddCommGroup G] [Module F G]
  [DecidableEq F] [DecidableEq P] [DecidableEq G]

/-- Closed form of the verification scalars `s`. -/
def sVec : List F → List F
  | [] => [1]
  | u :: us => (sVec us).map (u⁻¹ * ·) ++ (sVec us).map (u * ·)

@[simp] theorem sVec_length (us : List F) : (sVec us).length = 2 ^ us.length := by
  induction us with
  | nil => rfl
  | cons u us ih => simp [sVec, ih, pow_succ]; omega

/-- A transcript extending `tr` on which the folding challenge is zero. -/
def ZeroU (E : Env F G P) (tr : Tr F P) : Prop :=
  ∃ t, tr <+: t ∧ E.hash (t ++ [.chal "u"]) = 0

theorem ZeroU.mono {E : Env F G P} {tr tr' : Tr F P} (h : tr <+: tr') (hz : ZeroU E tr') :
    ZeroU E tr := by
  obtain ⟨t, ht, h0⟩ := hz; exact ⟨t, h.trans ht, h0⟩

theorem sLoop_half (usq : List F) (lg j : Nat) (w : F) (hj : j < lg)
    (hw : usq[lg - 1 - j]? = some w) (A : List F) (hA : A.length = 2 ^ j) (m : Nat) :
    ∀ b c, b + c = 2 ^ j →
      sLoop usq lg (c + m) (A ++ (A.take b).map (· * w)) = sLoop usq lg m (A ++ A.map (· * w)) := by
  intro b c
  induction c generalizing b with
  | zero =>
    intro h
    have : A.take b = A := List.take_of_length_le (by omega)
    simp [this]
  | succ c ih =>
    intro h
    have hlen : (A ++ (A.take b).map (· * w)).length = 2 ^ j + b := by
      simp only [List.length_append, List.length_map, List.length_take, hA]; omega
    have hlog : Nat.log 2 (2 ^ j + b) = j := by
      apply Nat.log_eq_of_pow_le_of_lt_pow
      · omega
      · rw [pow_succ]; omega
    rw [show c + 1 + m = (c + m) + 1 by omega, sLoop]
    simp only [hlen, hlog]
    rw [if_neg (by omega), hw]
    have hb : b < A.length := by omega
    have : (A ++ (A.take b).map (· * w))[2 ^ j + b - 2 ^ j]? = some A[b] := by
      rw [List.getElem?_append_left (by omega)]
      simp [show 2 ^ j + b - 2 ^ j = b by omega, hb]
    rw [this]
    simp only
    rw [← ih (b + 1) (by omega)]
    congr 1
    rw [List.take_succ_eq_append_getElem hb, List.map_append, List.map_singleton, List.append_assoc]

theorem sLoop_eq (us : List F) (h0 : (0 : F) ∉ us) (c : F) :
    ∀ (pre : List F), 
      sLoop ((pre ++ us).map (fun u => u * u)) (pre ++ us).length (2 ^ us.length - 1)
        [c * (us.prod)⁻¹] = .ok ((sVec us).map (c * ·)) ∧
      ∀ m, sLoop ((pre ++ us).map (fun u => u * u)) (pre ++ us).length (2 ^ us.length - 1 + m)
        [c * (us.prod)⁻¹] = sLoop ((pre ++ us).map (fun u => u * u)) (pre ++ us).length m
          ((sVec us).map (c * ·)) := by
  suffices H : ∀ (pre : List F) m,
      sLoop ((pre ++ us).map (fun u => u * u)) (pre ++ us).length (2 ^ us.length - 1 + m)
        [c * (us.prod)⁻¹] = sLoop ((pre ++ us).map (fun u => u * u)) (pre ++ us).length m
          ((sVec us).map (c * ·)) by
    intro pre
    refine ⟨?_, H pre⟩
    have := H pre 0
    simpa [sLoop] using this
  induction us generalizing c with
  | nil => intro pre m; simp [sVec]
  | cons u us ih =>
    intro pre m
    have hu : u ≠ 0 := fun h => h0 (by simp [h])
    have hus : (0 : F) ∉ us := fun h => h0 (by simp [h])
    have e1 : c * (u :: us).prod⁻¹ = (c * u⁻¹) * us.prod⁻¹ := by
      rw [List.prod_cons, mul_inv]; ring
    have e2 : pre ++ u :: us = (pre ++ [u]) ++ us := by simp
    have hpow : 2 ^ (u :: us).length - 1 + m = 2 ^ us.length - 1 + (2 ^ us.length + m) := by
      have : 1 ≤ 2 ^ us.length := Nat.one_le_two_pow
      simp only [List.length_cons, pow_succ]; omega
    rw [e1, e2, hpow, ih hus (c * u⁻¹) (pre ++ [u]) (2 ^ us.length + m)]
    have hh := sLoop_half (((pre ++ [u]) ++ us).map (fun u => u * u)) ((pre ++ [u]) ++ us).length
      us.length (u * u) (by simp; omega)
      (by
        rw [List.getElem?_map, List.append_assoc, List.getElem?_append_right (by simp)]
        simp) 
      ((sVec us).map (c * u⁻¹ * ·)) (by simp) m 0 (2 ^ us.length) (by omega)
    simp only [List.take_zero, List.map_nil, List.append_nil] at hh
    rw [hh]
    congr 1
    simp only [sVec, List.map_append, List.map_map]
    congr 1
    · apply List.map_congr_left; intro x _; simp; ring
    · apply List.map_congr_left; intro x _; simp; field_simp

theorem sLoop_start (us : List F) (h0 : (0 : F) ∉ us) :
    sLoop (us.map (fun u => u * u)) us.length (2 ^ us.length - 1) [(us.prod)⁻¹]
      = .ok (sVec us) := by
  have := (sLoop_eq us h0 1 []).1
  simpa using this

theorem lc_sVec_cons {M : Type} [AddCommGroup M] [Module F M] (u : F) (us : List F) {L R : List M}
    (hL : L.length = 2 ^ us.length) (hR : R.length = 2 ^ us.length) :
    lc (sVec (u :: us)) (L ++ R) = lc (sVec us) (List.zipWith (fun l r => u⁻¹ • l + u • r) L R) := by
  rw [sVec, lc_append (by simp [hL]), lc_map_smul_left, lc_map_smul_left,
    lc_zipWith_right (fun _ _ => rfl) _ (by omega)]

theorem bulletLoop_complete {E : Env F G P} (Q H : G) :
    ∀ (k : Nat) (Gv : List G) (a b : List F) (blind : F) (blinds : List (F × F)) (tr : Tr F P),
      Gv.length = 2 ^ k → a.length = 2 ^ k → b.length = 2 ^ k → k ≤ blinds.length →
      (∃ (LG RG : List G) (us : List F) (ah bh : F) (gh : G) (bf : F) (tr' : Tr F P),
        bulletLoop E Q H k Gv a b blind blinds tr =
          .ok (LG.map E.compress, RG.map E.compress, ah, bh, gh, bf, tr') ∧
        LG.length = k ∧ RG.length = k ∧ us.length = k ∧ (0 : F) ∉ us ∧
        bulletChallenges E (LG.map E.compress) (RG.map E.compress) tr = (us, tr') ∧
        tr <+: tr' ∧
        gh = lc (sVec us) Gv ∧ bh = dot (sVec us) b ∧
        ah • gh + (ah * bh) • Q + bf • H =
          lc (us.map (fun u => u * u)) LG + lc (us.map (fun u => u⁻¹ * u⁻¹)) RG +
            (lc a Gv + dot a b • Q + blind • H)) ∨
      (bulletLoop E Q H k Gv a b blind blinds tr = .error .panic ∧ ZeroU E tr) := by
  intro k
  induction k with
  | zero =>
    intro Gv a b blind blinds tr hG ha hb _
    obtain ⟨g0, rfl⟩ := List.length_eq_one_iff.mp (by simpa using hG)
    obtain ⟨a0, rfl⟩ := List.length_eq_one_iff.mp (by simpa using ha)
    obtain ⟨b0, rfl⟩ := List.length_eq_one_iff.mp (by simpa using hb)
    left
    refine ⟨[], [], [], a0, b0, g0, blind, tr, rfl, rfl, rfl, rfl, by simp, rfl,
      List.prefix_refl _, ?_, ?_, ?_⟩
    · simp [sVec]
    · simp [sVec, dot]
    · simp [dot]
  | succ k ih =>
    intro Gv a b blind blinds tr hG ha hb hbl
    have hp : 2 ^ (k + 1) = 2 ^ k + 2 ^ k := by rw [pow_succ]; omega
    have hGL : (Gv.take (2 ^ k)).length = 2 ^ k := by simp; omega
    have hGR : (Gv.drop (2 ^ k)).length = 2 ^ k := by simp; omega
    have haL : (a.take (2 ^ k)).length = 2 ^ k := by simp; omega
    have haR : (a.drop (2 ^ k)).length = 2 ^ k := by simp; omega
    have hbL : (b.take (2 ^ k)).length = 2 ^ k := by simp; omega
    have hbR : (b.drop (2 ^ k)).length = 2 ^ k := by simp; omega
    have eG : Gv = Gv.take (2 ^ k) ++ Gv.drop (2 ^ k) := (List.take_append_drop _ _).symm
    have ea : a = a.take (2 ^ k) ++ a.drop (2 ^ k) := (List.take_append_drop _ _).symm
    have eb : b = b.take (2 ^ k) ++ b.drop (2 ^ k) := (List.take_append_drop _ _).symm
    obtain ⟨⟨bL, bR⟩, blinds', rfl⟩ : ∃ x xs, blinds = x :: xs := by
      cases blinds with
      | nil => simp at hbl
      | cons x xs => exact ⟨x, xs, rfl⟩
    generalize hgl : Gv.take (2 ^ k) = GL at *
    generalize hgr : Gv.drop (2 ^ k) = GR at *
    generalize hal : a.take (2 ^ k) = aL at *
    generalize har : a.drop (2 ^ k) = aR at *
    generalize hbl' : b.take (2 ^ k) = bl at *
    generalize hbr : b.drop (2 ^ k) = br at *
    have m1 : msm (aL ++ [dot aL br] ++ [bL]) (GR ++ [Q] ++ [H])
        = .ok (lc aL GR + dot aL br • Q + bL • H) := by
      rw [msm_eq (by simp; omega), lc_append (by simp; omega), lc_append (by omega)]; simp
    have m2 : msm (aR ++ [dot aR bl] ++ [bR]) (GL ++ [Q] ++ [H])
        = .ok (lc aR GL + dot aR bl • Q + bR • H) := by
      rw [msm_eq (by simp; omega), lc_append (by simp; omega), lc_append (by omega)]; simp
    rw [bulletLoop]
    simp only [hgl, hgr, hal, har, hbl', hbr, innerProduct_eq (haL.trans hbR.symm),
      innerProduct_eq (haR.trans hbL.symm), ok_bind, m1, m2]
    set Lp := lc aL GR + dot aL br • Q + bL • H with hLp
    set Rp := lc aR GL + dot aR bl • Q + bR • H with hRp
    simp only [Env.challenge]
    set t0 := (tr.point "L" (E.compress Lp)).point "R" (E.compress Rp) with ht0
    set u := E.hash (t0 ++ [Msg.chal "u"]) with hu
    by_cases hu0 : u = 0
    · right
      simp only [invertU, hu0, if_true, error_bind, true_and]
      exact ⟨t0, by simp [ht0, Tr.point], by rw [← hu0]⟩
    · simp only [invertU, hu0, if_false, ok_bind]
      have hpre : tr <+: t0 ++ [Msg.chal "u"] := by simp [ht0, Tr.point, List.append_assoc]
      rcases ih (List.zipWith (fun l r => u⁻¹ • l + u • r) GL GR)
        (List.zipWith (fun l r => l * u + u⁻¹ * r) aL aR)
        (List.zipWith (fun l r => l * u⁻¹ + u * r) bl br)
        (blind + bL * u * u + bR * u⁻¹ * u⁻¹) blinds' (t0 ++ [Msg.chal "u"])
        (by simp [hGL, hGR]) (by simp [haL, haR]) (by simp [hbL, hbR]) (by simpa using hbl) with
        ⟨LG, RG, us, ah, bh, gh, bf, tr', hrun, hl1, hl2, hl3, hnz, hch, hpr, hgh, hbh, heq⟩ | ⟨hrun, hz⟩
      · left
        rw [hrun]
        refine ⟨Lp :: LG, Rp :: RG, u :: us, ah, bh, gh, bf, tr', rfl, by simp [hl1], by simp [hl2],
          by simp [hl3], by simp [hnz, Ne.symm hu0], ?_, hpre.trans hpr, ?_, ?_, ?_⟩
        · simp only [List.map_cons, bulletChallenges, Env.challenge]
          rw [← ht0, ← hu, hch]
        · rw [hgh, eG, lc_sVec_cons u us (by rw [hl3, hGL]) (by rw [hl3, hGR])]
        · rw [hbh, eb]
          unfold dot
          rw [lc_sVec_cons u us (by rw [hl3, hbL]) (by rw [hl3, hbR])]
          congr 2; funext l r; simp [mul_comm]
        · rw [heq]
          have d1 : lc (List.zipWith (fun l r => l * u + u⁻¹ * r) aL aR)
              (List.zipWith (fun l r => u⁻¹ • l + u • r) GL GR)
              = lc aL GL + (u * u) • lc aL GR + (u⁻¹ * u⁻¹) • lc aR GL + lc aR GR := by
            rw [lc_zipWith_left (c := u) (d := u⁻¹) (fun x y => by ring) _ (by omega),
              lc_zipWith_right (fun _ _ => rfl) _ (by omega),
              lc_zipWith_right (fun _ _ => rfl) _ (by omega)]
            simp only [smul_add, smul_smul, mul_inv_cancel₀ hu0, inv_mul_cancel₀ hu0, one_smul]
            abel
          have d2 : dot (List.zipWith (fun l r => l * u + u⁻¹ * r) aL aR)
              (List.zipWith (fun l r => l * u⁻¹ + u * r) bl br)
              = dot aL bl + (u * u) * dot aL br + (u⁻¹ * u⁻¹) * dot aR bl + dot aR br := by
            unfold dot
            rw [lc_zipWith_left (c := u) (d := u⁻¹) (fun x y => by ring) _ (by omega),
              lc_zipWith_right (c := u⁻¹) (d := u) (fun x y => by simp [mul_comm]) _ (by omega),
              lc_zipWith_right (c := u⁻¹) (d := u) (fun x y => by simp [mul_comm]) _ (by omega)]
            simp only [smul_eq_mul]
            field_simp
            ring
          have d3 : lc a Gv = lc aL GL + lc aR GR := by
            rw [ea, eG, lc_append (by omega)]
          have d4 : dot a b = dot aL bl + dot aR br := by
            unfold dot; rw [ea, eb, lc_append (by omega)]
          rw [d1, d2, d3, d4, hLp, hRp]
          simp only [List.map_cons, lc_cons]
          rw [show bR * u⁻¹ * u⁻¹ = (u⁻¹ * u⁻¹) * bR by ring, show bL * u * u = (u * u) * bL by ring]
          generalize u * u = w
          generalize u⁻¹ * u⁻¹ = w'
          module
      · right
        rw [hrun]
        exact ⟨rfl, hz.mono hpre⟩

theorem mapM_decompressU {E : Env F G P} (hE : E.Lawful) (Gs : List G) :
    (Gs.map E.compress).mapM E.decompressU = .ok Gs := by
  induction Gs with
  | nil => rfl
  | cons g Gs ih => simp [List.mapM_cons, decompressU_compress hE, ih, pure_ok]

theorem batchInvert_eq {xs : List F} (h : (0 : F) ∉ xs) :
    batchInvert xs = .ok (xs.map (·⁻¹), (xs.prod)⁻¹) := by simp [batchInvert, h]

theorem bulletChallenges_prefix (E : Env F G P) : ∀ (L R : List P) (tr : Tr F P),
    tr <+: (bulletChallenges E L R tr).2
  | [], _, tr => by simp [bulletChallenges]
  | _ :: _, [], tr => by simp [bulletChallenges]
  | l :: L, r :: R, tr => by
    simp only [bulletChallenges]
    refine List.IsPrefix.trans ?_ (bulletChallenges_prefix E L R _)
    simp [Env.challenge, Tr.point, List.append_assoc]

theorem bulletChallenges_length (E : Env F G P) : ∀ (L R : List P) (tr : Tr F P),
    (bulletChallenges E L R tr).1.length = min L.length R.length
  | [], _, tr => by simp [bulletChallenges]
  | _ :: _, [], tr => by simp [bulletChallenges]
  | l :: L, r :: R, tr => by
    simp [bulletChallenges, bulletChallenges_length E L R]

/-- `verification_scalars` when nothing goes wrong. -/
theorem scalars_eq {E : Env F G P} {pf : BulletProof P} {k : Nat} {tr tr' : Tr F P} {us : List F}
    (hL : pf.L.length = k) (hk : k < 32) (hR : k ≤ pf.R.length)
    (hch : bulletChallenges E pf.L pf.R tr = (us, tr')) (h0 : (0 : F) ∉ us) :
    pf.scalars E (2 ^ k) tr = .ok (us.map (fun u => u * u), us.map (fun u => u⁻¹ * u⁻¹),
      sVec us, tr') := by
  have hlen : us.length = k := by
    have := bulletChallenges_length E pf.L pf.R tr
    rw [hch] at this; simp at this; omega
  have hs : sLoop (us.map (fun u => u * u)) k (2 ^ k - 1) [(us.prod)⁻¹] = .ok (sVec us) := by
    rw [← hlen]; exact sLoop_start us h0
  unfold BulletProof.scalars
  simp only [hL, hch]
  rw [if_neg (by omega), if_neg (by simp)]
  simp only [batchInvert_eq h0, ok_bind, check_true (show k ≤ us.length by omega), List.map_map,
    Function.comp_def, hs, pure_ok]

/-- `BulletReductionProof::verify` on lists whose lengths match. -/
theorem bulletVerify_eq {E : Env F G P} (hE : E.Lawful) {LG RG : List G} {k : Nat}
    {tr tr' : Tr F P} {us a : List F} {Gv : List G} {Gamma : G}
    (hL : LG.length = k) (hk : k < 32) (hR : RG.length = k)
    (hch : bulletChallenges E (LG.map E.compress) (RG.map E.compress) tr = (us, tr'))
    (h0 : (0 : F) ∉ us) (ha : a.length = 2 ^ k) (hG : Gv.length = 2 ^ k) :
    (BulletProof.mk (LG.map E.compress) (RG.map E.compress)).verify E (2 ^ k) a tr Gamma Gv =
      .ok (lc (sVec us) Gv, lc (us.map (fun u => u * u)) LG + lc (us.map (fun u => u⁻¹ * u⁻¹)) RG
        + Gamma, dot a (sVec us), tr') := by
  have hlen : us.length = k := by
    have := bulletChallenges_length E (LG.map E.compress) (RG.map E.compress) tr
    rw [hch] at this; simp at this; omega
  unfold BulletProof.verify
  rw [scalars_eq (k := k) (by simp [hL]) hk (by simp [hR]) hch h0]
  simp only [ok_bind, mapM_decompressU hE]
  rw [msm_eq (by simp [hlen, hG]), innerProduct_eq (by simp [ha, hlen]), msm_eq (by simp [hlen, hL, hR])]
  simp only [ok_bind, pure_ok]
  rw [lc_append (by simp [hlen, hL, hR]), lc_append (by simp [hlen, hL])]
  simp

end Spartan
