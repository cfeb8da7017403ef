import Verif.Lemmas.Bullet

/-! Helper lemmas for the logarithmic dot-product proof. -/

set_option linter.unusedSectionVars false

namespace Spartan
variable {F G P : Type} [Field F] [AddCommGroup G] [Module F G]
  [DecidableEq F] [DecidableEq P] [DecidableEq G]

/-- Shape of the generators produced by `DotProductProofGens::new(2^k, label)`:
`2^k` vector generators, one value generator `g0`, a common blinding generator `h`. -/
structure DotGens.WF (gens : DotGens G) (k : Nat) (g0 h : G) : Prop where
  n : gens.n = 2 ^ k
  gn : gens.gensn.n = 2 ^ k
  glen : gens.gensn.G.length = 2 ^ k
  gh : gens.gensn.h = h
  g1 : gens.gens1 = Gens.single g0 h

theorem scale_single (r : F) (g0 h : G) :
    (Gens.single g0 h).scale r = .ok (Gens.single (r • g0) h) := by
  simp [Gens.scale, Gens.single, check, pure_ok]

theorem log2_pow (k : Nat) : log2 (2 ^ k) = .ok k := by
  simp [log2, log2ceil, check, pure_ok, Nat.clog_pow]

theorem bulletProve_complete {E : Env F G P} (Q H : G) {k : Nat} {Gv : List G} {a b : List F}
    (blind : F) {blinds : List (F × F)} (tr : Tr F P)
    (hG : Gv.length = 2 ^ k) (ha : a.length = 2 ^ k) (hb : b.length = 2 ^ k)
    (hbl : blinds.length = 2 * k) :
    (∃ (LG RG : List G) (us : List F) (ah bh : F) (gh : G) (bf : F) (tr' : Tr F P),
        BulletProof.prove E tr Q Gv H a b blind blinds =
          .ok (⟨LG.map E.compress, RG.map E.compress⟩, ah, bh, gh, bf, tr') ∧
        LG.length = k ∧ RG.length = k ∧ us.length = k ∧ (0 : F) ∉ us ∧
        bulletChallenges E (LG.map E.compress) (RG.map E.compress) tr = (us, tr') ∧
        tr <+: tr' ∧
        gh = lc (sVec us) Gv ∧ bh = dot (sVec us) b ∧
        ah • gh + (ah * bh) • Q + bf • H =
          lc (us.map (fun u => u * u)) LG + lc (us.map (fun u => u⁻¹ * u⁻¹)) RG +
            (lc a Gv + dot a b • Q + blind • H)) ∨
      (BulletProof.prove E tr Q Gv H a b blind blinds = .error .panic ∧ ZeroU E tr) := by
  have hl : log2ceil Gv.length = k := by rw [hG, log2ceil, Nat.clog_pow _ _ (by omega)]
  have c0 : check (∃ j ≤ Gv.length, Gv.length = 2 ^ j) = .ok () :=
    check_true ⟨k, by rw [hG]; exact Nat.lt_two_pow_self.le, hG⟩
  unfold BulletProof.prove
  simp only [c0, hl, ok_bind, check_true (ha.trans hG.symm), check_true (hb.trans hG.symm),
    check_true hbl]
  rcases bulletLoop_complete (E := E) Q H k Gv a b blind blinds tr hG ha hb (by omega) with
    ⟨LG, RG, us, ah, bh, gh, bf, tr', hrun, h⟩ | ⟨hrun, hz⟩
  · left
    rw [hrun]
    exact ⟨LG, RG, us, ah, bh, gh, bf, tr', rfl, h⟩
  · right; rw [hrun]; exact ⟨rfl, hz⟩

theorem check_ite_ok {α : Type} {b : Prop} {inst : Decidable b} (h : b) (x : α) (e : Fail) :
    (do check b; if b then pure x else .error e : Out α) = .ok x := by
  rw [check_true h, ok_bind, if_pos h]; rfl

theorem check_ite_err {α : Type} {b : Prop} {inst : Decidable b} (h : ¬ b) (x : α) (e : Fail) :
    (do check b; if b then pure x else .error e : Out α) = .error .panic := by
  rw [check_false h]; rfl

theorem check_pure_ok {α : Type} {b : Prop} {inst : Decidable b} (h : b) (x : α) :
    (do check b; pure x : Out α) = .ok x := by rw [check_true h]; rfl

theorem bind_check_false {α : Type} {b : Prop} {inst : Decidable b} (h : ¬ b) (f : Unit → Out α) :
    (check b >>= f) = .error .panic := by rw [check_false h]; rfl

theorem dotlog_prove_complete {E : Env F G P} (hE : E.Lawful) {gens : DotGens G} {k : Nat}
    {g0 h : G} (hg : gens.WF k g0 h) (hk : k < 32) (tr : Tr F P) (tape : Tape F)
    {x a : List F} (bx bY : F) (hx : x.length = 2 ^ k) (ha : a.length = 2 ^ k) :
    (∃ pf Cx Cy tr' tape',
      DotProductProofLog.prove E gens tr tape x bx a (dot x a) bY = .ok (pf, Cx, Cy, tr', tape') ∧
      Cx = E.compress (lc x gens.gensn.G + bx • h) ∧
      Cy = E.compress (dot x a • g0 + bY • h) ∧
      pf.verify E (2 ^ k) gens tr a Cx Cy = .ok tr' ∧ tr <+: tr') ∨
    (DotProductProofLog.prove E gens tr tape x bx a (dot x a) bY = .error .panic ∧ ZeroU E tr) := by
  have hwf : gens.gensn.WF := by unfold Gens.WF; rw [hg.gn, hg.glen]
  unfold DotProductProofLog.prove
  simp only [check_true ha.symm, check_true hg.n, ok_bind, hx, log2_pow,
    commitV_eq hwf (hg.gn.trans hx.symm), hg.g1, commit1_single, scale_single, hg.gh]
  simp only [Env.challenge]
  set t0 := (((tr.protocol "dot product proof (log)").point "Cx"
    (E.compress (lc x gens.gensn.G + bx • h))).point "Cy"
    (E.compress (dot x a • g0 + bY • h))).scalars "a" a ++ [Msg.chal "r"] with ht0
  have hpre : tr <+: t0 := by
    simp [ht0, Tr.scalars, Tr.point, Tr.protocol, List.append_assoc]
  set r := E.hash t0 with hr
  have hG1 : (Gens.single (r • g0) h).G = [r • g0] := rfl
  simp only [hG1]
  set d := tape.next.1
  set rD := tape.next.2.next.1
  set rB := tape.next.2.next.2.next.1
  set blinds := ((tape.next.2.next.2.next.2.nextVec (2 * k)).1.zip
    ((tape.next.2.next.2.next.2.nextVec (2 * k)).2.nextVec (2 * k)).1) with hbl
  have hbll : blinds.length = 2 * k := by simp [hbl]
  rcases bulletProve_complete (E := E) (r • g0) h (bx + r * bY) t0 hg.glen hx ha hbll with
    ⟨LG, RG, us, ah, bh, gh, bf, t1, hrun, hL, hR, hus, h0, hch, hpr, hgh, hbh, heq⟩ | ⟨hrun, hz⟩
  · left
    rw [hrun]
    have hs : ({ n := 1, G := [gh], h := (Gens.single g0 h).h } : Gens G) = Gens.single gh h := rfl
    simp only [ok_bind, hs, commit1_single, pure_ok]
    refine ⟨_, _, _, _, _, rfl, rfl, rfl, ?_, ?_⟩
    · unfold DotProductProofLog.verify
      simp only [check_true hg.n, check_true ha, ok_bind, hg.g1, scale_single, unpack_compress hE,
        Env.challenge]
      rw [← ht0, ← hr]
      rw [bulletVerify_eq hE hL hk hR hch h0 ha hg.glen]
      simp only [ok_bind, hG1]
      have key : ∀ c : F, dot a (sVec us) • (c • (lc (us.map (fun u => u * u)) LG +
            lc (us.map (fun u => u⁻¹ * u⁻¹)) RG +
            (lc x gens.gensn.G + bx • h + r • (dot x a • g0 + bY • h))) +
            (d • r • g0 + rB • h)) + (d • gh + rD • h) =
          (d + c * (ah * bh)) • (lc (sVec us) gens.gensn.G + dot a (sVec us) • r • g0) +
          (bh * (c * bf + rB) + rD) • (Gens.single (r • g0) h).h := by
        intro c
        have e : lc (us.map (fun u => u * u)) LG + lc (us.map (fun u => u⁻¹ * u⁻¹)) RG +
            (lc x gens.gensn.G + bx • h + r • (dot x a • g0 + bY • h)) =
            ah • gh + (ah * bh) • r • g0 + bf • h := by
          rw [heq]; module
        rw [e, ← hgh, dot_comm a, ← hbh]
        simp only [Gens.single]
        module
      exact check_ite_ok (congrArg E.compress (key _)) _ _
    · refine hpre.trans (hpr.trans ?_)
      simp [Tr.point, List.append_assoc]
  · right
    rw [hrun]
    exact ⟨rfl, hz.mono hpre⟩

theorem batchInvert_panic {xs : List F} (h : (0 : F) ∈ xs) :
    batchInvert xs = .error .panic := by simp [batchInvert, h]

theorem bulletChallenges_zero (E : Env F G P) : ∀ (L R : List P) (tr : Tr F P),
    (0 : F) ∈ (bulletChallenges E L R tr).1 → ZeroU E tr
  | [], _, tr => by simp [bulletChallenges]
  | _ :: _, [], tr => by simp [bulletChallenges]
  | l :: L, r :: R, tr => by
    simp only [bulletChallenges, List.mem_cons]
    rintro (h | h)
    · exact ⟨(tr.point "L" l).point "R" r, by simp [Tr.point, List.append_assoc], h.symm⟩
    · refine (bulletChallenges_zero E L R _ h).mono ?_
      simp [Env.challenge, Tr.point, List.append_assoc]

theorem bulletChallenges_extra (E : Env F G P) : ∀ (L R : List P) (X : P) (tr : Tr F P),
    L.length = R.length → bulletChallenges E L (R ++ [X]) tr = bulletChallenges E L R tr
  | [], [], X, tr, _ => by simp [bulletChallenges]
  | _ :: _, [], X, tr, h => by simp at h
  | [], _ :: _, X, tr, h => by simp at h
  | l :: L, r :: R, X, tr, h => by
    simp only [List.cons_append, bulletChallenges]
    rw [bulletChallenges_extra E L R X _ (by simpa using h)]

/-- What the verifier computes when `R_vec` carries one surplus point `X`: the
surplus point takes the place of `Gamma`. -/
theorem bulletVerify_extra {E : Env F G P} (hE : E.Lawful) {LG RG : List G} {X : G} {k : Nat}
    {tr tr' : Tr F P} {us a : List F} {Gv : List G} {Gamma : G}
    (hL : LG.length = k) (hk : k < 32) (hR : RG.length = k)
    (hch : bulletChallenges E (LG.map E.compress) (RG.map E.compress) tr = (us, tr'))
    (h0 : (0 : F) ∉ us) (ha : a.length = 2 ^ k) (hG : Gv.length = 2 ^ k) :
    (BulletProof.mk (LG.map E.compress) ((RG ++ [X]).map E.compress)).verify E (2 ^ k) a tr Gamma Gv
      = .ok (lc (sVec us) Gv, lc (us.map (fun u => u * u)) LG + lc (us.map (fun u => u⁻¹ * u⁻¹)) RG
        + X, dot a (sVec us), tr') := by
  have hlen : us.length = k := by
    have := bulletChallenges_length E (LG.map E.compress) (RG.map E.compress) tr
    rw [hch] at this; simp at this; omega
  have hch' : bulletChallenges E (LG.map E.compress) ((RG ++ [X]).map E.compress) tr = (us, tr') := by
    rw [List.map_append, List.map_singleton, bulletChallenges_extra _ _ _ _ _ (by simp [hL, hR]), hch]
  unfold BulletProof.verify
  rw [scalars_eq (k := k) (by simp [hL]) hk (by simp [hR]) hch' h0]
  simp only [ok_bind, mapM_decompressU hE]
  rw [msm_eq (by simp [hlen, hG]), innerProduct_eq (by simp [ha, hlen]),
    msm_eq (by simp [hlen, hL, hR])]
  simp only [ok_bind, pure_ok]
  rw [show LG ++ (RG ++ [X]) ++ [Gamma] = (LG ++ RG) ++ [X, Gamma] by simp,
    lc_append (by simp [hlen, hL, hR]), lc_append (by simp [hlen, hL])]
  simp

/-- Transcript of the log proof up to the challenge `r`. -/
def dotLogTr0 (tr : Tr F P) (Cx Cy : P) (a : List F) : Tr F P :=
  ((((tr.protocol "dot product proof (log)").point "Cx" Cx).point "Cy" Cy).scalars "a" a)
    ++ [.chal "r"]

/-- Closed form of `DotProductProofLog::verify`. -/
theorem dotlog_verify_eq {E : Env F G P} {gens : DotGens G} {k : Nat} {g0 h : G}
    (hg : gens.WF k g0 h) (tr : Tr F P) {a : List F} (ha : a.length = 2 ^ k) {Cx Cy : P}
    {Cx' Cy' : G} (hCx : E.decompress Cx = some Cx') (hCy : E.decompress Cy = some Cy')
    (pf : DotProductProofLog F P) :
    pf.verify E (2 ^ k) gens tr a Cx Cy =
      (do
        let r := E.hash (dotLogTr0 tr Cx Cy a)
        let (ghat, Gammahat, ahat, t1) ← pf.bullet.verify E (2 ^ k) a (dotLogTr0 tr Cx Cy a)
          (Cx' + r • Cy') gens.gensn.G
        let t2 := ((t1.point "delta" pf.delta).point "beta" pf.beta) ++ [.chal "c"]
        let beta' ← E.unpack pf.beta
        let delta' ← E.unpack pf.delta
        check (E.compress (ahat • (E.hash t2 • Gammahat + beta') + delta') =
          E.compress (pf.z1 • (ghat + ahat • r • g0) + pf.z2 • h))
        pure t2) := by
  unfold DotProductProofLog.verify
  simp only [check_true hg.n, check_true ha, ok_bind, hg.g1, scale_single, Env.challenge,
    unpack_ok_iff.2 hCx, unpack_ok_iff.2 hCy]
  have hs : ∀ r : F, (Gens.single (r • g0) h).h = h := fun _ => rfl
  have hG : ∀ r : F, (Gens.single (r • g0) h).G = [r • g0] := fun _ => rfl
  simp only [hs, hG, dotLogTr0]
  cases pf.bullet.verify E (2 ^ k) a _ _ gens.gensn.G with
  | error e => rfl
  | ok v =>
    obtain ⟨ghat, Gammahat, ahat, t1⟩ := v
    simp only [ok_bind]
    cases E.unpack pf.beta with
    | error e => rfl
    | ok b =>
      cases E.unpack pf.delta with
      | error e => rfl
      | ok d =>
        simp only [ok_bind]
        by_cases hc : E.compress (ahat • (E.hash (((t1.point "delta" pf.delta).point "beta" pf.beta) ++
          [.chal "c"]) • Gammahat + b) + d) = E.compress (pf.z1 • (ghat + ahat •
            E.hash ((((tr.protocol "dot product proof (log)").point "Cx" Cx).point "Cy" Cy).scalars
              "a" a ++ [.chal "r"]) • g0) + pf.z2 • h)
        · exact (check_ite_ok hc _ _).trans (check_pure_ok hc _).symm
        · exact (check_ite_err hc _ _).trans (bind_check_false hc _).symm

/-- Any choice of points and responses can be completed to an accepted proof of
any statement by appending one point to `R_vec`. -/
theorem dotlog_forge {E : Env F G P} (hE : E.Lawful) {gens : DotGens G} {k : Nat} {g0 h : G}
    (hg : gens.WF k g0 h) (hk : k < 32) (tr : Tr F P) {a : List F} (ha : a.length = 2 ^ k)
    {Cx Cy : P} {Cx' Cy' : G} (hCx : E.decompress Cx = some Cx') (hCy : E.decompress Cy = some Cy')
    (LG RG : List G) (hL : LG.length = k) (hR : RG.length = k) (beta' : G) (z1 z2 : F) :
    (∃ X delta' : G, ∃ tr', (DotProductProofLog.mk ⟨LG.map E.compress, (RG ++ [X]).map E.compress⟩
      (E.compress delta') (E.compress beta') z1 z2).verify E (2 ^ k) gens tr a Cx Cy = .ok tr' ∧
      tr <+: tr') ∨
    ((∀ X delta' : G, (DotProductProofLog.mk ⟨LG.map E.compress, (RG ++ [X]).map E.compress⟩
      (E.compress delta') (E.compress beta') z1 z2).verify E (2 ^ k) gens tr a Cx Cy
        = .error .panic) ∧ ZeroU E tr) := by
  have hpre : tr <+: dotLogTr0 tr Cx Cy a := by
    simp [dotLogTr0, Tr.scalars, Tr.point, Tr.protocol, List.append_assoc]
  obtain ⟨us, t1, hch⟩ : ∃ us t1, bulletChallenges E (LG.map E.compress) (RG.map E.compress)
    (dotLogTr0 tr Cx Cy a) = (us, t1) := ⟨_, _, rfl⟩
  by_cases h0 : (0 : F) ∈ us
  · right
    constructor
    · intro X delta'
      rw [dotlog_verify_eq hg tr ha hCx hCy]
      have hch' : bulletChallenges E (LG.map E.compress) ((RG ++ [X]).map E.compress)
          (dotLogTr0 tr Cx Cy a) = (us, t1) := by
        rw [List.map_append, List.map_singleton,
          bulletChallenges_extra _ _ _ _ _ (by simp [hL, hR]), hch]
      have : BulletProof.verify E ⟨LG.map E.compress, (RG ++ [X]).map E.compress⟩ (2 ^ k) a
          (dotLogTr0 tr Cx Cy a) (Cx' + E.hash (dotLogTr0 tr Cx Cy a) • Cy') gens.gensn.G
          = .error .panic := by
        unfold BulletProof.verify BulletProof.scalars
        simp only [hch', List.length_map, hL]
        rw [if_neg (by omega), if_neg (by simp)]
        rw [batchInvert_panic h0]; rfl
      simp only [this]; rfl
    · have : (0 : F) ∈ (bulletChallenges E (LG.map E.compress) (RG.map E.compress)
        (dotLogTr0 tr Cx Cy a)).1 := by rw [hch]; exact h0
      exact (bulletChallenges_zero E _ _ _ this).mono hpre
  · left
    set r := E.hash (dotLogTr0 tr Cx Cy a) with hr
    refine ⟨-(lc (us.map (fun u => u * u)) LG + lc (us.map (fun u => u⁻¹ * u⁻¹)) RG),
      z1 • (lc (sVec us) gens.gensn.G + dot a (sVec us) • r • g0) + z2 • h
        - dot a (sVec us) • beta', ?_⟩
    rw [dotlog_verify_eq hg tr ha hCx hCy]
    simp only [← hr]
    rw [bulletVerify_extra hE hL hk hR hch h0 ha hg.glen]
    simp only [ok_bind, unpack_compress hE]
    refine ⟨_, check_pure_ok (congrArg _ ?_) _, ?_⟩
    · module
    · refine hpre.trans (List.IsPrefix.trans (l₂ := t1) ?_ ?_)
      · have := bulletChallenges_prefix E (LG.map E.compress) (RG.map E.compress)
          (dotLogTr0 tr Cx Cy a)
        rw [hch] at this; exact this
      · simp [Tr.point, List.append_assoc]

end Spartan
