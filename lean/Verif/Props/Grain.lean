import Verif.Lemmas.Grain
import Verif.Props.PoseidonPerm
import Mathlib.Analysis.SpecialFunctions.Log.Base
import Mathlib.LinearAlgebra.Lagrange

/-!
C97: the Poseidon constants are the output of the generation script in the repository, and the numbers of rounds meet the
inequalities of `security_inequalities.sage`.
-/

namespace Spartan

open Grain

/-- The register after each of the 198 numbers of 256 bits. -/
def grainStates : List Nat := [
  388740802379270958572842,
  557999627878238509504288,
  1026009141909713932376092,
  469259905563315283911806,
  454708974751331729918196,
  342549535668522640722352,
  477015201920111652302911,
  408372962058775250541035,
  1060382242237963914107291,
  1090614448651598553731122,
  1080604723372039053145477,
  481606286665833235461313,
  572614777619686905627012,
  986813529661980163050391,
  398883645924149785498068,
  1131285096882022775880896,
  363883221919561204472803,
  304909820904930603200966,
  945730425265842638441202,
  916767253584473187432609,
  1084894621618691444044088,
  1054004594976716152320976,
  456576739444364780637605,
  1027747375082967077330463,
  578144754032613907504484,
  588562898521096014100977,
  1142822291092037578150621,
  975900753754655957914097,
  1068672140362835787880504,
  408437319457251516856790,
  569609664615056987720674,
  1003379104257920765462765,
  548095390200546852274786,
  971858631788957390097094,
  944976752908901952568932,
  1064710423985443352415141,
  1133199859910850230737675,
  953677564855121184176183,
  1016226455189862964024945,
  465803795223719087280097,
  321986658262174532145030,
  483921000126662214807618,
  1019550287351703989874249,
  511857698666928955530109,
  938272299120424632620687,
  334680989979909612392672,
  517353738093960081921795,
  422050930333511546021299,
  966367341992927282939837,
  354252700306598157931424,
  983839929417593857707032,
  463208686273412123715117,
  1154832824830631048672128,
  420307680592241589595312,
  1151783007578959702711425,
  1201490678043298607422044,
  1070926291894604168743618,
  1157037715225407730336617,
  446607000584787815015613,
  407844231427413394694865,
  329907293210054204577251,
  1154172128407202495731276,
  992010057817716933746196,
  1147413111618719011430836,
  1155964776668368530830896,
  493878439047084455757174,
  1176073149028532603960178,
  518683785429970986102769,
  957723514132138901577011,
  495651127563324028344955,
  1090162834157209303225660,
  486988581048220795103915,
  1128451881738133754488578,
  498043967408843272976538,
  542758412496120286596604,
  425264643417852450596127,
  988035531876215421299276,
  380307053880121350648440,
  531912219999814570825422,
  430981940563778726210511,
  976339566977434913597849,
  974303428599050321020711,
  563136749999039752346419,
  1191750910872013216938491,
  555118880830284417410950,
  923801895974438915848292,
  436705878503920183508553,
  419699519573552621042956,
  422795437100029935533223,
  1105784740044919260353771,
  597842676021193560116834,
  909760319199541878159774,
  482705747777723232996159,
  337394191233211197823356,
  398179827730237916611291,
  1004640121523381850395565,
  939357075973727714988385,
  350170908609063866813601,
  1011654316183951483986198,
  464268399541472186808863,
  1002379585083823854277619,
  1017826035602344329307945,
  1115431143602342868489792,
  415257923333269262963231,
  929816046894976052729602,
  365686524163024430026936,
  448399092032929361630219,
  1006410322991328275583734,
  385892376574798424898761,
  945044540533537162015757,
  1119654904062713836412042,
  1011080588375673108523161,
  966897634118084497632002,
  919199137354710388789037,
  474163409568513829430665,
  1184996743984421496920200,
  483976210809902152486384,
  1094621944413232899702061,
  1152538878848896136981145,
  551240656120230491867830,
  461945307446116578078803,
  403628376657774101545238,
  1061292182344184737012346,
  421715161718273710174440,
  1040309708127427899819655,
  1098274526976063481904629,
  1082189776009074817227878,
  976904643625185859786908,
  408463829253260456354717,
  910729153595764896210127,
  303885191391713891353384,
  475201571562294102692415,
  522139737906310225806968,
  984067120789356920363670,
  380690579370572895677468,
  340267775150413612310498,
  419674985847305999887631,
  550818534566339858186516,
  930779119666605516656992,
  453312949270552107896936,
  427949003306273597024333,
  365400552378817162833330,
  469284752250006456597763,
  582782261960340438600679,
  479026618788113212159090,
  513837404992069380655811,
  1126422009434890335356719,
  589211982802413123931773,
  350476427805097064691784,
  985379645729708405377556,
  341672818253009216402726,
  460374906479406864215735,
  585178103601386272149121,
  365463633390827451479606,
  437950298001290306163984,
  507164411909391628616565,
  373166564203580600915965,
  937128271824685253204210,
  1190356076214643760095382,
  404055501107430122830354,
  315985981363210171195016,
  467904237164416850544446,
  1052669389189091865672604,
  576172502580398047513022,
  928607021861383283347055,
  391238373229184498641043,
  425568140602499789939828,
  1199094140464375474013634,
  348955447581754630926835,
  924772641494973782723312,
  1175659494412080399002446,
  592884630382164746377745,
  445089247805831910932477,
  554751367353089273486918,
  1005187783416870300572608,
  915931234338566390057439,
  1122656735721003848279791,
  445810322257939125085014,
  1056027819779784218279192,
  541933972118693506947424,
  1000756054166318313415662,
  917720562619140157880574,
  1077666168017940288087149,
  1125567729633108382185701,
  1118663390194105019050209,
  1066118842925602490524493,
  989378535783831556913735,
  1010383130198583625166821,
  412711677515813958612773,
  993245742089081125367093,
  500625853846368390581963,
  1165432510792328903214348,
  398500644182859905382154,
  1136430716641000647417391,
  415284568641213297453688,
  1029198010316971823248804,
  1068055776072988315960078,
  1098682410081712958183315]

/-- The six numbers the matrix is made of. -/
def grainXY : List Nat := [57637153172868990706798849076576522177013316926939188157248287466921393502256,
  93313124048376091013877584625425672884868723397786429223399144283175916632707,
  69475846137424283553040514679683682335397165486853745630660682246449305284024,
  56971907751510602002820358059390182746430150072530109530800532379370530572537,
  18634342727368069699467151380173337070510337477365207438746491496322299597867,
  22453067079482854976598207594987726940468639687215722174309680927152420710797]

theorem grain_init : val (initSeq 1 0 256 3 8 56) = 1208925818611944094958082 ∧
    (initSeq 1 0 256 3 8 56).length = 80 := by decide +kernel

theorem grain_warm : warmN 160 1208925818611944094958082 = 1026571496027727450305561 := by decide +kernel

theorem grain_constants : chk 2000 256 1026571496027727450305561 k256RoundConstants (grainStates.take 192) = true := by
  decide +kernel

theorem grain_matrix : chk 2000 256 (grainStates.getD 191 0) grainXY (grainStates.drop 192) = true := by
  decide +kernel

theorem grain_last : (grainStates.take 192).getLastD 1026571496027727450305561 = grainStates.getD 191 0 := by
  decide +kernel

/-- C97.  Run with the arguments of `k256_params.sh` and eight full and 56 partial rounds, the script gives the round
constants of `k256_consts.rs` (as numbers, in order) and, as the first matrix it tries, the matrix there; this needs at
most 2000 turns of any one loop. -/
theorem script_constants {fuel : ℕ} (hf : 2000 ≤ fuel) :
    script secpP fuel 1 0 256 3 8 56 = some (k256RoundConstants, (k256Params (ZMod secpP)).mds) := by
  have h192 : k256RoundConstants.length = 192 := by decide +kernel
  obtain ⟨i1, i2⟩ := grain_init
  obtain ⟨w1, w2⟩ := warm_val 160 i2
  rw [i1, grain_warm] at w1
  obtain ⟨s1, e1, v1, l1⟩ := constants_of_chk (p := secpP) (F := fuel) (fuel := 2000) (n := 256) hf (by omega)
    k256RoundConstants (grainStates.take 192) _ w2 (by decide +kernel) (by rw [w1]; exact grain_constants)
  rw [h192] at e1
  rw [w1, grain_last] at v1
  obtain ⟨s2, e2⟩ := randList_of_chk (p := secpP) (F := fuel) (fuel := 2000) (n := 256) hf grainXY
    (grainStates.drop 192) s1 l1 (by rw [v1]; exact grain_matrix)
  obtain ⟨fuel', hfuel⟩ : ∃ f, fuel = f + 1 := ⟨fuel - 1, by omega⟩
  have e3 : ∃ s3, createMds secpP fuel 256 3 (fuel' + 1) s1 = some ((k256Params (ZMod secpP)).mds, s3) := by
    refine ⟨s2, ?_⟩
    have key : ∀ i j : Fin 3, (grainXY.map fun (v : ℕ) => (v : ZMod secpP)).getD i 0 +
        (grainXY.map fun (v : ℕ) => (v : ZMod secpP)).getD (3 + j) 0 =
        ((grainXY.getD i 0 + grainXY.getD (3 + j) 0 : ℕ) : ZMod secpP) := by
      intro i j
      have hg : ∀ n, (grainXY.map fun (v : ℕ) => (v : ZMod secpP)).getD n 0 = ((grainXY.getD n 0 : ℕ) : ZMod secpP) := by
        intro n
        have := List.getD_map (l := grainXY) (d := 0) (n := n) (fun (v : ℕ) => (v : ZMod secpP))
        rwa [Nat.cast_zero] at this
      rw [Nat.cast_add, hg, hg]
    have hinv : ∀ i j : Fin 3, (k256Params (ZMod secpP)).mds i j *
        ((grainXY.getD i 0 + grainXY.getD (3 + j) 0 : ℕ) : ZMod secpP) = 1 := by
      intro i j
      have h : ∀ i j : Fin 3, (k256MdsNat i j * (grainXY.getD i 0 + grainXY.getD (3 + j) 0)) % secpP = 1 % secpP := by
        decide +kernel
      have h' := (ZMod.natCast_eq_natCast_iff' _ _ _).mpr (h i j)
      rw [Nat.cast_mul, Nat.cast_one] at h'
      exact h'
    have hne : ∀ i j : Fin 3, ((grainXY.getD i 0 + grainXY.getD (3 + j) 0 : ℕ) : ZMod secpP) ≠ 0 := by
      intro i j h
      have := hinv i j
      rw [h, mul_zero] at this
      exact zero_ne_one this
    have hnd : (grainXY.map fun (v : ℕ) => (v : ZMod secpP)).Nodup := by
      refine List.Nodup.map_on ?_ (by decide +kernel)
      intro x hx y hy hxy
      have hlt : ∀ x ∈ grainXY, x % secpP = x := by decide +kernel
      have := (ZMod.natCast_eq_natCast_iff' _ _ _).mp hxy
      rwa [hlt x hx, hlt y hy] at this
    show (randList secpP fuel 256 6 s1).bind _ = _
    rw [show (6 : ℕ) = grainXY.length from rfl, e2]
    simp only [Option.bind_some]
    rw [if_pos ⟨hnd, fun i j => by rw [key]; exact hne i j⟩]
    exact congrArg some (Prod.ext (funext fun i => funext fun j =>
      (congrArg (fun x => x⁻¹) (key i j)).trans (eq_inv_of_mul_eq_one_left (hinv i j)).symm) rfl)
  obtain ⟨s3, e3⟩ := e3
  rw [← hfuel] at e3
  show (constants secpP fuel 256 192 _).bind _ = _
  rw [e1]
  show (createMds secpP fuel 256 3 fuel s1).bind _ = _
  rw [e3]
  rfl

theorem cauchy_kernel {F : Type} [Field F] {k : ℕ} {x y v : Fin k → F} (hx : Function.Injective x)
    (hy : Function.Injective y) (hxy : ∀ i j, x i + y j ≠ 0) (hv : ∀ i, ∑ j, (x i + y j)⁻¹ * v j = 0) : v = 0 := by
  classical
  let P : Polynomial F := ∑ j, Polynomial.C (v j) * ∏ l ∈ Finset.univ.erase j, (Polynomial.X + Polynomial.C (y l))
  have hdeg : P.degree < Fintype.card (Fin k) := by
    refine (Polynomial.degree_sum_le _ _).trans_lt ?_
    rw [Finset.sup_lt_iff (by rw [bot_lt_iff_ne_bot]; exact (WithBot.natCast_ne_bot _))]
    intro j _
    by_cases h0 : v j = 0
    · rw [h0, map_zero, zero_mul, Polynomial.degree_zero]
      exact WithBot.bot_lt_coe _
    rw [Polynomial.degree_C_mul h0, Polynomial.degree_prod]
    simp only [Polynomial.degree_X_add_C, Finset.sum_const, Finset.card_erase_of_mem (Finset.mem_univ j),
      Finset.card_univ, nsmul_eq_mul, mul_one]
    have := j.pos
    rw [Fintype.card_fin]
    exact_mod_cast Nat.sub_lt this one_pos
  have hP0 : P = 0 := by
    refine Polynomial.eq_zero_of_degree_lt_of_eval_index_eq_zero (s := Finset.univ) (v := x) hx.injOn (by simpa using hdeg) ?_
    intro i _
    have : Polynomial.eval (x i) P = (∏ l, (x i + y l)) * ∑ j, (x i + y j)⁻¹ * v j := by
      simp only [P, Polynomial.eval_finset_sum, Polynomial.eval_mul, Polynomial.eval_C, Polynomial.eval_prod,
        Polynomial.eval_add, Polynomial.eval_X, Finset.mul_sum]
      refine Finset.sum_congr rfl fun j _ => ?_
      rw [← Finset.mul_prod_erase Finset.univ _ (Finset.mem_univ j)]
      rw [show ((x i + y j) * ∏ l ∈ Finset.univ.erase j, (x i + y l)) * ((x i + y j)⁻¹ * v j) =
        ((x i + y j) * (x i + y j)⁻¹) * (v j * ∏ l ∈ Finset.univ.erase j, (x i + y l)) by ring,
        mul_inv_cancel₀ (hxy i j), one_mul]
    rw [this, hv i, mul_zero]
  funext j
  have he : Polynomial.eval (-y j) P = v j * ∏ l ∈ Finset.univ.erase j, (-y j + y l) := by
    simp only [P, Polynomial.eval_finset_sum, Polynomial.eval_mul, Polynomial.eval_C, Polynomial.eval_prod,
      Polynomial.eval_add, Polynomial.eval_X]
    refine Finset.sum_eq_single j (fun i _ hij => ?_) (by simp)
    rw [Finset.prod_eq_zero (i := j) (by simp [Ne.symm hij]) (by ring), mul_zero]
  rw [hP0, Polynomial.eval_zero] at he
  refine (mul_eq_zero.mp he.symm).resolve_right ?_
  refine Finset.prod_ne_zero_iff.mpr ?_
  intro l hl h
  rw [Finset.mem_erase] at hl
  exact hl.1 (hy (by linear_combination h))

/-- Whatever the modulus, the size and the state of the generator: when the script's matrix function returns, every
square part of the matrix (any rows, any equally many columns) is invertible. -/
theorem createMds_mds {p : ℕ} [Fact p.Prime] {n t : ℕ} (fuel : ℕ) :
    ∀ (k : ℕ) {s s' : List Bool} {m : Fin t → Fin t → ZMod p}, createMds p fuel n t k s = some (m, s') →
      ∀ {d : ℕ} (rows cols : Fin d ↪ Fin t) {v : Fin d → ZMod p},
        (∀ i, ∑ j, m (rows i) (cols j) * v j = 0) → v = 0
  | 0, _, _, _, h => by simp [createMds] at h
  | k + 1, s, s', m, h => by
    intro rows cols v hv
    simp only [createMds, Option.bind_eq_bind, Option.bind_eq_some_iff] at h
    obtain ⟨⟨l, s1⟩, hl, h⟩ := h
    simp only at h
    split_ifs at h with hc
    · have hlen : l.length = 2 * t := by
        have : ∀ (c : ℕ) (s : List Bool) (l : List (ZMod p)) (s1 : List Bool),
            randList p fuel n c s = some (l, s1) → l.length = c := by
          intro c
          induction c with
          | zero => intro s l s1 h; simp [randList] at h; simp [← h.1]
          | succ c ih =>
            intro s l s1 h
            simp only [randList, Option.bind_eq_bind, Option.bind_eq_some_iff] at h
            obtain ⟨⟨a, b⟩, -, ⟨c', d'⟩, h2, h⟩ := h
            cases h
            simp [ih _ _ _ h2]
        exact this _ _ _ _ hl
      have hget : ∀ i j, i < 2 * t → j < 2 * t → l.getD i 0 = l.getD j 0 → i = j := by
        intro i j hi hj e
        rw [List.getD_eq_getElem _ _ (by omega), List.getD_eq_getElem _ _ (by omega)] at e
        exact (List.Nodup.getElem_inj_iff hc.1).mp e
      cases h
      refine cauchy_kernel (x := fun i => l.getD (rows i) 0) (y := fun j => l.getD (t + cols j) 0) ?_ ?_
        (fun i j => hc.2 (rows i) (cols j)) hv
      · intro i j e
        exact rows.injective (Fin.ext (hget _ _ (by omega) (by omega) e))
      · intro i j e
        have := hget _ _ (by omega) (by omega) e
        exact cols.injective (Fin.ext (by omega))
    · exact createMds_mds fuel k h rows cols hv

/-- The inequalities `security_inequalities.sage` prints, l. 15–19, with exact real logarithms: security level 128, three
words, 64 rounds, fifth powers, and `C = 2`. -/
theorem security_inequalities :
    2 ^ 128 ≤ secpP ^ 3 ∧
    (128 : ℝ) ≤ ((⌊Real.logb 2 secpP⌋ : ℝ) - 2) * (3 + 1) ∧
    (64 : ℝ) > 128 * Real.logb 5 2 + Real.logb 5 3 ∧
    (64 : ℝ) > 128 * Real.logb 5 2 / 3 ∧
    (64 : ℝ) > 3 - 1 + 128 * Real.logb 5 2 / (3 + 1) := by
  have h2 : Real.logb 5 2 < 1 / 2 := by
    rw [Real.logb_lt_iff_lt_rpow (by norm_num) (by norm_num), ← Real.sqrt_eq_rpow]
    exact Real.lt_sqrt_of_sq_lt (by norm_num)
  have h23 : 128 * Real.logb 5 2 + Real.logb 5 3 < 64 := by
    have e : 128 * Real.logb 5 2 + Real.logb 5 3 = Real.logb 5 (2 ^ 128 * 3) := by
      rw [Real.logb_mul (by positivity) (by norm_num), Real.logb_pow]; norm_num
    rw [e, Real.logb_lt_iff_lt_rpow (by norm_num) (by positivity)]
    norm_num
  refine ⟨by decide +kernel, ?_, h23, by linarith, by linarith⟩
  have hp : (255 : ℤ) ≤ ⌊Real.logb 2 secpP⌋ := by
    rw [Int.le_floor, Real.le_logb_iff_rpow_le (by norm_num) (by exact_mod_cast (by decide +kernel : 0 < secpP))]
    have : 2 ^ 255 ≤ secpP := by decide +kernel
    calc (2 : ℝ) ^ (((255 : ℤ) : ℝ)) = ((2 ^ 255 : ℕ) : ℝ) := by
          rw [Real.rpow_intCast, Nat.cast_pow]; rfl
      _ ≤ (secpP : ℝ) := Nat.cast_le.mpr this
  have : (255 : ℝ) ≤ (⌊Real.logb 2 secpP⌋ : ℝ) := by exact_mod_cast hp
  linarith

end Spartan
