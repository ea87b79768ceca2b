import Verif.Lemmas.Report
import Verif.Props.ZembRec
import Verif.Lemmas.Bessel2
import Verif.Lemmas.Bessel3

/-!
# What the impedance recovery prints (C124)
-/

namespace QMix.Report

open QMix Np Fl IvData IfData Opt Exp Results Spec

/-! ## Power -/

theorem absorbed_eq (v : ℂ) {z : ℂ} (hz : z ≠ 0) : absorbed v z = Complex.normSq v * z.re / Complex.normSq z / 2 := by
  have hn : Complex.normSq z ≠ 0 := by simpa using hz
  unfold absorbed
  have : v * (starRingEnd ℂ) (v / z) = ((Complex.normSq v / Complex.normSq z : ℝ) : ℂ) * z := by
    rw [map_div₀, ← mul_div_assoc, Complex.mul_conj]
    have hc : (starRingEnd ℂ) z ≠ 0 := by simpa using hz
    rw [div_eq_iff hc, mul_assoc, Complex.mul_conj, ← Complex.ofReal_mul, div_mul_cancel₀ _ hn]
  rw [this, Complex.re_ofReal_mul]
  ring

theorem intoLoad_eq (v : ℂ) {z load : ℂ} (hz : z + load ≠ 0) :
    intoLoad v z load = Complex.normSq v * load.re / Complex.normSq (z + load) / 2 := by
  unfold intoLoad
  by_cases hl : load = 0
  · subst hl
    simp [absorbed]
  · have hn : Complex.normSq load ≠ 0 := by simpa using hl
    have hs : Complex.normSq (z + load) ≠ 0 := by simpa using hz
    rw [absorbed_eq _ hl, Complex.normSq_div, Complex.normSq_mul]
    field_simp

/-- The available power of a source with a resistance. -/
theorem available_eq (v : ℂ) {z : ℂ} (hz : 0 < z.re) : IsAvailable v z (Complex.normSq v / 8 / z.re) := by
  constructor
  · refine ⟨(starRingEnd ℂ) z, by simpa using hz.le, ?_⟩
    have hs : z + (starRingEnd ℂ) z = ((2 * z.re : ℝ) : ℂ) := Complex.add_conj z
    have hn : z + (starRingEnd ℂ) z ≠ 0 := by
      rw [hs]; exact_mod_cast (by positivity : (2 * z.re : ℝ) ≠ 0)
    rw [intoLoad_eq v hn, hs, Complex.normSq_ofReal, Complex.conj_re]
    field_simp
    norm_num
  · rintro q ⟨load, hl, rfl⟩
    have hre : 0 < (z + load).re := by rw [Complex.add_re]; linarith
    have hn : z + load ≠ 0 := by
      intro h; rw [h] at hre; simp at hre
    rw [intoLoad_eq v hn]
    have hs : 0 < Complex.normSq (z + load) := Complex.normSq_pos.2 hn
    rw [div_div, div_div, div_le_div_iff₀ (by positivity) (by positivity)]
    have h4 : 4 * (z.re * load.re) ≤ Complex.normSq (z + load) := by
      rw [Complex.normSq_apply, Complex.add_re, Complex.add_im]
      nlinarith [sq_nonneg (z.re - load.re), sq_nonneg (z.im + load.im)]
    have := mul_le_mul_of_nonneg_left h4 (Complex.normSq_nonneg v)
    nlinarith [this]

theorem power_num {k : ℝ} (hk : k ≠ 0) (v vgap : ℝ) {z : ℂ} {rn : ℝ} (hz : (z * rn).re ≠ 0) :
    power k (num v) vgap z rn = num ((v * vgap) ^ 2 / k / (z * rn).re) := by
  unfold power
  simp only [fmul_num]
  rw [fdiv_num _ hk, fdiv_num _ hz, sq]

/-! ## The report -/

/-- What is printed, as a function of the numbers printed. -/
theorem recovery_eq (bad : List Char) (other : Flt) (vph vgap rn : ℝ) (r : Zemb.Result) {zw : ℂ} (hz : r.zw = some zw) :
    ∃ out, recovery bad other vph vgap rn r = .ok out ∧ ∀ rest, report (out ++ rest) =
      [["-> Impedance recovery:".toList],
       [if r.fitGood then "- good fit".toList else "- bad fit".toList],
       ["- embedding circuit:".toList],
       ["- voltage:     ".toList, trim (fmtS 6 2 (Zemb.toFlt r.vt)), "* Vgap".toList],
       ["- impedance:   ".toList, trim (fmtCS bad 12 2 (some r.zt)), "* Rn".toList],
       ["- avail. power:".toList, trim (fmtS 7 2 (Fl.fdiv (power 8 (Zemb.toFlt r.vt) vgap r.zt rn) (num 1e-9))), "nW".toList],
       ["- junction:".toList],
       ["- drive level:".toList, trim (fmtS 6 2 r.alpha)],
       ["- impedance:".toList, trim (fmtCS bad 12 2 (some zw)), "* Rn".toList],
       ["- deliv. power:".toList, trim (fmtS 7 2 (Fl.fdiv (power 2 (fmul r.alpha (num vph)) vgap zw rn) (num 1e-9))),
         "nW".toList]] ++ report rest := by
  obtain ⟨a, ha, ha'⟩ := report_colour (c := "HEADER".toList) (e := "[95".toList) (w := " -> Impedance recovery:".toList)
    (by decide) (by decide) (by decide) (by decide)
  obtain ⟨b, hb, hb'⟩ : ∃ b, fitLine r.fitGood = .ok b ∧ ∀ rest, report (b ++ rest) =
        [if r.fitGood then "- good fit".toList else "- bad fit".toList] :: report rest := by
    cases r.fitGood
    · exact report_colour (c := "WARNING".toList) (e := "[93".toList) (w := "\t- bad fit".toList)
        (by decide) (by decide) (by decide) (by decide)
    · exact report_colour (c := "OKGREEN".toList) (e := "[92".toList) (w := "\t- good fit".toList)
        (by decide) (by decide) (by decide) (by decide)
  refine ⟨a ++ b ++ (recoveryLines bad (power 8 (Zemb.toFlt r.vt) vgap r.zt rn)
    (power 2 (fmul r.alpha (num vph)) vgap zw rn) r).flatMap line, ?_, ?_⟩
  · unfold recovery
    rw [ha, hz, hb]
    rfl
  · intro rest
    rw [List.append_assoc, List.append_assoc, ha', hb']
    unfold recoveryLines
    simp only [List.flatMap_cons, List.flatMap_nil, List.append_nil, hz]
    rw [List.append_assoc, report_line (by decide) (by decide)]
    rw [List.append_assoc, report_entry "\t\t- voltage:     ".toList "\t* Vgap".toList ["- voltage:     ".toList] ["* Vgap".toList]
      _ (plain_fmtS _ _ _) (fmtS_ne _ _ _) (by decide) (by decide) (by decide) (by decide) (by decide)]
    rw [List.append_assoc, report_entry "\t\t- impedance:   ".toList "* Rn".toList ["- impedance:   ".toList] ["* Rn".toList]
      _ (plain_fmtCS _ _ _ _) (fmtCS_ne _ _ _ _) (by decide) (by decide) (by decide) (by decide) (by decide)]
    rw [List.append_assoc, report_entry "\t\t- avail. power:".toList "\tnW".toList ["- avail. power:".toList] ["nW".toList]
      _ (plain_fmtS _ _ _) (fmtS_ne _ _ _) (by decide) (by decide) (by decide) (by decide) (by decide)]
    rw [List.append_assoc, report_line (by decide) (by decide)]
    rw [List.append_assoc, report_last "\t\t- drive level:".toList ["- drive level:".toList]
      _ (plain_fmtS _ _ _) (fmtS_ne _ _ _) (by decide) (by decide) (by decide)]
    rw [List.append_assoc, report_entry "\t\t- impedance:".toList "* Rn".toList ["- impedance:".toList] ["* Rn".toList]
      _ (plain_fmtCS _ _ _ _) (fmtCS_ne _ _ _ _) (by decide) (by decide) (by decide) (by decide) (by decide)]
    rw [report_entry "\t\t- deliv. power:".toList "\tnW".toList ["- deliv. power:".toList] ["nW".toList]
      _ (plain_fmtS _ _ _) (fmtS_ne _ _ _) (by decide) (by decide) (by decide) (by decide) (by decide)]
    rfl

/-! ## C124 -/

/-- C124 (the part that holds): the report of the recovery gives the voltage and the impedance of the embedding circuit and its
available power, the drive level and the impedance of the junction, in the units stated and to two decimals. The power it gives as
delivered is the power absorbed by the junction if the impedance of the junction is real; otherwise it is larger, by the factor
`|z|^2 / Re(z)^2`. Missing: the delivered power, see `C124_false`. -/
theorem C124_report_partial (bad : List Char) (other : Flt) {vph vgap rn : ℝ} (hr : 0 < rn) (r : Zemb.Result) {v a : ℝ} {z : ℂ}
    (hv : r.vt = some v) (ha : r.alpha = num a) (hz : r.zw = some z) (h1 : 0 < r.zt.re) (h2 : 0 < z.re) :
    ∃ out t1 t2 t3 t4 t5 t6 p q, recovery bad other vph vgap rn r = .ok out ∧ report out =
      [["-> Impedance recovery:".toList],
       [if r.fitGood then "- good fit".toList else "- bad fit".toList],
       ["- embedding circuit:".toList],
       ["- voltage:     ".toList, t1, "* Vgap".toList],
       ["- impedance:   ".toList, t2, "* Rn".toList],
       ["- avail. power:".toList, t3, "nW".toList],
       ["- junction:".toList],
       ["- drive level:".toList, t4],
       ["- impedance:".toList, t5, "* Rn".toList],
       ["- deliv. power:".toList, t6, "nW".toList]] ∧
      Shows t1 v 2 ∧ ShowsJ t2 r.zt 2 ∧ IsAvailable (v * vgap) (r.zt * rn) p ∧ Shows t3 (p * 10 ^ 9) 2 ∧
      Shows t4 a 2 ∧ ShowsJ t5 z 2 ∧ Shows t6 (q * 10 ^ 9) 2 ∧
      q = absorbed ((a * vph : ℝ) * vgap) (z * rn) * (Complex.normSq z / z.re ^ 2) ∧
      (z.im = 0 → q = absorbed ((a * vph : ℝ) * vgap) (z * rn)) ∧
      (z.im ≠ 0 → a * vph * vgap ≠ 0 → absorbed ((a * vph : ℝ) * vgap) (z * rn) < q) := by
  have e1 : (r.zt * rn).re = r.zt.re * rn := by simp
  have e2 : (z * rn).re = z.re * rn := by simp
  have p1 : 0 < (r.zt * rn).re := by rw [e1]; positivity
  have p2 : 0 < (z * rn).re := by rw [e2]; positivity
  have hz0 : z ≠ 0 := by rintro rfl; simp at h2
  have hn : 0 < Complex.normSq z := Complex.normSq_pos.2 hz0
  obtain ⟨out, ho, hrep⟩ := recovery_eq bad other vph vgap rn r hz
  have hav := available_eq ((v : ℂ) * vgap) p1
  have hab : absorbed ((a * vph : ℝ) * vgap) (z * rn) = (a * vph * vgap) ^ 2 * z.re / Complex.normSq z / rn / 2 := by
    rw [absorbed_eq _ (mul_ne_zero hz0 (by exact_mod_cast hr.ne')), e2, Complex.normSq_mul, Complex.normSq_mul,
      Complex.normSq_ofReal, Complex.normSq_ofReal, Complex.normSq_ofReal]
    field_simp
  have hq : (a * vph * vgap) ^ 2 / 2 / (z * rn).re
      = absorbed ((a * vph : ℝ) * vgap) (z * rn) * (Complex.normSq z / z.re ^ 2) := by
    rw [hab, e2]
    field_simp
  specialize hrep []
  rw [List.append_nil, report_nil, List.append_nil] at hrep
  refine ⟨out, _, _, _, _, _, _, _, (a * vph * vgap) ^ 2 / 2 / (z * rn).re, ho, hrep, ?_, ?_, hav, ?_, ?_, ?_, ?_, hq, ?_, ?_⟩
  · rw [hv]
    exact shows_trim (shows_fmtS 6 2 v)
  · exact showsJ_trim (showsJ_fmtCS _ _ _ _)
  · rw [hv, show Zemb.toFlt (some v) = num v from rfl, power_num (by norm_num) _ _ p1.ne', fdiv_num _ (by norm_num)]
    have : (v * vgap) ^ 2 / 8 / (r.zt * rn).re / 1e-9 = Complex.normSq ((v : ℂ) * vgap) / 8 / (r.zt * rn).re * 10 ^ 9 := by
      rw [Complex.normSq_mul, Complex.normSq_ofReal, Complex.normSq_ofReal]
      norm_num
      ring
    rw [this]
    exact shows_trim (shows_fmtS 7 2 _)
  · rw [ha]
    exact shows_trim (shows_fmtS 6 2 a)
  · exact showsJ_trim (showsJ_fmtCS _ _ _ _)
  · rw [ha, fmul_num, power_num (by norm_num) _ _ p2.ne', fdiv_num _ (by norm_num)]
    have : (a * vph * vgap) ^ 2 / 2 / (z * rn).re / 1e-9 = (a * vph * vgap) ^ 2 / 2 / (z * rn).re * 10 ^ 9 := by
      rw [div_eq_mul_inv _ (1e-9 : ℝ)]
      norm_num
    rw [this]
    exact shows_trim (shows_fmtS 7 2 _)
  · intro h
    rw [hq]
    have : Complex.normSq z = z.re ^ 2 := by rw [Complex.normSq_apply, h]; ring
    rw [this, div_self (by positivity), mul_one]
  · intro h h0
    rw [hq]
    have hpos : 0 < absorbed ((a * vph : ℝ) * vgap) (z * rn) := by rw [hab]; positivity
    have : 1 < Complex.normSq z / z.re ^ 2 := by
      rw [one_lt_div (by positivity), Complex.normSq_apply]
      have : 0 < z.im ^ 2 := by positivity
      nlinarith
    nlinarith

/-! A run in which the embedding circuit is matched to the junction. -/

/-- `J_1(1)`. -/
noncomputable abbrev J : ℝ := besselJ 1 1

open Classical in
/-- A current at one voltage only. -/
noncomputable def idcAt (v : ℝ) : ℝ := if v = 5 / 4 then 1 else 0

open Classical in
/-- See `idcAt`. -/
noncomputable def ikkAt (v : ℝ) : ℝ := if v = 3 / 4 then J / besselJ 0 1 else 0

/-- The impedance of the junction. -/
noncomputable def zJ : ℂ := ⟨1 / (8 * J ^ 2), 1 / (8 * J ^ 2)⟩

/-- The embedding impedance given is the one that matches. -/
noncomputable def matchedOpts : Zemb.ZembOpts where
  fitLow := 0
  fitHigh := 1
  remb := (0, 1)
  xemb := (0, 1)
  zemb := some ((starRingEnd ℂ) zJ)
  alphaMax := 1
  numB := 1

theorem J_pos : 0 < J := besselJ_one_pos one_pos (by linarith [Real.pi_gt_three])

theorem K_pos : 0 < besselJ 0 1 := by
  have := (besselJ_zero_bounds 1).1
  linarith

theorem alpha_one : Zemb.findAlpha idcAt (1 / 2) 1 1 (3 / 4) (J ^ 2) = num 1 := by
  have ht : Zemb.tuckerDc idcAt (3 / 4) (1 / 2) 1 1 = J ^ 2 := by
    unfold Zemb.tuckerDc
    rw [show Finset.Icc (-1 : ℤ) 1 = {-1, 0, 1} by decide]
    norm_num [idcAt]
  have h0 : idcAt (3 / 4) = 0 := by norm_num [idcAt]
  have hJ := J_pos
  rw [Zemb.findAlpha_eq _ _ _ _ _ _ (by rw [ht, h0]; positivity)]
  have hs : Zemb.start idcAt (1 / 2) 1 1 (3 / 4) (J ^ 2) = 1 := by
    unfold Zemb.start
    rw [ht, h0, sub_zero, div_self (by positivity)]
    norm_num
  rw [hs]
  have : ∀ k s, ((Zemb.pass (Zemb.tuckerDc idcAt (3 / 4) (1 / 2) 1) (J ^ 2))^[k] (1, s)).1 = 1 := by
    intro k
    induction k with
    | zero => intro s; rfl
    | succ k ih =>
      intro s
      rw [Function.iterate_succ_apply]
      have : Zemb.pass (Zemb.tuckerDc idcAt (3 / 4) (1 / 2) 1) (J ^ 2) (1, s) = (1, s / 2) := by
        unfold Zemb.pass
        simp only [ht, lt_irrefl, if_false]
        norm_num
      rw [this]
      exact ih _
  rw [this]

theorem current_one : Zemb.acCurrent idcAt ikkAt (3 / 4) (1 / 2) 1 1 = ⟨2 * J ^ 2, -(2 * J ^ 2)⟩ := by
  have hr : besselJ 0 1 + besselJ 2 1 = 2 * J := by
    have := besselJ_recurrence 1 1
    norm_num at this
    linarith
  have hm : besselJ (-1) 1 = -J := by
    have := besselJ_neg 1 1
    simpa using this
  have hK := K_pos
  unfold Zemb.acCurrent
  rw [show pyRange (-1) (1 + 1) = [-1, 0, 1] by decide]
  simp only [List.foldl_cons, List.foldl_nil]
  have i1 : idcAt (3 / 4 + ((-1 : ℤ) : ℝ) * (1 / 2)) = 0 := by norm_num [idcAt]
  have i2 : idcAt (3 / 4 + ((0 : ℤ) : ℝ) * (1 / 2)) = 0 := by norm_num [idcAt]
  have i3 : idcAt (3 / 4 + ((1 : ℤ) : ℝ) * (1 / 2)) = 1 := by norm_num [idcAt]
  have k1 : ikkAt (3 / 4 + ((-1 : ℤ) : ℝ) * (1 / 2)) = 0 := by norm_num [ikkAt]
  have k2 : ikkAt (3 / 4 + ((0 : ℤ) : ℝ) * (1 / 2)) = J / besselJ 0 1 := by norm_num [ikkAt]
  have k3 : ikkAt (3 / 4 + ((1 : ℤ) : ℝ) * (1 / 2)) = 0 := by norm_num [ikkAt]
  rw [i1, i2, i3, k1, k2, k3]
  have e1 : besselJ 1 1 * (besselJ (1 - 1) 1 + besselJ (1 + 1) 1) * 1 = 2 * J ^ 2 := by
    rw [show (1 - 1 : ℤ) = 0 by norm_num, show (1 + 1 : ℤ) = 2 by norm_num, hr]; ring
  have e2 : besselJ 0 1 * (besselJ (0 - 1) 1 - besselJ (0 + 1) 1) * (J / besselJ 0 1) = -(2 * J ^ 2) := by
    rw [show (0 - 1 : ℤ) = -1 by norm_num, show (0 + 1 : ℤ) = 1 by norm_num, hm]
    field_simp
    ring
  rw [e1, e2]
  generalize 2 * J ^ 2 = g
  apply Complex.ext <;> simp

/-- The run: the source voltage found has the square 1/2. -/
theorem matched_run : ∃ r, Zemb.recoverZemb matchedOpts idcAt ikkAt (1 / 2) [3 / 4] [J ^ 2] = .ok r ∧
    r.zt = (starRingEnd ℂ) zJ ∧ r.zw = some zJ ∧ r.alpha = num 1 ∧ ∃ v, r.vt = some v ∧ v ^ 2 = 1 / 2 := by
  have hJ := J_pos
  have hstep : Zemb.onStep matchedOpts.fitLow matchedOpts.fitHigh (1 / 2) [3 / 4] [J ^ 2] = [(3 / 4, J ^ 2)] := by
    norm_num [Zemb.onStep, matchedOpts]
  obtain ⟨N, hN⟩ : ∃ N, N = 101 * 201 := ⟨_, rfl⟩
  obtain ⟨mid, best, err, vt, pm, -, hpm, -, -, -, -, hvt, h⟩ :=
    Zemb.recover_eq matchedOpts idcAt ikkAt (1 / 2) [3 / 4] [J ^ 2] rfl hN (by rw [hstep]; simp)
  rw [hstep] at hpm hvt
  have hpm : pm = (3 / 4, J ^ 2) := by
    have := List.mem_of_getElem? hpm
    simpa using this
  subst hpm
  have ha : Zemb.findAlpha idcAt (1 / 2) matchedOpts.alphaMax matchedOpts.numB (3 / 4) (J ^ 2) = num 1 := alpha_one
  have hV : Zemb.acVolts matchedOpts idcAt (1 / 2) [(3 / 4, J ^ 2)] = [some ((1 * (1 / 2) : ℝ) : ℂ)] := by
    simp only [Zemb.acVolts, Zemb.drives, List.map_cons, List.map_nil, ha, Zemb.finite_num, Option.map_some]
  have hc : (⟨2 * J ^ 2, -(2 * J ^ 2)⟩ : ℂ) ≠ 0 := by
    intro h
    have := congrArg Complex.re h
    simp only [Complex.zero_re] at this
    have : 0 < 2 * J ^ 2 := by positivity
    linarith
  have hZ : Zemb.acImps matchedOpts idcAt ikkAt (1 / 2) [(3 / 4, J ^ 2)] = [some zJ] := by
    have hcur : Zemb.acCurrent idcAt ikkAt (3 / 4) (1 / 2) matchedOpts.numB 1 = ⟨2 * J ^ 2, -(2 * J ^ 2)⟩ := current_one
    simp only [Zemb.acImps, List.map_cons, List.map_nil, ha, Zemb.finite_num, Option.map_some, hcur, Zemb.cdiv, if_neg hc]
    congr 2
    rw [div_eq_iff hc]
    apply Complex.ext
    · simp [zJ]; field_simp; norm_num
    · simp [zJ]
  rw [hV, hZ] at hvt
  refine ⟨_, h, rfl, by rw [hZ]; rfl, ha, ?_⟩
  have hsum : (starRingEnd ℂ) zJ + zJ = ((1 / (4 * J ^ 2) : ℝ) : ℂ) := by
    apply Complex.ext
    · rw [Complex.add_re, Complex.conj_re, Complex.ofReal_re]
      simp only [zJ]
      field_simp
      norm_num
    · rw [Complex.add_im, Complex.conj_im, Complex.ofReal_im, neg_add_cancel]
  have hs0 : (starRingEnd ℂ) zJ + zJ ≠ 0 := by
    rw [hsum]; exact_mod_cast (by positivity : (1 / (4 * J ^ 2) : ℝ) ≠ 0)
  have hw : zJ / ((starRingEnd ℂ) zJ + zJ) = ⟨1 / 2, 1 / 2⟩ := by
    rw [div_eq_iff hs0, hsum]
    apply Complex.ext
    · rw [Complex.re_mul_ofReal]
      simp only [zJ]
      field_simp
      norm_num
    · rw [Complex.im_mul_ofReal]
      simp only [zJ]
      field_simp
      norm_num
  have hn : ‖(⟨1 / 2, 1 / 2⟩ : ℂ)‖ ^ 2 = 1 / 2 := by
    rw [Complex.sq_norm, Complex.normSq_apply]; norm_num
  set w : ℂ := ⟨1 / 2, 1 / 2⟩ with hwdef
  have hvt' : vt = some (1 / 2 * ‖w‖ / ‖w‖ ^ 2) := by
    have e : matchedOpts.zemb.getD (Zemb.gridPoint matchedOpts.remb matchedOpts.xemb (best / 201) (best % 201))
        = (starRingEnd ℂ) zJ := rfl
    rw [e] at hvt
    have hz : Np.zip (Zemb.matched ((starRingEnd ℂ) zJ)) [some ((1 * (1 / 2) : ℝ) : ℂ)] [some zJ]
        = .ok [some (((1 / 2 : ℝ) : ℂ) * w)] := by
      simp only [Np.zip, List.length_cons, List.length_nil, if_true, List.zipWith_cons_cons, List.zipWith_nil_right, Zemb.matched,
        Zemb.cdiv, Zemb.cmul, Option.map_some, if_neg hs0, one_mul, mul_div_assoc, hw]
    have hd : [some zJ].map (Zemb.divider ((starRingEnd ℂ) zJ)) = [some w] := by
      simp only [List.map_cons, List.map_nil, Zemb.divider, Zemb.cdiv, Option.map_some, if_neg hs0, hw]
    unfold Zemb.sourceVoltage at hvt
    rw [hz, hd] at hvt
    have s1 : Zemb.sumAbs 1 [some (((1 / 2 : ℝ) : ℂ) * w)] = some (1 / 2 * ‖w‖) := by
      simp [Zemb.sumAbs]
    have s2 : Zemb.sumAbs 2 [some w] = some (‖w‖ ^ 2) := by
      simp [Zemb.sumAbs]
    simp only [py_bind, s1, s2, Zemb.rdiv] at hvt
    rw [if_neg (by rw [hn]; norm_num)] at hvt
    exact (Except.ok.inj hvt).symm
  refine ⟨_, hvt', ?_⟩
  rw [div_pow, mul_pow, hn]
  norm_num

/-- C124 as stated is false: here the embedding circuit is matched to the junction, so that the junction gets the available
power, 1 nW; the report gives 1 nW as the available power and 2 nW as the delivered power. -/
theorem C124_false (bad : List Char) (other : Flt) : ∃ r v out t t' x x', Zemb.recoverZemb matchedOpts idcAt ikkAt (1 / 2) [3 / 4]
      [J ^ 2] = .ok r ∧ r.vt = some v ∧ r.alpha = num 1 ∧ r.zw = some zJ ∧
    IsAvailable (v * (1 : ℝ)) (r.zt * (J ^ 2 / 2 * 10 ^ 9 : ℝ)) (1 / 10 ^ 9) ∧
    absorbed ((1 * (1 / 2) : ℝ) * (1 : ℝ)) (zJ * (J ^ 2 / 2 * 10 ^ 9 : ℝ)) = 1 / 10 ^ 9 ∧
    recovery bad other (1 / 2) 1 (J ^ 2 / 2 * 10 ^ 9) r = .ok out ∧
    ["- avail. power:".toList, t, "nW".toList] ∈ report out ∧ ["- deliv. power:".toList, t', "nW".toList] ∈ report out ∧
    numeral t = some x ∧ numeral t' = some x' ∧ x ≤ 1.01 ∧ 1.99 ≤ x' := by
  have hJ := J_pos
  obtain ⟨r, hr, h1, h2, h3, v, h4, h5⟩ := matched_run
  have hre : 0 < zJ.re := by simp only [zJ]; positivity
  have hrn : (0 : ℝ) < J ^ 2 / 2 * 10 ^ 9 := by positivity
  obtain ⟨out, t1, t2, t3, t4, t5, t6, p, q, ho, hrep, -, -, hp, ⟨x, hx, hx'⟩, -, -, ⟨y, hy, hy'⟩, hq, -⟩ :=
    C124_report_partial bad other (vph := 1 / 2) (vgap := 1) hrn r h4 h3 h2 (by rw [h1]; simpa using hre) hre
  have hav := available_eq ((v : ℂ) * (1 : ℝ)) (z := r.zt * (J ^ 2 / 2 * 10 ^ 9 : ℝ)) (by
    rw [h1, Complex.re_mul_ofReal, Complex.conj_re]; positivity)
  have hpv : Complex.normSq ((v : ℂ) * (1 : ℝ)) / 8 / (r.zt * (J ^ 2 / 2 * 10 ^ 9 : ℝ)).re = 1 / 10 ^ 9 := by
    rw [h1, Complex.re_mul_ofReal, Complex.conj_re, Complex.normSq_mul, Complex.normSq_ofReal, Complex.normSq_ofReal, ← sq, h5]
    simp only [zJ]
    field_simp
  have hp1 : p = 1 / 10 ^ 9 := by rw [← hpv]; exact hp.unique hav
  have hz0 : zJ ≠ 0 := by intro h; rw [h] at hre; simp at hre
  have hab : absorbed ((1 * (1 / 2) : ℝ) * (1 : ℝ)) (zJ * (J ^ 2 / 2 * 10 ^ 9 : ℝ)) = 1 / 10 ^ 9 := by
    rw [absorbed_eq _ (mul_ne_zero hz0 (by exact_mod_cast hrn.ne')), Complex.normSq_mul, Complex.normSq_mul,
      Complex.normSq_ofReal, Complex.normSq_ofReal, Complex.normSq_ofReal, Complex.re_mul_ofReal, Complex.normSq_apply]
    simp only [zJ]
    field_simp
    norm_num
  have hq2 : q = 2 / 10 ^ 9 := by
    rw [hq, hab, Complex.normSq_apply]
    simp only [zJ]
    field_simp
    norm_num
  refine ⟨r, v, out, t3, t6, x, y, hr, h4, h3, h2, ?_, hab, ho, by rw [hrep]; exact List.Mem.tail _ <| List.Mem.tail _ <| List.Mem.tail _ <| List.Mem.tail _ <| List.Mem.tail _ <| List.Mem.head _,
    by rw [hrep]; exact List.Mem.tail _ <| List.Mem.tail _ <| List.Mem.tail _ <| List.Mem.tail _ <| List.Mem.tail _ <| List.Mem.tail _ <| List.Mem.tail _ <| List.Mem.tail _ <| List.Mem.tail _ <| List.Mem.head _, hx, hy, ?_, ?_⟩
  · rw [← hpv]; exact hav
  · rw [hp1] at hx'
    have := (abs_le.1 hx').2
    norm_num at this ⊢
    linarith
  · rw [hq2] at hy'
    have := (abs_le.1 hy').1
    norm_num at this ⊢
    linarith

end QMix.Report
