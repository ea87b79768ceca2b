import Verif.Lemmas.HbPrint3
import Verif.Lemmas.RespFn3
import Verif.Model.RespPrint
import Verif.Spec.RespPrint

/-!
# Lemmas: numbers in scientific notation, and the lines about a curve
-/

namespace QMix.RespPrint

open QMix Np MathFn RespFn Results Report Spec HbPrint

theorem natChars_two {n : ℕ} (h : 10 ≤ n) : 2 ≤ (IO.natChars n).length := by
  rw [IO.natChars, if_neg (by omega), List.length_append]
  have := List.length_pos_iff.2 (IO.natChars_ne_nil (n / 10))
  simp only [List.length_cons, List.length_nil]
  omega

/-- The digits of the exponent. -/
theorem exponent_digits (n : ℕ) : 2 ≤ ((if n < 10 then ['0'] else []) ++ IO.natChars n).length ∧
    ((if n < 10 then ['0'] else []) ++ IO.natChars n).all digit = true ∧
    digitsNum ((if n < 10 then ['0'] else []) ++ IO.natChars n) = n := by
  have hd : (IO.natChars n).all digit = true := List.all_eq_true.2 (IO.natChars_digits n)
  have hv : digitsNum (IO.natChars n) = n := IO.digitsVal_natChars n
  split_ifs with h
  · refine ⟨?_, ?_, ?_⟩
    · have := List.length_pos_iff.2 (IO.natChars_ne_nil n)
      simp only [List.length_append, List.length_cons, List.length_nil]
      omega
    · rw [List.all_append, hd]
      rfl
    · exact hv
  · exact ⟨natChars_two (by omega), hd, hv⟩

theorem fmtVal_abs (d : ℕ) (x : IO.Flt) : |Term.fmtVal d x| = (IO.scaled d x : ℝ) / 10 ^ d := by
  unfold Term.fmtVal
  rw [abs_mul, abs_of_nonneg (a := (IO.scaled d x : ℝ) / 10 ^ d) (by positivity)]
  cases x.neg <;> simp

/-- The mantissa of a number other than 0. -/
theorem mantissa {X : ℝ} (hX : 0 < X) (d : ℕ) (e : ℤ)
    (he : e = if roundHalfEven (X / 10 ^ Int.log 10 X * 10 ^ d) = 10 ^ (d + 1) then Int.log 10 X + 1 else Int.log 10 X) :
    10 ^ d ≤ roundHalfEven (X / 10 ^ e * 10 ^ d) ∧ roundHalfEven (X / 10 ^ e * 10 ^ d) < 10 ^ (d + 1) := by
  have l1 : (10 : ℝ) ^ Int.log 10 X ≤ X := by exact_mod_cast Int.zpow_log_le_self (b := 10) (by norm_num) hX
  have l2 : X < (10 : ℝ) ^ (Int.log 10 X + 1) := by exact_mod_cast Int.lt_zpow_succ_log_self (b := 10) (by norm_num) X
  have hp : (0 : ℝ) < 10 ^ Int.log 10 X := by positivity
  set y := X / 10 ^ Int.log 10 X with hy
  have y1 : 1 ≤ y := by rw [hy, le_div_iff₀ hp]; linarith
  have y2 : y < 10 := by
    rw [hy, div_lt_iff₀ hp]
    rw [zpow_add_one₀ (by norm_num)] at l2
    linarith
  have r1 : (10 : ℤ) ^ d ≤ roundHalfEven (y * 10 ^ d) := by
    have h := Term.rhe_mono (x := ((10 ^ d : ℤ) : ℝ)) (y := y * 10 ^ d) (by
      push_cast
      nlinarith [pow_pos (show (0 : ℝ) < 10 by norm_num) d])
    rwa [roundHalfEven_intCast] at h
  have r2 : roundHalfEven (y * 10 ^ d) ≤ (10 : ℤ) ^ (d + 1) := by
    have h := Term.rhe_mono (x := y * 10 ^ d) (y := ((10 ^ (d + 1) : ℤ) : ℝ)) (by
      push_cast
      rw [pow_succ]
      nlinarith [pow_pos (show (0 : ℝ) < 10 by norm_num) d])
    rwa [roundHalfEven_intCast] at h
  by_cases hc : roundHalfEven (y * 10 ^ d) = 10 ^ (d + 1)
  · rw [if_pos hc] at he
    have hz : X / 10 ^ e * 10 ^ d = y * 10 ^ d / 10 := by
      rw [he, hy, zpow_add_one₀ (by norm_num)]
      field_simp
    have hn := abs_roundHalfEven_sub_le (y * 10 ^ d)
    rw [hc] at hn
    push_cast at hn
    have hlt : y * 10 ^ d < 10 ^ (d + 1) := by
      rw [pow_succ]
      nlinarith [pow_pos (show (0 : ℝ) < 10 by norm_num) d]
    obtain ⟨n1, n2⟩ := abs_le.1 hn
    have hu : roundHalfEven (y * 10 ^ d / 10) = 10 ^ d := by
      refine IO.rhe_unique ?_ ?_
      · push_cast
        rw [abs_le]
        rw [pow_succ] at *
        constructor <;> linarith
      · intro h
        push_cast at h
        rw [pow_succ] at *
        exfalso
        rcases (abs_eq (by norm_num)).1 h with h | h <;> linarith
    rw [hz, hu]
    refine ⟨le_refl _, ?_⟩
    rw [pow_succ]
    have : (0 : ℤ) < 10 ^ d := by positivity
    omega
  · rw [if_neg hc] at he
    rw [he]
    exact ⟨r1, lt_of_le_of_ne r2 hc⟩

theorem fmtSci_sci (d : ℕ) (x : ℝ) : Sci (fmtSci d x) x d := by
  unfold fmtSci
  set e0 : ℤ := if x = 0 then 0 else Int.log 10 |x| with he0
  set e : ℤ := if roundHalfEven (|x| / 10 ^ e0 * 10 ^ d) = 10 ^ (d + 1) then e0 + 1 else e0 with he
  obtain ⟨x1, x2, x3⟩ := exponent_digits e.natAbs
  have hnum := Term.numeral_fmt 0 d (signed (x / 10 ^ e))
  have hpad : Term.padLeft 0 (IO.fmtFloat d (signed (x / 10 ^ e))) = IO.fmtFloat d (signed (x / 10 ^ e)) := by
    simp [Term.padLeft]
  rw [hpad] at hnum
  have hnear := Term.fmt_near d (x := signed (x / 10 ^ e)) (abs_nonneg _)
  rw [signed_toReal] at hnear
  refine ⟨_, _, _, _, e, rfl, hnum, x1, x2, ?_, hnear, ?_⟩
  · rw [x3]
    by_cases h : e < 0
    · right
      exact ⟨if_pos h, by omega⟩
    · left
      exact ⟨if_neg h, by omega⟩
  · rw [fmtVal_abs]
    have hs : IO.scaled d (signed (x / 10 ^ e)) = (roundHalfEven (|x| / 10 ^ e * 10 ^ d)).toNat := by
      unfold IO.scaled signed
      simp only [abs_div]
      rw [abs_of_pos (show (0 : ℝ) < 10 ^ e by positivity)]
    by_cases hx : x = 0
    · right
      rw [if_pos hx] at he0
      have : ¬ roundHalfEven (|x| / 10 ^ e0 * 10 ^ d) = 10 ^ (d + 1) := by
        rw [hx, abs_zero, zero_div, zero_mul]
        have := roundHalfEven_intCast 0
        push_cast at this
        rw [this]
        positivity
      rw [if_neg this] at he
      refine ⟨hx, ?_, by rw [he, he0]⟩
      have h0 : |Term.fmtVal d (signed (x / 10 ^ e))| = 0 := by
        rw [fmtVal_abs, hs, hx, abs_zero, zero_div, zero_mul]
        have := roundHalfEven_intCast 0
        push_cast at this
        rw [this]
        simp
      exact abs_eq_zero.1 h0
    · left
      rw [if_neg hx] at he0
      obtain ⟨m1, m2⟩ := mantissa (abs_pos.2 hx) d e (by rw [he, he0])
      have hm : ((IO.scaled d (signed (x / 10 ^ e)) : ℕ) : ℝ) = ((roundHalfEven (|x| / 10 ^ e * 10 ^ d) : ℤ) : ℝ) := by
        rw [hs]
        have : (0 : ℤ) ≤ roundHalfEven (|x| / 10 ^ e * 10 ^ d) := le_trans (by positivity) m1
        exact_mod_cast Int.toNat_of_nonneg this
      rw [hm]
      have hp : (0 : ℝ) < 10 ^ d := by positivity
      constructor
      · rw [le_div_iff₀ hp, one_mul]
        exact_mod_cast m1
      · rw [div_lt_iff₀ hp, ← pow_succ']
        exact_mod_cast m2

theorem fmtSci_nl (d : ℕ) (x : ℝ) : '\n' ∉ fmtSci d x := by
  unfold fmtSci
  intro h
  rcases List.mem_append.1 h with h | h
  · exact not_nl (plain_fmtFloat _ _) h
  · rcases List.mem_cons.1 h with h | h
    · exact absurd h (by decide)
    · rcases List.mem_cons.1 h with h | h
      · split_ifs at h <;> exact absurd h (by decide)
      · rcases List.mem_append.1 h with h | h
        · split_ifs at h <;> simp at h
        · exact not_nl (plain_nat _) h

/-! ## The lines about a curve -/

theorem checked_eq {v c : List ℝ} (h : c.length = v.length) (f : ℝ → ℝ) :
    checked v = (deviations 34 v c f).map Prod.fst ∧ errors v c f = (deviations 34 v c f).map Prod.snd := by
  have hr : VRANGE - 1 = 34 := by unfold VRANGE; norm_num
  unfold checked errors deviations
  simp only [hr, abs_lt]
  constructor
  · rw [List.map_map]
    conv_lhs => rw [← List.map_fst_zip (l₁ := v) (l₂ := c) (by omega)]
    rw [List.filter_map]
    rfl
  · rw [List.map_map]
    rfl

theorem curveText_ok (title count : String) (n : ℕ) {err errV : List ℝ} (h0 : err ≠ []) (hl : errV.length = err.length) :
    ∃ t, curveText title count n err errV = .ok t := by
  obtain ⟨m, hm⟩ := amax_ok h0
  obtain ⟨k, hk⟩ := argmin_ok (l := err.map fun t => -t) (by simpa using h0)
  have hk' : IvData.argmax err = .ok k := hk
  have hlt := argmin_lt hk
  rw [List.length_map] at hlt
  unfold curveText
  rw [hm, py_bind, hk', py_bind, pyGet_nat_ok (by omega), py_bind]
  exact ⟨_, rfl⟩

theorem curveText_spec {title count : String} (ht : '\n' ∉ title.toList) (hc : '\n' ∉ count.toList) {n : ℕ}
    {pairs : List (ℝ × ℝ)} {t : List Char}
    (h : curveText title count n (pairs.map Prod.snd) (pairs.map Prod.fst) = .ok t) :
    ∃ L, t = L.flatMap line ∧ CurveLines L title count n pairs ∧ ∀ w ∈ L, '\n' ∉ w := by
  unfold curveText at h
  obtain ⟨m, hm, h⟩ := bind_ok_iff.1 h
  obtain ⟨k, hk, h⟩ := bind_ok_iff.1 h
  obtain ⟨v, hv, h⟩ := bind_ok_iff.1 h
  have hk' : argmin ((pairs.map Prod.snd).map fun t => -t) = .ok k := hk
  obtain ⟨q, q1, q2, -⟩ := argmin_spec hk'
  have hlt := argmin_lt hk'
  simp only [List.length_map] at hlt
  obtain ⟨-, hv⟩ := pyGet_nat hv
  have hm1 := amax_mem hm
  have hm2 := (amax_le hm m).1 le_rfl
  have hpair : (v, m) = pairs[k] := by
    have e1 : v = pairs[k].1 := by
      rw [hv, List.getD_eq_getElem?_getD, List.getElem?_map, List.getElem?_eq_getElem hlt]
      rfl
    have e2 : q = -pairs[k].2 := by
      rw [List.getElem?_map, List.getElem?_map, List.getElem?_eq_getElem hlt] at q1
      exact (Option.some.inj q1).symm
    have e3 : m = pairs[k].2 := by
      apply le_antisymm
      · have := q2 (-m) (List.mem_map.2 ⟨m, hm1, rfl⟩)
        rw [e2] at this
        linarith
      · exact hm2 _ (List.mem_map.2 ⟨_, List.getElem_mem hlt, rfl⟩)
    rw [e1, e3]
  have hsum : mean (List.map abs (List.map Prod.snd pairs)) = (pairs.map fun q => |q.2|).sum / pairs.length := by
    unfold mean
    rw [List.map_map, List.length_map]
    rfl
  rw [hsum] at h
  cases h
  refine ⟨[_, _, _, _], ?_, ⟨_, _, _, _, v, m, rfl, count_nat n, fmtSci_sci 4 _, shows_fmt 0 4 m, shows_fmt 0 2 v, ?_, ?_⟩, ?_⟩
  · simp only [List.flatMap_cons, List.flatMap_nil, List.append_nil, List.append_assoc]
  · rw [hpair]
    exact List.getElem_mem hlt
  · intro p hp
    exact hm2 _ (List.mem_map.2 ⟨p, hp, rfl⟩)
  · intro w hw
    have nn : ∀ {a b : List Char}, '\n' ∉ a → '\n' ∉ b → '\n' ∉ a ++ b := fun ha hb h => (List.mem_append.1 h).elim ha hb
    simp only [List.mem_cons, List.not_mem_nil, or_false] at hw
    rcases hw with rfl | rfl | rfl | rfl
    · exact ht
    · exact nn hc (not_nl (plain_nat n))
    · exact nn (by decide) (fmtSci_nl 4 _)
    · exact nn (nn (nn (by decide) (not_nl (plain_fmt _ _ _))) (by decide)) (not_nl (plain_fmt _ _ _))

/-! ## The text does not change the result -/

theorem errorText_ok {v c k : List ℝ} (hc : c.length = v.length) (hk : k.length = v.length) (h0 : (0 : ℝ) ∈ v) (a b : ℕ)
    (f g : ℝ → ℝ) : ∃ t, errorText v c k a b f g = .ok t := by
  have key : ∀ (cur : List ℝ) (f : ℝ → ℝ) (title count : String) (n : ℕ), cur.length = v.length →
      ∃ t, curveText title count n (errors v cur f) (checked v) = .ok t := by
    intro cur f title count n hl
    obtain ⟨e1, e2⟩ := checked_eq hl f
    have hne : checked v ≠ [] := by
      intro h
      have : (0 : ℝ) ∈ checked v := by
        unfold checked VRANGE
        rw [List.mem_filter]
        exact ⟨h0, by norm_num⟩
      rw [h] at this
      cases this
    refine curveText_ok _ _ _ ?_ ?_
    · rw [e2]
      rw [e1] at hne
      simpa using hne
    · rw [e1, e2, List.length_map, List.length_map]
  obtain ⟨t1, h1⟩ := key c f "\t- DC I-V curve:" "\t\t- npts for DC I-V: " a hc
  obtain ⟨t2, h2⟩ := key k g "\t- KK curve:" "\t\t- npts for KK I-V: " b hk
  unfold errorText
  rw [h1, py_bind, h2, py_bind]
  exact ⟨_, rfl⟩

theorem setupPrint_fst (S : Splines) {v c k : List ℝ} (p : Params) (verbose : Bool) (hc : c.length = v.length)
    (hk : k.length = v.length) (h0 : (0 : ℝ) ∈ v) :
    Prod.fst <$> setupPrint S v c k p verbose = setupInterpolation S v c k p := by
  unfold setupPrint setupInterpolation
  simp only [map_bind]
  refine bind_congr fun dcIdx => bind_congr fun kkIdx => bind_congr fun xd => bind_congr fun yd => bind_congr fun fDc =>
    bind_congr fun xk => bind_congr fun yk => bind_congr fun fKk => ?_
  obtain ⟨t, ht⟩ := errorText_ok hc hk h0 dcIdx.length kkIdx.length fDc fKk
  rw [ht]
  cases verbose <;> simp only [Bool.false_eq_true, if_false, if_true, pure_bind, py_bind, map_bind, map_pure]

end QMix.RespPrint
