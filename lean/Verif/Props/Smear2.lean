import Verif.Props.Smear
import Verif.Props.RespFn2

/-!
# C160 for the classes of response functions
-/

namespace QMix.Props

open QMix.Np QMix.MathFn QMix.RespFn QMix.Spec

theorem vinit_step : VINIT.getD (VINIT.length - 1) 0 - VINIT.getD (VINIT.length - 2) 0 = 1 / 200 := by
  rw [VINIT_length]
  unfold VINIT
  rw [tab_getD (by norm_num), tab_getD (by norm_num)]
  push_cast
  norm_num

theorem perfect_sample (k : ℕ) : perfectElem ((k : ℝ) * (35 / 7000))
    = if k < 200 then 0 else if k = 200 then 1 / 2 else (k : ℝ) / 200 := by
  have hk0 : (0 : ℝ) ≤ (k : ℝ) * (35 / 7000) := by positivity
  rcases lt_trichotomy k 200 with c | c | c
  · have : (k : ℝ) < 200 := by exact_mod_cast c
    rw [if_pos c]
    unfold perfectElem
    dsimp only
    rw [if_pos (by rw [abs_of_nonneg hk0]; linarith)]
  · subst c
    unfold perfectElem
    dsimp only
    norm_num
  · have : (200 : ℝ) < (k : ℝ) := by exact_mod_cast c
    rw [if_neg (by omega), if_neg (by omega), perfectElem_gt (by rw [abs_of_nonneg hk0]; linarith)]
    ring

/-- C160: what `RespFnPerfect` stores when smearing. An impulse of height 1 (one sample, at the gap) is smeared and
added to the perfect curve, and the sum is smeared once more, so that the curve of the
documentation and a curve proportional to the voltage step are added up. -/
theorem C160_perfect (S : Splines) {p : Params} {s : ℝ} (hs : p.vSmear = some s) (h1 : 1 / 600 ≤ s) (h2 : s ≤ 5)
    {r : Obj} (h : respPerfect S p = .ok r) :
    ∃ impulse bump i raw : List ℝ,
      (impulse.length = 7001 ∧ ∀ k : ℕ, k < 7001 → impulse[k]? = some (if k = 200 then 1 else 0)) ∧
      Smoothed (200 * s) 3 impulse bump ∧
      (i.length = 7001 ∧ ∀ k : ℕ, k < 7001 → ∀ b, bump[k]? = some b →
        i[k]? = some (b + if k < 200 then 0 else if k = 200 then 1 / 2 else (k : ℝ) / 200)) ∧
      Unfolded i raw ∧
      Smoothed (200 * s) 3 (List.zipWith (fun a b => a - b) raw r.voltage)
        (List.zipWith (fun a b => a - b) r.current r.voltage) := by
  have hw : winLen (s * 200) 3 ≤ (tab 7001 fun i => if i = 200 then (1 : ℝ) else 0).length := by
    rw [tab_length]
    unfold winLen
    have : ⌈3 * (s * 200) + 1 / 10 ^ 5 - -(3 * (s * 200))⌉ ≤ ((7001 : ℕ) : ℤ) := by
      rw [Int.ceil_le]
      push_cast
      linarith
    omega
  have hg := gaussConv_eq (x := tab 7001 fun i => if i = 200 then (1 : ℝ) else 0) (sigma := s * 200) (ext := 3)
    (by linarith) hw
  unfold respPerfect at h
  rw [hs] at h
  dsimp only at h
  rw [perfectSmeared_eq h1 h2, py_bind] at h
  obtain ⟨raw, d, -, hU, hd, -, -, -, hsm⟩ := C160_smear h hs (by rw [tab_length, VINIT_length])
  rw [vinit_step] at hd
  rw [hd, show s / (1 / 200) = 200 * s by ring] at hsm
  refine ⟨tab 7001 fun i => if i = 200 then 1 else 0, _, tab 7001 (perfectBump s), raw, ⟨tab_length _ _, ?_⟩,
    mul_comm s 200 ▸ C155_average hg, ⟨tab_length _ _, ?_⟩, hU, hsm⟩
  · intro k hk
    unfold tab
    rw [List.getElem?_map, List.getElem?_range hk]
    rfl
  · intro k hk b hb
    have e : ∀ f : ℕ → ℝ, (tab 7001 f)[k]? = some (f k) := by
      intro f
      unfold tab
      rw [List.getElem?_map, List.getElem?_range hk]
      rfl
    rw [tab_length, e] at hb
    rw [e]
    have hb := Option.some.inj hb
    refine congrArg some ?_
    unfold perfectBump
    rw [mul_comm s 200, hb]
    refine congrArg (fun t => b + t) ?_
    exact perfect_sample k

/-- C160 applies: the polynomial model of order 50, smeared by 0.02. -/
example (S : Splines) : ∃ r, respPolynomial S 50 { maxNptsDc := 101, maxNptsKk := 251, vSmear := some 0.02 } = .ok r ∧
    ∃ raw, Smoothed 4 3 (List.zipWith (fun a b => a - b) raw r.voltage)
      (List.zipWith (fun a b => a - b) r.current r.voltage) := by
  obtain ⟨r, hr⟩ := C78_polynomial S (p := { maxNptsDc := 101, maxNptsKk := 251, vSmear := some 0.02 })
    ⟨rfl, by norm_num, by norm_num, fun s hs => by cases hs; norm_num⟩ (order := 50) (by norm_num)
  refine ⟨r, hr, ?_⟩
  unfold respPolynomial at hr
  obtain ⟨i, hi, hr⟩ := bind_ok_iff.1 hr
  have hl : i.length = VINIT.length := (mapM_ok hi).length_eq.symm
  obtain ⟨raw, d, -, -, hd, -, -, -, hsm⟩ := C160_smear hr rfl hl
  rw [vinit_step] at hd
  rw [hd, show (0.02 : ℝ) / (1 / 200) = 4 by norm_num] at hsm
  exact ⟨raw, hsm⟩

/-- C160 applies to `RespFnPerfect`, smeared by 0.02. -/
example (S : Splines) : ∃ r, respPerfect S { maxNptsDc := 101, maxNptsKk := 251, vSmear := some 0.02 } = .ok r :=
  C78_perfect S ⟨rfl, by norm_num, by norm_num, fun s hs => by cases hs; norm_num⟩

/-- C160_parallel applies: the curve that is zero up to the gap and the voltage from there on is not changed by
smearing at 1.5 times the gap voltage. -/
example (S : Splines) : ∃ r, respInit S VINIT (tab 7001 fun k => if k < 200 then 0 else (k : ℝ) / 200)
    { maxNptsDc := 101, maxNptsKk := 251, vSmear := some 0.02 } = .ok r ∧ r.current[7300]? = some (3 / 2 : ℝ) := by
  obtain ⟨r, hr⟩ := vinit_init S (p := { maxNptsDc := 101, maxNptsKk := 251, vSmear := some 0.02 })
    ⟨rfl, by norm_num, by norm_num, fun s hs => by cases hs; norm_num⟩
    (c := tab 7001 fun k => if k < 200 then 0 else (k : ℝ) / 200) (tab_length _ _)
  refine ⟨r, hr, ?_⟩
  have hU := unfolded (a := tab 7001 fun k => if k < 200 then 0 else (k : ℝ) / 200)
    (by rw [tab_length]; norm_num)
  have hv := unfolded (a := VINIT) (by rw [VINIT_length]; norm_num)
  obtain ⟨-, -, -, er, -⟩ := respInit_ok hr
  rw [← er] at hv
  have e : ∀ (f : ℕ → ℝ) (k : ℕ), k < 7001 → (tab 7001 f)[k]? = some (f k) := by
    intro f k hk
    unfold tab
    rw [List.getElem?_map, List.getElem?_range hk]
    rfl
  have hraw : ∀ k : ℕ, 200 ≤ k → k < 7001 →
      (reflected (tab 7001 fun k => if k < 200 then 0 else (k : ℝ) / 200))[7000 + k]? = some ((k : ℝ) / 200) := by
    intro k h1 h2
    have := hU.right k _ (e _ k h2)
    rw [tab_length] at this
    rw [this, if_neg (by omega)]
  have hvol : ∀ k : ℕ, k < 7001 → r.voltage[7000 + k]? = some ((k : ℝ) / 200) := by
    intro k h2
    have := hv.right k ((k : ℝ) * (35 / 7000)) (e _ k h2)
    rw [VINIT_length] at this
    rw [this, show (k : ℝ) * (35 / 7000) = (k : ℝ) / 200 by ring]
  have hlen : r.voltage.length = 14001 := by
    have := hv.length
    rw [VINIT_length] at this
    omega
  have h12 : (3 * (0.02 : ℝ) / (1 / 200) + 1) = 13 := by norm_num
  have := C160_parallel (d := 1 / 200) (k₀ := 0) (i := 7300) hr rfl (by rw [tab_length, VINIT_length]) hU
    vinit_step.symm (by
      intro j x y hy hx hj
      rw [h12, abs_le] at hj
      push_cast at hj
      have j1 : 7287 ≤ j := by
        have : (7287 : ℝ) ≤ j := by linarith [hj.1]
        exact_mod_cast this
      have j2 : j ≤ 7313 := by
        have : (j : ℝ) ≤ 7313 := by linarith [hj.2]
        exact_mod_cast this
      have a1 := hraw (j - 7000) (by omega) (by omega)
      have a2 := hvol (j - 7000) (by omega)
      rw [show 7000 + (j - 7000) = j by omega] at a1 a2
      rw [a1] at hy
      rw [a2] at hx
      rw [← Option.some.inj hy, ← Option.some.inj hx, add_zero])
    (by rw [h12]; norm_num) (by rw [h12, hlen]; norm_num)
  rw [this]
  have := hraw 300 (by norm_num) (by norm_num)
  rw [this]
  norm_num

end QMix.Props
