import Verif.Lemmas.HarmonicBalance
import Verif.Lemmas.Mtsda

/-!
# Lemmas about the harmonic balance model: the Newton step and the public functions
-/

namespace QMix.HB

open Complex QMix.Qt

/-! ## The Newton step -/

theorem pyTab_ok_iff {α : Type} {n : ℕ} {f : Fin n → Py α} {g : Fin n → α} :
    pyTab n f = .ok g ↔ ∀ i, f i = .ok (g i) := by
  induction n with
  | zero =>
    constructor
    · exact fun _ i => i.elim0
    · intro _
      unfold pyTab
      congr 1
      funext i
      exact i.elim0
  | succ n ih =>
    unfold pyTab
    constructor
    · intro h
      obtain ⟨x, hx, h⟩ := bind_ok_iff.1 h
      obtain ⟨r, hr, h⟩ := bind_ok_iff.1 h
      cases h
      intro i
      refine Fin.cases ?_ (fun j => ?_) i
      · exact hx
      · exact ih.1 hr j
    · intro h
      rw [h 0, py_bind, (ih (g := fun i => g i.succ)).2 fun i => h i.succ, py_bind]
      congr 1
      exact Fin.cons_self_tail g

/-- Real and imaginary parts of all signals. -/
def realify {n : ℕ} (x : Fin n → ℂ) : JIx n → ℝ := fun pa => if pa.2 = 0 then (x pa.1).re else (x pa.1).im

theorem realify_inj {n : ℕ} {x y : Fin n → ℂ} (h : realify x = realify y) : x = y := by
  funext k
  apply Complex.ext
  · simpa [realify] using congrFun h (k, 0)
  · simpa [realify] using congrFun h (k, 1)

theorem realify_correction {n N : ℕ} (inv : Fin N → Matrix (JIx n) (JIx n) ℝ) (err : Sig n N)
    (i : Fin N) : realify (fun k => correction inv err k i)
      = -(inv i).mulVec (realify fun k => err k i) := by
  funext ⟨p, a⟩
  simp only [realify, correction, Matrix.mulVec, dotProduct, Pi.neg_apply, Fintype.sum_prod_type,
    Fin.sum_univ_two]
  fin_cases a
  · simp only [Fin.zero_eta, if_true, Complex.re_sum, ← Finset.sum_neg_distrib]
    refine Finset.sum_congr rfl fun q _ => ?_
    simp
  · simp only [Fin.mk_one, one_ne_zero, if_false, Complex.im_sum, ← Finset.sum_neg_distrib]
    refine Finset.sum_congr rfl fun q _ => ?_
    simp

theorem eq_sum_basis {n : ℕ} (x : Fin n → ℂ) : x = ∑ q, ((x q).re • (Pi.single q 1 : Fin n → ℂ)
    + (x q).im • (Pi.single q I : Fin n → ℂ)) := by
  funext k
  simp only [Finset.sum_apply, Pi.add_apply, Pi.smul_apply]
  rw [Finset.sum_eq_single k]
  · simp
  · intro q _ hq
    simp [Pi.single_eq_of_ne (Ne.symm hq)]
  · simp

/-- The matrix of a real linear map in the real coordinates. -/
theorem realify_linear {n : ℕ} (M : (Fin n → ℂ) →ₗ[ℝ] (Fin n → ℂ)) (J : Matrix (JIx n) (JIx n) ℝ)
    (hJ : ∀ p q, J (p, 0) (q, 0) = (M (Pi.single q 1) p).re ∧ J (p, 0) (q, 1) = (M (Pi.single q I) p).re
      ∧ J (p, 1) (q, 0) = (M (Pi.single q 1) p).im ∧ J (p, 1) (q, 1) = (M (Pi.single q I) p).im)
    (x : Fin n → ℂ) : realify (M x) = J.mulVec (realify x) := by
  funext ⟨p, a⟩
  have hx : M x = ∑ q, ((x q).re • M (Pi.single q (1 : ℂ)) + (x q).im • M (Pi.single q I)) := by
    conv_lhs => rw [eq_sum_basis x]
    simp only [map_sum, map_add, map_smul]
  simp only [realify, Matrix.mulVec, dotProduct, Fintype.sum_prod_type, Fin.sum_univ_two]
  fin_cases a
  · simp only [Fin.zero_eta, if_true, hx, Finset.sum_apply, Complex.re_sum]
    refine Finset.sum_congr rfl fun q _ => ?_
    simp [(hJ p q).1, (hJ p q).2.1]; ring
  · simp only [Fin.mk_one, one_ne_zero, if_false, hx, Finset.sum_apply, Complex.im_sum]
    refine Finset.sum_congr rfl fun q _ => ?_
    simp [(hJ p q).2.2.1, (hJ p q).2.2.2]; ring

theorem dv_ne : (dv : ℂ) ≠ 0 := by unfold dv; norm_num

theorem bump_point {n N : ℕ} (vj : Sig n N) (q : Fin n) (c : ℂ) (i : Fin N) :
    (fun k => bump vj q c k i) = (fun k => vj k i) + (dv : ℝ) • (Pi.single q c : Fin n → ℂ) := by
  funext k
  unfold bump
  by_cases h : k = q
  · subst h; simp [mul_comm]
  · simp [h, Pi.single_eq_of_ne h]

/-- One update for a real-affine current multiplies the error by `1 - d`. -/
theorem update_affine {n N : ℕ} (cur : Sig n N → Py (Sig n N)) (vt zt : Fin n → ℂ) (d : ℝ)
    (c : Sig n N) (L : Fin N → (Fin n → ℂ) →ₗ[ℝ] (Fin n → ℂ))
    (hcur : ∀ v, cur v = .ok fun k i => c k i + L i (fun k => v k i) k) (vj ij w : Sig n N)
    (hij : cur vj = .ok ij) (hw : update cur vt zt d vj ij = .ok w) (ij' : Sig n N)
    (hij' : cur w = .ok ij') (k : Fin n) (i : Fin N) :
    errVec vt zt ij' w k i = (1 - d) * errVec vt zt ij vj k i := by
  rw [hcur] at hij hij'
  cases hij
  cases hij'
  unfold update at hw
  obtain ⟨inv, hinv, hw⟩ := bind_ok_iff.1 hw
  cases hw
  unfold invJacobian at hinv
  obtain ⟨dd, hd, hinv⟩ := bind_ok_iff.1 hinv
  obtain ⟨u, hu, hinv⟩ := bind_ok_iff.1 hinv
  rw [raiseIf_ok] at hu
  cases hinv
  rw [pyTab_ok_iff] at hd
  set err := errVec vt zt (fun k i => c k i + L i (fun k => vj k i) k) vj with herr
  -- the linear part of the error
  let M : Fin N → (Fin n → ℂ) →ₗ[ℝ] (Fin n → ℂ) := fun i =>
    { toFun := fun x k => -(zt k * L i x k) - x k
      map_add' := by intro x y; funext k; simp; ring
      map_smul' := by intro r x; funext k; simp; ring }
  have hM : ∀ i x k, M i x k = -(zt k * L i x k) - x k := fun _ _ _ => rfl
  have hlin : ∀ (v v' : Sig n N) (k : Fin n) (i : Fin N) (h : Fin n → ℂ),
      (fun k => v' k i) = (fun k => v k i) + h →
      errVec vt zt (fun k i => c k i + L i (fun k => v' k i) k) v' k i
        = errVec vt zt (fun k i => c k i + L i (fun k => v k i) k) v k i + M i h k := by
    intro v v' k i h hv
    unfold errVec
    beta_reduce
    rw [hM, hv, map_add]
    have := congrFun hv k
    simp only [Pi.add_apply] at this ⊢
    rw [this]
    ring
  set J : Fin N → Matrix (JIx n) (JIx n) ℝ :=
    fun i => jacobian err (fun q => (dd q).1) (fun q => (dd q).2) i with hJdef
  have hdd : ∀ q, (dd q).1 = errVec vt zt (fun k i => c k i + L i (fun k => bump vj q 1 k i) k)
        (bump vj q 1) ∧ (dd q).2 = errVec vt zt
        (fun k i => c k i + L i (fun k => bump vj q I k i) k) (bump vj q I) := by
    intro q
    have := hd q
    rw [hcur, py_bind, hcur, py_bind] at this
    have := pure_ok_iff.1 this
    rw [← this]
    exact ⟨rfl, rfl⟩
  have hent : ∀ (i : Fin N) (p q : Fin n) (z : ℂ),
      (errVec vt zt (fun k i => c k i + L i (fun k => bump vj q z k i) k) (bump vj q z) p i
        - err p i) / dv = M i (Pi.single q z) p := by
    intro i p q z
    rw [hlin vj (bump vj q z) p i _ (bump_point vj q z i), map_smul, herr, add_sub_cancel_left,
      Pi.smul_apply, Complex.real_smul, mul_div_assoc, mul_comm, div_mul_cancel₀ _ dv_ne]
  have hJ : ∀ i x, realify (M i x) = (J i).mulVec (realify x) := by
    intro i x
    apply realify_linear
    intro p q
    simp only [hJdef, jacobian, if_true, one_ne_zero, if_false, (hdd q).1, (hdd q).2, hent,
      and_self]
  have hcorr : ∀ i, M i (fun k => correction (fun i => (J i)⁻¹) err k i) = -fun k => err k i := by
    intro i
    apply realify_inj
    have hdet : IsUnit (J i).det := by
      rw [isUnit_iff_ne_zero]
      exact fun h => hu ⟨i, h⟩
    rw [hJ, realify_correction, Matrix.mulVec_neg, Matrix.mulVec_mulVec,
      Matrix.mul_nonsing_inv _ hdet, Matrix.one_mulVec]
    funext pa
    simp only [realify, Pi.neg_apply]
    split_ifs <;> simp
  rw [hlin vj _ k i (d • fun k => correction (fun i => (J i)⁻¹) err k i) (by
    funext k; simp [mul_comm, hJdef]), map_smul, hcorr, ← herr]
  simp
  ring

/-- A voltage without error is not changed by an update. -/
theorem update_fixed {n N : ℕ} (cur : Sig n N → Py (Sig n N)) (vt zt : Fin n → ℂ) (d : ℝ)
    (vj ij w : Sig n N) (hw : update cur vt zt d vj ij = .ok w) (i : Fin N)
    (h0 : ∀ k, errVec vt zt ij vj k i = 0) (k : Fin n) : w k i = vj k i := by
  unfold update at hw
  obtain ⟨inv, hinv, hw⟩ := bind_ok_iff.1 hw
  cases hw
  simp [correction, h0]

/-! ## `harmonic_balance` -/

/-- The signals of a circuit. -/
noncomputable abbrev HCct.sigVt {N : ℕ} (cct : HCct N) := to1d cct.numF cct.numP (clampVt cct.vt)
noncomputable abbrev HCct.sigZt {N : ℕ} (cct : HCct N) := to1d cct.numF cct.numP cct.zt

/-- A successful call that enters the iteration. -/
structure Entered {N : ℕ} (cct : HCct N) (resp : ℝ → ℂ) (nb : NumB) (maxIt : ℤ) (stop : ℝ)
    (vjInit : Option (ℕ → ℕ → Arr (Fin N))) (damp : ℝ) (mode : Mode) (zj : ℂ)
    (run : Run N (cct.numF * cct.numP)) (start : ℕ → ℕ → Arr (Fin N)) (m : RespMat (Fin N))
    (s : Stopped (Sig (cct.numF * cct.numP) N) N) : Prop where
  start_eq : startVj cct vjInit zj = .ok start
  matrix : interpolateRespfn cct.toCct resp nb = .ok m
  loop : iterate (currentForHb cct resp nb m) (relErr cct.sigVt cct.sigZt)
    (update (currentForHb cct resp nb m) cct.sigVt cct.sigZt damp) stop maxIt
    (to2d cct.numF cct.numP start) = .ok s
  res : result cct.numF cct.numP mode maxIt s = .ok run.res
  stopped : run.stopped = some s
  cct_eq : run.cct = cct.clamp
  vjInit_eq : run.vjInit = vjInit.map fun v => writeBack cct.numF cct.numP v s.vj

theorem hb_entered {N : ℕ} {cct : HCct N} {resp : ℝ → ℂ} {nb : NumB} {maxIt : ℤ} {stop : ℝ}
    {vjInit : Option (ℕ → ℕ → Arr (Fin N))} {damp : ℝ} {mode : Mode} {zj : ℂ}
    {run : Run N (cct.numF * cct.numP)} (h0 : ¬ ztZero cct)
    (h : harmonicBalance cct resp nb maxIt stop vjInit damp mode zj = .ok run) :
    ∃ start m s, Entered cct resp nb maxIt stop vjInit damp mode zj run start m s := by
  unfold harmonicBalance at h
  rw [if_neg h0] at h
  obtain ⟨start, hst, h⟩ := bind_ok_iff.1 h
  obtain ⟨m, hm, h⟩ := bind_ok_iff.1 h
  obtain ⟨s, hs, h⟩ := bind_ok_iff.1 h
  obtain ⟨r, hr, h⟩ := bind_ok_iff.1 h
  cases h
  exact ⟨start, m, s, ⟨hst, hm, hs, hr, rfl, rfl, rfl⟩⟩

theorem hb_zero {N : ℕ} {cct : HCct N} (resp : ℝ → ℂ) (nb : NumB) (maxIt : ℤ) (stop : ℝ)
    (vjInit : Option (ℕ → ℕ → Arr (Fin N))) (damp : ℝ) (mode : Mode) (zj : ℂ) (h0 : ztZero cct) :
    harmonicBalance cct resp nb maxIt stop vjInit damp mode zj = .ok
      { res := .vj fun f p _ => cct.vt f p, cct := cct, vjInit := vjInit, stopped := none } := by
  unfold harmonicBalance
  rw [if_pos h0]

/-- The run built from its parts, with a given starting point. -/
theorem hb_run {N : ℕ} {cct : HCct N} {resp : ℝ → ℂ} {nb : NumB} {maxIt : ℤ} {stop : ℝ}
    {v : ℕ → ℕ → Arr (Fin N)} {damp : ℝ} {mode : Mode} {zj : ℂ} (h0 : ¬ ztZero cct)
    {m : RespMat (Fin N)} (hm : interpolateRespfn cct.toCct resp nb = .ok m)
    {s : Stopped (Sig (cct.numF * cct.numP) N) N}
    (hs : iterate (currentForHb cct resp nb m) (relErr cct.sigVt cct.sigZt)
      (update (currentForHb cct resp nb m) cct.sigVt cct.sigZt damp) stop maxIt
      (to2d cct.numF cct.numP v) = .ok s) {r : Res N}
    (hr : result cct.numF cct.numP mode maxIt s = .ok r) :
    harmonicBalance cct resp nb maxIt stop (some v) damp mode zj = .ok
      { res := r, cct := cct.clamp, vjInit := some (writeBack cct.numF cct.numP v s.vj),
        stopped := some s } := by
  unfold harmonicBalance
  rw [if_neg h0]
  simp only [startVj, hm, py_bind, hs, hr]
  rfl

theorem harmonicConv_congr (M : ℕ) {A B : ℕ → ℤ → ℂ} (P : ℕ)
    (h : ∀ p, 1 ≤ p → p ≤ P → A p = B p) : Spec.harmonicConv M A P = Spec.harmonicConv M B P := by
  induction P with
  | zero => rfl
  | succ P ih =>
    funext k
    simp only [Spec.harmonicConv]
    rw [ih fun p h1 h2 => h p h1 (by omega), h (P + 1) (by omega) le_rfl]

theorem toneCoeff_congr {v w : ℕ → ℂ} (x : ℝ) (P nb M : ℕ) (h : ∀ p, 1 ≤ p → p ≤ P → v p = w p) :
    Spec.toneCoeff v x P nb M = Spec.toneCoeff w x P nb M :=
  harmonicConv_congr M P fun p h1 h2 => by rw [h p h1 h2]

theorem tonesFrom_congr_range {v w : ℕ → ℕ → ℂ} (freq : ℕ → ℝ) (P M f : ℕ) (l : List ℕ)
    (h : ∀ g p, f ≤ g → g < f + l.length → 1 ≤ p → p ≤ P → v g p = w g p) :
    Spec.tonesFrom v freq P M f l = Spec.tonesFrom w freq P M f l := by
  induction l generalizing f with
  | nil => rfl
  | cons x l ih =>
    simp only [Spec.tonesFrom]
    rw [toneCoeff_congr (freq f) P x M fun p h1 h2 => h f p le_rfl (by simp) h1 h2,
      ih (f + 1) fun g p h1 h2 => h g p (by omega) (by simp; omega)]

/-- The specified current only depends on the voltages of the tones and harmonics in range. -/
theorem qt_congr (resp : ℝ → ℂ) {v w : ℕ → ℕ → ℂ} (freq : ℕ → ℝ) (numF P : ℕ) (tup : List ℕ)
    (vb x : ℝ) (h : ∀ f p, 1 ≤ f → f ≤ numF → 1 ≤ p → p ≤ P → v f p = w f p) :
    Spec.qt resp v freq numF P tup vb x = Spec.qt resp w freq numF P tup vb x := by
  unfold Spec.qt
  rw [tonesFrom_congr_range]
  intro g p h1 h2 h3 h4
  refine h g p h1 ?_ h3 h4
  have := List.length_take_le numF tup
  omega

theorem specCur_congr {N : ℕ} (cct : HCct N) (resp : ℝ → ℂ) (nb : NumB) {v w : ℕ → ℕ → Arr (Fin N)}
    (h : ∀ f p, 1 ≤ f → f ≤ cct.numF → 1 ≤ p → p ≤ cct.numP → v f p = w f p) :
    specCur cct resp nb v = specCur cct resp nb w := by
  funext f p i
  unfold specCur
  apply qt_congr
  intro f p h1 h2 h3 h4
  rw [h f p h1 h2 h3 h4]

theorem clampVt_clampVt (vt : ℕ → ℕ → ℂ) : clampVt (clampVt vt) = clampVt vt := by
  funext f p
  unfold clampVt
  split_ifs with h1 h2 h3 h3
  · rfl
  · rfl
  · rfl
  · rfl

theorem clamp_clamp {N : ℕ} (cct : HCct N) : cct.clamp.clamp = cct.clamp := by
  simp only [HCct.clamp, clampVt_clampVt]

/-- The residuals of the specification for an array of voltages. -/
noncomputable def resid {N : ℕ} (cct : HCct N) (resp : ℝ → ℂ) (nb : NumB)
    (v : ℕ → ℕ → Arr (Fin N)) (f p : ℕ) (i : Fin N) : ℂ :=
  Spec.residual resp cct.freq cct.numF cct.numP (nb.toTup cct.numF) (cct.vb i) cct.vt cct.zt
    (fun f p => v f p i) f p

theorem errVec_resid {N : ℕ} (cct : HCct N) (resp : ℝ → ℂ) (nb : NumB)
    (vj : Sig (cct.numF * cct.numP) N) (k : Fin (cct.numF * cct.numP)) (i : Fin N) :
    errVec cct.sigVt cct.sigZt (to2d cct.numF cct.numP (specCur cct resp nb
      (to3d cct.numF cct.numP vj))) vj k i
      = resid cct.clamp resp nb (to3d cct.numF cct.numP vj) (k / cct.numP + 1) (k % cct.numP + 1) i := by
  unfold errVec resid Spec.residual
  have h : vj k i = to3d cct.numF cct.numP vj (k / cct.numP + 1) (k % cct.numP + 1) i := by
    conv_lhs => rw [← to2d_to3d vj]
    rfl
  rw [h]
  rfl

/-- Every signal is one of the flattened ones. -/
theorem signal_index {F P f p : ℕ} (h1 : 1 ≤ f) (h2 : f ≤ F) (h3 : 1 ≤ p) (h4 : p ≤ P) :
    ∃ k : Fin (F * P), (k : ℕ) = (f - 1) * P + (p - 1) ∧ (k : ℕ) / P + 1 = f ∧ (k : ℕ) % P + 1 = p := by
  refine ⟨⟨(f - 1) * P + (p - 1), idx_lt (by omega) (by omega)⟩, rfl, ?_, ?_⟩
  · show ((f - 1) * P + (p - 1)) / P + 1 = f
    rw [mul_comm, Nat.mul_add_div (by omega), Nat.div_eq_of_lt (by omega)]; omega
  · show ((f - 1) * P + (p - 1)) % P + 1 = p
    rw [mul_comm, Nat.mul_add_mod, Nat.mod_eq_of_lt (by omega)]; omega

theorem signal_range {F P : ℕ} (k : Fin (F * P)) : (k : ℕ) / P + 1 ≤ F ∧ (k : ℕ) % P + 1 ≤ P := by
  have hP : 0 < P := by
    rcases Nat.eq_zero_or_pos P with rfl | h
    · exact absurd k.2 (by simp)
    · exact h
  exact ⟨(Nat.div_lt_iff_lt_mul hP).2 k.2, Nat.mod_lt _ hP⟩

/-- The evaluation of the error in terms of the residuals. -/
theorem evaluated_iff {N : ℕ} (cct : HCct N) (resp : ℝ → ℂ) (nb : NumB) (h : Valid cct.toCct nb)
    {m : RespMat (Fin N)} (hm : interpolateRespfn cct.toCct resp nb = .ok m) (stop : ℝ)
    (vj : Sig (cct.numF * cct.numP) N) (r : Rel × (Fin N → Prop)) :
    Evaluated (currentForHb cct resp nb m) (relErr cct.sigVt cct.sigZt) stop vj r ↔
      signalLoop stop (fun (k : Fin (cct.numF * cct.numP)) i =>
        relDiv ‖resid cct.clamp resp nb (to3d cct.numF cct.numP vj) (k / cct.numP + 1)
          (k % cct.numP + 1) i‖ ‖to3d cct.numF cct.numP vj (k / cct.numP + 1) (k % cct.numP + 1) i‖)
        = .ok r := by
  unfold Evaluated
  rw [currentForHb_eq cct resp nb h hm]
  have : relErr cct.sigVt cct.sigZt vj (to2d cct.numF cct.numP (specCur cct resp nb
      (to3d cct.numF cct.numP vj))) = fun (k : Fin (cct.numF * cct.numP)) i =>
        relDiv ‖resid cct.clamp resp nb (to3d cct.numF cct.numP vj) (k / cct.numP + 1)
          (k % cct.numP + 1) i‖ ‖to3d cct.numF cct.numP vj (k / cct.numP + 1) (k % cct.numP + 1) i‖ := by
    funext k i
    unfold relErr
    rw [errVec_resid]
    congr 2
    conv_lhs => rw [← to2d_to3d vj]
    rfl
  rw [← this]
  constructor
  · rintro ⟨e, he, hr⟩; cases he; exact hr
  · intro hr; exact ⟨_, rfl, hr⟩

theorem resid_congr {N : ℕ} (cct : HCct N) (resp : ℝ → ℂ) (nb : NumB) {v w : ℕ → ℕ → Arr (Fin N)}
    (h : ∀ f p, 1 ≤ f → f ≤ cct.numF → 1 ≤ p → p ≤ cct.numP → v f p = w f p) {f p : ℕ} (h1 : 1 ≤ f)
    (h2 : f ≤ cct.numF) (h3 : 1 ≤ p) (h4 : p ≤ cct.numP) (i : Fin N) :
    resid cct resp nb v f p i = resid cct resp nb w f p i := by
  unfold resid Spec.residual
  rw [qt_congr (w := fun f p => w f p i) resp cct.freq cct.numF cct.numP _ (cct.vb i) _
    fun f p h1 h2 h3 h4 => by rw [h f p h1 h2 h3 h4]]
  beta_reduce
  rw [h f p h1 h2 h3 h4]

theorem resid_round {N : ℕ} (cct : HCct N) (resp : ℝ → ℂ) (nb : NumB) (v : ℕ → ℕ → Arr (Fin N))
    {f p : ℕ} (h1 : 1 ≤ f) (h2 : f ≤ cct.numF) (h3 : 1 ≤ p) (h4 : p ≤ cct.numP) (i : Fin N) :
    resid cct.clamp resp nb (to3d cct.numF cct.numP (to2d cct.numF cct.numP v)) f p i
      = resid cct.clamp resp nb v f p i :=
  resid_congr cct.clamp resp nb (fun _ _ h1 h2 h3 h4 => to3d_to2d v h1 h2 h3 h4) h1 h2 h3 h4 i

/-! ## `check_hb_error` -/

theorem pyFor_unit {κ : Type} (l : List κ) (body : κ → Py Unit) :
    pyFor l () (fun _ k => body k) = .ok () ↔ ∀ k ∈ l, body k = .ok () := by
  induction l with
  | nil => simp [pyFor]
  | cons k l ih =>
    unfold pyFor
    cases h : body k with
    | error e => simp [h]
    | ok u => simp [h, ih]

open Classical in
theorem check_ok_iff {N : ℕ} (cct : HCct N) (resp : ℝ → ℂ) (nb : NumB) (h : Valid cct.toCct nb)
    (v : ℕ → ℕ → Arr (Fin N)) (stop : ℝ) :
    checkHbError v cct resp nb stop = .ok () ↔ 0 < N ∧ ∀ f p, 1 ≤ f → f ≤ cct.numF → 1 ≤ p →
      p ≤ cct.numP → ∀ i, (relDiv ‖resid cct resp nb v f p i‖ ‖v f p i‖).lt (.fin stop) := by
  unfold checkHbError
  rw [qtcurrentList_eq _ _ _ _ _ h, py_bind, allFreqs, flatMap_range, List.map_map, rowsToSig_map,
    py_bind]
  dsimp only
  rw [pyFor_unit]
  simp only [pyFor_unit, List.mem_range]
  have hent : ∀ f p, f < cct.numF → p < cct.numP → ∀ i,
      cct.vt (f + 1) (p + 1) - cct.zt (f + 1) (p + 1) * to3d cct.numF cct.numP
        (fun k : Fin (cct.numF * cct.numP) => ((fun f i =>
          Spec.qt resp (fun f p => v f p i) cct.freq cct.numF cct.numP (nb.toTup cct.numF) (cct.vb i) f)
          ∘ fun k => cct.freq (k / cct.numP + 1) * ((k % cct.numP + 1 : ℕ) : ℝ)) k) (f + 1) (p + 1) i
        - v (f + 1) (p + 1) i = resid cct resp nb v (f + 1) (p + 1) i := by
    intro f p hf hp i
    have : to3d cct.numF cct.numP
        (fun k : Fin (cct.numF * cct.numP) => ((fun f i =>
          Spec.qt resp (fun f p => v f p i) cct.freq cct.numF cct.numP (nb.toTup cct.numF) (cct.vb i) f)
          ∘ fun k => cct.freq (k / cct.numP + 1) * ((k % cct.numP + 1 : ℕ) : ℝ)) k) (f + 1) (p + 1)
        = specCur cct resp nb v (f + 1) (p + 1) :=
      to3d_to2d (F := cct.numF) (P := cct.numP) (specCur cct resp nb v) (by omega) (by omega)
        (by omega) (by omega)
    rw [this]
    rfl
  constructor
  · intro hc
    refine ⟨?_, fun f p h1 h2 h3 h4 i => ?_⟩
    · by_contra hN
      obtain rfl : N = 0 := by omega
      have := hc 0 h.tones_pos 0 h.harmonics
      simp [npMax] at this
      cases this
    · have := hc (f - 1) (by omega) (p - 1) (by omega)
      obtain ⟨mx, hmx, hlt⟩ := bind_ok_iff.1 this
      rw [pyAssert_ok, npMax_lt hmx] at hlt
      have := hlt _ (List.mem_ofFn.2 ⟨i, rfl⟩)
      rw [hent _ _ (by omega) (by omega), show f - 1 + 1 = f by omega,
        show p - 1 + 1 = p by omega] at this
      exact this
  · rintro ⟨hN, hc⟩ f hf p hp
    simp only [hent f p hf hp]
    obtain ⟨mx, hmx⟩ := npMax_ok (l := List.ofFn fun i =>
      relDiv ‖resid cct resp nb v (f + 1) (p + 1) i‖ ‖v (f + 1) (p + 1) i‖) (by
        intro h; have := congrArg List.length h; simp at this; omega)
    rw [hmx, py_bind, pyAssert_ok, npMax_lt hmx]
    intro y hy
    obtain ⟨i, rfl⟩ := List.mem_ofFn.1 hy
    exact hc (f + 1) (p + 1) (by omega) (by omega) (by omega) (by omega) i

/-! ## No current -/

theorem corr_zero (l : List (Spec.Tone × ℤ)) (v : ℝ) : Spec.corr (fun _ => 0) l v = 0 := by
  induction l generalizing v with
  | nil => rfl
  | cons x l ih =>
    obtain ⟨t, a⟩ := x
    simp only [Spec.corr]
    refine Finset.sum_eq_zero fun k _ => ?_
    rw [ih]
    simp

theorem qt_zero (v : ℕ → ℕ → ℂ) (freq : ℕ → ℝ) (numF P : ℕ) (tup : List ℕ) (vb x : ℝ) :
    Spec.qt (fun _ => 0) v freq numF P tup vb x = 0 := by
  unfold Spec.qt Spec.current
  have : ∀ l, (if round4 (Spec.mixFreq l) = round4 x then Spec.mixProduct (fun _ => 0) l vb else 0)
      = 0 := by
    intro l
    simp [Spec.mixProduct, corr_zero]
  simp only [this]
  exact Spec.boxSum_zero P _

theorem resid_zero {N : ℕ} (cct : HCct N) (nb : NumB) (v : ℕ → ℕ → Arr (Fin N)) (f p : ℕ)
    (i : Fin N) : resid cct (fun _ => 0) nb v f p i = cct.vt f p - v f p i := by
  unfold resid Spec.residual
  rw [qt_zero, mul_zero, sub_zero]

/-- The update when there is no current at all. -/
theorem update_no_current {n N : ℕ} (cur : Sig n N → Py (Sig n N)) (vt zt : Fin n → ℂ) (d : ℝ)
    (hcur : ∀ v, cur v = .ok fun _ _ => 0) (vj ij : Sig n N) (hij : cur vj = .ok ij) :
    update cur vt zt d vj ij = .ok fun k i => vj k i + (vt k - vj k i) * d := by
  rw [hcur] at hij
  cases hij
  have hJ : ∀ i, jacobian (errVec vt zt (fun _ _ => 0) vj)
      (fun q => errVec vt zt (fun _ _ => 0) (bump vj q 1))
      (fun q => errVec vt zt (fun _ _ => 0) (bump vj q I)) i = (-1 : Matrix (JIx n) (JIx n) ℝ) := by
    intro i
    ext ⟨p, a⟩ ⟨q, b⟩
    have hz : ∀ z : ℂ, (errVec vt zt (fun _ _ => 0) (bump vj q z) p i
        - errVec vt zt (fun _ _ => 0) vj p i) / dv = if p = q then -z else 0 := by
      intro z
      unfold errVec bump
      split_ifs with h
      · rw [show vt p - zt p * 0 - (vj p i + z * dv) - (vt p - zt p * 0 - vj p i) = -z * dv by ring,
          mul_div_assoc, div_self dv_ne, mul_one]
      · ring
    simp only [jacobian, Matrix.neg_apply, Matrix.one_apply, Prod.mk.injEq]
    fin_cases a <;> fin_cases b <;> simp [hz] <;> split_ifs <;> simp
  have hinv : invJacobian cur vt zt (errVec vt zt (fun _ _ => 0) vj) vj
      = .ok fun _ => (-1 : Matrix (JIx n) (JIx n) ℝ) := by
    unfold invJacobian
    rw [pyTab_ok_iff (g := fun q => (errVec vt zt (fun _ _ => 0) (bump vj q 1),
      errVec vt zt (fun _ _ => 0) (bump vj q I))) |>.2 (by
        intro q; rw [hcur, py_bind, hcur, py_bind]; rfl), py_bind]
    dsimp only
    simp only [hJ]
    rw [raiseIf_neg (by
      rintro ⟨i, hi⟩
      rw [Matrix.det_neg, Matrix.det_one, mul_one] at hi
      exact pow_ne_zero _ (by norm_num) hi)]
    have : (-1 : Matrix (JIx n) (JIx n) ℝ)⁻¹ = -1 := Matrix.inv_eq_left_inv (by simp)
    rw [this]
    rfl
  unfold update
  dsimp only
  rw [hinv, py_bind]
  congr 1
  funext k i
  congr 2
  unfold correction
  rw [Finset.sum_eq_single k]
  · simp only [Matrix.neg_apply, Matrix.one_apply]
    simp only [errVec, mul_zero, sub_zero, Prod.mk.injEq, true_and, if_true]
    apply Complex.ext <;> simp
  · intro q _ hq
    simp [Matrix.one_apply, Ne.symm hq]
  · simp

end QMix.HB
