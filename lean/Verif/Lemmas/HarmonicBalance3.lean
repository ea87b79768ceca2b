import Verif.Lemmas.HarmonicBalance2

/-!
# Lemmas about the harmonic balance model: locality in the bias point, restarts
-/

namespace QMix.HB

open Complex QMix.Qt

theorem relDiv_lt {a b c : ℝ} (hb : 0 ≤ b) : (relDiv a b).lt (.fin c) ↔ b ≠ 0 ∧ a < c * b := by
  by_cases h : b = 0
  · unfold relDiv
    rw [if_pos h]
    simp only [h, ne_eq, not_true, false_and, iff_false]
    split_ifs <;> exact id
  · rw [relDiv_lt_iff (lt_of_le_of_ne hb (Ne.symm h))]
    simp [h]

theorem lt_of_le_of_ne_mul {a b c : ℝ} (hb : 0 < b) (h : (relDiv a b).le (.fin c)) (hne : a ≠ c * b) :
    (relDiv a b).lt (.fin c) := by
  rw [relDiv_lt hb.le]
  exact ⟨hb.ne', lt_of_le_of_ne (relDiv_le hb.le h) hne⟩

/-- The current at a bias point only depends on the voltages at that point. -/
def Local {n N M : ℕ} (cur : Sig n N → Py (Sig n N)) (cur' : Sig n M → Py (Sig n M)) (i : Fin N)
    (j : Fin M) : Prop :=
  ∀ v v' a a', (∀ k, v k i = v' k j) → cur v = .ok a → cur' v' = .ok a' → ∀ k, a k i = a' k j

/-- An update at a bias point only depends on the voltages at that point. -/
theorem update_local {n N M : ℕ} {cur : Sig n N → Py (Sig n N)} {cur' : Sig n M → Py (Sig n M)}
    {i : Fin N} {j : Fin M} (hl : Local cur cur' i j) (vt zt : Fin n → ℂ) (d : ℝ)
    {v ij w : Sig n N} {v' ij' w' : Sig n M} (hv : ∀ k, v k i = v' k j)
    (hij : ∀ k, ij k i = ij' k j) (hw : update cur vt zt d v ij = .ok w)
    (hw' : update cur' vt zt d v' ij' = .ok w') (k : Fin n) : w k i = w' k j := by
  unfold update at hw hw'
  obtain ⟨inv, hinv, hw⟩ := bind_ok_iff.1 hw
  obtain ⟨inv', hinv', hw'⟩ := bind_ok_iff.1 hw'
  cases hw
  cases hw'
  unfold invJacobian at hinv hinv'
  obtain ⟨dd, hd, hinv⟩ := bind_ok_iff.1 hinv
  obtain ⟨-, -, hinv⟩ := bind_ok_iff.1 hinv
  obtain ⟨dd', hd', hinv'⟩ := bind_ok_iff.1 hinv'
  obtain ⟨-, -, hinv'⟩ := bind_ok_iff.1 hinv'
  cases hinv
  cases hinv'
  rw [pyTab_ok_iff] at hd hd'
  have herr : ∀ k, errVec vt zt ij v k i = errVec vt zt ij' v' k j := by
    intro k
    unfold errVec
    rw [hv, hij]
  have hbump : ∀ q c k, bump v q c k i = bump v' q c k j := by
    intro q c k
    unfold bump
    rw [hv]
  have hdd : ∀ q p, (dd q).1 p i = (dd' q).1 p j ∧ (dd q).2 p i = (dd' q).2 p j := by
    intro q p
    have h1 := hd q
    have h2 := hd' q
    obtain ⟨a, ha, h1⟩ := bind_ok_iff.1 h1
    obtain ⟨b, hb, h1⟩ := bind_ok_iff.1 h1
    obtain ⟨a', ha', h2⟩ := bind_ok_iff.1 h2
    obtain ⟨b', hb', h2⟩ := bind_ok_iff.1 h2
    rw [← pure_ok_iff.1 h1, ← pure_ok_iff.1 h2]
    constructor
    · show errVec vt zt a (bump v q 1) p i = errVec vt zt a' (bump v' q 1) p j
      unfold errVec
      rw [hl _ _ _ _ (hbump q 1) ha ha', hbump]
    · show errVec vt zt b (bump v q I) p i = errVec vt zt b' (bump v' q I) p j
      unfold errVec
      rw [hl _ _ _ _ (hbump q I) hb hb', hbump]
  have hJ : jacobian (errVec vt zt ij v) (fun q => (dd q).1) (fun q => (dd q).2) i
      = jacobian (errVec vt zt ij' v') (fun q => (dd' q).1) (fun q => (dd' q).2) j := by
    ext ⟨p, a⟩ ⟨q, b⟩
    unfold jacobian
    dsimp only
    rw [herr]
    have : (if b = 0 then (dd q).1 else (dd q).2) p i = (if b = 0 then (dd' q).1 else (dd' q).2) p j := by
      split_ifs
      · exact (hdd q p).1
      · exact (hdd q p).2
    rw [this]
  beta_reduce
  rw [hv]
  congr 2
  unfold correction
  refine Finset.sum_congr rfl fun q _ => ?_
  beta_reduce
  rw [hJ, herr]

theorem steps_local {n N M : ℕ} {cur : Sig n N → Py (Sig n N)} {cur' : Sig n M → Py (Sig n M)}
    {i : Fin N} {j : Fin M} (hl : Local cur cur' i j) (vt zt : Fin n → ℂ) (d : ℝ) (t : ℕ)
    {v w : Sig n N} {v' w' : Sig n M} (hv : ∀ k, v k i = v' k j)
    (hs : Spec.Steps (Next cur (update cur vt zt d)) t v w)
    (hs' : Spec.Steps (Next cur' (update cur' vt zt d)) t v' w') (k : Fin n) : w k i = w' k j := by
  induction hs generalizing v' with
  | zero x => cases hs'; exact hv k
  | succ hn _ ih =>
    cases hs' with
    | succ hn' hs' =>
      obtain ⟨e, he, hu⟩ := hn
      obtain ⟨e', he', hu'⟩ := hn'
      exact ih (update_local hl vt zt d hv (hl _ _ _ _ hv he he') hu hu') hs'

/-- The circuit with other bias points. -/
abbrev HCct.withBias {N M : ℕ} (cct : HCct N) (vb : Fin M → ℝ) : HCct M :=
  { numF := cct.numF, numP := cct.numP, freq := cct.freq, vb := vb, vt := cct.vt, zt := cct.zt }

theorem withBias_valid {N M : ℕ} (cct : HCct N) (vb : Fin M → ℝ) {nb : NumB}
    (h : Valid cct.toCct nb) : Valid (cct.withBias vb).toCct nb :=
  ⟨h.tones_pos, h.tones_le, h.harmonics, h.freq_pos, h.limits⟩

theorem current_local {N M : ℕ} (cct : HCct N) (vb : Fin M → ℝ) (resp : ℝ → ℂ) (nb : NumB)
    (h : Valid cct.toCct nb) {m : RespMat (Fin N)} {m' : RespMat (Fin M)}
    (hm : interpolateRespfn cct.toCct resp nb = .ok m)
    (hm' : interpolateRespfn (cct.withBias vb).toCct resp nb = .ok m') {i : Fin N} {j : Fin M}
    (hij : cct.vb i = vb j) :
    Local (currentForHb cct resp nb m) (currentForHb (cct.withBias vb) resp nb m') i j := by
  intro v v' a a' hv ha ha' k
  rw [currentForHb_eq cct resp nb h hm] at ha
  have ha' := (currentForHb_eq (cct.withBias vb) resp nb (withBias_valid cct vb h) hm' v').symm.trans ha'
  cases ha
  cases ha'
  show specCur cct resp nb _ _ _ i = specCur (cct.withBias vb) resp nb _ _ _ j
  unfold specCur
  show Spec.qt resp _ cct.freq cct.numF cct.numP _ (cct.vb i) _
    = Spec.qt resp _ cct.freq cct.numF cct.numP _ (vb j) _
  rw [hij]
  apply qt_congr
  intro f p h1 h2 h3 h4
  obtain ⟨q, -, hqf, hqp⟩ := signal_index h1 h2 h3 h4
  have e1 : to3d cct.numF cct.numP v f p i = v q i := by
    conv_rhs => rw [← to2d_to3d v]
    show _ = to3d cct.numF cct.numP v (q / cct.numP + 1) (q % cct.numP + 1) i
    rw [hqf, hqp]
  have e2 : to3d cct.numF cct.numP v' f p j = v' q j := by
    conv_rhs => rw [← to2d_to3d v']
    show _ = to3d cct.numF cct.numP v' (q / cct.numP + 1) (q % cct.numP + 1) j
    rw [hqf, hqp]
  rw [e1, hv q]
  exact e2.symm

/-- The current at a point does not depend on the other points of the same circuit. -/
theorem current_local_self {N : ℕ} (cct : HCct N) (resp : ℝ → ℂ) (nb : NumB)
    (h : Valid cct.toCct nb) {m : RespMat (Fin N)}
    (hm : interpolateRespfn cct.toCct resp nb = .ok m) (i : Fin N) :
    Local (currentForHb cct resp nb m) (currentForHb cct resp nb m) i i :=
  current_local cct cct.vb resp nb h hm hm rfl

/-- Points without error stay where they are. -/
theorem steps_fixed {n N : ℕ} {cur : Sig n N → Py (Sig n N)} {i : Fin N} (hl : Local cur cur i i)
    (vt zt : Fin n → ℂ) (d : ℝ) (t : ℕ) {v w e : Sig n N} (he : cur v = .ok e)
    (h0 : ∀ k, errVec vt zt e v k i = 0) (hs : Spec.Steps (Next cur (update cur vt zt d)) t v w)
    (k : Fin n) : w k i = v k i := by
  suffices H : ∀ x, (∀ k, x k i = v k i) →
      Spec.Steps (Next cur (update cur vt zt d)) t x w → ∀ k, w k i = v k i from
    H v (fun _ => rfl) hs k
  clear hs
  induction t with
  | zero => intro x hx hs; cases hs; exact hx
  | succ t ih =>
    intro x hx hs
    cases hs with
    | succ hn hs =>
      obtain ⟨e', he', hu⟩ := hn
      refine ih _ (fun k => ?_) hs
      rw [update_fixed cur vt zt d _ _ _ hu i (fun k => ?_) k, hx k]
      rw [← h0 k]
      unfold errVec
      rw [hx k, hl _ _ _ _ hx he' he]

/-- Without damping factor nothing moves. -/
theorem steps_damp_zero {n N : ℕ} {cur : Sig n N → Py (Sig n N)} (vt zt : Fin n → ℂ) (t : ℕ)
    {v w : Sig n N} (hs : Spec.Steps (Next cur (update cur vt zt 0)) t v w) : w = v := by
  induction hs with
  | zero => rfl
  | succ hn _ ih =>
    rw [ih]
    obtain ⟨e, -, hu⟩ := hn
    unfold update at hu
    obtain ⟨inv, -, hu⟩ := bind_ok_iff.1 hu
    cases hu
    funext k i
    simp

/-- A successful call that stops because the target is met. -/
theorem entered_target {N : ℕ} {cct : HCct N} {resp : ℝ → ℂ} {nb : NumB} {maxIt : ℤ} {stop : ℝ}
    {vjInit : Option (ℕ → ℕ → Arr (Fin N))} {damp : ℝ} {mode : Mode} {zj : ℂ}
    {run : Run N (cct.numF * cct.numP)} {s : Stopped (Sig (cct.numF * cct.numP) N) N}
    (hs : run.stopped = some s) (ht : s.exit = .target)
    (hrun : harmonicBalance cct resp nb maxIt stop vjInit damp mode zj = .ok run) :
    ∃ start m r, Entered cct resp nb maxIt stop vjInit damp mode zj run start m s ∧ ¬ ztZero cct ∧
      Evaluated (currentForHb cct resp nb m) (relErr cct.sigVt cct.sigZt) stop s.vj r ∧
      r.1.le (.fin stop) := by
  by_cases h0 : ztZero cct
  · rw [hb_zero _ _ _ _ _ _ _ _ h0] at hrun
    cases hrun; cases hs
  obtain ⟨start, m, s', hE⟩ := hb_entered h0 hrun
  rw [hE.stopped] at hs
  cases hs
  obtain ⟨-, hc⟩ := iterate_post _ _ _ _ _ _ _ hE.loop
  rcases hc with hc | hc | hc
  · obtain ⟨-, -, -, -, r, hr, hle, -⟩ := hc
    exact ⟨start, m, r, hE, h0, hr, hle⟩
  · rw [hc.1] at ht; cases ht
  · rw [hc.1] at ht; cases ht

/-- `result` succeeds once the error has been evaluated. -/
theorem result_total {N F P : ℕ} (mode : Mode) (maxIt : ℤ) (s : Stopped (Sig (F * P) N) N)
    {f : Fin N → Prop} (hm : s.mask = some f) : ∃ r, result F P mode maxIt s = .ok r := by
  cases mode with
  | o => exact ⟨_, rfl⟩
  | x => exact ⟨_, rfl⟩
  | m => unfold result; dsimp only; rw [hm]; exact ⟨_, rfl⟩
  | other => exact ⟨_, rfl⟩

/-- The update succeeds for an affine current whose circuit equations are injective. -/
theorem update_affine_ok {n N : ℕ} (cur : Sig n N → Py (Sig n N)) (vt zt : Fin n → ℂ) (d : ℝ)
    (c : Sig n N) (L : Fin N → (Fin n → ℂ) →ₗ[ℝ] (Fin n → ℂ))
    (hcur : ∀ v, cur v = .ok fun k i => c k i + L i (fun k => v k i) k) (vj ij : Sig n N)
    (hij : cur vj = .ok ij)
    (hinj : ∀ i x, (∀ k, zt k * L i x k + x k = 0) → x = 0) :
    ∃ w, update cur vt zt d vj ij = .ok w := by
  rw [hcur] at hij
  cases hij
  set err := errVec vt zt (fun k i => c k i + L i (fun k => vj k i) k) vj with herr
  let M : Fin N → (Fin n → ℂ) →ₗ[ℝ] (Fin n → ℂ) := fun i =>
    { toFun := fun x k => -(zt k * L i x k) - x k
      map_add' := by intro x y; funext k; simp; ring
      map_smul' := by intro r x; funext k; simp; ring }
  have hM : ∀ i x k, M i x k = -(zt k * L i x k) - x k := fun _ _ _ => rfl
  let e := fun (q : Fin n) (z : ℂ) =>
    errVec vt zt (fun k i => c k i + L i (fun k => bump vj q z k i) k) (bump vj q z)
  have hent : ∀ (i : Fin N) (p q : Fin n) (z : ℂ),
      (e q z p i - err p i) / dv = M i (Pi.single q z) p := by
    intro i p q z
    have h1 : e q z p i - err p i = dv * M i (Pi.single q z) p := by
      simp only [e, herr, errVec]
      rw [bump_point vj q z i, map_add, map_smul, hM]
      have := congrFun (bump_point vj q z i) p
      simp only [Pi.add_apply, Pi.smul_apply, Complex.real_smul] at this ⊢
      rw [this]
      ring
    rw [h1, mul_comm, mul_div_assoc, div_self dv_ne, mul_one]
  have hJ : ∀ i x, realify (M i x)
      = (jacobian err (fun q => e q 1) (fun q => e q I) i).mulVec (realify x) := by
    intro i x
    apply realify_linear
    intro p q
    simp only [jacobian, if_true, one_ne_zero, if_false, hent, and_self]
  have hdet : ∀ i, (jacobian err (fun q => e q 1) (fun q => e q I) i).det ≠ 0 := by
    intro i h0
    obtain ⟨y, hy0, hy⟩ := Matrix.exists_mulVec_eq_zero_iff.2 h0
    let x : Fin n → ℂ := fun k => ⟨y (k, 0), y (k, 1)⟩
    have hx : realify x = y := by
      funext ⟨k, a⟩
      fin_cases a <;> simp [realify, x]
    have hMx : M i x = 0 := by
      apply realify_inj
      rw [hJ, hx, hy]
      funext pa
      simp [realify]
    have : x = 0 := hinj i x fun k => by
      have := congrFun hMx k
      rw [hM] at this
      simp only [Pi.zero_apply] at this
      linear_combination -this
    apply hy0
    rw [← hx, this]
    funext pa
    simp [realify]
  unfold update invJacobian
  dsimp only
  rw [pyTab_ok_iff (g := fun q => (e q 1, e q I)) |>.2 (by
    intro q; rw [hcur, py_bind, hcur, py_bind]; rfl), py_bind]
  dsimp only
  rw [raiseIf_neg (by rintro ⟨i, hi⟩; exact hdet i hi)]
  exact ⟨_, rfl⟩

theorem resid_clamp {N : ℕ} (cct : HCct N) (resp : ℝ → ℂ) (nb : NumB) (v : ℕ → ℕ → Arr (Fin N))
    {f p : ℕ} (hf : 1 ≤ f) (hp : 1 ≤ p) (h : 1 / 10 ^ 10 ≤ ‖cct.vt f p‖) (i : Fin N) :
    resid cct.clamp resp nb v f p i = resid cct resp nb v f p i := by
  have : clampVt cct.vt f p = cct.vt f p := by
    unfold clampVt
    rw [if_neg (by omega), if_neg (not_lt.2 h)]
  unfold resid Spec.residual
  show clampVt cct.vt f p - _ - _ = _
  rw [this]
  rfl

end QMix.HB
