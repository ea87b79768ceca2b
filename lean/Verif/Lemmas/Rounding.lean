import Verif.Lemmas.RoundCount
import Verif.Lemmas.QtApi

/-! # The rounded run next to the exact one -/

namespace QMix.Spec

open Finset

/-- The tones `f, f + 1, ...` with phase-factor coefficients `C f`. -/
noncomputable def tonesOf (C : ℕ → ℤ → ℂ) (freq : ℕ → ℝ) : ℕ → List ℕ → List Tone
  | _, [] => []
  | f, nb :: nbs => ⟨C f, nb, freq f⟩ :: tonesOf C freq (f + 1) nbs

theorem tonesFrom_eq_tonesOf (v : ℕ → ℕ → ℂ) (freq : ℕ → ℝ) (P M f : ℕ) (C : ℕ → ℤ → ℂ) (nbs : List ℕ)
    (h : ∀ j nb, nbs[j]? = some nb → C (f + j) = toneCoeff (v (f + j)) (freq (f + j)) P nb M) :
    tonesFrom v freq P M f nbs = tonesOf C freq f nbs := by
  induction nbs generalizing f with
  | nil => rfl
  | cons nb nbs ih =>
    rw [tonesFrom, tonesOf, ih (f + 1) fun j n hj => ?_]
    · have := h 0 nb rfl
      rw [Nat.add_zero] at this
      rw [this]
    · have := h (j + 1) n (by simpa using hj)
      rwa [show f + (j + 1) = f + 1 + j by ring] at this

/-- Frequency matching as `qtcurrent` does it, for the product of orders `as`. -/
def matchesFreq (freq : ℕ → ℝ) (f : ℝ) (as : List ℤ) : Prop := round4 (photonShift freq 1 as) = round4 f

end QMix.Spec

namespace QMix.Rnd

open Complex QMix.Qt

variable {ι : Type}

/-! ## The exact operations give the model of `QtCurrent.lean` -/

theorem exact_convStep (p : ℕ) (last jp : List (Arr ι)) : convStep (exact ι) p last jp = Qt.convStep p last jp := rfl

theorem exact_convolve (P : ℕ) (jac : ℕ → List (Arr ι)) : convolve (exact ι) P jac = Qt.convolve P jac := rfl

theorem exact_coeff1 (a : ℤ) (c1 : List (Arr ι)) (r : List (Arr ι)) (nb1 : ℕ) : coeff1 (exact ι) a c1 r nb1 = Qt.coeff1 a c1 r nb1 := rfl

theorem exact_coeff2 (a b : ℤ) (c1 c2 : List (Arr ι)) (r : List (List (Arr ι))) (nb1 nb2 : ℕ) :
    coeff2 (exact ι) a b c1 c2 r nb1 nb2 = Qt.coeff2 a b c1 c2 r nb1 nb2 := rfl

theorem exact_coeff3 (a b c : ℤ) (c1 c2 c3 : List (Arr ι)) (r : List (List (List (Arr ι)))) (nb1 nb2 nb3 : ℕ) :
    coeff3 (exact ι) a b c c1 c2 c3 r nb1 nb2 nb3 = Qt.coeff3 a b c c1 c2 c3 r nb1 nb2 nb3 := rfl

theorem exact_coeff4 (a b c d : ℤ) (c1 c2 c3 c4 : List (Arr ι)) (r : List (List (List (List (Arr ι))))) (nb1 nb2 nb3 nb4 : ℕ) :
    coeff4 (exact ι) a b c d c1 c2 c3 c4 r nb1 nb2 nb3 nb4 = Qt.coeff4 a b c d c1 c2 c3 c4 r nb1 nb2 nb3 nb4 := rfl

/-- A response matrix of the model as a matrix with any entries. -/
def ofResp : RespMat ι → Mat (Arr ι)
  | .m1 m => .m1 m
  | .m2 m => .m2 m
  | .m3 m => .m3 m
  | .m4 m => .m4 m

theorem pyFor_congr {α κ : Type} (l : List κ) (s : α) {f g : α → κ → Py α} (h : ∀ k s, f s k = g s k) : pyFor l s f = pyFor l s g := by
  congr 1
  funext s k
  exact h k s

theorem ite_dec {α : Type} {c c' : Prop} (d : Decidable c) (d' : Decidable c') (h : c ↔ c') (x y : α) :
    @ite α c d x y = @ite α c' d' x y := by
  by_cases h0 : c
  · rw [if_pos h0, if_pos (h.1 h0)]
  · rw [if_neg h0, if_neg fun h1 => h0 (h.2 h1)]

theorem exact_currentAt (F P : ℕ) (freq : ℕ → ℝ) (ccc : ℕ → List (Arr ι)) (r : RespMat ι) (nbl : List ℕ) (f : ℝ) :
    currentAt (exact ι) F P ccc (ofResp r) nbl (Spec.matchesFreq freq f) = Qt.currentAt F P freq ccc r nbl f := by
  have e1 : ∀ a, Spec.matchesFreq freq f [a] ↔ round4 (a * freq 1) = round4 f := by
    intro a; simp [Spec.matchesFreq, Spec.photonShift]
  have e2 : ∀ a b, Spec.matchesFreq freq f [a, b] ↔ round4 (a * freq 1 + b * freq 2) = round4 f := by
    intro a b; simp [Spec.matchesFreq, Spec.photonShift]
  have e3 : ∀ a b c, Spec.matchesFreq freq f [a, b, c] ↔ round4 (a * freq 1 + b * freq 2 + c * freq 3) = round4 f := by
    intro a b c; simp [Spec.matchesFreq, Spec.photonShift, add_assoc]
  have e4 : ∀ a b c d, Spec.matchesFreq freq f [a, b, c, d] ↔
      round4 (a * freq 1 + b * freq 2 + c * freq 3 + d * freq 4) = round4 f := by
    intro a b c d; simp [Spec.matchesFreq, Spec.photonShift, add_assoc]
  cases r with
  | m1 m =>
    unfold currentAt Qt.currentAt
    simp only [ofResp]
    split <;> simp_all
    rename_i h1 h2
    subst_vars
    unfold current1 Qt.current1
    exact pyFor_congr _ _ fun a s => ite_dec _ _ (e1 a) _ _
  | m2 m =>
    unfold currentAt Qt.currentAt
    simp only [ofResp]
    split <;> simp_all
    subst_vars
    unfold current2 Qt.current2
    exact pyFor_congr _ _ fun a s => pyFor_congr _ _ fun b s => ite_dec _ _ (e2 a b) _ _
  | m3 m =>
    unfold currentAt Qt.currentAt
    simp only [ofResp]
    split <;> simp_all
    subst_vars
    unfold current3 Qt.current3
    exact pyFor_congr _ _ fun a s => pyFor_congr _ _ fun b s => pyFor_congr _ _ fun c s => ite_dec _ _ (e3 a b c) _ _
  | m4 m =>
    unfold currentAt Qt.currentAt
    simp only [ofResp]
    split <;> simp_all
    subst_vars
    unfold current4 Qt.current4
    exact pyFor_congr _ _ fun a s => pyFor_congr _ _ fun b s => pyFor_congr _ _ fun c s => pyFor_congr _ _ fun d s =>
      ite_dec _ _ (e4 a b c d) _ _

/-! ## Arrays and matrices filled in the order of NumPy's negative indices -/

theorem forall₂_of_rep {α β : Type} {R : α → β → Prop} {M : ℕ} {l : List α} {l' : List β} {c : ℤ → α} {c' : ℤ → β} (h : Rep M l c)
    (h' : Rep M l' c') (hR : ∀ k : ℤ, |k| ≤ M → R (c k) (c' k)) : List.Forall₂ R l l' := by
  rw [List.forall₂_iff_get]
  refine ⟨by rw [h.1, h'.1], fun j h1 h2 => ?_⟩
  have hj : j < 2 * M + 1 := by rw [← h.1]; exact h1
  have key : ∀ {γ : Type} (m : List γ) (d : ℤ → γ), Rep M m d → ∀ hm : j < m.length,
      m[j] = d (if j ≤ M then (j : ℤ) else (j : ℤ) - (2 * M + 1)) := by
    intro γ m d hr hm
    have hk : |(if j ≤ M then (j : ℤ) else (j : ℤ) - (2 * M + 1))| ≤ (M : ℤ) := by
      split_ifs <;> rw [abs_le] <;> omega
    have h3 := hr.2 _ hk
    have hi : pyIndex m.length (if j ≤ M then (j : ℤ) else (j : ℤ) - (2 * M + 1)) = .ok j := by
      rw [hr.1]
      unfold pyIndex
      split_ifs with c1 c2 c3 <;> simp_all <;> omega
    obtain ⟨hlt, hg⟩ := pyGet_eq hi
    rw [h3] at hg
    simpa using (Except.ok.inj hg).symm
  rw [List.get_eq_getElem, List.get_eq_getElem, key l c h h1, key l' c' h' h2]
  exact hR _ (by split_ifs <;> rw [abs_le] <;> omega)

/-- Entry by entry. -/
def Mat.map {ρ ρ' : Type} (g : ρ → ρ') : Mat ρ → Mat ρ'
  | .m1 m => .m1 (m.map g)
  | .m2 m => .m2 (m.map (List.map g))
  | .m3 m => .m3 (m.map (List.map (List.map g)))
  | .m4 m => .m4 (m.map (List.map (List.map (List.map g))))

theorem MatRel.map_map {ρ α β : Type} {R : α → β → Prop} {g : ρ → α} {g' : ρ → β} (h : ∀ x, R (g x) (g' x)) (m : Mat ρ) :
    MatRel R (m.map g) (m.map g') := by
  have h1 : ∀ l : List ρ, List.Forall₂ R (l.map g) (l.map g') := by
    intro l
    rw [List.forall₂_map_left_iff, List.forall₂_map_right_iff]
    exact List.forall₂_same.2 fun x _ => h x
  have h2 : ∀ l : List (List ρ), List.Forall₂ (List.Forall₂ R) (l.map (List.map g)) (l.map (List.map g')) := by
    intro l
    rw [List.forall₂_map_left_iff, List.forall₂_map_right_iff]
    exact List.forall₂_same.2 fun x _ => h1 x
  have h3 : ∀ l : List (List (List ρ)), List.Forall₂ (List.Forall₂ (List.Forall₂ R)) (l.map (List.map (List.map g)))
      (l.map (List.map (List.map g'))) := by
    intro l
    rw [List.forall₂_map_left_iff, List.forall₂_map_right_iff]
    exact List.forall₂_same.2 fun x _ => h2 x
  cases m with
  | m1 m => exact h1 m
  | m2 m => exact h2 m
  | m3 m => exact h3 m
  | m4 m =>
    show List.Forall₂ _ (m.map (List.map (List.map (List.map g)))) (m.map (List.map (List.map (List.map g'))))
    rw [List.forall₂_map_left_iff, List.forall₂_map_right_iff]
    exact List.forall₂_same.2 fun x _ => h3 x

theorem MatRel.imp {α β : Type} {R R' : α → β → Prop} (h : ∀ x y, R x y → R' x y) {m : Mat α} {m' : Mat β} (hm : MatRel R m m') :
    MatRel R' m m' := by
  match m, m', hm with
  | .m1 _, .m1 _, hm => exact List.Forall₂.imp h hm
  | .m2 _, .m2 _, hm => exact List.Forall₂.imp (fun _ _ => List.Forall₂.imp h) hm
  | .m3 _, .m3 _, hm => exact List.Forall₂.imp (fun _ _ => List.Forall₂.imp fun _ _ => List.Forall₂.imp h) hm
  | .m4 _, .m4 _, hm =>
    exact List.Forall₂.imp (fun _ _ => List.Forall₂.imp fun _ _ => List.Forall₂.imp fun _ _ => List.Forall₂.imp h) hm

theorem MatRel.map_right {α β β' : Type} {R : α → β' → Prop} {g : β → β'} {m : Mat α} {m' : Mat β}
    (h : MatRel (fun x y => R x (g y)) m m') : MatRel R m (m'.map g) := by
  have e1 : ∀ {l : List α} {l' : List β}, List.Forall₂ (fun x y => R x (g y)) l l' → List.Forall₂ R l (l'.map g) := by
    intro l l' h; rw [List.forall₂_map_right_iff]; exact h
  have e2 : ∀ {l : List (List α)} {l' : List (List β)}, List.Forall₂ (List.Forall₂ fun x y => R x (g y)) l l' →
      List.Forall₂ (List.Forall₂ R) l (l'.map (List.map g)) := by
    intro l l' h; rw [List.forall₂_map_right_iff]; exact h.imp fun _ _ => e1
  have e3 : ∀ {l : List (List (List α))} {l' : List (List (List β))}, List.Forall₂ (List.Forall₂ (List.Forall₂ fun x y => R x (g y))) l l' →
      List.Forall₂ (List.Forall₂ (List.Forall₂ R)) l (l'.map (List.map (List.map g))) := by
    intro l l' h; rw [List.forall₂_map_right_iff]; exact h.imp fun _ _ => e2
  match m, m', h with
  | .m1 _, .m1 _, h => exact e1 h
  | .m2 _, .m2 _, h => exact e2 h
  | .m3 _, .m3 _, h => exact e3 h
  | .m4 _, .m4 _, h =>
    show List.Forall₂ _ _ (List.map _ _)
    rw [List.forall₂_map_right_iff]
    exact List.Forall₂.imp (fun _ _ => e3) h

/-- The voltages at which the response is asked for, in the order of `np.r_[0..nb, -nb..-1]` along every axis. -/
noncomputable def voltages (vb : ι → ℝ) (freq : ℕ → ℝ) : List ℕ → Mat (ι → ℝ)
  | [n1] => .m1 ((indArr n1).map fun (k : ℤ) i => vb i + k * freq 1)
  | [n1, n2] => .m2 ((indArr n1).map fun (k : ℤ) => (indArr n2).map fun (l : ℤ) i => vb i + k * freq 1 + l * freq 2)
  | [n1, n2, n3] => .m3 ((indArr n1).map fun (k : ℤ) => (indArr n2).map fun (l : ℤ) => (indArr n3).map fun (m : ℤ) i =>
      vb i + k * freq 1 + l * freq 2 + m * freq 3)
  | [n1, n2, n3, n4] => .m4 ((indArr n1).map fun (k : ℤ) => (indArr n2).map fun (l : ℤ) => (indArr n3).map fun (m : ℤ) => (indArr n4).map fun (n : ℤ) i =>
      vb i + k * freq 1 + l * freq 2 + m * freq 3 + n * freq 4)
  | _ => .m1 []

/-- The same with the response function applied. -/
noncomputable def respMat (resp : ℝ → ℂ) (vb : ι → ℝ) (freq : ℕ → ℝ) (nbl : List ℕ) : RespMat ι :=
  match (voltages vb freq nbl).map (fun (v : ι → ℝ) (i : ι) => resp (v i)) with
  | .m1 m => .m1 m
  | .m2 m => .m2 m
  | .m3 m => .m3 m
  | .m4 m => .m4 m

theorem ofResp_respMat (resp : ℝ → ℂ) (vb : ι → ℝ) (freq : ℕ → ℝ) (nbl : List ℕ) :
    ofResp (respMat resp vb freq nbl) = (voltages vb freq nbl).map fun v i => resp (v i) := by
  unfold respMat
  split <;> simp_all [ofResp]

theorem adequate_respMat (resp : ℝ → ℂ) (vb : ι → ℝ) (freq : ℕ → ℝ) {nbl : List ℕ} (h1 : 1 ≤ nbl.length) (h4 : nbl.length ≤ 4) :
    Adequate resp vb freq nbl (respMat resp vb freq nbl) := by
  match nbl, h1, h4 with
  | [n1], _, _ =>
    refine ⟨n1, le_rfl, ?_⟩
    have := ((indArr_rep n1).map fun k (i : ι) => vb i + k * freq 1).map fun (v : ι → ℝ) i => resp (v i)
    exact this.2
  | [n1, n2], _, _ =>
    refine ⟨n1, n2, le_rfl, le_rfl, _, ((indArr_rep n1).map _).map _, fun k hk => ?_⟩
    exact ((indArr_rep n2).map _).map _
  | [n1, n2, n3], _, _ =>
    refine ⟨n1, n2, n3, le_rfl, le_rfl, le_rfl, _, ((indArr_rep n1).map _).map _, fun k hk => ⟨_, ((indArr_rep n2).map _).map _, fun l hl => ?_⟩⟩
    exact ((indArr_rep n3).map _).map _
  | [n1, n2, n3, n4], _, _ =>
    refine ⟨n1, n2, n3, n4, le_rfl, le_rfl, le_rfl, le_rfl, _, ((indArr_rep n1).map _).map _, fun k hk =>
      ⟨_, ((indArr_rep n2).map _).map _, fun l hl => ⟨_, ((indArr_rep n3).map _).map _, fun m hm => ?_⟩⟩⟩
    exact ((indArr_rep n4).map _).map _

/-! ## The exact run -/

theorem exact_convTones {M P : ℕ} (hP : 1 ≤ P) (A : ι → ℕ → ℕ → ℤ → ℂ) (n : ℕ) :
    ∃ ccc, convTones (exact ι) P (fun f p => (indArr M).map fun k i => A i f p k) n = .ok ccc ∧
      ∀ f, 1 ≤ f → f ≤ n → Rep M (ccc f) fun k i => Spec.harmonicConv M (A i f) P k := by
  induction n with
  | zero => exact ⟨_, rfl, fun f h1 h2 => by omega⟩
  | succ n ih =>
    obtain ⟨ccc, e, r⟩ := ih
    obtain ⟨arr, e2, r2⟩ := convolve_rep (M := M) hP (A := fun i => A i (n + 1)) (jac := fun p => (indArr M).map fun k i => A i (n + 1) p k)
      fun p _ _ => (indArr_rep M).map _
    refine ⟨fun g => if g = n + 1 then arr else ccc g, ?_, fun f h1 h2 => ?_⟩
    · unfold convTones
      rw [e]
      change (do let c ← convolve (exact ι) P _; pure fun g => if g = n + 1 then c else ccc g) = _
      rw [exact_convolve, e2]
      rfl
    · by_cases hf : f = n + 1
      · subst hf; simpa using r2
      · simp only [if_neg hf]
        exact r f h1 (by omega)

theorem exact_run {M F P : ℕ} (hP : 1 ≤ P) (h1 : 1 ≤ F) (h4 : F ≤ 4) (A : ι → ℕ → ℕ → ℤ → ℂ) (resp : ℝ → ℂ) (vb : ι → ℝ)
    (freq : ℕ → ℝ) {nb : NumB} {nbl : List ℕ} (hn : unpackNumB nb F = .ok nbl) (hM : ∀ n ∈ nbl, n ≤ M) (fl : List ℝ) :
    qtcurrent (exact ι) F P (fun f p => (indArr M).map fun k i => A i f p k) ((voltages vb freq nbl).map fun v i => resp (v i)) nb
      (fl.map (Spec.matchesFreq freq)) = .ok (fl.map fun f i =>
        Spec.current resp P (Spec.tonesOf (fun g => Spec.harmonicConv M (A i g) P) freq 1 nbl) (vb i) f) := by
  have hlen := unpack_length hn
  obtain ⟨ccc, e, hC⟩ := exact_convTones (M := M) hP A F
  unfold qtcurrent
  rw [hn]
  change (do let ccc ← convTones (exact ι) P _ F; (fl.map (Spec.matchesFreq freq)).mapM _) = _
  rw [e, ok_bind]
  have key : ∀ f, currentAt (exact ι) F P ccc ((voltages vb freq nbl).map fun v i => resp (v i)) nbl (Spec.matchesFreq freq f) = .ok fun i =>
      Spec.current resp P (Spec.tonesOf (fun g => Spec.harmonicConv M (A i g) P) freq 1 nbl) (vb i) f := by
    intro f
    rw [← ofResp_respMat, exact_currentAt]
    have hr := adequate_respMat resp vb freq (nbl := nbl) (by omega) (by omega)
    generalize respMat resp vb freq nbl = r at hr
    subst hlen
    match nbl, h1, h4, r, hr with
    | [n1], _, _, .m1 m, ⟨N1, g1, hr⟩ =>
      exact current1_spec (hC 1 le_rfl (by simp)) (hM n1 (by simp)) g1 resp vb hr f
    | [n1, n2], _, _, .m2 m, ⟨N1, N2, g1, g2, hr⟩ =>
      exact current2_spec (hC 1 le_rfl (by simp)) (hC 2 (by norm_num) (by simp)) (hM n1 (by simp)) (hM n2 (by simp)) g1 g2 resp vb hr f
    | [n1, n2, n3], _, _, .m3 m, ⟨N1, N2, N3, g1, g2, g3, hr⟩ =>
      exact current3_spec (hC 1 le_rfl (by simp)) (hC 2 (by norm_num) (by simp)) (hC 3 (by norm_num) (by simp))
        (hM n1 (by simp)) (hM n2 (by simp)) (hM n3 (by simp)) g1 g2 g3 resp vb hr f
    | [n1, n2, n3, n4], _, _, .m4 m, ⟨N1, N2, N3, N4, g1, g2, g3, g4, hr⟩ =>
      exact current4_spec (hC 1 le_rfl (by simp)) (hC 2 (by norm_num) (by simp)) (hC 3 (by norm_num) (by simp))
        (hC 4 (by norm_num) (by simp)) (hM n1 (by simp)) (hM n2 (by simp)) (hM n3 (by simp)) (hM n4 (by simp)) g1 g2 g3 g4 resp vb hr f
  rw [List.mapM_map]
  exact mapM_ok _ _ _ fun f _ => key f

/-- The magnitude of the terms of a current: all coefficients and responses replaced by bounds of their magnitudes, all terms added with
positive sign. -/
noncomputable def magnitude (e : ℕ → ℕ → ℤ → ℝ) (ρ : ℝ → ℝ) (P M : ℕ) (freq : ℕ → ℝ) (nbl : List ℕ) (v f : ℝ) : ℝ :=
  (Spec.current (fun v => I * (ρ v : ℂ)) P (Spec.tonesOf (fun g => Spec.harmonicConv M (fun p n => (e g p n : ℂ)) P) freq 1 nbl) v f).re

theorem rounded_run {u : ℝ} (hu : 0 ≤ u) (ar : Arith u) {M F P n0 n1 : ℕ} (hP : 1 ≤ P) (h1 : 1 ≤ F) (h4 : F ≤ 4) (A : ι → ℕ → ℕ → ℤ → ℂ)
    (e : ι → ℕ → ℕ → ℤ → ℝ) (resp : ℝ → ℂ) (ρ : ℝ → ℝ) (vb : ι → ℝ) (freq : ℕ → ℝ) {nb : NumB} {nbl : List ℕ}
    (hn : unpackNumB nb F = .ok nbl) (hM : ∀ n ∈ nbl, n ≤ M) (fl : List ℝ) {hits : List (List ℤ → Prop)}
    (hh : List.Forall₂ (SameHits F P) hits (fl.map (Spec.matchesFreq freq))) {jac : ℕ → ℕ → List (Arr ι)} {r : Mat (Arr ι)}
    (hj : ∀ f p, 1 ≤ f → f ≤ F → 1 ≤ p → p ≤ P → ∃ A', Rep M (jac f p) A' ∧ ∀ n : ℤ, |n| ≤ M → ∀ i, Near u (A' n i) (A i f p n, e i f p n, n0))
    (hr : MatRel (fun (x : Arr ι) (v : ι → ℝ) => ∀ i, Near u (x i) (resp (v i), ρ (v i), n1)) r (voltages vb freq nbl)) :
    ∃ rows, qtcurrent (rounded ar ι) F P jac r nb hits = .ok rows ∧ List.Forall₂ (fun (row : Arr ι) (f : ℝ) => ∀ i,
      ‖row i - Spec.current resp P (Spec.tonesOf (fun g => Spec.harmonicConv M (A i g) P) freq 1 nbl) (vb i) f‖
        ≤ ((1 + u) ^ currentCount (convCount M n0 P) n1 F P nbl - 1) * magnitude (e i) ρ P M freq nbl (vb i) f) rows fl := by
  set jt : ℕ → ℕ → List (ι → Tr) := fun f p => (indArr M).map fun k i => (A i f p k, e i f p k, n0) with hjt
  set rt : Mat (ι → Tr) := (voltages vb freq nbl).map fun v i => (resp (v i), ρ (v i), n1) with hrt
  set ht := fl.map (Spec.matchesFreq freq) with hht
  have hsame : List.Forall₂ (SameHits F P) ht ht := List.forall₂_same.2 fun _ _ _ _ _ => Iff.rfl
  -- the three companions of the tracked run
  have a1 := qtcurrent_rel (rounded_near (ι := ι) hu ar) F P hP nb hh (jac' := jt) (r' := rt)
    (fun f p f1 f2 p1 p2 => by
      obtain ⟨A', hA, hB⟩ := hj f p f1 f2 p1 p2
      exact forall₂_of_rep hA ((indArr_rep M).map _) fun k hk i => hB k hk i)
    (MatRel.map_right hr)
  have fm : ∀ {α β : Type} {R : α → β → Prop} (g : ℤ → α) (g' : ℤ → β), (∀ k, R (g k) (g' k)) →
      List.Forall₂ R ((indArr M).map g) ((indArr M).map g') := by
    intro α β R g g' h
    rw [List.forall₂_map_left_iff, List.forall₂_map_right_iff]
    exact List.forall₂_same.2 fun x _ => h x
  have a2 := qtcurrent_rel (tracked_value (ι := ι)) F P hP nb hsame (jac := jt) (r := rt)
    (jac' := fun f p => (indArr M).map fun k i => A i f p k) (r' := (voltages vb freq nbl).map fun v i => resp (v i))
    (fun f p _ _ _ _ => fm _ _ fun k i => rfl) (MatRel.map_map (fun v i => rfl) _)
  have a3 := qtcurrent_rel (tracked_mag (ι := ι)) F P hP nb hsame (jac := jt) (r := rt)
    (jac' := fun f p => (indArr M).map fun k i => (e i f p k : ℂ)) (r' := (voltages vb freq nbl).map fun v i => I * (ρ (v i) : ℂ))
    (fun f p _ _ _ _ => fm _ _ fun k i => rfl) (MatRel.map_map (fun v i => rfl) _)
  have a4 := qtcurrent_rel (tracked_count (ι := ι)) F P hP nb hsame (jac := jt) (r := rt)
    (jac' := fun f p => (indArr M).map fun _ => n0) (r' := (voltages vb freq nbl).map fun _ => n1)
    (fun f p _ _ _ _ => fm _ _ fun k i => le_rfl) (MatRel.map_map (fun v i => le_rfl) _)
  have x2 := exact_run hP h1 h4 A resp vb freq hn hM fl
  have x3 := exact_run hP h1 h4 (fun i f p n => (e i f p n : ℂ)) (fun v => I * (ρ v : ℂ)) vb freq hn hM fl
  obtain ⟨rt', et, r2⟩ := a2.of_ok x2
  obtain ⟨rows, er, r1⟩ := a1.of_ok et
  obtain ⟨rm, em, r3⟩ := a3.of_ok_left et
  rw [x3] at em
  cases em
  obtain ⟨rc, ec, r4⟩ := a4.of_ok_left et
  have hcount := qtcurrent_count (M := M) (n0 := n0) (n1 := n1) hP ht hn (jac := fun f p => (indArr M).map fun _ => n0)
    (r := (voltages vb freq nbl).map fun _ => n1)
    (fun f p _ _ _ _ => ⟨fun x hx => by obtain ⟨_, _, rfl⟩ := List.mem_map.1 hx; exact le_rfl, by
      rw [List.length_map]; exact (indArr_rep M).1⟩)
    (by
      have h0 : ∀ {α : Type} (l : List α), Le n1 (l.map fun _ => n1) := by
        intro α l x hx
        obtain ⟨_, _, rfl⟩ := List.mem_map.1 hx
        exact le_rfl
      match voltages vb freq nbl with
      | .m1 m => exact h0 m
      | .m2 m =>
        intro x hx
        obtain ⟨_, _, rfl⟩ := List.mem_map.1 hx
        exact h0 _
      | .m3 m =>
        intro x hx y hy
        obtain ⟨_, _, rfl⟩ := List.mem_map.1 hx
        obtain ⟨_, _, rfl⟩ := List.mem_map.1 hy
        exact h0 _
      | .m4 m =>
        intro x hx y hy z hz
        obtain ⟨_, _, rfl⟩ := List.mem_map.1 hx
        obtain ⟨_, _, rfl⟩ := List.mem_map.1 hy
        obtain ⟨_, _, rfl⟩ := List.mem_map.1 hz
        exact h0 _) rc ec
  refine ⟨rows, er, ?_⟩
  rw [List.forall₂_iff_get] at r1 r2 r3 r4 ⊢
  have l1 := r1.1
  have l2 := r2.1
  have l4 := r4.1
  rw [List.length_map] at l2
  refine ⟨by omega, fun j b1 b2 i => ?_⟩
  have c1 := r1.2 j b1 (by omega) i
  have c2 := r2.2 j (by omega) (by rw [List.length_map]; exact b2) i
  have c3 := r3.2 j (by omega) (by rw [List.length_map]; exact b2) i
  have c4 := r4.2 j (by omega) (by omega) i
  have c5 := hcount _ (List.get_mem rc ⟨j, by omega⟩)
  simp only [List.get_eq_getElem, List.getElem_map] at c1 c2 c3 c4 c5 ⊢
  generalize rt'[j] i = t at c1 c2 c3 c4
  obtain ⟨t1, t2, t3⟩ := t
  have c6 := (c1.mono hu (c4.trans c5)).2
  simp only at c2 c3 c6
  have e3 : magnitude (e i) ρ P M freq nbl (vb i) fl[j] = t2 := by
    unfold magnitude
    rw [c3, ofReal_re]
  rw [← c2, e3]
  exact c6

end QMix.Rnd
