import Verif.Lemmas.Deriv2
import Verif.Props.QtCurrent

/-!
# The current is a smooth function of the voltages (C149)

The response function may have kinks and steps; the current still varies smoothly with every voltage, and small signals superpose.
-/

namespace QMix.Props

open Complex Filter Topology QMix.Qt
open scoped ContDiff

variable {ι : Type}

/-- C149. Let the voltages depend smoothly on any number of parameters. Whatever the response function, `qtcurrent` succeeds and the
current at every frequency and bias point is a smooth function of the parameters. -/
theorem C149_smooth {E : Type} [NormedAddCommGroup E] [NormedSpace ℝ E] (vj : E → ℕ → ℕ → Arr ι) (cct : Cct ι) (resp : ℝ → ℂ)
    (fl : List ℝ) (nb : NumB) (h : Valid cct nb)
    (hv : ∀ f p i, 1 ≤ f → f ≤ cct.numF → 1 ≤ p → p ≤ cct.numP → ContDiff ℝ ∞ fun x => vj x f p i) :
    ∃ cur : E → ℝ → Arr ι, (∀ x, qtcurrentList (vj x) cct resp fl nb none = .ok (fl.map (cur x))) ∧
      ∀ f i, ContDiff ℝ ∞ fun x => cur x f i :=
  ⟨fun x f i => Spec.qt resp (fun f p => vj x f p i) cct.freq cct.numF cct.numP (nb.toTup cct.numF) (cct.vb i) f,
    fun x => qtcurrentList_eq (vj x) cct resp fl nb h,
    fun f i => contDiff_qt resp (fun x f p => vj x f p i) cct.freq cct.numF cct.numP (nb.toTup cct.numF)
      (fun g p h1 h2 h3 h4 => hv g p i h1 h2 h3 h4) (cct.vb i) f⟩

/-- C149, superposition. At any operating point `v₀` there is a linear response `D`: when signals `V` are added with a small
amplitude `t`, the current changes at the rate `D V`, and the rate for a superposition of two sets of signals is the superposition
of the rates. -/
theorem C149_superposition (v₀ : ℕ → ℕ → Arr ι) (cct : Cct ι) (resp : ℝ → ℂ) (fl : List ℝ) (nb : NumB) (h : Valid cct nb) :
    ∃ (cur : (ℕ → ℕ → Arr ι) → ℝ → Arr ι) (D : (ℕ → ℕ → Arr ι) → ℝ → Arr ι),
      (∀ v, qtcurrentList v cct resp fl nb none = .ok (fl.map (cur v))) ∧
      (∀ V f i, HasDerivAt (fun t : ℝ => cur (fun g p j => v₀ g p j + t * V g p j) f i) (D V f i) 0) ∧
      ∀ (a b : ℝ) (V W : ℕ → ℕ → Arr ι) (f : ℝ) (i : ι),
        D (fun g p j => a * V g p j + b * W g p j) f i = a * D V f i + b * D W f i := by
  have key : ∀ (V W : ℕ → ℕ → Arr ι) (f : ℝ) (i : ι), ContDiff ℝ ∞ fun x : ℝ × ℝ =>
      Spec.qt resp (fun g p => v₀ g p i + (x.1 * V g p i + x.2 * W g p i)) cct.freq cct.numF cct.numP (nb.toTup cct.numF) (cct.vb i) f := by
    intro V W f i
    refine contDiff_qt resp _ cct.freq cct.numF cct.numP (nb.toTup cct.numF) (fun g p _ _ _ _ => ?_) (cct.vb i) f
    have h1 : ContDiff ℝ ∞ fun x : ℝ × ℝ => (x.1 : ℂ) := ofRealCLM.contDiff.comp contDiff_fst
    have h2 : ContDiff ℝ ∞ fun x : ℝ × ℝ => (x.2 : ℂ) := ofRealCLM.contDiff.comp contDiff_snd
    exact contDiff_const.add ((h1.mul contDiff_const).add (h2.mul contDiff_const))
  let cur : (ℕ → ℕ → Arr ι) → ℝ → Arr ι := fun v f i =>
    Spec.qt resp (fun g p => v g p i) cct.freq cct.numF cct.numP (nb.toTup cct.numF) (cct.vb i) f
  let D : (ℕ → ℕ → Arr ι) → ℝ → Arr ι := fun V f i => deriv (fun t : ℝ => cur (fun g p j => v₀ g p j + t * V g p j) f i) 0
  -- the derivative in the direction `a V + b W`
  have dir : ∀ (V W : ℕ → ℕ → Arr ι) (f : ℝ) (i : ι), ∃ L : ℝ × ℝ →L[ℝ] ℂ, ∀ a b : ℝ,
      HasDerivAt (fun t : ℝ => cur (fun g p j => v₀ g p j + t * (a * V g p j + b * W g p j)) f i) (L (a, b)) 0 := by
    intro V W f i
    suffices hs : ∀ L : ℝ × ℝ →L[ℝ] ℂ, HasFDerivAt (fun x : ℝ × ℝ => Spec.qt resp (fun g p => v₀ g p i + (x.1 * V g p i + x.2 * W g p i))
        cct.freq cct.numF cct.numP (nb.toTup cct.numF) (cct.vb i) f) L (0, 0) → ∀ a b : ℝ,
        HasDerivAt (fun t : ℝ => cur (fun g p j => v₀ g p j + t * (a * V g p j + b * W g p j)) f i) (L (a, b)) 0 from
      ⟨_, hs _ (((key V W f i).differentiable (by simp)).differentiableAt (x := ((0 : ℝ), (0 : ℝ))) |>.hasFDerivAt)⟩
    intro L h1 a b
    have h2 : HasDerivAt (fun t : ℝ => (t * a, t * b)) (a, b) 0 := by
      have ha := (hasDerivAt_id (0 : ℝ)).mul_const a
      have hb := (hasDerivAt_id (0 : ℝ)).mul_const b
      rw [one_mul] at ha hb
      exact ha.prodMk hb
    have h3 := HasFDerivAt.comp_hasDerivAt_of_eq (0 : ℝ) h1 h2 (by simp)
    refine h3.congr_of_eventuallyEq (Eventually.of_forall fun t => ?_)
    simp only [cur, Function.comp_def, ofReal_mul]
    congr 1
    funext g p
    ring
  refine ⟨cur, D, fun v => qtcurrentList_eq v cct resp fl nb h, fun V f i => ?_, fun a b V W f i => ?_⟩
  · obtain ⟨L, hL⟩ := dir V V f i
    have := hL 1 0
    simp only [ofReal_one, one_mul, ofReal_zero, zero_mul, add_zero] at this
    exact this.differentiableAt.hasDerivAt
  · obtain ⟨L, hL⟩ := dir V W f i
    have hV := hL 1 0
    have hW := hL 0 1
    simp only [ofReal_one, one_mul, ofReal_zero, zero_mul, add_zero, zero_add] at hV hW
    have eD := (hL a b).deriv
    have eV := hV.deriv
    have eW := hW.deriv
    change D (fun g p j => a * V g p j + b * W g p j) f i = _ at eD
    change D V f i = _ at eV
    change D W f i = _ at eW
    rw [eD, eV, eW,
      show ((a, b) : ℝ × ℝ) = a • ((1 : ℝ), (0 : ℝ)) + b • ((0 : ℝ), (1 : ℝ)) by simp, map_add, map_smul, map_smul]
    simp

/-! ### A concrete case -/

/-- Two tones, a response that jumps at the gap: the current is smooth in the four voltages. -/
example : ∃ cur : (Fin 2 → ℂ) → ℝ → Arr (Fin 2),
    (∀ x : Fin 2 → ℂ, qtcurrentList (fun f _ _ => x (if f = 1 then 0 else 1)) demo (fun u => if u < 1 then 0 else (u : ℂ)) [0, 1] (.tup [3, 2]) none
      = .ok ([0, 1].map (cur x))) ∧ ∀ f i, ContDiff ℝ ∞ fun x => cur x f i :=
  C149_smooth (fun (x : Fin 2 → ℂ) f _ _ => x (if f = 1 then 0 else 1)) demo _ _ _ demo_valid fun _ _ _ _ _ _ _ => contDiff_apply ℝ ℂ _

end QMix.Props
