import Verif.Lemmas.Deriv
import Verif.Lemmas.QtApi

/-! The tunnelling current inherits every property of its Bessel coefficients that is stable under sums, products and conjugation. -/

namespace QMix

open Complex Filter Topology Finset Spec
open scoped ContDiff

variable {E : Type}

/-- A class of functions with constants, closed under sums, products and conjugation. -/
structure Closed (Q : (E → ℂ) → Prop) : Prop where
  const : ∀ c, Q fun _ => c
  add : ∀ {F G}, Q F → Q G → Q fun x => F x + G x
  mul : ∀ {F G}, Q F → Q G → Q fun x => F x * G x
  conj : ∀ {F}, Q F → Q fun x => (starRingEnd ℂ) (F x)

namespace Closed

variable {Q : (E → ℂ) → Prop}

theorem sum (h : Closed Q) {α : Type} (s : Finset α) {F : α → E → ℂ} (hF : ∀ a ∈ s, Q (F a)) : Q fun x => ∑ a ∈ s, F a x := by
  classical
  induction s using Finset.induction_on with
  | empty => simpa using h.const 0
  | insert a s ha ih =>
    simp only [sum_insert ha]
    exact h.add (hF a (mem_insert_self _ _)) (ih fun b hb => hF b (mem_insert_of_mem hb))

theorem sub (h : Closed Q) {F G : E → ℂ} (hF : Q F) (hG : Q G) : Q fun x => F x - G x := by
  have := h.add hF (h.mul (h.const (-1)) hG)
  simpa only [neg_one_mul, ← sub_eq_add_neg] using this

theorem im (h : Closed Q) {F : E → ℂ} (hF : Q F) : Q fun x => ((F x).im : ℂ) := by
  have := h.mul (h.const (1 / (2 * I))) (h.sub hF (h.conj hF))
  convert this using 2
  rw [sub_conj]
  push_cast
  field_simp [I_ne_zero]

theorem harmonicConv (h : Closed Q) (M : ℕ) {A : E → ℕ → ℤ → ℂ} (P : ℕ) (hA : ∀ p, 1 ≤ p → p ≤ P → ∀ l, Q fun x => A x p l) (k : ℤ) :
    Q fun x => Spec.harmonicConv M (A x) P k := by
  induction P generalizing k with
  | zero => exact h.const _
  | succ P ih =>
    simp only [Spec.harmonicConv]
    refine h.sum _ fun l _ => ?_
    split_ifs
    · exact h.mul (ih (fun p h1 h2 => hA p h1 (by omega)) _) (hA _ (by omega) le_rfl _)
    · exact h.const 0

/-- A tone that depends on a parameter. -/
structure PTone (E : Type) where
  C : E → ℤ → ℂ
  nb : ℕ
  w : ℝ

def PTone.at (x : E) (y : PTone E) : Tone := ⟨y.C x, y.nb, y.w⟩

theorem corr (h : Closed Q) (resp : ℝ → ℂ) (l : List (PTone E × ℤ)) (hl : ∀ y ∈ l, ∀ k, Q fun x => y.1.C x k) (v : ℝ) :
    Q fun x => Spec.corr resp (l.map fun y => (y.1.at x, y.2)) v := by
  induction l generalizing v with
  | nil => exact h.const _
  | cons y l ih =>
    simp only [List.map_cons, Spec.corr]
    have hy := hl y (.head _)
    show Q fun x => ∑ k ∈ Icc (-(y.1.nb : ℤ)) y.1.nb, if |k + y.2| ≤ (y.1.nb : ℤ) then
      y.1.C x k * (starRingEnd ℂ) (y.1.C x (k + y.2)) * Spec.corr resp (l.map fun y => (y.1.at x, y.2)) (v + k * y.1.w) else 0
    refine h.sum _ fun k _ => ?_
    split_ifs
    · exact h.mul (h.mul (hy k) (h.conj (hy _))) (ih (fun z hz => hl z (.tail _ hz)) _)
    · exact h.const 0

theorem mixProduct (h : Closed Q) (resp : ℝ → ℂ) (l : List (PTone E × ℤ)) (hl : ∀ y ∈ l, ∀ k, Q fun x => y.1.C x k) (v : ℝ) :
    Q fun x => Spec.mixProduct resp (l.map fun y => (y.1.at x, y.2)) v := by
  unfold Spec.mixProduct
  have hc : ∀ x : E, (∀ z ∈ l.map (fun y => (y.1.at x, y.2)), z.2 = 0) ↔ ∀ y ∈ l, y.2 = 0 := by
    intro t
    simp only [List.mem_map, forall_exists_index, and_imp, forall_apply_eq_imp_iff₂]
  simp only [hc]
  have h1 := h.corr resp l hl v
  split_ifs
  · exact h.im h1
  · have h2 := h.corr resp (l.map fun y => (y.1, -y.2)) (by
      intro y hy
      obtain ⟨z, hz, rfl⟩ := List.mem_map.1 hy
      exact hl z hz) v
    simp only [List.map_map, Function.comp_def] at h2 ⊢
    exact h.mul (h.const _) (h.sub h1 (h.conj h2))

theorem boxSum (h : Closed Q) (P : ℕ) (ts : List (PTone E)) {g : E → List (Tone × ℤ) → ℂ}
    (hg : ∀ as : List ℤ, as.length = ts.length → Q fun x => g x ((ts.zip as).map fun y => (y.1.at x, y.2))) :
    Q fun x => Spec.boxSum P (ts.map (PTone.at x)) (g x) := by
  induction ts generalizing g with
  | nil => simpa [Spec.boxSum] using hg [] rfl
  | cons y ts ih =>
    simp only [List.map_cons, Spec.boxSum]
    refine h.sum _ fun a _ => ih fun as h1 => ?_
    have := hg (a :: as) (by simp [h1])
    simpa only [List.zip_cons_cons, List.map_cons] using this

theorem current (h : Closed Q) (resp : ℝ → ℂ) (P : ℕ) (ts : List (PTone E)) (hl : ∀ y ∈ ts, ∀ k, Q fun x => y.C x k) (v f : ℝ) :
    Q fun x => Spec.current resp P (ts.map (PTone.at x)) v f := by
  unfold Spec.current
  refine h.boxSum P ts fun as _ => ?_
  have e : ∀ x : E, Spec.mixFreq ((ts.zip as).map fun y => (y.1.at x, y.2)) = ((ts.zip as).map fun y => (y.2 : ℝ) * y.1.w).sum := by
    intro x
    unfold Spec.mixFreq
    rw [List.map_map]
    rfl
  simp only [e]
  split_ifs
  · exact h.mixProduct resp _ (fun y hy => hl _ (List.of_mem_zip hy).1) v
  · exact h.const 0

/-- The tones of a circuit. -/
noncomputable def ptones (v : E → ℕ → ℕ → ℂ) (freq : ℕ → ℝ) (P M : ℕ) : ℕ → List ℕ → List (PTone E)
  | _, [] => []
  | f, nb :: nbs => ⟨fun x => toneCoeff (v x f) (freq f) P nb M, nb, freq f⟩ :: ptones v freq P M (f + 1) nbs

theorem ptones_at (v : E → ℕ → ℕ → ℂ) (freq : ℕ → ℝ) (P M f : ℕ) (nbs : List ℕ) (x : E) :
    (ptones v freq P M f nbs).map (PTone.at x) = tonesFrom (v x) freq P M f nbs := by
  induction nbs generalizing f with
  | nil => rfl
  | cons nb nbs ih =>
    simp only [ptones, List.map_cons, tonesFrom, ih]
    rfl

theorem ptones_mem (h : Closed Q) (v : E → ℕ → ℕ → ℂ) (freq : ℕ → ℝ) (P M : ℕ) (nbs : List ℕ) (f F : ℕ) (hF : f + nbs.length ≤ F + 1)
    (hf : 1 ≤ f)
    (hv : ∀ g p, 1 ≤ g → g ≤ F → 1 ≤ p → p ≤ P → ∀ nb n, Q fun x => jacobiAnger (v x g p) (freq g) p nb n) :
    ∀ y ∈ ptones v freq P M f nbs, ∀ k, Q fun x => y.C x k := by
  induction nbs generalizing f with
  | nil => intro y hy; simp [ptones] at hy
  | cons nb nbs ih =>
    simp only [List.length_cons] at hF
    intro y hy
    rcases List.mem_cons.1 hy with rfl | hy
    · intro k
      exact h.harmonicConv M P (fun p h1 h2 l => hv f p hf (by omega) h1 h2 nb l) k
    · exact ih (f + 1) (by omega) (by omega) y hy

theorem qt (h : Closed Q) (resp : ℝ → ℂ) (v : E → ℕ → ℕ → ℂ) (freq : ℕ → ℝ) (F P : ℕ) (tup : List ℕ)
    (hv : ∀ g p, 1 ≤ g → g ≤ F → 1 ≤ p → p ≤ P → ∀ nb n, Q fun x => jacobiAnger (v x g p) (freq g) p nb n) (vb f : ℝ) :
    Q fun x => Spec.qt resp (v x) freq F P tup vb f := by
  unfold Spec.qt
  simp only [← ptones_at]
  refine h.current resp P _ (h.ptones_mem v freq P _ _ 1 F ?_ le_rfl hv) vb f
  rw [List.length_take]
  omega

end Closed

/-- The smooth functions. -/
theorem closed_contDiff [NormedAddCommGroup E] [NormedSpace ℝ E] : Closed fun F : E → ℂ => ContDiff ℝ ∞ F where
  const c := contDiff_const
  add h1 h2 := h1.add h2
  mul h1 h2 := h1.mul h2
  conj h := conjCLE.contDiff.comp h

theorem contDiff_jacobiAnger [NormedAddCommGroup E] [NormedSpace ℝ E] {v : E → ℂ} (hv : ContDiff ℝ ∞ v) (w : ℝ) (p nb : ℕ) (n : ℤ) :
    ContDiff ℝ ∞ fun x => jacobiAnger (v x) w p nb n := by
  unfold jacobiAnger
  by_cases hn : |n| ≤ (nb : ℤ)
  · simp only [if_pos hn]
    exact (contDiff_jaFull w p n).comp hv
  · simp only [if_neg hn]
    exact contDiff_const

theorem contDiff_qt [NormedAddCommGroup E] [NormedSpace ℝ E] (resp : ℝ → ℂ) (v : E → ℕ → ℕ → ℂ) (freq : ℕ → ℝ) (F P : ℕ) (tup : List ℕ)
    (hv : ∀ g p, 1 ≤ g → g ≤ F → 1 ≤ p → p ≤ P → ContDiff ℝ ∞ fun x => v x g p) (vb f : ℝ) :
    ContDiff ℝ ∞ fun x => Spec.qt resp (v x) freq F P tup vb f :=
  closed_contDiff.qt resp v freq F P tup (fun g p h1 h2 h3 h4 nb n => contDiff_jacobiAnger (hv g p h1 h2 h3 h4) _ _ _ _) vb f

end QMix
