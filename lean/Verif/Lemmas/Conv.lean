import Verif.Lemmas.Fourier
import Mathlib.Analysis.Normed.Group.Tannery
import Mathlib.Topology.Algebra.InfiniteSum.Constructions

/-! Sequences indexed by the integers that fall fast, and their convolution. -/

namespace QMix

open Complex Filter Topology

/-- A sequence of non-negative numbers whose sum, weighted with any power of `1 + |k|`, is finite. -/
structure Small (D : ℤ → ℝ) : Prop where
  nonneg : ∀ k, 0 ≤ D k
  summable : ∀ m : ℕ, Summable fun k : ℤ => (1 + |(k : ℝ)|) ^ m * D k

namespace Small

variable {D E : ℤ → ℝ}

theorem sum (h : Small D) : Summable D := (h.summable 0).congr fun k => by rw [pow_zero, one_mul]

/-- Bounded, even after multiplication with the weight. -/
theorem bounded (h : Small D) (m : ℕ) : ∃ B, 0 ≤ B ∧ ∀ k : ℤ, (1 + |(k : ℝ)|) ^ m * D k ≤ B :=
  ⟨∑' k : ℤ, (1 + |(k : ℝ)|) ^ m * D k, tsum_nonneg fun k => mul_nonneg (by positivity) (h.nonneg k),
    fun k => (h.summable m).le_tsum k fun j _ => mul_nonneg (by positivity) (h.nonneg j)⟩

theorem delta : Small fun k => if k = 0 then 1 else 0 where
  nonneg k := by split_ifs <;> norm_num
  summable m := by
    refine summable_of_ne_finset_zero (s := {0}) fun k hk => ?_
    rw [Finset.mem_singleton] at hk
    rw [if_neg hk, mul_zero]

/-- `(k, l) ↦ (k - q l, l)`. -/
def _root_.QMix.shear (q : ℤ) : ℤ × ℤ ≃ ℤ × ℤ :=
  ⟨fun x => (x.1 - q * x.2, x.2), fun x => (x.1 + q * x.2, x.2), fun x => by simp, fun x => by simp⟩

theorem _root_.QMix.shear_apply (q : ℤ) (x : ℤ × ℤ) : shear q x = (x.1 - q * x.2, x.2) := rfl

theorem pair (hD : Small D) (hE : Small E) (q : ℤ) (m : ℕ) :
    Summable fun x : ℤ × ℤ => (1 + |(x.1 : ℝ)|) ^ m * (D (x.1 - q * x.2) * E x.2) := by
  have h1 : Summable fun x : ℤ × ℤ => (1 + |(x.1 : ℝ)|) ^ m * D x.1 * ((1 + |(x.2 : ℝ)|) ^ m * E x.2) :=
    (hD.summable m).mul_of_nonneg (hE.summable m) (fun k => mul_nonneg (by positivity) (hD.nonneg k))
      (fun k => mul_nonneg (by positivity) (hE.nonneg k))
  have h2 := (((shear q).summable_iff).2 h1).mul_left ((1 + |(q : ℝ)|) ^ m)
  refine Summable.of_nonneg_of_le (fun x => mul_nonneg (by positivity) (mul_nonneg (hD.nonneg _) (hE.nonneg _)))
    (fun x => ?_) h2
  have e1 : ((x.1 - q * x.2 : ℤ) : ℝ) = x.1 - q * x.2 := by push_cast; ring
  show _ ≤ (1 + |(q : ℝ)|) ^ m *
    ((1 + |((x.1 - q * x.2 : ℤ) : ℝ)|) ^ m * D (x.1 - q * x.2) * ((1 + |(x.2 : ℝ)|) ^ m * E x.2))
  rw [e1]
  have hk : |(x.1 : ℝ)| ≤ |(x.1 : ℝ) - q * x.2| + |(q : ℝ)| * |(x.2 : ℝ)| := by
    rw [← abs_mul]
    have := abs_add_le ((x.1 : ℝ) - q * x.2) (q * x.2)
    rwa [sub_add_cancel] at this
  have hw : 1 + |(x.1 : ℝ)| ≤ (1 + |(q : ℝ)|) * ((1 + |(x.1 : ℝ) - q * x.2|) * (1 + |(x.2 : ℝ)|)) := by
    have a1 := abs_nonneg ((x.1 : ℝ) - q * x.2)
    have a2 := abs_nonneg (x.2 : ℝ)
    have a3 := abs_nonneg (q : ℝ)
    have a4 := mul_nonneg a1 a2
    have a5 := mul_nonneg a3 a1
    have a6 := mul_nonneg a3 a4
    nlinarith
  have hwm := pow_le_pow_left₀ (by positivity) hw m
  have hde := mul_nonneg (hD.nonneg (x.1 - q * x.2)) (hE.nonneg x.2)
  calc (1 + |(x.1 : ℝ)|) ^ m * (D (x.1 - q * x.2) * E x.2)
      ≤ ((1 + |(q : ℝ)|) * ((1 + |(x.1 : ℝ) - q * x.2|) * (1 + |(x.2 : ℝ)|))) ^ m * (D (x.1 - q * x.2) * E x.2) :=
        mul_le_mul_of_nonneg_right hwm hde
    _ = _ := by rw [mul_pow, mul_pow]; ring

theorem fibre (hD : Small D) (hE : Small E) (q k : ℤ) : Summable fun l : ℤ => D (k - q * l) * E l :=
  ((hD.pair hE q 0).prod_factor k).congr fun l => by rw [pow_zero, one_mul]

/-- Convolution with a dilated sequence. -/
theorem conv (hD : Small D) (hE : Small E) (q : ℤ) : Small fun k => ∑' l, D (k - q * l) * E l where
  nonneg k := tsum_nonneg fun l => mul_nonneg (hD.nonneg _) (hE.nonneg _)
  summable m := by
    have h := (hD.pair hE q m).prod
    exact h.congr fun k => (tsum_mul_left (a := (1 + |(k : ℝ)|) ^ m) (f := fun l => D (k - q * l) * E l) :)

theorem mono (h : Small E) (h0 : ∀ k, 0 ≤ D k) (hle : ∀ k, D k ≤ E k) : Small D :=
  ⟨h0, fun m => Summable.of_nonneg_of_le (fun k => mul_nonneg (by positivity) (h0 k))
    (fun k => mul_le_mul_of_nonneg_left (hle k) (by positivity)) (h.summable m)⟩

theorem add (hD : Small D) (hE : Small E) : Small fun k => D k + E k :=
  ⟨fun k => add_nonneg (hD.nonneg k) (hE.nonneg k), fun m => ((hD.summable m).add (hE.summable m)).congr fun k => by ring⟩

end Small

theorem hasSum_mul_prod {f g : ℤ → ℂ} {F G : ℂ} (hF : HasSum f F) (hG : HasSum g G) (nf : Summable fun k => ‖f k‖)
    (ng : Summable fun k => ‖g k‖) : HasSum (fun x : ℤ × ℤ => f x.1 * g x.2) (F * G) := by
  have h := (summable_mul_of_summable_norm nf ng).hasSum
  rwa [← tsum_mul_tsum_of_summable_norm nf ng, hF.tsum_eq, hG.tsum_eq] at h

/-- The product of two trigonometric series. -/
theorem hasSum_conv {B A : ℤ → ℂ} (hB : Small fun k => ‖B k‖) (hA : Small fun k => ‖A k‖) (q : ℤ) {t : ℝ} {F G : ℂ}
    (hF : HasSum (fun k : ℤ => B k * exp (I * k * t)) F)
    (hG : HasSum (fun l : ℤ => A l * exp (I * l * (q * t : ℝ))) G) :
    HasSum (fun k : ℤ => (∑' l, B (k - q * l) * A l) * exp (I * k * t)) (F * G) := by
  have nB : Summable fun k : ℤ => ‖B k * exp (I * k * t)‖ :=
    hB.sum.congr fun k => by rw [norm_mul, norm_exp_I_mul, mul_one]
  have nA : Summable fun l : ℤ => ‖A l * exp (I * l * (q * t : ℝ))‖ :=
    hA.sum.congr fun k => by rw [norm_mul, norm_exp_I_mul, mul_one]
  have h1 := hasSum_mul_prod hF hG nB nA
  have h2 := ((shear q).hasSum_iff).2 h1
  have h3 : ((fun x : ℤ × ℤ => B x.1 * exp (I * x.1 * t) * (A x.2 * exp (I * x.2 * (q * t : ℝ)))) ∘ shear q) =
      fun x : ℤ × ℤ => B (x.1 - q * x.2) * A x.2 * exp (I * x.1 * t) := by
    funext x
    have : exp (I * x.1 * t) = exp (I * (x.1 - q * x.2 : ℤ) * t) * exp (I * x.2 * (q * t : ℝ)) := by
      rw [← exp_add]
      congr 1
      push_cast
      ring
    rw [this]
    simp only [Function.comp_apply, shear_apply]
    ring
  rw [h3] at h2
  have hfib : ∀ k, Summable fun l => B (k - q * l) * A l := fun k =>
    Summable.of_norm ((hB.fibre hA q k).congr fun l => (norm_mul _ _).symm)
  exact h2.prod_fiberwise (fun k => (hfib k).hasSum.mul_right (exp (I * k * t)))

theorem conv_small {B A : ℤ → ℂ} (hB : Small fun k => ‖B k‖) (hA : Small fun k => ‖A k‖) (q : ℤ) :
    Small fun k => ‖∑' l, B (k - q * l) * A l‖ := by
  refine (hB.conv hA q).mono (fun _ => norm_nonneg _) fun k => ?_
  refine (norm_tsum_le_tsum_norm ((hB.fibre hA q k).congr fun l => (norm_mul _ _).symm)).trans_eq ?_
  simp only [norm_mul]

end QMix
