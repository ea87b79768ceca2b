import Verif.Lemmas.QtKernel
import Verif.Spec.Mtsda

/-! The four kernels compute the mixing products of the specification. -/

namespace QMix.Qt

open Complex Finset

variable {ι : Type}

theorem loop_sum {σ : Type*} [AddCommMonoid σ] (nb : ℕ) {body : σ → ℤ → Py σ} {g : ℤ → σ}
    (h : ∀ k : ℤ, |k| ≤ nb → ∀ s, body s k = .ok (s + g k)) (s : σ) :
    pyFor (pyRange (-(nb : ℤ)) (nb + 1)) s body = .ok (s + ∑ k ∈ Icc (-(nb : ℤ)) nb, g k) := by
  rw [pyFor_add (g := g) (fun k hk s => h k (abs_le_of_mem_range hk) s), sum_pyRange]

theorem ok_bind {α β : Type _} (a : α) (f : α → Py β) : ((Except.ok a : Py α) >>= f) = f a := rfl

theorem pure_ok {α : Type*} (a : α) : (pure a : Py α) = .ok a := rfl

theorem mk_sum {κ α β : Type*} [AddCommMonoid α] [AddCommMonoid β] (s : Finset κ) (f : κ → α)
    (g : κ → β) : (∑ k ∈ s, (f k, g k)) = (∑ k ∈ s, f k, ∑ k ∈ s, g k) :=
  Prod.ext (by rw [Prod.fst_sum]) (by rw [Prod.snd_sum])

theorem within_iff {nb : ℕ} {x : ℤ} : within nb x = true ↔ |x| ≤ nb := by
  unfold within; rw [decide_eq_true_iff, abs_le]

theorem finish_mix (resp : ℝ → ℂ) (ts : List (Spec.Tone × ℤ)) (v : ℝ) (dc : Bool)
    (rsp rsm : Arr ι) (i : ι) (hdc : dc = true ↔ ∀ x ∈ ts, x.2 = 0)
    (hp : rsp i = Spec.corr resp ts v)
    (hm : rsm i = Spec.corr resp (ts.map fun x => (x.1, -x.2)) v) :
    finish dc rsp rsm i = Spec.mixProduct resp ts v := by
  unfold finish Spec.mixProduct
  by_cases h : dc = true
  · rw [if_pos h, if_pos (hdc.1 h), hp]; simp
  · rw [if_neg h, if_neg (fun h' => h (hdc.2 h')), hp, hm]
    apply Complex.ext <;> simp

theorem coeff1_spec {a : ℤ} {c1 r : List (Arr ι)} {C R : ℤ → Arr ι} {nb1 M N : ℕ}
    (hc : Rep M c1 C) (hM : nb1 ≤ M) (hr : Reads N r R) (hN : nb1 ≤ N)
    (resp : ℝ → ℂ) (vb : ι → ℝ) (w1 : ℝ)
    (hR : ∀ k : ℤ, |k| ≤ nb1 → ∀ i, R k i = resp (vb i + k * w1)) :
    coeff1 a c1 r nb1 = .ok fun i =>
      Spec.mixProduct resp [(⟨fun k => C k i, nb1, w1⟩, a)] (vb i) := by
  have up : ∀ {x : ℤ} {L : ℕ}, nb1 ≤ L → |x| ≤ nb1 → |x| ≤ L := fun h h' => by omega
  let g : ℤ → ℤ → Arr ι := fun a k => if |k + a| ≤ nb1 then C k * conjA (C (k + a)) * R k else 0
  unfold coeff1
  simp only []
  rw [loop_sum nb1 (g := fun k => (g a k, g (-a) k))]
  · change Except.ok _ = _
    congr 1
    funext i
    apply finish_mix
    · simp
    · simp only [Prod.fst_add, Prod.fst_sum, zero_add, Finset.sum_apply, g, Spec.corr]
      refine sum_congr rfl fun k hk => ?_
      rw [mem_Icc, ← abs_le] at hk
      split_ifs with h
      · simp [conjA, hR k hk i]
      · rfl
    · simp only [Prod.snd_add, Prod.snd_sum, zero_add, Finset.sum_apply, g, Spec.corr, List.map]
      refine sum_congr rfl fun k hk => ?_
      rw [mem_Icc, ← abs_le] at hk
      split_ifs with h
      · simp [conjA, hR k hk i]
      · rfl
  · intro k hk s
    have e1 := hc.get (up hM hk)
    have e2 : ∀ x : ℤ, |x| ≤ nb1 → pyGet (c1.map conjA) x = .ok (conjA (C x)) :=
      fun x hx => (hc.map conjA).get (up hM hx)
    have e3 := hr k (up hN hk)
    simp only [within_iff, g, ← sub_eq_add_neg, e1, e3]
    by_cases hp : |k + a| ≤ nb1 <;> by_cases hm : |k - a| ≤ nb1 <;>
      simp only [hp, hm, if_true, if_false, e2, ok_bind, pure_ok] <;>
      exact congrArg Except.ok (Prod.ext (by simp) (by simp))

theorem coeff2_spec {a b : ℤ} {c1 c2 : List (Arr ι)} {r : List (List (Arr ι))} {C1 C2 : ℤ → Arr ι}
    {R : ℤ → ℤ → Arr ι} {nb1 nb2 M N1 N2 : ℕ}
    (hc1 : Rep M c1 C1) (hc2 : Rep M c2 C2) (hM1 : nb1 ≤ M) (hM2 : nb2 ≤ M)
    (hr : Rep2 N1 N2 r R) (hN1 : nb1 ≤ N1) (hN2 : nb2 ≤ N2)
    (resp : ℝ → ℂ) (vb : ι → ℝ) (w1 w2 : ℝ)
    (hR : ∀ k l : ℤ, |k| ≤ nb1 → |l| ≤ nb2 → ∀ i, R k l i = resp (vb i + k * w1 + l * w2)) :
    coeff2 a b c1 c2 r nb1 nb2 = .ok fun i =>
      Spec.mixProduct resp
        [(⟨fun k => C1 k i, nb1, w1⟩, a), (⟨fun k => C2 k i, nb2, w2⟩, b)] (vb i) := by
  have up : ∀ {x : ℤ} {n L : ℕ}, n ≤ L → |x| ≤ n → |x| ≤ L := fun h h' => by omega
  obtain ⟨rows, hr1, hr2⟩ := hr
  let g : ℤ → ℤ → ℤ → ℤ → Arr ι := fun a b k l =>
    if |k + a| ≤ nb1 ∧ |l + b| ≤ nb2 then
      C1 k * conjA (C1 (k + a)) * C2 l * conjA (C2 (l + b)) * R k l else 0
  have key : ∀ a b i, (∑ k ∈ Icc (-(nb1 : ℤ)) nb1, ∑ l ∈ Icc (-(nb2 : ℤ)) nb2, g a b k l) i
      = Spec.corr resp
        [(⟨fun k => C1 k i, nb1, w1⟩, a), (⟨fun k => C2 k i, nb2, w2⟩, b)] (vb i) := by
    intro a b i
    simp only [Finset.sum_apply, Spec.corr]
    refine sum_congr rfl fun k hk => ?_
    rw [mem_Icc, ← abs_le] at hk
    by_cases h1 : |k + a| ≤ nb1
    · rw [if_pos h1, mul_sum]
      refine sum_congr rfl fun l hl => ?_
      rw [mem_Icc, ← abs_le] at hl
      by_cases h2 : |l + b| ≤ nb2
      · simp only [g, h1, h2, and_self, if_true, Pi.mul_apply, conjA, hR k l hk hl i]
        ring
      · simp [g, h1, h2]
    · rw [if_neg h1]
      exact sum_eq_zero fun l _ => by simp [g, h1]
  unfold coeff2
  rw [loop_sum nb1 (g := fun k => (∑ l ∈ Icc (-(nb2 : ℤ)) nb2, g a b k l,
    ∑ l ∈ Icc (-(nb2 : ℤ)) nb2, g (-a) (-b) k l))]
  · change Except.ok _ = _
    congr 1
    funext i
    apply finish_mix
    · simp
    · simp only [Prod.fst_sum, zero_add, key]
    · simp only [Prod.snd_sum, zero_add, key, List.map]
  · intro k hk s
    rw [loop_sum nb2 (g := fun l => (g a b k l, g (-a) (-b) k l)), mk_sum]
    intro l hl s
    have e1 := hc1.get (up hM1 hk)
    have e2 := hc2.get (up hM2 hl)
    have e3 : ∀ x : ℤ, |x| ≤ nb1 → pyGet c1 x = .ok (C1 x) := fun x hx => hc1.get (up hM1 hx)
    have e4 : ∀ x : ℤ, |x| ≤ nb2 → pyGet c2 x = .ok (C2 x) := fun x hx => hc2.get (up hM2 hx)
    have e5 := hr1.get (up hN1 hk)
    have e6 := (hr2 k (up hN1 hk)).get (up hN2 hl)
    simp only [within_iff, Bool.and_eq_true, g, ← sub_eq_add_neg, e1, e2, e5, e6, ok_bind]
    by_cases hp : |k + a| ≤ nb1 ∧ |l + b| ≤ nb2 <;>
      by_cases hm : |k - a| ≤ nb1 ∧ |l - b| ≤ nb2 <;>
      simp only [hp, hm, and_self, if_true, if_false, e3, e4, ok_bind, pure_ok] <;>
      exact congrArg Except.ok (Prod.ext (by simp) (by simp))

theorem coeff3_spec {a b c : ℤ} {c1 c2 c3 : List (Arr ι)} {r : List (List (List (Arr ι)))}
    {C1 C2 C3 : ℤ → Arr ι} {R : ℤ → ℤ → ℤ → Arr ι} {nb1 nb2 nb3 M N1 N2 N3 : ℕ}
    (hc1 : Rep M c1 C1) (hc2 : Rep M c2 C2) (hc3 : Rep M c3 C3)
    (hM1 : nb1 ≤ M) (hM2 : nb2 ≤ M) (hM3 : nb3 ≤ M)
    (hr : Rep3 N1 N2 N3 r R) (hN1 : nb1 ≤ N1) (hN2 : nb2 ≤ N2) (hN3 : nb3 ≤ N3)
    (resp : ℝ → ℂ) (vb : ι → ℝ) (w1 w2 w3 : ℝ)
    (hR : ∀ k l m : ℤ, |k| ≤ nb1 → |l| ≤ nb2 → |m| ≤ nb3 → ∀ i,
      R k l m i = resp (vb i + k * w1 + l * w2 + m * w3)) :
    coeff3 a b c c1 c2 c3 r nb1 nb2 nb3 = .ok fun i =>
      Spec.mixProduct resp
        [(⟨fun k => C1 k i, nb1, w1⟩, a), (⟨fun k => C2 k i, nb2, w2⟩, b),
          (⟨fun k => C3 k i, nb3, w3⟩, c)] (vb i) := by
  have up : ∀ {x : ℤ} {n L : ℕ}, n ≤ L → |x| ≤ n → |x| ≤ L := fun h h' => by omega
  obtain ⟨rows, hr1, hr23⟩ := hr
  let g : ℤ → ℤ → ℤ → ℤ → ℤ → ℤ → Arr ι := fun a b c k l m =>
    if (|k + a| ≤ nb1 ∧ |l + b| ≤ nb2) ∧ |m + c| ≤ nb3 then
      conjA (C1 (k + a) * C2 (l + b) * C3 (m + c)) * (C1 k * C2 l * C3 m) * R k l m else 0
  have key : ∀ a b c i, (∑ k ∈ Icc (-(nb1 : ℤ)) nb1, ∑ l ∈ Icc (-(nb2 : ℤ)) nb2,
      ∑ m ∈ Icc (-(nb3 : ℤ)) nb3, g a b c k l m) i
      = Spec.corr resp
        [(⟨fun k => C1 k i, nb1, w1⟩, a), (⟨fun k => C2 k i, nb2, w2⟩, b),
          (⟨fun k => C3 k i, nb3, w3⟩, c)] (vb i) := by
    intro a b c i
    simp only [Finset.sum_apply, Spec.corr]
    refine sum_congr rfl fun k hk => ?_
    rw [mem_Icc, ← abs_le] at hk
    by_cases h1 : |k + a| ≤ nb1
    · rw [if_pos h1, mul_sum]
      refine sum_congr rfl fun l hl => ?_
      rw [mem_Icc, ← abs_le] at hl
      by_cases h2 : |l + b| ≤ nb2
      · rw [if_pos h2, mul_sum, mul_sum]
        refine sum_congr rfl fun m hm => ?_
        rw [mem_Icc, ← abs_le] at hm
        by_cases h3 : |m + c| ≤ nb3
        · simp only [g, h1, h2, h3, and_self, if_true, Pi.mul_apply, conjA, map_mul,
            hR k l m hk hl hm i]
          ring
        · simp [g, h1, h2, h3]
      · rw [if_neg h2, mul_zero]
        exact sum_eq_zero fun m _ => by simp [g, h1, h2]
    · rw [if_neg h1]
      exact sum_eq_zero fun l _ => sum_eq_zero fun m _ => by simp [g, h1]
  unfold coeff3
  rw [loop_sum nb1 (g := fun k =>
    (∑ l ∈ Icc (-(nb2 : ℤ)) nb2, ∑ m ∈ Icc (-(nb3 : ℤ)) nb3, g a b c k l m,
     ∑ l ∈ Icc (-(nb2 : ℤ)) nb2, ∑ m ∈ Icc (-(nb3 : ℤ)) nb3, g (-a) (-b) (-c) k l m))]
  · change Except.ok _ = _
    congr 1
    funext i
    apply finish_mix
    · simp
    · simp only [Prod.fst_sum, zero_add, key]
    · simp only [Prod.snd_sum, zero_add, key, List.map]
  · intro k hk s
    obtain ⟨rows2, hr2, hr3⟩ := hr23 k (up hN1 hk)
    rw [loop_sum nb2 (g := fun l => (∑ m ∈ Icc (-(nb3 : ℤ)) nb3, g a b c k l m,
      ∑ m ∈ Icc (-(nb3 : ℤ)) nb3, g (-a) (-b) (-c) k l m)), mk_sum]
    intro l hl s
    rw [loop_sum nb3 (g := fun m => (g a b c k l m, g (-a) (-b) (-c) k l m)), mk_sum]
    intro m hm s
    have e1 := hc1.get (up hM1 hk)
    have e2 := hc2.get (up hM2 hl)
    have e2' := hc3.get (up hM3 hm)
    have e3 : ∀ x : ℤ, |x| ≤ nb1 → pyGet c1 x = .ok (C1 x) := fun x hx => hc1.get (up hM1 hx)
    have e4 : ∀ x : ℤ, |x| ≤ nb2 → pyGet c2 x = .ok (C2 x) := fun x hx => hc2.get (up hM2 hx)
    have e4' : ∀ x : ℤ, |x| ≤ nb3 → pyGet c3 x = .ok (C3 x) := fun x hx => hc3.get (up hM3 hx)
    have e5 := hr1.get (up hN1 hk)
    have e6 := hr2.get (up hN2 hl)
    have e7 := (hr3 l (up hN2 hl)).get (up hN3 hm)
    simp only [within_iff, Bool.and_eq_true, g, ← sub_eq_add_neg, e1, e2, e2', e5, e6, e7, ok_bind]
    by_cases hp : (|k + a| ≤ nb1 ∧ |l + b| ≤ nb2) ∧ |m + c| ≤ nb3 <;>
      by_cases hm : (|k - a| ≤ nb1 ∧ |l - b| ≤ nb2) ∧ |m - c| ≤ nb3 <;>
      simp only [hp, hm, and_self, if_true, if_false, e3, e4, e4', ok_bind, pure_ok] <;>
      exact congrArg Except.ok (Prod.ext (by simp) (by simp))

theorem coeff4_spec {a b c d : ℤ} {c1 c2 c3 c4 : List (Arr ι)}
    {r : List (List (List (List (Arr ι))))}
    {C1 C2 C3 C4 : ℤ → Arr ι} {R : ℤ → ℤ → ℤ → ℤ → Arr ι} {nb1 nb2 nb3 nb4 M N1 N2 N3 N4 : ℕ}
    (hc1 : Rep M c1 C1) (hc2 : Rep M c2 C2) (hc3 : Rep M c3 C3) (hc4 : Rep M c4 C4)
    (hM1 : nb1 ≤ M) (hM2 : nb2 ≤ M) (hM3 : nb3 ≤ M) (hM4 : nb4 ≤ M)
    (hr : Rep4 N1 N2 N3 N4 r R) (hN1 : nb1 ≤ N1) (hN2 : nb2 ≤ N2) (hN3 : nb3 ≤ N3)
    (hN4 : nb4 ≤ N4)
    (resp : ℝ → ℂ) (vb : ι → ℝ) (w1 w2 w3 w4 : ℝ)
    (hR : ∀ k l m n : ℤ, |k| ≤ nb1 → |l| ≤ nb2 → |m| ≤ nb3 → |n| ≤ nb4 → ∀ i,
      R k l m n i = resp (vb i + k * w1 + l * w2 + m * w3 + n * w4)) :
    coeff4 a b c d c1 c2 c3 c4 r nb1 nb2 nb3 nb4 = .ok fun i =>
      Spec.mixProduct resp
        [(⟨fun k => C1 k i, nb1, w1⟩, a), (⟨fun k => C2 k i, nb2, w2⟩, b),
          (⟨fun k => C3 k i, nb3, w3⟩, c), (⟨fun k => C4 k i, nb4, w4⟩, d)] (vb i) := by
  have up : ∀ {x : ℤ} {n L : ℕ}, n ≤ L → |x| ≤ n → |x| ≤ L := fun h h' => by omega
  obtain ⟨rows, hr1, hr234⟩ := hr
  let g : ℤ → ℤ → ℤ → ℤ → ℤ → ℤ → ℤ → ℤ → Arr ι := fun a b c d k l m n =>
    if ((|k + a| ≤ nb1 ∧ |l + b| ≤ nb2) ∧ |m + c| ≤ nb3) ∧ |n + d| ≤ nb4 then
      conjA (C1 (k + a) * C2 (l + b) * C3 (m + c) * C4 (n + d))
        * (C1 k * C2 l * C3 m * C4 n) * R k l m n else 0
  have key : ∀ a b c d i, (∑ k ∈ Icc (-(nb1 : ℤ)) nb1, ∑ l ∈ Icc (-(nb2 : ℤ)) nb2,
      ∑ m ∈ Icc (-(nb3 : ℤ)) nb3, ∑ n ∈ Icc (-(nb4 : ℤ)) nb4, g a b c d k l m n) i
      = Spec.corr resp
        [(⟨fun k => C1 k i, nb1, w1⟩, a), (⟨fun k => C2 k i, nb2, w2⟩, b),
          (⟨fun k => C3 k i, nb3, w3⟩, c), (⟨fun k => C4 k i, nb4, w4⟩, d)] (vb i) := by
    intro a b c d i
    simp only [Finset.sum_apply, Spec.corr]
    refine sum_congr rfl fun k hk => ?_
    rw [mem_Icc, ← abs_le] at hk
    by_cases h1 : |k + a| ≤ nb1
    · rw [if_pos h1, mul_sum]
      refine sum_congr rfl fun l hl => ?_
      rw [mem_Icc, ← abs_le] at hl
      by_cases h2 : |l + b| ≤ nb2
      · rw [if_pos h2, mul_sum, mul_sum]
        refine sum_congr rfl fun m hm => ?_
        rw [mem_Icc, ← abs_le] at hm
        by_cases h3 : |m + c| ≤ nb3
        · rw [if_pos h3, mul_sum, mul_sum, mul_sum]
          refine sum_congr rfl fun n hn => ?_
          rw [mem_Icc, ← abs_le] at hn
          by_cases h4 : |n + d| ≤ nb4
          · simp only [g, h1, h2, h3, h4, and_self, if_true, Pi.mul_apply, conjA, map_mul,
              hR k l m n hk hl hm hn i]
            ring
          · simp [g, h1, h2, h3, h4]
        · rw [if_neg h3, mul_zero, mul_zero]
          exact sum_eq_zero fun n _ => by simp [g, h1, h2, h3]
      · rw [if_neg h2, mul_zero]
        exact sum_eq_zero fun m _ => sum_eq_zero fun n _ => by simp [g, h1, h2]
    · rw [if_neg h1]
      exact sum_eq_zero fun l _ => sum_eq_zero fun m _ => sum_eq_zero fun n _ => by simp [g, h1]
  unfold coeff4
  rw [loop_sum nb1 (g := fun k =>
    (∑ l ∈ Icc (-(nb2 : ℤ)) nb2, ∑ m ∈ Icc (-(nb3 : ℤ)) nb3, ∑ n ∈ Icc (-(nb4 : ℤ)) nb4,
      g a b c d k l m n,
     ∑ l ∈ Icc (-(nb2 : ℤ)) nb2, ∑ m ∈ Icc (-(nb3 : ℤ)) nb3, ∑ n ∈ Icc (-(nb4 : ℤ)) nb4,
      g (-a) (-b) (-c) (-d) k l m n))]
  · change Except.ok _ = _
    congr 1
    funext i
    apply finish_mix
    · simp
    · simp only [Prod.fst_sum, zero_add, key]
    · simp only [Prod.snd_sum, zero_add, key, List.map]
  · intro k hk s
    obtain ⟨rows2, hr2, hr34⟩ := hr234 k (up hN1 hk)
    rw [loop_sum nb2 (g := fun l =>
      (∑ m ∈ Icc (-(nb3 : ℤ)) nb3, ∑ n ∈ Icc (-(nb4 : ℤ)) nb4, g a b c d k l m n,
      ∑ m ∈ Icc (-(nb3 : ℤ)) nb3, ∑ n ∈ Icc (-(nb4 : ℤ)) nb4, g (-a) (-b) (-c) (-d) k l m n)),
      mk_sum]
    intro l hl s
    obtain ⟨rows3, hr3, hr4⟩ := hr34 l (up hN2 hl)
    rw [loop_sum nb3 (g := fun m => (∑ n ∈ Icc (-(nb4 : ℤ)) nb4, g a b c d k l m n,
      ∑ n ∈ Icc (-(nb4 : ℤ)) nb4, g (-a) (-b) (-c) (-d) k l m n)), mk_sum]
    intro m hm s
    rw [loop_sum nb4 (g := fun n => (g a b c d k l m n, g (-a) (-b) (-c) (-d) k l m n)),
      mk_sum]
    intro n hn s
    have e1 := hc1.get (up hM1 hk)
    have e2 := hc2.get (up hM2 hl)
    have e2' := hc3.get (up hM3 hm)
    have e2'' := hc4.get (up hM4 hn)
    have e3 : ∀ x : ℤ, |x| ≤ nb1 → pyGet c1 x = .ok (C1 x) := fun x hx => hc1.get (up hM1 hx)
    have e4 : ∀ x : ℤ, |x| ≤ nb2 → pyGet c2 x = .ok (C2 x) := fun x hx => hc2.get (up hM2 hx)
    have e4' : ∀ x : ℤ, |x| ≤ nb3 → pyGet c3 x = .ok (C3 x) := fun x hx => hc3.get (up hM3 hx)
    have e4'' : ∀ x : ℤ, |x| ≤ nb4 → pyGet c4 x = .ok (C4 x) := fun x hx => hc4.get (up hM4 hx)
    have e5 := hr1.get (up hN1 hk)
    have e6 := hr2.get (up hN2 hl)
    have e7 := hr3.get (up hN3 hm)
    have e8 := (hr4 m (up hN3 hm)).get (up hN4 hn)
    simp only [within_iff, Bool.and_eq_true, g, ← sub_eq_add_neg, e1, e2, e2', e2'', e5, e6, e7, e8,
      ok_bind]
    by_cases hp : ((|k + a| ≤ nb1 ∧ |l + b| ≤ nb2) ∧ |m + c| ≤ nb3) ∧ |n + d| ≤ nb4 <;>
      by_cases hm : ((|k - a| ≤ nb1 ∧ |l - b| ≤ nb2) ∧ |m - c| ≤ nb3) ∧ |n - d| ≤ nb4 <;>
      simp only [hp, hm, and_self, if_true, if_false, e3, e4, e4', e4'', ok_bind, pure_ok] <;>
      exact congrArg Except.ok (Prod.ext (by simp) (by simp))

end QMix.Qt
