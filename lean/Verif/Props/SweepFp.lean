import Verif.Model.SweepFp
import Verif.Props.FreqFp

/-!
# C197: the bias sweep in floating-point arithmetic
-/

namespace QMix.Props

open QMix.Cct QMix.CctFp QMix.Spec QMix.Rel

variable {u : ℝ}

/-! ## Specification -/

/-- `x` is a sequence of `n` voltages from `lo` to `hi`, and the one of index `k` is `lo + k (hi - lo) / (n - 1)` to within `e`. -/
structure Sweep (x : List ℝ) (lo hi : ℝ) (n : ℕ) (e : ℝ) : Prop where
  length : x.length = n
  first : x[0]? = some lo
  last : 2 ≤ n → x[n - 1]? = some hi
  near : ∀ k < n, 2 ≤ n → ∃ v, x[k]? = some v ∧ |v - (lo + k * (hi - lo) / (n - 1))| ≤ e

/-! ## Lemmas -/

theorem newSweep_vb (A : Fp u) {numF numP npts : ℤ} {lo hi : ℝ} {fg vg rn : Option ℝ} {name : String} {c : Circuit}
    (h : newSweep A numF numP lo hi npts fg vg rn name = .ok c) : c.vb = CctFp.linspace A lo hi npts.toNat ∧ 1 ≤ npts ∧ lo ≤ hi := by
  unfold newSweep at h
  obtain ⟨c₁, h1, h⟩ := bind_ok_iff.1 h
  cases h
  refine ⟨rfl, ?_⟩
  unfold CctFp.new at h1
  obtain ⟨c₂, h2, -⟩ := bind_ok_iff.1 h1
  unfold Cct.new at h2
  obtain ⟨_, -, h2⟩ := bind_ok_iff.1 h2
  obtain ⟨_, -, h2⟩ := bind_ok_iff.1 h2
  obtain ⟨_, h3, h2⟩ := bind_ok_iff.1 h2
  obtain ⟨_, h4, -⟩ := bind_ok_iff.1 h2
  exact ⟨by by_contra hn; simp [pyAssert, hn] at h3, by by_contra hn; simp [pyAssert, hn] at h4⟩

theorem rnd_zero (A : Fp u) : A.rnd 0 = 0 := by
  have := A.rnd_le 0
  simpa using this

theorem sum_near (A : Fp u) (h0 : 0 ≤ u) (hu : u ≤ 1 / 12) {p t lo D : ℝ} (hp : Rel u 3 p t) (ht : 0 ≤ t) (htD : t ≤ D) :
    |A.rnd (p + lo) - (lo + t)| ≤ u * |lo + t| + 5 * u * D := by
  have h1 : u < 1 := by linarith
  have e1 := hp.abs_sub_le h1 h0
  have e2 := inv_pow_le (n := 3) h0 (by norm_num; linarith)
  rw [abs_of_nonneg ht] at e1
  have e3 : |p - t| ≤ 4 * u * D := by
    refine e1.trans ?_
    norm_num at e2 ⊢
    nlinarith
  have e4 := A.rnd_le (p + lo)
  have e5 : |p + lo| ≤ |lo + t| + |p - t| := by
    rw [show p + lo = lo + t + (p - t) by ring]
    exact abs_add_le _ _
  have e6 : |A.rnd (p + lo) - (lo + t)| ≤ |A.rnd (p + lo) - (p + lo)| + |p - t| := by
    rw [show A.rnd (p + lo) - (lo + t) = A.rnd (p + lo) - (p + lo) + (p - t) by ring]
    exact abs_add_le _ _
  have hD : 0 ≤ D := ht.trans htD
  have e7 : u * |p + lo| ≤ u * |lo + t| + u * (4 * u * D) := by nlinarith
  have e8 : u * (4 * u * D) ≤ u * D := by nlinarith [mul_nonneg h0 hD]
  linarith

/-! ## C197 -/

/-- C197, the points: the sweep has the number of points asked for, the first and the last are the ends that were given, exactly, and the
others differ from equally spaced ones by one rounding of the largest voltage and five of the interval. -/
theorem C197_points (A : Fp u) (h0 : 0 ≤ u) (hu : u ≤ 1 / 12) {numF numP npts : ℤ} {lo hi : ℝ} {fg vg rn : Option ℝ} {name : String}
    {c : Circuit} (h : newSweep A numF numP lo hi npts fg vg rn name = .ok c) (hlo : A.rnd lo = lo) :
    Sweep c.vb lo hi npts.toNat (u * max |lo| |hi| + 5 * u * (hi - lo)) := by
  obtain ⟨hvb, hn, hle⟩ := newSweep_vb A h
  have h1 : u < 1 := by linarith
  obtain ⟨n, rfl⟩ : ∃ n : ℕ, npts = n + 1 := ⟨(npts - 1).toNat, by omega⟩
  have hN : ((n : ℤ) + 1).toNat = n + 1 := by omega
  rw [hN] at hvb ⊢
  have hget : ∀ k < n + 1, c.vb[k]? = some (if n + 1 = 1 then A.rnd (A.rnd (k * A.rnd (hi - lo)) + lo)
      else if k = n + 1 - 1 then hi
      else if A.rnd (A.rnd (hi - lo) / (n + 1 - 1 : ℕ)) = 0 then A.rnd (A.rnd (A.rnd (k / (n + 1 - 1 : ℕ)) * A.rnd (hi - lo)) + lo)
      else A.rnd (A.rnd (k * A.rnd (A.rnd (hi - lo) / (n + 1 - 1 : ℕ))) + lo)) := by
    intro k hk
    rw [hvb]
    unfold CctFp.linspace
    simp only [List.getElem?_map, List.getElem?_range hk, Option.map_some]
  refine ⟨by rw [hvb]; simp [CctFp.linspace], ?_, ?_, ?_⟩
  · rw [hget 0 (by omega)]
    simp only [Nat.cast_zero, zero_mul, zero_div, rnd_zero, zero_add, hlo]
    by_cases hn0 : n = 0
    · simp [hn0]
    · simp [hn0, Ne.symm hn0]
  · intro h2
    rw [Nat.add_sub_cancel, hget n (by omega)]
    rw [if_neg (by omega), if_pos (by omega)]
  · intro k hk h2
    have hn0 : (0 : ℝ) < n := by exact_mod_cast (by omega : 0 < n)
    have hk' : (k : ℝ) ≤ n := by exact_mod_cast (by omega : k ≤ n)
    have hk0 : (0 : ℝ) ≤ k := Nat.cast_nonneg k
    have ecast : ((n + 1 : ℕ) : ℝ) - 1 = n := by push_cast; ring
    rw [ecast]
    refine ⟨_, hget k hk, ?_⟩
    have hD : 0 ≤ hi - lo := by linarith
    have ht : 0 ≤ k * (hi - lo) / n := by positivity
    have htD : k * (hi - lo) / n ≤ hi - lo := by
      rw [div_le_iff₀ hn0]
      nlinarith
    have hx : |lo + k * (hi - lo) / n| ≤ max |lo| |hi| := by
      rw [abs_le]
      have a1 := neg_abs_le lo
      have a2 := le_abs_self hi
      have a3 := le_max_left |lo| |hi|
      have a4 := le_max_right |lo| |hi|
      constructor <;> linarith
    have hb : u * |lo + k * (hi - lo) / n| + 5 * u * (hi - lo) ≤ u * max |lo| |hi| + 5 * u * (hi - lo) := by
      have := mul_le_mul_of_nonneg_left hx h0
      linarith
    rw [if_neg (by omega), Nat.add_sub_cancel]
    split_ifs with hl hs
    · rw [hl]
      rw [mul_div_cancel_left₀ _ hn0.ne', show hi - (lo + (hi - lo)) = 0 by ring, abs_zero]
      positivity
    · refine (sum_near A h0 hu ?_ ht htD).trans hb
      rw [show (k : ℝ) * (hi - lo) / n = k / n * (hi - lo) by ring]
      exact rnd_step A h0 h1 ((rnd_rel A h0 h1 _).mul h1 (rnd_rel A h0 h1 _))
    · refine (sum_near A h0 hu ?_ ht htD).trans hb
      rw [mul_div_assoc]
      exact rnd_step A h0 h1 ((rnd_step A h0 h1 ((rnd_rel A h0 h1 _).divRight _)).mulLeft _)

/-- C197, the order: if the step is more than a few roundings of the largest voltage and of the interval, no two voltages of the sweep are
equal, and they are in increasing order. -/
theorem C197_increasing (A : Fp u) (h0 : 0 ≤ u) (hu : u ≤ 1 / 12) {numF numP npts : ℤ} {lo hi : ℝ} {fg vg rn : Option ℝ} {name : String}
    {c : Circuit} (h : newSweep A numF numP lo hi npts fg vg rn name = .ok c) (hlo : A.rnd lo = lo)
    (hs : (npts - 1) * (u * (2 * max |lo| |hi| + 10 * (hi - lo))) < hi - lo) : c.vb.Pairwise (· < ·) := by
  have H := C197_points A h0 hu h hlo
  obtain ⟨-, hn, -⟩ := newSweep_vb A h
  obtain ⟨n, rfl⟩ : ∃ n : ℕ, npts = n + 1 := ⟨(npts - 1).toNat, by omega⟩
  have hN : ((n : ℤ) + 1).toNat = n + 1 := by omega
  rw [hN] at H
  push_cast at hs
  rw [add_sub_cancel_right] at hs
  rw [List.pairwise_iff_getElem]
  intro i j hi' hj hij
  rw [H.length] at hi' hj
  obtain ⟨v, hv, ev⟩ := H.near i hi' (by omega)
  obtain ⟨w, hw, ew⟩ := H.near j hj (by omega)
  rw [List.getElem?_eq_some_iff] at hv hw
  obtain ⟨_, hv⟩ := hv
  obtain ⟨_, hw⟩ := hw
  rw [hv, hw]
  have hn0 : (0 : ℝ) < n := by exact_mod_cast (by omega : 0 < n)
  have hij' : (i : ℝ) + 1 ≤ j := by exact_mod_cast hij
  rw [show ((n + 1 : ℕ) : ℝ) - 1 = n by push_cast; ring] at ev ew
  rw [abs_le] at ev ew
  have hD : 0 ≤ hi - lo := by
    have := (newSweep_vb A h).2.2
    linarith
  have e1 : u * (2 * max |lo| |hi| + 10 * (hi - lo)) < (hi - lo) / n := by
    rw [lt_div_iff₀ hn0]
    linarith
  have e2 : i * (hi - lo) / n + (hi - lo) / n ≤ j * (hi - lo) / n := by
    rw [← add_div]
    refine div_le_div_of_nonneg_right ?_ hn0.le
    nlinarith
  linarith [ev.2, ew.1]

/-- C197, the order of binary64: up to a million million points, and with ends that are not close to each other (compared with their size),
the voltages are distinct and in order. -/
theorem C197_increasing_64 (A : Fp u64) {numF numP npts : ℤ} {lo hi : ℝ} {fg vg rn : Option ℝ} {name : String}
    {c : Circuit} (h : newSweep A numF numP lo hi npts fg vg rn name = .ok c) (hlo : A.rnd lo = lo) (hlt : lo < hi)
    (hn : npts ≤ 10 ^ 12) (hr : |lo| ≤ 100 * (hi - lo) ∧ |hi| ≤ 100 * (hi - lo)) : c.vb.Pairwise (· < ·) := by
  refine C197_increasing A u64_pos.le (by unfold u64; norm_num) h hlo ?_
  obtain ⟨-, hn1, -⟩ := newSweep_vb A h
  have hm : max |lo| |hi| ≤ 100 * (hi - lo) := max_le hr.1 hr.2
  have hD : 0 < hi - lo := by linarith
  have h1 : ((npts : ℝ) - 1) ≤ 10 ^ 12 := by
    have : (npts : ℝ) ≤ 10 ^ 12 := by exact_mod_cast hn
    linarith
  have h0 : (0 : ℝ) ≤ (npts : ℝ) - 1 := by
    have : (1 : ℝ) ≤ npts := by exact_mod_cast hn1
    linarith
  have hu := u64_pos.le
  calc ((npts : ℝ) - 1) * (u64 * (2 * max |lo| |hi| + 10 * (hi - lo)))
      ≤ 10 ^ 12 * (u64 * (210 * (hi - lo))) := by
        refine mul_le_mul h1 (mul_le_mul_of_nonneg_left (by linarith) hu) ?_ (by norm_num)
        have : 0 ≤ max |lo| |hi| := (abs_nonneg lo).trans (le_max_left _ _)
        exact mul_nonneg hu (by linarith)
    _ = 10 ^ 12 * u64 * 210 * (hi - lo) := by ring
    _ < 1 * (hi - lo) := mul_lt_mul_of_pos_right (by unfold u64; norm_num) hD
    _ = hi - lo := one_mul _

theorem newSweep_ok (A : Fp u) {lo hi : ℝ} {npts : ℤ} (hn : 1 ≤ npts) (hle : lo ≤ hi) (fg vg : Option ℝ) (name : String) :
    ∃ c, newSweep A 1 1 lo hi npts fg vg none name = .ok c := by
  unfold newSweep CctFp.new
  rw [new_eq (ig := none) (.inl rfl) (by norm_num) hn hle (by cases vg <;> rfl)]
  exact ⟨_, rfl⟩

/-- Without the condition on the step two voltages of a sweep can be equal: an arithmetic that rounds 1.005 to 1. -/
theorem C197_equal : ∃ (A : Fp (1 / 100)) (c : Circuit), newSweep A 1 1 1 1.01 3 none none none "" = .ok c ∧ A.rnd 1 = 1 ∧
    A.rnd 1.01 = 1.01 ∧ c.vb[0]? = c.vb[1]? := by
  let A : Fp (1 / 100) :=
    { rnd := fun x => if x = 1.005 then 1 else x
      pow10 := fun x => 10 ^ x
      log10 := Real.logb 10
      abs := fun z => ‖z‖
      rnd_le := fun x => by
        split_ifs with h
        · rw [h]
          norm_num [abs_le]
        · rw [sub_self, abs_zero]
          positivity
      pow10_le := fun x => by rw [sub_self, abs_zero]; positivity
      log10_le := fun x => by rw [sub_self, abs_zero]; positivity
      abs_le := fun z => by rw [sub_self, abs_zero]; positivity }
  have hA : ∀ x, A.rnd x = if x = 1.005 then 1 else x := fun _ => rfl
  obtain ⟨c, h⟩ := newSweep_ok A (lo := 1) (hi := 1.01) (npts := 3) (by norm_num) (by norm_num) none none ""
  refine ⟨A, c, h, by rw [hA]; norm_num, by rw [hA]; norm_num, ?_⟩
  rw [(newSweep_vb A h).1]
  have h3 : (3 : ℤ).toNat = 3 := rfl
  rw [h3]
  unfold CctFp.linspace
  simp only [hA]
  norm_num [List.range_succ]

/-- The default sweep from 0 to 2 with 201 points, in binary64. -/
example : ∃ c, newSweep fp64 1 1 0 2 201 none (some 2.8e-3) none "" = .ok c ∧ c.vb.Pairwise (· < ·) ∧
    ∃ v, c.vb[100]? = some v ∧ |v - 1| ≤ 12 * u64 := by
  obtain ⟨c, h⟩ := newSweep_ok fp64 (lo := 0) (hi := 2) (npts := 201) (by norm_num) (by norm_num) none (some 2.8e-3) ""
  refine ⟨c, h, C197_increasing_64 fp64 h (rnd_zero _) (by norm_num) (by norm_num) (by norm_num), ?_⟩
  obtain ⟨v, hv, e⟩ := (C197_points fp64 u64_pos.le (by unfold u64; norm_num) h (rnd_zero _)).near 100 (by decide) (by decide)
  refine ⟨v, hv, ?_⟩
  have e1 : (((201 : ℤ).toNat : ℕ) : ℝ) = 201 := by
    rw [show (201 : ℤ).toNat = 201 from rfl]
    norm_num
  rw [e1] at e
  norm_num at e
  linarith

end QMix.Props
