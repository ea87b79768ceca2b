import Verif.Lemmas.CircuitIO2
import Mathlib.Algebra.Order.Round

/-!
# Properties C09, C10: saving and reading circuits
-/

namespace QMix.Props

open QMix.IO

/-- What a circuit object looks like: 1 to 4 tones, arrays of the declared shape, finite doubles. -/
structure FileCircuit (T : FloatFormat) (c : IO.Circuit) : Prop where
  tones : 1 ≤ c.numF ∧ c.numF ≤ 4
  harmonics : 1 ≤ c.numP
  freqLen : c.freq.length = c.numF + 1
  vtLen : c.vt.length = c.numF + 1
  ztLen : c.zt.length = c.numF + 1
  vtRow : ∀ r ∈ c.vt, r.length = c.numP + 1
  ztRow : ∀ r ∈ c.zt, r.length = c.numP + 1
  freqFin : ∀ x ∈ c.freq, x.mag ∈ T.mags
  vtFin : ∀ r ∈ c.vt, ∀ z ∈ r, z.1.mag ∈ T.mags ∧ z.2.mag ∈ T.mags
  ztFin : ∀ r ∈ c.zt, ∀ z ∈ r, z.1.mag ∈ T.mags ∧ z.2.mag ∈ T.mags

/-- `y` is the double nearest to `x` rounded to `d` decimals, with the sign of `x`. -/
def ReadBack (T : FloatFormat) (d : ℕ) (x y : Flt) : Prop :=
  y.neg = x.neg ∧ ∃ m : ℕ, |(m : ℝ) / 10 ^ d - x.mag| ≤ 1 / 2 / 10 ^ d ∧
    y.mag ∈ T.mags ∧ ∀ r ∈ T.mags, |y.mag - (m : ℝ) / 10 ^ d| ≤ |r - (m : ℝ) / 10 ^ d|

/-- Entry `(i, j)` of a nested list. -/
def entry {α : Type} (a : List (List α)) (i j : ℕ) : Option α := (a[i]?).bind (·[j]?)

theorem rd_readBack (T : FloatFormat) (d : ℕ) {x : Flt} (h : x.mag ∈ T.mags) :
    ReadBack T d x (rd T d x) :=
  ⟨rfl, scaled d x, scaled_near d (T.nonneg _ h), T.rnd_mem _, fun r hr =>
    T.nearest _ (by positivity) r hr⟩

theorem fileCircuit_mk {T : FloatFormat} {c : IO.Circuit} (h : FileCircuit T c) :
    ∃ fq v z, c = mk c.numF c.numP fq v z ∧ (∀ f, f ≤ c.numF → c.freq[f]? = some (fq f)) ∧
      (∀ f p, f ≤ c.numF → p ≤ c.numP → entry c.vt f p = some (v f p)) ∧
      (∀ f p, f ≤ c.numF → p ≤ c.numP → entry c.zt f p = some (z f p)) := by
  have row : ∀ (a : List (List (Flt × Flt))), a.length = c.numF + 1 →
      (∀ r ∈ a, r.length = c.numP + 1) →
      ∃ g : ℕ → ℕ → Flt × Flt,
        a = (List.range (c.numF + 1)).map (fun f => (List.range (c.numP + 1)).map (g f)) ∧
        ∀ f p, f ≤ c.numF → p ≤ c.numP → entry a f p = some (g f p) := by
    intro a ha hr
    have hent : ∀ f p, f ≤ c.numF → p ≤ c.numP →
        entry a f p = some ((entry a f p).getD (zeroFlt, zeroFlt)) := by
      intro f p hf hp
      have h1 : f < a.length := by omega
      have h2 : p < (a[f]).length := by rw [hr _ (List.getElem_mem h1)]; omega
      unfold entry
      simp [h1, h2]
    refine ⟨fun f p => (entry a f p).getD (zeroFlt, zeroFlt), ?_, hent⟩
    apply List.ext_getElem?
    intro f
    by_cases hf : f < c.numF + 1
    · have h1 : f < a.length := by omega
      have hrl := hr _ (List.getElem_mem h1)
      rw [List.getElem?_eq_getElem h1, List.getElem?_map, List.getElem?_range hf, Option.map_some]
      congr 1
      apply List.ext_getElem?
      intro p
      by_cases hp : p < c.numP + 1
      · rw [List.getElem?_map, List.getElem?_range hp, Option.map_some, ← hent f p (by omega) (by omega)]
        unfold entry
        rw [List.getElem?_eq_getElem h1, Option.bind_some]
      · rw [List.getElem?_eq_none (by omega), List.getElem?_eq_none (by simp; omega)]
    · rw [List.getElem?_eq_none (by omega), List.getElem?_eq_none (by simp; omega)]
  obtain ⟨v, hv, hve⟩ := row c.vt h.vtLen h.vtRow
  obtain ⟨z, hz, hze⟩ := row c.zt h.ztLen h.ztRow
  have hfq : ∀ f, f ≤ c.numF → c.freq[f]? = some ((c.freq[f]?).getD zeroFlt) := by
    intro f hf
    rw [List.getElem?_eq_getElem (by rw [h.freqLen]; omega), Option.getD_some]
  refine ⟨fun f => (c.freq[f]?).getD zeroFlt, v, z, ?_, hfq, hve, hze⟩
  have hq : c.freq = (List.range (c.numF + 1)).map fun f => (c.freq[f]?).getD zeroFlt := by
    apply List.ext_getElem?
    intro f
    by_cases hf : f < c.numF + 1
    · rw [List.getElem?_map, List.getElem?_range hf, Option.map_some, ← hfq f (by omega)]
    · rw [List.getElem?_eq_none (by rw [h.freqLen]; omega), List.getElem?_eq_none (by simp; omega)]
  cases c
  simp only [mk, IO.Circuit.mk.injEq, true_and]
  exact ⟨hq, hv, hz⟩

/-- C09. Every circuit can be saved and read back; the number of tones and harmonics is preserved and
every entry of every signal comes back rounded to 4 decimals (`freq`, `vt`) or 2 decimals (`zt`).
Entries with index 0, which belong to no signal, come back as zero. -/
theorem C09_read_back (T : FloatFormat) (c : IO.Circuit) (h : FileCircuit T c) :
    ∃ text c', save c = .ok text ∧ read T text = .ok c' ∧
      c'.numF = c.numF ∧ c'.numP = c.numP ∧
      (∀ f, 1 ≤ f → f ≤ c.numF → ∃ x y, c.freq[f]? = some x ∧ c'.freq[f]? = some y ∧
        ReadBack T 4 x y) ∧
      (∀ f p, 1 ≤ f → f ≤ c.numF → 1 ≤ p → p ≤ c.numP →
        (∃ x y, entry c.vt f p = some x ∧ entry c'.vt f p = some y ∧ ReadBack T 4 x.1 y.1 ∧
          ReadBack T 4 x.2 y.2) ∧
        ∃ x y, entry c.zt f p = some x ∧ entry c'.zt f p = some y ∧ ReadBack T 2 x.1 y.1 ∧
          ReadBack T 2 x.2 y.2) ∧
      (∀ f p, f ≤ c.numF → p ≤ c.numP → f = 0 ∨ p = 0 →
        entry c'.vt f p = some (zeroFlt, zeroFlt) ∧ entry c'.zt f p = some (zeroFlt, zeroFlt)) := by
  obtain ⟨fq, v, z, hc, h1, h2, h3⟩ := fileCircuit_mk h
  refine ⟨(allLines c.numF c.numP fq v z).flatten, _, ?_,
    read_save T h.tones h.harmonics fq v z, rfl, rfl, ?_, ?_, ?_⟩
  · conv_lhs => rw [hc]
    exact save_mk _ _ _ _ _
  · intro f hf hf'
    refine ⟨fq f, rd T 4 (fq f), h1 f hf', ?_, rd_readBack T 4 ?_⟩
    · simp [mk, Nat.lt_succ_of_le hf', hf]
    · exact h.freqFin _ (List.mem_of_getElem? (h1 f hf'))
  · intro f p hf hf' hp hp'
    have mem : ∀ (a : List (List (Flt × Flt))) x, entry a f p = some x → ∃ r ∈ a, x ∈ r := by
      intro a x hx
      unfold entry at hx
      cases hr : a[f]? with
      | none => rw [hr] at hx; cases hx
      | some r =>
        rw [hr] at hx
        exact ⟨r, List.mem_of_getElem? hr, List.mem_of_getElem? hx⟩
    constructor
    · obtain ⟨r, hr, hx⟩ := mem _ _ (h2 f p hf' hp')
      obtain ⟨m1, m2⟩ := h.vtFin r hr _ hx
      refine ⟨v f p, rdc T 4 (v f p), h2 f p hf' hp', ?_, rd_readBack T 4 m1, rd_readBack T 4 m2⟩
      simp [mk, entry, Nat.lt_succ_of_le hf', Nat.lt_succ_of_le hp', hf, hp]
    · obtain ⟨r, hr, hx⟩ := mem _ _ (h3 f p hf' hp')
      obtain ⟨m1, m2⟩ := h.ztFin r hr _ hx
      refine ⟨z f p, rdc T 2 (z f p), h3 f p hf' hp', ?_, rd_readBack T 2 m1, rd_readBack T 2 m2⟩
      simp [mk, entry, Nat.lt_succ_of_le hf', Nat.lt_succ_of_le hp', hf, hp]
  · intro f p hf hp h0
    have hn : ¬ (1 ≤ f ∧ 1 ≤ p) := by omega
    constructor <;> simp only [mk, entry] <;>
      simp [Nat.lt_succ_of_le hf, Nat.lt_succ_of_le hp] <;> omega

/-- C09. The error of a number read back is at most one unit of the last decimal in any format, and at
most half a unit when the rounded decimal is representable (as in exact arithmetic). -/
theorem C09_error {T : FloatFormat} {d : ℕ} {x y : Flt} (h : ReadBack T d x y) (hx : x.mag ∈ T.mags) :
    |y.toReal - x.toReal| ≤ 1 / 10 ^ d ∧
      ((∀ m : ℕ, (m : ℝ) / 10 ^ d ∈ T.mags) → |y.toReal - x.toReal| ≤ 1 / 2 / 10 ^ d) := by
  obtain ⟨hs, m, h1, _, h3⟩ := h
  have e : |y.toReal - x.toReal| = |y.mag - x.mag| := by
    unfold Flt.toReal
    rw [hs]
    cases x.neg
    · simp
    · simp only [if_true]
      rw [← abs_neg]; congr 1; ring
  rw [e]
  have h4 := h3 _ hx
  rw [abs_sub_comm x.mag] at h4
  have tri : |y.mag - x.mag| ≤ |y.mag - (m : ℝ) / 10 ^ d| + |(m : ℝ) / 10 ^ d - x.mag| :=
    abs_sub_le _ _ _
  constructor
  · have : (1 : ℝ) / 10 ^ d = 1 / 2 / 10 ^ d + 1 / 2 / 10 ^ d := by ring
    linarith
  · intro hm
    have h5 := h3 _ (hm m)
    rw [sub_self, abs_zero] at h5
    linarith

/-- C10. Saving, reading and saving again produces the identical file (and the circuit read is again a
proper circuit), so reading that file gives the identical circuit. -/
theorem C10_idempotent (T : FloatFormat) (c : IO.Circuit) (h : FileCircuit T c) {text : List Char}
    {c' : IO.Circuit} (hs : save c = .ok text) (hr : read T text = .ok c') :
    save c' = .ok text ∧ FileCircuit T c' := by
  obtain ⟨fq, v, z, hc, h1, h2, h3⟩ := fileCircuit_mk h
  have hs' : save c = .ok (allLines c.numF c.numP fq v z).flatten := by
    conv_lhs => rw [hc]
    exact save_mk _ _ _ _ _
  rw [hs] at hs'
  cases hs'
  rw [read_save T h.tones h.harmonics fq v z] at hr
  cases hr
  have mem : ∀ f p (a : List (List (Flt × Flt))) x, entry a f p = some x → ∃ r ∈ a, x ∈ r := by
    intro f p a x hx
    unfold entry at hx
    cases hr : a[f]? with
    | none => rw [hr] at hx; cases hx
    | some r =>
      rw [hr] at hx
      exact ⟨r, List.mem_of_getElem? hr, List.mem_of_getElem? hx⟩
  have fmt : ∀ d x, x.mag ∈ T.mags → fmtFloat d (rd T d x) = fmtFloat d x := by
    intro d x hx
    unfold fmtFloat rd
    simp only
    rw [scaled_rnd T d hx]
  have fmtc : ∀ d x, x.1.mag ∈ T.mags → x.2.mag ∈ T.mags →
      fmtComplex d (rdc T d x) = fmtComplex d x := by
    intro d x hx hx'
    unfold fmtComplex rdc
    simp only
    rw [fmt d x.1 hx]
    unfold rd
    simp only
    rw [scaled_rnd T d hx']
  refine ⟨?_, ?_⟩
  · rw [save_mk]
    congr 2
    unfold allLines
    congr 3
    refine List.flatMap_congr ?_
    rintro ⟨f, p⟩ hm
    obtain ⟨⟨a1, a2⟩, a3, a4⟩ := mem_sig.1 hm
    have hf := h.freqFin _ (List.mem_of_getElem? (h1 f a2))
    obtain ⟨r, hr, hx⟩ := mem f p _ _ (h2 f p a2 a4)
    obtain ⟨m1, m2⟩ := h.vtFin r hr _ hx
    obtain ⟨r', hr', hx'⟩ := mem f p _ _ (h3 f p a2 a4)
    obtain ⟨m3, m4⟩ := h.ztFin r' hr' _ hx'
    simp only [block, line1, line2, line3, if_pos a1, if_pos (And.intro a1 a3), fmt 4 _ hf,
      fmtc 4 _ m1 m2, fmtc 2 _ m3 m4]
  · have z0 : zeroFlt.mag ∈ T.mags := T.zero
    refine ⟨h.tones, h.harmonics, by simp [mk], by simp [mk], by simp [mk], ?_, ?_, ?_, ?_, ?_⟩
    · intro r hr
      obtain ⟨f, _, rfl⟩ := List.mem_map.1 hr
      simp [mk]
    · intro r hr
      obtain ⟨f, _, rfl⟩ := List.mem_map.1 hr
      simp [mk]
    · intro x hx
      obtain ⟨f, _, rfl⟩ := List.mem_map.1 hx
      split_ifs
      · exact T.rnd_mem _
      · exact z0
    · intro r hr x hx
      obtain ⟨f, _, rfl⟩ := List.mem_map.1 hr
      obtain ⟨p, _, rfl⟩ := List.mem_map.1 hx
      beta_reduce
      split_ifs
      · exact ⟨T.rnd_mem _, T.rnd_mem _⟩
      · exact ⟨z0, z0⟩
    · intro r hr x hx
      obtain ⟨f, _, rfl⟩ := List.mem_map.1 hr
      obtain ⟨p, _, rfl⟩ := List.mem_map.1 hx
      beta_reduce
      split_ifs
      · exact ⟨T.rnd_mem _, T.rnd_mem _⟩
      · exact ⟨z0, z0⟩

/-- A fixed-point format, to show that the hypotheses can be met. -/
noncomputable def fixedFormat : FloatFormat where
  mags := {x | ∃ n : ℕ, x = n / 2 ^ 60}
  nonneg := by rintro x ⟨n, rfl⟩; positivity
  zero := ⟨0, by simp⟩
  rnd x := ((round (x * 2 ^ 60)).toNat : ℝ) / 2 ^ 60
  rnd_mem x := ⟨_, rfl⟩
  nearest := by
    rintro x hx y ⟨n, rfl⟩
    have hr : 0 ≤ round (x * 2 ^ 60) := by
      rw [round_eq]
      exact Int.floor_nonneg.2 (by positivity)
    have e : (((round (x * 2 ^ 60)).toNat : ℕ) : ℝ) = ((round (x * 2 ^ 60) : ℤ) : ℝ) := by
      rw [← Int.cast_natCast, Int.toNat_of_nonneg hr]
    have k := round_le (x * 2 ^ 60) (n : ℤ)
    have hp : (0 : ℝ) < 2 ^ 60 := by positivity
    rw [e]
    have s : ∀ a : ℝ, |a / 2 ^ 60 - x| = |x * 2 ^ 60 - a| / 2 ^ 60 := by
      intro a
      rw [← abs_of_pos hp, ← abs_div, abs_of_pos hp, ← abs_neg]
      congr 1
      field_simp
      ring
    rw [s, s]
    exact div_le_div_of_nonneg_right (by simpa using k) hp.le

/-- Two tones, one harmonic, a negative zero and values that are not multiples of the last decimal. -/
noncomputable def fileDemo : IO.Circuit :=
  { numF := 2, numP := 1
    freq := [⟨false, 0⟩, ⟨false, 3 / 8⟩, ⟨true, 0⟩]
    vt := List.replicate 3 [(⟨false, 0⟩, ⟨false, 0⟩), (⟨true, 1 / 2 ^ 20⟩, ⟨false, 12345⟩)]
    zt := List.replicate 3 [(⟨false, 0⟩, ⟨false, 0⟩), (⟨false, 5 / 8⟩, ⟨true, 1 / 8⟩)] }

theorem fileDemo_ok : FileCircuit fixedFormat fileDemo := by
  have k : ∀ n : ℕ, ∀ e : ℕ, e ≤ 60 → (n : ℝ) / 2 ^ e ∈ fixedFormat.mags := by
    intro n e he
    refine ⟨n * 2 ^ (60 - e), ?_⟩
    rw [div_eq_div_iff (by positivity) (by positivity)]
    push_cast
    rw [mul_assoc, ← pow_add, Nat.sub_add_cancel he]
  have k0 : (0 : ℝ) ∈ fixedFormat.mags := fixedFormat.zero
  have k1 : (3 / 8 : ℝ) ∈ fixedFormat.mags := by have := k 3 3 (by norm_num); norm_num at this ⊢; exact this
  have k2 : (1 / 2 ^ 20 : ℝ) ∈ fixedFormat.mags := by
    have := k 1 20 (by norm_num); norm_num at this ⊢; exact this
  have k3 : (12345 : ℝ) ∈ fixedFormat.mags := by
    have := k 12345 0 (by norm_num); norm_num at this ⊢; exact this
  have k4 : (5 / 8 : ℝ) ∈ fixedFormat.mags := by have := k 5 3 (by norm_num); norm_num at this ⊢; exact this
  have k5 : (1 / 8 : ℝ) ∈ fixedFormat.mags := by have := k 1 3 (by norm_num); norm_num at this ⊢; exact this
  refine ⟨by simp [fileDemo], by simp [fileDemo], rfl, rfl, rfl, ?_, ?_, ?_, ?_, ?_⟩
  · intro r hr; rw [List.eq_of_mem_replicate hr]; rfl
  · intro r hr; rw [List.eq_of_mem_replicate hr]; rfl
  · intro x hx
    simp only [fileDemo, List.mem_cons, List.not_mem_nil, or_false] at hx
    rcases hx with rfl | rfl | rfl <;> assumption
  · intro r hr x hx
    rw [List.eq_of_mem_replicate hr] at hx
    simp only [List.mem_cons, List.not_mem_nil, or_false] at hx
    rcases hx with rfl | rfl <;> exact ⟨by assumption, by assumption⟩
  · intro r hr x hx
    rw [List.eq_of_mem_replicate hr] at hx
    simp only [List.mem_cons, List.not_mem_nil, or_false] at hx
    rcases hx with rfl | rfl <;> exact ⟨by assumption, by assumption⟩

end QMix.Props
