import Verif.Lemmas.CallenWelton
import Verif.Lemmas.Float

/-!
# Lemmas about the noise temperature analysis
-/

namespace QMix.IfData

open Np Fl Clean

/-- A measurement: bias voltage, hot power, cold power. -/
abbrev Meas := List (ℝ × ℝ × ℝ)

/-- The hot data. -/
noncomputable def hotOf (l : Meas) : List (Flt × Flt) := l.map fun p => (num p.1, num p.2.1)

/-- The cold data. -/
noncomputable def coldOf (l : Meas) : List (Flt × Flt) := l.map fun p => (num p.1, num p.2.2)

/-- The analysis of matching real data. -/
theorem findTnGain_eq (o : TnOpts) (vgap : ℝ) (l : Meas) {f th tc : ℝ} (hf : o.freq = some f)
    (hh : tempCw (f * 1e9) o.tHot = .ok th) (hc : tempCw (f * 1e9) o.tCold = .ok tc) :
    findTnGain o vgap (hotOf l) (coldOf l) = (do
      let idx ← bestPoint o vgap (l.map fun p => num p.1)
        (l.map fun p => noiseTemp th tc (num p.2.1) (num p.2.2))
        (l.map fun p => gainOf th tc (num p.2.1) (num p.2.2))
      pure (l.map fun p => noiseTemp th tc (num p.2.1) (num p.2.2),
        l.map fun p => gainOf th tc (num p.2.1) (num p.2.2), idx)) := by
  have hz : ∀ {β : Type} (g : Flt → Flt → β) (a b : ℝ × ℝ × ℝ → Flt),
      zip g (l.map a) (l.map b) = .ok (l.map fun p => g (a p) (b p)) := by
    intro β g a b
    unfold zip
    rw [if_pos (by simp), List.zipWith_map, List.zipWith_self]
  have e1 : (hotOf l).map Prod.fst = l.map fun p => num p.1 := by
    unfold hotOf; rw [List.map_map]; rfl
  have e2 : (hotOf l).map Prod.snd = l.map fun p => num p.2.1 := by
    unfold hotOf; rw [List.map_map]; rfl
  have e3 : (coldOf l).map Prod.fst = l.map fun p => num p.1 := by
    unfold coldOf; rw [List.map_map]; rfl
  have e4 : (coldOf l).map Prod.snd = l.map fun p => num p.2.2 := by
    unfold coldOf; rw [List.map_map]; rfl
  classical
  unfold findTnGain
  dsimp only
  rw [hf, e1, e2, e3, e4]
  change (do let th ← tempCw (f * 1e9) o.tHot; _) = _
  rw [hh, py_bind, hc, py_bind, hz, py_bind, pyAssert_pos, hz, py_bind, hz, py_bind]
  intro hm
  obtain ⟨p, -, hp⟩ := List.mem_map.1 hm
  exact fne_num.1 hp rfl

theorem gainOf_num (th tc ph pc : ℝ) (h : th ≠ tc) :
    gainOf th tc (num ph) (num pc) = num ((ph - pc) / (th - tc)) := by
  unfold gainOf
  rw [fsub_num, fsub_num, fdiv_num _ (sub_ne_zero.2 h)]

theorem noiseTemp_num (th tc : ℝ) {ph pc : ℝ} (h : pc ≠ 0) :
    noiseTemp th tc (num ph) (num pc)
      = num ((th - tc * max (ph / pc) (1 + 1e-10)) / (max (ph / pc) (1 + 1e-10) - 1)) := by
  have hy : yFactor (num ph) (num pc) = num (max (ph / pc) (1 + 1e-10)) := by
    unfold yFactor
    dsimp only
    rw [fdiv_num _ h]
    by_cases hk : ph / pc ≤ 1 + 1e-10
    · rw [if_pos (fle_num.2 hk), max_eq_right hk]
    · rw [if_neg (fun h => hk (fle_num.1 h)), max_eq_left (not_le.1 hk).le]
  have h1 : max (ph / pc) (1 + 1e-10) - 1 ≠ 0 := by
    have := le_max_right (ph / pc) (1 + 1e-10 : ℝ)
    have h2 : (0 : ℝ) < 1e-10 := by norm_num
    linarith
  unfold noiseTemp
  dsimp only
  rw [hy, fmul_num, fsub_num, fsub_num, fdiv_num _ h1]

theorem noiseTemp_zero_hot {th tc ph : ℝ} (h : 0 ≤ ph) (htc : 0 < tc) :
    noiseTemp th tc (num ph) (num 0) = none := by
  rcases h.lt_or_eq with h | h
  · have hy : yFactor (num ph) (num 0) = some ⊤ := by
      unfold yFactor
      dsimp only
      rw [fdiv_zero_pos h, if_neg]
      intro hc
      exact EReal.coe_ne_top _ (top_le_iff.1 hc)
    unfold noiseTemp
    dsimp only
    rw [hy]
    have e1 : fmul (num tc) (some ⊤) = some ⊤ := by
      unfold fmul num
      simp [htc.ne', EReal.coe_mul_top_of_pos htc]
    have e2 : fsub (num th) (some ⊤) = some ⊥ := by
      unfold fsub num
      simp
    have e3 : fsub (some ⊤) (num 1) = some ⊤ := by
      unfold fsub num
      have : (⊤ : EReal) - 1 = ⊤ := by exact_mod_cast EReal.top_sub_coe 1
      have h1 : (1 : EReal) ≠ ⊤ := by exact_mod_cast EReal.coe_ne_top 1
      simp [this, h1]
    rw [e1, e2, e3]
    simp [Fl.fdiv]
  · rw [← h]
    unfold noiseTemp yFactor
    dsimp only
    rw [fdiv_zero_zero, if_neg (fle_none_left _), fsub_none_left, fdiv_none_right]

end QMix.IfData
