import Verif.Model.Session
import Verif.Lemmas.HarmonicBalance2
import Verif.Props.CircuitIO
import Verif.Props.Circuit
import Verif.Props.QtCurrent

/-!
# Properties C170, C171: a circuit object before, during and after a simulation, and read back from a file
-/

namespace QMix.Props

open QMix.Session QMix.Qt

/-- The arrays of a circuit object have the shapes that the constructor gives them. -/
structure Shaped (c : Cct.Circuit) : Prop where
  freq : c.freq.length = c.numF + 1
  vt : c.vt.length = c.numF + 1
  zt : c.zt.length = c.numF + 1
  vtRow : ∀ r ∈ c.vt, r.length = c.numP + 1
  ztRow : ∀ r ∈ c.zt, r.length = c.numP + 1

/-- The constructor makes such objects. -/
theorem shaped_new {numF numP : ℤ} {lo hi : ℝ} {npts : ℤ} {fgap vgap rn : Option ℝ} {name : String} {c : Cct.Circuit}
    (h : Cct.new numF numP lo hi npts fgap vgap rn name = .ok c) : Shaped c := by
  unfold Cct.new at h
  obtain ⟨_, -, h⟩ := bind_ok_iff.1 h
  obtain ⟨_, -, h⟩ := bind_ok_iff.1 h
  obtain ⟨_, -, h⟩ := bind_ok_iff.1 h
  obtain ⟨_, -, h⟩ := bind_ok_iff.1 h
  obtain ⟨_, -, h⟩ := bind_ok_iff.1 h
  cases h
  exact ⟨by simp, by simp, by simp, fun r hr => by rw [List.eq_of_mem_replicate hr]; simp,
    fun r hr => by rw [List.eq_of_mem_replicate hr]; simp⟩

namespace SessionAux

theorem get2_nat {a : List (List ℂ)} {f p : ℕ} {r : List ℂ} {x : ℂ} (h1 : a[f]? = some r) (h2 : r[p]? = some x) :
    Cct.get2 a f p = .ok x := by
  have k : ∀ {α : Type} {l : List α} {i : ℕ} {y : α}, l[i]? = some y → pyGet l (i : ℤ) = .ok y := by
    intro α l i y h
    have hi : i < l.length := (List.getElem?_eq_some_iff.1 h).1
    refine pyGet_ok_of_getElem? (i := i) ?_ h
    rw [pyIndex_nonneg (by omega) (by omega)]
    simp
  unfold Cct.get2
  rw [k h1]
  exact k h2

/-- An entry of an array with the given shape. -/
theorem row_of {a : List (List ℂ)} {F P f p : ℕ} (hl : a.length = F + 1) (hr : ∀ r ∈ a, r.length = P + 1) (hf : f ≤ F)
    (hp : p ≤ P) : ∃ r x, a[f]? = some r ∧ r[p]? = some x ∧ (a.getD f []).getD p 0 = x ∧ r ∈ a ∧ x ∈ r := by
  have h1 : f < a.length := by omega
  have h2 : p < (a[f]).length := by rw [hr _ (List.getElem_mem h1)]; omega
  refine ⟨a[f], a[f][p], List.getElem?_eq_getElem h1, List.getElem?_eq_getElem h2, ?_, List.getElem_mem h1, List.getElem_mem h2⟩
  simp [List.getD, h1, h2]

theorem ztZero_iff {c : Cct.Circuit} (h : Shaped c) : HB.ztZero (hcct c) ↔ ∀ row ∈ c.zt, ∀ z ∈ row, z = 0 := by
  constructor
  · intro h0 row hrow z hz
    obtain ⟨f, hf, rfl⟩ := List.getElem_of_mem hrow
    obtain ⟨p, hp, rfl⟩ := List.getElem_of_mem hz
    have hp' := hp
    rw [h.ztRow _ hrow] at hp'
    have := h0 f p (by have := h.zt; change f ≤ c.numF; omega) (by change p ≤ c.numP; omega)
    simpa [hcct, List.getD, hf, hp] using this
  · intro h0 f p hf hp
    obtain ⟨r, x, -, -, e, hr, hx⟩ := row_of h.zt h.ztRow hf hp
    change (c.zt.getD f []).getD p 0 = 0
    rw [e]
    exact h0 r hr x hx

/-- The array that harmonic balance leaves. -/
theorem touched {a : List (List ℂ)} {f p : ℕ} {r : List ℂ} {x : ℂ} (h1 : a[f]? = some r) (h2 : r[p]? = some x) :
    ∃ r', (a.mapIdx fun f row => row.mapIdx fun p (x : ℂ) =>
      if f = 0 ∨ p = 0 then 0 else if ‖x‖ < 1e-10 then (1e-10 : ℂ) else x)[f]? = some r' ∧ r'[p]? = some (HB.clampVt (fun _ _ => x) f p) := by
  refine ⟨_, by rw [List.getElem?_mapIdx, h1]; rfl, ?_⟩
  rw [List.getElem?_mapIdx, h2]
  simp only [Option.map_some, HB.clampVt]
  norm_num

end SessionAux

open SessionAux

/-- C170, the negation for locked circuits. The simulations only read a circuit, so one would expect to be able to
lock it ("This can be useful for debugging") and simulate. But `harmonic_balance` raises on every locked circuit with an
embedding impedance other than zero, whatever the other arguments are. -/
theorem C170_false_locked (c : Cct.Circuit) {row : List ℂ} {z : ℂ} (hr : row ∈ c.zt) (hz : z ∈ row) (h0 : z ≠ 0)
    (resp : ℝ → ℂ) (nb : Qt.NumB) (maxIt : ℤ) (stop : ℝ) (vjInit : Option (ℕ → ℕ → Qt.Arr (Fin c.vb.length))) (damp : ℝ)
    (mode : HB.Mode) (zj : ℂ) :
    Session.harmonicBalance (Cct.lock c) resp nb maxIt stop vjInit damp mode zj = .error .readOnly := by
  have : ¬ ∀ row ∈ c.zt, ∀ z ∈ row, z = 0 := fun h => h0 (h row hr z hz)
  unfold Session.harmonicBalance Cct.hbTouch
  have e : (Cct.lock c).zt = c.zt := rfl
  rw [if_neg (by rw [e]; exact this), if_neg (by simp [Cct.lock])]
  rfl

/-- C170 (partial). A circuit that is not locked, or has no embedding impedance, is simulated. After the call it has kept
everything but the Thevenin voltages, and those are what the simulation used: those of at least `1e-10` are kept, smaller
ones are `1e-10`, and row and column 0 are cleared (nothing changes without embedding impedance). What is missing: an
exception in the other cases. -/
theorem C170_object_partial (c : Cct.Circuit) (h : Shaped c) (hl : c.vtW = true ∨ ∀ row ∈ c.zt, ∀ z ∈ row, z = 0) (resp : ℝ → ℂ)
    (nb : Qt.NumB) (maxIt : ℤ) (stop : ℝ) (vjInit : Option (ℕ → ℕ → Qt.Arr (Fin c.vb.length))) (damp : ℝ) (mode : HB.Mode) (zj : ℂ) :
    (∀ e, HB.harmonicBalance (hcct c) resp nb maxIt stop vjInit damp mode zj = .error e →
      Session.harmonicBalance c resp nb maxIt stop vjInit damp mode zj = .error e) ∧
    ∀ run, HB.harmonicBalance (hcct c) resp nb maxIt stop vjInit damp mode zj = .ok run →
      ∃ c', Session.harmonicBalance c resp nb maxIt stop vjInit damp mode zj = .ok (run, c') ∧ Shaped c' ∧
        c' = { c with vt := c'.vt } ∧
        ∀ f p, f ≤ c.numF → p ≤ c.numP → (c'.vt.getD f []).getD p 0 = run.cct.vt f p ∧
          (1 ≤ f → 1 ≤ p → ((∃ row ∈ c.zt, ∃ z ∈ row, z ≠ 0) → ‖(c.vt.getD f []).getD p 0‖ < 1 / 10 ^ 10 →
            (c'.vt.getD f []).getD p 0 = 1 / 10 ^ 10) ∧
            ((1 / 10 ^ 10 : ℝ) ≤ ‖(c.vt.getD f []).getD p 0‖ → (c'.vt.getD f []).getD p 0 = (c.vt.getD f []).getD p 0)) := by
  by_cases h0 : ∀ row ∈ c.zt, ∀ z ∈ row, z = 0
  · have e : Cct.hbTouch c = .ok c := by unfold Cct.hbTouch; rw [if_pos h0]; rfl
    have hz := (ztZero_iff h).2 h0
    constructor
    · intro er he
      rw [HB.hb_zero _ _ _ _ _ _ _ _ hz] at he
      cases he
    · intro run hrun
      refine ⟨c, ?_, h, rfl, ?_⟩
      · unfold Session.harmonicBalance
        rw [e, hrun]
        rfl
      · intro f p hf hp
        rw [HB.hb_zero _ _ _ _ _ _ _ _ hz] at hrun
        cases hrun
        refine ⟨rfl, fun _ _ => ⟨?_, fun _ => rfl⟩⟩
        rintro ⟨row, hr, z, hz', hne⟩
        exact absurd (h0 row hr z hz') hne
  · have hw : c.vtW = true := hl.resolve_right h0
    obtain ⟨c', e, hc'⟩ : ∃ c', Cct.hbTouch c = .ok c' ∧ c' = { c with vt := c.vt.mapIdx fun f row => row.mapIdx fun p (x : ℂ) =>
        if f = 0 ∨ p = 0 then 0 else if ‖x‖ < 1e-10 then (1e-10 : ℂ) else x } := by
      refine ⟨_, ?_, rfl⟩
      unfold Cct.hbTouch
      rw [if_neg h0, if_pos hw]
      rfl
    have hz : ¬ HB.ztZero (hcct c) := fun k => h0 ((ztZero_iff h).1 k)
    constructor
    · intro er he
      unfold Session.harmonicBalance
      rw [e, he]
      rfl
    · intro run hrun
      refine ⟨c', ?_, ?_, by rw [hc'], ?_⟩
      · unfold Session.harmonicBalance
        rw [e, hrun]
        rfl
      · rw [hc']
        refine ⟨h.freq, by simpa using h.vt, h.zt, ?_, h.ztRow⟩
        intro r hr
        obtain ⟨i, hi, rfl⟩ := List.getElem_of_mem hr
        simp only [List.getElem_mapIdx, List.length_mapIdx]
        exact h.vtRow _ (List.getElem_mem _)
      · intro f p hf hp
        obtain ⟨start, m, s, he⟩ := HB.hb_entered hz hrun
        obtain ⟨r, x, h1, h2, h3, -, -⟩ := row_of h.vt h.vtRow hf hp
        obtain ⟨r', h4, h5⟩ := touched h1 h2
        have e1 : (c'.vt.getD f []).getD p 0 = HB.clampVt (fun _ _ => x) f p := by
          rw [hc']
          simp only [List.getD]
          rw [h4]
          simp only [Option.getD_some]
          rw [h5]
          rfl
        have e2 : run.cct = (hcct c).clamp := he.cct_eq
        have e3 : (hcct c).vt f p = x := h3
        rw [e1, h3, e2]
        refine ⟨?_, fun hf1 hp1 => ⟨fun _ hx => ?_, fun hx => ?_⟩⟩
        · simp only [HB.HCct.clamp, HB.clampVt, e3]
        · rw [HB.clampVt, if_neg (by omega), if_pos hx]
        · rw [HB.clampVt, if_neg (by omega), if_neg (not_lt.2 hx)]

/-- C170. What a simulation does to the reading of the circuit: a signal that was not driven had no available power (0 W),
and afterwards has that of a source of `1e-10 * vgap`. -/
theorem C170_false_power (c : Cct.Circuit) (h : Shaped c) {vgap rn : ℝ} (hv : c.vgap = some vgap) (hn : c.rn = some rn)
    (hw : c.vtW = true) {f p : ℕ} (hf1 : 1 ≤ f) (hf : f ≤ c.numF) (hp1 : 1 ≤ p) (hp : p ≤ c.numP)
    (hvt : (c.vt.getD f []).getD p 0 = 0) (hzt : 0 < ((c.zt.getD f []).getD p 0).re) (hrn : 0 < rn) (resp : ℝ → ℂ)
    (nb : Qt.NumB) (maxIt : ℤ) (stop : ℝ) (vjInit : Option (ℕ → ℕ → Qt.Arr (Fin c.vb.length))) (damp : ℝ) (mode : HB.Mode) (zj : ℂ)
    {run : HB.Run c.vb.length (c.numF * c.numP)}
    (hrun : HB.harmonicBalance (hcct c) resp nb maxIt stop vjInit damp mode zj = .ok run) :
    ∃ c', Session.harmonicBalance c resp nb maxIt stop vjInit damp mode zj = .ok (run, c') ∧
      Cct.availablePower c f p "W" = .ok 0 ∧
      Cct.availablePower c' f p "W" = .ok ((1 / 10 ^ 10 * vgap) ^ 2 / (8 * (((c.zt.getD f []).getD p 0).re * rn))) := by
  obtain ⟨-, k⟩ := C170_object_partial c h (.inl hw) resp nb maxIt stop vjInit damp mode zj
  obtain ⟨c', e, hs, hc', hall⟩ := k run hrun
  obtain ⟨r, x, z1, z2, z3, hrm, hxm⟩ := row_of h.zt h.ztRow hf hp
  obtain ⟨r', x', v1, v2, v3, -, -⟩ := row_of h.vt h.vtRow hf hp
  obtain ⟨q, y, w1, w2, w3, -, -⟩ := row_of hs.vt hs.vtRow (f := f) (p := p) (by rw [hc']; exact hf) (by rw [hc']; exact hp)
  rw [z3] at hzt
  rw [z3]
  have hx0 : x ≠ 0 := by rintro rfl; simp at hzt
  have hy : y = 1 / 10 ^ 10 := by
    rw [← w3]
    refine ((hall f p hf hp).2 hf1 hp1).1 ⟨r, hrm, x, hxm, hx0⟩ ?_
    rw [hvt]
    simp
  have hx' : x' = 0 := by rw [← v3, hvt]
  have hne : x.re * rn ≠ 0 := (mul_pos hzt hrn).ne'
  have d : ∀ x, Cct.fromWatts "W" x = .ok x := by
    intro x
    have : ("W" : String).toLower = "w" := by rw [← String.toList_inj]; simp [String.toLower]
    unfold Cct.fromWatts
    rw [if_pos this]
    rfl
  refine ⟨c', e, ?_, ?_⟩
  · unfold Cct.availablePower
    rw [hv, hn, get2_nat v1 v2, get2_nat z1 z2]
    simp [getOpt, d, hx', bind, Except.bind]
  · unfold Cct.availablePower
    have hz' : c'.zt = c.zt := by rw [hc']
    have hv' : c'.vgap = some vgap := by rw [hc']; exact hv
    have hn' : c'.rn = some rn := by rw [hc']; exact hn
    rw [hv', hn', get2_nat w1 w2, hz', get2_nat z1 z2]
    have nn : ‖(1 / 10 ^ 10 * vgap : ℂ)‖ ^ 2 = (1 / 10 ^ 10 * vgap) ^ 2 := by
      have : (1 / 10 ^ 10 * vgap : ℂ) = ((1 / 10 ^ 10 * vgap : ℝ) : ℂ) := by push_cast; rfl
      rw [this, Complex.norm_real, Real.norm_eq_abs, sq_abs]
    simp only [getOpt, d, bind, Except.bind, hy, nn, if_pos hne]
    congr 1
    field_simp

/-! ## C171 -/

namespace SessionAux

theorem cast_ok {F : ℕ} (h : 1 ≤ F ∧ F ≤ 4) : (F : ℤ) = 1 ∨ (F : ℤ) = 2 ∨ (F : ℤ) = 3 ∨ (F : ℤ) = 4 := by omega

/-- What `read_circuit` makes of the arrays. -/
theorem readCircuit_ok {T : IO.FloatFormat} {text : List Char} {io : IO.Circuit} (h : IO.read T text = .ok io)
    (hF : 1 ≤ io.numF ∧ io.numF ≤ 4) (hP : 1 ≤ io.numP) :
    ∃ c, readCircuit T text = .ok c ∧ Doubles c io ∧ c.vb = Cct.linspace 0 2 201 ∧ c.vgap = none ∧ c.fgap = none ∧ c.rn = none ∧
      c.igap = none ∧ c.name = "" ∧ (∀ r ∈ c.comment, ∀ s ∈ r, s = "") ∧ c.freqW = true ∧ c.vtW = true ∧ c.ztW = true ∧ c.vbW = true := by
  have e : Cct.new io.numF io.numP 0 2 201 none none none "" = .ok
      { numF := io.numF, numP := io.numP, fgap := none, vgap := none, igap := none, rn := none
        freq := List.replicate (io.numF + 1) 0
        vt := List.replicate (io.numF + 1) (List.replicate (io.numP + 1) 0)
        zt := List.replicate (io.numF + 1) (List.replicate (io.numP + 1) 0)
        vb := Cct.linspace 0 2 201
        name := ""
        comment := List.replicate (io.numF + 1) (List.replicate (io.numP + 1) "")
        freqW := true, vtW := true, ztW := true, vbW := true } := by
    unfold Cct.new
    rw [pyAssert_pos (cast_ok hF), pyAssert_pos (by exact_mod_cast hP), pyAssert_pos (by norm_num), pyAssert_pos (by norm_num)]
    rfl
  refine ⟨_, by unfold readCircuit; rw [h]; simp only [bind, Except.bind]; rw [e]; rfl, ⟨rfl, rfl, rfl, rfl, rfl⟩, rfl, rfl, rfl, rfl,
    rfl, rfl, ?_, rfl, rfl, rfl, rfl⟩
  intro r hr s hs
  rw [List.eq_of_mem_replicate hr] at hs
  exact List.eq_of_mem_replicate hs

theorem shaped_of {T : IO.FloatFormat} {c : Cct.Circuit} {io : IO.Circuit} (hd : Doubles c io) (h : FileCircuit T io) : Shaped c := by
  refine ⟨?_, ?_, ?_, ?_, ?_⟩
  · rw [← hd.freq, List.length_map, h.freqLen, hd.numF]
  · rw [← hd.vt, List.length_map, h.vtLen, hd.numF]
  · rw [← hd.zt, List.length_map, h.ztLen, hd.numF]
  · intro r hr
    rw [← hd.vt] at hr
    obtain ⟨q, hq, rfl⟩ := List.mem_map.1 hr
    rw [List.length_map, h.vtRow q hq, hd.numP]
  · intro r hr
    rw [← hd.zt] at hr
    obtain ⟨q, hq, rfl⟩ := List.mem_map.1 hr
    rw [List.length_map, h.ztRow q hq, hd.numP]

/-- An entry of an object is the value of the double. -/
theorem entry_val {a : List (List (IO.Flt × IO.Flt))} {f p : ℕ} {x : IO.Flt × IO.Flt} (h : entry a f p = some x) :
    ((a.map (List.map cval)).getD f []).getD p 0 = cval x := by
  unfold entry at h
  cases hr : a[f]? with
  | none => rw [hr] at h; cases h
  | some r =>
    rw [hr] at h
    have h' : r[p]? = some x := h
    simp only [List.getD, List.getElem?_map, hr, Option.map_some, Option.getD_some, h']

/-- A magnitude of less than half a unit reads back as zero. -/
theorem lost {T : IO.FloatFormat} {d : ℕ} {x y : IO.Flt} (h : ReadBack T d x y) (hx : |x.toReal| < 1 / 2 / 10 ^ d) (hm : 0 ≤ x.mag) :
    y.toReal = 0 := by
  obtain ⟨-, m, h1, -, h3⟩ := h
  have hx' : x.mag < 1 / 2 / 10 ^ d := by
    have : |x.toReal| = x.mag := by
      unfold IO.Flt.toReal
      cases x.neg
      · simp [abs_of_nonneg hm]
      · simp [abs_of_nonneg hm]
    rwa [this] at hx
  have hp : (0 : ℝ) < 10 ^ d := by positivity
  have hm0 : m = 0 := by
    by_contra hne
    have h1m : (1 : ℝ) ≤ m := by exact_mod_cast Nat.one_le_iff_ne_zero.2 hne
    have h2 : (1 : ℝ) / 10 ^ d ≤ (m : ℝ) / 10 ^ d := div_le_div_of_nonneg_right h1m hp.le
    have h4 := (abs_le.1 h1).2
    have h5 : (1 : ℝ) / 10 ^ d = 1 / 2 / 10 ^ d + 1 / 2 / 10 ^ d := by ring
    linarith
  subst hm0
  have h4 := h3 0 T.zero
  simp only [Nat.cast_zero, zero_div, sub_zero, abs_zero] at h4
  have : y.mag = 0 := abs_eq_zero.1 (le_antisymm h4 (abs_nonneg _))
  unfold IO.Flt.toReal
  rw [this]
  split_ifs <;> simp

end SessionAux

/-- C171 (partial). Saving a circuit and reading it back gives an object with the same numbers of tones and harmonics whose
frequencies and voltages are within `1e-4` and whose impedances are within `1e-2` of the original; everything else is as the
constructor makes it without arguments: the bias voltages are 201 points from 0 to 2, and there is no gap voltage, gap
frequency, resistance, name or comment. What is missing: those attributes, and numbers between the decimals. -/
theorem C171_read_back_partial (T : IO.FloatFormat) (c : Cct.Circuit) (io : IO.Circuit) (hd : Doubles c io) (h : FileCircuit T io) :
    ∃ text c', IO.save io = .ok text ∧ readCircuit T text = .ok c' ∧ Shaped c' ∧ c'.numF = c.numF ∧ c'.numP = c.numP ∧
      (∀ f, 1 ≤ f → f ≤ c.numF → |c'.freq.getD f 0 - c.freq.getD f 0| ≤ 1 / 10 ^ 4) ∧
      (∀ f p, 1 ≤ f → f ≤ c.numF → 1 ≤ p → p ≤ c.numP →
        |((c'.vt.getD f []).getD p 0).re - ((c.vt.getD f []).getD p 0).re| ≤ 1 / 10 ^ 4 ∧
        |((c'.vt.getD f []).getD p 0).im - ((c.vt.getD f []).getD p 0).im| ≤ 1 / 10 ^ 4 ∧
        |((c'.zt.getD f []).getD p 0).re - ((c.zt.getD f []).getD p 0).re| ≤ 1 / 10 ^ 2 ∧
        |((c'.zt.getD f []).getD p 0).im - ((c.zt.getD f []).getD p 0).im| ≤ 1 / 10 ^ 2) ∧
      c'.vb = Cct.linspace 0 2 201 ∧ c'.vgap = none ∧ c'.fgap = none ∧ c'.rn = none ∧ c'.igap = none ∧ c'.name = "" ∧
      (∀ r ∈ c'.comment, ∀ s ∈ r, s = "") ∧ c'.freqW = true ∧ c'.vtW = true ∧ c'.ztW = true ∧ c'.vbW = true := by
  obtain ⟨text, io', hs, hr, e1, e2, hf, hv, -⟩ := C09_read_back T io h
  obtain ⟨c', hc', hd', rest⟩ := readCircuit_ok hr (by rw [e1]; exact h.tones) (by rw [e2]; exact h.harmonics)
  have hio' := (C10_idempotent T io h hs hr).2
  have hmem : ∀ {a : List (List (IO.Flt × IO.Flt))} {f p x}, entry a f p = some x → ∃ r ∈ a, x ∈ r := by
    intro a f p x hx
    unfold entry at hx
    cases hr : a[f]? with
    | none => rw [hr] at hx; cases hx
    | some r =>
      rw [hr] at hx
      exact ⟨r, List.mem_of_getElem? hr, List.mem_of_getElem? hx⟩
  refine ⟨text, c', hs, hc', shaped_of hd' hio', by rw [← hd'.numF, e1, hd.numF], by rw [← hd'.numP, e2, hd.numP], ?_, ?_, rest⟩
  · intro f h1 h2
    obtain ⟨x, y, hx, hy, hxy⟩ := hf f h1 (by rw [hd.numF]; exact h2)
    rw [← hd'.freq, ← hd.freq]
    simp only [List.getD, List.getElem?_map, hx, hy, Option.map_some, Option.getD_some]
    exact (C09_error hxy (h.freqFin _ (List.mem_of_getElem? hx))).1
  · intro f p h1 h2 h3 h4
    obtain ⟨⟨x, y, hx, hy, k1, k2⟩, x', y', hx', hy', k3, k4⟩ := hv f p h1 (by rw [hd.numF]; exact h2) h3 (by rw [hd.numP]; exact h4)
    rw [← hd'.vt, ← hd.vt, ← hd'.zt, ← hd.zt, entry_val hx, entry_val hy, entry_val hx', entry_val hy']
    obtain ⟨r, hr, hxr⟩ := hmem hx
    obtain ⟨r', hr', hxr'⟩ := hmem hx'
    have m1 := h.vtFin r hr x hxr
    have m2 := h.ztFin r' hr' x' hxr'
    exact ⟨(C09_error k1 m1.1).1, (C09_error k2 m1.2).1, (C09_error k3 m2.1).1, (C09_error k4 m2.2).1⟩

/-- C171, the negation for powers: after reading a circuit back no available power can be read or set, whatever the gap
voltage and the resistance of the saved circuit were. -/
theorem C171_false_power (T : IO.FloatFormat) (c : Cct.Circuit) (io : IO.Circuit) (hd : Doubles c io) (h : FileCircuit T io) :
    ∃ text c', IO.save io = .ok text ∧ readCircuit T text = .ok c' ∧
      ∀ (f p : ℤ) (units : String) (P : ℝ), Cct.availablePower c' f p units = .error .assertion ∧
        Cct.setAvailablePower c' P f p units = .error .assertion := by
  obtain ⟨text, c', h1, h2, -, -, -, -, -, -, h3, -, -⟩ := C171_read_back_partial T c io hd h
  refine ⟨text, c', h1, h2, fun f p units P => ⟨?_, ?_⟩⟩
  · unfold Cct.availablePower
    rw [h3]
    rfl
  · unfold Cct.setAvailablePower
    rw [h3]
    rfl

/-- C171, the negation for weak signals: a signal of less than `5e-5` times the gap voltage is not driven any more after
saving and reading. Without embedding impedance, `harmonic_balance` returns the voltage of the source for the original and
no voltage for the copy. -/
theorem C171_false_signal (T : IO.FloatFormat) (c : Cct.Circuit) (io : IO.Circuit) (hd : Doubles c io) (h : FileCircuit T io)
    (h0 : ∀ row ∈ c.zt, ∀ z ∈ row, z = 0) :
    ∃ text c', IO.save io = .ok text ∧ readCircuit T text = .ok c' ∧
      ∀ f p, 1 ≤ f → f ≤ c.numF → 1 ≤ p → p ≤ c.numP → ∀ x, (c.vt.getD f []).getD p 0 = x → |x.re| < 1 / 2 / 10 ^ 4 → |x.im| < 1 / 2 / 10 ^ 4 →
        ∀ resp nb maxIt stop damp mode zj,
          (∃ v c1, (Session.harmonicBalance c resp nb maxIt stop none damp mode zj).map (fun r => (r.1.res, r.2)) = .ok (.vj v, c1) ∧ ∀ i, v f p i = x) ∧
          ∃ v c1, (Session.harmonicBalance c' resp nb maxIt stop none damp mode zj).map (fun r => (r.1.res, r.2)) = .ok (.vj v, c1) ∧ ∀ i, v f p i = 0 := by
  obtain ⟨text, io', hs, hr, e1, e2, -, hv, hz⟩ := C09_read_back T io h
  obtain ⟨c', hc', hd', -⟩ := readCircuit_ok hr (by rw [e1]; exact h.tones) (by rw [e2]; exact h.harmonics)
  have hio' := (C10_idempotent T io h hs hr).2
  have hmem : ∀ {a : List (List (IO.Flt × IO.Flt))} {f p x}, entry a f p = some x → ∃ r ∈ a, x ∈ r := by
    intro a f p x hx
    unfold entry at hx
    cases hr : a[f]? with
    | none => rw [hr] at hx; cases hx
    | some r =>
      rw [hr] at hx
      exact ⟨r, List.mem_of_getElem? hr, List.mem_of_getElem? hx⟩
  have hsh := shaped_of hd h
  have hsh' := shaped_of hd' hio'
  have z0 := (ztZero_iff hsh).2 h0
  have z0' : HB.ztZero (hcct c') := by
    intro f p hf hp
    change f ≤ c'.numF at hf
    change p ≤ c'.numP at hp
    rw [← hd'.numF, e1] at hf
    rw [← hd'.numP, e2] at hp
    change (c'.zt.getD f []).getD p 0 = 0
    rw [← hd'.zt]
    by_cases hfp : f = 0 ∨ p = 0
    · rw [entry_val (hz f p hf hp hfp).2]
      simp [cval, IO.zeroFlt, IO.Flt.toReal, Complex.ext_iff]
    · obtain ⟨-, x, y, hx, hy, k1, k2⟩ := hv f p (by omega) hf (by omega) hp
      rw [entry_val hy]
      obtain ⟨r, hrm, hxr⟩ := hmem hx
      have m := h.ztFin r hrm x hxr
      have hx0 : cval x = 0 := by
        rw [← entry_val hx, hd.zt]
        exact z0 f p (by change f ≤ c.numF; rw [← hd.numF]; exact hf) (by change p ≤ c.numP; rw [← hd.numP]; exact hp)
      have a1 : x.1.toReal = 0 := congrArg Complex.re hx0
      have a2 : x.2.toReal = 0 := congrArg Complex.im hx0
      have b1 := lost k1 (by rw [a1]; norm_num) (T.nonneg _ m.1)
      have b2 := lost k2 (by rw [a2]; norm_num) (T.nonneg _ m.2)
      simp [cval, b1, b2, Complex.ext_iff]
  refine ⟨text, c', hs, hc', ?_⟩
  intro f p h1 h2 h3 h4 x hx hre him resp nb maxIt stop damp mode zj
  constructor
  · obtain ⟨-, k⟩ := C170_object_partial c hsh (.inr h0) resp nb maxIt stop none damp mode zj
    obtain ⟨c1, e, -⟩ := k _ (HB.hb_zero resp nb maxIt stop none damp mode zj z0)
    refine ⟨_, c1, by rw [e]; rfl, fun i => hx⟩
  · obtain ⟨-, k⟩ := C170_object_partial c' hsh' (.inr ((ztZero_iff hsh').1 z0')) resp nb maxIt stop none damp mode zj
    obtain ⟨c1, e, -⟩ := k _ (HB.hb_zero resp nb maxIt stop none damp mode zj z0')
    refine ⟨_, c1, by rw [e]; rfl, fun i => ?_⟩
    obtain ⟨⟨y, y', hy, hy', k1, k2⟩, -⟩ := hv f p h1 (by rw [hd.numF]; exact h2) h3 (by rw [hd.numP]; exact h4)
    change (c'.vt.getD f []).getD p 0 = 0
    rw [← hd'.vt, entry_val hy']
    rw [← hd.vt, entry_val hy] at hx
    obtain ⟨r, hrm, hxr⟩ := hmem hy
    have m := h.vtFin r hrm y hxr
    have b1 := lost k1 (by rw [← hx] at hre; exact hre) (T.nonneg _ m.1)
    have b2 := lost k2 (by rw [← hx] at him; exact him) (T.nonneg _ m.2)
    simp [cval, b1, b2, Complex.ext_iff]

/-- C171. A circuit that was read from a file written by `save_info` loses nothing more: saved and read again it is the
same object. -/
theorem C171_again (T : IO.FloatFormat) (io : IO.Circuit) (h : FileCircuit T io) {text : List Char} {c : Cct.Circuit}
    (hs : IO.save io = .ok text) (hc : readCircuit T text = .ok c) :
    ∃ io', Doubles c io' ∧ FileCircuit T io' ∧ ∃ text', IO.save io' = .ok text' ∧ readCircuit T text' = .ok c := by
  obtain ⟨text', io', hs', hr, e1, e2, -⟩ := C09_read_back T io h
  rw [hs] at hs'
  cases hs'
  obtain ⟨c', hc', hd', -⟩ := readCircuit_ok hr (by rw [e1]; exact h.tones) (by rw [e2]; exact h.harmonics)
  rw [hc] at hc'
  cases hc'
  obtain ⟨k1, k2⟩ := C10_idempotent T io h hs hr
  exact ⟨io', hd', k2, text, k1, hc⟩

/-! ## Examples -/

/-- A circuit of one tone whose only signal has the voltage `v` and the impedance `0.5 + 0.25i`. -/
noncomputable def oneSignal (v : ℂ) : Cct.Circuit :=
  { numF := 1, numP := 1, fgap := some 7e11, vgap := some 3e-3, igap := none, rn := some 15
    freq := [0, 3 / 8], vt := [[0, 0], [0, v]], zt := [[0, 0], [0, ⟨1 / 2, 1 / 4⟩]], vb := [0, 1 / 2, 1]
    name := "demo", comment := [["", ""], ["", "LO"]], freqW := true, vtW := true, ztW := true, vbW := true }

theorem oneSignal_shaped (v : ℂ) : Shaped (oneSignal v) :=
  ⟨rfl, rfl, rfl, by simp [oneSignal], by simp [oneSignal]⟩

/-- `C170_false_locked` is met. -/
example (resp : ℝ → ℂ) : Session.harmonicBalance (Cct.lock (oneSignal 1)) resp (.int 15) 10 0.001 none 1 .o 0.67 = .error .readOnly :=
  C170_false_locked (oneSignal 1) (row := [0, ⟨1 / 2, 1 / 4⟩]) (z := ⟨1 / 2, 1 / 4⟩) (by simp [oneSignal]) (by simp)
    (by simp [Complex.ext_iff]) ..

/-- The other hypotheses of C170 are met by a signal that is not driven. -/
example : ((oneSignal 0).vt.getD 1 []).getD 1 0 = 0 ∧ 0 < (((oneSignal 0).zt.getD 1 []).getD 1 0).re := by
  constructor <;> simp [oneSignal]

/-- The object of the example of C09. -/
noncomputable def demoObject : Cct.Circuit :=
  { oneSignal 0 with
    numF := 2, numP := 1, freq := fileDemo.freq.map IO.Flt.toReal, vt := fileDemo.vt.map (List.map cval)
    zt := fileDemo.zt.map (List.map cval) }

/-- The hypotheses of `C171_read_back_partial` and `C171_false_power` are met. -/
example : ∃ text c', IO.save fileDemo = .ok text ∧ readCircuit fixedFormat text = .ok c' ∧
    ∀ (f p : ℤ) (units : String) (P : ℝ), Cct.availablePower c' f p units = .error .assertion ∧
      Cct.setAvailablePower c' P f p units = .error .assertion :=
  C171_false_power fixedFormat demoObject fileDemo ⟨rfl, rfl, rfl, rfl, rfl⟩ fileDemo_ok

/-- A saved circuit with a signal of about `1e-6` and no embedding impedance. -/
noncomputable def weakDemo : IO.Circuit :=
  { numF := 1, numP := 1
    freq := [⟨false, 0⟩, ⟨false, 3 / 8⟩]
    vt := [[(⟨false, 0⟩, ⟨false, 0⟩), (⟨false, 0⟩, ⟨false, 0⟩)], [(⟨false, 0⟩, ⟨false, 0⟩), (⟨true, 1 / 2 ^ 20⟩, ⟨false, 0⟩)]]
    zt := List.replicate 2 (List.replicate 2 (⟨false, 0⟩, ⟨false, 0⟩)) }

/-- The object. -/
noncomputable def weakObject : Cct.Circuit :=
  { oneSignal 0 with
    freq := weakDemo.freq.map IO.Flt.toReal, vt := weakDemo.vt.map (List.map cval), zt := weakDemo.zt.map (List.map cval) }

/-- The hypotheses of `C171_false_signal` are met. -/
example : ∃ text c', IO.save weakDemo = .ok text ∧ readCircuit fixedFormat text = .ok c' ∧
    ∀ resp nb maxIt stop damp mode zj,
      ∃ v c1, (Session.harmonicBalance c' resp nb maxIt stop none damp mode zj).map (fun r => (r.1.res, r.2)) = .ok (.vj v, c1) ∧
        ∀ i, v 1 1 i = 0 := by
  have k0 : (0 : ℝ) ∈ fixedFormat.mags := fixedFormat.zero
  have k1 : (3 / 8 : ℝ) ∈ fixedFormat.mags := ⟨3 * 2 ^ 57, by norm_num⟩
  have k2 : (1 / 2 ^ 20 : ℝ) ∈ fixedFormat.mags := ⟨2 ^ 40, by norm_num⟩
  have hf : FileCircuit fixedFormat weakDemo := by
    refine ⟨by simp [weakDemo], by simp [weakDemo], rfl, rfl, rfl, ?_, ?_, ?_, ?_, ?_⟩
    · simp [weakDemo]
    · intro r hr; rw [List.eq_of_mem_replicate hr]; rfl
    · intro x hx
      simp only [weakDemo, List.mem_cons, List.not_mem_nil, or_false] at hx
      rcases hx with rfl | rfl <;> assumption
    · intro r hr x hx
      simp only [weakDemo, List.mem_cons, List.not_mem_nil, or_false] at hr
      rcases hr with rfl | rfl
      all_goals
        simp only [List.mem_cons, List.not_mem_nil, or_false] at hx
        rcases hx with rfl | rfl <;> exact ⟨by assumption, by assumption⟩
    · intro r hr x hx
      rw [List.eq_of_mem_replicate hr] at hx
      rw [List.eq_of_mem_replicate hx]
      exact ⟨k0, k0⟩
  obtain ⟨text, c', h1, h2, h3⟩ := C171_false_signal fixedFormat weakObject weakDemo ⟨rfl, rfl, rfl, rfl, rfl⟩ hf (by
    intro r hr z hz
    obtain ⟨q, hq, rfl⟩ := List.mem_map.1 hr
    obtain ⟨w, hw, rfl⟩ := List.mem_map.1 hz
    rw [List.eq_of_mem_replicate hq] at hw
    rw [List.eq_of_mem_replicate hw]
    simp [cval, IO.Flt.toReal, Complex.ext_iff])
  refine ⟨text, c', h1, h2, fun resp nb maxIt stop damp mode zj => ?_⟩
  refine (h3 1 1 le_rfl le_rfl le_rfl le_rfl (-(1 / 2 ^ 20 : ℝ) : ℝ) ?_ ?_ ?_ resp nb maxIt stop damp mode zj).2
  · apply Complex.ext <;> simp [weakObject, weakDemo, cval, IO.Flt.toReal, ← Complex.ofReal_neg, -Complex.ofReal_div, -Complex.ofReal_pow] <;> norm_num
  · rw [Complex.ofReal_re, abs_neg, abs_of_nonneg (by positivity)]; norm_num
  · rw [Complex.ofReal_im]; norm_num

/-! ## The starting values -/

/-- An array of junction voltages as the simulations read it. -/
noncomputable def vjFun (n : ℕ) (a : List (List (List ℂ))) : ℕ → ℕ → Qt.Arr (Fin n) :=
  fun f p i => ((a.getD f []).getD p []).getD i 0

/-- C21. The array made by `initialize_vj` has the shape that the simulations expect, and before anything is written to it
the tunnelling current is the dc I-V curve. -/
theorem C21_initialize_vj (c : Cct.Circuit) (resp : ℝ → ℂ) (fl : List ℝ) (nb : Qt.NumB) (h : Valid (hcct c).toCct nb) :
    (Cct.initializeVj c).length = c.numF + 1 ∧ (∀ a ∈ Cct.initializeVj c, a.length = c.numP + 1 ∧ ∀ r ∈ a, r.length = c.vb.length) ∧
    Qt.qtcurrentList (vjFun c.vb.length (Cct.initializeVj c)) (hcct c).toCct resp fl nb none =
      .ok (fl.map fun f i => if round4 f = 0 then ((resp ((hcct c).vb i)).im : ℂ) else 0) := by
  refine ⟨by simp [Cct.initializeVj], ?_, C21_no_drive _ _ _ _ _ h ?_⟩
  · intro a ha
    rw [List.eq_of_mem_replicate ha]
    refine ⟨by simp, fun r hr => ?_⟩
    rw [List.eq_of_mem_replicate hr]
    simp
  · intro f p h1 h2 h3 h4
    funext i
    have h2' : f < c.numF + 1 := Nat.lt_succ_of_le h2
    have h4' : p < c.numP + 1 := Nat.lt_succ_of_le h4
    simp [vjFun, Cct.initializeVj, List.getD, h2', h4']

/-- The hypothesis is met. -/
example (resp : ℝ → ℂ) : Qt.qtcurrentList (vjFun 3 (Cct.initializeVj (oneSignal 1))) (hcct (oneSignal 1)).toCct resp [0] (.int 15) none =
    .ok [fun i => ((resp ((hcct (oneSignal 1)).vb i)).im : ℂ)] := by
  have h : Valid (hcct (oneSignal 1)).toCct (.int 15) := by
    refine ⟨by simp [hcct, oneSignal], by simp [hcct, oneSignal], by simp [hcct, oneSignal], ?_, ?_⟩
    · intro f h1 h2
      have : f = 1 := le_antisymm h2 h1
      subst this
      simp [hcct, oneSignal]
    · simp [Qt.NumB.toTup, hcct, oneSignal]
  have k := (C21_initialize_vj (oneSignal 1) resp [0] (.int 15) h).2.2
  have r0 : round4 0 = 0 := by simp [round4, roundHalfEven]
  simp only [List.map_cons, List.map_nil, r0, if_true] at k
  exact k

end QMix.Props
