import Verif.Lemmas.PrintInfo

/-!
# Properties of `print_info` (C111)
-/

namespace QMix.Cct

open QMix.Spec

/-- The tones and harmonics in the order in which they are listed. -/
def signals (F P : ℕ) : List (ℕ × ℕ) :=
  (List.range F).flatMap fun i => (List.range P).map fun j => (i + 1, j + 1)

theorem mem_signals {F P f p : ℕ} : (f, p) ∈ signals F P ↔ 1 ≤ f ∧ f ≤ F ∧ 1 ≤ p ∧ p ≤ P := by
  unfold signals
  simp only [List.mem_flatMap, List.mem_map, List.mem_range, Prod.mk.injEq]
  constructor
  · rintro ⟨i, hi, j, hj, rfl, rfl⟩; omega
  · rintro ⟨h1, h2, h3, h4⟩
    exact ⟨f - 1, by omega, p - 1, by omega, by omega, by omega⟩

theorem flatMap_signals {α : Type} (F P : ℕ) (g : ℕ → ℕ → List α) :
    ((List.range F).flatMap fun i => (List.range P).flatMap fun j => g (i + 1) (j + 1))
      = (signals F P).flatMap fun s => g s.1 s.2 := by
  unfold signals
  rw [List.flatMap_assoc]
  congr 1
  funext i
  rw [List.flatMap_map]

/-- The lines of one signal of a circuit without physical units. -/
noncomputable def normLines (c : Circuit) (f p : ℕ) : List Line :=
  [.signal f p (c.freq.getD f 0) (at2 "" c.comment f p), .voltGap (at2 0 c.vt f p).re,
    .imp (at2 0 c.zt f p)]

theorem blockNorm_eq {c : Circuit} (h : Shape c) {f p : ℕ} (hf : f ≤ c.numF) (hp : p ≤ c.numP) :
    blockNorm c f p = .ok (normLines c f p) := by
  unfold blockNorm
  rw [get_freq h (by omega), get2_rect h.vt 0 (by omega) (by omega),
    get2_rect h.zt 0 (by omega) (by omega), get2_rect h.comment "" (by omega) (by omega)]
  rfl

/-- C111. Without physical units: the head line, then for every tone and harmonic in order the
frequency, the comment, the real part of the Thevenin voltage and the impedance, all in units of the
gap; then a blank line. -/
theorem C111_normalised {c : Circuit} (h : Shape c) (hn : c.fgap = none ∨ c.vgap = none ∨ c.rn = none) :
    printInfo c = .ok (.head c.numF c.numP (if c.name ≠ "" then some c.name else none) ::
      ((signals c.numF c.numP).flatMap fun s => [.signal s.1 s.2 (c.freq.getD s.1 0)
        (at2 "" c.comment s.1 s.2), .voltGap (at2 0 c.vt s.1 s.2).re, .imp (at2 0 c.zt s.1 s.2)]) ++
      [.blank]) := by
  have hb : ∀ f p : ℤ, blockOf c f p = blockNorm c f p := by
    intro f p
    unfold blockOf
    rcases hn with e | e | e
    · rw [e]
    · rw [e]; cases c.fgap <;> rfl
    · rw [e]; cases c.fgap <;> cases c.vgap <;> rfl
  have hmain := printInfo_eq (g := normLines c) fun f p _ hf _ hp => by
    rw [hb, blockNorm_eq h hf hp]
  rw [hmain, flatMap_signals]
  rfl

/-- The available power of a source with normalised voltage `v` and impedance `z`, as the code defines
it also for a source without resistance. -/
noncomputable def powerOf (vg rn : ℝ) (v z : ℂ) : ℝ :=
  if z.re * rn = 0 then 0 else sourcePower (v * vg) (z.re * rn)

theorem availablePower_W {c : Circuit} {vg rn : ℝ} (hv : c.vgap = some vg) (hr : c.rn = some rn)
    {f p : ℤ} {v z : ℂ} (h1 : get2 c.vt f p = .ok v) (h2 : get2 c.zt f p = .ok z) :
    availablePower c f p "W" = .ok (powerOf vg rn v z) ∧
    availablePower c f p "dBm" = decibel (powerOf vg rn v z * 1e3) := by
  have hP : (if z.re * rn ≠ 0 then ‖v * (vg : ℂ)‖ ^ 2 / (z.re * rn) / 8 else 0) = powerOf vg rn v z := by
    unfold powerOf sourcePower
    by_cases h : z.re * rn = 0
    · rw [if_pos h, if_neg (not_not.2 h)]
    · rw [if_neg h, if_pos h, div_div]; ring_nf
  have hW : "W".toLower = "w" := by rw [← String.toList_inj]; simp [String.toLower]
  have hD : "dBm".toLower = "dbm" := by rw [← String.toList_inj]; simp [String.toLower]
  constructor
  · unfold availablePower
    rw [hv, hr, h1, h2]
    simp only [getOpt, ok_bind', hP]
    unfold fromWatts
    rw [hW, if_pos rfl]
    rfl
  · unfold availablePower
    rw [hv, hr, h1, h2]
    simp only [getOpt, ok_bind', hP]
    unfold fromWatts
    rw [hD, if_neg (by decide), if_neg (by decide), if_neg (by decide), if_neg (by decide),
      if_neg (by decide), if_neg (by decide), if_pos rfl]

theorem orInf_decibel (x : ℝ) :
    orInf (decibel x) = .ok (if 0 < x then some (10 * Real.logb 10 x) else none) := by
  unfold decibel
  by_cases h : 0 < x
  · simp [h, orInf]
  · simp [h, orInf]

/-- The lines of one signal of a circuit with physical units. -/
noncomputable def physLines (c : Circuit) (g vg rn : ℝ) (f p : ℕ) : List Line :=
  [.signalGHz f p (c.freq.getD f 0 * g / 1e9) (at2 "" c.comment f p), .voltGap (at2 0 c.vt f p).re,
    .voltPh (if c.freq.getD f 0 * p = 0 then none
      else some ((at2 0 c.vt f p).re / (c.freq.getD f 0 * p))),
    .imp (at2 0 c.zt f p), .watts (powerOf vg rn (at2 0 c.vt f p) (at2 0 c.zt f p)),
    .dbm (if 0 < powerOf vg rn (at2 0 c.vt f p) (at2 0 c.zt f p) * 1e3 then
      some (10 * Real.logb 10 (powerOf vg rn (at2 0 c.vt f p) (at2 0 c.zt f p) * 1e3)) else none)]

theorem printInfo_phys {c : Circuit} (h : Shape c) {g vg rn : ℝ} (hg : c.fgap = some g)
    (hv : c.vgap = some vg) (hr : c.rn = some rn) :
    printInfo c = .ok (.head c.numF c.numP (if c.name ≠ "" then some c.name else none) ::
      ((signals c.numF c.numP).flatMap fun s => physLines c g vg rn s.1 s.2) ++ [.blank]) := by
  have hb : ∀ f p : ℤ, blockOf c f p = blockPhys c g f p := by
    intro f p; unfold blockOf; rw [hg, hv, hr]
  rw [printInfo_eq (g := physLines c g vg rn), flatMap_signals]
  · rfl
  · intro f p _ hf _ hp
    have e1 := get2_rect h.vt 0 (show f < c.numF + 1 by omega) (show p < c.numP + 1 by omega)
    have e2 := get2_rect h.zt 0 (show f < c.numF + 1 by omega) (show p < c.numP + 1 by omega)
    obtain ⟨ew, ed⟩ := availablePower_W hv hr e1 e2
    rw [hb]
    unfold blockPhys
    rw [get_freq h (by omega), e1, e2, ew, ed, orInf_decibel,
      get2_rect h.comment "" (by omega) (by omega)]
    rfl

/-- C111. With physical units the numbers mean what the line says: the frequency in GHz, the Thevenin
voltage (real part) in units of the gap and of the photon voltage, the impedance, and the available
power in watts and in dBm (undefined exactly when there is no power). -/
theorem C111_physical {c : Circuit} (h : Shape c) {g vg rn : ℝ} (hg : c.fgap = some g)
    (hv : c.vgap = some vg) (hr : c.rn = some rn) {f p : ℕ} (hf : 1 ≤ f) (hf' : f ≤ c.numF)
    (hp : 1 ≤ p) (hp' : p ≤ c.numP) :
    ∃ out ghz vph w d, printInfo c = .ok out ∧
      [.signalGHz f p ghz (at2 "" c.comment f p), .voltGap (at2 0 c.vt f p).re, .voltPh vph,
        .imp (at2 0 c.zt f p), .watts w, .dbm d] <:+: out ∧
      ghz * 10 ^ 9 = c.freq.getD f 0 * g ∧
      (∀ x ∈ vph, x * (p * c.freq.getD f 0) = (at2 0 c.vt f p).re) ∧
      (vph = none ↔ c.freq.getD f 0 = 0) ∧
      ((at2 0 c.zt f p).re * rn ≠ 0 →
        w = sourcePower (at2 0 c.vt f p * vg) ((at2 0 c.zt f p).re * rn)) ∧
      ((at2 0 c.zt f p).re * rn = 0 → w = 0) ∧
      (∀ x ∈ d, PowerUnit.dBm.watts x = w) ∧ (d = none ↔ w ≤ 0) := by
  set w := powerOf vg rn (at2 0 c.vt f p) (at2 0 c.zt f p) with hw
  have hp0 : (p : ℝ) ≠ 0 := by exact_mod_cast (by omega : p ≠ 0)
  refine ⟨_, c.freq.getD f 0 * g / 1e9, if c.freq.getD f 0 * p = 0 then none
    else some ((at2 0 c.vt f p).re / (c.freq.getD f 0 * p)), w,
    if 0 < w * 1e3 then some (10 * Real.logb 10 (w * 1e3)) else none, printInfo_phys h hg hv hr, ?_, ?_, ?_, ?_, ?_, ?_, ?_, ?_⟩
  · obtain ⟨l1, l2, hl⟩ := List.append_of_mem (mem_signals.2 ⟨hf, hf', hp, hp'⟩)
    rw [hl]
    simp only [List.flatMap_append, List.flatMap_cons]
    refine ⟨.head c.numF c.numP (if c.name ≠ "" then some c.name else none) ::
      l1.flatMap (fun s => physLines c g vg rn s.1 s.2),
      l2.flatMap (fun s => physLines c g vg rn s.1 s.2) ++ [.blank], ?_⟩
    unfold physLines
    simp only [List.append_assoc, List.cons_append]
    rfl
  · norm_num
  · intro x hx
    by_cases h0 : c.freq.getD f 0 * p = 0
    · rw [if_pos h0] at hx; cases hx
    · rw [if_neg h0] at hx
      cases hx
      rw [mul_comm (p : ℝ), div_mul_cancel₀ _ h0]
  · by_cases h0 : c.freq.getD f 0 * p = 0
    · simp only [h0, if_true, true_iff]
      exact (mul_eq_zero.1 h0).resolve_right hp0
    · rw [if_neg h0]
      simp only [reduceCtorEq, false_iff]
      intro e; exact h0 (by rw [e, zero_mul])
  · intro h0; rw [hw, powerOf, if_neg h0]
  · intro h0; rw [hw, powerOf, if_pos h0]
  · intro x hx
    by_cases h0 : 0 < w * 1e3
    · rw [if_pos h0] at hx
      cases hx
      show (10 : ℝ) ^ (10 * Real.logb 10 (w * 1e3) / 10) / 1000 = w
      rw [mul_div_cancel_left₀ _ (by norm_num : (10 : ℝ) ≠ 0),
        Real.rpow_logb (by norm_num) (by norm_num) h0]
      norm_num
    · rw [if_neg h0] at hx; cases hx
  · by_cases h0 : 0 < w * 1e3
    · rw [if_pos h0]
      simp only [reduceCtorEq, false_iff, not_le]
      norm_num at h0; exact h0
    · rw [if_neg h0]
      simp only [true_iff]
      norm_num at h0; exact h0

/-- C111. Whatever was done to a circuit, printing it never raises. -/
theorem C111_total {numF numP npts : ℤ} {lo hi : ℝ} {fg vg rn : Option ℝ} {name : String} {c : Circuit}
    (h : Cct.new numF numP lo hi npts fg vg rn name = .ok c) (l : List Op) :
    ∃ out, printInfo (run c l) = .ok out := by
  have hs := shape_run (shape_new h) l
  set c' := run c l
  cases h1 : c'.fgap with
  | none => exact ⟨_, C111_normalised hs (Or.inl h1)⟩
  | some g =>
    cases h2 : c'.vgap with
    | none => exact ⟨_, C111_normalised hs (Or.inr (Or.inl h2))⟩
    | some v =>
      cases h3 : c'.rn with
      | none => exact ⟨_, C111_normalised hs (Or.inr (Or.inr h3))⟩
      | some r => exact ⟨_, printInfo_phys hs h1 h2 h3⟩

theorem Rect.map {α : Type} {n m : ℕ} {a : List (List α)} (h : Rect n m a) (g : α → α) :
    Rect n m (a.map (List.map g)) := by
  refine ⟨by simpa using h.1, fun r hr => ?_⟩
  obtain ⟨s, hs, rfl⟩ := List.mem_map.1 hr
  simpa using h.2 s hs

theorem at2_map {α : Type} (d : α) (a : List (List α)) (g : α → α) (hg : g d = d) (f p : ℕ) :
    at2 d (a.map (List.map g)) f p = g (at2 d a f p) := by
  unfold at2
  rw [List.getD_eq_getElem?_getD (l := a.map (List.map g)), List.getD_eq_getElem?_getD (l := a),
    List.getElem?_map]
  cases a[f]? with
  | none => simp [hg]
  | some r =>
    simp only [Option.map_some, Option.getD_some]
    rw [List.getD_eq_getElem?_getD, List.getD_eq_getElem?_getD, List.getElem?_map]
    cases r[p]? with
    | none => simp [hg]
    | some x => rfl

/-- C111 fails for complex voltages: the phase of a Thevenin voltage is not printed. Conjugating all
Thevenin voltages of any circuit never changes what is printed. -/
theorem C111_false_phase {c : Circuit} (h : Shape c) :
    printInfo { c with vt := c.vt.map (List.map (starRingEnd ℂ)) } = printInfo c := by
  set c' : Circuit := { c with vt := c.vt.map (List.map (starRingEnd ℂ)) } with hc'
  have h' : Shape c' := ⟨h.freq, h.vt.map _, h.zt, h.comment⟩
  have hat : ∀ f p, at2 0 c'.vt f p = starRingEnd ℂ (at2 0 c.vt f p) := fun f p =>
    at2_map 0 c.vt _ (map_zero _) f p
  have hre : ∀ f p, (at2 0 c'.vt f p).re = (at2 0 c.vt f p).re := fun f p => by
    rw [hat]; exact Complex.conj_re _
  have norm : (c.fgap = none ∨ c.vgap = none ∨ c.rn = none) → printInfo c' = printInfo c := by
    intro hn
    rw [C111_normalised h hn, C111_normalised h' hn]
    simp only [hre]
    rfl
  cases h1 : c.fgap with
  | none => exact norm (Or.inl h1)
  | some g =>
    cases h2 : c.vgap with
    | none => exact norm (Or.inr (Or.inl h2))
    | some v =>
      cases h3 : c.rn with
      | none => exact norm (Or.inr (Or.inr h3))
      | some r =>
        rw [printInfo_phys h h1 h2 h3, printInfo_phys h' h1 h2 h3]
        have hpow : ∀ f p, powerOf v r (at2 0 c'.vt f p) (at2 0 c'.zt f p)
            = powerOf v r (at2 0 c.vt f p) (at2 0 c.zt f p) := by
          intro f p
          unfold powerOf sourcePower
          rw [hat, norm_mul, norm_mul, Complex.norm_conj]
        have : ∀ f p, physLines c' g v r f p = physLines c g v r f p := by
          intro f p
          unfold physLines
          rw [hpow, hre]
        simp only [this]
        rfl

/-- Blocks of equal length can be told apart in a list of blocks. -/
theorem flatMap_inj {α β : Type} {n : ℕ} {l : List α} {g g' : α → List β} (hg : ∀ x, (g x).length = n)
    (hg' : ∀ x, (g' x).length = n) {t t' : List β} (h : l.flatMap g ++ t = l.flatMap g' ++ t') :
    ∀ x ∈ l, g x = g' x := by
  induction l with
  | nil => intro x hx; cases hx
  | cons a l ih =>
    simp only [List.flatMap_cons, List.append_assoc] at h
    obtain ⟨h1, h2⟩ := List.append_inj h (by rw [hg, hg'])
    intro x hx
    rcases List.mem_cons.1 hx with rfl | hx
    · exact h1
    · exact ih h2 x hx

/-- C111 for real Thevenin voltages (and a non-zero gap frequency, if any): what is printed (before the
rounding of the formats) determines every signal. Missing: complex voltages, for which it is false. -/
theorem C111_partial {c c' : Circuit} (h : Shape c) (h' : Shape c') (hg : c'.fgap = c.fgap)
    (hv : c'.vgap = c.vgap) (hr : c'.rn = c.rn) (hg0 : c.fgap ≠ some 0)
    (hre : ∀ f p, (at2 0 c.vt f p).im = 0) (hre' : ∀ f p, (at2 0 c'.vt f p).im = 0)
    (he : printInfo c' = printInfo c) :
    c'.numF = c.numF ∧ c'.numP = c.numP ∧ ∀ f p, 1 ≤ f → f ≤ c.numF → 1 ≤ p → p ≤ c.numP →
      c'.freq.getD f 0 = c.freq.getD f 0 ∧ at2 0 c'.vt f p = at2 0 c.vt f p ∧
      at2 0 c'.zt f p = at2 0 c.zt f p ∧ at2 "" c'.comment f p = at2 "" c.comment f p := by
  have norm : (c.fgap = none ∨ c.vgap = none ∨ c.rn = none) →
      c'.numF = c.numF ∧ c'.numP = c.numP ∧ ∀ f p, 1 ≤ f → f ≤ c.numF → 1 ≤ p → p ≤ c.numP →
      c'.freq.getD f 0 = c.freq.getD f 0 ∧ at2 0 c'.vt f p = at2 0 c.vt f p ∧
      at2 0 c'.zt f p = at2 0 c.zt f p ∧ at2 "" c'.comment f p = at2 "" c.comment f p := by
    intro hn
    rw [C111_normalised h hn, C111_normalised h' (by rw [hg, hv, hr]; exact hn)] at he
    have he := Except.ok.inj he
    simp only [List.cons_append, List.cons.injEq, Line.head.injEq] at he
    obtain ⟨⟨e1, e2, -⟩, e3⟩ := he
    rw [e1, e2] at e3
    refine ⟨e1, e2, fun f p a1 a2 a3 a4 => ?_⟩
    have := flatMap_inj (n := 3) (fun _ => rfl) (fun _ => rfl) e3 (f, p) (mem_signals.2 ⟨a1, a2, a3, a4⟩)
    simp only [List.cons.injEq, Line.signal.injEq, Line.voltGap.injEq, Line.imp.injEq, true_and,
      and_true] at this
    obtain ⟨⟨b1, b2⟩, b3, b4⟩ := this
    exact ⟨b1, Complex.ext b3 (by rw [hre, hre']), b4, b2⟩
  cases h1 : c.fgap with
  | none => exact norm (Or.inl h1)
  | some g =>
    cases h2 : c.vgap with
    | none => exact norm (Or.inr (Or.inl h2))
    | some v =>
      cases h3 : c.rn with
      | none => exact norm (Or.inr (Or.inr h3))
      | some r =>
        have hgz : g ≠ 0 := fun e => hg0 (by rw [h1, e])
        rw [printInfo_phys h h1 h2 h3,
          printInfo_phys h' (hg.trans h1) (hv.trans h2) (hr.trans h3)] at he
        have he := Except.ok.inj he
        simp only [List.cons_append, List.cons.injEq, Line.head.injEq] at he
        obtain ⟨⟨e1, e2, -⟩, e3⟩ := he
        rw [e1, e2] at e3
        refine ⟨e1, e2, fun f p a1 a2 a3 a4 => ?_⟩
        have := flatMap_inj (n := 6) (fun _ => rfl) (fun _ => rfl) e3 (f, p)
          (mem_signals.2 ⟨a1, a2, a3, a4⟩)
        simp only [physLines, List.cons.injEq, Line.signalGHz.injEq, Line.voltGap.injEq,
          Line.imp.injEq, true_and] at this
        obtain ⟨⟨b1, b2⟩, b3, -, b4, -⟩ := this
        refine ⟨?_, Complex.ext b3 (by rw [hre, hre']), b4, b2⟩
        have := (div_left_inj' (by norm_num : (1e9 : ℝ) ≠ 0)).1 b1
        exact mul_right_cancel₀ hgz this

/-- The circuits used below: one tone, one harmonic, without physical units. -/
noncomputable def oneTone (v : ℂ) : Circuit :=
  { numF := 1, numP := 1, fgap := none, vgap := none, igap := none, rn := none, freq := [0, 3 / 10]
    vt := [[0, 0], [0, v]], zt := [[0, 0], [0, 1]], vb := [0, 1], name := "", comment := [["", ""], ["", "LO"]]
    freqW := true, vtW := true, ztW := true, vbW := true }

theorem oneTone_shape (v : ℂ) : Shape (oneTone v) :=
  ⟨rfl, ⟨rfl, by intro r hr; simp [oneTone] at hr; rcases hr with rfl | rfl <;> rfl⟩,
    ⟨rfl, by intro r hr; simp [oneTone] at hr; rcases hr with rfl | rfl <;> rfl⟩,
    ⟨rfl, by intro r hr; simp [oneTone] at hr; rcases hr with rfl | rfl <;> rfl⟩⟩

/-- Two different circuits that print the same. -/
theorem C111_false_witness : printInfo (oneTone ⟨1, 1⟩) = printInfo (oneTone ⟨1, -1⟩) ∧
    at2 0 (oneTone ⟨1, 1⟩).vt 1 1 ≠ at2 0 (oneTone ⟨1, -1⟩).vt 1 1 := by
  constructor
  · rw [C111_normalised (oneTone_shape _) (Or.inl rfl), C111_normalised (oneTone_shape _) (Or.inl rfl)]
    rfl
  · intro h
    have := congrArg Complex.im h
    simp [at2, oneTone] at this
    norm_num at this

example : ∃ c, Cct.new 2 2 0 2 201 none (some (27 / 10000)) (some 14) "test" = .ok c ∧
    ∃ out, printInfo (run c [.freq 230 1 "ghz", .putZt 1 1 1, .lock]) = .ok out := by
  obtain ⟨c, hc⟩ : ∃ c, Cct.new 2 2 0 2 201 none (some (27 / 10000)) (some 14) "test" = .ok c :=
    ⟨_, new_eq (by norm_num) (by norm_num) (by norm_num) (by norm_num)
      (ig := some (27 / 10000 / 14)) (by simp [newIgap, pyDiv, ok_bind', pure, Except.pure])⟩
  exact ⟨c, hc, C111_total hc _⟩

end QMix.Cct
