import Verif.Lemmas.RespPrint
import Verif.Props.RespFn2

/-!
# C131: what the response functions print
-/

namespace QMix.Props

open QMix Np MathFn RespFn RespPrint Results Report Spec HbPrint

theorem zip_length {f : ℝ → ℝ → ℝ} {a b c : List ℝ} (h : zip f a b = .ok c) (hl : a.length = b.length) :
    c.length = b.length := by
  unfold zip at h
  rw [if_pos hl] at h
  cases h
  rw [List.length_zipWith]
  omega

theorem smear_length {s : Option ℝ} {v c r : List ℝ} (h : smear s v c = .ok r) (hl : c.length = v.length) :
    r.length = v.length := by
  cases s with
  | none => cases h; exact hl
  | some s =>
    unfold smear at h
    obtain ⟨_, -, h⟩ := bind_ok_iff.1 h
    obtain ⟨_, -, h⟩ := bind_ok_iff.1 h
    obtain ⟨x, hx, h⟩ := bind_ok_iff.1 h
    obtain ⟨_, -, h⟩ := bind_ok_iff.1 h
    obtain ⟨y, hy, h⟩ := bind_ok_iff.1 h
    obtain ⟨-, -, rfl⟩ := gaussConv_ok hy
    exact zip_length h (by rw [tab_length, zip_length hx hl])

theorem zero_mem {v : List ℝ} (h : 0 < v.length) (h0 : v.getD 0 0 = 0) : (0 : ℝ) ∈ reflected v := by
  unfold reflected
  apply List.mem_append_right
  rw [← h0, List.getD_eq_getElem?_getD, List.getElem?_eq_getElem h]
  exact List.getElem_mem h

/-! ## The result -/

theorem bind_congr_ok {α β : Type} {x : Py α} {f g : α → Py β} (h : ∀ a, x = .ok a → f a = g a) : x >>= f = x >>= g := by
  cases x with
  | error e => rfl
  | ok a => exact h a rfl

/-- C131: for any data and options, printing does not change the response function or the exception. -/
theorem C131_same_result (S : Splines) {v c : List ℝ} (hl : c.length = v.length) (p : Params) (verbose : Bool) :
    Prod.fst <$> respInitPrint S v c p verbose = respInit S v c p := by
  unfold respInitPrint respInit
  simp only [map_bind]
  refine bind_congr_ok fun a hf => bind_congr_ok fun _ ha => bind_congr_ok fun last _ => bind_congr_ok fun _ _ =>
    bind_congr_ok fun cur hs => bind_congr_ok fun kk hk => ?_
  obtain ⟨hpos, ha'⟩ := pyGet_nat (i := 0) hf
  rw [pyAssert_ok.1 ha] at ha'
  have hlr : (reflected c).length = (reflected v).length := by
    rw [reflected_length (by omega), reflected_length (by omega), hl]
  have hcur := smear_length hs hlr
  have hkk : kk.length = (reflected v).length := by
    obtain ⟨-, -, e⟩ := kkTrans_ok hcur hk
    rw [e, tab_length]
  rw [← setupPrint_fst S p verbose hcur hkk (zero_mem hpos ha'.symm)]
  cases setupPrint S (reflected v) cur kk p verbose <;> rfl

/-- C131: the same holds for the other classes. -/
theorem C131_same_classes (S : Splines) (p : Params) (verbose : Bool) :
    (∀ (voltage current : List ℝ) (vlimit : Option ℝ), Prod.fst <$> fromIVDataPrint S voltage current vlimit p verbose
      = fromIVData S voltage current vlimit p) ∧
    (∀ order, Prod.fst <$> respPolynomialPrint S order p verbose = respPolynomial S order p) ∧
    (∀ vgap rn rsg agap, Prod.fst <$> respExponentialPrint S vgap rn rsg agap p verbose
      = respExponential S vgap rn rsg agap p) ∧
    Prod.fst <$> respPerfectPrint S p verbose = respPerfect S p := by
  have len : ∀ {f : ℝ → Py ℝ} {i : List ℝ}, VINIT.mapM f = .ok i → i.length = VINIT.length :=
    fun h => (mapM_ok h).length_eq.symm
  refine ⟨fun voltage current vlimit => ?_, fun order => ?_, fun vgap rn rsg agap => ?_, ?_⟩
  · unfold fromIVDataPrint fromIVData
    simp only [map_bind]
    refine bind_congr_ok fun i h => ?_
    unfold ivResample at h
    obtain ⟨pts, -, h⟩ := bind_ok_iff.1 h
    have h := Except.ok.inj h
    exact C131_same_result S (by rw [← h, List.length_map]) p verbose
  · unfold respPolynomialPrint respPolynomial
    simp only [map_bind]
    exact bind_congr_ok fun i h => C131_same_result S (len h) p verbose
  · unfold respExponentialPrint respExponential
    simp only [map_bind]
    exact bind_congr_ok fun i h => C131_same_result S (len h) p verbose
  · unfold respPerfectPrint respPerfect
    cases hs : p.vSmear with
    | none => rfl
    | some s =>
      dsimp only
      simp only [map_bind]
      refine bind_congr_ok fun i h => ?_
      have hi : i.length = VINIT.length := by
        unfold perfectSmeared at h
        obtain ⟨tmp, ht, h⟩ := bind_ok_iff.1 h
        obtain ⟨_, -, h⟩ := bind_ok_iff.1 h
        obtain ⟨_, -, h⟩ := bind_ok_iff.1 h
        obtain ⟨_, -, h⟩ := bind_ok_iff.1 h
        obtain ⟨g, hg, h⟩ := bind_ok_iff.1 h
        obtain ⟨-, -, hg⟩ := gaussConv_ok hg
        rw [impulse_eq] at ht
        have ht := Except.ok.inj ht
        have := zip_length h (by rw [hg, tab_length, ← ht, tab_length, List.length_map, VINIT_length])
        rw [this, List.length_map]
      rw [← C131_same_result S hi p verbose]
      generalize respInitPrint S VINIT i p verbose = z
      cases z <;> rfl

/-! ## The text -/

/-- What is printed about the smearing. -/
def SmearLines (L : List (List Char)) : Option ℝ → Prop
  | none => L = []
  | some s => ∃ a, L = [" - Voltage smear: ".toList ++ a] ∧ Shows a s 4

/-- The interpolation `f` of the data is the spline through `n` of its points. -/
def SplineOf (S : Splines) (order : ℤ) (v i : List ℝ) (f : ℝ → ℝ) (n : ℕ) : Prop :=
  ∃ xs ys, xs.SortedLT ∧ xs.length = n ∧ ys.length = n ∧ (∀ q ∈ xs.zip ys, q ∈ v.zip i) ∧ f = S.eval xs ys order

theorem pyGet_zip {v c : List ℝ} (hl : c.length = v.length) {k : ℤ} {x y : ℝ} (hx : pyGet v k = .ok x)
    (hy : pyGet c k = .ok y) : (x, y) ∈ v.zip c := by
  cases hi : pyIndex v.length k with
  | error e =>
    unfold pyGet at hx
    rw [hi] at hx
    cases hx
  | ok i =>
    obtain ⟨h1, e1⟩ := pyGet_eq hi
    obtain ⟨h2, e2⟩ := pyGet_eq (l := c) (k := k) (i := i) (by rw [hl, hi])
    rw [hx] at e1
    rw [hy] at e2
    rw [List.mem_iff_getElem?]
    refine ⟨i, ?_⟩
    rw [List.getElem?_zip_eq_some, List.getElem?_eq_getElem h1, List.getElem?_eq_getElem h2]
    exact ⟨congrArg some (Except.ok.inj e1).symm, congrArg some (Except.ok.inj e2).symm⟩

theorem splineOf_taken {S : Splines} {v c xs ys : List ℝ} {idx : List ℤ} {o : ℤ} {f : ℝ → ℝ} (hl : c.length = v.length)
    (hx : takeIdx v idx = .ok xs) (hy : takeIdx c idx = .ok ys) (hf : RespFn.interp S xs ys o = .ok f) :
    SplineOf S o v c f idx.length := by
  obtain ⟨-, hs, he, -⟩ := interp_ok hf
  obtain ⟨lx, gx⟩ := takeIdx_get hx
  obtain ⟨ly, gy⟩ := takeIdx_get hy
  refine ⟨xs, ys, hs, lx, ly, ?_, he⟩
  intro q hq
  obtain ⟨j, hj⟩ := List.mem_iff_getElem?.1 hq
  rw [List.getElem?_zip_eq_some] at hj
  obtain ⟨j1, j2⟩ := hj
  have jl : j < idx.length := by rw [← lx]; exact (List.getElem?_eq_some_iff.1 j1).1
  have a := gx j jl
  have b := gy j jl
  rw [List.getD_eq_getElem?_getD, j1] at a
  rw [List.getD_eq_getElem?_getD, j2] at b
  exact pyGet_zip hl a b

/-- C131, without printing: nothing is printed by any of the classes. -/
theorem C131_quiet {S : Splines} {p : Params} {r : Obj} {t : List Char} :
    (∀ v c, respInitPrint S v c p false = .ok (r, t) → t = []) ∧
    (∀ v c l, fromIVDataPrint S v c l p false = .ok (r, t) → t = []) ∧
    (∀ n, respPolynomialPrint S n p false = .ok (r, t) → t = []) ∧
    (∀ a b c d, respExponentialPrint S a b c d p false = .ok (r, t) → t = []) ∧
    (respPerfectPrint S p false = .ok (r, t) → t = []) := by
  have key : ∀ v c (r : Obj) t, respInitPrint S v c p false = .ok (r, t) → t = [] := by
    intro v c r t h
    unfold respInitPrint at h
    obtain ⟨_, -, h⟩ := bind_ok_iff.1 h
    obtain ⟨_, -, h⟩ := bind_ok_iff.1 h
    obtain ⟨_, -, h⟩ := bind_ok_iff.1 h
    obtain ⟨_, -, h⟩ := bind_ok_iff.1 h
    obtain ⟨_, -, h⟩ := bind_ok_iff.1 h
    obtain ⟨_, -, h⟩ := bind_ok_iff.1 h
    obtain ⟨⟨f, u⟩, hu, h⟩ := bind_ok_iff.1 h
    have hu : u = [] := by
      unfold setupPrint at hu
      obtain ⟨_, -, hu⟩ := bind_ok_iff.1 hu
      obtain ⟨_, -, hu⟩ := bind_ok_iff.1 hu
      obtain ⟨_, -, hu⟩ := bind_ok_iff.1 hu
      obtain ⟨_, -, hu⟩ := bind_ok_iff.1 hu
      obtain ⟨_, -, hu⟩ := bind_ok_iff.1 hu
      obtain ⟨_, -, hu⟩ := bind_ok_iff.1 hu
      obtain ⟨_, -, hu⟩ := bind_ok_iff.1 hu
      obtain ⟨_, -, hu⟩ := bind_ok_iff.1 hu
      simp only [Bool.false_eq_true, if_false, pure_bind] at hu
      obtain ⟨_, -, hu⟩ := bind_ok_iff.1 hu
      obtain ⟨_, -, hu⟩ := bind_ok_iff.1 hu
      exact ((Prod.mk.inj (Except.ok.inj hu)).2).symm
    have ht := (Prod.mk.inj (Except.ok.inj h)).2
    rw [← ht, hu]
    unfold heading smearText
    cases p.vSmear <;> simp
  refine ⟨fun v c h => key v c r t h, fun v c l h => ?_, fun n h => ?_, fun a b c d h => ?_, fun h => ?_⟩
  · unfold fromIVDataPrint at h
    obtain ⟨_, -, h⟩ := bind_ok_iff.1 h
    exact key _ _ _ _ h
  · unfold respPolynomialPrint at h
    obtain ⟨_, -, h⟩ := bind_ok_iff.1 h
    exact key _ _ _ _ h
  · unfold respExponentialPrint at h
    obtain ⟨_, -, h⟩ := bind_ok_iff.1 h
    exact key _ _ _ _ h
  · unfold respPerfectPrint at h
    cases hs : p.vSmear with
    | none =>
      rw [hs] at h
      have ht := (Prod.mk.inj (Except.ok.inj h)).2
      rw [← ht]
      rfl
    | some s =>
      rw [hs] at h
      dsimp only at h
      obtain ⟨i, -, h⟩ := bind_ok_iff.1 h
      obtain ⟨⟨r', u⟩, hu, h⟩ := bind_ok_iff.1 h
      have ht := (Prod.mk.inj (Except.ok.inj h)).2
      rw [← ht, key _ _ _ _ hu]
      rfl

/-- The lines of the text, with the property that is needed to read them. -/
theorem respInitPrint_lines {S : Splines} {v c : List ℝ} (hl : c.length = v.length) {p : Params} {r : Obj} {t : List Char}
    (h : respInitPrint S v c p true = .ok (r, t)) :
    ∃ A D K nD nK, t = ("Generating response function:".toList :: A ++ " - Interpolating:".toList :: D ++ K ++ [[]]).flatMap line ∧
      (∀ w ∈ "Generating response function:".toList :: A ++ " - Interpolating:".toList :: D ++ K ++ [[]], '\n' ∉ w) ∧
      SmearLines A p.vSmear ∧
      CurveLines D "\t- DC I-V curve:" "\t\t- npts for DC I-V: " nD (deviations 34 r.voltage r.current r.idc) ∧
      CurveLines K "\t- KK curve:" "\t\t- npts for KK I-V: " nK (deviations 34 r.voltage r.currentKk r.ikk) ∧
      SplineOf S p.splineOrder r.voltage r.current r.idc nD ∧ SplineOf S p.splineOrder r.voltage r.currentKk r.ikk nK := by
  unfold respInitPrint at h
  obtain ⟨a, hf, h⟩ := bind_ok_iff.1 h
  obtain ⟨_, -, h⟩ := bind_ok_iff.1 h
  obtain ⟨_, -, h⟩ := bind_ok_iff.1 h
  obtain ⟨_, -, h⟩ := bind_ok_iff.1 h
  obtain ⟨cur, hs, h⟩ := bind_ok_iff.1 h
  obtain ⟨kk, hk, h⟩ := bind_ok_iff.1 h
  obtain ⟨⟨f, u⟩, hu, h⟩ := bind_ok_iff.1 h
  obtain ⟨hr, ht⟩ := Prod.mk.inj (Except.ok.inj h)
  obtain ⟨hpos, -⟩ := pyGet_nat (i := 0) hf
  have hlr : (reflected c).length = (reflected v).length := by
    rw [reflected_length (by omega), reflected_length (by omega), hl]
  have hcur := smear_length hs hlr
  have hkk : kk.length = (reflected v).length := by
    obtain ⟨-, -, e⟩ := kkTrans_ok hcur hk
    rw [e, tab_length]
  unfold setupPrint at hu
  obtain ⟨dI, h1, hu⟩ := bind_ok_iff.1 hu
  obtain ⟨kI, h2, hu⟩ := bind_ok_iff.1 hu
  obtain ⟨xd, h3, hu⟩ := bind_ok_iff.1 hu
  obtain ⟨yd, h4, hu⟩ := bind_ok_iff.1 hu
  obtain ⟨fd, h5, hu⟩ := bind_ok_iff.1 hu
  obtain ⟨xk, h6, hu⟩ := bind_ok_iff.1 hu
  obtain ⟨yk, h7, hu⟩ := bind_ok_iff.1 hu
  obtain ⟨fk, h8, hu⟩ := bind_ok_iff.1 hu
  simp only [if_true] at hu
  obtain ⟨t1, h9, hu⟩ := bind_ok_iff.1 hu
  obtain ⟨_, -, hu⟩ := bind_ok_iff.1 hu
  obtain ⟨_, -, hu⟩ := bind_ok_iff.1 hu
  obtain ⟨ef, eu⟩ := Prod.mk.inj (Except.ok.inj hu)
  unfold errorText at h9
  obtain ⟨a1, g1, h9⟩ := bind_ok_iff.1 h9
  obtain ⟨a2, g2, h9⟩ := bind_ok_iff.1 h9
  have h9 := Except.ok.inj h9
  obtain ⟨e1, e2⟩ := checked_eq hcur fd
  obtain ⟨e3, e4⟩ := checked_eq hkk fk
  rw [e2, e1] at g1
  rw [e4, e3] at g2
  obtain ⟨D, d1, d2, d3⟩ := curveText_spec (by decide) (by decide) g1
  obtain ⟨K, k1, k2, k3⟩ := curveText_spec (by decide) (by decide) g2
  obtain ⟨A, A1, A2, A3⟩ : ∃ A, smearText true p.vSmear = A.flatMap line ∧ SmearLines A p.vSmear ∧ ∀ w ∈ A, '\n' ∉ w := by
    cases p.vSmear with
    | none => exact ⟨[], rfl, rfl, by simp⟩
    | some s =>
      refine ⟨[_], ?_, ⟨_, rfl, shows_fmt 0 4 s⟩, ?_⟩
      · unfold smearText
        simp only [if_true, List.flatMap_cons, List.flatMap_nil, List.append_nil]
      · intro w hw
        rw [List.mem_singleton] at hw
        rw [hw]
        intro hm
        rcases List.mem_append.1 hm with hm | hm
        · exact absurd hm (by decide)
        · exact not_nl (plain_fmt 0 4 _) hm
  subst hr
  rw [← ef]
  refine ⟨A, D, K, dI.length, kI.length, ?_, ?_, A2, d2, k2, splineOf_taken hcur h3 h4 h5, splineOf_taken hkk h6 h7 h8⟩
  · rw [← ht, ← eu, ← h9, A1, d1, k1]
    simp only [List.flatMap_append, List.flatMap_cons, List.flatMap_nil, List.append_nil, List.append_assoc, List.cons_append]
    rfl
  · intro w hw
    simp only [List.mem_append, List.mem_cons, List.not_mem_nil, or_false, List.cons_append] at hw
    rcases hw with rfl | ((hw | rfl | hw) | hw) | rfl
    · decide
    · exact A3 w hw
    · decide
    · exact d3 w hw
    · exact k3 w hw
    · simp

/-- C131, what is printed: the smearing, the number of points of the two splines, the mean size of their errors at the data, and
the greatest excess of the data over them (not the greatest error) with its voltage. -/
theorem C131_report_partial {S : Splines} {v c : List ℝ} (hl : c.length = v.length) {p : Params} {r : Obj} {t : List Char}
    (h : respInitPrint S v c p true = .ok (r, t)) :
    ∃ A D K nD nK, linesOf t = "Generating response function:".toList :: A ++ " - Interpolating:".toList :: D ++ K ++ [[]] ∧
      SmearLines A p.vSmear ∧
      CurveLines D "\t- DC I-V curve:" "\t\t- npts for DC I-V: " nD (deviations 34 r.voltage r.current r.idc) ∧
      CurveLines K "\t- KK curve:" "\t\t- npts for KK I-V: " nK (deviations 34 r.voltage r.currentKk r.ikk) ∧
      SplineOf S p.splineOrder r.voltage r.current r.idc nD ∧ SplineOf S p.splineOrder r.voltage r.currentKk r.ikk nK := by
  obtain ⟨A, D, K, nD, nK, h1, h2, h3⟩ := respInitPrint_lines hl h
  exact ⟨A, D, K, nD, nK, by rw [h1, HbPrint.linesOf_lines h2], h3⟩

/-- The hypotheses can be met: the polynomial curve of order 50 with a smearing of 0.02. -/
example (S : Splines) : ∃ r t, respPolynomialPrint S 50 { vSmear := some 0.02 } true = .ok (r, t) ∧
    "Generating response function:".toList ∈ linesOf t := by
  obtain ⟨r, hr⟩ := C78_polynomial S (p := { vSmear := some 0.02 }) ⟨rfl, by norm_num, by norm_num, by rintro s ⟨⟩; norm_num⟩
    (order := 50) (by norm_num)
  have := (C131_same_classes S { vSmear := some 0.02 } true).2.1 50
  rw [hr] at this
  cases hz : respPolynomialPrint S 50 { vSmear := some 0.02 } true with
  | error e =>
    rw [hz] at this
    cases this
  | ok q =>
    refine ⟨q.1, q.2, rfl, ?_⟩
    unfold respPolynomialPrint at hz
    obtain ⟨i, hi, hz⟩ := bind_ok_iff.1 hz
    obtain ⟨A, D, K, nD, nK, e, -⟩ := C131_report_partial (mapM_ok hi).length_eq.symm (r := q.1) (t := q.2) hz
    rw [e]
    simp

/-! ## The errors of the report -/

/-- C131 is false: the error that is printed as the greatest can be less than a hundredth though the interpolation is wrong by more
than a thousand. -/
theorem C131_false_max : ∃ (S : Splines) (r : Obj) (t : List Char),
    respInitPrint S line line { maxNptsDc := 1, maxNptsKk := 1, checkError := true } true = .ok (r, t) ∧
    (∃ i < r.voltage.length, |r.voltage.getD i 0| < 34 ∧ 1000 < |r.current.getD i 0 - r.idc (r.voltage.getD i 0)|) ∧
    ∃ A B n avg c d x, linesOf t = A ++ ["\t- DC I-V curve:".toList, n, avg, "\t\t- max. error: ".toList ++ c ++ " at v=".toList ++ d]
      ++ B ∧ numeral c = some x ∧ x < 0.01 := by
  obtain ⟨S, r, hr, hi⟩ := C76_false_unbounded
  have := C131_same_result S (v := line) (c := line) rfl { maxNptsDc := 1, maxNptsKk := 1, checkError := true } true
  rw [hr] at this
  cases hz : respInitPrint S line line { maxNptsDc := 1, maxNptsKk := 1, checkError := true } true with
  | error e =>
    rw [hz] at this
    cases this
  | ok q =>
    rw [hz] at this
    have e : q.1 = r := Except.ok.inj this
    obtain ⟨A, D, K, nD, nK, g1, -, ⟨a, b, c, d, v, m, g2, -, -, ⟨x, g3, g4⟩, -, g5, -⟩, -⟩ :=
      C131_report_partial rfl (r := q.1) (t := q.2) hz
    refine ⟨S, r, q.2, by rw [← e]; exact hz, hi, "Generating response function:".toList :: A ++ [" - Interpolating:".toList],
      K ++ [[]], "\t\t- npts for DC I-V: ".toList ++ a, "\t\t- avg. error: ".toList ++ b, c, d, x, ?_, g3, ?_⟩
    · rw [g1, g2]
      simp
    · rw [e] at g5
      unfold deviations at g5
      obtain ⟨⟨v', i'⟩, g5, g6⟩ := List.mem_map.1 g5
      obtain ⟨g7, g8⟩ := List.mem_filter.1 g5
      obtain ⟨j, hj⟩ := List.mem_iff_getElem?.1 g7
      rw [List.getElem?_zip_eq_some] at hj
      obtain ⟨j1, j2⟩ := hj
      have hlen : r.current.length = r.voltage.length := by
        obtain ⟨-, -, -, hv, hs, -⟩ := respInit_ok hr
        rw [hv]
        exact smear_length hs rfl
      have hv : v' = r.voltage.getD j 0 := by rw [List.getD_eq_getElem?_getD, j1]; rfl
      have hc : i' = r.current.getD j 0 := by rw [List.getD_eq_getElem?_getD, j2]; rfl
      have up := (C76_upper_partial hr rfl (i := j) (List.getElem?_eq_some_iff.1 j1).1 hlen
        (by rw [← hv]; simpa using g8)).1
      obtain ⟨-, g6⟩ := Prod.mk.inj g6
      rw [← hv, ← hc] at up
      have g4 := (abs_le.1 g4).2
      dsimp only at g6 up
      norm_num at up g4 ⊢
      linarith

/-- C131 is false: the heading and the smearing of a smeared perfect curve are printed twice. -/
theorem C131_false_twice (S : Splines) {p : Params} (hp : GoodParams p) {s : ℝ} (hs : p.vSmear = some s) :
    ∃ r t, respPerfectPrint S p true = .ok (r, t) ∧ ∃ a b L, Shows a s 4 ∧ Shows b s 4 ∧
      linesOf t = ["Generating response function:".toList, " - Voltage smear: ".toList ++ a,
        "Generating response function:".toList, " - Voltage smear: ".toList ++ b] ++ L := by
  obtain ⟨r, hr⟩ := C78_perfect S hp
  have := (C131_same_classes S p true).2.2.2
  rw [hr] at this
  cases hz : respPerfectPrint S p true with
  | error e =>
    rw [hz] at this
    cases this
  | ok q =>
    refine ⟨q.1, q.2, rfl, ?_⟩
    unfold respPerfectPrint at hz
    rw [hs] at hz
    dsimp only at hz
    obtain ⟨i, hi, hz⟩ := bind_ok_iff.1 hz
    obtain ⟨⟨r', u⟩, hu, hz⟩ := bind_ok_iff.1 hz
    have ht : _ = q.2 := (Prod.mk.inj (Except.ok.inj hz)).2
    have hi' : i.length = VINIT.length := by
      obtain ⟨s1, s2⟩ := hp.smear s hs
      rw [perfectSmeared_eq s1 s2] at hi
      rw [← Except.ok.inj hi, tab_length, VINIT_length]
    obtain ⟨A, D, K, nD, nK, e1, e2, e3, -⟩ := respInitPrint_lines hi' hu
    rw [hs] at e3
    obtain ⟨b, rfl, hb⟩ := e3
    refine ⟨Results.fmt 0 4 (Fl.num s), b, " - Interpolating:".toList :: D ++ K ++ [[]], shows_fmt 0 4 s, hb, ?_⟩
    · rw [← ht, e1]
      have : heading true ++ smearText true (some s) ++ ("Generating response function:".toList :: [" - Voltage smear: ".toList ++ b] ++
          " - Interpolating:".toList :: D ++ K ++ [[]]).flatMap line =
          ("Generating response function:".toList :: (" - Voltage smear: ".toList ++ Results.fmt 0 4 (Fl.num s)) ::
            ("Generating response function:".toList :: [" - Voltage smear: ".toList ++ b] ++
              " - Interpolating:".toList :: D ++ K ++ [[]])).flatMap line := by
        simp only [List.flatMap_cons, heading, smearText, if_true, List.append_assoc]
      rw [this, HbPrint.linesOf_lines]
      · rfl
      · intro w hw
        rcases List.mem_cons.1 hw with rfl | hw
        · decide
        rcases List.mem_cons.1 hw with rfl | hw
        · intro hm
          rcases List.mem_append.1 hm with hm | hm
          · exact absurd hm (by decide)
          · exact not_nl (plain_fmt 0 4 _) hm
        · exact e2 w hw

example : GoodParams { vSmear := some 0.02 } ∧ ({ vSmear := some 0.02 } : Params).vSmear = some 0.02 :=
  ⟨⟨rfl, by norm_num, by norm_num, by rintro s ⟨⟩; norm_num⟩, rfl⟩

/-- C131: without smearing the perfect curve prints the heading only. -/
theorem C131_perfect (S : Splines) {p : Params} (hs : p.vSmear = none) :
    ∃ r t, respPerfectPrint S p true = .ok (r, t) ∧ linesOf t = ["Generating response function:".toList] := by
  unfold respPerfectPrint
  rw [hs]
  exact ⟨_, _, rfl, HbPrint.linesOf_lines (L := ["Generating response function:".toList]) (by decide)⟩

/-- C131: the texts of objects of different classes differ. -/
theorem C131_names {a b : Cls} (h : strText a = strText b) : a = b := by
  cases a <;> cases b <;> first | rfl | exact absurd h (by decide)

end QMix.Props
