import Verif.Lemmas.Terminal
import Verif.Lemmas.Py
import Mathlib.Tactic.FieldSimp

/-!
# Properties of the terminal output (C107 - C110)
-/

namespace QMix.Term

open QMix.IO QMix.Spec

/-! ## C107: titles -/

/-- C107. A title that fits is printed on one line of exactly the requested length, between stars that
are as evenly distributed as possible (an odd one goes to the right), followed by an empty line. -/
theorem C107_title (s : List Char) (L : ℕ) (h : s.length + 2 ≤ L) :
    ∃ line l r, title s none L = .ok (line ++ ['\n', '\n']) ∧ line.length = L ∧
      line = List.replicate l '*' ++ ' ' :: s ++ ' ' :: List.replicate r '*' ∧
      (r = l ∨ r = l + 1) := by
  obtain ⟨n, rfl⟩ := Nat.exists_eq_add_of_le h
  have hm : ((s.length + 2 + n : ℕ) : ℤ) - s.length - 2 = n := by push_cast; ring
  refine ⟨_, n / 2, n - n / 2, ?_, ?_, rfl, by omega⟩
  · unfold title cprint times
    simp only [hm]
    have e1 : ((n : ℤ) / 2).toNat = n / 2 := by omega
    have e2 : (if (n : ℤ) % 2 = 0 then (n : ℤ) / 2 else (n : ℤ) / 2 + 1).toNat = n - n / 2 := by
      split <;> omega
    rw [e1, e2]
    simp
  · simp
    omega

/-- C107. A title that does not fit is printed in full, without stars. -/
theorem C107_long (s : List Char) (L : ℤ) (h : L < s.length + 2) :
    title s none L = .ok (' ' :: s ++ [' ', '\n', '\n']) := by
  unfold title cprint times
  have e1 : ((L - s.length - 2) / 2).toNat = 0 := by omega
  have e2 : (if (L - s.length - 2) % 2 = 0 then (L - s.length - 2) / 2
      else (L - s.length - 2) / 2 + 1).toNat = 0 := by split <;> omega
  simp only [e1, e2]
  simp

example : title "IV data".toList none 20 = .ok "***** IV data ******\n\n".toList := by decide
example : title "IV data".toList none 5 = .ok " IV data \n\n".toList := by decide

/-! ## C110: colours -/

/-- C110. In a documented colour, whatever the case of its name, the whole text is shown in that
style and the terminal is left in its default style. -/
theorem C110_colour {name style c text : List Char} (h : (name, style) ∈ styles) (hc : upper c = name)
    (ht : Char.ofNat 27 ∉ text) (cur : List Char) :
    ∃ out, cprint text (some c) = .ok out ∧
      paint cur none out = (text.map (·, style) ++ [('\n', [])], []) := by
  obtain ⟨h1, h2, h3⟩ := styles_lookup h
  subst hc
  obtain ⟨out, ho, hp⟩ := paint_known h1 h2 ht
  refine ⟨out, ho, ?_⟩
  have := hp cur []
  rw [if_neg h3] at this
  simpa [paint] using this

/-- C110. Whatever the colour, nothing is raised, the text is printed in full, and a terminal in its
default style is in its default style afterwards. -/
theorem C110_always (text : List Char) (ht : Char.ofNat 27 ∉ text) (c : Option (List Char))
    (hc : ∀ x ∈ c, Char.ofNat 27 ∉ x) :
    ∃ out, cprint text c = .ok out ∧ text <:+: shown out ∧ (paint [] none out).2 = [] := by
  have hp : ∀ (a b : List Char), Char.ofNat 27 ∉ a → Char.ofNat 27 ∉ b →
      text <:+: shown (a ++ text ++ b) ∧ (paint [] none (a ++ text ++ b)).2 = [] := by
    intro a b ha hb
    have : Char.ofNat 27 ∉ a ++ text ++ b := by simp [ha, hb, ht]
    unfold shown
    rw [paint_plain' [] this]
    refine ⟨⟨a, b, ?_⟩, rfl⟩
    simp [Function.comp_def]
  cases c with
  | none =>
    have := hp [] ['\n'] (by simp) (by decide)
    exact ⟨_, rfl, by simpa using this⟩
  | some c =>
    cases hl : colours.lookup (upper c) with
    | none =>
      refine ⟨_, cprint_unknown hl text, ?_⟩
      have h1 : Char.ofNat 27 ∉ "'color' must be one of:\n".toList ++ keysText ++ ['\n'] := by
        set_option maxRecDepth 10000 in decide
      have h2 : Char.ofNat 27 ∉ ' ' :: c ++ ['\n'] := by
        have := hc c rfl
        simp only [List.cons_append, List.mem_cons, List.mem_append, List.not_mem_nil, or_false,
          not_or]
        exact ⟨by decide, this, by decide⟩
      have := hp _ _ h1 h2
      simpa only [List.append_assoc] using this
    | some k =>
      obtain ⟨e, he, hk⟩ := colours_form _ (lookup_mem hl)
      simp only at hk
      subst hk
      obtain ⟨out, ho, hp'⟩ := paint_known hl he ht
      have hpt := hp' [] []
      rw [List.append_nil, show paint [] none [] = ([], []) by simp [paint]] at hpt
      refine ⟨out, ho, ?_, by rw [hpt]⟩
      unfold shown
      rw [hpt]
      refine ⟨[], ['\n'], ?_⟩
      simp [Function.comp_def]

/-- C110. An unknown colour is reported together with the text instead of being raised. -/
theorem C110_unknown (text : List Char) :
    ∃ out, cprint text (some "purple".toList) = .ok out ∧
      "'color' must be one of:\n".toList <+: out ∧ (text ++ " purple\n".toList) <:+ out := by
  refine ⟨_, cprint_unknown (by decide) text, ?_, ?_⟩
  · simp only [List.append_assoc]; exact List.prefix_append _ _
  · refine ⟨"'color' must be one of:\n".toList ++ keysText ++ ['\n'], ?_⟩
    simp only [List.append_assoc]
    rfl

/-- C110 fails for `header`: without a colour (`color=None`, the default) the rule below the header is
nevertheless printed in pink. -/
theorem C110_false_header (s : List Char) (hs : Char.ofNat 27 ∉ s) :
    ∃ out, header s none = .ok out ∧ ('-', "[95".toList) ∈ (paint [] none out).1 := by
  obtain ⟨b, hb, hpb⟩ := C110_colour (name := "PINK".toList) (style := "[95".toList)
    (c := "pink".toList) (text := '\t' :: times '-' 50) (by decide) (by decide) (by decide) []
  have hb' : cprint ('\t' :: times '-' 50) (some "HEADER".toList) = .ok b := by
    rw [← hb]; decide
  have hh : header s none = .ok ('\t' :: s ++ [':'] ++ ['\n'] ++ b) := by
    unfold header
    rw [hb']
    rfl
  refine ⟨_, hh, ?_⟩
  have : Char.ofNat 27 ∉ '\t' :: s ++ [':'] ++ ['\n'] := by
    simp only [List.cons_append, List.mem_cons, List.mem_append, List.not_mem_nil, or_false, not_or]
    exact ⟨by decide, ⟨hs, by decide⟩, by decide⟩
  rw [paint_plain _ this, hpb]
  apply List.mem_append_right
  apply List.mem_append_left
  exact List.mem_map.2 ⟨'-', by decide, rfl⟩

/-- C110. What a header shows: the text with a colon and a rule of 50 dashes, both indented. -/
theorem C110_header_partial (s : List Char) (hs : Char.ofNat 27 ∉ s) {c : Option (List Char)}
    (hc : ∀ x ∈ c, ∃ e ∈ styles, upper x = e.1) :
    ∃ out, header s c = .ok out ∧
      shown out = '\t' :: s ++ [':', '\n', '\t'] ++ List.replicate 50 '-' ++ ['\n'] ∧
      (paint [] none out).2 = [] := by
  obtain ⟨b, hb, hpb⟩ := C110_colour (name := "PINK".toList) (style := "[95".toList)
    (c := "pink".toList) (text := '\t' :: times '-' 50) (by decide) (by decide) (by decide) []
  have hb' : cprint ('\t' :: times '-' 50) (some "HEADER".toList) = .ok b := by
    rw [← hb]; decide
  have hs' : Char.ofNat 27 ∉ '\t' :: s ++ [':'] := by
    simp only [List.cons_append, List.mem_cons, List.mem_append, List.not_mem_nil, or_false, not_or]
    exact ⟨by decide, hs, by decide⟩
  cases c with
  | none =>
    refine ⟨'\t' :: s ++ [':'] ++ ['\n'] ++ b, ?_, ?_⟩
    · unfold header
      rw [hb']
      rfl
    · have : Char.ofNat 27 ∉ '\t' :: s ++ [':'] ++ ['\n'] := by
        rw [List.mem_append, not_or]; exact ⟨hs', by decide⟩
      unfold shown
      rw [paint_plain _ this, hpb]
      simp [Function.comp_def, times]
  | some x =>
    obtain ⟨e, he, hx⟩ := hc x rfl
    obtain ⟨h1, h2, h3⟩ := styles_lookup he
    rw [← hx] at h1
    obtain ⟨a, ha, hpa⟩ := paint_known h1 h2 hs'
    refine ⟨a ++ b, ?_, ?_⟩
    · unfold header
      rw [ha, hb']
      rfl
    · unfold shown
      rw [hpa, hpb]
      simp [Function.comp_def, times]

example : ∃ out, cprint "done".toList (some "green".toList) = .ok out ∧
    paint [] none out = ([('d', "[92".toList), ('o', "[92".toList), ('n', "[92".toList),
      ('e', "[92".toList), ('\n', [])], []) :=
  C110_colour (name := "GREEN".toList) (by decide) (by decide) (by decide) []

/-- C107. A colour does not change what is shown. -/
theorem C107_colour (s : List Char) (hs : Char.ofNat 27 ∉ s) (L : ℤ) {name style c : List Char}
    (h : (name, style) ∈ styles) (hc : upper c = name) :
    ∃ out out', title s none L = .ok out ∧ title s (some c) L = .ok out' ∧ shown out' = shown out ∧
      (paint [] none out').2 = [] := by
  unfold title
  simp only []
  set t : List Char := times '*' ((L - s.length - 2) / 2) ++ (' ' :: s ++ [' ']) ++
    times '*' (if (L - s.length - 2) % 2 = 0 then (L - s.length - 2) / 2
      else (L - s.length - 2) / 2 + 1) ++ ['\n'] with ht
  have hstar : ∀ n, Char.ofNat 27 ∉ times '*' n := by
    intro n hn
    have := List.eq_of_mem_replicate hn
    exact absurd this (by decide)
  have htx : Char.ofNat 27 ∉ t := by
    rw [ht]
    simp only [List.cons_append, List.mem_cons, List.mem_append, List.not_mem_nil, or_false, not_or]
    exact ⟨⟨⟨hstar _, by decide, hs, by decide⟩, hstar _⟩, by decide⟩
  obtain ⟨out, ho, hp⟩ := C110_colour h hc htx []
  refine ⟨_, out, rfl, ho, ?_, by rw [hp]⟩
  unfold shown
  rw [hp, paint_plain _ htx]
  simp [Function.comp_def, paint]

/-! ## C108: the progress bar -/

/-- C108. One call: the bar has exactly the requested number of cells; the filled part and the
percentage are the fraction done, rounded; at 0 the bar is empty and at the end it is full; the line is
ended exactly when the last iteration is reached. -/
theorem C108_bar (str : ℝ → List Char) (pre suf : List Char) (d n i N : ℕ) (hN : 0 < N) (hi : i ≤ N) :
    ∃ (k : ℕ) (q : ℝ), progressBar str i N pre suf d n
        = .ok (barLine pre (str q) suf n k (decide (i = N))) ∧
      k ≤ n ∧ |(k : ℝ) - n * i / N| ≤ 1 / 2 ∧ |q - 100 * i / N| ≤ 1 / 2 / 10 ^ d ∧ 0 ≤ q ∧ q ≤ 100 ∧
      (i = 0 → k = 0 ∧ q = 0) ∧ (i = N → k = n ∧ q = 100) := by
  have hN' : (0 : ℝ) < N := by exact_mod_cast hN
  have hiN : (i : ℝ) ≤ N := by exact_mod_cast hi
  set x : ℝ := n * i / N with hx
  have hx0 : 0 ≤ x := by positivity
  have hxn : x ≤ n := by
    rw [hx, div_le_iff₀ hN']
    exact mul_le_mul_of_nonneg_left hiN (by positivity)
  set k := roundHalfEven x with hk
  have hk0 : 0 ≤ k := rhe_nonneg hx0
  have hkn : k ≤ n := by
    have := rhe_mono hxn
    rwa [show ((n : ℝ)) = ((n : ℤ) : ℝ) by simp, roundHalfEven_intCast] at this
  have hkc : ((k.toNat : ℕ) : ℝ) = k := by
    have : ((k.toNat : ℕ) : ℤ) = k := Int.toNat_of_nonneg hk0
    exact_mod_cast this
  set y : ℝ := 100 * ((i : ℝ) / N) with hy
  have hy0 : 0 ≤ y := by positivity
  have hy1 : y ≤ 100 := by
    have : (i : ℝ) / N ≤ 1 := by rw [div_le_one hN']; exact hiN
    rw [hy]; linarith
  refine ⟨k.toNat, roundTo d y, ?_, by omega, ?_, ?_, ?_, ?_, ?_, ?_⟩
  · exact bar_eq str pre suf d n i N hN
  · rw [hkc, abs_sub_comm]; exact (rhe_spec x).1
  · have := roundTo_near d y
    rwa [show 100 * (i : ℝ) / N = y by rw [hy]; ring]
  · have := roundTo_mono d hy0
    have h0 := roundTo_nat d 0
    push_cast at h0
    rwa [h0] at this
  · have := roundTo_mono d hy1
    have h100 := roundTo_nat d 100
    push_cast at h100
    rwa [h100] at this
  · intro h0
    have hx0' : x = 0 := by rw [hx, h0]; simp
    have hy0' : y = 0 := by rw [hy, h0]; simp
    have hk' : k = 0 := by
      rw [hk, hx0']; have := roundHalfEven_intCast 0; simpa using this
    refine ⟨by rw [hk']; rfl, ?_⟩
    rw [hy0']; have := roundTo_nat d 0; simpa using this
  · intro h1
    have hx1 : x = n := by rw [hx, h1]; field_simp
    have hy1' : y = 100 := by rw [hy, h1]; field_simp
    have hk' : k = n := by
      rw [hk, hx1]; have := roundHalfEven_intCast n; simpa using this
    refine ⟨by rw [hk']; rfl, ?_⟩
    rw [hy1']; have := roundTo_nat d 100; simpa using this

example := C108_bar (fun _ => "33.33".toList) "Progress:".toList "Complete".toList 2 20 1 3
  (by norm_num) (by norm_num)

/-- C108. The bar and the percentage never go back. -/
theorem C108_monotone (str : ℝ → List Char) (pre suf : List Char) (d n i j N : ℕ) (hN : 0 < N)
    (hij : i ≤ j) :
    ∃ (k l : ℕ) (q r : ℝ), k ≤ l ∧ q ≤ r ∧
      progressBar str i N pre suf d n = .ok (barLine pre (str q) suf n k (decide (i = N))) ∧
      progressBar str j N pre suf d n = .ok (barLine pre (str r) suf n l (decide (j = N))) := by
  have hN' : (0 : ℝ) < N := by exact_mod_cast hN
  have hij' : (i : ℝ) ≤ j := by exact_mod_cast hij
  refine ⟨_, _, _, _, ?_, ?_, bar_eq str pre suf d n i N hN, bar_eq str pre suf d n j N hN⟩
  · apply Int.toNat_le_toNat
    apply rhe_mono
    gcongr
  · apply roundTo_mono
    gcongr

/-- C108. The only failure: nothing to count. -/
theorem C108_zero (str : ℝ → List Char) (pre suf : List Char) (d : ℕ) (n i N : ℤ) :
    (∃ e, progressBar str i N pre suf d n = .error e) ↔ N = 0 := by
  unfold progressBar
  by_cases h : N = 0
  · simp [h]
  · simp [h]

/-- C108. The bar of the Jacobian calculation (`qmix/harmonic_balance.py:331-357`: one call before each
of `N` columns and one at the end): no call raises and the line is ended once, by the last call. -/
theorem C108_sequence (str : ℝ → List Char) (pre suf : List Char) (d n N : ℕ) (hN : 0 < N) :
    ∃ (k : ℕ → ℕ) (q : ℕ → ℝ), k 0 = 0 ∧ k N = n ∧ (∀ i j, i ≤ j → j ≤ N → k i ≤ k j) ∧
      ∀ i ≤ N, progressBar str i N pre suf d n
        = .ok (barLine pre (str (q i)) suf n (k i) (decide (i = N))) := by
  have hN' : (0 : ℝ) < N := by exact_mod_cast hN
  refine ⟨fun i => (roundHalfEven ((n : ℝ) * i / N)).toNat, fun i => roundTo d (100 * ((i : ℝ) / N)),
    ?_, ?_, ?_, fun i _ => bar_eq str pre suf d n i N hN⟩
  · have := roundHalfEven_intCast 0
    simp only [Nat.cast_zero, mul_zero, zero_div]
    rw [show (0 : ℝ) = ((0 : ℤ) : ℝ) by simp, this]; rfl
  · simp only [mul_div_assoc, div_self hN'.ne', mul_one]
    rw [show (n : ℝ) = ((n : ℤ) : ℝ) by simp, roundHalfEven_intCast]; simp
  · intro i j hij _
    have hij' : (i : ℝ) ≤ j := by exact_mod_cast hij
    apply Int.toNat_le_toNat
    apply rhe_mono
    gcongr

/-- C108: a full bar does not mean that the work is done. -/
theorem C108_false_full (str : ℝ → List Char) (pre suf : List Char) (d : ℕ) :
    ∃ q, progressBar str (199 : ℕ) (200 : ℕ) pre suf d (20 : ℕ)
      = .ok (barLine pre (str q) suf 20 20 false) := by
  refine ⟨roundTo d (100 * (((199 : ℕ) : ℝ) / ((200 : ℕ) : ℝ))), ?_⟩
  rw [bar_eq str pre suf d 20 199 200 (by norm_num)]
  have : roundHalfEven (((20 : ℕ) : ℝ) * ((199 : ℕ) : ℝ) / ((200 : ℕ) : ℝ)) = 20 := by
    apply rhe_unique
    · rw [abs_le]; constructor <;> norm_num
    · intro h; exfalso; rw [abs_of_neg (by norm_num)] at h; norm_num at h
  rw [this]
  rfl

/-! ## C109: complex numbers -/

/-- C109. `pvalf` of a complex number: between the name and the units stands a text that, read as a
complex number, is the value to three decimals. -/
theorem C109_pvalf (name units comment : List Char) (z : Flt × Flt) (h1 : 0 ≤ z.1.mag)
    (h2 : 0 ≤ z.2.mag) :
    ∃ t w rest, pvalf name (.cplx z) units comment none
        = .ok ('\t' :: padRight 15 name ++ " = ".toList ++ t ++ rest) ∧
      complexNumeral t = some w ∧ |w.re - z.1.toReal| ≤ 5 / 10 ^ 4 ∧ |w.im - z.2.toReal| ≤ 5 / 10 ^ 4 := by
  obtain ⟨re, im⟩ := z
  simp only at h1 h2
  set sg : Char := if im.toReal < 0 then '-' else '+' with hsg
  have hread := complexNumeral_text (a := padLeft 7 (fmtFloat 3 re))
    (b := padLeft 7 (fmtFloat 3 (fabs im))) (s := sg) (padLeft_no_j _ _)
    (numeral_fmt 7 3 re) (numeral_fmt 7 3 (fabs im)) (by rw [hsg]; split <;> simp)
  refine ⟨_, _, padRight 15 (unitsText units) ++ commentText comment ++ ['\n'], ?_, hread, ?_, ?_⟩
  · unfold pvalf cprint
    have : (if im.toReal < 0 then " - j".toList else " + j".toList) = [' ', sg, ' ', 'j'] := by
      rw [hsg]; split <;> rfl
    simp only [this, List.append_assoc]
  · exact fmt_near 3 h1
  · have hn := fmt_near 3 (x := fabs im) h2
    have hv : (fabs im).toReal = im.mag := rfl
    rw [hv] at hn
    simp only
    have hpos : im.toReal < 0 ↔ im.neg = true ∧ 0 < im.mag := by
      unfold Flt.toReal; cases im.neg <;> simp [h2]
    by_cases hneg : im.toReal < 0
    · have hs' : sg = '-' := by rw [hsg, if_pos hneg]
      have hval : im.toReal = -im.mag := by unfold Flt.toReal; rw [if_pos (hpos.1 hneg).1]
      rw [if_neg (by rw [hs']; decide), hval, ← abs_neg]
      convert hn using 2
      ring
    · have hs' : sg = '+' := by rw [hsg, if_neg hneg]
      have hval : im.toReal = im.mag := by
        unfold Flt.toReal
        split
        · rename_i hb
          have : im.mag = 0 := le_antisymm (not_lt.1 fun h => hneg (hpos.2 ⟨hb, h⟩)) h2
          rw [this]; simp
        · rfl
      rw [if_pos hs', hval]
      exact hn

/-- C109. `pvalf` of a real number: the text between the name and the units is the value to three
decimals. -/
theorem C109_real (name units comment : List Char) (x : Flt) (h : 0 ≤ x.mag) :
    ∃ t w rest, pvalf name (.real x) units comment none
        = .ok ('\t' :: padRight 15 name ++ " = ".toList ++ t ++ '\t' :: rest) ∧
      numeral t = some w ∧ |w - x.toReal| ≤ 5 / 10 ^ 4 := by
  refine ⟨_, _, padRight 15 (unitsText units) ++ commentText comment ++ ['\n'], ?_,
    numeral_fmt 7 3 x, fmt_near 3 h⟩
  unfold pvalf cprint
  simp only [List.append_assoc, List.cons_append]

example := C109_pvalf "zt".toList "ohm".toList [] (⟨false, 1 / 3⟩, ⟨true, 1 / 4⟩) (by norm_num)
  (by norm_num)

/-- C109 for `printc`, when the sign bit of the imaginary part is clear: the text, read as a complex
number, is the value to two decimals. Missing: negative imaginary parts, for which it is false. -/
theorem C109_printc_partial (z : Flt × Flt) (h1 : 0 ≤ z.1.mag) (h2 : 0 ≤ z.2.mag)
    (hs : z.2.neg = false) :
    ∃ w, complexNumeral (printc z) = some w ∧ |w.re - z.1.toReal| ≤ 5 / 10 ^ 3 ∧
      |w.im - z.2.toReal| ≤ 5 / 10 ^ 3 := by
  have hv : z.2.toReal = z.2.mag := by unfold Flt.toReal; rw [hs]; rfl
  refine ⟨_, printc_read z, ?_, ?_⟩
  · exact fmt_near 2 h1
  · have : z.2.toReal ≥ 0 := by rw [hv]; exact h2
    simp only [if_pos this, if_true]
    exact fmt_near 2 h2

/-- C109 fails for `printc`: every negative imaginary part gets two minus signs, so that the text,
read as a complex number, has the *positive* imaginary part. -/
theorem C109_false_printc (z : Flt × Flt) (hneg : z.2.toReal < 0) (h1 : 0 ≤ z.1.mag)
    (h2 : 0 ≤ z.2.mag) :
    ∃ w, complexNumeral (printc z) = some w ∧ |w.re - z.1.toReal| ≤ 5 / 10 ^ 3 ∧
      |w.im - -z.2.toReal| ≤ 5 / 10 ^ 3 := by
  refine ⟨_, printc_read z, ?_, ?_⟩
  · exact fmt_near 2 h1
  · have : ¬ z.2.toReal ≥ 0 := not_le.2 hneg
    simp only [if_neg this]
    rw [if_neg (by decide), ← abs_neg]
    convert fmt_near 2 h2 using 2
    ring

example := C109_printc_partial (⟨true, 1⟩, ⟨false, 1 / 3⟩) (by norm_num) (by norm_num) rfl

/-- One such number: `printc(1 - 0.5j)` reads as `1 + 0.5j`. -/
theorem C109_false_printc_witness :
    ∃ w, complexNumeral (printc (⟨false, 1⟩, ⟨true, 1 / 2⟩)) = some w ∧ w.im > 0 := by
  obtain ⟨w, hw, -, him⟩ := C109_false_printc (⟨false, 1⟩, ⟨true, 1 / 2⟩)
    (by simp [Flt.toReal]) (by simp) (by simp)
  refine ⟨w, hw, ?_⟩
  simp only [Flt.toReal, if_true, neg_neg] at him
  have := (abs_le.1 him).1
  norm_num at this ⊢
  linarith

end QMix.Term
