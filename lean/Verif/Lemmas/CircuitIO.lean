import Verif.Model.CircuitIO
import Verif.Lemmas.Py
import Mathlib.Tactic.IntervalCases
import Mathlib.Tactic.FieldSimp
import Mathlib.Tactic.Positivity
import Mathlib.Tactic.NormNum

/-! Lemmas about the text format of embedding circuits. -/

namespace QMix.IO

/-! ## Rounding -/

theorem rhe_spec (x : ℝ) : |x - roundHalfEven x| ≤ 1 / 2 ∧
    (|x - roundHalfEven x| = 1 / 2 → Even (roundHalfEven x)) := by
  have h0 := Int.fract_nonneg x
  have h1 := Int.fract_lt_one x
  have e : x = ⌊x⌋ + Int.fract x := (Int.floor_add_fract x).symm
  unfold roundHalfEven
  by_cases a : Int.fract x < 1 / 2
  · rw [if_pos a]
    have : x - (⌊x⌋ : ℝ) = Int.fract x := by linarith
    rw [this, abs_of_nonneg h0]
    exact ⟨a.le, fun h => absurd h a.ne⟩
  rw [if_neg a]
  by_cases b : 1 / 2 < Int.fract x
  · rw [if_pos b]
    have : x - ((⌊x⌋ + 1 : ℤ) : ℝ) = -(1 - Int.fract x) := by push_cast; linarith
    rw [this, abs_neg, abs_of_nonneg (by linarith)]
    exact ⟨by linarith, fun h => by linarith⟩
  rw [if_neg b]
  have hf : Int.fract x = 1 / 2 := by linarith
  by_cases c : Even ⌊x⌋
  · rw [if_pos c]
    have : x - (⌊x⌋ : ℝ) = 1 / 2 := by linarith
    rw [this, abs_of_nonneg (by norm_num)]
    exact ⟨le_refl _, fun _ => c⟩
  · rw [if_neg c]
    have : x - ((⌊x⌋ + 1 : ℤ) : ℝ) = -(1 / 2) := by push_cast; linarith
    rw [this, abs_neg, abs_of_nonneg (by norm_num)]
    exact ⟨le_refl _, fun _ => by rw [Int.even_add_one]; exact c⟩

theorem rhe_unique {x : ℝ} {m : ℤ} (h : |x - m| ≤ 1 / 2) (he : |x - m| = 1 / 2 → Even m) :
    roundHalfEven x = m := by
  obtain ⟨h1, h2⟩ := rhe_spec x
  set n := roundHalfEven x with hn
  by_contra hne
  have hd : (1 : ℝ) ≤ |(n : ℝ) - m| := by
    have : (1 : ℤ) ≤ |n - m| := Int.one_le_abs (sub_ne_zero.2 hne)
    exact_mod_cast this
  have ht : |(n : ℝ) - m| ≤ |x - n| + |x - m| := by
    rw [show (n : ℝ) - m = (x - m) - (x - n) by ring]
    have := abs_sub (x - m) (x - n)
    linarith
  have e1 : |x - n| = 1 / 2 := by linarith
  have e2 : |x - m| = 1 / 2 := by linarith
  have hdm : |(n : ℝ) - m| = 1 := by linarith
  have hdz : |n - m| = 1 := by exact_mod_cast hdm
  have p1 := h2 e1
  have p2 := he e2
  have := p1.sub p2
  rcases (abs_eq (by norm_num : (0 : ℤ) ≤ 1)).1 hdz with h | h <;> rw [h] at this <;>
    exact absurd this (by decide)

theorem rhe_nonneg {x : ℝ} (h : 0 ≤ x) : 0 ≤ roundHalfEven x := by
  have h1 := (rhe_spec x).1
  by_contra hc
  have : (roundHalfEven x : ℝ) ≤ -1 := by exact_mod_cast Int.le_sub_one_of_lt (not_le.1 hc)
  have := abs_le.1 h1
  linarith

theorem scaled_cast (d : ℕ) {x : Flt} (h : 0 ≤ x.mag) :
    ((scaled d x : ℕ) : ℤ) = roundHalfEven (x.mag * 10 ^ d) := by
  unfold scaled
  exact Int.toNat_of_nonneg (rhe_nonneg (by positivity))

/-- The decimal is within half a unit of the number. -/
theorem scaled_near (d : ℕ) {x : Flt} (h : 0 ≤ x.mag) :
    |(scaled d x : ℝ) / 10 ^ d - x.mag| ≤ 1 / 2 / 10 ^ d := by
  have e := (rhe_spec (x.mag * 10 ^ d)).1
  have hc : ((roundHalfEven (x.mag * 10 ^ d) : ℤ) : ℝ) = (scaled d x : ℝ) := by
    rw [← scaled_cast d h]; simp
  rw [hc] at e
  have hp : (0 : ℝ) < 10 ^ d := by positivity
  have : (scaled d x : ℝ) / 10 ^ d - x.mag = -(x.mag * 10 ^ d - scaled d x) / 10 ^ d := by
    field_simp; ring
  rw [this, abs_div, abs_neg, abs_of_pos hp]
  exact div_le_div_of_nonneg_right e hp.le

/-- Formatting what was read gives the same digits: the double nearest to the printed decimal rounds
to that decimal. -/
theorem scaled_rnd (F : FloatFormat) (d : ℕ) {x : Flt} (h : x.mag ∈ F.mags) (s : Bool) :
    scaled d ⟨s, F.rnd ((scaled d x : ℝ) / 10 ^ d)⟩ = scaled d x := by
  have hx := F.nonneg _ h
  have hp : (0 : ℝ) < 10 ^ d := by positivity
  have hD : (0 : ℝ) ≤ (scaled d x : ℝ) / 10 ^ d := by positivity
  have hn := F.nearest _ hD _ h
  have hr := F.nonneg _ (F.rnd_mem ((scaled d x : ℝ) / 10 ^ d))
  have hc : ((roundHalfEven (x.mag * 10 ^ d) : ℤ) : ℝ) = (scaled d x : ℝ) := by
    rw [← scaled_cast d hx]; simp
  obtain ⟨e1, e2⟩ := rhe_spec (x.mag * 10 ^ d)
  rw [hc] at e1 e2
  have k : ∀ z : ℝ, |z * 10 ^ d - (scaled d x : ℝ)| = |z - (scaled d x : ℝ) / 10 ^ d| * 10 ^ d := by
    intro z
    rw [← abs_of_pos hp, ← abs_mul, abs_of_pos hp]
    congr 1
    field_simp
  have hle : |F.rnd ((scaled d x : ℝ) / 10 ^ d) * 10 ^ d - (scaled d x : ℝ)| ≤
      |x.mag * 10 ^ d - (scaled d x : ℝ)| := by
    rw [k, k]
    exact mul_le_mul_of_nonneg_right hn hp.le
  have key : roundHalfEven (F.rnd ((scaled d x : ℝ) / 10 ^ d) * 10 ^ d) = ((scaled d x : ℕ) : ℤ) := by
    apply rhe_unique
    · simp only [Int.cast_natCast]; exact hle.trans e1
    · simp only [Int.cast_natCast]
      intro he
      have := e2 (le_antisymm e1 (by rw [← he]; exact hle))
      rw [← scaled_cast d hx] at this
      exact this
  unfold scaled at key ⊢
  simp only
  rw [key, Int.toNat_natCast]

/-! ## Digits -/

theorem digitChar_toNat {d : ℕ} (h : d < 10) : (digitChar d).toNat = 48 + d := by
  interval_cases d <;> decide

theorem digitChar_isDigit {d : ℕ} (h : d < 10) : isDigit (digitChar d) = true := by
  interval_cases d <;> decide

theorem natChars_digits (n : ℕ) : ∀ c ∈ natChars n, isDigit c = true := by
  induction n using Nat.strong_induction_on with
  | _ n ih =>
    unfold natChars
    by_cases h : n < 10
    · rw [if_pos h]
      intro c hc
      rw [List.mem_singleton.1 hc]
      exact digitChar_isDigit h
    · rw [if_neg h]
      intro c hc
      rcases List.mem_append.1 hc with hc | hc
      · exact ih (n / 10) (by omega) c hc
      · rw [List.mem_singleton.1 hc]
        exact digitChar_isDigit (by omega)

theorem natChars_ne_nil (n : ℕ) : natChars n ≠ [] := by
  unfold natChars
  split_ifs <;> simp

theorem fixChars_digits (d m : ℕ) : ∀ c ∈ fixChars d m, isDigit c = true := by
  induction d generalizing m with
  | zero => intro c hc; cases hc
  | succ d ih =>
    intro c hc
    rcases List.mem_append.1 hc with hc | hc
    · exact ih _ c hc
    · rw [List.mem_singleton.1 hc]
      exact digitChar_isDigit (by omega)

theorem fixChars_length (d m : ℕ) : (fixChars d m).length = d := by
  induction d generalizing m with
  | zero => rfl
  | succ d ih => simp [fixChars, ih]

theorem digitsVal_append (a b : List Char) :
    digitsVal (a ++ b) = digitsVal a * 10 ^ b.length + digitsVal b := by
  have gen : ∀ (b : List Char) (x : ℕ), b.foldl (fun a c => 10 * a + (c.toNat - 48)) x
      = x * 10 ^ b.length + digitsVal b := by
    intro b
    induction b with
    | nil => intro x; simp [digitsVal]
    | cons c b ih =>
      intro x
      unfold digitsVal
      rw [List.foldl_cons, List.foldl_cons, ih, ih]
      simp only [List.length_cons, pow_succ]
      ring
  unfold digitsVal
  rw [List.foldl_append, gen]
  rfl

theorem digitsVal_single {d : ℕ} (h : d < 10) : digitsVal [digitChar d] = d := by
  simp [digitsVal, digitChar_toNat h]

theorem digitsVal_natChars (n : ℕ) : digitsVal (natChars n) = n := by
  induction n using Nat.strong_induction_on with
  | _ n ih =>
    unfold natChars
    by_cases h : n < 10
    · rw [if_pos h]; exact digitsVal_single h
    · rw [if_neg h, digitsVal_append, ih (n / 10) (by omega), digitsVal_single (by omega)]
      simp
      omega

theorem digitsVal_fixChars (d m : ℕ) (h : m < 10 ^ d) : digitsVal (fixChars d m) = m := by
  induction d generalizing m with
  | zero => simp at h; subst h; rfl
  | succ d ih =>
    rw [fixChars, digitsVal_append, ih (m / 10) (by rw [pow_succ] at h; omega),
      digitsVal_single (by omega)]
    simp
    omega

theorem digitsVal_dec (d m : ℕ) :
    digitsVal (natChars (m / 10 ^ d) ++ fixChars d (m % 10 ^ d)) = m := by
  rw [digitsVal_append, digitsVal_natChars, fixChars_length,
    digitsVal_fixChars _ _ (Nat.mod_lt _ (by positivity))]
  exact Nat.div_add_mod' m (10 ^ d)

/-! ## Scanning -/

theorem takeWhile_digits {a r : List Char} (ha : ∀ c ∈ a, isDigit c = true)
    (hr : ∀ c, r.head? = some c → isDigit c = false) :
    (a ++ r).takeWhile isDigit = a ∧ (a ++ r).dropWhile isDigit = r := by
  induction a with
  | nil =>
    cases r with
    | nil => simp
    | cons c r => simp [hr c rfl]
  | cons c a ih =>
    have := ih fun c hc => ha c (List.mem_cons_of_mem _ hc)
    simp [ha c (by simp), this]

theorem natChars_cons (n : ℕ) : ∃ c r, natChars n = c :: r ∧ isDigit c = true := by
  cases h : natChars n with
  | nil => exact absurd h (natChars_ne_nil n)
  | cons c r => exact ⟨c, r, rfl, natChars_digits n c (by rw [h]; simp)⟩

theorem isDigit_ne {c : Char} (h : isDigit c = true) (x : Char) (hx : isDigit x = false) : c ≠ x := by
  rintro rfl; rw [h] at hx; cases hx

/-- Scanning an optional sign and a decimal. -/
theorem scan_dec (F : FloatFormat) (sg : List Char) (hs : sg = [] ∨ sg = ['-'] ∨ sg = ['+'])
    (d m : ℕ) (rest : List Char) (hr : ∀ c, rest.head? = some c → isDigit c = false) :
    scanFloat F (sg ++ decChars d m ++ rest) =
      .ok (⟨decide (sg = ['-']), F.rnd ((m : ℝ) / 10 ^ d)⟩, rest) := by
  obtain ⟨c, r, hc, hd⟩ := natChars_cons (m / 10 ^ d)
  have n1 : c ≠ '-' := isDigit_ne hd _ (by decide)
  have n2 : c ≠ '+' := isDigit_ne hd _ (by decide)
  have hbody : (if (sg ++ decChars d m ++ rest).head? = some '-' ∨
        (sg ++ decChars d m ++ rest).head? = some '+' then (sg ++ decChars d m ++ rest).tail
      else sg ++ decChars d m ++ rest) =
      natChars (m / 10 ^ d) ++ ('.' :: (fixChars d (m % 10 ^ d) ++ rest)) := by
    rcases hs with rfl | rfl | rfl
    · simp [decChars, hc, n1, n2]
    · simp [decChars]
    · simp [decChars]
  have hneg : (decide ((sg ++ decChars d m ++ rest).head? = some '-')) = decide (sg = ['-']) := by
    rcases hs with rfl | rfl | rfl
    · simp [decChars, hc, n1]
    · simp
    · simp
  obtain ⟨t1, t2⟩ := takeWhile_digits (natChars_digits (m / 10 ^ d))
    (r := '.' :: (fixChars d (m % 10 ^ d) ++ rest)) (by
      intro c hc; simp at hc; subst hc; decide)
  obtain ⟨t3, t4⟩ := takeWhile_digits (fixChars_digits d (m % 10 ^ d)) hr
  unfold scanFloat
  simp only [hbody, hneg, t1, t2, List.head?_cons, if_true, List.tail_cons, t3, t4, natChars_ne_nil,
    false_and, if_false, digitsVal_dec, fixChars_length]

theorem parseFloat_fmt (F : FloatFormat) (d : ℕ) (x : Flt) :
    parseFloat F (fmtFloat d x) = .ok ⟨x.neg, F.rnd ((scaled d x : ℝ) / 10 ^ d)⟩ := by
  have := scan_dec F (if x.neg then ['-'] else []) (by cases x.neg <;> simp) d (scaled d x) [] (by simp)
  rw [List.append_nil] at this
  unfold parseFloat fmtFloat
  rw [this]
  simp only [py_bind, if_true]
  cases x.neg <;> rfl

theorem parseComplex_fmt (F : FloatFormat) (d : ℕ) (z : Flt × Flt) :
    parseComplex F (fmtComplex d z) = .ok (⟨z.1.neg, F.rnd ((scaled d z.1 : ℝ) / 10 ^ d)⟩,
      ⟨z.2.neg, F.rnd ((scaled d z.2 : ℝ) / 10 ^ d)⟩) := by
  have h2 := scan_dec F [if z.2.neg then '-' else '+'] (by cases z.2.neg <;> simp) d (scaled d z.2)
    ['j'] (by intro c hc; simp at hc; subst hc; decide)
  have h1 := scan_dec F (if z.1.neg then ['-'] else []) (by cases z.1.neg <;> simp) d (scaled d z.1)
    ([if z.2.neg then '-' else '+'] ++ decChars d (scaled d z.2) ++ ['j']) (by
      intro c hc; simp at hc; subst hc; cases z.2.neg <;> decide)
  unfold parseComplex fmtComplex fmtFloat
  have e : ((if z.1.neg = true then ['-'] else []) ++ decChars d (scaled d z.1) ++
      (if z.2.neg = true then '-' else '+') :: decChars d (scaled d z.2) ++ ['j']) =
      ((if z.1.neg = true then ['-'] else []) ++ decChars d (scaled d z.1) ++
      ([if z.2.neg = true then '-' else '+'] ++ decChars d (scaled d z.2) ++ ['j'])) := by simp
  rw [e, h1]
  simp only [py_bind]
  rw [h2, if_neg (by simp), if_neg (by
    have := List.length_pos_of_ne_nil (natChars_ne_nil (scaled d z.2 / 10 ^ d))
    intro e
    have := congrArg List.length e
    simp [decChars] at this)]
  have hh : ([if z.2.neg = true then '-' else '+'] ++ decChars d (scaled d z.2) ++ ['j']).head? = some '+' ∨
      ([if z.2.neg = true then '-' else '+'] ++ decChars d (scaled d z.2) ++ ['j']).head? = some '-' := by
    cases z.2.neg <;> simp
  rw [if_pos hh]
  simp only [py_bind, if_true]
  cases z.1.neg <;> cases z.2.neg <;> rfl

theorem parseInt_natChars (n : ℕ) : parseInt (natChars n) = .ok (n : ℤ) := by
  unfold parseInt
  rw [if_pos ⟨natChars_ne_nil n, by rw [List.all_eq_true]; exact natChars_digits n⟩,
    digitsVal_natChars]

theorem searchDigits_natChars (a : List Char) (n : ℕ) (r : List Char)
    (ha : ∀ c ∈ a, isDigit c = false) (hr : ∀ c, r.head? = some c → isDigit c = false) :
    searchDigits (a ++ natChars n ++ r) = .ok (natChars n) := by
  have h1 : (a ++ natChars n ++ r).dropWhile (fun c => !isDigit c) = natChars n ++ r := by
    induction a with
    | nil =>
      obtain ⟨c, s, hc, hd⟩ := natChars_cons n
      simp [hc, hd]
    | cons c a ih =>
      have := ih fun c hc => ha c (List.mem_cons_of_mem _ hc)
      simp [ha c (by simp)] at this ⊢
      exact this
  unfold searchDigits
  simp only [h1, (takeWhile_digits (natChars_digits n) hr).1, natChars_ne_nil, if_false]

/-! ## Words and lines -/

/-- No character is white space. -/
def Solid (w : List Char) : Prop := ∀ c ∈ w, isSpace c = false

theorem solid_of_digits {w : List Char} (h : ∀ c ∈ w, isDigit c = true) : Solid w := by
  intro c hc
  have := h c hc
  unfold isDigit at this
  unfold isSpace
  simp only [Bool.and_eq_true, decide_eq_true_eq] at this
  have h32 : c ≠ ' ' := by rintro rfl; revert this; decide
  simp [h32]
  omega

theorem solid_append {a b : List Char} (ha : Solid a) (hb : Solid b) : Solid (a ++ b) := by
  intro c hc
  rcases List.mem_append.1 hc with h | h
  · exact ha c h
  · exact hb c h

theorem solid_dec (d m : ℕ) : Solid (decChars d m) := by
  unfold decChars
  refine solid_append (solid_of_digits (natChars_digits _)) ?_
  intro c hc
  rcases List.mem_cons.1 hc with rfl | h
  · decide
  · exact solid_of_digits (fixChars_digits _ _) c h

theorem solid_fmtFloat (d : ℕ) (x : Flt) : Solid (fmtFloat d x) := by
  unfold fmtFloat
  refine solid_append ?_ (solid_dec _ _)
  cases x.neg <;> intro c hc <;> simp at hc
  subst hc; decide

theorem solid_fmtComplex (d : ℕ) (z : Flt × Flt) : Solid (fmtComplex d z) := by
  unfold fmtComplex
  refine solid_append (solid_append (solid_fmtFloat _ _) ?_) ?_
  · intro c hc
    rcases List.mem_cons.1 hc with rfl | h
    · cases z.2.neg <;> decide
    · exact solid_dec _ _ c h
  · intro c hc; simp at hc; subst hc; decide

theorem wordsAux_solid {w : List Char} (h : Solid w) (cur rest : List Char) :
    wordsAux cur (w ++ rest) = wordsAux (cur ++ w) rest := by
  induction w generalizing cur with
  | nil => simp
  | cons c w ih =>
    rw [List.cons_append, wordsAux, if_neg (by rw [h c (by simp)]; simp),
      ih (fun c hc => h c (List.mem_cons_of_mem _ hc))]
    simp

theorem words_word {w : List Char} (h : Solid w) (hne : w ≠ []) {s : Char} (hs : isSpace s = true)
    (rest : List Char) : wordsAux [] (w ++ s :: rest) = w :: wordsAux [] rest := by
  rw [wordsAux_solid h, List.nil_append, wordsAux, if_pos hs, if_neg hne]

theorem words_space {s : Char} (hs : isSpace s = true) (rest : List Char) :
    wordsAux [] (s :: rest) = wordsAux [] rest := by
  rw [wordsAux, if_pos hs, if_pos rfl]

/-- A complete line. -/
def IsLine (l : List Char) : Prop := ∃ w, l = w ++ ['\n'] ∧ '\n' ∉ w

theorem linesAux_line {w : List Char} (h : '\n' ∉ w) (cur rest : List Char) :
    linesAux cur (w ++ '\n' :: rest) = (cur ++ w ++ ['\n']) :: linesAux [] rest := by
  induction w generalizing cur with
  | nil => simp [linesAux]
  | cons c w ih =>
    have hc : c ≠ '\n' := fun e => h (by simp [e])
    rw [List.cons_append, linesAux, if_neg hc, ih (fun hm => h (List.mem_cons_of_mem _ hm))]
    simp

theorem lines_flatten (L : List (List Char)) (h : ∀ l ∈ L, IsLine l) : lines L.flatten = L := by
  unfold lines
  induction L with
  | nil => rfl
  | cons l L ih =>
    obtain ⟨w, rfl, hw⟩ := h l (by simp)
    rw [List.flatten_cons, List.append_assoc, List.singleton_append, linesAux_line hw,
      ih fun l hl => h l (List.mem_cons_of_mem _ hl)]
    simp

theorem solid_no_newline {w : List Char} (h : Solid w) : '\n' ∉ w := by
  intro hm
  have := h _ hm
  revert this; decide

end QMix.IO
