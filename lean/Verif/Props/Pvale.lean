import Verif.Model.Pvale
import Verif.Lemmas.Terminal
import Verif.Lemmas.RespPrint

/-!
# C195: numbers printed with exponents
-/

namespace QMix.Spec

/-- The number that a text such as `"  -1.2e-03"` stands for: a decimal number, the letter `e`, a sign and digits. -/
noncomputable def expNumeral (t : List Char) : Option ℝ :=
  match t.dropWhile (· != 'e') with
  | 'e' :: sg :: ds =>
    if ds ≠ [] ∧ ds.all digit = true then
      match numeral (t.takeWhile (· != 'e')) with
      | some m => if sg = '+' then some (m * 10 ^ digitsNum ds) else if sg = '-' then some (m / 10 ^ digitsNum ds) else none
      | none => none
    else none
  | _ => none

end QMix.Spec

namespace QMix.Term

open QMix.IO QMix.Spec

theorem dec_no_e (d m : ℕ) : 'e' ∉ decChars d m := by
  unfold decChars
  rw [List.mem_append, List.mem_cons]
  rintro (h | h | h)
  · exact absurd (natChars_digits _ _ h) (by decide)
  · exact absurd h (by decide)
  · exact absurd (fixChars_digits _ _ _ h) (by decide)

theorem expNumeral_text {a : List Char} (ha : 'e' ∉ a) {m : ℝ} (hm : numeral a = some m) (e : ℤ) :
    expNumeral (a ++ expoText e) = some (m * 10 ^ e) := by
  obtain ⟨x1, x2, x3⟩ := RespPrint.exponent_digits e.natAbs
  have hall : ∀ c ∈ a, (c != 'e') = true := fun c hc => by
    rw [bne_iff_ne]
    rintro rfl
    exact ha hc
  have h1 : (a ++ expoText e).dropWhile (· != 'e') = expoText e := by
    rw [List.dropWhile_append_of_pos hall]
    rfl
  have h2 : (a ++ expoText e).takeWhile (· != 'e') = a := by
    rw [List.takeWhile_append_of_pos hall]
    simp [expoText]
  unfold expNumeral
  rw [h1, h2]
  have hc : ((if e.natAbs < 10 then ['0'] else []) ++ natChars e.natAbs) ≠ [] ∧
      ((if e.natAbs < 10 then ['0'] else []) ++ natChars e.natAbs).all digit = true := by
    refine ⟨fun h => ?_, x2⟩
    rw [h] at x1
    simp at x1
  unfold expoText
  simp only [if_pos hc, hm, x3]
  by_cases he : e < 0
  · simp only [if_pos he]
    rw [if_neg (by decide), if_pos trivial]
    congr 1
    rw [div_eq_mul_inv, ← zpow_natCast, ← zpow_neg]
    congr 2
    omega
  · simp only [if_neg he]
    rw [if_pos trivial]
    congr 1
    rw [← zpow_natCast]
    congr 2
    omega

/-- The printed number in terms of the mantissa. -/
noncomputable def expVal (d : ℕ) (x : Flt) : ℝ := fmtVal d ⟨x.neg, x.mag / 10 ^ expoOf d x.mag⟩ * 10 ^ expoOf d x.mag

theorem pad_no_e {w : ℕ} {t : List Char} (h : 'e' ∉ t) : 'e' ∉ padLeft w t := by
  unfold padLeft
  simp [h]

theorem float_no_e (d : ℕ) (x : Flt) : 'e' ∉ fmtFloat d x := by
  unfold fmtFloat
  rw [List.mem_append]
  rintro (h | h)
  · revert h; cases x.neg <;> simp
  · exact dec_no_e _ _ h

theorem signed_no_e (d : ℕ) (x : Flt) : 'e' ∉ fmtSigned 0 d x := by
  apply pad_no_e
  rw [List.mem_cons]
  rintro (h | h)
  · revert h; cases x.neg <;> simp
  · exact dec_no_e _ _ h

theorem read_exp (w d : ℕ) (x : Flt) : expNumeral (padLeft w (fmtExp d x)) = some (expVal d x) := by
  unfold fmtExp expVal
  have : padLeft w (fmtFloat d ⟨x.neg, x.mag / 10 ^ expoOf d x.mag⟩ ++ expoText (expoOf d x.mag)) =
      padLeft (w - (expoText (expoOf d x.mag)).length) (fmtFloat d ⟨x.neg, x.mag / 10 ^ expoOf d x.mag⟩) ++
        expoText (expoOf d x.mag) := by
    unfold padLeft
    rw [List.length_append, List.append_assoc, Nat.add_comm, Nat.sub_add_eq]
  rw [this]
  exact expNumeral_text (pad_no_e (float_no_e _ _)) (numeral_fmt _ _ _) _

theorem read_signed (d : ℕ) (x : Flt) : expNumeral (fmtExpSigned d x) = some (expVal d x) :=
  expNumeral_text (signed_no_e _ _) (numeral_signed _ _ _) _

/-- The printed number differs from the value by at most half a unit of its last digit. -/
theorem expVal_near (d : ℕ) {x : Flt} (h : 0 ≤ x.mag) : |expVal d x - x.toReal| ≤ 5 / 10 ^ (d + 1) * |expVal d x| := by
  set e := expoOf d x.mag with he
  have hp : (0 : ℝ) < 10 ^ e := by positivity
  have hm : 0 ≤ x.mag / 10 ^ e := by positivity
  have hn := fmt_near d (x := ⟨x.neg, x.mag / 10 ^ e⟩) hm
  have ht : x.toReal = (Flt.toReal ⟨x.neg, x.mag / 10 ^ e⟩) * 10 ^ e := by
    unfold Flt.toReal
    cases x.neg <;> simp <;> field_simp
  have hv : expVal d x = fmtVal d ⟨x.neg, x.mag / 10 ^ e⟩ * 10 ^ e := rfl
  rw [hv, ht, ← sub_mul, abs_mul, abs_mul, abs_of_pos hp, ← mul_assoc]
  refine mul_le_mul_of_nonneg_right ?_ hp.le
  by_cases h0 : x.mag = 0
  · have hs : scaled d ⟨x.neg, x.mag / 10 ^ e⟩ = 0 := by
      unfold scaled
      have := roundHalfEven_intCast 0
      push_cast at this
      simp only [h0, zero_div, zero_mul, this]
      rfl
    have z1 : fmtVal d ⟨x.neg, x.mag / 10 ^ e⟩ = 0 := by
      unfold fmtVal
      rw [hs]
      simp
    have z2 : Flt.toReal ⟨x.neg, x.mag / 10 ^ e⟩ = 0 := by
      unfold Flt.toReal
      simp [h0]
    rw [z1, z2]
    simp
  · have hX : 0 < x.mag := lt_of_le_of_ne h (Ne.symm h0)
    obtain ⟨m1, -⟩ := RespPrint.mantissa hX d e (by rw [he]; unfold expoOf; rw [if_neg h0])
    have hge : 1 ≤ |fmtVal d ⟨x.neg, x.mag / 10 ^ e⟩| := by
      rw [RespPrint.fmtVal_abs, le_div_iff₀ (by positivity), one_mul]
      unfold scaled
      have : (0 : ℤ) ≤ roundHalfEven (x.mag / 10 ^ e * 10 ^ d) := le_trans (by positivity) m1
      have h2 : ((roundHalfEven (x.mag / 10 ^ e * 10 ^ d)).toNat : ℤ) = roundHalfEven (x.mag / 10 ^ e * 10 ^ d) := Int.toNat_of_nonneg this
      have h3 : (10 : ℤ) ^ d ≤ ((roundHalfEven (x.mag / 10 ^ e * 10 ^ d)).toNat : ℤ) := by rw [h2]; exact m1
      exact_mod_cast h3
    refine hn.trans ?_
    have : (0 : ℝ) ≤ 5 / 10 ^ (d + 1) := by positivity
    nlinarith

/-! ## C195 -/

/-- C195 for real numbers: the text between the name and the units, read as a number, is the value up to 5 percent (two digits). -/
theorem C195_real (name units comment : List Char) (x : Flt) (h : 0 ≤ x.mag) :
    ∃ t w rest, pvale exp7 name (.real x) units comment none = .ok ('\t' :: padRight 15 name ++ " = ".toList ++ t ++ rest) ∧
      expNumeral t = some w ∧ |w - x.toReal| ≤ |w| / 20 := by
  have hn := expVal_near 1 h
  refine ⟨_, _, padRight 15 (if units = [] then [] else "\t\t[".toList ++ units ++ [']']) ++
    (if comment = [] then [] else "\t\t# ".toList ++ comment) ++ ['\n'], ?_, read_exp 7 1 x, hn.trans (by norm_num; linarith)⟩
  unfold pvale cprint
  simp only [List.append_assoc, exp7]

/-- C195 for complex numbers: the text consists of two numbers, of which the second one has a sign, and the letter `j`; they are the real and
the imaginary part up to 5 percent. -/
theorem C195_complex (name units comment : List Char) (z : Flt × Flt) (h1 : 0 ≤ z.1.mag) (h2 : 0 ≤ z.2.mag) :
    ∃ a b v w rest, pvale exp7 name (.cplx z) units comment none =
        .ok ('\t' :: padRight 15 name ++ " = ".toList ++ a ++ b ++ 'j' :: rest) ∧
      (b.head? = some '+' ∨ b.head? = some '-') ∧ expNumeral a = some v ∧ expNumeral b = some w ∧
      |v - z.1.toReal| ≤ |v| / 20 ∧ |w - z.2.toReal| ≤ |w| / 20 := by
  have hn1 := expVal_near 1 h1
  have hn2 := expVal_near 1 h2
  refine ⟨padLeft (7 - (fmtExpSigned 1 z.2 ++ ['j']).length) (fmtExp 1 z.1), fmtExpSigned 1 z.2, _, _,
    padRight 15 (if units = [] then [] else "\t[".toList ++ units ++ [']']) ++
    (if comment = [] then [] else "\t\t# ".toList ++ comment) ++ ['\n'], ?_, ?_, read_exp _ 1 z.1, read_signed 1 z.2,
    hn1.trans (by norm_num; linarith), hn2.trans (by norm_num; linarith)⟩
  · have : exp7 (.cplx z) = padLeft (7 - (fmtExpSigned 1 z.2 ++ ['j']).length) (fmtExp 1 z.1) ++ fmtExpSigned 1 z.2 ++ ['j'] := by
      unfold exp7 padLeft
      simp only [List.append_assoc, List.length_append]
      congr 2
      omega
    unfold pvale cprint
    simp only [this, List.append_assoc, List.cons_append, List.nil_append]
  · unfold fmtExpSigned fmtSigned padLeft
    simp only [Nat.zero_sub, List.replicate_zero, List.nil_append, List.cons_append, List.head?_cons]
    cases z.2.neg <;> simp

/-- A third with a minus sign. -/
example : ∃ t w rest, pvale exp7 "x".toList (.real ⟨true, 1 / 3⟩) "V".toList [] none =
      .ok ('\t' :: padRight 15 "x".toList ++ " = ".toList ++ t ++ rest) ∧ expNumeral t = some w ∧ |w + 1 / 3| ≤ |w| / 20 := by
  obtain ⟨t, w, rest, h1, h2, h3⟩ := C195_real "x".toList "V".toList [] ⟨true, 1 / 3⟩ (by norm_num)
  refine ⟨t, w, rest, h1, h2, ?_⟩
  simpa [Flt.toReal] using h3

example := C195_complex "zt".toList "ohm".toList [] (⟨false, 1 / 3⟩, ⟨true, 1 / 4⟩) (by norm_num) (by norm_num)

end QMix.Term
