import Verif.Props.HbPrint3
import Verif.Lemmas.RespPrint

/-!
# C129: the errors as printed
-/

namespace QMix.HbPrint

open QMix Np Fl HB Qt Spec Results Report Props

variable {N : ℕ}

open Classical in
/-- `'{:.2E}'.format(x)`, `qmix/harmonic_balance.py:275`: large letters for NaN and infinity, too. -/
noncomputable def sci2 (x : Flt) : List Char :=
  match x with
  | none => "NAN".toList
  | some x => if x = ⊤ then "INF".toList else if x = ⊥ then "-INF".toList else RespPrint.fmtSci 2 x.toReal

/-! ## Specification -/

/-- The line of a check of one signal as it is read: tone, harmonic, the greatest relative error to three digits, and the verdict. -/
def CheckText (t : List Char) (f p : ℕ) (x : Fin N → Option EReal) (answer : List Char) : Prop :=
  ∃ a b c, t = "\tf:".toList ++ a ++ ",\tp:".toList ++ b ++ ",\tmax rel. error: ".toList ++ c ++ ",\tPass? ".toList ++ answer ∧
    Count a f ∧ Count b p ∧ ((∃ i, x i = none) → c = "NAN".toList) ∧
    ((∀ i, x i ≠ none) → (∃ i, x i = some ⊤) → c = "INF".toList) ∧
    ∀ m : ℝ, (∀ i, x i ≠ none) → IsGreatest {y | ∃ i, x i = some y} (m : EReal) → Sci c m 2

/-! ## C129 -/

theorem sci2_nl (x : Flt) : '\n' ∉ sci2 x := by
  unfold sci2
  split
  · decide
  · split_ifs
    · decide
    · decide
    · exact RespPrint.fmtSci_nl 2 _

theorem check_text {t : List Char} {f p : ℕ} {x : Fin N → Option EReal} {answer : List Char} (h : CheckLine sci2 t f p x answer) :
    CheckText t f p x answer := by
  obtain ⟨a, b, mx, ht, ha, hb, h1, h2⟩ := h
  refine ⟨a, b, sci2 mx, ht, ha, hb, fun hn => ?_, fun hn ⟨i, hi⟩ => ?_, fun m hn hm => ?_⟩
  · rw [h1 hn]
    rfl
  · obtain ⟨m, rfl, hm⟩ := h2 hn
    have : m = ⊤ := top_le_iff.1 (hm.2 ⟨i, hi⟩)
    rw [this]
    unfold sci2
    dsimp only
    rw [if_pos rfl]
  · obtain ⟨m', rfl, hm'⟩ := h2 hn
    rw [IsGreatest.unique hm' hm]
    unfold sci2
    dsimp only
    rw [if_neg (EReal.coe_ne_top m), if_neg (EReal.coe_ne_bot m), EReal.toReal_coe]
    exact RespPrint.fmtSci_sci 2 m

/-- C129 with the format of the code: if every signal passes, each line shows the greatest relative error to three digits. -/
theorem C129_pass_text (vj : ℕ → ℕ → Arr (Fin N)) (hN : 0 < N) (cct : HCct N) (resp : ℝ → ℂ) (nb : NumB) (hV : Valid cct.toCct nb)
    (stop : ℝ) (hpass : ∀ f p, 1 ≤ f → f ≤ cct.numF → 1 ≤ p → p ≤ cct.numP →
      Passes (fun i => relError (resid cct resp nb vj f p i) (vj f p i)) stop) :
    (checkHbError sci2 vj cct resp nb stop).2 = none ∧
    ∃ R, linesOf (checkHbError sci2 vj cct resp nb stop).1 = "Double-checking harmonic balance error:".toList :: R ++ [[]] ∧
      R.length = cct.numF * cct.numP ∧ ∀ f p, 1 ≤ f → f ≤ cct.numF → 1 ≤ p → p ≤ cct.numP → ∃ t,
        R[(f - 1) * cct.numP + (p - 1)]? = some t ∧
        CheckText t f p (fun i => relError (resid cct resp nb vj f p i) (vj f p i)) "Yes".toList := by
  obtain ⟨h1, R, h2, h3, h4⟩ := C129_pass sci2 sci2_nl vj hN cct resp nb hV stop hpass
  refine ⟨h1, R, h2, h3, fun f p f1 f2 p1 p2 => ?_⟩
  obtain ⟨t, ht, hc⟩ := h4 f p f1 f2 p1 p2
  exact ⟨t, ht, check_text hc⟩

/-- C129 with the format of the code, if a signal does not pass: the line of the first such signal comes last. -/
theorem C129_fail_text (vj : ℕ → ℕ → Arr (Fin N)) (hN : 0 < N) (cct : HCct N)
    (resp : ℝ → ℂ) (nb : NumB) (hV : Valid cct.toCct nb) (stop : ℝ) (f p : ℕ) (f1 : 1 ≤ f) (f2 : f ≤ cct.numF) (p1 : 1 ≤ p)
    (p2 : p ≤ cct.numP) (hfail : ¬ Passes (fun i => relError (resid cct resp nb vj f p i) (vj f p i)) stop)
    (hpass : ∀ f' p', 1 ≤ f' → f' ≤ cct.numF → 1 ≤ p' → p' ≤ cct.numP → f' < f ∨ f' = f ∧ p' < p →
      Passes (fun i => relError (resid cct resp nb vj f' p' i) (vj f' p' i)) stop) :
    (checkHbError sci2 vj cct resp nb stop).2 = some .assertion ∧
    ∃ R t, linesOf (checkHbError sci2 vj cct resp nb stop).1 = "Double-checking harmonic balance error:".toList :: R ++ [t] ∧
      R.length = (f - 1) * cct.numP + (p - 1) ∧
      (∀ f' p', 1 ≤ f' → f' ≤ cct.numF → 1 ≤ p' → p' ≤ cct.numP → f' < f ∨ f' = f ∧ p' < p → ∃ t,
        R[(f' - 1) * cct.numP + (p' - 1)]? = some t ∧
        CheckText t f' p' (fun i => relError (resid cct resp nb vj f' p' i) (vj f' p' i)) "Yes".toList) ∧
      CheckText t f p (fun i => relError (resid cct resp nb vj f p i) (vj f p i)) "No".toList := by
  obtain ⟨h1, R, t, h2, h3, h4, h5⟩ := C129_fail sci2 sci2_nl vj hN cct resp nb hV stop f p f1 f2 p1 p2 hfail hpass
  refine ⟨h1, R, t, h2, h3, fun f' p' a1 a2 a3 a4 a5 => ?_, check_text h5⟩
  obtain ⟨s, hs, hc⟩ := h4 f' p' a1 a2 a3 a4 a5
  exact ⟨s, hs, check_text hc⟩

/-- A circuit without current and a voltage five times too large: the only line says `8.00E-01` (to three digits) and `No`. -/
example : ∃ R t c, linesOf (checkHbError sci2 (volt1 5) (cct1 1) (fun _ => 0) (.int 1) 0.001).1 =
      "Double-checking harmonic balance error:".toList :: R ++ [t] ∧ (c ++ ",\tPass? No".toList) <:+ t ∧ Sci c 0.8 2 := by
  have hrel : ∀ i, relError (resid (cct1 1) (fun _ => 0) (.int 1) (volt1 5) 1 1 i) (volt1 5 1 1 i) = some ((0.8 : ℝ) : EReal) := by
    intro i
    rw [resid_zero]
    have e : (1 - 5 : ℂ) = -4 := by norm_num
    simp [relError, volt1, cct1, e]
    norm_num
  obtain ⟨-, R, t, h2, -, -, a, b, c, h5, -, -, -, -, h6⟩ := C129_fail_text (volt1 5) one_pos (cct1 1) (fun _ => 0) (.int 1) (cct1_valid 1) 0.001 1 1
    le_rfl le_rfl le_rfl le_rfl (fun h => by
      obtain ⟨y, e1, e2⟩ := h 0
      beta_reduce at e1
      rw [hrel] at e1
      rw [← Option.some.inj e1] at e2
      have e3 : (0.8 : ℝ) < 0.001 := by exact_mod_cast e2
      norm_num at e3) (fun f' p' a1 a2 a3 a4 a5 => by omega)
  refine ⟨R, t, c, h2, ?_, h6 0.8 (fun i => by beta_reduce; rw [hrel]; simp) ⟨⟨0, hrel 0⟩, fun y ⟨i, hi⟩ => ?_⟩⟩
  · rw [h5]
    exact ⟨"\tf:".toList ++ a ++ ",\tp:".toList ++ b ++ ",\tmax rel. error: ".toList, by simp [List.append_assoc]⟩
  · beta_reduce at hi
    rw [hrel] at hi
    exact (Option.some.inj hi).ge

end QMix.HbPrint
