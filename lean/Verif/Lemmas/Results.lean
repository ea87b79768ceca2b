import Verif.Model.Results
import Verif.Lemmas.Files
import Verif.Lemmas.Terminal
import Verif.Lemmas.Figures
import Verif.Spec.Table

/-!
# Lemmas about tables in text files and about writing many files
-/

namespace QMix.Results

open QMix Np Fl IvData IfData Opt Exp Spec Files

/-! ## Cutting a text -/

theorem cutAt_ne (c : Char) (t : List Char) : cutAt c t ≠ [] := by
  cases t with
  | nil => simp [cutAt]
  | cons x xs =>
    unfold cutAt
    split_ifs
    · simp
    · split <;> simp

theorem cutAt_append (c : Char) (a b : List Char) : cutAt c (a ++ c :: b) = cutAt c a ++ cutAt c b := by
  induction a with
  | nil => simp [cutAt]
  | cons x xs ih =>
    by_cases hx : x = c
    · subst hx
      simp [cutAt, ih]
    · simp only [List.cons_append, cutAt, if_neg hx, ih]
      cases h : cutAt c xs with
      | nil => exact absurd h (cutAt_ne c xs)
      | cons w ws => rfl

theorem cutAt_single {c : Char} {t : List Char} (h : c ∉ t) : cutAt c t = [t] := by
  induction t with
  | nil => rfl
  | cons x xs ih =>
    simp only [List.mem_cons, not_or] at h
    rw [cutAt, if_neg (Ne.symm h.1), ih h.2]

theorem cutAt_word {c : Char} {w : List Char} (h : c ∉ w) (r : List Char) : cutAt c (w ++ c :: r) = w :: cutAt c r := by
  rw [cutAt_append, cutAt_single h, List.singleton_append]

/-- A text made of lines has these lines. -/
theorem cutAt_lines (L : List (List Char)) (h : ∀ w ∈ L, '\n' ∉ w) :
    cutAt '\n' (L.flatMap fun w => w ++ ['\n']) = L ++ [[]] := by
  induction L with
  | nil => rfl
  | cons w L ih =>
    rw [List.flatMap_cons, List.append_assoc, List.singleton_append, cutAt_word (h w (by simp)),
      ih fun w hw => h w (by simp [hw])]
    rfl

theorem linesOf_lines (L : List (List Char)) (h : ∀ w ∈ L, '\n' ∉ w) :
    linesOf (L.flatMap fun w => w ++ ['\n']) = L := by
  rw [linesOf, cutAt_lines L h, List.dropLast_concat]

/-- A line made of fields has these fields. -/
theorem fields_commas (L : List (List Char)) (hne : L ≠ []) (h : ∀ w ∈ L, ',' ∉ w) :
    fields (commas L) = L.map fun w => w.dropWhile (· == ' ') := by
  have key : ∀ L : List (List Char), L ≠ [] → (∀ w ∈ L, ',' ∉ w) → ∀ pre : List Char, (pre = [] ∨ pre = [' ']) →
      (cutAt ',' (pre ++ commas L)).map (fun w => w.dropWhile (· == ' ')) = L.map fun w => w.dropWhile (· == ' ') := by
    intro L
    induction L with
    | nil => intro hne; exact absurd rfl hne
    | cons w L ih =>
      intro _ h pre hpre
      have hw : ',' ∉ pre ++ w := by
        have := h w (by simp)
        rcases hpre with rfl | rfl <;> simpa using this
      have hd : (pre ++ w).dropWhile (· == ' ') = w.dropWhile (· == ' ') := by
        rcases hpre with rfl | rfl <;> simp
      cases L with
      | nil =>
        rw [commas, cutAt_single hw, List.map_singleton, hd, List.map_singleton]
      | cons w' L =>
        rw [commas]
        · rw [show pre ++ (w ++ ", ".toList ++ commas (w' :: L)) = (pre ++ w) ++ ',' :: ([' '] ++ commas (w' :: L)) by simp,
            cutAt_word hw, List.map_cons, ih (by simp) (fun w hw => h w (by simp [hw])) [' '] (Or.inr rfl), hd]
          rfl
        · simp
  exact key L hne h [] (Or.inl rfl)

/-! ## Texts of numbers -/

/-- The characters that occur in numbers. -/
def Plain (t : List Char) : Prop := ∀ c ∈ t, IO.isDigit c = true ∨ c ∈ ['.', '-', '+', ' ', 'j', 'n', 'a', 'i', 'f']

theorem plain_append {a b : List Char} (ha : Plain a) (hb : Plain b) : Plain (a ++ b) := fun c hc =>
  (List.mem_append.1 hc).elim (ha c) (hb c)

theorem plain_cons {x : Char} {b : List Char} (ha : x ∈ ['.', '-', '+', ' ', 'j', 'n', 'a', 'i', 'f']) (hb : Plain b) :
    Plain (x :: b) := fun c hc => by
  rcases List.mem_cons.1 hc with rfl | hc
  · exact Or.inr ha
  · exact hb c hc

theorem plain_nil : Plain [] := fun c hc => by simp at hc

theorem plain_dec (d m : ℕ) : Plain (IO.decChars d m) := by
  unfold IO.decChars
  exact plain_append (fun c hc => Or.inl (IO.natChars_digits _ c hc))
    (plain_cons (by simp) fun c hc => Or.inl (IO.fixChars_digits _ _ c hc))

theorem plain_fmtFloat (d : ℕ) (x : IO.Flt) : Plain (IO.fmtFloat d x) := by
  unfold IO.fmtFloat
  refine plain_append ?_ (plain_dec _ _)
  cases x.neg
  · exact plain_nil
  · exact plain_cons (by simp) plain_nil

theorem plain_fmtC (d : ℕ) (z : ℂ) : Plain (fmtC d z) := by
  unfold fmtC IO.fmtComplex
  refine plain_append (plain_append (plain_fmtFloat _ _) (plain_cons ?_ (plain_dec _ _))) (plain_cons (by simp) plain_nil)
  split_ifs <;> simp

theorem plain_pad (w : ℕ) {t : List Char} (h : Plain t) : Plain (Term.padLeft w t) :=
  plain_append (fun c hc => Or.inr (by rw [List.eq_of_mem_replicate hc]; simp)) h

theorem plain_fmt (w d : ℕ) (x : Flt) : Plain (fmt w d x) := by
  unfold fmt
  apply plain_pad
  split
  · intro c hc; right; revert c; decide
  · split_ifs
    · intro c hc; right; revert c; decide
    · intro c hc; right; revert c; decide
    · exact plain_fmtFloat _ _

theorem plain_not {t : List Char} (h : Plain t) {c : Char}
    (hc : IO.isDigit c = false ∧ c ∉ ['.', '-', '+', ' ', 'j', 'n', 'a', 'i', 'f']) : c ∉ t := fun hm => by
  rcases h c hm with h | h
  · rw [hc.1] at h; cases h
  · exact hc.2 h

theorem numeral_trim (t : List Char) : numeral (t.dropWhile (· == ' ')) = numeral t := by
  have : (t.dropWhile (· == ' ')).dropWhile (· == ' ') = t.dropWhile (· == ' ') := by
    induction t with
    | nil => rfl
    | cons c cs ih =>
      by_cases h : c = ' '
      · simpa [List.dropWhile_cons, h] using ih
      · simp [List.dropWhile_cons, h]
  unfold numeral
  rw [this]

theorem signed_toReal (x : ℝ) : (signed x).toReal = x := by
  unfold signed IO.Flt.toReal
  by_cases h : x < 0
  · simp [h, abs_of_neg h]
  · simp [h, abs_of_nonneg (not_lt.1 h)]

theorem shows_fmt (w d : ℕ) (x : ℝ) : Shows (fmt w d (num x)) x d := by
  have : fmt w d (num x) = Term.padLeft w (IO.fmtFloat d (signed x)) := by
    unfold fmt num
    simp
  rw [this]
  refine ⟨_, Term.numeral_fmt w d (signed x), ?_⟩
  have := Term.fmt_near d (x := signed x) (abs_nonneg x)
  rwa [signed_toReal] at this

theorem shows_trim {t : List Char} {x : ℝ} {d : ℕ} (h : Shows t x d) : Shows (t.dropWhile (· == ' ')) x d := by
  unfold Shows
  rw [numeral_trim]
  exact h

theorem showsJ_fmtC (d : ℕ) (z : ℂ) : ShowsJ (fmtC d z) z d := by
  have h1 := Term.fmt_near d (x := signed z.re) (abs_nonneg _)
  have h2 := Term.fmt_near d (x := signed z.im) (abs_nonneg _)
  rw [signed_toReal] at h1 h2
  refine ⟨⟨Term.fmtVal d (signed z.re), Term.fmtVal d (signed z.im)⟩, ⟨IO.fmtFloat d (signed z.re),
    (if (signed z.im).neg then '-' else '+') :: IO.decChars d (IO.scaled d (signed z.im)), rfl, ?_, ?_, ?_⟩, h1, h2⟩
  · split_ifs <;> simp
  · have := Term.numeral_fmt 0 d (signed z.re)
    simpa [Term.padLeft] using this
  · have := Term.numeral_signed 0 d (signed z.im)
    simpa [Term.padLeft, Term.fmtSigned] using this

theorem showsSum_fmt (w d : ℕ) (z : ℂ) :
    ShowsSum (fmt w d (num z.re) ++ " + 1j * (".toList ++ fmt w d (num z.im) ++ [')']) z d := by
  obtain ⟨x, hx, h1⟩ := shows_fmt w d z.re
  obtain ⟨y, hy, h2⟩ := shows_fmt w d z.im
  exact ⟨⟨x, y⟩, ⟨_, _, rfl, hx, hy⟩, h1, h2⟩

theorem dropWhile_fix {t : List Char} (h : t.head? ≠ some ' ') : t.dropWhile (· == ' ') = t := by
  cases t with
  | nil => rfl
  | cons c cs =>
    have : c ≠ ' ' := by simpa using h
    simp [this]

theorem fmtC_head (d : ℕ) (z : ℂ) : (fmtC d z).head? ≠ some ' ' := fun h =>
  absurd (IO.solid_fmtComplex d (signed z.re, signed z.im) ' ' (List.mem_of_mem_head? h)) (by decide)

theorem fmt_nan (w d : ℕ) : (fmt w d none).dropWhile (· == ' ') = "nan".toList := by
  have : ∀ k : ℕ, (List.replicate k ' ' ++ "nan".toList).dropWhile (· == ' ') = "nan".toList := by
    intro k
    induction k with
    | zero => decide
    | succ k ih => simpa [List.replicate_succ, List.dropWhile_cons] using ih
  exact this _

theorem scaledVt_num {r : Zemb.Result} {x : ℝ} (h : r.vt = some x) (c e : ℝ) :
    fmul (scaledVt r c) (num e) = num (x * c * e) := by
  unfold scaledVt
  rw [h, show Zemb.toFlt (some x) = num x from rfl, fmul_num, fmul_num]

theorem scaledVt_nan {r : Zemb.Result} (h : r.vt = none) (c e : ℝ) : fmul (scaledVt r c) (num e) = none := by
  unfold scaledVt
  rw [h, show Zemb.toFlt none = none from rfl, fmul_none_left, fmul_none_left]

/-! ## Writing many files -/

theorem writeAll_cons (cwd : List Name) (folder : List Char) (x : List Char × Py Content) (l : List (List Char × Py Content)) :
    writeAll cwd folder (x :: l) = ((do
      let c ← lift x.2
      save cwd (join folder x.1) c) >>= fun _ => writeAll cwd folder l) := rfl

theorem writeAll_append {cwd : List Name} {folder : List Char} {l1 l2 : List (List Char × Py Content)} {s s' : Disk Content}
    (h : writeAll cwd folder l1 s = (.ok (), s')) : writeAll cwd folder (l1 ++ l2) s = writeAll cwd folder l2 s' := by
  induction l1 generalizing s with
  | nil =>
    obtain rfl : s = s' := (Prod.mk.inj h).2
    rfl
  | cons x l1 ih =>
    rw [List.cons_append, writeAll_cons, bind_run]
    rw [writeAll_cons, bind_run] at h
    split at h
    · rename_i a t ht
      exact ih h
    · cases h

theorem writeAll_err (cwd : List Name) (folder : List Char) (n : List Char) (e : PyErr) (l : List (List Char × Py Content))
    (s : Disk Content) : writeAll cwd folder ((n, .error e) :: l) s = (.error (.py e), s) := rfl

/-- Files with different names are all written, and nothing else changes. -/
theorem writeAll_run (cwd : List Name) (folder : List Char) (l : List (List Char × Content)) (s : Disk Content) (hs : s.Ok)
    (hd : s.dir (place cwd folder))
    (hn : ∀ x ∈ l, '/' ∉ x.1 ∧ x.1 ≠ [] ∧ x.1 ≠ ['.'] ∧ ¬ s.dir (place cwd folder ++ [x.1])) (hu : (l.map Prod.fst).Nodup) :
    ∃ s', writeAll cwd folder (l.map fun x => (x.1, .ok x.2)) s = (.ok (), s') ∧ s'.Ok ∧ s'.dir = s.dir ∧
      (∀ x ∈ l, s'.file (place cwd folder ++ [x.1]) = some x.2) ∧
      ∀ p, (∀ x ∈ l, p ≠ place cwd folder ++ [x.1]) → s'.file p = s.file p := by
  induction l generalizing s with
  | nil => exact ⟨s, rfl, hs, rfl, by simp, by simp⟩
  | cons x l ih =>
    obtain ⟨h1, h2, h3, h4⟩ := hn x (by simp)
    have e := save_run hs cwd h1 h2 h3 x.2 hd h4
    rw [List.map_cons, List.nodup_cons] at hu
    obtain ⟨s', e1, e2, e3, e4, e5⟩ := ih (withFile s (place cwd folder ++ [x.1]) x.2)
      (ok_withFile hs (by rwa [List.dropLast_concat]) h4) hd (fun y hy => hn y (by simp [hy])) hu.2
    refine ⟨s', ?_, e2, e3, ?_, ?_⟩
    · rw [List.map_cons, writeAll_cons]
      exact (bind_run_ok (m := do let c ← lift (.ok x.2); save cwd (join folder x.1) c) e fun _ => _).trans e1
    · intro y hy
      rcases List.mem_cons.1 hy with rfl | hy
      · rw [e5 _ fun z hz h => hu.1 ?_]
        · simp [withFile]
        · have : y.1 = z.1 := by simpa using h
          rw [this]
          exact List.mem_map_of_mem hz
      · exact e4 y hy
    · intro p hp
      rw [e5 p fun y hy => hp y (by simp [hy])]
      exact if_neg (hp x (by simp))

/-! ## Collecting the data -/

theorem gather_ok {data : List Entry} {l : List Point} : gather data = .ok l ↔
    data = l.map Point.e ∧ ∀ q ∈ l, q.e.p.ifs = some q.f ∧ q.e.p.zemb = some q.z := by
  unfold gather
  induction data generalizing l with
  | nil =>
    rw [List.mapM_nil]
    cases l with
    | nil => simp [pure, Except.pure]
    | cons q l => simp [pure, Except.pure]
  | cons e data ih =>
    rw [List.mapM_cons]
    cases hf : e.p.ifs with
    | none =>
      constructor
      · intro h; cases h
      · rintro ⟨h1, h2⟩
        cases l with
        | nil => cases h1
        | cons q l =>
          obtain ⟨rfl, -⟩ := List.cons.inj h1
          rw [(h2 q (by simp)).1] at hf
          cases hf
    | some f =>
      cases hz : e.p.zemb with
      | none =>
        constructor
        · intro h; cases h
        · rintro ⟨h1, h2⟩
          cases l with
          | nil => cases h1
          | cons q l =>
            obtain ⟨rfl, -⟩ := List.cons.inj h1
            rw [(h2 q (by simp)).2] at hz
            cases hz
      | some z =>
        simp only [getOpt, py_bind, bind_ok_iff, pure_ok_iff]
        constructor
        · rintro ⟨q, rfl, l', hl', rfl⟩
          obtain ⟨h1, h2⟩ := ih.1 hl'
          refine ⟨by rw [h1]; rfl, ?_⟩
          intro q hq
          rcases List.mem_cons.1 hq with rfl | hq
          · exact ⟨hf, hz⟩
          · exact h2 q hq
        · rintro ⟨h1, h2⟩
          cases l with
          | nil => cases h1
          | cons q l =>
            obtain ⟨rfl, h5⟩ := List.cons.inj h1
            obtain ⟨h3, h4⟩ := h2 q (by simp)
            obtain rfl : q.f = f := Option.some.inj (h3.symm.trans hf)
            obtain rfl : q.z = z := Option.some.inj (h4.symm.trans hz)
            exact ⟨q, rfl, l, ih.2 ⟨h5, fun q hq => h2 q (by simp [hq])⟩, rfl⟩

/-- The first measurement that lacks something stops the function. -/
theorem gather_err (pre post : List Entry) (e : Entry) (hpre : ∀ x ∈ pre, x.p.ifs ≠ none ∧ x.p.zemb ≠ none) :
    (e.p.ifs = none → gather (pre ++ e :: post) = .error .attribute) ∧
    (e.p.ifs ≠ none → e.p.zemb = none → gather (pre ++ e :: post) = .error .type) := by
  induction pre with
  | nil =>
    unfold gather
    rw [List.nil_append, List.mapM_cons]
    constructor
    · intro h; rw [h]; rfl
    · intro h h'
      obtain ⟨f, hf⟩ := Option.ne_none_iff_exists'.1 h
      rw [hf, h']; rfl
  | cons x pre ih =>
    obtain ⟨h1, h2⟩ := hpre x (by simp)
    obtain ⟨f, hf⟩ := Option.ne_none_iff_exists'.1 h1
    obtain ⟨z, hz⟩ := Option.ne_none_iff_exists'.1 h2
    have step : gather (x :: pre ++ e :: post) = (gather (pre ++ e :: post)).bind fun l => .ok (⟨x, f, z⟩ :: l) := by
      unfold gather
      rw [List.cons_append, List.mapM_cons, hf, hz]
      rfl
    rw [step]
    obtain ⟨i1, i2⟩ := ih fun x hx => hpre x (by simp [hx])
    exact ⟨fun h => by rw [i1 h]; rfl, fun h h' => by rw [i2 h h']; rfl⟩

end QMix.Results
