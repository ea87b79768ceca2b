import Verif.Lemmas.CircuitIO

/-! Saving and reading a whole circuit. -/

namespace QMix.IO

/-! ## Lines -/

theorem words_line1 (f p : ℕ) (x : Flt) :
    words (line1 f p x) = [['f', '='] ++ natChars f ++ [','], ['p', '='] ++ natChars p,
      ['f', 'r', 'e', 'q'], ['='], fmtFloat 4 x, ['x'], natChars p] := by
  have e : line1 f p x = ' ' :: ' ' :: ' ' :: ((['f', '='] ++ natChars f ++ [',']) ++ ' ' ::
      ((['p', '='] ++ natChars p) ++ '\t' :: '\t' :: '\t' :: (['f', 'r', 'e',
          'q'] ++ ' ' :: (['='] ++
      ' ' :: (fmtFloat 4 x ++ ' ' :: (['x'] ++ ' ' :: (natChars p ++ '\n' :: []))))))) := by
    simp [line1]
  have hs : ∀ n, Solid (natChars n) := fun n => solid_of_digits (natChars_digits n)
  have lit : ∀ w : List Char, w.all (fun c => !isSpace c) = true → Solid w := by
    intro w h c hc
    have := List.all_eq_true.1 h c hc
    simpa using this
  have hne : fmtFloat 4 x ≠ [] := by
    unfold fmtFloat decChars; simp
  rw [words, e, words_space (by decide), words_space (by decide), words_space (by decide),
    words_word (solid_append (solid_append (lit _ (by decide)) (hs f)) (lit _ (by decide))) (by simp)
      (by decide),
    words_word (solid_append (lit _ (by decide)) (hs p)) (by simp) (by decide),
    words_space (by decide), words_space (by decide),
    words_word (lit _ (by decide)) (by simp) (by decide),
    words_word (lit _ (by decide)) (by simp) (by decide),
    words_word (solid_fmtFloat _ _) hne (by decide),
    words_word (lit _ (by decide)) (by simp) (by decide),
    words_word (hs p) (natChars_ne_nil p) (by decide)]
  simp [wordsAux]

theorem words_line2 (z : Flt × Flt) :
    words (line2 z) = [['T', 'h', 'e', 'v', '.'], ['v', 'o', 'l', 't', 'a', 'g', 'e', ':'],
        fmtComplex 4 z, ['V'], ['/'],
      ['V', '_', 'g', 'a', 'p']] := by
  have e : line2 z = '\t' :: (['T', 'h', 'e', 'v', '.'] ++ ' ' :: (['v', 'o', 'l', 't', 'a', 'g',
      'e', ':'] ++ '\t' :: '\t' ::
      (fmtComplex 4 z ++ ' ' :: (['V'] ++ ' ' :: (['/'] ++ ' ' :: (['V', '_', 'g', 'a', 'p'] ++
      '\n' :: [])))))) := by
    simp [line2]
  have lit : ∀ w : List Char, w.all (fun c => !isSpace c) = true → Solid w := by
    intro w h c hc
    have := List.all_eq_true.1 h c hc
    simpa using this
  have hne : fmtComplex 4 z ≠ [] := by unfold fmtComplex; simp
  rw [words, e, words_space (by decide), words_word (lit _ (by decide)) (by simp) (by decide),
    words_word (lit _ (by decide)) (by simp) (by decide), words_space (by decide),
    words_word (solid_fmtComplex _ _) hne (by decide),
    words_word (lit _ (by decide)) (by simp) (by decide),
    words_word (lit _ (by decide)) (by simp) (by decide),
    words_word (lit _ (by decide)) (by simp) (by decide)]
  simp [wordsAux]

theorem words_line3 (z : Flt × Flt) :
    words (line3 z) = [['T', 'h', 'e', 'v', '.'], ['i', 'm', 'p', 'e', 'd', 'a', 'n', 'c', 'e',
        ':'], fmtComplex 2 z, ['o', 'h', 'm', 's'], ['/'],
      ['R', '_', 'N']] := by
  have e : line3 z = '\t' :: (['T', 'h', 'e', 'v', '.'] ++ ' ' :: (['i', 'm', 'p', 'e', 'd', 'a',
      'n', 'c', 'e', ':'] ++ '\t' ::
      (fmtComplex 2 z ++ ' ' :: (['o', 'h', 'm', 's'] ++ ' ' :: (['/'] ++ ' ' :: (['R', '_', 'N'] ++
      '\n' :: [])))))) := by
    simp [line3]
  have lit : ∀ w : List Char, w.all (fun c => !isSpace c) = true → Solid w := by
    intro w h c hc
    have := List.all_eq_true.1 h c hc
    simpa using this
  have hne : fmtComplex 2 z ≠ [] := by unfold fmtComplex; simp
  rw [words, e, words_space (by decide), words_word (lit _ (by decide)) (by simp) (by decide),
    words_word (lit _ (by decide)) (by simp) (by decide),
    words_word (solid_fmtComplex _ _) hne (by decide),
    words_word (lit _ (by decide)) (by simp) (by decide),
    words_word (lit _ (by decide)) (by simp) (by decide),
    words_word (lit _ (by decide)) (by simp) (by decide)]
  simp [wordsAux]

/-- The header line with the number of tones. -/
def headF (n : ℕ) : List Char := ['\t', 'N', 'u', 'm', 'b', 'e', 'r', ' ', 'o', 'f', ' ', 't',
    'o', 'n', 'e', 's', ':', ' ', ' ', ' ', ' ', ' '] ++ natChars n ++ ['\n']

/-- The header line with the number of harmonics. -/
def headP (n : ℕ) : List Char := ['\t', 'N', 'u', 'm', 'b', 'e', 'r', ' ', 'o', 'f', ' ', 'h',
    'a', 'r', 'm', 'o', 'n', 'i', 'c', 's', ':', ' '] ++ natChars n ++ ['\n']

theorem words_headF (n : ℕ) :
    words (headF n) = [['N', 'u', 'm', 'b', 'e', 'r'], ['o', 'f'], ['t', 'o', 'n', 'e', 's', ':'],
        natChars n] := by
  have e : headF n = '\t' :: (['N', 'u', 'm', 'b', 'e', 'r'] ++ ' ' :: (['o',
      'f'] ++ ' ' :: (['t', 'o', 'n', 'e', 's', ':'] ++
      ' ' :: ' ' :: ' ' :: ' ' :: ' ' :: (natChars n ++ '\n' :: [])))) := by
    simp [headF]
  have lit : ∀ w : List Char, w.all (fun c => !isSpace c) = true → Solid w := by
    intro w h c hc
    have := List.all_eq_true.1 h c hc
    simpa using this
  rw [words, e, words_space (by decide), words_word (lit _ (by decide)) (by simp) (by decide),
    words_word (lit _ (by decide)) (by simp) (by decide),
    words_word (lit _ (by decide)) (by simp) (by decide), words_space (by decide),
    words_space (by decide), words_space (by decide), words_space (by decide),
    words_word (solid_of_digits (natChars_digits n)) (natChars_ne_nil n) (by decide)]
  simp [wordsAux]

theorem words_headP (n : ℕ) :
    words (headP n) = [['N', 'u', 'm', 'b', 'e', 'r'], ['o', 'f'], ['h', 'a', 'r', 'm', 'o', 'n',
        'i', 'c', 's', ':'], natChars n] := by
  have e : headP n = '\t' :: (['N', 'u', 'm', 'b', 'e', 'r'] ++ ' ' :: (['o',
      'f'] ++ ' ' :: (['h', 'a', 'r', 'm', 'o', 'n', 'i', 'c', 's', ':'] ++
      ' ' :: (natChars n ++ '\n' :: [])))) := by
    simp [headP]
  have lit : ∀ w : List Char, w.all (fun c => !isSpace c) = true → Solid w := by
    intro w h c hc
    have := List.all_eq_true.1 h c hc
    simpa using this
  rw [words, e, words_space (by decide), words_word (lit _ (by decide)) (by simp) (by decide),
    words_word (lit _ (by decide)) (by simp) (by decide),
    words_word (lit _ (by decide)) (by simp) (by decide),
    words_word (solid_of_digits (natChars_digits n)) (natChars_ne_nil n) (by decide)]
  simp [wordsAux]

theorem no_newline_nat (n : ℕ) : '\n' ∉ natChars n :=
  solid_no_newline (solid_of_digits (natChars_digits n))

theorem isLine_headF (n : ℕ) : IsLine (headF n) :=
  ⟨['\t', 'N', 'u', 'm', 'b', 'e', 'r', ' ', 'o', 'f', ' ', 't', 'o', 'n', 'e', 's', ':', ' ',
      ' ', ' ', ' ', ' '] ++ natChars n, by simp [headF], by
    simp [no_newline_nat]⟩

theorem isLine_headP (n : ℕ) : IsLine (headP n) :=
  ⟨['\t', 'N', 'u', 'm', 'b', 'e', 'r', ' ', 'o', 'f', ' ', 'h', 'a', 'r', 'm', 'o', 'n', 'i',
      'c', 's', ':', ' '] ++ natChars n, by simp [headP], by
    simp [no_newline_nat]⟩

theorem isLine_line1 (f p : ℕ) (x : Flt) : IsLine (line1 f p x) :=
  ⟨[' ', ' ', ' ', 'f', '='] ++ natChars f ++ [',', ' ', 'p', '='] ++ natChars p ++ ['\t', '\t',
      '\t', 'f', 'r', 'e', 'q', ' ', '=', ' '] ++
    fmtFloat 4 x ++ [' ', 'x', ' '] ++ natChars p, by simp [line1], by
    simp [no_newline_nat, solid_no_newline (solid_fmtFloat 4 x)]⟩

theorem isLine_line2 (z : Flt × Flt) : IsLine (line2 z) :=
  ⟨['\t', 'T', 'h', 'e', 'v', '.', ' ', 'v', 'o', 'l', 't', 'a', 'g', 'e', ':', '\t',
      '\t'] ++ fmtComplex 4 z ++ [' ', 'V', ' ', '/', ' ', 'V', '_', 'g', 'a', 'p'],
      by simp [line2], by
    simp [solid_no_newline (solid_fmtComplex 4 z)]⟩

theorem isLine_line3 (z : Flt × Flt) : IsLine (line3 z) :=
  ⟨['\t', 'T', 'h', 'e', 'v', '.', ' ', 'i', 'm', 'p', 'e', 'd', 'a', 'n', 'c', 'e', ':',
      '\t'] ++ fmtComplex 2 z ++ [' ', 'o', 'h', 'm', 's', ' ', '/', ' ', 'R', '_', 'N'],
      by simp [line3], by
    simp [solid_no_newline (solid_fmtComplex 2 z)]⟩

/-! ## Circuits given by functions -/

/-- The circuit with entries `fq f`, `v f p`, `z f p`. -/
def mk (F P : ℕ) (fq : ℕ → Flt) (v z : ℕ → ℕ → Flt × Flt) : Circuit :=
  { numF := F, numP := P
    freq := (List.range (F + 1)).map fq
    vt := (List.range (F + 1)).map fun f => (List.range (P + 1)).map (v f)
    zt := (List.range (F + 1)).map fun f => (List.range (P + 1)).map (z f) }

theorem mk_congr {F P : ℕ} {fq fq' : ℕ → Flt} {v v' z z' : ℕ → ℕ → Flt × Flt}
    (h1 : ∀ f, f ≤ F → fq f = fq' f) (h2 : ∀ f p, f ≤ F → p ≤ P → v f p = v' f p)
    (h3 : ∀ f p, f ≤ F → p ≤ P → z f p = z' f p) : mk F P fq v z = mk F P fq' v' z' := by
  unfold mk
  congr 1
  · exact List.map_congr_left fun f hf => h1 f (by simpa [Nat.lt_succ_iff] using hf)
  · refine List.map_congr_left fun f hf => List.map_congr_left fun p hp => ?_
    exact h2 f p (by simpa [Nat.lt_succ_iff] using hf) (by simpa [Nat.lt_succ_iff] using hp)
  · refine List.map_congr_left fun f hf => List.map_congr_left fun p hp => ?_
    exact h3 f p (by simpa [Nat.lt_succ_iff] using hf) (by simpa [Nat.lt_succ_iff] using hp)

theorem pyGet_map {α : Type} {n i : ℕ} (g : ℕ → α) (h : i < n) :
    pyGet ((List.range n).map g) (i : ℤ) = .ok (g i) :=
  pyGet_ok_of_getElem? (pyIndex_nonneg (by omega) (by simpa using h)) (by simp [h])

theorem pySet_map {α : Type} {n i : ℕ} (g : ℕ → α) (x : α) (h : i < n) :
    pySet ((List.range n).map g) (i : ℤ) x = .ok ((List.range n).map (Function.update g i x)) := by
  rw [pySet_eq x (i := i) (by
    have := pyIndex_nonneg (n := ((List.range n).map g).length) (k := (i : ℤ)) (by omega)
      (by simpa using h)
    simpa using this)]
  congr 1
  apply List.ext_getElem?
  intro k
  by_cases hk : k = i
  · subst hk; simp [h]
  · rw [List.getElem?_set_ne (fun e => hk e.symm)]
    by_cases hkn : k < n
    · simp [hkn, hk]
    · simp [hkn]

theorem set2_map {α : Type} {n m i j : ℕ} (g : ℕ → ℕ → α) (x : α) (hi : i < n) (hj : j < m) :
    set2 ((List.range n).map fun f => (List.range m).map (g f)) (i : ℤ) (j : ℤ) x =
      .ok ((List.range n).map fun f => (List.range m).map
        (Function.update g i (Function.update (g i) j x) f)) := by
  unfold set2
  rw [pyGet_map _ hi, py_bind, pySet_map _ _ hj, py_bind, pySet_map _ _ hi]
  congr 1
  refine List.map_congr_left fun f _ => ?_
  by_cases hf : f = i
  · subst hf; simp
  · simp [hf]

theorem get2_map {α : Type} {n m i j : ℕ} (g : ℕ → ℕ → α) (hi : i < n) (hj : j < m) :
    get2 ((List.range n).map fun f => (List.range m).map (g f)) (i : ℤ) (j : ℤ) = .ok (g i j) := by
  unfold get2
  rw [pyGet_map _ hi, py_bind, pyGet_map _ hj]

/-! ## Saving -/

/-- The signals in file order. -/
def sig (F P : ℕ) : List (ℕ × ℕ) :=
  (List.range F).flatMap fun i => (List.range P).map fun j => (i + 1, j + 1)

theorem mem_sig {F P f p : ℕ} : (f, p) ∈ sig F P ↔ (1 ≤ f ∧ f ≤ F) ∧ 1 ≤ p ∧ p ≤ P := by
  simp only [sig, List.mem_flatMap, List.mem_range, List.mem_map, Prod.mk.injEq]
  constructor
  · rintro ⟨i, hi, j, hj, rfl, rfl⟩; omega
  · rintro ⟨h1, h2⟩
    exact ⟨f - 1, by omega, p - 1, by omega, by omega, by omega⟩

/-- The three lines of a signal. -/
noncomputable def block (fq : ℕ → Flt) (v z : ℕ → ℕ → Flt × Flt) (s : ℕ × ℕ) : List (List Char) :=
  [line1 s.1 s.2 (fq s.1), line2 (v s.1 s.2), line3 (z s.1 s.2)]

/-- All lines of the file. -/
noncomputable def allLines (F P : ℕ) (fq : ℕ → Flt) (v z : ℕ → ℕ → Flt × Flt) : List (List Char) :=
  ['E', 'm', 'b', 'e', 'd', 'd', 'i', 'n', 'g', ' ', 'C', 'i', 'r', 'c', 'u', 'i', 't', ':',
      '\n'] :: headF F :: headP P :: (sig F P).flatMap (block fq v z)

theorem pyFor_append {α : Type} {κ : Type} {l : List κ} {body : List α → κ → Py (List α)}
    {g : κ → List α} (h : ∀ k ∈ l, ∀ out, body out k = .ok (out ++ g k)) (out : List α) :
    pyFor l out body = .ok (out ++ l.flatMap g) := by
  induction l generalizing out with
  | nil => simp [pyFor]
  | cons k l ih =>
    rw [pyFor, h k (by simp)]
    simp only
    rw [ih fun k hk => h k (List.mem_cons_of_mem _ hk)]
    simp

theorem pyRange_one (n : ℕ) :
    pyRange 1 ((n : ℤ) + 1) = (List.range n).map fun (i : ℕ) => ((i + 1 : ℕ) : ℤ) := by
  unfold pyRange
  rw [show ((n : ℤ) + 1 - 1).toNat = n by omega]
  exact List.map_congr_left fun i _ => by push_cast; ring

theorem save_mk (F P : ℕ) (fq : ℕ → Flt) (v z : ℕ → ℕ → Flt × Flt) :
    save (mk F P fq v z) = .ok (allLines F P fq v z).flatten := by
  unfold save
  have inner : ∀ f : ℕ, f < F → ∀ out : List Char,
      (pyFor (pyRange 1 ((P : ℤ) + 1)) out fun out p => do
        let freq ← pyGet (mk F P fq v z).freq ((f + 1 : ℕ) : ℤ)
        let vt ← get2 (mk F P fq v z).vt ((f + 1 : ℕ) : ℤ) p
        let zt ← get2 (mk F P fq v z).zt ((f + 1 : ℕ) : ℤ) p
        pure (out ++ line1 ((f + 1 : ℕ) : ℤ).toNat p.toNat freq ++ line2 vt ++ line3 zt)) =
      .ok (out ++ ((List.range P).flatMap fun j => (block fq v z (f + 1, j + 1)).flatten)) := by
    intro f hf out
    rw [pyRange_one]
    have := pyFor_append (l := (List.range P).map fun (i : ℕ) => ((i + 1 : ℕ) : ℤ))
      (body := fun out p => do
        let freq ← pyGet (mk F P fq v z).freq ((f + 1 : ℕ) : ℤ)
        let vt ← get2 (mk F P fq v z).vt ((f + 1 : ℕ) : ℤ) p
        let zt ← get2 (mk F P fq v z).zt ((f + 1 : ℕ) : ℤ) p
        pure (out ++ line1 ((f + 1 : ℕ) : ℤ).toNat p.toNat freq ++ line2 vt ++ line3 zt))
      (g := fun p => (block fq v z (f + 1, p.toNat)).flatten) (by
        intro k hk out
        obtain ⟨j, hj, rfl⟩ := List.mem_map.1 hk
        rw [List.mem_range] at hj
        simp only [mk]
        rw [pyGet_map _ (by omega), py_bind, get2_map _ (by omega) (by omega), py_bind,
          get2_map _ (by omega) (by omega), py_bind]
        simp [block, pure, Except.pure]) out
    rw [this, List.flatMap_map]
    rfl
  have outer := pyFor_append (l := (List.range F).map fun (i : ℕ) => ((i + 1 : ℕ) : ℤ))
    (body := fun out f => pyFor (pyRange 1 (((mk F P fq v z).numP : ℤ) + 1)) out fun out p => do
        let freq ← pyGet (mk F P fq v z).freq f
        let vt ← get2 (mk F P fq v z).vt f p
        let zt ← get2 (mk F P fq v z).zt f p
        pure (out ++ line1 f.toNat p.toNat freq ++ line2 vt ++ line3 zt))
    (g := fun f => (List.range P).flatMap fun j => (block fq v z (f.toNat, j + 1)).flatten) (by
      intro k hk out
      obtain ⟨i, hi, rfl⟩ := List.mem_map.1 hk
      rw [List.mem_range] at hi
      exact inner i hi out)
    (['E', 'm', 'b', 'e', 'd', 'd', 'i', 'n', 'g', ' ', 'C', 'i', 'r', 'c', 'u', 'i', 't', ':',
        '\n'] ++ headF F ++ headP P)
  have e : pyRange 1 (((mk F P fq v z).numF : ℤ) + 1) =
    (List.range F).map fun (i : ℕ) => ((i + 1 : ℕ) : ℤ) := pyRange_one F
  simp only []
  rw [e]
  refine Eq.trans outer ?_
  rw [List.flatMap_map]
  congr 1
  have hb : ∀ L : List (ℕ × ℕ), (L.flatMap (block fq v z)).flatten =
      L.flatMap fun s => (block fq v z s).flatten := by
    intro L
    induction L with
    | nil => rfl
    | cons a L ih => simp [ih]
  unfold allLines
  rw [List.flatten_cons, List.flatten_cons, List.flatten_cons, hb, sig, List.flatMap_assoc]
  simp only [List.flatMap_map, List.append_assoc, Int.toNat_natCast]

theorem lines_all (F P : ℕ) (fq : ℕ → Flt) (v z : ℕ → ℕ → Flt × Flt) :
    lines (allLines F P fq v z).flatten = allLines F P fq v z := by
  apply lines_flatten
  intro l hl
  simp only [allLines, List.mem_cons, List.mem_flatMap] at hl
  rcases hl with rfl | rfl | rfl | ⟨s, _, hs⟩
  · exact ⟨['E', 'm', 'b', 'e', 'd', 'd', 'i', 'n', 'g', ' ', 'C', 'i', 'r', 'c', 'u', 'i', 't',
      ':'], by simp, by simp⟩
  · exact isLine_headF F
  · exact isLine_headP P
  · simp only [block, List.mem_cons, List.not_mem_nil, or_false] at hs
    rcases hs with rfl | rfl | rfl
    · exact isLine_line1 _ _ _
    · exact isLine_line2 _
    · exact isLine_line3 _

/-! ## Reading -/

/-- A number after formatting with `d` decimals and parsing. -/
noncomputable def rd (F : FloatFormat) (d : ℕ) (x : Flt) : Flt :=
  ⟨x.neg, F.rnd ((scaled d x : ℝ) / 10 ^ d)⟩

/-- A complex number after formatting and parsing. -/
noncomputable def rdc (F : FloatFormat) (d : ℕ) (z : Flt × Flt) : Flt × Flt := (rd F d z.1,
    rd F d z.2)

open Classical in
/-- The circuit after the signals in `pre` have been read. -/
noncomputable def part (T : FloatFormat) (F P : ℕ) (fq : ℕ → Flt) (v z : ℕ → ℕ → Flt × Flt)
    (pre : List (ℕ × ℕ)) : Circuit :=
  mk F P (fun f => if ∃ p, (f, p) ∈ pre then rd T 4 (fq f) else zeroFlt)
    (fun f p => if (f, p) ∈ pre then rdc T 4 (v f p) else (zeroFlt, zeroFlt))
    (fun f p => if (f, p) ∈ pre then rdc T 2 (z f p) else (zeroFlt, zeroFlt))

theorem pyGet_of {α : Type} {l : List α} {i : ℕ} {a : α} (h : l[i]? = some a) :
    pyGet l (i : ℤ) = .ok a := by
  have hl : i < l.length := by
    by_contra hc
    rw [List.getElem?_eq_none (by omega)] at h
    cases h
  exact pyGet_ok_of_getElem? (by
    have := pyIndex_nonneg (n := l.length) (k := (i : ℤ)) (by omega) (by omega)
    simpa using this) h

theorem readStep_line1 (T : FloatFormat) {F P : ℕ} (fq : ℕ → Flt) (v z : ℕ → ℕ → Flt × Flt)
    (pre : List (ℕ × ℕ)) (s : ℕ × ℕ) (hf : s.1 ≤ F) (hp : s.2 ≤ P) (data : List (List Char)) (i : ℕ)
    (h0 : data[i]? = some (line1 s.1 s.2 (fq s.1))) (h1 : data[i + 1]? = some (line2 (v s.1 s.2)))
    (h2 : data[i + 2]? = some (line3 (z s.1 s.2))) :
    readStep T data (part T F P fq v z pre) i = .ok (part T F P fq v z (pre ++ [s])) := by
  unfold readStep
  rw [pyGet_of h0, py_bind]
  simp only [words_line1]
  have g0 : pyGet ([['f', '='] ++ natChars s.1 ++ [','], ['p', '='] ++ natChars s.2,
      ['f', 'r', 'e', 'q'], ['='], fmtFloat 4 (fq s.1), ['x'], natChars s.2]) 0 =
      .ok (['f', '='] ++ natChars s.1 ++ [',']) := rfl
  have g1 : pyGet ([['f', '='] ++ natChars s.1 ++ [','], ['p', '='] ++ natChars s.2,
      ['f', 'r', 'e', 'q'], ['='], fmtFloat 4 (fq s.1), ['x'], natChars s.2]) 1 =
      .ok (['p', '='] ++ natChars s.2) := rfl
  have g4 : pyGet ([['f', '='] ++ natChars s.1 ++ [','], ['p', '='] ++ natChars s.2,
      ['f', 'r', 'e', 'q'], ['='], fmtFloat 4 (fq s.1), ['x'], natChars s.2]) 4 =
      .ok (fmtFloat 4 (fq s.1)) := rfl
  have gc : pyGet (['f', '='] ++ natChars s.1 ++ [',']) 0 = .ok 'f' := by
    have : ['f', '='] ++ natChars s.1 ++ [','] = 'f' :: ('=' :: natChars s.1 ++ [',']) := by simp
    rw [this]
    exact pyGet_of (i := 0) rfl
  have s0 : searchDigits (['f', '='] ++ natChars s.1 ++ [',']) = .ok (natChars s.1) :=
    searchDigits_natChars _ _ _ (by decide) (by intro c hc; simp at hc; subst hc; decide)
  have s1 : searchDigits (['p', '='] ++ natChars s.2) = .ok (natChars s.2) := by
    have := searchDigits_natChars ['p', '='] s.2 [] (by decide) (by simp)
    rwa [List.append_nil] at this
  have gv : pyGet [['T', 'h', 'e', 'v', '.'], ['v', 'o', 'l', 't', 'a', 'g', 'e', ':'],
      fmtComplex 4 (v s.1 s.2), ['V'], ['/'],
      ['V', '_', 'g', 'a', 'p']] 2 = .ok (fmtComplex 4 (v s.1 s.2)) := rfl
  have gz : pyGet [['T', 'h', 'e', 'v', '.'], ['i', 'm', 'p', 'e', 'd', 'a', 'n', 'c', 'e', ':'],
      fmtComplex 2 (z s.1 s.2), ['o', 'h', 'm', 's'],
      ['/'], ['R', '_', 'N']] 2 = .ok (fmtComplex 2 (z s.1 s.2)) := rfl
  have d1 : pyGet data ((i : ℤ) + 1) = .ok (line2 (v s.1 s.2)) := by
    have := pyGet_of h1; push_cast at this; exact this
  have d2 : pyGet data ((i : ℤ) + 2) = .ok (line3 (z s.1 s.2)) := by
    have := pyGet_of h2; push_cast at this; exact this
  rw [g0, py_bind, gc, py_bind, if_pos rfl, s0, py_bind, parseInt_natChars, py_bind, g1, py_bind,
      s1,
    py_bind, parseInt_natChars, py_bind, g4, py_bind, parseFloat_fmt, py_bind, d1, py_bind,
    words_line2, gv, py_bind, parseComplex_fmt, py_bind, d2, py_bind, words_line3, gz, py_bind,
    parseComplex_fmt, py_bind]
  simp only [part, mk]
  rw [pySet_map _ _ (by omega), py_bind, set2_map _ _ (by omega) (by omega), py_bind,
    set2_map _ _ (by omega) (by omega), py_bind]
  refine congrArg Except.ok ?_
  refine mk_congr ?_ ?_ ?_
  · intro f _
    by_cases h : f = s.1
    · subst h
      rw [Function.update_self, if_pos ⟨s.2, by simp⟩]
      rfl
    · rw [Function.update_of_ne h]
      have : (∃ p, (f, p) ∈ pre ++ [s]) ↔ ∃ p, (f, p) ∈ pre := by
        constructor
        · rintro ⟨p, hp⟩
          rcases List.mem_append.1 hp with hp | hp
          · exact ⟨p, hp⟩
          · exact absurd (by rw [← List.mem_singleton.1 hp]) h
        · rintro ⟨p, hp⟩; exact ⟨p, by simp [hp]⟩
      by_cases hq : ∃ p, (f, p) ∈ pre
      · rw [if_pos hq, if_pos (this.2 hq)]
      · rw [if_neg hq, if_neg (fun h => hq (this.1 h))]
  · intro f p _ _
    by_cases h : f = s.1
    · subst h
      rw [Function.update_self]
      by_cases h' : p = s.2
      · subst h'
        rw [Function.update_self, if_pos (by simp)]
        rfl
      · rw [Function.update_of_ne h']
        have : ((s.1, p) ∈ pre ++ [s]) ↔ (s.1, p) ∈ pre := by
          rw [List.mem_append, List.mem_singleton]
          constructor
          · rintro (hp | hp)
            · exact hp
            · exact absurd (by rw [← hp]) h'
          · exact Or.inl
        simp only [this]
    · rw [Function.update_of_ne h]
      have : ((f, p) ∈ pre ++ [s]) ↔ (f, p) ∈ pre := by
        rw [List.mem_append, List.mem_singleton]
        constructor
        · rintro (hp | hp)
          · exact hp
          · exact absurd (by rw [← hp]) h
        · exact Or.inl
      simp only [this]
  · intro f p _ _
    by_cases h : f = s.1
    · subst h
      rw [Function.update_self]
      by_cases h' : p = s.2
      · subst h'
        rw [Function.update_self, if_pos (by simp)]
        rfl
      · rw [Function.update_of_ne h']
        have : ((s.1, p) ∈ pre ++ [s]) ↔ (s.1, p) ∈ pre := by
          rw [List.mem_append, List.mem_singleton]
          constructor
          · rintro (hp | hp)
            · exact hp
            · exact absurd (by rw [← hp]) h'
          · exact Or.inl
        simp only [this]
    · rw [Function.update_of_ne h]
      have : ((f, p) ∈ pre ++ [s]) ↔ (f, p) ∈ pre := by
        rw [List.mem_append, List.mem_singleton]
        constructor
        · rintro (hp | hp)
          · exact hp
          · exact absurd (by rw [← hp]) h
        · exact Or.inl
      simp only [this]

theorem readStep_skip (T : FloatFormat) (data : List (List Char)) (c : Circuit) (i : ℕ) (x : Flt × Flt)
    (h : data[i]? = some (line2 x) ∨ data[i]? = some (line3 x)) : readStep T data c i = .ok c := by
  unfold readStep
  rcases h with h | h
  · rw [pyGet_of h, py_bind]
    simp only [words_line2]
    rfl
  · rw [pyGet_of h, py_bind]
    simp only [words_line3]
    rfl

theorem pyRange_cons {a b : ℤ} (h : a < b) : pyRange a b = a :: pyRange (a + 1) b := by
  unfold pyRange
  obtain ⟨n, hn⟩ : ∃ n, (b - a).toNat = n + 1 := ⟨(b - a).toNat - 1, by omega⟩
  rw [hn, show (b - (a + 1)).toNat = n by omega, List.range_succ_eq_map, List.map_cons,
      List.map_map]
  congr 1
  · simp
  · exact List.map_congr_left fun i _ => by simp; ring

theorem pyRange_self (a : ℤ) : pyRange a a = [] := by simp [pyRange]

theorem block_getElem (fq : ℕ → Flt) (v z : ℕ → ℕ → Flt × Flt) (pre post : List (ℕ × ℕ)) (s : ℕ × ℕ)
    (k : ℕ) (hk : k < 3) :
    ((pre ++ s :: post).flatMap (block fq v z))[3 * pre.length + k]? = (block fq v z s)[k]? := by
  have hl : (pre.flatMap (block fq v z)).length = 3 * pre.length := by
    induction pre with
    | nil => rfl
    | cons a pre ih => simp [ih, block]; ring
  rw [List.flatMap_append, List.flatMap_cons, List.getElem?_append_right (by omega), hl,
    Nat.add_sub_cancel_left, List.getElem?_append_left (by simpa [block] using hk)]

theorem readLoop (T : FloatFormat) {F P : ℕ} (fq : ℕ → Flt) (v z : ℕ → ℕ → Flt × Flt)
    (post : List (ℕ × ℕ)) (pre : List (ℕ × ℕ))
    (hs : ∀ s ∈ post, s.1 ≤ F ∧ s.2 ≤ P) :
    pyFor (pyRange ((3 * pre.length : ℕ) : ℤ) ((3 * (pre ++ post).length : ℕ) : ℤ))
      (part T F P fq v z pre) (readStep T ((pre ++ post).flatMap (block fq v z))) =
      .ok (part T F P fq v z (pre ++ post)) := by
  induction post generalizing pre with
  | nil => rw [List.append_nil, pyRange_self]; rfl
  | cons s post ih =>
    obtain ⟨hf, hp⟩ := hs s (by simp)
    have b0 := block_getElem fq v z pre post s 0 (by omega)
    have b1 := block_getElem fq v z pre post s 1 (by omega)
    have b2 := block_getElem fq v z pre post s 2 (by omega)
    simp only [block, List.getElem?_cons_zero, List.getElem?_cons_succ] at b0 b1 b2
    have hlen : (pre ++ s :: post).length = pre.length + post.length + 1 := by simp; omega
    rw [pyRange_cons (by rw [hlen]; push_cast; omega),
      pyRange_cons (by rw [hlen]; push_cast; omega), pyRange_cons (by rw [hlen]; push_cast; omega)]
    rw [pyFor, readStep_line1 T fq v z pre s hf hp _ (3 * pre.length) (by simpa using b0)
      (by simpa using b1) (by simpa using b2)]
    simp only
    rw [pyFor,
        show ((3 * pre.length : ℕ) : ℤ) + 1 = ((3 * pre.length + 1 : ℕ) : ℤ) by push_cast; ring,
      readStep_skip T _ _ (3 * pre.length + 1) _ (Or.inl b1)]
    simp only
    rw [pyFor, show ((3 * pre.length + 1 : ℕ) : ℤ) + 1 = ((3 * pre.length + 2 : ℕ) : ℤ) by
      push_cast; ring, readStep_skip T _ _ (3 * pre.length + 2) _ (Or.inr b2)]
    simp only
    have := ih (pre ++ [s]) fun t ht => hs t (List.mem_cons_of_mem _ ht)
    rw [show pre ++ [s] ++ post = pre ++ s :: post by simp] at this
    rw [← this]
    congr 2
    simp
    ring

theorem read_save (T : FloatFormat) {F P : ℕ} (hF : 1 ≤ F ∧ F ≤ 4) (hP : 1 ≤ P) (fq : ℕ → Flt)
    (v z : ℕ → ℕ → Flt × Flt) :
    read T (allLines F P fq v z).flatten = .ok (mk F P
      (fun f => if 1 ≤ f then rd T 4 (fq f) else zeroFlt)
      (fun f p => if 1 ≤ f ∧ 1 ≤ p then rdc T 4 (v f p) else (zeroFlt, zeroFlt))
      (fun f p => if 1 ≤ f ∧ 1 ≤ p then rdc T 2 (z f p) else (zeroFlt, zeroFlt))) := by
  unfold read
  simp only [lines_all]
  have e1 : pyGet (allLines F P fq v z) 1 = .ok (headF F) := pyGet_of (i := 1) rfl
  have e2 : pyGet (allLines F P fq v z) 2 = .ok (headP P) := pyGet_of (i := 2) rfl
  have w1 : pyGet [['N', 'u', 'm', 'b', 'e', 'r'], ['o', 'f'], ['t', 'o', 'n', 'e', 's', ':'],
      natChars F] (-1) = .ok (natChars F) :=
    rfl
  have w2 : pyGet [['N', 'u', 'm', 'b', 'e', 'r'], ['o', 'f'], ['h', 'a', 'r', 'm', 'o', 'n', 'i',
      'c', 's', ':'], natChars P] (-1)
      = .ok (natChars P) := rfl
  rw [e1, py_bind, words_headF, w1, py_bind, parseInt_natChars, py_bind, e2, py_bind, words_headP,
      w2,
    py_bind, parseInt_natChars, py_bind]
  have hn : new (F : ℤ) (P : ℤ) = .ok (part T F P fq v z []) := by
    unfold new
    rw [pyAssert_pos (by omega), pyAssert_pos (by omega)]
    simp only [part, mk, Int.toNat_natCast, List.not_mem_nil, exists_false, if_false,
        List.map_const',
      List.length_range]
    rfl
  rw [hn, py_bind]
  have hd : (allLines F P fq v z).drop 3 = (sig F P).flatMap (block fq v z) := rfl
  have hlen : ((sig F P).flatMap (block fq v z)).length = 3 * (sig F P).length := by
    induction sig F P with
    | nil => rfl
    | cons a pre ih => simp [ih, block]; ring
  rw [hd, hlen]
  have := readLoop T (F := F) (P := P) fq v z (sig F P) [] (by
    rintro ⟨f, p⟩ hm
    rw [mem_sig] at hm
    exact ⟨hm.1.2, hm.2.2⟩)
  simp only [List.nil_append, List.length_nil, Nat.mul_zero, Nat.cast_zero] at this
  rw [this]
  refine congrArg Except.ok (mk_congr ?_ ?_ ?_)
  · intro f hf
    have : (∃ p, (f, p) ∈ sig F P) ↔ 1 ≤ f := by
      constructor
      · rintro ⟨p, hp⟩; exact (mem_sig.1 hp).1.1
      · intro h; exact ⟨1, mem_sig.2 ⟨⟨h, hf⟩, by omega⟩⟩
    simp only [this]
  · intro f p hf hp
    have : ((f, p) ∈ sig F P) ↔ 1 ≤ f ∧ 1 ≤ p := by rw [mem_sig]; omega
    simp only [this]
  · intro f p hf hp
    have : ((f, p) ∈ sig F P) ↔ 1 ≤ f ∧ 1 ≤ p := by rw [mem_sig]; omega
    simp only [this]

end QMix.IO
