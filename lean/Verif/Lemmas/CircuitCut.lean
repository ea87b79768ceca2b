import Verif.Lemmas.CircuitIO2

/-! Lemmas for C186: the beginning of a saved circuit file. -/

namespace QMix.IO

/-- The beginning of a list of lines: whole lines and a part of the next one. -/
theorem prefix_lines {L : List (List Char)} (h : ∀ l ∈ L, IsLine l) {t : List Char} (ht : t <+: L.flatten) :
    ∃ (n : ℕ) (w : List Char), n ≤ L.length ∧ '\n' ∉ w ∧ t = (L.take n).flatten ++ w ∧
      (w = [] ∨ ∃ l x, L[n]? = some l ∧ l = w ++ x) := by
  induction L generalizing t with
  | nil =>
    rw [List.flatten_nil, List.prefix_nil] at ht
    exact ⟨0, [], le_rfl, by simp, by simp [ht], Or.inl rfl⟩
  | cons l L ih =>
    obtain ⟨w, rfl, hw⟩ := h l (by simp)
    rw [List.flatten_cons] at ht
    rcases le_total t.length w.length with hl | hl
    · have h1 : t <+: w := List.prefix_of_prefix_length_le ht (by rw [List.append_assoc]; exact List.prefix_append _ _) hl
      obtain ⟨x, rfl⟩ := h1
      refine ⟨0, t, Nat.zero_le _, fun hm => hw (by simp [hm]), by simp, Or.inr ⟨_, x ++ ['\n'], rfl, by simp⟩⟩
    · rcases hl.eq_or_lt with he | hl
      · have h1 : t <+: w := List.prefix_of_prefix_length_le ht (by rw [List.append_assoc]; exact List.prefix_append _ _) he.ge
        obtain ⟨x, rfl⟩ := h1
        refine ⟨0, t, Nat.zero_le _, fun hm => hw (by simp [hm]), by simp, Or.inr ⟨_, x ++ ['\n'], rfl, by simp⟩⟩
      · have h1 : w ++ ['\n'] <+: t := List.prefix_of_prefix_length_le (List.prefix_append _ _) ht (by simp; omega)
        obtain ⟨t', rfl⟩ := h1
        rw [List.prefix_append_right_inj] at ht
        obtain ⟨n, w', hn, hw', e, hx⟩ := ih (fun l hl => h l (List.mem_cons_of_mem _ hl)) ht
        refine ⟨n + 1, w', by simpa using hn, hw', ?_, ?_⟩
        · rw [List.take_succ_cons, List.flatten_cons, e]
          simp
        · rcases hx with hx | hx
          · exact Or.inl hx
          · exact Or.inr (by simpa using hx)

/-- The lines of such a text. -/
theorem lines_cut {L : List (List Char)} (h : ∀ l ∈ L, IsLine l) {w : List Char} (hw : '\n' ∉ w) :
    lines (L.flatten ++ w) = L ++ if w = [] then [] else [w] := by
  unfold lines
  induction L with
  | nil =>
    have : ∀ cur, linesAux cur w = if cur ++ w = [] then [] else [cur ++ w] := by
      induction w with
      | nil => intro cur; simp [linesAux]
      | cons c w ih =>
        intro cur
        rw [linesAux, if_neg (fun e => hw (by simp [e])), ih (fun hm => hw (List.mem_cons_of_mem _ hm))]
        simp
    simpa using this []
  | cons l L ih =>
    obtain ⟨x, rfl, hx⟩ := h l (by simp)
    rw [List.flatten_cons, List.append_assoc, List.append_assoc, List.singleton_append, linesAux_line hx,
      ih fun l hl => h l (List.mem_cons_of_mem _ hl)]
    simp

/-- The word being collected is the beginning of the first word. -/
theorem wordsAux_head {cur : List Char} (h : cur ≠ []) (l : List Char) : ∃ x r, wordsAux cur l = (cur ++ x) :: r := by
  induction l generalizing cur with
  | nil => exact ⟨[], [], by rw [wordsAux, if_neg h, List.append_nil]⟩
  | cons c l ih =>
    rw [wordsAux]
    split_ifs with hs
    · exact ⟨[], _, by rw [List.append_nil]⟩
    · obtain ⟨x, r, e⟩ := ih (cur := cur ++ [c]) (by simp)
      exact ⟨c :: x, r, by rw [e]; simp⟩

/-- A part of the first line of a signal has no words or starts with `f`. -/
theorem words_cut1 {f p : ℕ} {x : Flt} {w r : List Char} (h : line1 f p x = w ++ r) :
    words w = [] ∨ ∃ a b, words w = ('f' :: a) :: b := by
  have e : line1 f p x = ' ' :: ' ' :: ' ' :: 'f' :: ('=' :: natChars f ++ [',', ' ', 'p', '='] ++ natChars p ++ ['\t', '\t',
      '\t', 'f', 'r', 'e', 'q', ' ', '=', ' '] ++ fmtFloat 4 x ++ [' ', 'x', ' '] ++ natChars p ++ ['\n']) := by
    simp [line1]
  rw [e] at h
  match w, h with
  | [], _ => exact Or.inl rfl
  | [a], h => simp at h; rw [← h.1]; exact Or.inl rfl
  | [a, b], h => simp at h; rw [← h.1, ← h.2.1]; exact Or.inl rfl
  | [a, b, c], h => simp at h; rw [← h.1, ← h.2.1, ← h.2.2.1]; exact Or.inl rfl
  | a :: b :: c :: d :: w, h =>
    simp only [List.cons_append, List.cons.injEq] at h
    obtain ⟨rfl, rfl, rfl, rfl, -⟩ := h
    right
    obtain ⟨x, r, e⟩ := wordsAux_head (cur := ['f']) (by simp) w
    refine ⟨x, r, ?_⟩
    unfold words
    rw [words_space rfl, words_space rfl, words_space rfl, wordsAux, if_neg (by decide)]
    simpa using e

/-- A part of the third line of a signal has no words or starts with `T`. -/
theorem words_cut3 {z : Flt × Flt} {w r : List Char} (h : line3 z = w ++ r) :
    words w = [] ∨ ∃ a b, words w = ('T' :: a) :: b := by
  have e : line3 z = '\t' :: 'T' :: (['h', 'e', 'v', '.', ' ', 'i', 'm', 'p', 'e', 'd', 'a', 'n', 'c', 'e', ':',
      '\t'] ++ fmtComplex 2 z ++ [' ', 'o', 'h', 'm', 's', ' ', '/', ' ', 'R', '_', 'N', '\n']) := by
    simp [line3]
  rw [e] at h
  match w, h with
  | [], _ => exact Or.inl rfl
  | [a], h => simp at h; rw [← h.1]; exact Or.inl rfl
  | a :: b :: w, h =>
    simp only [List.cons_append, List.cons.injEq] at h
    obtain ⟨rfl, rfl, -⟩ := h
    right
    obtain ⟨x, r, e⟩ := wordsAux_head (cur := ['T']) (by simp) w
    refine ⟨x, r, ?_⟩
    unfold words
    rw [words_space rfl, wordsAux, if_neg (by decide)]
    simpa using e

theorem pyGet_err {α : Type} {l : List α} {i : ℕ} (h : l.length ≤ i) {a : α} : pyGet l (i : ℤ) ≠ .ok a := by
  intro e
  unfold pyGet at e
  split at e
  · cases e
  · rename_i j hj
    have := pyIndex_lt hj
    unfold pyIndex at hj
    split_ifs at hj <;> first | cases hj; omega | omega

theorem pyRange_split {a b c : ℤ} (h1 : a ≤ b) (h2 : b ≤ c) : pyRange a c = pyRange a b ++ pyRange b c := by
  unfold pyRange
  rw [show (c - a).toNat = (b - a).toNat + (c - b).toNat by omega, List.range_add, List.map_append, List.map_map]
  congr 1
  refine List.map_congr_left fun i _ => ?_
  simp only [Function.comp_apply, Nat.cast_add]
  omega

theorem pyFor_split {σ κ : Type} (l₁ l₂ : List κ) (s : σ) (f : σ → κ → Py σ) :
    pyFor (l₁ ++ l₂) s f = pyFor l₁ s f >>= fun s' => pyFor l₂ s' f := by
  induction l₁ generalizing s with
  | nil => rfl
  | cons k l ih =>
    rw [List.cons_append, pyFor, pyFor]
    cases f s k with
    | error e => rfl
    | ok s' => exact ih s'

/-- The loop over complete signals, whatever follows them. -/
theorem readLoop_tail (T : FloatFormat) {F P : ℕ} (fq : ℕ → Flt) (v z : ℕ → ℕ → Flt × Flt) (tail : List (List Char))
    (post : List (ℕ × ℕ)) (pre : List (ℕ × ℕ)) (hs : ∀ s ∈ post, s.1 ≤ F ∧ s.2 ≤ P) :
    pyFor (pyRange ((3 * pre.length : ℕ) : ℤ) ((3 * (pre ++ post).length : ℕ) : ℤ))
      (part T F P fq v z pre) (readStep T ((pre ++ post).flatMap (block fq v z) ++ tail)) =
      .ok (part T F P fq v z (pre ++ post)) := by
  induction post generalizing pre with
  | nil => rw [List.append_nil, pyRange_self]; rfl
  | cons s post ih =>
    obtain ⟨hf, hp⟩ := hs s (by simp)
    have b0 := block_getElem fq v z pre post s 0 (by omega)
    have b1 := block_getElem fq v z pre post s 1 (by omega)
    have b2 := block_getElem fq v z pre post s 2 (by omega)
    simp only [block, List.getElem?_cons_zero, List.getElem?_cons_succ] at b0 b1 b2
    have up : ∀ {i : ℕ} {a : List Char}, ((pre ++ s :: post).flatMap (block fq v z))[i]? = some a →
        ((pre ++ s :: post).flatMap (block fq v z) ++ tail)[i]? = some a := by
      intro i a h
      rw [List.getElem?_append_left (by
        by_contra hc
        rw [List.getElem?_eq_none (by omega)] at h
        cases h)]
      exact h
    have hlen : (pre ++ s :: post).length = pre.length + post.length + 1 := by simp; omega
    rw [pyRange_cons (by rw [hlen]; push_cast; omega),
      pyRange_cons (by rw [hlen]; push_cast; omega), pyRange_cons (by rw [hlen]; push_cast; omega)]
    rw [pyFor, readStep_line1 T fq v z pre s hf hp _ (3 * pre.length) (up (by simpa using b0))
      (up (by simpa using b1)) (up (by simpa using b2))]
    simp only
    rw [pyFor,
        show ((3 * pre.length : ℕ) : ℤ) + 1 = ((3 * pre.length + 1 : ℕ) : ℤ) by push_cast; ring,
      readStep_skip T _ _ (3 * pre.length + 1) _ (Or.inl (up b1))]
    simp only
    rw [pyFor, show ((3 * pre.length + 1 : ℕ) : ℤ) + 1 = ((3 * pre.length + 2 : ℕ) : ℤ) by
      push_cast; ring, readStep_skip T _ _ (3 * pre.length + 2) _ (Or.inr (up b2))]
    simp only
    have := ih (pre ++ [s]) fun t ht => hs t (List.mem_cons_of_mem _ ht)
    rw [show pre ++ [s] ++ post = pre ++ s :: post by simp] at this
    rw [← this]
    congr 2
    simp
    ring

/-- A signal of which the third line is missing is refused. -/
theorem readStep_short (T : FloatFormat) {data : List (List Char)} {i : ℕ} (c c' : Circuit) (hl : data.length ≤ i + 2)
    (hw : ∀ l, data[i]? = some l → words l = [] ∨ ∃ a b, words l = ('f' :: a) :: b) : readStep T data c i ≠ .ok c' := by
  intro e
  unfold readStep at e
  obtain ⟨l, h1, e⟩ := bind_ok_iff.1 e
  obtain ⟨w0, h2, e⟩ := bind_ok_iff.1 e
  obtain ⟨ch, h3, e⟩ := bind_ok_iff.1 e
  have hd : data[i]? = some l := by
    by_cases hi : i < data.length
    · obtain ⟨x, hx⟩ : ∃ x, data[i]? = some x := ⟨_, List.getElem?_eq_getElem hi⟩
      rw [pyGet_of hx] at h1
      rw [hx, Except.ok.inj h1]
    · exact absurd h1 (pyGet_err (by omega))
  rcases hw l hd with h | ⟨a, b, h⟩
  · rw [h] at h2
    exact pyGet_err (i := 0) (by simp) h2
  · rw [h] at h2
    have : w0 = 'f' :: a := (Except.ok.inj ((pyGet_of (i := 0) rfl).symm.trans h2)).symm
    rw [this] at h3
    have : ch = 'f' := (Except.ok.inj ((pyGet_of (i := 0) rfl).symm.trans h3)).symm
    rw [if_pos this] at e
    obtain ⟨_, -, e⟩ := bind_ok_iff.1 e
    obtain ⟨_, -, e⟩ := bind_ok_iff.1 e
    obtain ⟨_, -, e⟩ := bind_ok_iff.1 e
    obtain ⟨_, -, e⟩ := bind_ok_iff.1 e
    obtain ⟨_, -, e⟩ := bind_ok_iff.1 e
    obtain ⟨_, -, e⟩ := bind_ok_iff.1 e
    obtain ⟨_, -, e⟩ := bind_ok_iff.1 e
    obtain ⟨_, -, e⟩ := bind_ok_iff.1 e
    obtain ⟨_, -, e⟩ := bind_ok_iff.1 e
    obtain ⟨_, -, e⟩ := bind_ok_iff.1 e
    obtain ⟨_, h4, e⟩ := bind_ok_iff.1 e
    have : ((i : ℤ) + 2) = ((i + 2 : ℕ) : ℤ) := by push_cast; rfl
    rw [this] at h4
    exact pyGet_err hl h4

/-- The third word of a part of a third line is a part of the impedance. -/
theorem word_cut3 {z : Flt × Flt} {w r wz : List Char} (h : line3 z = w ++ r) (hg : pyGet (words w) 2 = .ok wz) :
    wz <+: fmtComplex 2 z := by
  set H : List Char := ['\t', 'T', 'h', 'e', 'v', '.', ' ', 'i', 'm', 'p', 'e', 'd', 'a', 'n', 'c', 'e', ':', '\t'] with hH
  have lit : ∀ w : List Char, w.all (fun c => !isSpace c) = true → Solid w := by
    intro w h c hc
    have := List.all_eq_true.1 h c hc
    simpa using this
  have hwords : ∀ u, words (H ++ u) = ['T', 'h', 'e', 'v', '.'] :: ['i', 'm', 'p', 'e', 'd', 'a', 'n', 'c', 'e', ':'] :: wordsAux [] u := by
    intro u
    have e : H ++ u = '\t' :: (['T', 'h', 'e', 'v', '.'] ++ ' ' :: (['i', 'm', 'p', 'e', 'd', 'a',
      'n', 'c', 'e', ':'] ++ '\t' :: u)) := by rw [hH]; simp
    rw [words, e, words_space (by decide), words_word (lit _ (by decide)) (by simp) (by decide),
      words_word (lit _ (by decide)) (by simp) (by decide)]
  have hne : fmtComplex 2 z ≠ [] := by unfold fmtComplex; simp
  have e3 : line3 z = H ++ (fmtComplex 2 z ++ [' ', 'o', 'h', 'm', 's', ' ', '/', ' ', 'R', '_', 'N', '\n']) := by
    rw [hH]; simp [line3]
  rw [e3] at h
  have get3 : ∀ (a b c : List Char) l, pyGet (a :: b :: c :: l) 2 = .ok c := fun a b c l => pyGet_of (i := 2) rfl
  rcases List.append_eq_append_iff.1 h.symm with ⟨a, ha, -⟩ | ⟨w', rfl, hb⟩
  · exfalso
    have hk : w = H.take w.length := by rw [ha]; simp
    have hl : w.length < 19 := by
      have := congrArg List.length ha
      rw [hH] at this
      simp at this
      omega
    have all : ∀ k < 19, (words (H.take k)).length ≤ 2 := by rw [hH]; decide
    refine pyGet_err (i := 2) (all _ hl) (a := wz) ?_
    rw [← hk]
    exact hg
  · rw [hwords] at hg
    rcases List.append_eq_append_iff.1 hb with ⟨a, ha, hb'⟩ | ⟨u, hu, -⟩
    · cases a with
      | nil =>
        rw [List.append_nil] at ha
        rw [ha, ← List.append_nil (fmtComplex 2 z), wordsAux_solid (solid_fmtComplex _ _), List.nil_append, wordsAux, if_neg hne, get3] at hg
        rw [← Except.ok.inj hg]
      | cons c a =>
        have hc : c = ' ' := by
          simp only [List.cons_append, List.cons.injEq] at hb'
          exact hb'.1.symm
        subst hc
        rw [ha, words_word (solid_fmtComplex _ _) hne (by decide), get3] at hg
        rw [← Except.ok.inj hg]
    · have hs : Solid w' := fun c hc => solid_fmtComplex 2 z c (by rw [hu]; simp [hc])
      have e := wordsAux_solid hs [] []
      rw [List.append_nil, List.nil_append, wordsAux] at e
      rw [e] at hg
      split_ifs at hg with h0
      · exact absurd hg (pyGet_err (i := 2) (by simp))
      · rw [get3] at hg
        rw [← Except.ok.inj hg, hu]
        exact List.prefix_append _ _

theorem scanFloat_suffix {T : FloatFormat} {l : List Char} {r : Flt × List Char} (h : scanFloat T l = .ok r) : r.2 <:+ l := by
  unfold scanFloat at h
  simp only at h
  split_ifs at h <;> first
    | (rw [← Except.ok.inj h]
       simp only
       first
       | exact ((List.dropWhile_suffix _).trans (List.tail_suffix _)).trans ((List.dropWhile_suffix _).trans (List.tail_suffix _))
       | exact (List.dropWhile_suffix _).trans (List.tail_suffix _)
       | exact ((List.dropWhile_suffix _).trans (List.tail_suffix _)).trans (List.dropWhile_suffix _)
       | exact List.dropWhile_suffix _)
    | cases h

/-- A part of a complex number that is read without an error is the whole number or has no imaginary part. -/
theorem parseComplex_cut {T : FloatFormat} {d : ℕ} {z y : Flt × Flt} {u : List Char} (hu : u <+: fmtComplex d z)
    (h : parseComplex T u = .ok y) : y = rdc T d z ∨ y.2 = zeroFlt := by
  have whole : 'j' ∈ u → y = rdc T d z := by
    intro hj
    obtain ⟨r, hr⟩ := hu
    have hb : 'j' ∉ fmtFloat d z.1 ++ (if z.2.neg then '-' else '+') :: decChars d (scaled d z.2) := by
      have dg : ∀ m, 'j' ∉ decChars d m := by
        intro m hm
        unfold decChars at hm
        rcases List.mem_append.1 hm with hm | hm
        · exact absurd (natChars_digits _ _ hm) (by decide)
        · rcases List.mem_cons.1 hm with hm | hm
          · exact absurd hm (by decide)
          · exact absurd (fixChars_digits _ _ _ hm) (by decide)
      intro hm
      rcases List.mem_append.1 hm with hm | hm
      · unfold fmtFloat at hm
        rcases List.mem_append.1 hm with hm | hm
        · split_ifs at hm <;> simp at hm
        · exact dg _ hm
      · rcases List.mem_cons.1 hm with hm | hm
        · split_ifs at hm <;> exact absurd hm (by decide)
        · exact dg _ hm
    have e : fmtComplex d z = (fmtFloat d z.1 ++ (if z.2.neg then '-' else '+') :: decChars d (scaled d z.2)) ++ ['j'] := by
      simp [fmtComplex]
    have hu' : u = fmtComplex d z := by
      rw [e] at hr
      rcases List.append_eq_append_iff.1 hr with ⟨a, ha, -⟩ | ⟨a, ha, hb'⟩
      · exact absurd (by rw [ha]; simp [hj]) hb
      · cases a with
        | nil => rw [List.append_nil] at ha; exact absurd (ha ▸ hj) hb
        | cons c a =>
          have : c = 'j' ∧ a = [] := by
            simp only [List.cons_append, List.cons.injEq] at hb'
            refine ⟨hb'.1.symm, ?_⟩
            have := hb'.2
            simp at this
            exact this.1
          rw [ha, this.1, this.2, e]
    rw [hu', parseComplex_fmt] at h
    exact (Except.ok.inj h).symm
  unfold parseComplex at h
  obtain ⟨re, h1, h⟩ := bind_ok_iff.1 h
  have s1 := scanFloat_suffix h1
  split_ifs at h with c1 c2 c3
  · right
    rw [← Except.ok.inj h]
  · left
    rw [c2] at s1
    exact whole (s1.subset (by simp))
  · left
    obtain ⟨im, h2, h⟩ := bind_ok_iff.1 h
    have s2 := scanFloat_suffix h2
    split_ifs at h with c4
    · rw [c4] at s2
      exact whole (s1.subset (s2.subset (by simp)))

/-- A signal of which the third line is damaged: only the impedance may be wrong. -/
theorem readStep_damaged (T : FloatFormat) {F P : ℕ} (fq : ℕ → Flt) (v z : ℕ → ℕ → Flt × Flt)
    (pre : List (ℕ × ℕ)) (s : ℕ × ℕ) (hf : s.1 ≤ F) (hp : s.2 ≤ P) (data : List (List Char)) (i : ℕ) {w : List Char}
    (h0 : data[i]? = some (line1 s.1 s.2 (fq s.1))) (h1 : data[i + 1]? = some (line2 (v s.1 s.2)))
    (h2 : data[i + 2]? = some w) (h3 : ∃ x, line3 (z s.1 s.2) = w ++ x) {c' : Circuit}
    (hr : readStep T data (part T F P fq v z pre) i = .ok c') :
    ∃ zt, (zt = rdc T 2 (z s.1 s.2) ∨ zt.2 = zeroFlt) ∧ c'.numF = F ∧ c'.numP = P ∧ c'.freq = (part T F P fq v z (pre ++ [s])).freq ∧
      c'.vt = (part T F P fq v z (pre ++ [s])).vt ∧ set2 (part T F P fq v z pre).zt s.1 s.2 zt = .ok c'.zt := by
  let d2 := (data.take (i + 2)) ++ [line3 (z s.1 s.2)]
  have hl : i + 2 < data.length := by
    by_contra hc
    rw [List.getElem?_eq_none (by omega)] at h2
    cases h2
  have k : ∀ j, j < i + 2 → d2[j]? = data[j]? := by
    intro j hj
    show (data.take (i + 2) ++ [line3 (z s.1 s.2)])[j]? = _
    rw [List.getElem?_append_left (by rw [List.length_take]; omega), List.getElem?_take_of_lt hj]
  have k2 : d2[i + 2]? = some (line3 (z s.1 s.2)) := by
    show (data.take (i + 2) ++ [line3 (z s.1 s.2)])[i + 2]? = _
    rw [List.getElem?_append_right (by rw [List.length_take]; omega), List.length_take, min_eq_left (by omega), Nat.sub_self]
    rfl
  have ok := readStep_line1 T fq v z pre s hf hp d2 i (by rw [k _ (by omega), h0]) (by rw [k _ (by omega), h1]) k2
  unfold readStep at hr ok
  have e0 : pyGet d2 (i : ℤ) = pyGet data (i : ℤ) := by
    rw [pyGet_of h0, pyGet_of (by rw [k _ (by omega), h0])]
  have e1 : pyGet d2 ((i : ℤ) + 1) = pyGet data ((i : ℤ) + 1) := by
    rw [show ((i : ℤ) + 1) = ((i + 1 : ℕ) : ℤ) by push_cast; rfl, pyGet_of h1, pyGet_of (by rw [k _ (by omega), h1])]
  rw [e0, e1] at ok
  have g0 : pyGet data (i : ℤ) = .ok (line1 s.1 s.2 (fq s.1)) := pyGet_of h0
  rw [g0, py_bind] at hr ok
  simp only [words_line1] at hr ok
  obtain ⟨a1, b1, hr⟩ := bind_ok_iff.1 hr
  rw [b1, py_bind] at ok
  obtain ⟨a2, b2, hr⟩ := bind_ok_iff.1 hr
  rw [b2, py_bind] at ok
  have ga : pyGet ([['f', '='] ++ natChars s.1 ++ [','], ['p', '='] ++ natChars s.2,
      ['f', 'r', 'e', 'q'], ['='], fmtFloat 4 (fq s.1), ['x'], natChars s.2]) 0 =
      .ok (['f', '='] ++ natChars s.1 ++ [',']) := rfl
  have a1e := Except.ok.inj (ga.symm.trans b1)
  subst a1e
  have gc : pyGet (['f', '='] ++ natChars s.1 ++ [',']) 0 = .ok 'f' := by
    have : ['f', '='] ++ natChars s.1 ++ [','] = 'f' :: ('=' :: natChars s.1 ++ [',']) := by simp
    rw [this]
    exact pyGet_of (i := 0) rfl
  have a2e := Except.ok.inj (gc.symm.trans b2)
  subst a2e
  rw [if_pos rfl] at hr ok
  obtain ⟨a3, b3, hr⟩ := bind_ok_iff.1 hr
  rw [b3, py_bind] at ok
  obtain ⟨a4, b4, hr⟩ := bind_ok_iff.1 hr
  rw [b4, py_bind] at ok
  obtain ⟨a5, b5, hr⟩ := bind_ok_iff.1 hr
  rw [b5, py_bind] at ok
  obtain ⟨a6, b6, hr⟩ := bind_ok_iff.1 hr
  rw [b6, py_bind] at ok
  obtain ⟨a7, b7, hr⟩ := bind_ok_iff.1 hr
  rw [b7, py_bind] at ok
  obtain ⟨a8, b8, hr⟩ := bind_ok_iff.1 hr
  rw [b8, py_bind] at ok
  obtain ⟨a9, b9, hr⟩ := bind_ok_iff.1 hr
  rw [b9, py_bind] at ok
  obtain ⟨c1, d1, hr⟩ := bind_ok_iff.1 hr
  rw [d1, py_bind] at ok
  obtain ⟨c2, d2', hr⟩ := bind_ok_iff.1 hr
  rw [d2', py_bind] at ok
  obtain ⟨c3, d3, hr⟩ := bind_ok_iff.1 hr
  rw [d3, py_bind] at ok
  obtain ⟨l3, hl3, hr⟩ := bind_ok_iff.1 hr
  obtain ⟨wz, hwz, hr⟩ := bind_ok_iff.1 hr
  obtain ⟨zt, hzt, hr⟩ := bind_ok_iff.1 hr
  have hzt' : zt = rdc T 2 (z s.1 s.2) ∨ zt.2 = zeroFlt := by
    rw [show ((i : ℤ) + 2) = ((i + 2 : ℕ) : ℤ) by push_cast; rfl, pyGet_of h2] at hl3
    rw [← Except.ok.inj hl3] at hwz
    obtain ⟨x, hx⟩ := h3
    exact parseComplex_cut (word_cut3 hx hwz) hzt
  obtain ⟨_, -, ok⟩ := bind_ok_iff.1 ok
  obtain ⟨_, -, ok⟩ := bind_ok_iff.1 ok
  obtain ⟨_, -, ok⟩ := bind_ok_iff.1 ok
  obtain ⟨q1, p1, hr⟩ := bind_ok_iff.1 hr
  rw [p1, py_bind] at ok
  obtain ⟨q2, p2, hr⟩ := bind_ok_iff.1 hr
  rw [p2, py_bind] at ok
  obtain ⟨q3, p3, hr⟩ := bind_ok_iff.1 hr
  obtain ⟨q4, p4, ok⟩ := bind_ok_iff.1 ok
  have ok' := Except.ok.inj ok
  have hr' := Except.ok.inj hr
  have s0 : searchDigits (['f', '='] ++ natChars s.1 ++ [',']) = .ok (natChars s.1) :=
    searchDigits_natChars _ _ _ (by decide) (by intro c hc; simp at hc; subst hc; decide)
  have s1 : searchDigits (['p', '='] ++ natChars s.2) = .ok (natChars s.2) := by
    have := searchDigits_natChars ['p', '='] s.2 [] (by decide) (by simp)
    rwa [List.append_nil] at this
  have g1 : pyGet ([['f', '='] ++ natChars s.1 ++ [','], ['p', '='] ++ natChars s.2,
      ['f', 'r', 'e', 'q'], ['='], fmtFloat 4 (fq s.1), ['x'], natChars s.2]) 1 =
      .ok (['p', '='] ++ natChars s.2) := rfl
  rw [← Except.ok.inj (s0.symm.trans b3), parseInt_natChars] at b4
  rw [← Except.ok.inj (g1.symm.trans b5), s1] at b6
  rw [← Except.ok.inj b6, parseInt_natChars] at b7
  rw [← Except.ok.inj b4, ← Except.ok.inj b7] at p3
  rw [← ok', ← hr']
  exact ⟨zt, hzt', rfl, rfl, rfl, rfl, p3⟩

/-- A part of a third line is passed over, or refused. -/
theorem readStep_pass (T : FloatFormat) {data : List (List Char)} {i : ℕ} (c c' : Circuit) {w : List Char} (hd : data[i]? = some w)
    (hw : words w = [] ∨ ∃ a b, words w = ('T' :: a) :: b) (hr : readStep T data c i = .ok c') : c' = c := by
  unfold readStep at hr
  rw [pyGet_of hd, py_bind] at hr
  rcases hw with h | ⟨a, b, h⟩
  · simp only [h] at hr
    obtain ⟨w0, h2, -⟩ := bind_ok_iff.1 hr
    exact absurd h2 (pyGet_err (i := 0) (by simp))
  · simp only [h] at hr
    have g : pyGet (('T' :: a) :: b) 0 = .ok ('T' :: a) := pyGet_of (i := 0) rfl
    have g' : pyGet ('T' :: a) 0 = .ok 'T' := pyGet_of (i := 0) rfl
    rw [g, py_bind, g', py_bind, if_neg (by decide)] at hr
    exact (Except.ok.inj hr).symm

/-- What is read from the lines of a file that is cut off after `pre` and parts of the next signal: the signals of `pre`, and perhaps
the next one, whose impedance may be wrong. -/
theorem read_cut (T : FloatFormat) {F P : ℕ} (fq : ℕ → Flt) (v z : ℕ → ℕ → Flt × Flt) (pre post : List (ℕ × ℕ)) (s : ℕ × ℕ)
    (hs : ∀ s' ∈ pre ++ s :: post, s'.1 ≤ F ∧ s'.2 ≤ P) {r : ℕ} (hr : r < 3) {w : List Char}
    (hw : w = [] ∨ ∃ l x, (block fq v z s)[r]? = some l ∧ l = w ++ x) {c' : Circuit}
    (h : pyFor (pyRange 0 ((pre.flatMap (block fq v z) ++ ((block fq v z s).take r ++ if w = [] then [] else [w])).length : ℕ))
      (part T F P fq v z []) (readStep T (pre.flatMap (block fq v z) ++ ((block fq v z s).take r ++ if w = [] then [] else [w])))
      = .ok c') :
    c' = part T F P fq v z pre ∨ w ≠ [] ∧ ∃ zt, (zt = rdc T 2 (z s.1 s.2) ∨ zt.2 = zeroFlt) ∧ c'.numF = F ∧ c'.numP = P ∧ c'.freq = (part T F P fq v z (pre ++ [s])).freq ∧
      c'.vt = (part T F P fq v z (pre ++ [s])).vt ∧ set2 (part T F P fq v z pre).zt s.1 s.2 zt = .ok c'.zt := by
  set tail := (block fq v z s).take r ++ if w = [] then [] else [w] with ht
  have hlp : (pre.flatMap (block fq v z)).length = 3 * pre.length := by
    clear h hs
    induction pre with
    | nil => rfl
    | cons a pre ih => simp [ih, block]; ring
  have hl : (pre.flatMap (block fq v z) ++ tail).length = 3 * pre.length + tail.length := by rw [List.length_append, hlp]
  rw [hl, pyRange_split (b := ((3 * pre.length : ℕ) : ℤ)) (by positivity) (by push_cast; omega), pyFor_split] at h
  have hloop := readLoop_tail T (F := F) (P := P) fq v z tail pre [] (fun s' h' => hs s' (List.mem_append_left _ h'))
  simp only [List.nil_append, List.length_nil, Nat.mul_zero, Nat.cast_zero] at hloop
  rw [hloop, py_bind] at h
  have get : ∀ j, (pre.flatMap (block fq v z) ++ tail)[3 * pre.length + j]? = tail[j]? := by
    intro j
    rw [List.getElem?_append_right (by omega), hlp, Nat.add_sub_cancel_left]
  have b0 : (block fq v z s)[0]? = some (line1 s.1 s.2 (fq s.1)) := rfl
  have b1 : (block fq v z s)[1]? = some (line2 (v s.1 s.2)) := rfl
  have b2 : (block fq v z s)[2]? = some (line3 (z s.1 s.2)) := rfl
  have short : tail.length = 1 ∨ tail.length = 2 → (∀ l, tail[0]? = some l → words l = [] ∨ ∃ a b, words l = ('f' :: a) :: b) →
      False := by
    intro h12 hw0
    rw [pyRange_cons (by push_cast; omega), pyFor] at h
    cases e : readStep T (pre.flatMap (block fq v z) ++ tail) (part T F P fq v z pre) ((3 * pre.length : ℕ) : ℤ) with
    | error x => rw [e] at h; cases h
    | ok y =>
      refine readStep_short T _ _ (by rw [hl]; omega) (fun l hl' => hw0 l ?_) e
      rw [← hl']
      exact (get 0).symm
  have full1 : words (line1 s.1 s.2 (fq s.1)) = [] ∨ ∃ a b, words (line1 s.1 s.2 (fq s.1)) = ('f' :: a) :: b := by
    rw [words_line1]
    exact Or.inr ⟨_, _, rfl⟩
  have hlen : tail.length = r + if w = [] then 0 else 1 := by
    rw [ht, List.length_append, List.length_take, min_eq_left (by simp [block]; omega)]
    split_ifs <;> rfl
  by_cases hw0 : w = []
  · rw [if_pos hw0] at hlen ht
    interval_cases r
    · left
      rw [hlen, add_zero, add_zero, pyRange_self] at h
      exact (Except.ok.inj h).symm
    · refine absurd (short (Or.inl hlen) fun l hl' => ?_) id
      rw [ht] at hl'
      rw [← Option.some.inj hl']
      exact full1
    · refine absurd (short (Or.inr hlen) fun l hl' => ?_) id
      rw [ht] at hl'
      rw [← Option.some.inj hl']
      exact full1
  · rw [if_neg hw0] at hlen ht
    obtain ⟨l, x, hx, rfl⟩ := hw.resolve_left hw0
    interval_cases r
    · refine absurd (short (Or.inl hlen) fun l hl' => ?_) id
      rw [ht] at hl'
      rw [← Option.some.inj hl']
      rw [b0] at hx
      exact words_cut1 (Option.some.inj hx)
    · refine absurd (short (Or.inr hlen) fun l hl' => ?_) id
      rw [ht] at hl'
      rw [← Option.some.inj hl']
      exact full1
    · right
      have t0 : tail[0]? = some (line1 s.1 s.2 (fq s.1)) := by rw [ht]; rfl
      have t1 : tail[1]? = some (line2 (v s.1 s.2)) := by rw [ht]; rfl
      have t2 : tail[2]? = some w := by rw [ht]; rfl
      rw [← get] at t0 t1 t2
      obtain ⟨hf, hp⟩ := hs s (by simp)
      rw [hlen, pyRange_cons (by push_cast; omega), pyRange_cons (by push_cast; omega), pyRange_cons (by push_cast; omega), pyFor] at h
      cases e : readStep T (pre.flatMap (block fq v z) ++ tail) (part T F P fq v z pre) ((3 * pre.length : ℕ) : ℤ) with
      | error x => rw [e] at h; cases h
      | ok y =>
        obtain ⟨zt, k⟩ := readStep_damaged T fq v z pre s hf hp _ (3 * pre.length) t0 t1 t2
          ⟨x, Option.some.inj (b2.symm.trans hx)⟩ e
        rw [e] at h
        simp only at h
        rw [pyFor, show ((3 * pre.length : ℕ) : ℤ) + 1 = ((3 * pre.length + 1 : ℕ) : ℤ) by push_cast; ring,
          readStep_skip T _ _ (3 * pre.length + 1) _ (Or.inl t1)] at h
        simp only at h
        rw [pyFor, show ((3 * pre.length + 1 : ℕ) : ℤ) + 1 = ((3 * pre.length + 2 : ℕ) : ℤ) by push_cast; ring] at h
        cases e' : readStep T (pre.flatMap (block fq v z) ++ tail) y ((3 * pre.length + 2 : ℕ) : ℤ) with
        | error x => rw [e'] at h; cases h
        | ok y' =>
          have hy := readStep_pass T _ _ t2 (words_cut3 (Option.some.inj (b2.symm.trans hx))) e'
          rw [e'] at h
          simp only at h
          rw [show ((3 * pre.length + (2 + 1) : ℕ) : ℤ) = ((3 * pre.length + 2 : ℕ) : ℤ) + 1 by push_cast; ring, pyRange_self] at h
          have : c' = y := by rw [← hy]; exact (Except.ok.inj h).symm
          rw [this]
          exact ⟨hw0, zt, k⟩

/-- The signals in the order of the file. -/
theorem sig_eq (F P : ℕ) : sig F P = (List.range (F * P)).map fun k => (k / P + 1, k % P + 1) := by
  induction F with
  | zero => simp [sig]
  | succ F ih =>
    have : sig (F + 1) P = sig F P ++ (List.range P).map fun j => (F + 1, j + 1) := by
      simp [sig, List.range_succ]
    rw [this, ih, Nat.succ_mul, List.range_add, List.map_append, List.map_map]
    congr 1
    refine List.map_congr_left fun j hj => ?_
    have hj' : j < P := List.mem_range.1 hj
    have hp : 0 < P := by omega
    simp only [Function.comp, Prod.mk.injEq, Nat.add_right_cancel_iff]
    constructor
    · rw [Nat.mul_comm, Nat.mul_add_div hp, Nat.div_eq_of_lt hj', add_zero]
    · rw [Nat.mul_comm, Nat.mul_add_mod, Nat.mod_eq_of_lt hj']

theorem sig_length (F P : ℕ) : (sig F P).length = F * P := by rw [sig_eq]; simp

/-- The signals among the first `m` of the file. -/
theorem mem_sig_take {F P f p m : ℕ} (hf : 1 ≤ f) (hf' : f ≤ F) (hp : 1 ≤ p) (hp' : p ≤ P) :
    (f, p) ∈ (sig F P).take m ↔ (f - 1) * P + (p - 1) < m := by
  have hP : 0 < P := by omega
  rw [sig_eq, ← List.map_take, List.take_range, List.mem_map]
  constructor
  · rintro ⟨k, hk, e⟩
    simp only [Prod.mk.injEq] at e
    rw [List.mem_range] at hk
    have := Nat.div_add_mod k P
    rw [← e.1, ← e.2, Nat.add_sub_cancel, Nat.add_sub_cancel, Nat.mul_comm]
    omega
  · intro h
    refine ⟨(f - 1) * P + (p - 1), ?_, ?_⟩
    · rw [List.mem_range, lt_min_iff]
      refine ⟨h, ?_⟩
      have : (f - 1) * P + P ≤ F * P := by rw [← Nat.succ_mul]; exact Nat.mul_le_mul_right _ (by omega)
      omega
    · simp only [Prod.mk.injEq]
      constructor
      · rw [Nat.mul_comm, Nat.mul_add_div hP, Nat.div_eq_of_lt (by omega)]; omega
      · rw [Nat.mul_comm, Nat.mul_add_mod, Nat.mod_eq_of_lt (by omega)]; omega

/-- The first lines of the signals. -/
theorem take_blocks (fq : ℕ → Flt) (v z : ℕ → ℕ → Flt × Flt) (l : List (ℕ × ℕ)) (m r : ℕ) (hr : r < 3) :
    (l.flatMap (block fq v z)).take (3 * m + r) =
      (l.take m).flatMap (block fq v z) ++ ((l[m]?).elim [] fun s => (block fq v z s).take r) ∧
    (l.flatMap (block fq v z))[3 * m + r]? = (l[m]?).bind fun s => (block fq v z s)[r]? := by
  induction l generalizing m with
  | nil => simp
  | cons a l ih =>
    have hb : (block fq v z a).length = 3 := rfl
    rw [List.flatMap_cons]
    cases m with
    | zero =>
      constructor
      · rw [Nat.mul_zero, zero_add, List.take_append_of_le_length (by omega)]
        simp
      · rw [Nat.mul_zero, zero_add, List.getElem?_append_left (by omega)]
        simp
    | succ m =>
      obtain ⟨h1, h2⟩ := ih m
      have e : 3 * (m + 1) + r = 3 + (3 * m + r) := by ring
      constructor
      · rw [e, List.take_append, hb, Nat.add_sub_cancel_left, h1, List.take_of_length_le (by omega)]
        simp
      · rw [e, List.getElem?_append_right (by omega), hb, Nat.add_sub_cancel_left, h2]
        simp

/-- Reading a file whose first three lines are whole. -/
theorem read_head (T : FloatFormat) {F P : ℕ} (hF : 1 ≤ F ∧ F ≤ 4) (hP : 1 ≤ P) (fq : ℕ → Flt) (v z : ℕ → ℕ → Flt × Flt)
    {t : List Char} (h1 : (lines t)[1]? = some (headF F)) (h2 : (lines t)[2]? = some (headP P)) :
    read T t = pyFor (pyRange 0 (((lines t).drop 3).length : ℕ)) (part T F P fq v z []) (readStep T ((lines t).drop 3)) := by
  unfold read
  have e1 : pyGet (lines t) 1 = .ok (headF F) := pyGet_of (i := 1) h1
  have e2 : pyGet (lines t) 2 = .ok (headP P) := pyGet_of (i := 2) h2
  have w1 : pyGet [['N', 'u', 'm', 'b', 'e', 'r'], ['o', 'f'], ['t', 'o', 'n', 'e', 's', ':'],
      natChars F] (-1) = .ok (natChars F) :=
    rfl
  have w2 : pyGet [['N', 'u', 'm', 'b', 'e', 'r'], ['o', 'f'], ['h', 'a', 'r', 'm', 'o', 'n', 'i',
      'c', 's', ':'], natChars P] (-1)
      = .ok (natChars P) := rfl
  simp only []
  rw [e1, py_bind, words_headF, w1, py_bind, parseInt_natChars, py_bind, e2, py_bind, words_headP,
      w2,
    py_bind, parseInt_natChars, py_bind]
  have hn : new (F : ℤ) (P : ℤ) = .ok (part T F P fq v z []) := by
    unfold new
    rw [pyAssert_pos (by omega), pyAssert_pos (by omega)]
    simp only [part, mk, Int.toNat_natCast, List.not_mem_nil, exists_false, if_false,
        List.map_const',
      List.length_range]
    rfl
  rw [hn, py_bind]

/-- A file without a third line is refused. -/
theorem read_short (T : FloatFormat) {t : List Char} {c' : Circuit} (h : (lines t).length ≤ 2) : read T t ≠ .ok c' := by
  intro e
  unfold read at e
  simp only [] at e
  obtain ⟨_, -, e⟩ := bind_ok_iff.1 e
  obtain ⟨_, -, e⟩ := bind_ok_iff.1 e
  obtain ⟨_, -, e⟩ := bind_ok_iff.1 e
  obtain ⟨_, h2, e⟩ := bind_ok_iff.1 e
  exact pyGet_err (i := 2) h h2

/-- A file of three lines, of which the third may be damaged, is read as an empty circuit. -/
theorem read_three (T : FloatFormat) {F : ℕ} (fq : ℕ → Flt) (v z : ℕ → ℕ → Flt × Flt)
    {t : List Char} {c' : Circuit} (h1 : (lines t)[1]? = some (headF F)) (hl : (lines t).length = 3) (hr : read T t = .ok c') :
    ∃ P, c' = part T F P fq v z [] := by
  unfold read at hr
  simp only [] at hr
  have e1 : pyGet (lines t) 1 = .ok (headF F) := pyGet_of (i := 1) h1
  have w1 : pyGet [['N', 'u', 'm', 'b', 'e', 'r'], ['o', 'f'], ['t', 'o', 'n', 'e', 's', ':'],
      natChars F] (-1) = .ok (natChars F) :=
    rfl
  rw [e1, py_bind, words_headF, w1, py_bind, parseInt_natChars, py_bind] at hr
  obtain ⟨_, -, hr⟩ := bind_ok_iff.1 hr
  obtain ⟨_, -, hr⟩ := bind_ok_iff.1 hr
  obtain ⟨P, -, hr⟩ := bind_ok_iff.1 hr
  obtain ⟨c, hc, hr⟩ := bind_ok_iff.1 hr
  rw [List.length_drop, hl, Nat.sub_self, Nat.cast_zero, pyRange_self] at hr
  have e : c = c' := Except.ok.inj hr
  subst e
  unfold new at hc
  obtain ⟨_, -, hc⟩ := bind_ok_iff.1 hc
  obtain ⟨_, -, hc⟩ := bind_ok_iff.1 hc
  refine ⟨P.toNat, ?_⟩
  rw [← Except.ok.inj hc]
  simp only [part, mk, Int.toNat_natCast, List.not_mem_nil, exists_false, if_false, List.map_const', List.length_range]

theorem allLines_isLine (F P : ℕ) (fq : ℕ → Flt) (v z : ℕ → ℕ → Flt × Flt) : ∀ l ∈ allLines F P fq v z, IsLine l := by
  intro l hl
  simp only [allLines, List.mem_cons, List.mem_flatMap] at hl
  rcases hl with rfl | rfl | rfl | ⟨s, _, hs⟩
  · exact ⟨['E', 'm', 'b', 'e', 'd', 'd', 'i', 'n', 'g', ' ', 'C', 'i', 'r', 'c', 'u', 'i', 't',
      ':'], by simp, by simp⟩
  · exact isLine_headF F
  · exact isLine_headP P
  · simp only [block, List.mem_cons, List.not_mem_nil, or_false] at hs
    rcases hs with rfl | rfl | rfl
    · exact isLine_line1 _ _ _
    · exact isLine_line2 _
    · exact isLine_line3 _

theorem blocks_length (fq : ℕ → Flt) (v z : ℕ → ℕ → Flt × Flt) (l : List (ℕ × ℕ)) :
    (l.flatMap (block fq v z)).length = 3 * l.length := by
  induction l with
  | nil => rfl
  | cons a pre ih => simp [ih, block]; ring

theorem allLines_length (F P : ℕ) (fq : ℕ → Flt) (v z : ℕ → ℕ → Flt × Flt) : (allLines F P fq v z).length = 3 + 3 * (F * P) := by
  simp only [allLines, List.length_cons, blocks_length, sig_length]
  ring

/-- A file with whole signals. -/
theorem read_whole (T : FloatFormat) {F P : ℕ} (hF : 1 ≤ F ∧ F ≤ 4) (hP : 1 ≤ P) (fq : ℕ → Flt) (v z : ℕ → ℕ → Flt × Flt) (n : ℕ) :
    read T ((allLines F P fq v z).take (3 * n + 3)).flatten = .ok (part T F P fq v z ((sig F P).take n)) := by
  have a := lines_cut (fun l hl => allLines_isLine F P fq v z l (List.mem_of_mem_take hl)) (w := []) (by simp)
    (L := (allLines F P fq v z).take (3 * n + 3))
  rw [List.append_nil, if_pos rfl, List.append_nil] at a
  have htk : (allLines F P fq v z).take (3 * n + 3) = ['E', 'm', 'b', 'e', 'd', 'd', 'i', 'n', 'g', ' ', 'C', 'i', 'r', 'c', 'u', 'i', 't', ':',
      '\n'] :: headF F :: headP P :: ((sig F P).flatMap (block fq v z)).take (3 * n) := rfl
  have b1 := (take_blocks fq v z (sig F P) n 0 (by norm_num)).1
  have e0 : ((sig F P)[n]?.elim [] fun s => (block fq v z s).take 0) = [] := by cases (sig F P)[n]? <;> rfl
  rw [e0, List.append_nil, add_zero] at b1
  rw [htk, b1] at a
  rw [htk, b1, read_head T hF hP fq v z (by rw [a]; rfl) (by rw [a]; rfl), a]
  have hd : (['E', 'm', 'b', 'e', 'd', 'd', 'i', 'n', 'g', ' ', 'C', 'i', 'r', 'c', 'u', 'i', 't', ':',
      '\n'] :: headF F :: headP P :: ((sig F P).take n).flatMap (block fq v z)).drop 3 = ((sig F P).take n).flatMap (block fq v z) := rfl
  have := readLoop T (F := F) (P := P) fq v z ((sig F P).take n) [] (by
    rintro ⟨f, p⟩ hm
    have hm := mem_sig.1 (List.mem_of_mem_take hm)
    exact ⟨hm.1.2, hm.2.2⟩)
  simp only [List.nil_append, List.length_nil, Nat.mul_zero, Nat.cast_zero] at this
  rw [hd, blocks_length, this]

/-- What is read from the beginning of a file. -/
theorem read_prefix (T : FloatFormat) {F P : ℕ} (hF : 1 ≤ F ∧ F ≤ 4) (hP : 1 ≤ P) (fq : ℕ → Flt) (v z : ℕ → ℕ → Flt × Flt)
    {t : List Char} (ht : t <+: (allLines F P fq v z).flatten) {c' : Circuit} (hr : read T t = .ok c') :
    (∃ P', c' = part T F P' fq v z [] ∧ t.getLast? ≠ some '\n') ∨
    (∃ m ≤ F * P, c' = part T F P fq v z ((sig F P).take m)) ∨
    ∃ m < F * P, ∃ s, (sig F P)[m]? = some s ∧ t.getLast? ≠ some '\n' ∧
      ∃ zt, (zt = rdc T 2 (z s.1 s.2) ∨ zt.2 = zeroFlt) ∧ c'.numF = F ∧ c'.numP = P ∧
      c'.freq = (part T F P fq v z ((sig F P).take (m + 1))).freq ∧ c'.vt = (part T F P fq v z ((sig F P).take (m + 1))).vt ∧
      set2 (part T F P fq v z ((sig F P).take m)).zt s.1 s.2 zt = .ok c'.zt := by
  have hL : ∀ l ∈ allLines F P fq v z, IsLine l := by
    intro l hl
    simp only [allLines, List.mem_cons, List.mem_flatMap] at hl
    rcases hl with rfl | rfl | rfl | ⟨s, _, hs⟩
    · exact ⟨['E', 'm', 'b', 'e', 'd', 'd', 'i', 'n', 'g', ' ', 'C', 'i', 'r', 'c', 'u', 'i', 't',
        ':'], by simp, by simp⟩
    · exact isLine_headF F
    · exact isLine_headP P
    · simp only [block, List.mem_cons, List.not_mem_nil, or_false] at hs
      rcases hs with rfl | rfl | rfl
      · exact isLine_line1 _ _ _
      · exact isLine_line2 _
      · exact isLine_line3 _
  obtain ⟨n, w, hn, hw, rfl, hx⟩ := prefix_lines hL ht
  have hlines := lines_cut (fun l hl => hL l (List.mem_of_mem_take hl)) hw (L := (allLines F P fq v z).take n)
  have hlast : w ≠ [] → ((List.take n (allLines F P fq v z)).flatten ++ w).getLast? ≠ some '\n' := by
    intro h0 e
    rw [List.getLast?_append_of_ne_nil _ h0] at e
    exact hw (List.mem_of_getLast? e)
  by_cases h3 : n < 3
  · by_cases h2 : n = 2 ∧ w ≠ []
    · left
      obtain ⟨rfl, h0⟩ := h2
      rw [if_neg h0] at hlines
      obtain ⟨P', e⟩ := read_three T fq v z (F := F) (by rw [hlines]; rfl) (by rw [hlines]; rfl) hr
      exact ⟨P', e, hlast h0⟩
    · refine absurd hr (read_short T ?_)
      rw [hlines, List.length_append, List.length_take]
      split_ifs with h0
      · simp; omega
      · simp only [List.length_singleton]
        have : n ≠ 2 := fun e => h2 ⟨e, h0⟩
        omega
  · right
    obtain ⟨k, rfl⟩ : ∃ k, n = k + 3 := ⟨n - 3, by omega⟩
    have htk : (allLines F P fq v z).take (k + 3) = ['E', 'm', 'b', 'e', 'd', 'd', 'i', 'n', 'g', ' ', 'C', 'i', 'r', 'c', 'u', 'i', 't', ':',
      '\n'] :: headF F :: headP P :: ((sig F P).flatMap (block fq v z)).take k := rfl
    have hgt : (allLines F P fq v z)[k + 3]? = ((sig F P).flatMap (block fq v z))[k]? := rfl
    rw [htk] at hlines
    have hk : k = 3 * (k / 3) + k % 3 := (Nat.div_add_mod k 3).symm
    have hr3 : k % 3 < 3 := Nat.mod_lt _ (by norm_num)
    obtain ⟨b1, b2⟩ := take_blocks fq v z (sig F P) (k / 3) (k % 3) hr3
    rw [← hk] at b1 b2
    rw [htk, read_head T hF hP fq v z (by rw [hlines]; rfl) (by rw [hlines]; rfl), hlines] at hr
    have hd : (['E', 'm', 'b', 'e', 'd', 'd', 'i', 'n', 'g', ' ', 'C', 'i', 'r', 'c', 'u', 'i', 't', ':',
      '\n'] :: headF F :: headP P :: ((sig F P).flatMap (block fq v z)).take k ++ if w = [] then [] else [w]).drop 3 =
      ((sig F P).flatMap (block fq v z)).take k ++ if w = [] then [] else [w] := rfl
    rw [hd, b1] at hr
    have hlen : (allLines F P fq v z).length = 3 + 3 * (F * P) := by
      have : ((sig F P).flatMap (block fq v z)).length = 3 * (sig F P).length := by
        induction sig F P with
        | nil => rfl
        | cons a pre ih => simp [ih, block]; ring
      simp only [allLines, List.length_cons, this, sig_length]
      ring
    rcases lt_or_ge (k / 3) (F * P) with hm | hm
    · have hm' : k / 3 < (sig F P).length := by rw [sig_length]; exact hm
      set s := (sig F P)[k / 3] with hs
      have hs' : (sig F P)[k / 3]? = some s := List.getElem?_eq_getElem hm'
      rw [hs'] at hr b2
      simp only [Option.elim_some, List.append_assoc] at hr
      have split : sig F P = (sig F P).take (k / 3) ++ s :: (sig F P).drop (k / 3 + 1) := by
        rw [hs, ← List.drop_eq_getElem_cons hm', List.take_append_drop]
      have key := read_cut T (F := F) (P := P) fq v z ((sig F P).take (k / 3)) ((sig F P).drop (k / 3 + 1)) s
        (by
          rw [← split]
          rintro ⟨f, p⟩ h'
          rw [mem_sig] at h'
          exact ⟨h'.1.2, h'.2.2⟩) hr3 (w := w) (by
          rcases hx with h | ⟨l, x, h, e⟩
          · exact Or.inl h
          · rw [hgt, b2] at h
            exact Or.inr ⟨l, x, h, e⟩) hr
      rcases key with key | ⟨h0, zt, q0, q1, q2, q3, q4, q5⟩
      · exact Or.inl ⟨k / 3, hm.le, key⟩
      · right
        have ht1 : (sig F P).take (k / 3 + 1) = (sig F P).take (k / 3) ++ [s] := by
          rw [List.take_add_one, hs']; rfl
        exact ⟨k / 3, hm, s, hs', by rw [htk] at hlast; rw [htk]; exact hlast h0, zt, q0, q1, q2, by rw [q3, ht1], by rw [q4, ht1], q5⟩
    · left
      have hk' : k = 3 * (F * P) := by omega
      have hkd : k / 3 = F * P := by omega
      have hw0 : w = [] := by
        rcases hx with h | ⟨l, x, h, e⟩
        · exact h
        · rw [List.getElem?_eq_none (by omega)] at h
          cases h
      rw [if_pos hw0, List.append_nil, List.getElem?_eq_none (by rw [sig_length]; omega), Option.elim_none, List.append_nil,
        List.take_of_length_le (by rw [sig_length]; omega)] at hr
      refine ⟨F * P, le_rfl, ?_⟩
      have := readLoop T (F := F) (P := P) fq v z (sig F P) [] (by
        rintro ⟨f, p⟩ hm
        rw [mem_sig] at hm
        exact ⟨hm.1.2, hm.2.2⟩)
      have hln : ((sig F P).flatMap (block fq v z)).length = 3 * (sig F P).length := by
        have : (allLines F P fq v z).length = ((sig F P).flatMap (block fq v z)).length + 3 := rfl
        rw [sig_length]; omega
      simp only [List.nil_append, List.length_nil, Nat.mul_zero, Nat.cast_zero] at this
      rw [hln, this] at hr
      rw [List.take_of_length_le (by rw [sig_length])]
      exact (Except.ok.inj hr).symm

/-- A signal whose third line has another third word. -/
theorem readStep_other (T : FloatFormat) {F P : ℕ} (fq : ℕ → Flt) (v z : ℕ → ℕ → Flt × Flt)
    (pre : List (ℕ × ℕ)) (s : ℕ × ℕ) (hf : s.1 ≤ F) (hp : s.2 ≤ P) (data : List (List Char)) (i : ℕ)
    (h0 : data[i]? = some (line1 s.1 s.2 (fq s.1))) (h1 : data[i + 1]? = some (line2 (v s.1 s.2))) {w a b wz : List Char}
    (h2 : data[i + 2]? = some w) (hw : words w = [a, b, wz]) {zt : Flt × Flt} (hz : parseComplex T wz = .ok zt) :
    ∃ c', readStep T data (part T F P fq v z pre) i = .ok c' ∧ c'.numF = F ∧ c'.numP = P ∧
      set2 (part T F P fq v z pre).zt s.1 s.2 zt = .ok c'.zt := by
  unfold readStep
  rw [pyGet_of h0, py_bind]
  simp only [words_line1]
  have g0 : pyGet ([['f', '='] ++ natChars s.1 ++ [','], ['p', '='] ++ natChars s.2,
      ['f', 'r', 'e', 'q'], ['='], fmtFloat 4 (fq s.1), ['x'], natChars s.2]) 0 =
      .ok (['f', '='] ++ natChars s.1 ++ [',']) := rfl
  have g1 : pyGet ([['f', '='] ++ natChars s.1 ++ [','], ['p', '='] ++ natChars s.2,
      ['f', 'r', 'e', 'q'], ['='], fmtFloat 4 (fq s.1), ['x'], natChars s.2]) 1 =
      .ok (['p', '='] ++ natChars s.2) := rfl
  have g4 : pyGet ([['f', '='] ++ natChars s.1 ++ [','], ['p', '='] ++ natChars s.2,
      ['f', 'r', 'e', 'q'], ['='], fmtFloat 4 (fq s.1), ['x'], natChars s.2]) 4 =
      .ok (fmtFloat 4 (fq s.1)) := rfl
  have gc : pyGet (['f', '='] ++ natChars s.1 ++ [',']) 0 = .ok 'f' := by
    have : ['f', '='] ++ natChars s.1 ++ [','] = 'f' :: ('=' :: natChars s.1 ++ [',']) := by simp
    rw [this]
    exact pyGet_of (i := 0) rfl
  have s0 : searchDigits (['f', '='] ++ natChars s.1 ++ [',']) = .ok (natChars s.1) :=
    searchDigits_natChars _ _ _ (by decide) (by intro c hc; simp at hc; subst hc; decide)
  have s1 : searchDigits (['p', '='] ++ natChars s.2) = .ok (natChars s.2) := by
    have := searchDigits_natChars ['p', '='] s.2 [] (by decide) (by simp)
    rwa [List.append_nil] at this
  have gv : pyGet [['T', 'h', 'e', 'v', '.'], ['v', 'o', 'l', 't', 'a', 'g', 'e', ':'],
      fmtComplex 4 (v s.1 s.2), ['V'], ['/'],
      ['V', '_', 'g', 'a', 'p']] 2 = .ok (fmtComplex 4 (v s.1 s.2)) := rfl
  have gz : pyGet [a, b, wz] 2 = .ok wz := rfl
  have d1 : pyGet data ((i : ℤ) + 1) = .ok (line2 (v s.1 s.2)) := by
    have := pyGet_of h1; push_cast at this; exact this
  have d2 : pyGet data ((i : ℤ) + 2) = .ok w := by
    have := pyGet_of h2; push_cast at this; exact this
  rw [g0, py_bind, gc, py_bind, if_pos rfl, s0, py_bind, parseInt_natChars, py_bind, g1, py_bind,
      s1,
    py_bind, parseInt_natChars, py_bind, g4, py_bind, parseFloat_fmt, py_bind, d1, py_bind,
    words_line2, gv, py_bind, parseComplex_fmt, py_bind, d2, py_bind, hw, gz, py_bind,
    hz, py_bind]
  simp only [part, mk]
  rw [pySet_map _ _ (by omega), py_bind, set2_map _ _ (by omega) (by omega), py_bind,
    set2_map _ _ (by omega) (by omega), py_bind]
  exact ⟨_, rfl, rfl, rfl, rfl⟩

/-- The third line cut off after the real part. -/
theorem words_real (z : Flt × Flt) :
    words (['\t', 'T', 'h', 'e', 'v', '.', ' ', 'i', 'm', 'p', 'e', 'd', 'a', 'n', 'c', 'e', ':',
      '\t'] ++ fmtFloat 2 z.1) = [['T', 'h', 'e', 'v', '.'], ['i', 'm', 'p', 'e', 'd', 'a', 'n', 'c', 'e', ':'], fmtFloat 2 z.1] := by
  have e : ['\t', 'T', 'h', 'e', 'v', '.', ' ', 'i', 'm', 'p', 'e', 'd', 'a', 'n', 'c', 'e', ':',
      '\t'] ++ fmtFloat 2 z.1 = '\t' :: (['T', 'h', 'e', 'v', '.'] ++ ' ' :: (['i', 'm', 'p', 'e', 'd', 'a',
      'n', 'c', 'e', ':'] ++ '\t' :: (fmtFloat 2 z.1 ++ []))) := by
    simp
  have lit : ∀ w : List Char, w.all (fun c => !isSpace c) = true → Solid w := by
    intro w h c hc
    have := List.all_eq_true.1 h c hc
    simpa using this
  have hne : fmtFloat 2 z.1 ≠ [] := by unfold fmtFloat decChars; simp
  rw [words, e, words_space (by decide), words_word (lit _ (by decide)) (by simp) (by decide),
    words_word (lit _ (by decide)) (by simp) (by decide), wordsAux_solid (solid_fmtFloat _ _), List.nil_append, wordsAux, if_neg hne]

theorem parseComplex_real (T : FloatFormat) (d : ℕ) (x : Flt) : parseComplex T (fmtFloat d x) = .ok (rd T d x, zeroFlt) := by
  have := scan_dec T (if x.neg then ['-'] else []) (by cases x.neg <;> simp) d (scaled d x) [] (by simp)
  rw [List.append_nil] at this
  unfold parseComplex fmtFloat
  rw [this]
  simp only [py_bind, if_true]
  unfold rd
  cases x.neg <;> rfl

/-- A file cut off after the real part of its last impedance. -/
theorem read_real (T : FloatFormat) {F P : ℕ} (hF : 1 ≤ F ∧ F ≤ 4) (hP : 1 ≤ P) (fq : ℕ → Flt) (v z : ℕ → ℕ → Flt × Flt) :
    ∃ t c' zt, t <+: (allLines F P fq v z).flatten ∧ t ≠ (allLines F P fq v z).flatten ∧ read T t = .ok c' ∧ c'.numF = F ∧ c'.numP = P ∧
      zt = (rd T 2 (z F P).1, zeroFlt) ∧
      set2 (part T F P fq v z ((sig F P).take (F * P - 1))).zt F P zt = .ok c'.zt := by
  have hFP : 0 < F * P := Nat.mul_pos (by omega) (by omega)
  set w := ['\t', 'T', 'h', 'e', 'v', '.', ' ', 'i', 'm', 'p', 'e', 'd', 'a', 'n', 'c', 'e', ':', '\t'] ++ fmtFloat 2 (z F P).1 with hw
  set pre := (sig F P).take (F * P - 1) with hpre
  have hlast : (sig F P)[F * P - 1]? = some (F, P) := by
    rw [sig_eq, List.getElem?_map, List.getElem?_range (by omega), Option.map_some]
    have e : F * P - 1 = P * (F - 1) + (P - 1) := by
      obtain ⟨F', rfl⟩ : ∃ F', F = F' + 1 := ⟨F - 1, by omega⟩
      rw [Nat.add_sub_cancel, Nat.succ_mul, Nat.mul_comm F' P]
      omega
    rw [e, Nat.mul_add_div (by omega), Nat.mul_add_mod, Nat.div_eq_of_lt (by omega), Nat.mod_eq_of_lt (by omega)]
    congr 1
    ext
    · show F - 1 + 0 + 1 = F; omega
    · show P - 1 + 1 = P; omega
  have hsig : sig F P = pre ++ [(F, P)] := by
    have : (sig F P).take (F * P - 1 + 1) = pre ++ [(F, P)] := by rw [List.take_add_one, hlast]; rfl
    rw [← this, List.take_of_length_le (by rw [sig_length]; omega)]
  have hpl : pre.length = F * P - 1 := by rw [hpre, List.length_take, sig_length]; omega
  set rest := (if (z F P).2.neg then '-' else '+') :: decChars 2 (scaled 2 (z F P).2) ++ ['j'] ++ [' ', 'o', 'h', 'm', 's', ' ', '/', ' ', 'R', '_', 'N', '\n'] with hrest
  have hl3 : line3 (z F P) = w ++ rest := by
    rw [hw, hrest]
    simp [line3, fmtComplex]
  set L := ['E', 'm', 'b', 'e', 'd', 'd', 'i', 'n', 'g', ' ', 'C', 'i', 'r', 'c', 'u', 'i', 't', ':',
      '\n'] :: headF F :: headP P :: (pre.flatMap (block fq v z) ++ [line1 F P (fq F), line2 (v F P)]) with hL
  have hall : allLines F P fq v z = L ++ [line3 (z F P)] := by
    rw [hL]
    simp [allLines, hsig, block]
  have hwn : w ≠ [] := by rw [hw]; simp
  have hwl : '\n' ∉ w := by
    rw [hw, List.mem_append]
    rintro (h | h)
    · exact absurd h (by decide)
    · exact solid_no_newline (solid_fmtFloat _ _) h
  have hlines := lines_cut (L := L) (fun l hl => allLines_isLine F P fq v z l (by rw [hall]; exact List.mem_append_left _ hl)) hwl
  rw [if_neg hwn] at hlines
  set tail := [line1 F P (fq F), line2 (v F P), w] with htail
  have hdrop : (lines (L.flatten ++ w)).drop 3 = pre.flatMap (block fq v z) ++ tail := by
    rw [hlines, hL, htail]
    simp
  have hmem : ∀ s' ∈ pre, s'.1 ≤ F ∧ s'.2 ≤ P := by
    rintro ⟨f, p⟩ hm
    have hm := mem_sig.1 (List.mem_of_mem_take hm)
    exact ⟨hm.1.2, hm.2.2⟩
  have get : ∀ j, (pre.flatMap (block fq v z) ++ tail)[3 * pre.length + j]? = tail[j]? := by
    intro j
    rw [List.getElem?_append_right (by rw [blocks_length]; omega), blocks_length, Nat.add_sub_cancel_left]
  obtain ⟨c', k1, k2, k3, k4⟩ := readStep_other T (F := F) (P := P) fq v z pre (F, P) le_rfl le_rfl (pre.flatMap (block fq v z) ++ tail)
    (3 * pre.length) ((get 0).trans rfl) ((get 1).trans rfl) ((get 2).trans rfl) (words_real (z F P)) (parseComplex_real T 2 (z F P).1)
  refine ⟨L.flatten ++ w, c', _, ⟨rest, ?_⟩, ?_, ?_, k2, k3, rfl, k4⟩
  · rw [hall, List.flatten_append, List.flatten_singleton, hl3, List.append_assoc]
  · intro e
    rw [hall, List.flatten_append, List.flatten_singleton, hl3, List.append_cancel_left_eq] at e
    have := congrArg List.length e
    rw [hrest] at this
    simp at this
  · rw [read_head T hF hP fq v z (by rw [hlines]; rfl) (by rw [hlines]; rfl), hdrop, List.length_append, blocks_length,
      show tail.length = 3 from rfl, pyRange_split (b := ((3 * pre.length : ℕ) : ℤ)) (by positivity) (by push_cast; omega), pyFor_split]
    have hloop := readLoop_tail T (F := F) (P := P) fq v z tail pre [] hmem
    simp only [List.nil_append, List.length_nil, Nat.mul_zero, Nat.cast_zero] at hloop
    rw [hloop, py_bind, pyRange_cons (by push_cast; omega), pyRange_cons (by push_cast; omega), pyRange_cons (by push_cast; omega), pyFor,
      k1]
    simp only
    rw [pyFor, show ((3 * pre.length : ℕ) : ℤ) + 1 = ((3 * pre.length + 1 : ℕ) : ℤ) by push_cast; ring,
      readStep_skip T _ _ (3 * pre.length + 1) _ (Or.inl ((get 1).trans rfl))]
    simp only
    rw [pyFor, show ((3 * pre.length + 1 : ℕ) : ℤ) + 1 = ((3 * pre.length + 2 : ℕ) : ℤ) by push_cast; ring]
    have hskip : readStep T (pre.flatMap (block fq v z) ++ tail) c' ((3 * pre.length + 2 : ℕ) : ℤ) = .ok c' := by
      unfold readStep
      rw [pyGet_of ((get 2).trans rfl), py_bind]
      simp only
      rw [words_real]
      rfl
    rw [hskip]
    simp only
    rw [show ((3 * pre.length + 3 : ℕ) : ℤ) = ((3 * pre.length + 2 : ℕ) : ℤ) + 1 by push_cast; ring, pyRange_self]
    rfl

end QMix.IO
