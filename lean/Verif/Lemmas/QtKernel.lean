import Verif.Lemmas.QtRefine

/-! The response matrices and the four kernels compute the specification. -/

namespace QMix.Qt

open Complex Finset

variable {ι : Type} {α : Type*}

/-- Two-index version of `Rep`. -/
def Rep2 (M N : ℕ) (arr : List (List α)) (c : ℤ → ℤ → α) : Prop :=
  ∃ rows, Rep M arr rows ∧ ∀ k : ℤ, |k| ≤ M → Rep N (rows k) (c k)

/-- Three-index version of `Rep`. -/
def Rep3 (M N O : ℕ) (arr : List (List (List α))) (c : ℤ → ℤ → ℤ → α) : Prop :=
  ∃ rows, Rep M arr rows ∧ ∀ k : ℤ, |k| ≤ M → Rep2 N O (rows k) (c k)

/-- Four-index version of `Rep`. -/
def Rep4 (M N O Q : ℕ) (arr : List (List (List (List α)))) (c : ℤ → ℤ → ℤ → ℤ → α) : Prop :=
  ∃ rows, Rep M arr rows ∧ ∀ k : ℤ, |k| ≤ M → Rep3 N O Q (rows k) (c k)

theorem indArr_rep (nb : ℕ) : Rep nb (indArr nb) id := by
  have hlen : (indArr nb).length = 2 * nb + 1 := by
    unfold indArr; rw [List.length_append, pyRange_length, pyRange_length]; omega
  refine ⟨hlen, fun k hk => ?_⟩
  have hk' := abs_le.1 hk
  by_cases h0 : 0 ≤ k
  · apply pyGet_ok_of_getElem? (i := k.toNat)
    · rw [hlen]; exact pyIndex_nonneg h0 (by push_cast; omega)
    · unfold indArr
      rw [List.getElem?_append_left (by rw [pyRange_length]; omega)]
      unfold pyRange
      rw [List.getElem?_map, List.getElem?_range (by omega)]
      simp [h0]
  · apply pyGet_ok_of_getElem? (i := (k + (2 * nb + 1 : ℕ)).toNat)
    · rw [hlen]; exact pyIndex_neg (by push_cast; omega) (by omega)
    · unfold indArr
      rw [List.getElem?_append_right (by rw [pyRange_length]; push_cast; omega), pyRange_length]
      unfold pyRange
      rw [List.getElem?_map, List.getElem?_range (by push_cast; omega)]
      simp only [Option.map_some, id, Option.some.injEq]
      push_cast
      omega

theorem interp1_rep (resp : ℝ → ℂ) (vb : ι → ℝ) (freq : ℕ → ℝ) (nb1 : ℕ) :
    Rep nb1 (interp1 resp vb freq nb1) fun k i => resp (vb i + k * freq 1) :=
  (indArr_rep nb1).map fun (k : ℤ) i => resp (vb i + k * freq 1)

theorem interp2_rep (resp : ℝ → ℂ) (vb : ι → ℝ) (freq : ℕ → ℝ) (nb1 nb2 : ℕ) :
    Rep2 nb1 nb2 (interp2 resp vb freq nb1 nb2)
      fun k l i => resp (vb i + k * freq 1 + l * freq 2) :=
  ⟨_, (indArr_rep nb1).map fun (k : ℤ) => (indArr nb2).map fun (l : ℤ) i =>
      resp (vb i + k * freq 1 + l * freq 2),
    fun k _ => (indArr_rep nb2).map fun (l : ℤ) i => resp (vb i + k * freq 1 + l * freq 2)⟩

theorem rep2_replicate (M N : ℕ) (x : α) :
    Rep2 M N (List.replicate (M * 2 + 1) (List.replicate (N * 2 + 1) x)) fun _ _ => x :=
  ⟨_, rep_replicate M _, fun _ _ => rep_replicate N x⟩

theorem rep3_replicate (M N O : ℕ) (x : α) :
    Rep3 M N O (List.replicate (M * 2 + 1) (List.replicate (N * 2 + 1) (List.replicate (O * 2 + 1) x)))
      fun _ _ _ => x :=
  ⟨_, rep_replicate M _, fun _ _ => rep2_replicate N O x⟩

theorem rep4_replicate (M N O Q : ℕ) (x : α) :
    Rep4 M N O Q (List.replicate (M * 2 + 1) (List.replicate (N * 2 + 1)
      (List.replicate (O * 2 + 1) (List.replicate (Q * 2 + 1) x)))) fun _ _ _ _ => x :=
  ⟨_, rep_replicate M _, fun _ _ => rep3_replicate N O Q x⟩

theorem Rep2.map {β : Type*} {M N : ℕ} {arr : List (List α)} {c : ℤ → ℤ → α} (h : Rep2 M N arr c)
    (g : α → β) : Rep2 M N (arr.map fun a => a.map g) fun k l => g (c k l) := by
  obtain ⟨rows, hr, hc⟩ := h
  exact ⟨_, hr.map _, fun k hk => (hc k hk).map g⟩

theorem Rep3.map {β : Type*} {M N O : ℕ} {arr : List (List (List α))} {c : ℤ → ℤ → ℤ → α}
    (h : Rep3 M N O arr c) (g : α → β) :
    Rep3 M N O (arr.map fun a => a.map fun b => b.map g) fun k l m => g (c k l m) := by
  obtain ⟨rows, hr, hc⟩ := h
  exact ⟨_, hr.map _, fun k hk => (hc k hk).map g⟩

theorem Rep4.map {β : Type*} {M N O Q : ℕ} {arr : List (List (List (List α)))}
    {c : ℤ → ℤ → ℤ → ℤ → α} (h : Rep4 M N O Q arr c) (g : α → β) :
    Rep4 M N O Q (arr.map fun a => a.map fun b => b.map fun d => d.map g)
      fun k l m n => g (c k l m n) := by
  obtain ⟨rows, hr, hc⟩ := h
  exact ⟨_, hr.map _, fun k hk => (hc k hk).map g⟩

/-- Storing one entry in a 3-index array. -/
theorem Rep3.set {M N O : ℕ} {arr : List (List (List α))} {c : ℤ → ℤ → ℤ → α}
    (h : Rep3 M N O arr c) {k l m : ℤ} (hk : |k| ≤ M) (hl : |l| ≤ N) (hm : |m| ≤ O) (x : α) :
    ∃ arr', pySet3 arr k l m x = .ok arr' ∧
      Rep3 M N O arr' fun k' l' m' => if k' = k ∧ l' = l ∧ m' = m then x else c k' l' m' := by
  obtain ⟨rows, hr, hc⟩ := h
  obtain ⟨rows2, hr2, hc2⟩ := hc k hk
  obtain ⟨r2', e2, s2⟩ := (hc2 l hl).set hm x
  obtain ⟨r1', e1, s1⟩ := hr2.set hl r2'
  obtain ⟨arr', e0, s0⟩ := hr.set hk r1'
  refine ⟨arr', ?_, _, s0, ?_⟩
  · unfold pySet3
    rw [hr.get hk]
    change (do let r2 ← pyGet (rows k) l; let r2' ← pySet r2 m x
               let r1' ← pySet (rows k) l r2'; pySet arr k r1') = _
    rw [hr2.get hl]
    change (do let r2' ← pySet (rows2 l) m x
               let r1' ← pySet (rows k) l r2'; pySet arr k r1') = _
    rw [e2]
    change (do let r1' ← pySet (rows k) l r2'; pySet arr k r1') = _
    rw [e1]
    exact e0
  · intro k' hk'
    by_cases hkk : k' = k
    · subst hkk
      rw [Function.update_self]
      refine ⟨_, s1, fun l' hl' => ?_⟩
      by_cases hll : l' = l
      · subst hll
        rw [Function.update_self]
        refine s2.congr fun m' _ => ?_
        by_cases hmm : m' = m
        · subst hmm; simp
        · simp [hmm]
      · rw [Function.update_of_ne hll]
        exact (hc2 l' hl').congr fun m' _ => by simp [hll]
    · rw [Function.update_of_ne hkk]
      obtain ⟨rows3, hr3, hc3⟩ := hc k' hk'
      exact ⟨rows3, hr3, fun l' hl' => (hc3 l' hl').congr fun m' _ => by simp [hkk]⟩

/-- Storing one entry in a 4-index array. -/
theorem Rep4.set {M N O Q : ℕ} {arr : List (List (List (List α)))} {c : ℤ → ℤ → ℤ → ℤ → α}
    (h : Rep4 M N O Q arr c) {k l m n : ℤ} (hk : |k| ≤ M) (hl : |l| ≤ N) (hm : |m| ≤ O)
    (hn : |n| ≤ Q) (x : α) :
    ∃ arr', pySet4 arr k l m n x = .ok arr' ∧ Rep4 M N O Q arr' fun k' l' m' n' =>
      if k' = k ∧ l' = l ∧ m' = m ∧ n' = n then x else c k' l' m' n' := by
  obtain ⟨rows, hr, hc⟩ := h
  obtain ⟨r1', e1, s1⟩ := (hc k hk).set hl hm hn x
  obtain ⟨arr', e0, s0⟩ := hr.set hk r1'
  refine ⟨arr', ?_, _, s0, ?_⟩
  · unfold pySet4
    rw [hr.get hk]
    change (do let r1' ← pySet3 (rows k) l m n x; pySet arr k r1') = _
    rw [e1]
    exact e0
  · intro k' hk'
    by_cases hkk : k' = k
    · subst hkk
      rw [Function.update_self]
      simpa using s1
    · rw [Function.update_of_ne hkk]
      simpa [hkk] using hc k' hk'

theorem abs_le_of_mem_range {nb : ℕ} {k : ℤ} (h : k ∈ pyRange (-(nb : ℤ)) (nb + 1)) : |k| ≤ nb := by
  rw [mem_pyRange] at h; rw [abs_le]; omega

theorem mem_range_of_abs_le {nb : ℕ} {k : ℤ} (h : |k| ≤ nb) : k ∈ pyRange (-(nb : ℤ)) (nb + 1) := by
  rw [abs_le] at h; rw [mem_pyRange]; omega

theorem interp3_rep (resp : ℝ → ℂ) (vb : ι → ℝ) (freq : ℕ → ℝ) (nb1 nb2 nb3 : ℕ) :
    ∃ m, interp3 resp vb freq nb1 nb2 nb3 = .ok m ∧ Rep3 nb1 nb2 nb3 m
      fun k l m i => resp (vb i + k * freq 1 + l * freq 2 + m * freq 3) := by
  let V : ℤ → ℤ → ℤ → ι → ℝ := fun k l m i => vb i + k * freq 1 + l * freq 2 + m * freq 3
  -- innermost loop
  have L3 : ∀ k l : ℤ, |k| ≤ nb1 → |l| ≤ nb2 → ∀ arr c, Rep3 nb1 nb2 nb3 arr c →
      ∃ arr', pyFor (pyRange (-(nb3 : ℤ)) (nb3 + 1)) arr (fun v m => pySet3 v k l m (V k l m))
        = .ok arr' ∧ Rep3 nb1 nb2 nb3 arr'
          fun k' l' m' => if k' = k ∧ l' = l ∧ |m'| ≤ nb3 then V k' l' m' else c k' l' m' := by
    intro k l hk hl arr c hc
    obtain ⟨arr', e, r⟩ := pyFor_inv (l := pyRange (-(nb3 : ℤ)) (nb3 + 1))
      (body := fun v m => pySet3 v k l m (V k l m))
      (fun pre a => Rep3 nb1 nb2 nb3 a
        fun k' l' m' => if k' = k ∧ l' = l ∧ m' ∈ pre then V k' l' m' else c k' l' m') arr
      (by simpa using hc)
      (by
        intro pre m post s hpre hs
        have hm : m ∈ pyRange (-(nb3 : ℤ)) (nb3 + 1) := by rw [hpre]; simp
        obtain ⟨s', e', r'⟩ := hs.set hk hl (abs_le_of_mem_range hm) (V k l m)
        refine ⟨s', e', ?_⟩
        convert r' using 4 with k' l' m'
        by_cases h1 : k' = k ∧ l' = l ∧ m' = m
        · obtain ⟨rfl, rfl, rfl⟩ := h1; simp
        · rw [if_neg h1]
          by_cases h2 : k' = k ∧ l' = l
          · have h3 : m' ≠ m := fun h => h1 ⟨h2.1, h2.2, h⟩
            simp [h2.1, h2.2, h3]
          · have : ∀ P : Prop, ¬ (k' = k ∧ l' = l ∧ P) := fun P h => h2 ⟨h.1, h.2.1⟩
            rw [if_neg (this _), if_neg (this _)])
    refine ⟨arr', e, ?_⟩
    convert r using 4 with k' l' m'
    have : |m'| ≤ (nb3 : ℤ) ↔ m' ∈ pyRange (-(nb3 : ℤ)) (nb3 + 1) :=
      ⟨mem_range_of_abs_le, abs_le_of_mem_range⟩
    simp only [this]
  have L2 : ∀ k : ℤ, |k| ≤ nb1 → ∀ arr c, Rep3 nb1 nb2 nb3 arr c →
      ∃ arr', pyFor (pyRange (-(nb2 : ℤ)) (nb2 + 1)) arr (fun v l =>
        pyFor (pyRange (-(nb3 : ℤ)) (nb3 + 1)) v (fun v m => pySet3 v k l m (V k l m)))
        = .ok arr' ∧ Rep3 nb1 nb2 nb3 arr'
          fun k' l' m' => if k' = k ∧ |l'| ≤ nb2 ∧ |m'| ≤ nb3 then V k' l' m' else c k' l' m' := by
    intro k hk arr c hc
    obtain ⟨arr', e, r⟩ := pyFor_inv (l := pyRange (-(nb2 : ℤ)) (nb2 + 1))
      (body := fun v l => pyFor (pyRange (-(nb3 : ℤ)) (nb3 + 1)) v
        (fun v m => pySet3 v k l m (V k l m)))
      (fun pre a => Rep3 nb1 nb2 nb3 a
        fun k' l' m' => if k' = k ∧ l' ∈ pre ∧ |m'| ≤ nb3 then V k' l' m' else c k' l' m') arr
      (by simpa using hc)
      (by
        intro pre l post s hpre hs
        have hl : l ∈ pyRange (-(nb2 : ℤ)) (nb2 + 1) := by rw [hpre]; simp
        obtain ⟨s', e', r'⟩ := L3 k l hk (abs_le_of_mem_range hl) s _ hs
        refine ⟨s', e', ?_⟩
        convert r' using 4 with k' l' m'
        by_cases h1 : k' = k ∧ |m'| ≤ nb3
        · by_cases h2 : l' = l <;> simp [h1.1, h1.2, h2]
        · have h2 : ∀ P : Prop, ¬ (k' = k ∧ P ∧ |m'| ≤ nb3) := fun P h => h1 ⟨h.1, h.2.2⟩
          rw [if_neg (h2 _), if_neg (h2 _), if_neg (h2 _)])
    refine ⟨arr', e, ?_⟩
    convert r using 4 with k' l' m'
    have : |l'| ≤ (nb2 : ℤ) ↔ l' ∈ pyRange (-(nb2 : ℤ)) (nb2 + 1) :=
      ⟨mem_range_of_abs_le, abs_le_of_mem_range⟩
    simp only [this]
  obtain ⟨arr', e, r⟩ := pyFor_inv (l := pyRange (-(nb1 : ℤ)) (nb1 + 1))
      (body := fun v k => pyFor (pyRange (-(nb2 : ℤ)) (nb2 + 1)) v (fun v l =>
        pyFor (pyRange (-(nb3 : ℤ)) (nb3 + 1)) v (fun v m => pySet3 v k l m (V k l m))))
      (fun pre a => Rep3 nb1 nb2 nb3 a
        fun k' l' m' => if k' ∈ pre ∧ |l'| ≤ nb2 ∧ |m'| ≤ nb3 then V k' l' m' else 0)
      (List.replicate (nb1 * 2 + 1) (List.replicate (nb2 * 2 + 1)
        (List.replicate (nb3 * 2 + 1) (0 : ι → ℝ))))
      (by simpa using rep3_replicate nb1 nb2 nb3 (0 : ι → ℝ))
      (by
        intro pre k post s hpre hs
        have hk : k ∈ pyRange (-(nb1 : ℤ)) (nb1 + 1) := by rw [hpre]; simp
        obtain ⟨s', e', r'⟩ := L2 k (abs_le_of_mem_range hk) s _ hs
        refine ⟨s', e', ?_⟩
        convert r' using 4 with k' l' m'
        by_cases h1 : |l'| ≤ nb2 ∧ |m'| ≤ nb3
        · by_cases h2 : k' = k <;> simp [h1.1, h1.2, h2]
        · have h2 : ∀ P : Prop, ¬ (P ∧ |l'| ≤ nb2 ∧ |m'| ≤ nb3) := fun P h => h1 h.2
          rw [if_neg (h2 _), if_neg (h2 _), if_neg (h2 _)])
  refine ⟨arr'.map fun a => a.map fun b => b.map fun c i => resp (c i), ?_, ?_⟩
  · unfold interp3
    simp only []
    rw [e]
    rfl
  · obtain ⟨rows, hr, hc⟩ := r.map (fun (c : ι → ℝ) i => resp (c i))
    refine ⟨rows, hr, fun k hk => ?_⟩
    obtain ⟨rows2, hr2, hc2⟩ := hc k hk
    refine ⟨rows2, hr2, fun l hl => (hc2 l hl).congr fun m hm => ?_⟩
    simp only []
    rw [if_pos ⟨mem_range_of_abs_le hk, hl, hm⟩]

theorem interp4_rep (resp : ℝ → ℂ) (vb : ι → ℝ) (freq : ℕ → ℝ) (nb1 nb2 nb3 nb4 : ℕ) :
    ∃ m, interp4 resp vb freq nb1 nb2 nb3 nb4 = .ok m ∧ Rep4 nb1 nb2 nb3 nb4 m
      fun k l m n i => resp (vb i + k * freq 1 + l * freq 2 + m * freq 3 + n * freq 4) := by
  let V : ℤ → ℤ → ℤ → ℤ → ι → ℝ :=
    fun k l m n i => vb i + k * freq 1 + l * freq 2 + m * freq 3 + n * freq 4
  let B4 : ℤ → ℤ → ℤ → List (List (List (List (ι → ℝ)))) → ℤ → Py _ :=
    fun k l m v n => pySet4 v k l m n (V k l m n)
  let B3 : ℤ → ℤ → List (List (List (List (ι → ℝ)))) → ℤ → Py _ :=
    fun k l v m => pyFor (pyRange (-(nb4 : ℤ)) (nb4 + 1)) v (B4 k l m)
  let B2 : ℤ → List (List (List (List (ι → ℝ)))) → ℤ → Py _ :=
    fun k v l => pyFor (pyRange (-(nb3 : ℤ)) (nb3 + 1)) v (B3 k l)
  let B1 : List (List (List (List (ι → ℝ)))) → ℤ → Py _ :=
    fun v k => pyFor (pyRange (-(nb2 : ℤ)) (nb2 + 1)) v (B2 k)
  have hmem : ∀ (nb : ℕ) (x : ℤ), |x| ≤ (nb : ℤ) ↔ x ∈ pyRange (-(nb : ℤ)) (nb + 1) :=
    fun nb x => ⟨mem_range_of_abs_le, abs_le_of_mem_range⟩
  have L4 : ∀ k l m : ℤ, |k| ≤ nb1 → |l| ≤ nb2 → |m| ≤ nb3 → ∀ arr c,
      Rep4 nb1 nb2 nb3 nb4 arr c →
      ∃ arr', pyFor (pyRange (-(nb4 : ℤ)) (nb4 + 1)) arr (B4 k l m) = .ok arr' ∧
        Rep4 nb1 nb2 nb3 nb4 arr' fun k' l' m' n' =>
          if k' = k ∧ l' = l ∧ m' = m ∧ |n'| ≤ nb4 then V k' l' m' n' else c k' l' m' n' := by
    intro k l m hk hl hm arr c hc
    obtain ⟨arr', e, r⟩ := pyFor_inv (l := pyRange (-(nb4 : ℤ)) (nb4 + 1)) (body := B4 k l m)
      (fun pre a => Rep4 nb1 nb2 nb3 nb4 a fun k' l' m' n' =>
        if k' = k ∧ l' = l ∧ m' = m ∧ n' ∈ pre then V k' l' m' n' else c k' l' m' n') arr
      (by simpa using hc)
      (by
        intro pre n post s hpre hs
        have hn : n ∈ pyRange (-(nb4 : ℤ)) (nb4 + 1) := by rw [hpre]; simp
        obtain ⟨s', e', r'⟩ := hs.set hk hl hm (abs_le_of_mem_range hn) (V k l m n)
        refine ⟨s', e', ?_⟩
        convert r' using 5 with k' l' m' n'
        by_cases h1 : k' = k ∧ l' = l ∧ m' = m
        · obtain ⟨rfl, rfl, rfl⟩ := h1
          by_cases h2 : n' = n
          · subst h2; simp
          · simp [h2]
        · have : ∀ P : Prop, ¬ (k' = k ∧ l' = l ∧ m' = m ∧ P) :=
            fun P h => h1 ⟨h.1, h.2.1, h.2.2.1⟩
          rw [if_neg (this _), if_neg (this _), if_neg (this _)])
    refine ⟨arr', e, ?_⟩
    convert r using 5 with k' l' m' n'
    simp only [hmem]
  have L3 : ∀ k l : ℤ, |k| ≤ nb1 → |l| ≤ nb2 → ∀ arr c,
      Rep4 nb1 nb2 nb3 nb4 arr c →
      ∃ arr', pyFor (pyRange (-(nb3 : ℤ)) (nb3 + 1)) arr (B3 k l) = .ok arr' ∧
        Rep4 nb1 nb2 nb3 nb4 arr' fun k' l' m' n' =>
          if k' = k ∧ l' = l ∧ |m'| ≤ nb3 ∧ |n'| ≤ nb4 then V k' l' m' n' else c k' l' m' n' := by
    intro k l hk hl arr c hc
    obtain ⟨arr', e, r⟩ := pyFor_inv (l := pyRange (-(nb3 : ℤ)) (nb3 + 1)) (body := B3 k l)
      (fun pre a => Rep4 nb1 nb2 nb3 nb4 a fun k' l' m' n' =>
        if k' = k ∧ l' = l ∧ m' ∈ pre ∧ |n'| ≤ nb4 then V k' l' m' n' else c k' l' m' n') arr
      (by simpa using hc)
      (by
        intro pre m post s hpre hs
        have hm : m ∈ pyRange (-(nb3 : ℤ)) (nb3 + 1) := by rw [hpre]; simp
        obtain ⟨s', e', r'⟩ := L4 k l m hk hl (abs_le_of_mem_range hm) s _ hs
        refine ⟨s', e', ?_⟩
        convert r' using 5 with k' l' m' n'
        by_cases h1 : k' = k ∧ l' = l ∧ |n'| ≤ nb4
        · by_cases h2 : m' = m <;> simp [h1.1, h1.2.1, h1.2.2, h2]
        · have : ∀ P : Prop, ¬ (k' = k ∧ l' = l ∧ P ∧ |n'| ≤ nb4) :=
            fun P h => h1 ⟨h.1, h.2.1, h.2.2.2⟩
          rw [if_neg (this _), if_neg (this _), if_neg (this _)])
    refine ⟨arr', e, ?_⟩
    convert r using 5 with k' l' m' n'
    simp only [hmem nb3]
  have L2 : ∀ k : ℤ, |k| ≤ nb1 → ∀ arr c, Rep4 nb1 nb2 nb3 nb4 arr c →
      ∃ arr', pyFor (pyRange (-(nb2 : ℤ)) (nb2 + 1)) arr (B2 k) = .ok arr' ∧
        Rep4 nb1 nb2 nb3 nb4 arr' fun k' l' m' n' =>
          if k' = k ∧ |l'| ≤ nb2 ∧ |m'| ≤ nb3 ∧ |n'| ≤ nb4 then V k' l' m' n'
          else c k' l' m' n' := by
    intro k hk arr c hc
    obtain ⟨arr', e, r⟩ := pyFor_inv (l := pyRange (-(nb2 : ℤ)) (nb2 + 1)) (body := B2 k)
      (fun pre a => Rep4 nb1 nb2 nb3 nb4 a fun k' l' m' n' =>
        if k' = k ∧ l' ∈ pre ∧ |m'| ≤ nb3 ∧ |n'| ≤ nb4 then V k' l' m' n' else c k' l' m' n') arr
      (by simpa using hc)
      (by
        intro pre l post s hpre hs
        have hl : l ∈ pyRange (-(nb2 : ℤ)) (nb2 + 1) := by rw [hpre]; simp
        obtain ⟨s', e', r'⟩ := L3 k l hk (abs_le_of_mem_range hl) s _ hs
        refine ⟨s', e', ?_⟩
        convert r' using 5 with k' l' m' n'
        by_cases h1 : k' = k ∧ |m'| ≤ nb3 ∧ |n'| ≤ nb4
        · by_cases h2 : l' = l <;> simp [h1.1, h1.2.1, h1.2.2, h2]
        · have : ∀ P : Prop, ¬ (k' = k ∧ P ∧ |m'| ≤ nb3 ∧ |n'| ≤ nb4) :=
            fun P h => h1 ⟨h.1, h.2.2⟩
          rw [if_neg (this _), if_neg (this _), if_neg (this _)])
    refine ⟨arr', e, ?_⟩
    convert r using 5 with k' l' m' n'
    simp only [hmem nb2]
  obtain ⟨arr', e, r⟩ := pyFor_inv (l := pyRange (-(nb1 : ℤ)) (nb1 + 1)) (body := B1)
      (fun pre a => Rep4 nb1 nb2 nb3 nb4 a fun k' l' m' n' =>
        if k' ∈ pre ∧ |l'| ≤ nb2 ∧ |m'| ≤ nb3 ∧ |n'| ≤ nb4 then V k' l' m' n' else 0)
      (List.replicate (nb1 * 2 + 1) (List.replicate (nb2 * 2 + 1)
        (List.replicate (nb3 * 2 + 1) (List.replicate (nb4 * 2 + 1) (0 : ι → ℝ)))))
      (by simpa using rep4_replicate nb1 nb2 nb3 nb4 (0 : ι → ℝ))
      (by
        intro pre k post s hpre hs
        have hk : k ∈ pyRange (-(nb1 : ℤ)) (nb1 + 1) := by rw [hpre]; simp
        obtain ⟨s', e', r'⟩ := L2 k (abs_le_of_mem_range hk) s _ hs
        refine ⟨s', e', ?_⟩
        convert r' using 5 with k' l' m' n'
        by_cases h1 : |l'| ≤ nb2 ∧ |m'| ≤ nb3 ∧ |n'| ≤ nb4
        · by_cases h2 : k' = k <;> simp [h1.1, h1.2.1, h1.2.2, h2]
        · have : ∀ P : Prop, ¬ (P ∧ |l'| ≤ nb2 ∧ |m'| ≤ nb3 ∧ |n'| ≤ nb4) := fun P h => h1 h.2
          rw [if_neg (this _), if_neg (this _), if_neg (this _)])
  refine ⟨arr'.map fun a => a.map fun b => b.map fun c => c.map fun d i => resp (d i), ?_, ?_⟩
  · unfold interp4
    simp only []
    rw [show (pyFor (pyRange (-(nb1 : ℤ)) (nb1 + 1)) _ _) = _ from e]
    rfl
  · obtain ⟨rows, hr, hc⟩ := r.map (fun (c : ι → ℝ) i => resp (c i))
    refine ⟨rows, hr, fun k hk => ?_⟩
    obtain ⟨rows2, hr2, hc2⟩ := hc k hk
    refine ⟨rows2, hr2, fun l hl => ?_⟩
    obtain ⟨rows3, hr3, hc3⟩ := hc2 l hl
    refine ⟨rows3, hr3, fun m hm => (hc3 m hm).congr fun n hn => ?_⟩
    simp only []
    rw [if_pos ⟨mem_range_of_abs_le hk, hl, hm, hn⟩]

end QMix.Qt
