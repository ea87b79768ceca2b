import Verif.Lemmas.QtCurrent

/-! `qtcurrent` computes the current of the specification. -/

namespace QMix.Qt

open Complex Finset

variable {ι : Type}

theorem mix_sum {σ : Type*} [AddCommMonoid σ] (P : ℕ) {body : σ → ℤ → Py σ} {g : ℤ → σ}
    (h : ∀ k s, body s k = .ok (s + g k)) (s : σ) :
    pyFor (mixRange P) s body = .ok (s + ∑ k ∈ Icc (-(P : ℤ)) P, g k) := by
  unfold mixRange
  rw [pyFor_add (g := g) (fun k _ s => h k s),
    show -((P : ℤ) + 1) = -(P : ℤ) - 1 by ring, sum_pyRangeDown]

theorem step_add {c : Prop} [Decidable c] {e : Py (Arr ι)} {x : Arr ι} (h : e = .ok x)
    (out : Arr ι) : (if c then (do let y ← e; pure (out + y)) else pure out)
      = (Except.ok (out + if c then x else 0) : Py (Arr ι)) := by
  by_cases hc : c
  · rw [if_pos hc, if_pos hc, h]; rfl
  · rw [if_neg hc, if_neg hc, add_zero]; rfl

theorem current1_spec {ccc : ℕ → List (Arr ι)} {freq : ℕ → ℝ} {r : List (Arr ι)} {P nb1 M N : ℕ}
    {C : ℤ → Arr ι} (hc : Rep M (ccc 1) C) (hM : nb1 ≤ M) (hN : nb1 ≤ N)
    (resp : ℝ → ℂ) (vb : ι → ℝ) (hr : Reads N r fun k i => resp (vb i + k * freq 1)) (fout : ℝ) :
    current1 fout ccc freq r P nb1 = .ok fun i =>
      Spec.current resp P [⟨fun k => C k i, nb1, freq 1⟩] (vb i) fout := by
  unfold current1
  simp only []
  rw [mix_sum P (fun a s => step_add (c := round4 (a * freq 1) = round4 fout)
    (coeff1_spec (a := a) hc hM hr hN resp vb (freq 1) (fun _ _ _ => rfl)) s)]
  congr 1
  funext i
  simp only [zero_add, Finset.sum_apply, Spec.current, Spec.boxSum, Spec.mixFreq, List.map,
    List.sum_cons, List.sum_nil, add_zero]
  refine sum_congr rfl fun a _ => ?_
  split_ifs <;> rfl

theorem current2_spec {ccc : ℕ → List (Arr ι)} {freq : ℕ → ℝ} {r : List (List (Arr ι))}
    {P nb1 nb2 M N1 N2 : ℕ} {C1 C2 : ℤ → Arr ι} (hc1 : Rep M (ccc 1) C1) (hc2 : Rep M (ccc 2) C2)
    (hM1 : nb1 ≤ M) (hM2 : nb2 ≤ M) (hN1 : nb1 ≤ N1) (hN2 : nb2 ≤ N2)
    (resp : ℝ → ℂ) (vb : ι → ℝ)
    (hr : Rep2 N1 N2 r fun k l i => resp (vb i + k * freq 1 + l * freq 2)) (fout : ℝ) :
    current2 fout ccc freq r P nb1 nb2 = .ok fun i =>
      Spec.current resp P [⟨fun k => C1 k i, nb1, freq 1⟩, ⟨fun k => C2 k i, nb2, freq 2⟩]
        (vb i) fout := by
  unfold current2
  simp only []
  rw [mix_sum P (fun a s => mix_sum P (fun b s => step_add (c := round4 (a * freq 1 + b * freq 2) = round4 fout)
    (coeff2_spec (a := a) (b := b) hc1 hc2 hM1 hM2 hr hN1 hN2 resp vb (freq 1) (freq 2)
      (fun _ _ _ _ _ => rfl)) s) s)]
  congr 1
  funext i
  simp only [zero_add, Finset.sum_apply, Spec.current, Spec.boxSum, Spec.mixFreq, List.map,
    List.sum_cons, List.sum_nil, add_zero]
  refine sum_congr rfl fun a _ => sum_congr rfl fun b _ => ?_
  split_ifs <;> rfl

theorem current3_spec {ccc : ℕ → List (Arr ι)} {freq : ℕ → ℝ} {r : List (List (List (Arr ι)))}
    {P nb1 nb2 nb3 M N1 N2 N3 : ℕ} {C1 C2 C3 : ℤ → Arr ι}
    (hc1 : Rep M (ccc 1) C1) (hc2 : Rep M (ccc 2) C2) (hc3 : Rep M (ccc 3) C3)
    (hM1 : nb1 ≤ M) (hM2 : nb2 ≤ M) (hM3 : nb3 ≤ M)
    (hN1 : nb1 ≤ N1) (hN2 : nb2 ≤ N2) (hN3 : nb3 ≤ N3)
    (resp : ℝ → ℂ) (vb : ι → ℝ)
    (hr : Rep3 N1 N2 N3 r fun k l m i => resp (vb i + k * freq 1 + l * freq 2 + m * freq 3))
    (fout : ℝ) :
    current3 fout ccc freq r P nb1 nb2 nb3 = .ok fun i =>
      Spec.current resp P [⟨fun k => C1 k i, nb1, freq 1⟩, ⟨fun k => C2 k i, nb2, freq 2⟩,
        ⟨fun k => C3 k i, nb3, freq 3⟩] (vb i) fout := by
  unfold current3
  simp only []
  rw [mix_sum P (fun a s => mix_sum P (fun b s => mix_sum P (fun c s => step_add
    (c := round4 (a * freq 1 + b * freq 2 + c * freq 3) = round4 fout)
    (coeff3_spec (a := a) (b := b) (c := c) hc1 hc2 hc3 hM1 hM2 hM3 hr hN1 hN2 hN3 resp vb
      (freq 1) (freq 2) (freq 3) (fun _ _ _ _ _ _ _ => rfl)) s) s) s)]
  congr 1
  funext i
  simp only [zero_add, Finset.sum_apply, Spec.current, Spec.boxSum, Spec.mixFreq, List.map,
    List.sum_cons, List.sum_nil, add_zero, ← add_assoc]
  refine sum_congr rfl fun a _ => sum_congr rfl fun b _ => sum_congr rfl fun c _ => ?_
  split_ifs <;> rfl

theorem current4_spec {ccc : ℕ → List (Arr ι)} {freq : ℕ → ℝ}
    {r : List (List (List (List (Arr ι))))}
    {P nb1 nb2 nb3 nb4 M N1 N2 N3 N4 : ℕ} {C1 C2 C3 C4 : ℤ → Arr ι}
    (hc1 : Rep M (ccc 1) C1) (hc2 : Rep M (ccc 2) C2) (hc3 : Rep M (ccc 3) C3)
    (hc4 : Rep M (ccc 4) C4)
    (hM1 : nb1 ≤ M) (hM2 : nb2 ≤ M) (hM3 : nb3 ≤ M) (hM4 : nb4 ≤ M)
    (hN1 : nb1 ≤ N1) (hN2 : nb2 ≤ N2) (hN3 : nb3 ≤ N3) (hN4 : nb4 ≤ N4)
    (resp : ℝ → ℂ) (vb : ι → ℝ)
    (hr : Rep4 N1 N2 N3 N4 r
      fun k l m n i => resp (vb i + k * freq 1 + l * freq 2 + m * freq 3 + n * freq 4))
    (fout : ℝ) :
    current4 fout ccc freq r P nb1 nb2 nb3 nb4 = .ok fun i =>
      Spec.current resp P [⟨fun k => C1 k i, nb1, freq 1⟩, ⟨fun k => C2 k i, nb2, freq 2⟩,
        ⟨fun k => C3 k i, nb3, freq 3⟩, ⟨fun k => C4 k i, nb4, freq 4⟩] (vb i) fout := by
  unfold current4
  simp only []
  rw [mix_sum P (fun a s => mix_sum P (fun b s => mix_sum P (fun c s => mix_sum P (fun d s =>
    step_add (c := round4 (a * freq 1 + b * freq 2 + c * freq 3 + d * freq 4) = round4 fout)
      (coeff4_spec (a := a) (b := b) (c := c) (d := d) hc1 hc2 hc3 hc4 hM1 hM2 hM3 hM4
      hr hN1 hN2 hN3 hN4 resp vb (freq 1) (freq 2) (freq 3) (freq 4)
      (fun _ _ _ _ _ _ _ _ _ => rfl)) s) s) s) s)]
  congr 1
  funext i
  simp only [zero_add, Finset.sum_apply, Spec.current, Spec.boxSum, Spec.mixFreq, List.map,
    List.sum_cons, List.sum_nil, add_zero, ← add_assoc]
  refine sum_congr rfl fun a _ => sum_congr rfl fun b _ => sum_congr rfl fun c _ =>
    sum_congr rfl fun d _ => ?_
  split_ifs <;> rfl

/-- The matrix holds the response function at the photon-shifted voltages for all photon numbers up
to limits at least as large as `nbl`. -/
def Adequate (resp : ℝ → ℂ) (vb : ι → ℝ) (freq : ℕ → ℝ) : List ℕ → RespMat ι → Prop
  | [n1], .m1 m => ∃ N1, n1 ≤ N1 ∧ Reads N1 m fun k i => resp (vb i + k * freq 1)
  | [n1, n2], .m2 m => ∃ N1 N2, n1 ≤ N1 ∧ n2 ≤ N2 ∧
      Rep2 N1 N2 m fun k l i => resp (vb i + k * freq 1 + l * freq 2)
  | [n1, n2, n3], .m3 m => ∃ N1 N2 N3, n1 ≤ N1 ∧ n2 ≤ N2 ∧ n3 ≤ N3 ∧
      Rep3 N1 N2 N3 m fun k l m i => resp (vb i + k * freq 1 + l * freq 2 + m * freq 3)
  | [n1, n2, n3, n4], .m4 m => ∃ N1 N2 N3 N4, n1 ≤ N1 ∧ n2 ≤ N2 ∧ n3 ≤ N3 ∧ n4 ≤ N4 ∧
      Rep4 N1 N2 N3 N4 m
        fun k l m n i => resp (vb i + k * freq 1 + l * freq 2 + m * freq 3 + n * freq 4)
  | _, _ => False

theorem unpack_length {nb : NumB} {numF : ℕ} {nbl : List ℕ} (h : unpackNumB nb numF = .ok nbl) :
    nbl.length = numF := by
  cases nb with
  | int n => simp only [unpackNumB, Except.ok.injEq] at h; subst h; simp
  | tup l =>
    simp only [unpackNumB] at h
    split_ifs at h with h1
    cases h; simp; omega

theorem interpolate_adequate (cct : Cct ι) (resp : ℝ → ℂ) (nb : NumB) {nbl nbl' : List ℕ}
    (h : unpackNumB nb cct.numF = .ok nbl') (h1 : 1 ≤ cct.numF) (h4 : cct.numF ≤ 4)
    (hle : List.Forall₂ (· ≤ ·) nbl nbl') :
    ∃ m, interpolateRespfn cct resp nb = .ok m ∧ m.ndim = cct.numF + 1 ∧
      Adequate resp cct.vb cct.freq nbl m := by
  have hlen := unpack_length h
  unfold interpolateRespfn
  rw [h]
  rcases cct with ⟨numF, numP, freq, vb⟩
  simp only [ok_bind] at *
  interval_cases numF
  · obtain ⟨n1, rfl⟩ := List.length_eq_one_iff.1 hlen
    rcases hle with _ | ⟨hm1, hle⟩
    cases hle
    exact ⟨_, rfl, rfl, n1, hm1, (interp1_rep _ _ _ _).2⟩
  · obtain ⟨n1, n2, rfl⟩ := List.length_eq_two.1 hlen
    rcases hle with _ | ⟨hm1, hle⟩
    rcases hle with _ | ⟨hm2, hle⟩
    cases hle
    exact ⟨_, rfl, rfl, n1, n2, hm1, hm2, interp2_rep _ _ _ _ _⟩
  · obtain ⟨n1, n2, n3, rfl⟩ := List.length_eq_three.1 hlen
    rcases hle with _ | ⟨hm1, hle⟩
    rcases hle with _ | ⟨hm2, hle⟩
    rcases hle with _ | ⟨hm3, hle⟩
    cases hle
    obtain ⟨m, e, r⟩ := interp3_rep resp vb freq n1 n2 n3
    simp only [e, ok_bind]
    exact ⟨_, rfl, rfl, n1, n2, n3, hm1, hm2, hm3, r⟩
  · match nbl', hlen with
    | [n1, n2, n3, n4], _ =>
      rcases hle with _ | ⟨hm1, hle⟩
      rcases hle with _ | ⟨hm2, hle⟩
      rcases hle with _ | ⟨hm3, hle⟩
      rcases hle with _ | ⟨hm4, hle⟩
      cases hle
      obtain ⟨m, e, r⟩ := interp4_rep resp vb freq n1 n2 n3 n4
      simp only [e, ok_bind]
      exact ⟨_, rfl, rfl, n1, n2, n3, n4, hm1, hm2, hm3, hm4, r⟩

theorem unpack_getElem {nb : NumB} {numF : ℕ} {nbl : List ℕ} (h : unpackNumB nb numF = .ok nbl) :
    nbl = (nb.toTup numF).take numF ∧ numF ≤ (nb.toTup numF).length := by
  cases nb with
  | int n =>
    simp only [unpackNumB, Except.ok.injEq] at h; subst h; simp [NumB.toTup]
  | tup l =>
    simp only [unpackNumB] at h
    split_ifs at h with h1
    cases h
    exact ⟨rfl, h1⟩

theorem mem_of_unpack {nb : NumB} {numF M : ℕ} {nbl : List ℕ} (h : unpackNumB nb numF = .ok nbl)
    (hM : pyMax (nb.toTup numF) = .ok M) : ∀ n ∈ nbl, n ≤ M := by
  intro n hn
  rw [(unpack_getElem h).1] at hn
  exact pyMax_ge hM n (List.mem_of_mem_take hn)

theorem pyMax_ok {l : List ℕ} (h : l ≠ []) : ∃ M, pyMax l = .ok M := by
  cases l with
  | nil => exact absurd rfl h
  | cons x xs => exact ⟨_, rfl⟩

theorem currentAt_spec (vj : ℕ → ℕ → Arr ι) (cct : Cct ι) (resp : ℝ → ℂ) (nb : NumB)
    {nbl : List ℕ} {M : ℕ} {ccc : ℕ → List (Arr ι)} {r : RespMat ι}
    (h : unpackNumB nb cct.numF = .ok nbl) (hM : pyMax (nb.toTup cct.numF) = .ok M)
    (h1 : 1 ≤ cct.numF) (h4 : cct.numF ≤ 4)
    (hccc : ∀ f nbf, 1 ≤ f → f ≤ cct.numF → (nb.toTup cct.numF)[f - 1]? = some nbf →
        Rep M (ccc f) fun k i => Spec.toneCoeff (fun p => vj f p i) (cct.freq f) cct.numP nbf M k)
    (hr : Adequate resp cct.vb cct.freq nbl r) (fout : ℝ) :
    currentAt cct.numF cct.numP cct.freq ccc r nbl fout = .ok fun i =>
      Spec.current resp cct.numP
        (Spec.tonesFrom (fun f p => vj f p i) cct.freq cct.numP M 1 nbl) (cct.vb i) fout := by
  have hlen := unpack_length h
  have hmem := mem_of_unpack h hM
  have hC : ∀ f nbf, 1 ≤ f → nbl[f - 1]? = some nbf →
      Rep M (ccc f) fun k i =>
        Spec.toneCoeff (fun p => vj f p i) (cct.freq f) cct.numP nbf M k := by
    intro f nbf hf hn
    have hlt : f - 1 < nbl.length := by
      by_contra hge
      rw [List.getElem?_eq_none (by omega)] at hn
      cases hn
    refine hccc f nbf hf (by omega) ?_
    rw [(unpack_getElem h).1, List.getElem?_take] at hn
    split_ifs at hn
    exact hn
  clear hccc h hM
  rcases cct with ⟨numF, numP, freq, vb⟩
  simp only at *
  interval_cases numF
  · obtain ⟨n1, rfl⟩ := List.length_eq_one_iff.1 hlen
    match r, hr with
    | .m1 m, ⟨N1, g1, hr⟩ =>
      exact current1_spec (hC 1 n1 le_rfl rfl) (hmem n1 (by simp)) g1 resp vb hr fout
  · obtain ⟨n1, n2, rfl⟩ := List.length_eq_two.1 hlen
    match r, hr with
    | .m2 m, ⟨N1, N2, g1, g2, hr⟩ =>
      exact current2_spec (hC 1 n1 le_rfl rfl) (hC 2 n2 (by norm_num) rfl)
        (hmem n1 (by simp)) (hmem n2 (by simp)) g1 g2 resp vb hr fout
  · obtain ⟨n1, n2, n3, rfl⟩ := List.length_eq_three.1 hlen
    match r, hr with
    | .m3 m, ⟨N1, N2, N3, g1, g2, g3, hr⟩ =>
      exact current3_spec (hC 1 n1 le_rfl rfl) (hC 2 n2 (by norm_num) rfl)
        (hC 3 n3 (by norm_num) rfl)
        (hmem n1 (by simp)) (hmem n2 (by simp)) (hmem n3 (by simp)) g1 g2 g3 resp vb hr fout
  · match nbl, hlen with
    | [n1, n2, n3, n4], _ =>
      match r, hr with
      | .m4 m, ⟨N1, N2, N3, N4, g1, g2, g3, g4, hr⟩ =>
        exact current4_spec (hC 1 n1 le_rfl rfl) (hC 2 n2 (by norm_num) rfl)
          (hC 3 n3 (by norm_num) rfl) (hC 4 n4 (by norm_num) rfl)
          (hmem n1 (by simp)) (hmem n2 (by simp)) (hmem n3 (by simp)) (hmem n4 (by simp))
          g1 g2 g3 g4 resp vb hr fout

theorem current_round (resp : ℝ → ℂ) (P : ℕ) (ts : List Spec.Tone) (v f : ℝ) :
    Spec.current resp P ts v (round4 f) = Spec.current resp P ts v f := by
  unfold Spec.current; rw [round4_round4]

theorem mapM_ok {α β : Type} (g : α → Py β) (g' : α → β) (l : List α)
    (h : ∀ a ∈ l, g a = .ok (g' a)) : l.mapM g = .ok (l.map g') := by
  induction l with
  | nil => rfl
  | cons a l ih =>
    rw [List.mapM_cons, h a (by simp), ok_bind, ih (fun b hb => h b (by simp [hb])), ok_bind]
    rfl

/-- `qtcurrent` with a list of frequencies and either no pre-interpolated matrix or an adequate
one. -/
theorem qtcurrentList_spec (vj : ℕ → ℕ → Arr ι) (cct : Cct ι) (resp : ℝ → ℂ) (freqList : List ℝ)
    (nb : NumB) (rm : Option (RespMat ι)) {nbl : List ℕ} {M : ℕ}
    (hpos : freqPos cct.numF cct.freq)
    (h : unpackNumB nb cct.numF = .ok nbl) (hM : pyMax (nb.toTup cct.numF) = .ok M)
    (h1 : 1 ≤ cct.numF) (h4 : cct.numF ≤ 4) (hP : 1 ≤ cct.numP)
    (hr : ∀ r ∈ rm, r.ndim = cct.numF + 1 ∧ Adequate resp cct.vb cct.freq nbl r) :
    qtcurrentList vj cct resp freqList nb rm = .ok (freqList.map fun f i =>
      Spec.current resp cct.numP
        (Spec.tonesFrom (fun f p => vj f p i) cct.freq cct.numP M 1 nbl) (cct.vb i) f) := by
  obtain ⟨ccc, e, hccc⟩ := phaseTones_rep vj cct.freq cct.numP hP hM cct.numF (unpack_getElem h).2
  obtain ⟨m, em, _, ha⟩ := interpolate_adequate cct resp nb h h1 h4 (nbl := nbl)
    (List.forall₂_same.2 fun x _ => le_refl x)
  have e' : phaseFactorCoeff vj cct.freq cct.numF cct.numP nb = .ok ccc := by
    unfold phaseFactorCoeff
    exact e
  have key : ∀ r, Adequate resp cct.vb cct.freq nbl r →
      (freqList.map round4).mapM (currentAt cct.numF cct.numP cct.freq ccc r nbl)
      = .ok (freqList.map fun f i => Spec.current resp cct.numP
        (Spec.tonesFrom (fun f p => vj f p i) cct.freq cct.numP M 1 nbl) (cct.vb i) f) := by
    intro r hr
    rw [mapM_ok _ _ _ (fun f _ => currentAt_spec vj cct resp nb h hM h1 h4 hccc hr f), List.map_map]
    congr 1
    refine List.map_congr_left fun f _ => ?_
    funext i
    exact current_round _ _ _ _ _
  unfold qtcurrentList
  rw [if_neg (not_not.2 hpos), h, e']
  cases rm with
  | none =>
    simp only [ok_bind, em]
    exact key m ha
  | some r =>
    obtain ⟨h2, h3⟩ := hr r rfl
    simp only [ok_bind, h2, if_true]
    exact key r h3

end QMix.Qt
