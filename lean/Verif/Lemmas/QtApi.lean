import Verif.Lemmas.QtTop
import Verif.Lemmas.Mtsda
import Mathlib.Data.List.OfFn
import Mathlib.GroupTheory.Perm.Basic
import Mathlib.Data.Fintype.Perm
import Mathlib.Data.List.FinRange

/-! The current of the specification at the level of the `qtcurrent` interface. -/

namespace QMix.Qt

open Complex Finset

variable {ι : Type}

/-- The requests `qtcurrent` is meant for: 1 to 4 tones, at least one harmonic, positive
frequencies, and at least one summation limit per tone. -/
structure Valid (cct : Cct ι) (nb : NumB) : Prop where
  tones_pos : 1 ≤ cct.numF
  tones_le : cct.numF ≤ 4
  harmonics : 1 ≤ cct.numP
  freq_pos : ∀ f, 1 ≤ f → f ≤ cct.numF → 0 < cct.freq f
  limits : cct.numF ≤ (nb.toTup cct.numF).length

theorem foldl_max_eq (l : List ℕ) (x : ℕ) : l.foldl max x = max x (l.foldr max 0) := by
  induction l generalizing x with
  | nil => simp
  | cons y l ih => simp only [List.foldl_cons, List.foldr_cons, ih]; omega

theorem pyMax_eq {l : List ℕ} (h : l ≠ []) : pyMax l = .ok (l.foldr max 0) := by
  cases l with
  | nil => exact absurd rfl h
  | cons x l => simp only [pyMax, foldl_max_eq, List.foldr_cons]

theorem le_foldr_max {l : List ℕ} {n : ℕ} (h : n ∈ l) : n ≤ l.foldr max 0 := by
  induction l with
  | nil => cases h
  | cons x l ih =>
    rcases List.mem_cons.1 h with rfl | h
    · simp
    · have := ih h; simp only [List.foldr_cons]; omega

theorem foldr_max_perm {l l' : List ℕ} (h : l.Perm l') : l.foldr max 0 = l'.foldr max 0 := by
  induction h with
  | nil => rfl
  | cons x _ ih => simp only [List.foldr_cons, ih]
  | swap x y l => simp only [List.foldr_cons]; omega
  | trans _ _ h1 h2 => rw [h1, h2]

theorem Valid.unpack {cct : Cct ι} {nb : NumB} (h : Valid cct nb) :
    unpackNumB nb cct.numF = .ok ((nb.toTup cct.numF).take cct.numF) := by
  cases nb with
  | int n => simp [unpackNumB, NumB.toTup]
  | tup l =>
    simp only [unpackNumB, NumB.toTup]
    have h' : l.length ≥ cct.numF := h.limits
    rw [if_pos h']

theorem Valid.pyMax {cct : Cct ι} {nb : NumB} (h : Valid cct nb) :
    pyMax (nb.toTup cct.numF) = .ok ((nb.toTup cct.numF).foldr max 0) := by
  apply pyMax_eq
  intro h0
  have := h.limits
  rw [h0] at this
  have := h.tones_pos
  simp at *
  omega

/-- Reading `matrix[k, l, ...]`. -/
def RespMat.entry (m : RespMat ι) (ks : List ℤ) : Py (Arr ι) :=
  match m, ks with
  | .m1 m, [k] => pyGet m k
  | .m2 m, [k, l] => do let r ← pyGet m k; pyGet r l
  | .m3 m, [k, l, n] => do let r ← pyGet m k; let s ← pyGet r l; pyGet s n
  | .m4 m, [k, l, n, o] => do let r ← pyGet m k; let s ← pyGet r l; let t ← pyGet s n; pyGet t o
  | _, _ => .error .index

theorem adequate_entry {resp : ℝ → ℂ} {vb : ι → ℝ} {freq : ℕ → ℝ} {nbl : List ℕ} {m : RespMat ι}
    (h : Adequate resp vb freq nbl m) (ks : List ℤ)
    (hk : List.Forall₂ (fun (k : ℤ) (n : ℕ) => |k| ≤ n) ks nbl) :
    m.entry ks = .ok fun i => resp (vb i + Spec.photonShift freq 1 ks) := by
  have up : ∀ {x : ℤ} {n L : ℕ}, n ≤ L → |x| ≤ n → |x| ≤ L := fun h h' => by omega
  match nbl, m, h, hk with
  | [n1], .m1 m, ⟨N1, g1, r⟩, .cons h1 .nil =>
    simp only [RespMat.entry, r _ (up g1 h1), Spec.photonShift, add_zero]
  | [n1, n2], .m2 m, ⟨N1, N2, g1, g2, rows, r1, r2⟩, .cons h1 (.cons h2 .nil) =>
    simp only [RespMat.entry, r1.get (up g1 h1), (r2 _ (up g1 h1)).get (up g2 h2), ok_bind,
      Spec.photonShift, add_zero, add_assoc, Nat.reduceAdd]
  | [n1, n2, n3], .m3 m, ⟨N1, N2, N3, g1, g2, g3, rows, r1, r2⟩, .cons h1 (.cons h2 (.cons h3 .nil)) =>
    obtain ⟨rows2, r2, r3⟩ := r2 _ (up g1 h1)
    simp only [RespMat.entry, r1.get (up g1 h1), r2.get (up g2 h2), (r3 _ (up g2 h2)).get (up g3 h3),
      ok_bind, Spec.photonShift, add_zero, add_assoc, Nat.reduceAdd]
  | [n1, n2, n3, n4], .m4 m, ⟨N1, N2, N3, N4, g1, g2, g3, g4, rows, r1, r2⟩,
      .cons h1 (.cons h2 (.cons h3 (.cons h4 .nil))) =>
    obtain ⟨rows2, r2, r3⟩ := r2 _ (up g1 h1)
    obtain ⟨rows3, r3, r4⟩ := r3 _ (up g2 h2)
    simp only [RespMat.entry, r1.get (up g1 h1), r2.get (up g2 h2), r3.get (up g3 h3),
      (r4 _ (up g3 h3)).get (up g4 h4), ok_bind, Spec.photonShift, add_zero, add_assoc,
      Nat.reduceAdd]

/-- Main refinement: `qtcurrent` with no matrix. -/
theorem qtcurrentList_eq (vj : ℕ → ℕ → Arr ι) (cct : Cct ι) (resp : ℝ → ℂ) (fl : List ℝ)
    (nb : NumB) (h : Valid cct nb) :
    qtcurrentList vj cct resp fl nb none = .ok (fl.map fun f i =>
      Spec.qt resp (fun f p => vj f p i) cct.freq cct.numF cct.numP (nb.toTup cct.numF)
        (cct.vb i) f) :=
  qtcurrentList_spec vj cct resp fl nb none h.freq_pos h.unpack h.pyMax h.tones_pos h.tones_le
    h.harmonics (by simp)

theorem qtcurrentScalar_eq (vj : ℕ → ℕ → Arr ι) (cct : Cct ι) (resp : ℝ → ℂ) (f : ℝ)
    (nb : NumB) (h : Valid cct nb) :
    qtcurrentScalar vj cct resp f nb none = .ok fun i =>
      Spec.qt resp (fun f p => vj f p i) cct.freq cct.numF cct.numP (nb.toTup cct.numF)
        (cct.vb i) f := by
  unfold qtcurrentScalar
  rw [qtcurrentList_eq vj cct resp [f] nb h, ok_bind]
  simp only [List.map_cons, List.map_nil]
  rw [show ∀ x : Arr ι, pyGet [x] 0 = .ok x from fun x => rfl, ok_bind]
  split_ifs with h0
  · rw [pure_ok]
    congr 1
    funext i
    have hc := Spec.current_neg resp cct.numP (Spec.tonesFrom (fun f p => vj f p i) cct.freq cct.numP
      ((nb.toTup cct.numF).foldr max 0) 1 ((nb.toTup cct.numF).take cct.numF)) (cct.vb i) f
    have h1 : Spec.current resp cct.numP (Spec.tonesFrom (fun f p => vj f p i) cct.freq cct.numP
      ((nb.toTup cct.numF).foldr max 0) 1 ((nb.toTup cct.numF).take cct.numF)) (cct.vb i) (-f)
      = Spec.current resp cct.numP (Spec.tonesFrom (fun f p => vj f p i) cct.freq cct.numP
      ((nb.toTup cct.numF).foldr max 0) 1 ((nb.toTup cct.numF).take cct.numF)) (cct.vb i) f := by
      rw [← current_round, ← current_round _ _ _ _ f, round4_neg, h0, neg_zero]
    rw [h1] at hc
    exact (conj_eq_iff_re.1 hc.symm)
  · rfl

theorem tonesFrom_eq_ofFn (v : ℕ → ℕ → ℂ) (freq : ℕ → ℝ) (P M f : ℕ) (nbs : List ℕ) :
    Spec.tonesFrom v freq P M f nbs = List.ofFn fun j : Fin nbs.length =>
      ⟨Spec.toneCoeff (v (f + j)) (freq (f + j)) P nbs[j] M, nbs[j], freq (f + j)⟩ := by
  induction nbs generalizing f with
  | nil => rfl
  | cons x nbs ih =>
    rw [Spec.tonesFrom, ih]
    simp only [List.length_cons, List.ofFn_succ, Fin.val_zero, add_zero, Fin.getElem_fin,
      List.getElem_cons_zero, Fin.val_succ, List.getElem_cons_succ]
    congr 2
    funext j
    rw [show f + 1 + (j : ℕ) = f + (j + 1) by ring]

end QMix.Qt
