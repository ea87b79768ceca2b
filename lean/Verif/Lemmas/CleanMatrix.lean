import Verif.Lemmas.CleanData

/-!
# Lemmas about cleaning matrices
-/

namespace QMix.Clean

open Np Fl

variable {ρ σ α : Type}

theorem keepFrom_map (k : σ → Flt) (g : ρ → σ) (a : ρ) (l : List ρ) :
    keepFrom k (g a) (l.map g) = (keepFrom (k ∘ g) a l).map g := by
  induction l generalizing a with
  | nil => rfl
  | cons b l ih =>
    simp only [List.map_cons, keepFrom, Function.comp]
    split_ifs
    · rw [List.map_cons, ih b]
    · rw [ih b]

theorem keep_map (k : σ → Flt) (g : ρ → σ) (l : List ρ) :
    keep k (l.map g) = (keep (k ∘ g) l).map g := by
  cases l with
  | nil => rfl
  | cons a l =>
    simp only [List.map_cons, keep]
    rw [keepFrom_map]

theorem sortBy_map (S : Sorter) (k : σ → Flt) (g : ρ → σ) (d : σ) (d' : ρ) (l : List ρ) :
    sortBy S k d (l.map g) = (sortBy S (k ∘ g) d' l).map g := by
  unfold sortBy
  rw [List.map_map, List.map_map]
  apply List.map_congr_left
  intro i hi
  have : i < l.length := by simpa using sorter_lt S hi
  simp [this]

/-- Entry `j` of a row. -/
def entry (j : ℕ) (r : List Flt) : Flt := r.getD j none

/-- The two entries of a row. -/
def pair (r : List Flt) : Flt × Flt := (entry 0 r, entry 1 r)

/-- The rows without NaN. -/
def validRows (l : List (List Flt)) : List (List Flt) :=
  l.filter fun r => notNan (entry 0 r) && notNan (entry 1 r)

theorem col_eq {m : Mat} {k : ℤ} {j : ℕ} (h : pyIndex m.ncol k = .ok j) :
    m.col k = .ok (m.rows.map (entry j)) := by
  unfold Mat.col
  rw [h, py_bind]
  rfl

theorem col_two {m : Mat} (h : m.ncol = 2) :
    m.col 0 = .ok (m.rows.map (entry 0)) ∧ m.col 1 = .ok (m.rows.map (entry 1)) :=
  ⟨col_eq (by rw [h]; rfl), col_eq (by rw [h]; rfl)⟩

theorem valid_rows (l : List (List Flt)) :
    valid (l.map (entry 0)) (l.map (entry 1)) = (validRows l).map pair := by
  unfold valid validRows
  rw [List.zip_map', List.filter_map]
  rfl

theorem removeNansMatrix_eq {m : Mat} (h : m.ncol = 2) :
    removeNansMatrix m = .ok ⟨2, validRows m.rows⟩ := by
  have hm : zip (· && ·) ((m.rows.map (entry 0)).map notNan) ((m.rows.map (entry 1)).map notNan)
      = .ok (m.rows.map fun r => notNan (entry 0 r) && notNan (entry 1 r)) := by
    unfold zip
    rw [if_pos (by simp)]
    congr 1
    rw [List.map_map, List.map_map, List.zipWith_map, List.zipWith_self]
    rfl
  have hs := select_map m.rows id fun r => notNan (entry 0 r) && notNan (entry 1 r)
  rw [List.map_id, List.map_id] at hs
  unfold removeNansMatrix
  rw [(col_two h).1, py_bind, (col_two h).2, py_bind, hm, py_bind, hs, py_bind, h]
  rfl

theorem sortMatrix_eq (S : Sorter) {m : Mat} {col : ℤ} {j : ℕ} (h : pyIndex m.ncol col = .ok j) :
    sortMatrix S m col = .ok ⟨m.ncol, sortBy S (entry j) [] m.rows⟩ := by
  have ht := takeIdx_map m.rows [] id (idx := S.argsort (m.rows.map (entry j)))
    (fun i hi => by simpa using sorter_lt S hi)
  rw [List.map_id, List.map_id] at ht
  unfold sortMatrix
  rw [col_eq h, py_bind, ht, py_bind]
  rfl

theorem removeDoublesMatrix_eq {m : Mat} {col : ℤ} {j : ℕ} (h : pyIndex m.ncol col = .ok j)
    (check : Bool) :
    removeDoublesMatrix m col check
      = (do if check then checkSorted (m.rows.map (entry 0)) else pure ()
            pure ⟨m.ncol, keep (entry j) m.rows⟩) := by
  obtain ⟨k, hk, hs⟩ := select_doubleMask (entry j) m.rows
  have hs' := hs id
  rw [List.map_id, List.map_id] at hs'
  have h0 : pyIndex m.ncol 0 = .ok 0 := by
    have := pyIndex_lt h
    exact pyIndex_nonneg le_rfl (by omega)
  unfold removeDoublesMatrix
  rw [col_eq h, py_bind, hk, py_bind, hs', py_bind, col_eq h0]
  rfl

theorem cleanMatrix_eq (S : Sorter) {m : Mat} (h : m.ncol = 2) :
    cleanMatrix S m = (do
      checkSorted ((sortBy S (entry 0) [] (validRows m.rows)).map (entry 0))
      pure ⟨2, keep (entry 0) (sortBy S (entry 0) [] (validRows m.rows))⟩) := by
  unfold cleanMatrix
  rw [pyAssert_pos h, removeNansMatrix_eq h, py_bind,
    sortMatrix_eq S (m := ⟨2, validRows m.rows⟩) (col := 0) (j := 0) rfl, py_bind,
    removeDoublesMatrix_eq (m := ⟨2, sortBy S (entry 0) [] (validRows m.rows)⟩) (col := 0) (j := 0)
      rfl]
  rfl

end QMix.Clean
