import Verif.Py.Float

/-!
# `qmix/exp/clean_data.py`

Measured data may contain NaN and infinities, see `Verif/Py/Float.lean`.
-/

namespace QMix.Clean

open Np Fl

/-- `argsort`. NumPy's default algorithm is not stable, so the order of equal entries is left open:
any function that returns an ordering of the positions which sorts the array. -/
structure Sorter where
  /-- the positions of the entries in sorted order -/
  argsort : List Flt → List ℕ
  /-- every position once -/
  perm : ∀ l, (argsort l).Perm (List.range l.length)
  /-- sorted -/
  sorted : ∀ l, ((argsort l).map fun i => l.getD i none).Pairwise Flt.le

/-- clean_data.py 15-29. -/
def removeNansXy (x y : List Flt) : Py (List Flt × List Flt) := do
  let mask ← zip (· && ·) (x.map notNan) (y.map notNan)
  let x' ← select x mask
  let y' ← select y mask
  return (x', y')

/-- clean_data.py 32-46. -/
def sortXy (S : Sorter) (x y : List Flt) : Py (List Flt × List Flt) := do
  let idx := S.argsort x
  let x' ← takeIdx x idx
  let y' ← takeIdx y idx
  return (x', y')

open Classical in
/-- `assert (x[1:] - x[:-1]).min() >= 0` (clean_data.py 66 and 164). -/
noncomputable def checkSorted (x : List Flt) : Py Unit := do
  let d ← zip fsub (slice x (some 1) none) (slice x none (some (-1)))
  let m ← amin d
  pyAssert (ge0 m)

/-- `mask = np.ones(len(x), dtype=bool); mask[1:] = (x[1:] != x[:-1])` (clean_data.py 69-70 and
167-168). -/
noncomputable def doubleMask (x : List Flt) : Py (List Bool) := do
  let ne ← zip fne (slice x (some 1) none) (slice x none (some (-1)))
  setSlice (List.replicate x.length true) (some 1) none ne

/-- clean_data.py 49-72. -/
noncomputable def removeDoublesXy (x y : List Flt) (check : Bool) : Py (List Flt × List Flt) := do
  if check then checkSorted x else pure ()
  let mask ← doubleMask x
  let x' ← select x mask
  let y' ← select y mask
  return (x', y')

/-- clean_data.py 75-95. -/
noncomputable def cleanXy (S : Sorter) (x y : List Flt) : Py (List Flt × List Flt) := do
  pyAssert (x.length = y.length)
  let a ← removeNansXy x y
  let b ← sortXy S a.1 a.2
  removeDoublesXy b.1 b.2 true

/-- A two-dimensional array: the number of columns, and the rows. -/
structure Mat where
  /-- number of columns -/
  ncol : ℕ
  /-- the rows -/
  rows : List (List Flt)

/-- Every row has the right length. -/
def Mat.WF (m : Mat) : Prop := ∀ r ∈ m.rows, r.length = m.ncol

/-- `m[:, k]`. -/
def Mat.col (m : Mat) (k : ℤ) : Py (List Flt) := do
  let j ← pyIndex m.ncol k
  return m.rows.map fun r => r.getD j none

/-- clean_data.py 98-110: `np.vstack` raises `ValueError` for different lengths. -/
def xyToMatrix (x y : List Flt) : Py Mat := do
  raiseIf (x.length ≠ y.length) .value
  return { ncol := 2, rows := List.zipWith (fun a b => [a, b]) x y }

/-- clean_data.py 116-129. -/
def removeNansMatrix (m : Mat) : Py Mat := do
  let x ← m.col 0
  let y ← m.col 1
  let mask ← zip (· && ·) (x.map notNan) (y.map notNan)
  let rows ← select m.rows mask
  return { m with rows := rows }

/-- clean_data.py 132-146. -/
def sortMatrix (S : Sorter) (m : Mat) (col : ℤ) : Py Mat := do
  let c ← m.col col
  let rows ← takeIdx m.rows (S.argsort c)
  return { m with rows := rows }

/-- clean_data.py 149-170. The check looks at column 0 whatever `col` is. -/
noncomputable def removeDoublesMatrix (m : Mat) (col : ℤ) (check : Bool) : Py Mat := do
  if check then do
    let c ← m.col 0
    checkSorted c
  else pure ()
  let c ← m.col col
  let mask ← doubleMask c
  let rows ← select m.rows mask
  return { m with rows := rows }

/-- clean_data.py 173-192. -/
noncomputable def cleanMatrix (S : Sorter) (m : Mat) : Py Mat := do
  pyAssert (m.ncol = 2)
  let a ← removeNansMatrix m
  let b ← sortMatrix S a 0
  removeDoublesMatrix b 0 true

/-- clean_data.py 195-206. -/
def matrixToXy (m : Mat) : Py (List Flt × List Flt) := do
  let x ← m.col 0
  let y ← m.col 1
  return (x, y)

end QMix.Clean
