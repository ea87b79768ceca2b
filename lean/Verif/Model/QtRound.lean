import Verif.Model.QtCurrent

/-!
# `qtcurrent` in floating-point arithmetic

`Verif/Model/QtCurrent.lean` works with exact numbers. Here the part of `qmix/qtcurrent.py` that adds and multiplies
(`_convolve_coefficients`, `_current_coeff_1..4_tone(s)`, `_current_1..4_tone(s)`) is written once for any arithmetic: `Ops`
holds the operations on arrays that these functions perform. With exact operations it is the model of `QtCurrent.lean`
(`Verif/Lemmas/Rounding.lean`: `exact_*`), with rounded operations it is the code as it runs.

Not followed here: overflow and underflow, and the inside of `jn`, `exp` and of the interpolation of the response function. The arrays
`jac[f, p]` and the response matrix are therefore arguments.
-/

namespace QMix.Rnd

open Complex QMix.Qt

/-- The array operations of the kernels. Three kinds of arrays: coefficients `γ`, responses and their sums `ρ`, currents `σ`. -/
structure Ops (γ ρ σ : Type) where
  zeroC : γ
  addC : γ → γ → γ
  mulC : γ → γ → γ
  conj : γ → γ
  zeroR : ρ
  addR : ρ → ρ → ρ
  /-- A coefficient times a response. -/
  act : γ → ρ → ρ
  zeroO : σ
  addO : σ → σ → σ
  /-- The last two lines of the kernels. -/
  fin : Bool → ρ → ρ → σ

variable {γ ρ σ : Type}

/-- One pass of the harmonic loop of `_convolve_coefficients`, `qmix/qtcurrent.py:422-430`, as `Qt.convStep`. -/
def convStep (O : Ops γ ρ σ) (p : ℕ) (last jp : List γ) : Py (List γ) :=
  let nb : ℤ := (((jp.length - 1) / 2 : ℕ) : ℤ)
  pyFor (pyRange (-nb) (nb + 1)) (List.replicate last.length O.zeroC) fun nxt k =>
    let lmin := max (-nb) (Int.tdiv (k - nb) p)
    let lmax := min nb (Int.tdiv (k + nb) p)
    pyFor (pyRange lmin (lmax + 1)) nxt fun nxt l => do
      let cur ← pyGet nxt k
      let a ← pyGet last (k - p * l)
      let b ← pyGet jp l
      pySet nxt k (O.addC cur (O.mulC a b))

/-- `_convolve_coefficients`, `qmix/qtcurrent.py:392-432`, for one tone, as `Qt.convolve`. -/
def convolve (O : Ops γ ρ σ) (numP : ℕ) (jac : ℕ → List γ) : Py (List γ) :=
  if numP = 1 then .ok (jac 1)
  else pyFor (pyRange 2 (numP + 1)) (jac 1) fun last p => convStep O p.toNat last (jac p.toNat)

/-- The convolution for the tones `1..n`, as `Qt.phaseTones`. -/
def convTones (O : Ops γ ρ σ) (numP : ℕ) (jac : ℕ → ℕ → List γ) : ℕ → Py (ℕ → List γ)
  | 0 => .ok fun _ => []
  | f + 1 => do
    let rest ← convTones O numP jac f
    let c ← convolve O numP (jac (f + 1))
    pure fun g => if g = f + 1 then c else rest g

/-- `_current_coeff_1_tone`, `qmix/qtcurrent.py:479-516`, as `Qt.coeff1`. -/
def coeff1 (O : Ops γ ρ σ) (a : ℤ) (c1 : List γ) (r : List ρ) (nb1 : ℕ) : Py σ := do
  let cconj := c1.map O.conj
  let (rsp, rsm) ← pyFor (pyRange (-(nb1 : ℤ)) (nb1 + 1)) (O.zeroR, O.zeroR) fun s k => do
    let rsp ←
      if within nb1 (k + a) then do
        let x ← pyGet c1 k
        let y ← pyGet cconj (k + a)
        let z ← pyGet r k
        pure (O.addR s.1 (O.act (O.mulC x y) z))
      else pure s.1
    let rsm ←
      if within nb1 (k - a) then do
        let x ← pyGet c1 k
        let y ← pyGet cconj (k - a)
        let z ← pyGet r k
        pure (O.addR s.2 (O.act (O.mulC x y) z))
      else pure s.2
    pure (rsp, rsm)
  pure (O.fin (decide (a = 0)) rsp rsm)

/-- `_current_coeff_2_tones`, `qmix/qtcurrent.py:557-609`, as `Qt.coeff2`. -/
def coeff2 (O : Ops γ ρ σ) (a b : ℤ) (c1 c2 : List γ) (r : List (List ρ)) (nb1 nb2 : ℕ) : Py σ := do
  let (rsp, rsm) ← pyFor (pyRange (-(nb1 : ℤ)) (nb1 + 1)) (O.zeroR, O.zeroR) fun s k =>
    pyFor (pyRange (-(nb2 : ℤ)) (nb2 + 1)) s fun s l => do
      let rsp ←
        if within nb1 (k + a) && within nb2 (l + b) then do
          let x1 ← pyGet c1 k
          let y1 ← pyGet c1 (k + a)
          let x2 ← pyGet c2 l
          let y2 ← pyGet c2 (l + b)
          let z1 ← pyGet r k
          let z ← pyGet z1 l
          pure (O.addR s.1 (O.act (O.mulC (O.mulC (O.mulC x1 (O.conj y1)) x2) (O.conj y2)) z))
        else pure s.1
      let rsm ←
        if within nb1 (k - a) && within nb2 (l - b) then do
          let x1 ← pyGet c1 k
          let y1 ← pyGet c1 (k - a)
          let x2 ← pyGet c2 l
          let y2 ← pyGet c2 (l - b)
          let z1 ← pyGet r k
          let z ← pyGet z1 l
          pure (O.addR s.2 (O.act (O.mulC (O.mulC (O.mulC x1 (O.conj y1)) x2) (O.conj y2)) z))
        else pure s.2
      pure (rsp, rsm)
  pure (O.fin (decide (a = 0 ∧ b = 0)) rsp rsm)

/-- `_current_coeff_3_tones`, `qmix/qtcurrent.py:667-731`, as `Qt.coeff3`. -/
def coeff3 (O : Ops γ ρ σ) (a b c : ℤ) (c1 c2 c3 : List γ) (r : List (List (List ρ))) (nb1 nb2 nb3 : ℕ) : Py σ := do
  let (rsp, rsm) ← pyFor (pyRange (-(nb1 : ℤ)) (nb1 + 1)) (O.zeroR, O.zeroR) fun s k =>
    pyFor (pyRange (-(nb2 : ℤ)) (nb2 + 1)) s fun s l =>
      pyFor (pyRange (-(nb3 : ℤ)) (nb3 + 1)) s fun s m => do
        let x1 ← pyGet c1 k
        let x2 ← pyGet c2 l
        let x3 ← pyGet c3 m
        let c0 := O.mulC (O.mulC x1 x2) x3
        let z1 ← pyGet r k
        let z2 ← pyGet z1 l
        let z ← pyGet z2 m
        let rsp ←
          if within nb1 (k + a) && within nb2 (l + b) && within nb3 (m + c) then do
            let y1 ← pyGet c1 (k + a)
            let y2 ← pyGet c2 (l + b)
            let y3 ← pyGet c3 (m + c)
            pure (O.addR s.1 (O.act (O.mulC (O.conj (O.mulC (O.mulC y1 y2) y3)) c0) z))
          else pure s.1
        let rsm ←
          if within nb1 (k - a) && within nb2 (l - b) && within nb3 (m - c) then do
            let y1 ← pyGet c1 (k - a)
            let y2 ← pyGet c2 (l - b)
            let y3 ← pyGet c3 (m - c)
            pure (O.addR s.2 (O.act (O.mulC (O.conj (O.mulC (O.mulC y1 y2) y3)) c0) z))
          else pure s.2
        pure (rsp, rsm)
  pure (O.fin (decide (a = 0 ∧ b = 0 ∧ c = 0)) rsp rsm)

/-- `_current_coeff_4_tones`, `qmix/qtcurrent.py:778-855`, as `Qt.coeff4`. -/
def coeff4 (O : Ops γ ρ σ) (a b c d : ℤ) (c1 c2 c3 c4 : List γ) (r : List (List (List (List ρ)))) (nb1 nb2 nb3 nb4 : ℕ) : Py σ := do
  let (rsp, rsm) ← pyFor (pyRange (-(nb1 : ℤ)) (nb1 + 1)) (O.zeroR, O.zeroR) fun s k =>
    pyFor (pyRange (-(nb2 : ℤ)) (nb2 + 1)) s fun s l =>
      pyFor (pyRange (-(nb3 : ℤ)) (nb3 + 1)) s fun s m =>
        pyFor (pyRange (-(nb4 : ℤ)) (nb4 + 1)) s fun s n => do
          let x1 ← pyGet c1 k
          let x2 ← pyGet c2 l
          let x3 ← pyGet c3 m
          let x4 ← pyGet c4 n
          let c0 := O.mulC (O.mulC (O.mulC x1 x2) x3) x4
          let z1 ← pyGet r k
          let z2 ← pyGet z1 l
          let z3 ← pyGet z2 m
          let z ← pyGet z3 n
          let rsp ←
            if within nb1 (k + a) && within nb2 (l + b) && within nb3 (m + c) && within nb4 (n + d)
            then do
              let y1 ← pyGet c1 (k + a)
              let y2 ← pyGet c2 (l + b)
              let y3 ← pyGet c3 (m + c)
              let y4 ← pyGet c4 (n + d)
              pure (O.addR s.1 (O.act (O.mulC (O.conj (O.mulC (O.mulC (O.mulC y1 y2) y3) y4)) c0) z))
            else pure s.1
          let rsm ←
            if within nb1 (k - a) && within nb2 (l - b) && within nb3 (m - c) && within nb4 (n - d)
            then do
              let y1 ← pyGet c1 (k - a)
              let y2 ← pyGet c2 (l - b)
              let y3 ← pyGet c3 (m - c)
              let y4 ← pyGet c4 (n - d)
              pure (O.addR s.2 (O.act (O.mulC (O.conj (O.mulC (O.mulC (O.mulC y1 y2) y3) y4)) c0) z))
            else pure s.2
          pure (rsp, rsm)
  pure (O.fin (decide (a = 0 ∧ b = 0 ∧ c = 0 ∧ d = 0)) rsp rsm)

/-- A response matrix with entries of any kind, as `Qt.RespMat`. -/
inductive Mat (ρ : Type) where
  | m1 (m : List ρ)
  | m2 (m : List (List ρ))
  | m3 (m : List (List (List ρ)))
  | m4 (m : List (List (List (List ρ))))

open Classical in
/-- `_current_1_tone`, `qmix/qtcurrent.py:443-476`, as `Qt.current1`. `hit as` says that the product of orders `as` passed the comparison of
the rounded frequencies. -/
noncomputable def current1 (O : Ops γ ρ σ) (hit : List ℤ → Prop) (ccc : ℕ → List γ) (r : List ρ) (numP nb1 : ℕ) : Py σ :=
  pyFor (mixRange numP) O.zeroO fun out a => do
    if hit [a] then do
      let x ← coeff1 O a (ccc 1) r nb1
      pure (O.addO out x)
    else pure out

open Classical in
/-- `_current_2_tones`, `qmix/qtcurrent.py:519-554`, as `Qt.current2`. -/
noncomputable def current2 (O : Ops γ ρ σ) (hit : List ℤ → Prop) (ccc : ℕ → List γ) (r : List (List ρ)) (numP nb1 nb2 : ℕ) : Py σ :=
  pyFor (mixRange numP) O.zeroO fun out a =>
    pyFor (mixRange numP) out fun out b => do
      if hit [a, b] then do
        let x ← coeff2 O a b (ccc 1) (ccc 2) r nb1 nb2
        pure (O.addO out x)
      else pure out

open Classical in
/-- `_current_3_tones`, `qmix/qtcurrent.py:612-664`, as `Qt.current3`. -/
noncomputable def current3 (O : Ops γ ρ σ) (hit : List ℤ → Prop) (ccc : ℕ → List γ) (r : List (List (List ρ)))
    (numP nb1 nb2 nb3 : ℕ) : Py σ :=
  pyFor (mixRange numP) O.zeroO fun out a =>
    pyFor (mixRange numP) out fun out b =>
      pyFor (mixRange numP) out fun out c => do
        if hit [a, b, c] then do
          let x ← coeff3 O a b c (ccc 1) (ccc 2) (ccc 3) r nb1 nb2 nb3
          pure (O.addO out x)
        else pure out

open Classical in
/-- `_current_4_tones`, `qmix/qtcurrent.py:735-775`, as `Qt.current4`. -/
noncomputable def current4 (O : Ops γ ρ σ) (hit : List ℤ → Prop) (ccc : ℕ → List γ) (r : List (List (List (List ρ))))
    (numP nb1 nb2 nb3 nb4 : ℕ) : Py σ :=
  pyFor (mixRange numP) O.zeroO fun out a =>
    pyFor (mixRange numP) out fun out b =>
      pyFor (mixRange numP) out fun out c =>
        pyFor (mixRange numP) out fun out d => do
          if hit [a, b, c, d] then do
            let x ← coeff4 O a b c d (ccc 1) (ccc 2) (ccc 3) (ccc 4) r nb1 nb2 nb3 nb4
            pure (O.addO out x)
          else pure out

/-- The dispatch on the number of tones, `qmix/qtcurrent.py:119-130`, as `Qt.currentAt`. -/
noncomputable def currentAt (O : Ops γ ρ σ) (numF numP : ℕ) (ccc : ℕ → List γ) (r : Mat ρ) (nbl : List ℕ) (hit : List ℤ → Prop) : Py σ :=
  match numF, nbl, r with
  | 1, [n1], .m1 m => current1 O hit ccc m numP n1
  | 2, [n1, n2], .m2 m => current2 O hit ccc m numP n1 n2
  | 3, [n1, n2, n3], .m3 m => current3 O hit ccc m numP n1 n2 n3
  | 4, [n1, n2, n3, n4], .m4 m => current4 O hit ccc m numP n1 n2 n3 n4
  | _, _, _ => .error .value

/-- `qtcurrent` from the arrays `jac[f, p]` and the response matrix on, `qmix/qtcurrent.py:99-139`; `hits` holds for every requested
frequency the outcome of the comparison of frequencies. -/
noncomputable def qtcurrent (O : Ops γ ρ σ) (numF numP : ℕ) (jac : ℕ → ℕ → List γ) (r : Mat ρ) (nb : NumB) (hits : List (List ℤ → Prop)) :
    Py (List σ) := do
  let nbl ← unpackNumB nb numF
  let ccc ← convTones O numP jac numF
  hits.mapM (currentAt O numF numP ccc r nbl)

/-! ## Rounded arithmetic -/

/-- Complex and real floating-point operations: each returns the exact result times `1 + δ` with `|δ| ≤ u`. (IEEE double precision
without overflow and underflow: `u = 2^-53` for the real operations and the complex sum, `4 u` for the complex product; see
`Verif/Props/Rounding.lean` for such an arithmetic.) -/
structure Arith (u : ℝ) where
  add : ℂ → ℂ → ℂ
  mul : ℂ → ℂ → ℂ
  radd : ℝ → ℝ → ℝ
  rsub : ℝ → ℝ → ℝ
  add_le : ∀ x y, ‖add x y - (x + y)‖ ≤ u * ‖x + y‖
  mul_le : ∀ x y, ‖mul x y - x * y‖ ≤ u * ‖x * y‖
  radd_le : ∀ x y, |radd x y - (x + y)| ≤ u * |x + y|
  rsub_le : ∀ x y, |rsub x y - (x - y)| ≤ u * |x - y|

/-- The array operations in this arithmetic, element by element. Conjugation, real and imaginary parts, and `x - 1j * y` with real `x`, `y`
are exact. -/
noncomputable def rounded {u : ℝ} (ar : Arith u) (ι : Type) : Ops (Arr ι) (Arr ι) (Arr ι) where
  zeroC := 0
  addC x y := fun i => ar.add (x i) (y i)
  mulC x y := fun i => ar.mul (x i) (y i)
  conj := conjA
  zeroR := 0
  addR x y := fun i => ar.add (x i) (y i)
  act x y := fun i => ar.mul (x i) (y i)
  zeroO := 0
  addO x y := fun i => ar.add (x i) (y i)
  fin dc p m := fun i => if dc then ((p i).im : ℂ) + I * 0
    else (ar.radd (p i).im (m i).im : ℂ) - I * (ar.rsub (p i).re (m i).re : ℂ)

/-- The exact operations. -/
noncomputable def exact (ι : Type) : Ops (Arr ι) (Arr ι) (Arr ι) where
  zeroC := 0
  addC x y := x + y
  mulC x y := x * y
  conj := conjA
  zeroR := 0
  addR x y := x + y
  act x y := x * y
  zeroO := 0
  addO x y := x + y
  fin := finish

end QMix.Rnd
