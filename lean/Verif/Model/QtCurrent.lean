import Verif.Py.Basic
import Verif.Py.Bessel
import Mathlib.Analysis.SpecialFunctions.Complex.Arg
import Mathlib.Analysis.Complex.Exponential

/-!
# Model of `qmix/qtcurrent.py`

`ι` indexes the bias points. An array with a trailing bias axis is an `ι → ℂ` at each of its other
indices, and NumPy arithmetic over that axis is pointwise arithmetic of functions. The axis indexed
by the (possibly negative) summation index `k` is a list accessed with Python index rules.
-/

namespace QMix.Qt

open Complex

/-- A complex array over the bias points. -/
abbrev Arr (ι : Type) := ι → ℂ

/-- `np.conj` over the bias axis. -/
noncomputable def conjA {ι : Type} (x : Arr ι) : Arr ι := fun i => (starRingEnd ℂ) (x i)

/-- The part of `EmbeddingCircuit` that the current calculation reads
(`qmix/circuit.py:211-244`): `freq[1..num_f]`, `num_f`, `num_p`, `vb`. -/
structure Cct (ι : Type) where
  numF : ℕ
  numP : ℕ
  freq : ℕ → ℝ
  vb : ι → ℝ

/-- The `num_b` argument: one integer for all tones, or a tuple. Negative limits are not modelled
(NumPy refuses the array shapes they lead to). -/
inductive NumB
  | int (n : ℕ)
  | tup (l : List ℕ)

/-- `_unpack_num_b`, `qmix/qtcurrent.py:860-881`. -/
def unpackNumB (nb : NumB) (numF : ℕ) : Py (List ℕ) :=
  match nb with
  | .tup l => if l.length ≥ numF then .ok (l.take numF) else .error .assertion
  | .int n => .ok (List.replicate numF n)

/-! ## Response function matrices -/

/-- The interpolated response matrix, by number of tones; the trailing axis is `ι`. -/
inductive RespMat (ι : Type)
  | m1 (m : List (Arr ι))
  | m2 (m : List (List (Arr ι)))
  | m3 (m : List (List (List (Arr ι))))
  | m4 (m : List (List (List (List (Arr ι)))))

/-- `resp_matrix.ndim`. -/
def RespMat.ndim {ι : Type} : RespMat ι → ℕ
  | .m1 _ => 2
  | .m2 _ => 3
  | .m3 _ => 4
  | .m4 _ => 5

/-- `np.r_[np.arange(0, nb + 1), np.arange(-nb, 0)]`, `qmix/qtcurrent.py:216, 249, 252`. -/
def indArr (nb : ℕ) : List ℤ := pyRange 0 (nb + 1) ++ pyRange (-(nb : ℤ)) 0

/-- `_interpolate_respfn_1_tone`, `qmix/qtcurrent.py:199-227`. The products with arrays of ones are
NumPy broadcasting; `resp` acts elementwise. -/
noncomputable def interp1 {ι : Type} (resp : ℝ → ℂ) (vb : ι → ℝ) (freq : ℕ → ℝ) (nb1 : ℕ) :
    List (Arr ι) :=
  (indArr nb1).map fun (k : ℤ) i => resp (vb i + k * freq 1)

/-- `_interpolate_respfn_2_tone`, `qmix/qtcurrent.py:230-268`. -/
noncomputable def interp2 {ι : Type} (resp : ℝ → ℂ) (vb : ι → ℝ) (freq : ℕ → ℝ) (nb1 nb2 : ℕ) :
    List (List (Arr ι)) :=
  (indArr nb1).map fun (k : ℤ) => (indArr nb2).map fun (l : ℤ) i => resp (vb i + k * freq 1 + l * freq 2)

/-- `a[k, l, m] = x` for a 3-index nested list. -/
def pySet3 {α : Type*} (a : List (List (List α))) (k l m : ℤ) (x : α) :
    Py (List (List (List α))) := do
  let r1 ← pyGet a k
  let r2 ← pyGet r1 l
  let r2' ← pySet r2 m x
  let r1' ← pySet r1 l r2'
  pySet a k r1'

/-- `a[k, l, m, n] = x` for a 4-index nested list. -/
def pySet4 {α : Type*} (a : List (List (List (List α)))) (k l m n : ℤ) (x : α) :
    Py (List (List (List (List α)))) := do
  let r1 ← pyGet a k
  let r1' ← pySet3 r1 l m n x
  pySet a k r1'

/-- `_interpolate_respfn_3_tone`, `qmix/qtcurrent.py:271-295`: zeros, then assignment in three nested
loops over negative-to-positive indices, then `resp` elementwise. -/
noncomputable def interp3 {ι : Type} (resp : ℝ → ℂ) (vb : ι → ℝ) (freq : ℕ → ℝ)
    (nb1 nb2 nb3 : ℕ) : Py (List (List (List (Arr ι)))) := do
  let zeros : List (List (List (ι → ℝ))) :=
    List.replicate (nb1 * 2 + 1) (List.replicate (nb2 * 2 + 1) (List.replicate (nb3 * 2 + 1) 0))
  let voltage ← pyFor (pyRange (-(nb1 : ℤ)) (nb1 + 1)) zeros fun v k =>
    pyFor (pyRange (-(nb2 : ℤ)) (nb2 + 1)) v fun v l =>
      pyFor (pyRange (-(nb3 : ℤ)) (nb3 + 1)) v fun v m =>
        pySet3 v k l m fun i => vb i + k * freq 1 + l * freq 2 + m * freq 3
  pure (voltage.map fun a => a.map fun b => b.map fun c i => resp (c i))

/-- `_interpolate_respfn_4_tone`, `qmix/qtcurrent.py:298-324`. -/
noncomputable def interp4 {ι : Type} (resp : ℝ → ℂ) (vb : ι → ℝ) (freq : ℕ → ℝ)
    (nb1 nb2 nb3 nb4 : ℕ) : Py (List (List (List (List (Arr ι))))) := do
  let zeros : List (List (List (List (ι → ℝ)))) :=
    List.replicate (nb1 * 2 + 1) (List.replicate (nb2 * 2 + 1)
      (List.replicate (nb3 * 2 + 1) (List.replicate (nb4 * 2 + 1) 0)))
  let voltage ← pyFor (pyRange (-(nb1 : ℤ)) (nb1 + 1)) zeros fun v k =>
    pyFor (pyRange (-(nb2 : ℤ)) (nb2 + 1)) v fun v l =>
      pyFor (pyRange (-(nb3 : ℤ)) (nb3 + 1)) v fun v m =>
        pyFor (pyRange (-(nb4 : ℤ)) (nb4 + 1)) v fun v n =>
          pySet4 v k l m n fun i => vb i + k * freq 1 + l * freq 2 + m * freq 3 + n * freq 4
  pure (voltage.map fun a => a.map fun b => b.map fun c => c.map fun d i => resp (d i))

/-- `interpolate_respfn`, `qmix/qtcurrent.py:164-196`. The star-unpacking `*nb_list` passes exactly
`num_f` limits. -/
noncomputable def interpolateRespfn {ι : Type} (cct : Cct ι) (resp : ℝ → ℂ) (nb : NumB) :
    Py (RespMat ι) := do
  let nbl ← unpackNumB nb cct.numF
  match cct.numF, nbl with
  | 1, [n1] => pure (.m1 (interp1 resp cct.vb cct.freq n1))
  | 2, [n1, n2] => pure (.m2 (interp2 resp cct.vb cct.freq n1 n2))
  | 3, [n1, n2, n3] => do
    let m ← interp3 resp cct.vb cct.freq n1 n2 n3
    pure (.m3 m)
  | 4, [n1, n2, n3, n4] => do
    let m ← interp4 resp cct.vb cct.freq n1 n2 n3 n4
    pure (.m4 m)
  | _, _ => .error .value

/-! ## Phase factor coefficients -/

/-- `jac[f, p]` for one tone and harmonic, `qmix/qtcurrent.py:358-383`: an array of size
`2*maxb + 1` (zeros), entry `0` is `J_0(alpha)`, entries `n` and `-n` for `1 ≤ n ≤ nbf` are set in the
loop. `v` is `vj[f, p, :]`, `w` is `freq[f]`; `alpha = |v| / (p w)`, `phi = angle(v)`. -/
noncomputable def jacArr {ι : Type} (v : Arr ι) (w : ℝ) (p maxb nbf : ℕ) : Py (List (Arr ι)) := do
  let alpha : ι → ℝ := fun i => ‖v i‖ / (p * w)
  let phi : ι → ℝ := fun i => arg (v i)
  let zeros : List (Arr ι) := List.replicate (maxb * 2 + 1) 0
  let jac ← pySet zeros 0 fun i => (besselJ 0 (alpha i) : ℂ)
  pyFor (pyRange 1 (nbf + 1)) jac fun jac n => do
    let jac ← pySet jac n fun i => (besselJ n (alpha i) : ℂ) * exp (-I * n * phi i)
    let x ← pyGet jac n
    pySet jac (-n) fun i => (-1) ^ n * conjA x i

/-- One pass of the harmonic loop of `_convolve_coefficients`, `qmix/qtcurrent.py:422-430`, for one
tone (the slices `[1:, ...]` apply it to all tones independently). `num_b` is recovered from the
array size; `int(x / p)` truncates towards zero (`Int.tdiv`; float division of these small integers
is exact enough for the truncation). -/
noncomputable def convStep {ι : Type} (p : ℕ) (last jp : List (Arr ι)) : Py (List (Arr ι)) :=
  let nb : ℤ := (((jp.length - 1) / 2 : ℕ) : ℤ)
  pyFor (pyRange (-nb) (nb + 1)) (List.replicate last.length 0) fun nxt k =>
    let lmin := max (-nb) (Int.tdiv (k - nb) p)
    let lmax := min nb (Int.tdiv (k + nb) p)
    pyFor (pyRange lmin (lmax + 1)) nxt fun nxt l => do
      let cur ← pyGet nxt k
      let a ← pyGet last (k - p * l)
      let b ← pyGet jp l
      pySet nxt k (cur + a * b)

/-- `_convolve_coefficients`, `qmix/qtcurrent.py:392-432`, for one tone: `jac p` is `jac[f, p]`. -/
noncomputable def convolve {ι : Type} (numP : ℕ) (jac : ℕ → List (Arr ι)) : Py (List (Arr ι)) :=
  if numP = 1 then .ok (jac 1)
  else pyFor (pyRange 2 (numP + 1)) (jac 1) fun last p => convStep p.toNat last (jac p.toNat)

/-- `max(num_b)` of a tuple; `max(())` is a `ValueError`. -/
def pyMax : List ℕ → Py ℕ
  | [] => .error .value
  | x :: xs => .ok (xs.foldl max x)

/-- The arrays `jac[f, p]` for `p = 1..numP` of one tone, evaluated in order (any exception is passed
on); `jac[f, 0]` is never read. -/
noncomputable def jacTone {ι : Type} (vj : ℕ → ℕ → Arr ι) (w : ℝ) (f maxb nbf : ℕ) :
    ℕ → Py (ℕ → List (Arr ι))
  | 0 => .ok fun _ => []
  | p + 1 => do
    let rest ← jacTone vj w f maxb nbf p
    let a ← jacArr (vj f (p + 1)) w (p + 1) maxb nbf
    pure fun q => if q = p + 1 then a else rest q

/-- The coefficients of tone `f`: `calculate_phase_factor_coeff`, `qmix/qtcurrent.py:352-389`,
restricted to one tone. `tup` is `num_b` as a tuple. -/
noncomputable def phaseTone {ι : Type} (vj : ℕ → ℕ → Arr ι) (freq : ℕ → ℝ) (numP : ℕ)
    (tup : List ℕ) (f : ℕ) : Py (List (Arr ι)) := do
  let maxb ← pyMax tup
  let nbf ← pyGet tup ((f : ℤ) - 1)
  let jac ← jacTone vj (freq f) f maxb nbf numP
  convolve numP jac

/-- All tones `1..n`. -/
noncomputable def phaseTones {ι : Type} (vj : ℕ → ℕ → Arr ι) (freq : ℕ → ℝ) (numP : ℕ)
    (tup : List ℕ) : ℕ → Py (ℕ → List (Arr ι))
  | 0 => .ok fun _ => []
  | f + 1 => do
    let rest ← phaseTones vj freq numP tup f
    let c ← phaseTone vj freq numP tup (f + 1)
    pure fun g => if g = f + 1 then c else rest g

/-- `num_b` as a tuple, `qmix/qtcurrent.py:347-350`. -/
def NumB.toTup (nb : NumB) (numF : ℕ) : List ℕ :=
  match nb with
  | .int n => List.replicate numF n
  | .tup l => l

/-- `calculate_phase_factor_coeff`, `qmix/qtcurrent.py:329-389`. An integer `num_b` is replicated
`num_f` times; a tuple is used as it is (in particular `max(num_b)` is over *all* its entries). -/
noncomputable def phaseFactorCoeff {ι : Type} (vj : ℕ → ℕ → Arr ι) (freq : ℕ → ℝ) (numF numP : ℕ)
    (nb : NumB) : Py (ℕ → List (Arr ι)) :=
  phaseTones vj freq numP (nb.toTup numF) numF

/-! ## Tunnelling current kernels -/

/-- `rs_p.imag + 1j * 0` / `(rs_p.imag + rs_m.imag) - 1j * (rs_p.real - rs_m.real)`,
`qmix/qtcurrent.py:513-516, 606-609, 728-731, 852-855`. -/
noncomputable def finish {ι : Type} (dc : Bool) (rsp rsm : Arr ι) : Arr ι := fun i =>
  if dc then ((rsp i).im : ℂ) + I * 0
  else (((rsp i).im : ℂ) + ((rsm i).im : ℂ)) - I * (((rsp i).re : ℂ) - ((rsm i).re : ℂ))

/-- `-nb <= x <= nb`. -/
def within (nb : ℕ) (x : ℤ) : Bool := decide (-(nb : ℤ) ≤ x ∧ x ≤ nb)

/-- `_current_coeff_1_tone`, `qmix/qtcurrent.py:479-516`. The state of the loop is `(rs_p, rs_m)`. -/
noncomputable def coeff1 {ι : Type} (a : ℤ) (c1 : List (Arr ι)) (r : List (Arr ι)) (nb1 : ℕ) :
    Py (Arr ι) := do
  let cconj := c1.map conjA
  let (rsp, rsm) ← pyFor (pyRange (-(nb1 : ℤ)) (nb1 + 1)) ((0, 0) : Arr ι × Arr ι) fun s k => do
    let rsp ←
      if within nb1 (k + a) then do
        let x ← pyGet c1 k
        let y ← pyGet cconj (k + a)
        let z ← pyGet r k
        pure (s.1 + x * y * z)
      else pure s.1
    let rsm ←
      if within nb1 (k - a) then do
        let x ← pyGet c1 k
        let y ← pyGet cconj (k - a)
        let z ← pyGet r k
        pure (s.2 + x * y * z)
      else pure s.2
    pure (rsp, rsm)
  pure (finish (decide (a = 0)) rsp rsm)

/-- `_current_coeff_2_tones`, `qmix/qtcurrent.py:557-609`. -/
noncomputable def coeff2 {ι : Type} (a b : ℤ) (c1 c2 : List (Arr ι)) (r : List (List (Arr ι)))
    (nb1 nb2 : ℕ) : Py (Arr ι) := do
  let (rsp, rsm) ← pyFor (pyRange (-(nb1 : ℤ)) (nb1 + 1)) ((0, 0) : Arr ι × Arr ι) fun s k =>
    pyFor (pyRange (-(nb2 : ℤ)) (nb2 + 1)) s fun s l => do
      let rsp ←
        if within nb1 (k + a) && within nb2 (l + b) then do
          let x1 ← pyGet c1 k
          let y1 ← pyGet c1 (k + a)
          let x2 ← pyGet c2 l
          let y2 ← pyGet c2 (l + b)
          let z1 ← pyGet r k
          let z ← pyGet z1 l
          pure (s.1 + x1 * conjA y1 * x2 * conjA y2 * z)
        else pure s.1
      let rsm ←
        if within nb1 (k - a) && within nb2 (l - b) then do
          let x1 ← pyGet c1 k
          let y1 ← pyGet c1 (k - a)
          let x2 ← pyGet c2 l
          let y2 ← pyGet c2 (l - b)
          let z1 ← pyGet r k
          let z ← pyGet z1 l
          pure (s.2 + x1 * conjA y1 * x2 * conjA y2 * z)
        else pure s.2
      pure (rsp, rsm)
  pure (finish (decide (a = 0 ∧ b = 0)) rsp rsm)

/-- `_current_coeff_3_tones`, `qmix/qtcurrent.py:667-731`. -/
noncomputable def coeff3 {ι : Type} (a b c : ℤ) (c1 c2 c3 : List (Arr ι))
    (r : List (List (List (Arr ι)))) (nb1 nb2 nb3 : ℕ) : Py (Arr ι) := do
  let (rsp, rsm) ← pyFor (pyRange (-(nb1 : ℤ)) (nb1 + 1)) ((0, 0) : Arr ι × Arr ι) fun s k =>
    pyFor (pyRange (-(nb2 : ℤ)) (nb2 + 1)) s fun s l =>
      pyFor (pyRange (-(nb3 : ℤ)) (nb3 + 1)) s fun s m => do
        let x1 ← pyGet c1 k
        let x2 ← pyGet c2 l
        let x3 ← pyGet c3 m
        let c0 := x1 * x2 * x3
        let z1 ← pyGet r k
        let z2 ← pyGet z1 l
        let z ← pyGet z2 m
        let rsp ←
          if within nb1 (k + a) && within nb2 (l + b) && within nb3 (m + c) then do
            let y1 ← pyGet c1 (k + a)
            let y2 ← pyGet c2 (l + b)
            let y3 ← pyGet c3 (m + c)
            pure (s.1 + conjA (y1 * y2 * y3) * c0 * z)
          else pure s.1
        let rsm ←
          if within nb1 (k - a) && within nb2 (l - b) && within nb3 (m - c) then do
            let y1 ← pyGet c1 (k - a)
            let y2 ← pyGet c2 (l - b)
            let y3 ← pyGet c3 (m - c)
            pure (s.2 + conjA (y1 * y2 * y3) * c0 * z)
          else pure s.2
        pure (rsp, rsm)
  pure (finish (decide (a = 0 ∧ b = 0 ∧ c = 0)) rsp rsm)

/-- `_current_coeff_4_tones`, `qmix/qtcurrent.py:778-855`. -/
noncomputable def coeff4 {ι : Type} (a b c d : ℤ) (c1 c2 c3 c4 : List (Arr ι))
    (r : List (List (List (List (Arr ι))))) (nb1 nb2 nb3 nb4 : ℕ) : Py (Arr ι) := do
  let (rsp, rsm) ← pyFor (pyRange (-(nb1 : ℤ)) (nb1 + 1)) ((0, 0) : Arr ι × Arr ι) fun s k =>
    pyFor (pyRange (-(nb2 : ℤ)) (nb2 + 1)) s fun s l =>
      pyFor (pyRange (-(nb3 : ℤ)) (nb3 + 1)) s fun s m =>
        pyFor (pyRange (-(nb4 : ℤ)) (nb4 + 1)) s fun s n => do
          let x1 ← pyGet c1 k
          let x2 ← pyGet c2 l
          let x3 ← pyGet c3 m
          let x4 ← pyGet c4 n
          let c0 := x1 * x2 * x3 * x4
          let z1 ← pyGet r k
          let z2 ← pyGet z1 l
          let z3 ← pyGet z2 m
          let z ← pyGet z3 n
          let rsp ←
            if within nb1 (k + a) && within nb2 (l + b) && within nb3 (m + c) && within nb4 (n + d)
            then do
              let y1 ← pyGet c1 (k + a)
              let y2 ← pyGet c2 (l + b)
              let y3 ← pyGet c3 (m + c)
              let y4 ← pyGet c4 (n + d)
              pure (s.1 + conjA (y1 * y2 * y3 * y4) * c0 * z)
            else pure s.1
          let rsm ←
            if within nb1 (k - a) && within nb2 (l - b) && within nb3 (m - c) && within nb4 (n - d)
            then do
              let y1 ← pyGet c1 (k - a)
              let y2 ← pyGet c2 (l - b)
              let y3 ← pyGet c3 (m - c)
              let y4 ← pyGet c4 (n - d)
              pure (s.2 + conjA (y1 * y2 * y3 * y4) * c0 * z)
            else pure s.2
          pure (rsp, rsm)
  pure (finish (decide (a = 0 ∧ b = 0 ∧ c = 0 ∧ d = 0)) rsp rsm)

/-- `range(num_p, -(num_p + 1), -1)`. -/
def mixRange (numP : ℕ) : List ℤ := pyRangeDown numP (-((numP : ℤ) + 1))

/-- `_current_1_tone`, `qmix/qtcurrent.py:443-476`. -/
noncomputable def current1 {ι : Type} (fout : ℝ) (ccc : ℕ → List (Arr ι)) (freq : ℕ → ℝ)
    (r : List (Arr ι)) (numP nb1 : ℕ) : Py (Arr ι) :=
  let fout := round4 fout
  pyFor (mixRange numP) (0 : Arr ι) fun out a => do
    if round4 (a * freq 1) = fout then do
      let x ← coeff1 a (ccc 1) r nb1
      pure (out + x)
    else pure out

/-- `_current_2_tones`, `qmix/qtcurrent.py:519-554`. -/
noncomputable def current2 {ι : Type} (fout : ℝ) (ccc : ℕ → List (Arr ι)) (freq : ℕ → ℝ)
    (r : List (List (Arr ι))) (numP nb1 nb2 : ℕ) : Py (Arr ι) :=
  let fout := round4 fout
  pyFor (mixRange numP) (0 : Arr ι) fun out a =>
    pyFor (mixRange numP) out fun out b => do
      if round4 (a * freq 1 + b * freq 2) = fout then do
        let x ← coeff2 a b (ccc 1) (ccc 2) r nb1 nb2
        pure (out + x)
      else pure out

/-- `_current_3_tones`, `qmix/qtcurrent.py:612-664`. -/
noncomputable def current3 {ι : Type} (fout : ℝ) (ccc : ℕ → List (Arr ι)) (freq : ℕ → ℝ)
    (r : List (List (List (Arr ι)))) (numP nb1 nb2 nb3 : ℕ) : Py (Arr ι) :=
  let fout := round4 fout
  pyFor (mixRange numP) (0 : Arr ι) fun out a =>
    pyFor (mixRange numP) out fun out b =>
      pyFor (mixRange numP) out fun out c => do
        if round4 (a * freq 1 + b * freq 2 + c * freq 3) = fout then do
          let x ← coeff3 a b c (ccc 1) (ccc 2) (ccc 3) r nb1 nb2 nb3
          pure (out + x)
        else pure out

/-- `_current_4_tones`, `qmix/qtcurrent.py:735-775`. -/
noncomputable def current4 {ι : Type} (fout : ℝ) (ccc : ℕ → List (Arr ι)) (freq : ℕ → ℝ)
    (r : List (List (List (List (Arr ι))))) (numP nb1 nb2 nb3 nb4 : ℕ) : Py (Arr ι) :=
  let fout := round4 fout
  pyFor (mixRange numP) (0 : Arr ι) fun out a =>
    pyFor (mixRange numP) out fun out b =>
      pyFor (mixRange numP) out fun out c =>
        pyFor (mixRange numP) out fun out d => do
          if round4 (a * freq 1 + b * freq 2 + c * freq 3 + d * freq 4) = fout then do
            let x ← coeff4 a b c d (ccc 1) (ccc 2) (ccc 3) (ccc 4) r nb1 nb2 nb3 nb4
            pure (out + x)
          else pure out

/-- The dispatch on the number of tones, `qmix/qtcurrent.py:119-130`. (A tone count outside 1-4
cannot be constructed; Python would then leave the zeros in place. Modelled as `ValueError`, which
`interpolate_respfn` has raised before.) -/
noncomputable def currentAt {ι : Type} (numF numP : ℕ) (freq : ℕ → ℝ) (ccc : ℕ → List (Arr ι))
    (r : RespMat ι) (nbl : List ℕ) (fout : ℝ) : Py (Arr ι) :=
  match numF, nbl, r with
  | 1, [n1], .m1 m => current1 fout ccc freq m numP n1
  | 2, [n1, n2], .m2 m => current2 fout ccc freq m numP n1 n2
  | 3, [n1, n2, n3], .m3 m => current3 fout ccc freq m numP n1 n2 n3
  | 4, [n1, n2, n3, n4], .m4 m => current4 fout ccc freq m numP n1 n2 n3 n4
  | _, _, _ => .error .value

/-- `all(cct.freq[1:] > 0)`: `cct.freq[1:].min() > 0`, `qmix/qtcurrent.py:78`. -/
def freqPos (numF : ℕ) (freq : ℕ → ℝ) : Prop := ∀ f, 1 ≤ f → f ≤ numF → 0 < freq f

open Classical in
/-- `qtcurrent` for a list of frequencies, `qmix/qtcurrent.py:37-139` (timing and printing left out;
the `shape[-1] == npts` check is by typing). Rows are produced in the order of `freq_list`. -/
noncomputable def qtcurrentList {ι : Type} (vj : ℕ → ℕ → Arr ι) (cct : Cct ι) (resp : ℝ → ℂ)
    (freqList : List ℝ) (nb : NumB) (respMat : Option (RespMat ι)) : Py (List (Arr ι)) := do
  if ¬ freqPos cct.numF cct.freq then throw .assertion
  let freqList := freqList.map round4
  let nbl ← unpackNumB nb cct.numF
  let ccc ← phaseFactorCoeff vj cct.freq cct.numF cct.numP nb
  let r ← match respMat with
    | none => interpolateRespfn cct resp nb
    | some m => if m.ndim = cct.numF + 1 then pure m else throw .assertion
  freqList.mapM (currentAt cct.numF cct.numP cct.freq ccc r nbl)

/-- `qtcurrent` for a scalar frequency, `qmix/qtcurrent.py:84-86, 140-144`: the one row, and only its
real part if the rounded frequency is 0. -/
noncomputable def qtcurrentScalar {ι : Type} (vj : ℕ → ℕ → Arr ι) (cct : Cct ι) (resp : ℝ → ℂ)
    (f : ℝ) (nb : NumB) (respMat : Option (RespMat ι)) : Py (Arr ι) := do
  let rows ← qtcurrentList vj cct resp [f] nb respMat
  let row ← pyGet rows 0
  if round4 f = 0 then pure fun i => ((row i).re : ℂ) else pure row

end QMix.Qt
