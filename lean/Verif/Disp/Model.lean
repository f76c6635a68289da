import Verif.Base
import Mathlib.Analysis.SpecialFunctions.Trigonometric.Arctan
import Mathlib.Analysis.SpecialFunctions.Log.Basic
import Mathlib.Analysis.SpecialFunctions.Sqrt

/-!
# Model of /repo/refellips/dispersion.py and of `ScattererSE.complex`,
  `nm_eV_conversion` (/repo/refellips/structureSE.py:67-141, 925-934)

Parameters are represented by their current values.  Wavelength arguments are scalars (arrays:
see `complexArr`); `None` is `Option.none`.  Default wavelengths are real numbers.
-/

namespace Verif.Disp

/-! ### Small numpy functions -/

/-- The loop of `np.interp` (numpy, external): `x0 ≤ x`, find the last knot not above `x`. -/
noncomputable def interpFrom (x0 y0 : ℝ) : List (ℝ × ℝ) → ℝ → ℝ
  | [], _ => y0
  | (x1, y1) :: rest, x =>
    open Classical in
    if x < x1 then (y1 - y0) / (x1 - x0) * (x - x0) + y0 else interpFrom x1 y1 rest x

/-- `np.interp(x, xp, fp)` (numpy, external) for non-decreasing `xp`; raises `ValueError` for an
empty table. -/
noncomputable def interp (tab : List (ℝ × ℝ)) (x : ℝ) : Except PyErr ℝ :=
  match tab with
  | [] => .error .valueError
  | (x0, y0) :: rest => open Classical in if x < x0 then .ok y0 else .ok (interpFrom x0 y0 rest x)

/-- Sum of numbers that may be non-finite (`np.sum(..., axis=0)`). -/
noncomputable def sumO {α : Type} [Add α] [Zero α] : List (Option α) → Option α
  | [] => some 0
  | v :: vs => do return (← v) + (← sumO vs)

/-- `np.sqrt` of a real: `nan` for negative arguments. -/
noncomputable def rsqrt (x : ℝ) : Option ℝ :=
  open Classical in if x < 0 then none else some (Real.sqrt x)

/-- `np.log` of a real: non-finite unless the argument is positive. -/
noncomputable def rlog (x : ℝ) : Option ℝ :=
  open Classical in if 0 < x then some (Real.log x) else none

/-- `nm_eV_conversion`.  structureSE.py:925-934. -/
noncomputable def nmEV (v : ℝ) : Option ℝ := rdiv 1239.841984055 v

/-! ### Choice of wavelength -/

/-- `wav = self.wavelength; if np.any(wavelength): wav = wavelength`.
dispersion.py:117-119, 211-213, 290-292; structureSE.py:105-107. -/
noncomputable def pickWav (own : ℝ) (w : Option ℝ) : ℝ :=
  open Classical in
  match w with
  | none => own
  | some w => if w = 0 then own else w

/-! ### Oscillators -/

/-- One Lorentz term `A / (E**2 - _e**2 - 1j * B * _e)`.  dispersion.py:391-395. -/
noncomputable def lorentzTerm (e : ℝ) (o : ℝ × ℝ × ℝ) : Option ℂ :=
  cdiv o.1 ((o.2.2 : ℂ) ^ 2 - e ^ 2 - Complex.I * o.2.1 * e)

/-- `Lorentz.epsilon`; oscillators are triples `(Am, Br, En)`.  dispersion.py:387-401. -/
noncomputable def lorentzEps (osc : List (ℝ × ℝ × ℝ)) (einf e : ℝ) : Option ℂ := do
  return (← sumO (osc.map (lorentzTerm e))) + einf

/-- Number of grid points of `Gauss.epsilon`.  dispersion.py:463. -/
def gaussN : ℕ := 2048

/-- `_e_pad[j]`, `np.linspace(-20, 20, 2048)`.  dispersion.py:463. -/
noncomputable def ePad (j : ℕ) : ℝ := -20 + 40 * j / 2047

/-- `np.exp(-((x / sigma) ** 2))` with the IEEE result for `sigma = 0`.
dispersion.py:465-466. -/
noncomputable def gaussExp (x s : ℝ) : Option ℝ :=
  open Classical in
  if s = 0 then (if x = 0 then none else some 0) else some (Real.exp (-((x / s) ^ 2)))

/-- `e2` of one oscillator at an energy.  dispersion.py:464-466. -/
noncomputable def gaussE2 (o : ℝ × ℝ × ℝ) (x : ℝ) : Option ℝ := do
  let s := o.2.1 / 2 / Real.sqrt (Real.log 2)
  return o.1 * (← gaussExp (x - o.2.2) s) - o.1 * (← gaussExp (x + o.2.2) s)

/-- Kernel of the periodic Hilbert transform on `2048` points. -/
noncomputable def hilbertKernel (k : ℤ) : ℝ :=
  -(2 / gaussN) * ∑ j ∈ Finset.Ico 1 (gaussN / 2), Real.sin (2 * Real.pi * j * k / gaussN)

/-- `scipy.fftpack.hilbert` (external): Fourier coefficient `j` is multiplied by `i * sign(j)`;
the mean and the Nyquist mode are set to 0. -/
noncomputable def hilbert (x : ℕ → ℝ) (n : ℕ) : ℝ :=
  ∑ m ∈ Finset.range gaussN, x m * hilbertKernel ((n : ℤ) - m)

/-- The grid values of `e2` of one oscillator; the oscillator is unusable if one is `nan`. -/
noncomputable def gaussGrid (o : ℝ × ℝ × ℝ) : Option (ℕ → ℝ) :=
  open Classical in
  if ∀ j < gaussN, (gaussE2 o (ePad j)).isSome
  then some fun j => (gaussE2 o (ePad j)).getD 0 else none

/-- Sum of the grids of all oscillators after applying `F` to each (`F` = identity for `e2`, the
Hilbert transform for `e1`).  dispersion.py:470-473. -/
noncomputable def gaussSum (F : (ℕ → ℝ) → ℕ → ℝ) :
    List (ℝ × ℝ × ℝ) → Option (ℕ → ℝ)
  | [] => some fun _ => 0
  | o :: os => do
    let g ← gaussGrid o
    let r ← gaussSum F os
    return fun j => F g j + r j

/-- `np.interp` on the grid `_e_pad`.  dispersion.py:476-477. -/
noncomputable def gridInterp (y : ℕ → ℝ) (e : ℝ) : Option ℝ :=
  (interp ((List.range gaussN).map fun j => (ePad j, y j)) e).toOption

/-- `Gauss.epsilon`.  Simplification: a `nan` anywhere on the grid makes the result `nan`.
dispersion.py:453-481. -/
noncomputable def gaussEps (osc : List (ℝ × ℝ × ℝ)) (einf e : ℝ) : Option ℂ := do
  let e1 ← gaussSum hilbert osc
  let e2 ← gaussSum id osc
  let a ← gridInterp (fun j => e1 j + einf) e
  let b ← gridInterp e2 e
  return ⟨a, b⟩

/-- Real part of one Tauc-Lorentz oscillator `(Am, C, En)`.  dispersion.py:553-629. -/
noncomputable def tlE1 (o : ℝ × ℝ × ℝ) (Eg e : ℝ) : Option ℝ := do
  let A := o.1
  let C := o.2.1
  let Ei := o.2.2
  let aLn := (Eg ^ 2 - Ei ^ 2) * e ^ 2 + Eg ^ 2 * C ^ 2 - Ei ^ 2 * (Ei ^ 2 + 3 * Eg ^ 2)
  let aAtan := (e ^ 2 - Ei ^ 2) * (Ei ^ 2 + Eg ^ 2) + Eg ^ 2 * C ^ 2
  let alpha ← rsqrt (4 * Ei ^ 2 - C ^ 2)
  let gamma ← rsqrt (Ei ^ 2 - C ^ 2 / 2)
  let zeta4 := (e ^ 2 - gamma ^ 2) ^ 2 + 0.25 * alpha ^ 2 * C ^ 2
  let l1 ← rlog (← rdiv (Ei ^ 2 + Eg ^ 2 + alpha * Eg) (Ei ^ 2 + Eg ^ 2 - alpha * Eg))
  let t1 ← rdiv (A * C * aLn / 2 / Real.pi) (zeta4 * alpha * Ei)
  let t2 ← rdiv (A / Real.pi * aAtan) (zeta4 * Ei)
  let q1 ← rdiv (2 * Eg + alpha) C
  let q2 ← rdiv (alpha - 2 * Eg) C
  let t3 ← rdiv (2 * A * Ei * Eg * (e ^ 2 - gamma ^ 2) / Real.pi) (zeta4 * alpha)
  let q3 ← rdiv (2 * (gamma ^ 2 - Eg ^ 2)) (alpha * C)
  let t4 ← rdiv (A * Ei * C * (e ^ 2 + Eg ^ 2) / Real.pi) (zeta4 * e)
  let l4 ← rlog (← rdiv |e - Eg| (e + Eg))
  let t5 ← rdiv (2 * A * Ei * Eg * C / Real.pi) zeta4
  let l5 ← rlog (← rdiv (|e - Eg| * (e + Eg)) (Real.sqrt ((Ei ^ 2 - Eg ^ 2) ^ 2 + Eg ^ 2 * C ^ 2)))
  return t1 * l1 - t2 * (Real.pi - Real.arctan q1 + Real.arctan q2)
    + t3 * (Real.pi + 2 * Real.arctan q3) - t4 * l4 + t5 * l5

/-- `np.heaviside(x, 0)`. -/
noncomputable def heaviside (x : ℝ) : ℝ := open Classical in if 0 < x then 1 else 0

/-- Imaginary part of one Tauc-Lorentz oscillator.  dispersion.py:633-636. -/
noncomputable def tlE2 (o : ℝ × ℝ × ℝ) (Eg e : ℝ) : Option ℝ := do
  let q ← rdiv (o.1 * o.2.2 * o.2.1 * (e - Eg) ^ 2)
    (e * ((e ^ 2 - o.2.2 ^ 2) ^ 2 + (o.2.1 * e) ^ 2))
  return q * heaviside (e - Eg)

/-- `TaucLorentz.epsilon`: real and imaginary part.  dispersion.py:549-641.  (Iterated divisions
of the code are merged into one; both are non-finite exactly when a divisor vanishes.) -/
noncomputable def tlParts (osc : List (ℝ × ℝ × ℝ)) (Eg einf e : ℝ) : Option ℝ × Option ℝ :=
  ((sumO (osc.map fun o => tlE1 o Eg e)).map (· + einf), sumO (osc.map fun o => tlE2 o Eg e))

/-- `TaucLorentz.epsilon` as a complex number.  dispersion.py:638. -/
noncomputable def tlEps (osc : List (ℝ × ℝ × ℝ)) (Eg einf e : ℝ) : Option ℂ := do
  return ⟨← (tlParts osc Eg einf e).1, ← (tlParts osc Eg einf e).2⟩

/-- The quantity under the square root of `Sellmeier.complex`, also the real part of
`Sellmeier.epsilon`.  dispersion.py:294-301, 312-319. -/
noncomputable def sellmeierReal (Am En P einf w : ℝ) : Option ℝ := do
  let u := w * 1e-3
  return einf + (← rdiv (Am * u ^ 2) (u ^ 2 - En ^ 2)) - P * u ^ 2

/-! ### Scatterers -/

/-- A scatterer: current parameter values, `wl` is its own default wavelength (nm).
Tables hold `(wavelength in nm, n, k)`.  dispersion.py:23-641.  `other` stands for a user defined
subclass with its own `complex` method and `dispersive` flag. -/
inductive Scat
  | const (wl n k : ℝ)
  | table (wl : ℝ) (tab : List (ℝ × ℝ × ℝ))
  | cauchy (wl A B C : ℝ)
  | sellmeier (wl Am En P einf : ℝ)
  | lorentz (wl : ℝ) (osc : List (ℝ × ℝ × ℝ)) (einf : ℝ)
  | gauss (wl : ℝ) (osc : List (ℝ × ℝ × ℝ)) (einf : ℝ)
  | tauc (wl : ℝ) (osc : List (ℝ × ℝ × ℝ)) (Eg einf : ℝ)
  | other (dispersive : Bool) (f : Option ℝ → Option ℂ)

/-- `self.dispersive`; `True` for every class of the package.  structureSE.py:73-78. -/
def Scat.dispersive : Scat → Bool
  | .other d _ => d
  | _ => true

/-- `self.wavelength`. -/
def Scat.ownWav : Scat → Option ℝ
  | .const w _ _ | .table w _ | .cauchy w _ _ _ | .sellmeier w _ _ _ _ | .lorentz w _ _
  | .gauss w _ _ | .tauc w _ _ _ => some w
  | .other _ _ => none

/-- Sign of zero seen by the square root of a dielectric constant on the negative real axis. -/
abbrev SqrtOracle := Scat → ℝ → Bool

/-- Dielectric function at an energy, for the scatterers that inherit `ScattererSE.complex`. -/
noncomputable def Scat.epsilon : Scat → ℝ → Option ℂ
  | .lorentz _ osc einf, e => lorentzEps osc einf e
  | .gauss _ osc einf, e => gaussEps osc einf e
  | .tauc _ osc Eg einf, e => tlEps osc Eg einf e
  | _, _ => none

/-- `complex` at the wavelength `w` that was picked. -/
noncomputable def Scat.at (z : SqrtOracle) (s : Scat) (w : ℝ) : Option ℂ :=
  match s with
  -- dispersion.py:129-130
  | .const _ n k => some ⟨n, k⟩
  -- dispersion.py:121-127
  | .table _ tab =>
    match interp (tab.map fun r => (r.1, r.2.1)) w, interp (tab.map fun r => (r.1, r.2.2)) w with
    | .ok a, .ok b => some ⟨a, b⟩
    | _, _ => none
  -- dispersion.py:215-220
  | .cauchy _ A B C => do
    return (((A + (← rdiv (B * 1000 ^ 2) (w ^ 2)) + (← rdiv (C * 1000 ^ 4) (w ^ 4)) : ℝ)) : ℂ)
  -- dispersion.py:294-302
  | .sellmeier _ Am En P einf => do
    return (((← rsqrt (← sellmeierReal Am En P einf w)) : ℝ) : ℂ)
  -- structureSE.py:109-112
  | .lorentz .. | .gauss .. | .tauc .. => do
    return npSqrt (z s w) (← s.epsilon (← nmEV w))
  | .other _ f => f (some w)

/-- `s.complex(wavelength)`.  structureSE.py:89-117, dispersion.py:103-130, 197-220, 276-302. -/
noncomputable def Scat.complex (z : SqrtOracle) (s : Scat) (w : Option ℝ) : Option ℂ :=
  match s with
  | .other _ f => f w
  | s => s.at z (pickWav (s.ownWav.getD 0) w)

/-- `s.complex(array)`: a vectorised call; one non-zero wavelength anywhere makes `np.any` true, and
then all entries (also zeros) are used as they are.  The result is an array (`inr`) or, for a
wavelength independent `RI` or when `np.any` is false, a scalar (`inl`).  Lines as for
`Scat.complex`.  User subclasses (`other`) are treated as vectorising element-wise. -/
noncomputable def Scat.complexArr (z : SqrtOracle) (s : Scat) (ws : List ℝ) :
    Option ℂ ⊕ List (Option ℂ) :=
  open Classical in
  match s with
  | .const _ n k => .inl (some ⟨n, k⟩)
  | s =>
    if ∃ w ∈ ws, w ≠ 0 then .inr (ws.map (s.at z)) else .inl (s.complex z none)

/-! ### Construction -/

/-- `Lorentz.__init__`, `Gauss.__init__`, `TaucLorentz.__init__`: length check of the three
parameter lists and pairing of oscillators.  dispersion.py:363-381, 431-447, 525-543. -/
def oscillators (a b c : List ℝ) : Except PyErr (List (ℝ × ℝ × ℝ)) :=
  if a.length = b.length ∧ b.length = c.length then .ok (a.zip (b.zip c))
  else .error .valueError

/-- An array object: the heap maps references to arrays, lists are separate objects. -/
abbrev Heap := ℕ → List ℝ

/-- `RI(dispersion=(wav, n, k))` with numpy arrays: the object keeps references; the in-place
`self._wav *= 1000` writes through the reference.  dispersion.py:90-95. -/
structure RIObj where
  wav : ℕ
  n : ℕ
  k : ℕ

noncomputable def mkRI (h : Heap) (wav n k : ℕ) : Heap × RIObj :=
  (fun r => if r = wav then (h wav).map (· * 1000) else h r, ⟨wav, n, k⟩)

/-- The same constructor called with Python lists: `*=` repeats the list 1000 times, in place.
dispersion.py:94-95. -/
def mkRIList (h : Heap) (wav n k : ℕ) : Heap × RIObj :=
  (fun r => if r = wav then (List.replicate 1000 (h wav)).flatten else h r, ⟨wav, n, k⟩)

/-- The scatterer that an `RI` object currently represents. -/
def RIObj.scat (h : Heap) (o : RIObj) : Scat :=
  .table 658 ((h o.wav).zip ((h o.n).zip (h o.k)))

/-- `RI(dispersion=<path>)`: rows of the file; wavelength from micron to nm on a new array; a
missing third column means zero extinction.  dispersion.py:73-87. -/
noncomputable def riOfRows (rows : List (ℝ × ℝ × Option ℝ)) : Scat :=
  .table 658 (rows.map fun r => (r.1 * 1000, r.2.1, r.2.2.getD 0))

/-- `os.path.basename(path).split(".")[0]`.  dispersion.py:76. -/
def stem (path : String) : String :=
  String.ofList ((path.toList.reverse.takeWhile (· ≠ '/')).reverse.takeWhile (· ≠ '.'))

/-- Attributes and locals of `RI.__init__` concerned with the name. -/
structure NameState where
  /-- `self.name` -/
  name : String
  /-- the local variable `name` -/
  localName : String

/-- The name handling of `RI(dispersion=<path>, name=name)`: `super().__init__` stores the
argument; later only the *local variable* is replaced by the stem of the path.
dispersion.py:61, 74-76. -/
def riInit (path name : String) : NameState :=
  let st : NameState := ⟨name, name⟩
  if st.localName = "" then { st with localName := stem path } else st

end Verif.Disp
