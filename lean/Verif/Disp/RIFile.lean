import Verif.Data.Model
import Verif.Disp.Spec

/-!
# Model of `RI.__init__` and `RI.complex` for all forms of the argument
(/repo/refellips/dispersion.py, lines 60-130)

Arrays given by the caller are modelled in `Verif.Disp.Model` (`mkRI`), with references.  Here: a file name, a
pair of numbers, nothing, and anything else with a length.
-/

namespace Verif.Disp

/-- An attribute: a number, or an array. -/
inductive Attr
  | num (x : ℝ)
  | arr (xs : List ℝ)

/-- `np.any(attribute)`. -/
def Attr.any : Attr → Prop
  | .num x => x ≠ 0
  | .arr xs => ∃ x ∈ xs, x ≠ 0

/-- `attribute * 1000`. -/
noncomputable def Attr.scale : Attr → Attr
  | .num x => .num (x * 1000)
  | .arr xs => .arr (xs.map (· * 1000))

/-- `np.zeros_like(attribute)`. -/
noncomputable def Attr.zeros : Attr → Attr
  | .num _ => .num 0
  | .arr xs => .arr (xs.map fun _ => 0)

/-- The attributes `_wav`, `_RI`, `_EC` and `wavelength`. -/
structure RIAttrs where
  own : ℝ
  wav : Option Attr
  n : Attr
  k : Attr

/-- `np.loadtxt(...).T`: a table with one row or one column is squeezed to one dimension, so that its elements
are numbers; otherwise the elements are the columns.  (A single number has no dimension; like a list of one
number it has no element 1.)  dispersion.py:78-80. -/
def fileVals (table : List (List ℝ)) : List Attr :=
  match table with
  | [] => []
  | [r] => r.map .num
  | r :: rest =>
    if r.length = 1 then (r :: rest).map fun x => .num (x.headD 0)
    else (List.range r.length).map fun j : ℕ => .arr ((r :: rest).map fun x => x.getD j 0)

/-- The attributes made from the file.  dispersion.py:81-87. -/
noncomputable def attrsOfVals (own : ℝ) (vals : List Attr) : Except PyErr RIAttrs :=
  match vals with
  | w :: n :: rest =>
    let k := match rest with
      | [k] => k
      | _ => w.zeros
    .ok ⟨own, some w.scale, n, k⟩
  | _ => .error .indexError

/-- The argument `dispersion`: `None`, a file with these lines, a pair of numbers, or another object with this
length (neither 2 nor 3). -/
inductive DispArg
  | none
  | file (lines : List Data.Line)
  | pair (n k : ℝ)
  | other (len : ℕ) (h : len ≠ 2 ∧ len ≠ 3)

/-- `RI.__init__`.  dispersion.py:60-97.  Length 3 is modelled by `mkRI`. -/
noncomputable def riNew (c : Data.Codec) (own : ℝ) : DispArg → Except PyErr RIAttrs
  | .none => .error .runtimeError
  | .file ls => do attrsOfVals own (fileVals (← Data.loadtxt c ',' 1 ls))
  | .pair n k => .ok ⟨own, .none, .num n, .num k⟩
  | .other _ _ => .error .typeError

/-- `RI.complex`.  `np.interp` raises ValueError if the knots are not an array; if `np.any(self._wav)` is false
the attributes are returned as they are, an array (`typeError`: not one number) or a number.
dispersion.py:117-130. -/
noncomputable def RIAttrs.complex (o : RIAttrs) (w : Option ℝ) : Except PyErr ℂ :=
  open Classical in
  let x := pickWav o.own w
  if ∃ a, o.wav = some a ∧ a.any then
    match o.wav, o.n, o.k with
    | some (.arr ws), .arr ns, .arr ks => do
      return ⟨← interp (ws.zip ns) x, ← interp (ws.zip ks) x⟩
    | _, _, _ => .error .valueError
  else
    match o.n, o.k with
    | .num n, .num k => .ok ⟨n, k⟩
    | _, _ => .error .typeError

end Verif.Disp
