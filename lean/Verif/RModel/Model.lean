import Verif.Struct.Model
import Verif.TMM.Model

/-!
# Model of `ReflectModelSE` (/repo/refellips/reflect_modelSE.py, lines 297-442) and of
`plot_structure` (/repo/tools/plottools.py, lines 146-217)

Simplified: `wavelength_aoi` is a list of rows (an array of another shape fails to unpack); integer
wavelengths are not so large that powers overflow; `p` is applied before (see `Verif.Obj`).
-/

namespace Verif.RModel
open Verif.Struct Verif.TMM

/-- A `ReflectModelSE` apart from its structure: the delta offset parameter and `_flip_delta`.
reflect_modelSE.py:307-328. -/
structure RM where
  off : PId
  flip : Bool := false

/-- `np.unique`: the distinct values in increasing order. -/
noncomputable def npUnique (ws : List ℝ) : List ℝ :=
  open Classical in ws.dedup.mergeSort (fun a b => decide (a ≤ b))

/-- `old[mask] = vals` for 1-d arrays.  reflect_modelSE.py:393-394. -/
def scatter {α : Type} : List Bool → List α → List α → List α
  | true :: m, v :: vs, _ :: o => v :: scatter m vs o
  | false :: m, vs, x :: o => x :: scatter m vs o
  | _, _, o => o

/-- `a[mask]`. -/
def pick {α : Type} : List Bool → List α → List α
  | true :: m, x :: l => x :: pick m l
  | false :: m, _ :: l => pick m l
  | _, _ => []

/-- `wavelength == wav`. -/
noncomputable def maskEq (ws : List ℝ) (w : ℝ) : List Bool :=
  open Classical in ws.map fun x => decide (x = w)

/-- Psi and delta at a point; `none` is a value that is not finite. -/
abbrev Cell := Option ℝ × Option ℝ

/-- What is stored when a float is assigned to an element of the result arrays, which inherit their
dtype from the wavelengths: float arrays store it unchanged, integer arrays truncate it towards zero
(and store some integer `junk` for a value that is not finite).  reflect_modelSE.py:378-379. -/
inductive DType
  | float
  | int (junk : ℤ)

/-- Truncation towards zero. -/
noncomputable def trunc0 (x : ℝ) : ℤ := if 0 ≤ x then ⌊x⌋ else ⌈x⌉

/-- Assignment to one array element. -/
noncomputable def DType.store : DType → Option ℝ → Option ℝ
  | .float, x => x
  | .int _, some x => some (trunc0 x : ℤ)
  | .int j, none => some (j : ℤ)

/-- Assignment to an element of both arrays. -/
noncomputable def DType.storeCell (d : DType) (c : Cell) : Cell := (d.store c.1, d.store c.2)

/-- The loop over the unique wavelengths.  `zs` is the sign of zero oracle of `Delta_Psi_TMM`.
Returns the arrays and the structure after the call.  reflect_modelSE.py:381-396. -/
noncomputable def modelLoop (ext : Ext) (zs : List Layer → ℝ → ℝ → Bool) (d : DType) (v : Vals)
    (m : RM) (pts : List (ℝ × ℝ)) :
    List ℝ → List Cell → Structure → Except PyErr (List Cell) × Structure
  | [], acc, s => (.ok acc, s)
  | w :: ws, acc, s =>
    let mask := maskEq (pts.map Prod.fst) w
    match slabs ext v { s with wavelength := some w } none with
    | (.error e, s') => (.error e, s')
    | (.ok none, s') => (.error .typeError, s')
    | (.ok (some rows), s') =>
      match (deltaPsiTMM zs (pick mask (pts.map Prod.snd)) rows w (v m.off) m.flip).1 with
      | .error e => (.error e, s')
      | .ok vals => modelLoop ext zs d v m pts ws (scatter mask (vals.map d.storeCell) acc) s'

/-- `model(wavelength_aoi)`.  reflect_modelSE.py:355-396. -/
noncomputable def model (ext : Ext) (zs : List Layer → ℝ → ℝ → Bool) (d : DType) (v : Vals)
    (m : RM) (s : Structure) (pts : List (ℝ × ℝ)) : Except PyErr (List Cell) × Structure :=
  modelLoop ext zs d v m pts (npUnique (pts.map Prod.fst)) (pts.map fun _ => (some 0, some 0)) s

/-! ### plot_structure -/

/-- `np.linspace(a, b, 6)`. -/
noncomputable def linspace6 (a b : ℝ) : List ℝ :=
  (List.range 6).map fun k : ℕ => a + (b - a) * ((k : ℝ) / 5)

/-- The wavelengths that are plotted: those of the data (`some`), thinned out to 6 if there are more
than 8, or 658.  plottools.py:181-202. -/
noncomputable def plotWavs : Option (List ℝ) → List ℝ
  | none => [658]
  | some ws =>
    let u := npUnique ws
    match u, u.getLast? with
    | a :: _, some b => if 8 < u.length then linspace6 a b else u
    | _, _ => u

/-- A curve: the wavelength in its label, and what is drawn. -/
abbrev Curve := ℝ × List ℝ × List (Option ℂ)

/-- The plotting loop.  plottools.py:205-209. -/
noncomputable def plotLoop (ext : Ext) (v : Vals) :
    List ℝ → Structure → Except PyErr (List Curve) × Structure
  | [], s => (.ok [], s)
  | w :: ws, s =>
    let s' := { s with wavelength := some w }
    match riProfile ext v s' 0 with
    | .error e => (.error e, s')
    | .ok c =>
      let r := plotLoop ext v ws s'
      (r.1.map ((w, c) :: ·), r.2)

/-- `plot_structure(ax, ..., reverse_structure=rev)`: the curves and the structure afterwards.
plottools.py:146-217. -/
noncomputable def plotStructure (ext : Ext) (v : Vals) (s : Structure) (data : Option (List ℝ))
    (rev : Bool) : Except PyErr (List Curve) × Structure :=
  match plotLoop ext v (plotWavs data) { s with reverse := rev } with
  | (.error e, s') => (.error e, s')
  | (.ok cs, s') => (.ok cs, { s' with reverse := false })

end Verif.RModel
