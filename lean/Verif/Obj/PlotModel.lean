import Verif.Obj.Model

/-!
# Model of `ObjectiveSE.plot` (/repo/refellips/objectiveSE.py, lines 550-625) and of `plot_ellipsdata`
(/repo/tools/plottools.py, lines 7-144)

What is drawn: the model curves as lists of points `(x, (psi, delta))`, the data as points
`(x, psi, delta)` and, for `plot_ellipsdata`, the residuals.  Figures, colours and labels are left out.  As
for the residuals, a dataset whose columns are not vectors (mask `None`) is an error here.
-/

namespace Verif.Obj
open Verif.Struct Verif.TMM Verif.RModel Verif.Data

/-- `np.linspace(a, b)`: 50 points. -/
noncomputable def linspace (a b : ℝ) : List ℝ :=
  (List.range 50).map fun k : ℕ => a + (b - a) * ((k : ℝ) / 49)

/-- `np.min(x)`; ValueError if there is none. -/
noncomputable def npMin : List ℝ → Except PyErr ℝ
  | [] => .error .valueError
  | x :: l => .ok (l.foldl min x)

/-- `np.max(x)`. -/
noncomputable def npMax : List ℝ → Except PyErr ℝ
  | [] => .error .valueError
  | x :: l => .ok (l.foldl max x)

/-- What is drawn. -/
structure Drawing where
  curves : List (List (ℝ × Cell))
  dots : List (ℝ × ℝ × ℝ)
  res : List (ℝ × Option ℝ × Option ℝ) := []

/-- One curve per value in a list: the model on an array of floats (`linspace` and `ones_like` of it are
floats, whatever the dtype of the data).  `pt q x` is the row for the value `q` and the grid point `x`.
objectiveSE.py:596-599, 606-609; plottools.py:78-81. -/
noncomputable def curveLoop (env : Env) (o : Objective) (pt : ℝ → ℝ → ℝ × ℝ) (grid : List ℝ) :
    List ℝ → St → Except PyErr (List (List (ℝ × Cell))) × St
  | [], st => (.ok [], st)
  | q :: qs, st =>
    match callModel { env with dt := .float } o (grid.map fun x => (pt q x).1)
        (grid.map fun x => (pt q x).2) st with
    | (.error e, st) => (.error e, st)
    | (.ok cells, st) =>
      let r := curveLoop env o pt grid qs st
      (r.1.map (grid.zip cells :: ·), r.2)

/-- The data points: `scatter(x, psi)` and `scatter(x, delta)`, ValueError for different lengths.
objectiveSE.py:611-612; plottools.py:110-111. -/
def dotsOf (x p d : List ℝ) : Except PyErr (List (ℝ × ℝ × ℝ)) :=
  if x.length = p.length ∧ x.length = d.length then .ok (x.zip (p.zip d)) else .error .valueError

/-- The two columns read first. -/
def colsXY (o : Objective) (st : St) : Except PyErr (List ℝ × List ℝ) :=
  match wavelength st.heap o.data, aoi st.heap o.data with
  | .ok (.vec w), .ok (.vec a) => .ok (w, a)
  | .error e, _ => .error e
  | _, .error e => .error e
  | _, _ => .error .valueError

/-- The two columns read last. -/
def colsPD (o : Objective) (st : St) : Except PyErr (List ℝ × List ℝ) :=
  match psi st.heap o.data, delta st.heap o.data with
  | .ok (.vec p), .ok (.vec d) => .ok (p, d)
  | .error e, _ => .error e
  | _, .error e => .error e
  | _, _ => .error .valueError

/-- Curves and data, after the axis has been chosen.  `x` are the abscissas of the data, `qs` the values one
curve is drawn for. -/
noncomputable def drawOn (env : Env) (o : Objective) (pt : ℝ → ℝ → ℝ × ℝ) (x qs : List ℝ) (lo hi : ℝ)
    (st : St) : Except PyErr Drawing × St :=
  match npMin x, npMax x with
  | .ok a, .ok b =>
    match curveLoop env o pt (linspace (a - lo) (b + hi)) qs st with
    | (.error e, st) => (.error e, st)
    | (.ok curves, st) =>
      ((do
        let (p, d) ← colsPD o st
        let dots ← dotsOf x p d
        return { curves, dots }), st)
  | .error e, _ => (.error e, st)
  | _, .error e => (.error e, st)

/-- The axis: by default the angle if there are several.  objectiveSE.py:585-589. -/
noncomputable def axisOf (xaxis : Option String) (a : List ℝ) : String :=
  match xaxis with
  | some s => s
  | none => if 1 < (npUnique a).length then "aoi" else "wavelength"

/-- `objective.plot(xaxis=...)`.  For another name of the axis the variable `x` is unbound
(UnboundLocalError, here `external`).  objectiveSE.py:572-625. -/
noncomputable def plot (env : Env) (o : Objective) (xaxis : Option String) (st : St) :
    Except PyErr Drawing × St :=
  match colsXY o st with
  | .error e => (.error e, st)
  | .ok (w, a) =>
    if axisOf xaxis a = "aoi" then drawOn env o (fun q x => (q, x)) a (npUnique w) 0 0 st
    else if axisOf xaxis a = "wavelength" then drawOn env o (fun q x => (x, q)) w (npUnique a) 0 0 st
    else (.error .external, st)

/-- The residuals panel: `res` is split in the middle.  plottools.py:116-132. -/
noncomputable def resPanel (env : Env) (o : Objective) (x : List ℝ) (st : St) :
    Except PyErr (List (ℝ × Option ℝ × Option ℝ)) × St :=
  match residuals env o none st with
  | (.error e, st) => (.error e, st)
  | (.ok res, st) =>
    let n := res.length / 2
    let ps := res.take n
    let ds := res.drop n
    if x.length = ps.length ∧ x.length = ds.length then
      match chisqr env o none st with
      | (.error e, st) => (.error e, st)
      | (.ok _, st) => (.ok (x.zip (ps.zip ds)), st)
    else (.error .valueError, st)

/-- The residuals panel is added if there is an axis for it.  plottools.py:116-132. -/
noncomputable def withRes (env : Env) (o : Objective) (resax : Bool) (x : List ℝ) :
    Except PyErr Drawing × St → Except PyErr Drawing × St
  | (.error e, st) => (.error e, st)
  | (.ok d, st) =>
    if resax then
      match resPanel env o x st with
      | (.error e, st) => (.error e, st)
      | (.ok r, st) => (.ok { d with res := r }, st)
    else (.ok d, st)

/-- `plot_ellipsdata(ax, objective=objective, xaxis=..., resax=...)`: the curves extend 5 degrees or 50 nm
beyond the data, and over wavelengths there is one curve, for the first angle.
plottools.py:50-144. -/
noncomputable def plotEllips (env : Env) (o : Objective) (xaxis : String) (resax : Bool) (st : St) :
    Except PyErr Drawing × St :=
  if xaxis = "aoi" then
    match colsXY o st with
    | .error e => (.error e, st)
    | .ok (w, a) => withRes env o resax a (drawOn env o (fun q x => (q, x)) a (npUnique w) 5 5 st)
  else if xaxis = "wavelength" then
    match colsXY o st with
    | .error e => (.error e, st)
    | .ok (w, a) => withRes env o resax w (drawOn env o (fun q x => (x, q)) w (a.take 1) 50 50 st)
  else (.error .assertionError, st)

end Verif.Obj
