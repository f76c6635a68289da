import Verif.Obj.PlotModel
import Verif.Parse.Model

/-!
# Model of datasets whose columns are pandas Series (/repo/refellips/dataSE.py, lines 464-545)

`open_HORIBAfile` hands the columns of a DataFrame to `DataSE` without turning them into arrays: each value
carries the label of its row, which is its position in the table of the file and survives the removal of rows by
the cut-offs.  The rest of the code was written for arrays; here its operations are modelled on Series.

Of pandas this assumes: a Series indexed with an array of booleans keeps values and labels of the chosen rows
(IndexError for a wrong length); indexed with a number it looks for that label (KeyError if there is none);
indexed with `None` or with a tuple containing an array it raises KeyError, as its index is not a MultiIndex;
arithmetic of an array and a Series is by position and of two Series by label.
-/

namespace Verif.Obj.Labelled
open Verif.RModel Verif.Data Verif.Obj Verif.Parse

/-- A column: labels and values, in order. -/
abbrev Series (α : Type) := List (ℕ × α)

/-- `series.values`. -/
def vals {α : Type} (s : Series α) : List α := s.map (·.2)

/-- The labels. -/
def labels {α : Type} (s : Series α) : List ℕ := s.map (·.1)

/-- `series[k]` for a number: by label. -/
def at_ {α : Type} (s : Series α) (k : ℕ) : Except PyErr α :=
  match s.find? (·.1 = k) with
  | some r => .ok r.2
  | none => .error .keyError

/-- `series[(loc,)]` with an array `loc`. -/
def atTuple {α : Type} (_ : Series α) (_ : List ℕ) : Except PyErr (Series α) := .error .keyError

/-- `array - series`, with the labels of the series. -/
noncomputable def rsub (a : List (Option ℝ)) (s : Series ℝ) : Series (Option ℝ) :=
  List.zipWith (fun x (r : ℕ × ℝ) => (r.1, x.map (· - r.2))) a s

/-- A function of the values. -/
def onVals {α β : Type} (f : α → β) (s : Series α) : Series β := s.map fun r => (r.1, f r.2)

/-- `f(s, t)` for two Series: each label of `s` with the value `t` has for it, `nan` if it has none (labels
that only `t` has would be appended; here both have the same). -/
noncomputable def align (f : ℝ → ℝ → ℝ) (s t : Series (Option ℝ)) : Series (Option ℝ) :=
  s.map fun r => (r.1, match t.find? (·.1 = r.1) with
    | some q => Option.map₂ f r.2 q.2
    | none => none)

/-! ### The reader -/

/-- The `fname` argument: a string, a `Path` or an open file. -/
inductive FName
  | str
  | path
  | handle
  deriving DecidableEq

/-- A dataset whose columns are Series. -/
structure LDS where
  wav : Series ℝ
  aoi : Series ℝ
  psi : Series ℝ
  dlt : Series ℝ
  mask : Option (List Bool)
  flipped : Bool

/-- The table with the angle of incidence, between the cut-offs (`none`: infinite); `read_csv` labels the rows
0, 1, ...  dataSE.py:529-541. -/
noncomputable def horibaFrame (aoi : ℝ) (lo hi : Option ℝ) (table : List (ℝ × ℝ × ℝ)) : Series Pt :=
  open Classical in
  ((table.zipIdx.map fun r => (r.2, ((r.1.1, aoi, r.1.2.1, r.1.2.2) : Pt))).filter
    fun r => match lo with | some c => decide (r.2.1 > c) | none => true).filter
    fun r => match hi with | some c => decide (r.2.1 < c) | none => true

/-- `DataSE([nm, AOI, Psi, Delta], reflect_delta=reflect)`.  dataSE.py:60-107, 543-545. -/
noncomputable def mkSeries (f : Series Pt) (reflect : Bool) : LDS where
  wav := onVals (·.1) f
  aoi := onVals (·.2.1) f
  psi := onVals (·.2.2.1) f
  dlt := if reflect then onVals reflect1 (onVals (·.2.2.2) f) else onVals (·.2.2.2) f
  mask := some (f.map fun _ => true)
  flipped := reflect

/-- `open_HORIBAfile(fname, reflect_delta, lambda_cutoffs)`.  `fname[:-4]` is the first thing done; `read_csv` is
told that the file has the encoding "ANSI", which `knows` says whether Python has: if not, it raises LookupError
(here `external`).  The other arguments as in `openHoriba`.  dataSE.py:464-545. -/
noncomputable def openHoribaDS (knows : String → Bool) (c : Codec)
    (csv : List Line → ℕ → ℕ → Except PyErr (List (ℝ × ℝ × ℝ))) (fname : FName) (reflect : Bool)
    (lo hi : Option ℝ) (lines : List Line) : Except PyErr LDS :=
  match fname with
  | .path | .handle => .error .typeError
  | .str => do
    let st := horibaMeta lines
    let no ← item st.lineno "DATA".toList
    let dat ← item st.metadata "DATA".toList
    let n ← dat.len
    let table ← if knows "ANSI" then csv lines (no + 1) (n - 1) else .error .external
    let ang ← item st.metadata "INCIDENCE ANGLE".toList
    let aoi ← ang.angle c
    return mkSeries (horibaFrame aoi lo hi table) reflect

/-! ### The dataset -/

/-- `self._x[self.mask] if self._x.size > 0 else self._x`.  dataSE.py:142-173. -/
def accessS (s : Series ℝ) : Option (List Bool) → Except PyErr (Series ℝ)
  | some m =>
    if s.isEmpty then .ok s
    else if m.length = s.length then .ok (pick m s) else .error .indexError
  | none => if s.isEmpty then .ok s else .error .keyError

/-- `list(self.unique_wavelength_data())`.  dataSE.py:127-140. -/
noncomputable def uniqueS (d : LDS) : Except PyErr (List (ℝ × Series ℝ × Series ℝ × Series ℝ)) := do
  let w ← accessS d.wav d.mask
  (npUnique (vals w)).mapM fun u => do
    let loc := open Classical in (vals w).zipIdx.filterMap fun r => if r.1 = u then some r.2 else none
    let a ← accessS d.aoi d.mask
    let a ← atTuple a loc
    let p ← accessS d.psi d.mask
    let p ← atTuple p loc
    let e ← accessS d.dlt d.mask
    let e ← atTuple e loc
    return (u, a, p, e)

/-! ### The objective -/

/-- `wavelength, aoi, psi_d, delta_d = self.data.data`. -/
def dataS (d : LDS) : Except PyErr (Series ℝ × Series ℝ × Series ℝ × Series ℝ) := do
  let w ← accessS d.wav d.mask
  let a ← accessS d.aoi d.mask
  let p ← accessS d.psi d.mask
  let e ← accessS d.dlt d.mask
  return (w, a, p, e)

/-- `circular_distance(delta, delta_d, period)` for an array and a Series.  objectiveSE.py:39-40. -/
noncomputable def circS (a : List (Option ℝ)) (s : Series ℝ) (period : ℝ) : Series (Option ℝ) :=
  let diff := onVals (Option.map abs) (rsub a s)
  align min diff (onVals (Option.map fun x => period - x) diff)

/-- `objective.residuals(pvals)` for an objective with this dataset (`o.data` is not used).
objectiveSE.py:183-205. -/
noncomputable def residualsS (env : Env) (o : Objective) (d : LDS) (pvals : Option (List ℝ)) (st : St) :
    Except PyErr (List (Option ℝ)) × St :=
  match setp env o pvals st with
  | (.error e, st) => (.error e, st)
  | (.ok _, st) =>
    match dataS d with
    | .error e => (.error e, st)
    | .ok (w, a, p, e) =>
      match callModel env o (vals w) (vals a) st with
      | (.error e, st) => (.error e, st)
      | (.ok cells, st) =>
        if p.length = cells.length ∧ e.length = cells.length then
          (.ok (vals (rsub (cells.map (·.1)) p) ++ vals (circS (cells.map (·.2)) e 360)), st)
        else (.error .valueError, st)

/-! ### plot_ellipsdata -/

/-- `plot_ellipsdata(ax, objective=o, xaxis="wavelength")` for an objective with this dataset: the angle of the
curve is `data.aoi[0]`.  plottools.py:83-96, 110-111. -/
noncomputable def plotEllipsS (env : Env) (o : Objective) (d : LDS) (st : St) : Except PyErr Drawing × St :=
  match accessS d.wav d.mask with
  | .error e => (.error e, st)
  | .ok w =>
    match npMin (vals w), npMax (vals w) with
    | .ok lo, .ok hi =>
      match (accessS d.aoi d.mask).bind (at_ · 0) with
      | .error e => (.error e, st)
      | .ok q =>
        match curveLoop env o (fun q x => (x, q)) (linspace (lo - 50) (hi + 50)) [q] st with
        | (.error e, st) => (.error e, st)
        | (.ok curves, st) =>
          ((do
            let p ← accessS d.psi d.mask
            let e ← accessS d.dlt d.mask
            let dots ← dotsOf (vals w) (vals p) (vals e)
            return { curves, dots }), st)
    | .error e, _ => (.error e, st)
    | _, .error e => (.error e, st)

end Verif.Obj.Labelled
