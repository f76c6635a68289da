import Verif.Obj.Model

/-! # Model of `str(objective)` and `str(data)`

How numbers, truth values, functions and the parameters are printed comes from python, numpy and refnx and is a
parameter of the model. -/

namespace Verif.Obj
open Verif.Struct Verif.TMM Verif.RModel Verif.Data

/-- Printed forms that come from outside; `none` is a number that is not finite. -/
structure Fmt where
  real : Option ℝ → List Char
  nat : ℕ → List Char
  bool : Bool → List Char
  transform : Option (List (ℝ × ℝ) → List ℝ → List ℝ) → List Char
  pars : List PId → Vals → (PId → Bool) → List Char

/-- `str(data)`.  dataSE.py:109-114. -/
def dataStr (fmt : Fmt) (h : Heap) (d : DS) : Except PyErr (List Char) :=
  match len h d with
  | .error e => .error e
  | .ok n =>
    .ok ("<".toList ++ (d.name.getD "None").toList ++ ">, ".toList ++ fmt.nat n ++ " points".toList)

/-- The line about the dataset.  objectiveSE.py:124-128. -/
def datasetLine (fmt : Fmt) (o : Objective) (st : St) : Except PyErr (List Char) :=
  match o.data.name with
  | none =>
    match dataStr fmt st.heap o.data with
    | .error e => .error e
    | .ok s => .ok ("Dataset = ".toList ++ s)
  | some s => .ok ("Dataset = ".toList ++ s.toList)

/-- The entries of the list that `str(objective)` joins with line breaks; `name` is the printed name (or identity) of
the objective.  objectiveSE.py:120-136. -/
noncomputable def strLines (fmt : Fmt) (name : List Char) (env : Env) (o : Objective) (st : St) :
    Except PyErr (List (List Char)) × St :=
  match datasetLine fmt o st with
  | .error e => (.error e, st)
  | .ok l =>
    match chisqr env o none st with
    | (.error e, st') => (.error e, st')
    | (.ok x, st') =>
      (.ok [List.replicate 80 '_', "Objective - ".toList ++ name, l,
        "datapoints = ".toList ++ fmt.nat (npoints o st), "chi2 = ".toList ++ fmt.real x,
        "Weighted = ".toList ++ fmt.bool o.weighted, "Transform = ".toList ++ fmt.transform o.transform,
        fmt.pars (flatParams env o st') st'.vals st'.vary], st')

/-- `str(objective)`.  objectiveSE.py:120-136. -/
noncomputable def objStr (fmt : Fmt) (name : List Char) (env : Env) (o : Objective) (st : St) :
    Except PyErr (List Char) × St :=
  match strLines fmt name env o st with
  | (.error e, st) => (.error e, st)
  | (.ok l, st) => (.ok (['\n'].intercalate l), st)

end Verif.Obj
