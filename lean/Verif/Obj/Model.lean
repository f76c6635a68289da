import Verif.RModel.Model
import Verif.Data.Model
import Mathlib.Analysis.SpecialFunctions.Log.Basic

/-!
# Model of `ObjectiveSE` (/repo/refellips/objectiveSE.py, lines 21-526)

Parameters are identities with a value and a flag; constraints between parameters, chains and names are
not modelled.  What refnx supplies is a parameter of the model: the list of parameters of a structure,
the log-probability of a value under the bounds of a parameter and the inverse CDF of the bounds.
Columns of different lengths are an error (numpy would broadcast a column of length one).
A value that is not finite is `none`; `logl` is taken to raise RuntimeError for it, which is what happens
for NaN (for an infinity it would return -inf).
-/

namespace Verif.Obj
open Verif.Struct Verif.TMM Verif.RModel Verif.Data

/-- `circular_distance(a, b, period)`.  objectiveSE.py:21-40. -/
noncomputable def circularDistance (a b period : ℝ) : ℝ := min |a - b| (period - |a - b|)

/-- What is supplied from outside: the numerics of slabs, the sign of zero, the dtype of
`np.c_[wavelength, aoi]`, the parameters of a structure (which depend on its components and solvent),
and the bounds of parameters. -/
structure Env where
  ext : Ext
  zs : List Layer → ℝ → ℝ → Bool
  dt : DType
  pars : List PyObj → Option ScatObj → List PId
  logp : PId → ℝ → Option ℝ
  invcdf : PId → ℝ → ℝ
  structLogp : Structure → Vals → ℝ

/-- A `ReflectModelSE` object: its own fields and the identity of its structure. -/
structure MObj where
  rm : RM
  str : ℕ

/-- The state in which objectives live. -/
structure St where
  vals : Vals
  vary : PId → Bool
  models : ℕ → MObj
  structs : ℕ → Structure
  heap : Heap

/-- An `ObjectiveSE`. -/
structure Objective where
  model : ℕ
  data : DS
  lnsigma : Option PId := none
  useWeights : Bool := true
  logpExtra : Option (MObj → DS → St → ℝ) := none
  transform : Option (List (ℝ × ℝ) → List ℝ → List ℝ) := none

/-- `objective.weighted`.  objectiveSE.py:148-155. -/
def Objective.weighted (o : Objective) : Bool := o.data.weighted && o.useWeights

/-- `objective.weighted = use`.  objectiveSE.py:157-159. -/
def Objective.setWeighted (o : Objective) (use : Bool) : Objective := { o with useWeights := use }

/-- `ObjectiveSE(model, data, ...)` for a `DataSE`.  objectiveSE.py:89-118. -/
def mkObjective (st : St) (model : ℕ) (data : DS) (lnsigma : Option PId) (useWeights : Bool)
    (logpExtra : Option (MObj → DS → St → ℝ))
    (transform : Option (List (ℝ × ℝ) → List ℝ → List ℝ) := none) : Objective × St :=
  let m := st.models model
  ({ model, data, lnsigma, useWeights, logpExtra, transform },
    { st with models := fun i => if i = model then { m with rm := { m.rm with flip := data.flipped } }
      else st.models i })

/-- The `data` argument of `ObjectiveSE`: an object whose type is exactly `DataSE`, or anything else, which
is handed to `DataSE` (`.ds` is an instance of a subclass, `.none` an object `DataSE` does not know). -/
inductive DataArg
  | exact (d : DS)
  | other (src : Source)

/-- `ObjectiveSE(model, data, use_weights=use)`.  objectiveSE.py:89-118. -/
noncomputable def mkObjectiveFrom (c : Codec) (st : St) (model : ℕ) (arg : DataArg) (use : Bool := true) :
    Except PyErr (Objective × St) :=
  match arg with
  | .exact d => .ok (mkObjective st model d none use none)
  | .other src =>
    match mk c st.heap src false with
    | .error e => .error e
    | .ok (d, h) => .ok (mkObjective { st with heap := h } model d none use none)

/-- `list(flatten(objective.parameters))`.  objectiveSE.py:227-237, reflect_modelSE.py:417-442. -/
def flatParams (env : Env) (o : Objective) (st : St) : List PId :=
  let m := st.models o.model
  let s := st.structs m.str
  o.lnsigma.toList ++ m.rm.off :: env.pars s.data s.solvent

/-- `f_unique` (refnx): first occurrences. -/
def unique : List PId → List PId
  | [] => []
  | p :: l => p :: (unique l).filter (· ≠ p)

/-- `objective.varying_parameters()`.  objectiveSE.py:169-181. -/
def varying (env : Env) (o : Objective) (st : St) : List PId :=
  unique ((flatParams env o st).filter fun p => st.vary p)

/-- Assigning values one after the other. -/
def assign : List PId → List ℝ → Vals → Vals
  | p :: ps, x :: xs, v => assign ps xs (Function.update v p x)
  | _, _, v => v

/-- `objective.setp(pvals)`.  objectiveSE.py:239-274. -/
def setp (env : Env) (o : Objective) (pvals : Option (List ℝ)) (st : St) : Except PyErr Unit × St :=
  match pvals with
  | none => (.ok (), st)
  | some x =>
    if x.length = (varying env o st).length then
      (.ok (), { st with vals := assign (varying env o st) x st.vals })
    else if x.length = (flatParams env o st).length then
      (.ok (), { st with vals := assign (flatParams env o st) x st.vals })
    else (.error .valueError, st)

/-- `objective.data.data`.  dataSE.py:175-178. -/
def dataOf (o : Objective) (st : St) : Except PyErr (List ℝ × List ℝ × List ℝ × List ℝ) :=
  match wavelength st.heap o.data, aoi st.heap o.data, psi st.heap o.data, delta st.heap o.data with
  | .ok (.vec w), .ok (.vec a), .ok (.vec p), .ok (.vec d) => .ok (w, a, p, d)
  | .error e, _, _, _ => .error e
  | _, .error e, _, _ => .error e
  | _, _, .error e, _ => .error e
  | _, _, _, .error e => .error e
  | _, _, _, _ => .error .valueError

/-- `objective.model(np.c_[wavelength, aoi])`: the model is called with the current parameters and leaves
a wavelength in its structure.  objectiveSE.py:201-203, 389-392. -/
noncomputable def callModel (env : Env) (o : Objective) (w a : List ℝ) (st : St) :
    Except PyErr (List Cell) × St :=
  if w.length = a.length then
    let m := st.models o.model
    let r := model env.ext env.zs env.dt st.vals m.rm (st.structs m.str) (w.zip a)
    (r.1, { st with structs := fun i => if i = m.str then r.2 else st.structs i })
  else (.error .valueError, st)

/-- The residuals from model values and data.  objectiveSE.py:204-205. -/
noncomputable def resOf (cells : List Cell) (p d : List ℝ) : List (Option ℝ) :=
  List.zipWith (fun (c : Cell) x => c.1.map (· - x)) cells p ++
    List.zipWith (fun (c : Cell) y => c.2.map fun z => circularDistance z y 360) cells d

/-- `objective.residuals(pvals)`.  objectiveSE.py:183-205. -/
noncomputable def residuals (env : Env) (o : Objective) (pvals : Option (List ℝ)) (st : St) :
    Except PyErr (List (Option ℝ)) × St :=
  match setp env o pvals st with
  | (.error e, st) => (.error e, st)
  | (.ok _, st) =>
    match dataOf o st with
    | .error e => (.error e, st)
    | .ok (w, a, p, d) =>
      match callModel env o w a st with
      | (.error e, st) => (.error e, st)
      | (.ok cells, st) =>
        if p.length = cells.length ∧ d.length = cells.length then (.ok (resOf cells p d), st)
        else (.error .valueError, st)

/-- All values, if all are finite. -/
def finite : List (Option ℝ) → Option (List ℝ)
  | [] => some []
  | none :: _ => none
  | some x :: l => (finite l).map (x :: ·)

/-- `objective.chisqr(pvals)`; the dot product is not finite if an entry is not.
objectiveSE.py:207-225. -/
noncomputable def chisqr (env : Env) (o : Objective) (pvals : Option (List ℝ)) (st : St) :
    Except PyErr (Option ℝ) × St :=
  match setp env o pvals st with
  | (.error e, st) => (.error e, st)
  | (.ok _, st) =>
    match residuals env o none st with
    | (.error e, st) => (.error e, st)
    | (.ok r, st) => (.ok ((finite r).map fun l => (l.map fun x => x * x).sum), st)

/-- `objective.npoints`.  objectiveSE.py:162-167. -/
def npoints (o : Objective) (st : St) : ℕ := (st.heap.arr o.data.wav).vals.length

/-- `objective.prior_transform(u)`; too few values are an IndexError.  objectiveSE.py:276-311. -/
def priorTransform (env : Env) (o : Objective) (u : List ℝ) (st : St) : Except PyErr (List ℝ) :=
  if u.length < (varying env o st).length then .error .indexError
  else .ok (List.zipWith env.invcdf (varying env o st) u)

/-- Sum of log-probabilities, not finite if one is not. -/
noncomputable def sumLogp (env : Env) (v : Vals) : List PId → Option ℝ
  | [] => some 0
  | p :: ps =>
    match env.logp p (v p), sumLogp env v ps with
    | some x, some y => some (x + y)
    | _, _ => none

/-- `objective.logp(pvals)`; `none` is -inf.  objectiveSE.py:313-351. -/
noncomputable def logp (env : Env) (o : Objective) (pvals : Option (List ℝ)) (st : St) :
    Except PyErr (Option ℝ) × St :=
  match setp env o pvals st with
  | (.error e, st) => (.error e, st)
  | (.ok _, st) => (.ok (sumLogp env st.vals (varying env o st)), st)

/-- `var_y`: 1, or 1 + exp(2 lnsigma) model², for psi then delta.  objectiveSE.py:398-407. -/
noncomputable def varY (lnsigma : Option ℝ) (cells : List Cell) : List (Option ℝ) :=
  match lnsigma with
  | none => (cells.map Prod.fst ++ cells.map Prod.snd).map fun _ => some 1
  | some s => (cells.map Prod.fst ++ cells.map Prod.snd).map fun c =>
    c.map fun m => 1 + Real.exp (2 * s) * m * m

/-- One of the terms that are summed.  objectiveSE.py:409-414. -/
noncomputable def loglTerm (weighted : Bool) : Option ℝ → Option ℝ → Option ℝ
  | some s, some r => some ((if weighted then Real.log (2 * Real.pi * s) else 0) + r ^ 2 / s)
  | _, _ => none

/-- The terms that are summed.  objectiveSE.py:409-414. -/
noncomputable def loglTerms (weighted : Bool) (var res : List (Option ℝ)) : List (Option ℝ) :=
  List.zipWith (loglTerm weighted) var res

/-- `objective.logl(pvals)`.  objectiveSE.py:353-419. -/
noncomputable def logl (env : Env) (o : Objective) (pvals : Option (List ℝ)) (st : St) :
    Except PyErr ℝ × St :=
  match setp env o pvals st with
  | (.error e, st) => (.error e, st)
  | (.ok _, st) =>
    match dataOf o st with
    | .error e => (.error e, st)
    | .ok (w, a, _, _) =>
      match callModel env o w a st with
      | (.error e, st) => (.error e, st)
      | (.ok cells, st) =>
        match residuals env o none st with
        | (.error e, st) => (.error e, st)
        | (.ok res, st) =>
          match finite (loglTerms o.weighted (varY (o.lnsigma.map st.vals) cells) res) with
          | none => (.error .runtimeError, st)
          | some l => (.ok (-(1 / 2) * l.sum), st)

/-- `objective.logpost(pvals)`; `none` is -inf.  objectiveSE.py:421-451. -/
noncomputable def logpost (env : Env) (o : Objective) (pvals : Option (List ℝ)) (st : St) :
    Except PyErr (Option ℝ) × St :=
  match setp env o pvals st with
  | (.error e, st) => (.error e, st)
  | (.ok _, st) =>
    match logp env o none st with
    | (.error e, st) => (.error e, st)
    | (.ok none, st) => (.ok none, st)
    | (.ok (some p), st) =>
      match logl env o none st with
      | (.error e, st) => (.error e, st)
      | (.ok l, st) => (.ok (some (p + l)), st)

/-! ### covar -/

/-- Numerical differentiation: it evaluates the residuals at vectors it chooses from what it has seen, and
stops with a matrix or an exception.  `next` gets the results so far. -/
structure Diff (α : Type) where
  next : List (Except PyErr (List (Option ℝ))) → List ℝ ⊕ Except PyErr α

/-- Running it for at most `n` evaluations (it is external and assumed to stop; after `n` evaluations it is
taken to raise). -/
noncomputable def Diff.run {α : Type} (env : Env) (o : Objective) (scale : List ℝ → List ℝ) (D : Diff α) :
    ℕ → List (Except PyErr (List (Option ℝ))) → St → Except PyErr α × St
  | 0, _, st => (.error .external, st)
  | n + 1, seen, st =>
    match D.next seen with
    | .inr r => (r, st)
    | .inl x =>
      match residuals env o (some (scale x)) st with
      | (.error e, st) => (.error e, st)
      | (.ok r, st) => D.run env o scale n (seen ++ [.ok r]) st

/-- `objective.covar()` up to the linear algebra that follows: the Jacobian and whether it is scaled.
`fpe` tells whether an exception is a FloatingPointError.  objectiveSE.py:464-485. -/
noncomputable def covarJac {α : Type} (env : Env) (o : Objective) (D D' : Diff α) (fpe : PyErr → Bool) (n : ℕ)
    (st : St) : Except PyErr (α × Bool) × St :=
  open Classical in
  let pv := (varying env o st).map st.vals
  let first : Except PyErr α × St :=
    if (0 : ℝ) ∈ pv then (.error .external, st)
    else D.run env o (fun x => List.zipWith (· * ·) pv x) n [] st
  let body : Except PyErr (α × Bool) × St :=
    match first with
    | (.ok j, st) => (.ok (j, true), st)
    | (.error e, st1) =>
      if (0 : ℝ) ∈ pv ∨ fpe e = true then
        match D'.run env o (fun x => x) n [] st1 with
        | (.ok j, st) => (.ok (j, false), st)
        | (.error e, st) => (.error e, st)
      else (.error e, st1)
  match setp env o (some pv) body.2 with
  | (.error e, st) => (.error e, st)
  | (.ok _, st) => (body.1, st)

/-- `objective.covar()`: the Jacobian is turned into a covariance (`fin`), which raises LinAlgError for
parameters without effect, and, if unweighted, scaled by the reduced chi-squared.
objectiveSE.py:453-525. -/
noncomputable def covar {α β : Type} (env : Env) (o : Objective) (D D' : Diff α) (fpe : PyErr → Bool) (n : ℕ)
    (fin : α × Bool → Except PyErr β) (scaled : β → Option ℝ → β) (st : St) : Except PyErr β × St :=
  match covarJac env o D D' fpe n st with
  | (.error e, st) => (.error e, st)
  | (.ok j, st) =>
    match fin j with
    | .error e => (.error e, st)
    | .ok c =>
      if o.weighted then (.ok c, st)
      else
        match chisqr env o none st with
        | (.error e, st) => (.error e, st)
        | (.ok x, st) => (.ok (scaled c x), st)

end Verif.Obj
