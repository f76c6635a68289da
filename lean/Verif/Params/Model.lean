import Verif.Obj.Model

/-!
# Model of the `parameters` attributes

`ScattererSE`, `SlabSE`, `MixedSlabSE` (/repo/refellips/dispersion.py, /repo/refellips/structureSE.py) and
`ReflectModelSE` (/repo/refellips/reflect_modelSE.py).

Component objects are mutable and behind references, so that a component can occur twice in a structure
or in several structures.  Scatterer objects are not changed after construction.  Lists of `Parameters`
inside `Parameters` are flattened, as `flatten` (refnx) does for every use in the package.
`Structure.parameters` is refnx: the parameters of the components in order, then those of the solvent.
-/

namespace Verif.Params
open Verif.Struct Verif.Disp

/-- A scatterer object of the package with references to its parameters. -/
inductive ScatE
  | const (wl n k : ℝ)
  | table (wl : ℝ) (tab : List (ℝ × ℝ × ℝ))
  | cauchy (wl : ℝ) (A B C : PId)
  | sellmeier (wl : ℝ) (Am En P einf : PId)
  | lorentz (wl : ℝ) (Am Br En : List PId) (einf : PId)
  | gauss (wl : ℝ) (Am Br En : List PId) (einf : PId)
  | tauc (wl : ℝ) (Am C En : List PId) (Eg einf : PId)

/-- The oscillators with the current values of the parameters. -/
def osc (v : Vals) (a b c : List PId) : List (ℝ × ℝ × ℝ) := (a.map v).zip ((b.map v).zip (c.map v))

/-- The scatterer with the current values of its parameters. -/
def ScatE.eval : ScatE → ScatObj
  | .const wl n k, _ => .const wl n k
  | .table wl t, _ => .table wl t
  | .cauchy wl A B C, v => .cauchy wl (v A) (v B) (v C)
  | .sellmeier wl Am En P einf, v => .sellmeier wl (v Am) (v En) (v P) (v einf)
  | .lorentz wl a b c einf, v => .lorentz wl (osc v a b c) (v einf)
  | .gauss wl a b c einf, v => .gauss wl (osc v a b c) (v einf)
  | .tauc wl a b c Eg einf, v => .tauc wl (osc v a b c) (v Eg) (v einf)

/-- `flatten(scatterer.parameters)`.  dispersion.py:99-101, 187-195, 262-274, 363-385, 431-451,
525-547. -/
def ScatE.pars : ScatE → List PId
  | .const .. | .table .. => []
  | .cauchy _ A B C => [A, B, C]
  | .sellmeier _ Am En P einf => [Am, En, P, einf]
  | .lorentz _ a b c einf => a ++ b ++ c ++ [einf]
  | .gauss _ a b c einf => a ++ b ++ c ++ [einf]
  | .tauc _ a b c Eg einf => a ++ b ++ c ++ [einf, Eg]

/-- A component object: its attributes, and `_parameters`, which is made once, by the constructor. -/
inductive CompO
  | slab (thick : PId) (ri : ScatE) (rough vf : PId) (dflt : Bool) (stored : List PId)
  | mixed (thick : PId) (riA riB : ScatE) (vfB rough : PId) (dflt : Bool) (stored : List PId)

/-- `SlabSE(thick, ri, rough, vfsolv=vf)`.  structureSE.py:229-252. -/
def mkSlab (thick : PId) (ri : ScatE) (rough vf : PId) (dflt : Bool) : CompO :=
  .slab thick ri rough vf dflt ([thick] ++ ri.pars ++ [rough, vf])

/-- `MixedSlabSE(thick, ri_A, ri_B, vf_B, rough)`.  structureSE.py:319-351. -/
def mkMixed (thick : PId) (riA riB : ScatE) (vfB rough : PId) (dflt : Bool) : CompO :=
  .mixed thick riA riB vfB rough dflt ([thick] ++ riA.pars ++ riB.pars ++ [vfB] ++ [rough])

/-- `component.parameters`.  structureSE.py:261-267, 363-370. -/
def CompO.parameters : CompO → List PId
  | .slab _ _ _ _ _ l => l
  | .mixed _ _ _ _ _ _ l => l

/-- What `component.slabs` uses: the current attributes. -/
def CompO.comp : CompO → Comp
  | .slab t r g f d _ => .slab t r.eval g f d
  | .mixed t a b f g d _ => .mixed t a.eval b.eval f g d

/-- A `StructureSE` object: components by reference. -/
structure StructO where
  comps : List ℕ := []
  solvent : Option ScatE := none
  reverse : Bool := false
  contract : ℝ := 0
  wavelength : Option ℝ := none
  ema : String := "linear"
  dp : ℝ := 1 / 3

/-- The component objects that exist. -/
abbrev Objs := ℕ → CompO

/-- The structure with the current attributes of its components. -/
def StructO.view (h : Objs) (s : StructO) : Structure :=
  { solvent := s.solvent.map ScatE.eval, reverse := s.reverse, contract := s.contract,
    wavelength := s.wavelength, ema := s.ema, dp := s.dp,
    data := s.comps.map fun i => .comp (h i).comp }

/-- `flatten(structure.parameters)` (refnx). -/
def StructO.parameters (h : Objs) (s : StructO) : List PId :=
  (s.comps.flatMap fun i => (h i).parameters) ++ (s.solvent.map ScatE.pars).getD []

/-- `flatten(ReflectModelSE(structure).parameters)`, computed anew at each access.
reflect_modelSE.py:420-442. -/
def modelParameters (h : Objs) (off : PId) (s : StructO) : List PId := off :: s.parameters h

/-! ### Operations of a user -/

/-- All objects and the current values. -/
structure W where
  vals : Vals
  objs : Objs
  structs : ℕ → StructO

/-- What a user may do with components and structures. -/
inductive Op
  | slab (i : ℕ) (thick : PId) (ri : ScatE) (rough vf : PId) (dflt : Bool)
  | mixed (i : ℕ) (thick : PId) (riA riB : ScatE) (vfB rough : PId) (dflt : Bool)
  | setValue (p : PId) (x : ℝ)
  | append (s i : ℕ)
  | remove (s k : ℕ)
  | solvent (s : ℕ) (r : Option ScatE)
  | settings (s : ℕ) (reverse : Bool) (contract : ℝ) (wavelength : Option ℝ) (ema : String) (dp : ℝ)
  /-- `component.ri = r` (`ri_A` of a mixed slab) -/
  | assignRi (i : ℕ) (r : ScatE)
  /-- `component.thick = p` -/
  | assignThick (i : ℕ) (p : PId)

/-- The operation replaces an attribute of a component by another object. -/
def Op.reassigns : Op → Bool
  | .assignRi .. | .assignThick .. => true
  | _ => false

/-- Assignment of an attribute: `_parameters` is not touched. -/
def CompO.setRi (c : CompO) (r : ScatE) : CompO :=
  match c with
  | .slab t _ g f d l => .slab t r g f d l
  | .mixed t _ b f g d l => .mixed t r b f g d l

/-- Assignment of an attribute: `_parameters` is not touched. -/
def CompO.setThick (c : CompO) (p : PId) : CompO :=
  match c with
  | .slab _ r g f d l => .slab p r g f d l
  | .mixed _ a b f g d l => .mixed p a b f g d l

/-- Replacing a structure object by another with changed attributes. -/
def W.setStruct (w : W) (s : ℕ) (f : StructO → StructO) : W :=
  { w with structs := Function.update w.structs s (f (w.structs s)) }

/-- The effect of an operation. -/
def Op.run (w : W) : Op → W
  | .slab i t r g f d => { w with objs := Function.update w.objs i (mkSlab t r g f d) }
  | .mixed i t a b f g d => { w with objs := Function.update w.objs i (mkMixed t a b f g d) }
  | .setValue p x => { w with vals := Function.update w.vals p x }
  | .append s i => w.setStruct s fun o => { o with comps := o.comps ++ [i] }
  | .remove s k => w.setStruct s fun o => { o with comps := o.comps.eraseIdx k }
  | .solvent s r => w.setStruct s fun o => { o with solvent := r }
  | .settings s rv c wl e d =>
    w.setStruct s fun o => { o with reverse := rv, contract := c, wavelength := wl, ema := e, dp := d }
  | .assignRi i r => { w with objs := Function.update w.objs i ((w.objs i).setRi r) }
  | .assignThick i p => { w with objs := Function.update w.objs i ((w.objs i).setThick p) }

/-- The effect of a sequence of operations. -/
def run (w : W) (ops : List Op) : W := ops.foldl Op.run w

/-! ### `model(x, p)` and `StructureSE.plot` -/

/-- `parameters.pvals = x` (refnx): values for the varying parameters, or for all of them. -/
def setPvals (vary : PId → Bool) (ps : List PId) (x : List ℝ) (v : Vals) : Except PyErr Vals :=
  let var := Obj.unique (ps.filter fun p => vary p)
  if x.length = var.length then .ok (Obj.assign var x v)
  else if x.length = ps.length then .ok (Obj.assign ps x v)
  else .error .valueError

/-- `model(wavelength_aoi, p)`: the result, the values of the parameters and the structure afterwards.
reflect_modelSE.py:331-396. -/
noncomputable def call (ext : Ext) (zs : List TMM.Layer → ℝ → ℝ → Bool) (d : RModel.DType)
    (vary : PId → Bool) (h : Objs) (m : RModel.RM) (s : StructO) (pts : List (ℝ × ℝ))
    (p : Option (List ℝ)) (v : Vals) : Except PyErr (List RModel.Cell) × Vals × Structure :=
  match p with
  | none =>
    let r := RModel.model ext zs d v m (s.view h) pts
    (r.1, v, r.2)
  | some x =>
    match setPvals vary (modelParameters h m.off s) x v with
    | .error e => (.error e, v, s.view h)
    | .ok v' =>
      let r := RModel.model ext zs d v' m (s.view h) pts
      (r.1, v', r.2)

/-- A curve that is plotted. -/
abbrev Curve := List ℝ × List (Option ℂ)

/-- The curves of the samples.  structureSE.py:758-761. -/
noncomputable def plotSamples (ext : Ext) (vary : PId → Bool) (h : Objs) (s : StructO) (align : ℤ) :
    List (List ℝ) → Vals → Except PyErr (List Curve) × Vals
  | [], v => (.ok [], v)
  | x :: xs, v =>
    match setPvals vary (s.parameters h) x v with
    | .error e => (.error e, v)
    | .ok v' =>
      match riProfile ext v' (s.view h) align with
      | .error e => (.error e, v')
      | .ok c =>
        match plotSamples ext vary h s align xs v' with
        | (.error e, w) => (.error e, w)
        | (.ok cs, w) => (.ok (c :: cs), w)

/-- `structure.plot(pvals, samples, align=align)`: the curves in the order they are drawn, and the values
of the parameters afterwards.  The vectors that `pgen` (refnx) yields are an argument, `none` for
`samples = 0`.  structureSE.py:711-770. -/
noncomputable def plot (ext : Ext) (vary : PId → Bool) (h : Objs) (s : StructO) (pvals : Option (List ℝ))
    (samples : Option (List (List ℝ))) (align : ℤ) (v : Vals) : Except PyErr (List Curve) × Vals :=
  let set : Except PyErr Vals := match pvals with
    | none => .ok v
    | some x => setPvals vary (s.parameters h) x v
  match set with
  | .error e => (.error e, v)
  | .ok v =>
    let drawn : Except PyErr (List Curve) × Vals := match samples with
      | none => (.ok [], v)
      | some xs =>
        match plotSamples ext vary h s align xs v with
        | (.error e, w) => (.error e, w)
        | (.ok cs, w) =>
          match setPvals vary (s.parameters h) ((s.parameters h).map v) w with
          | .error e => (.error e, w)
          | .ok w' => (.ok cs, w')
    match drawn with
    | (.error e, w) => (.error e, w)
    | (.ok cs, w) =>
      match riProfile ext w (s.view h) align with
      | .error e => (.error e, w)
      | .ok c => (.ok (cs ++ [c]), w)

end Verif.Params
