import Verif.Disp.Model
import Verif.EMA.Model

/-!
# Model of /repo/refellips/structureSE.py, lines 67-855

Python objects: parameters live in a store (`World.vals`), structures are mutable objects behind
references (`World.structs`); components and scatterers are never mutated by the package, so they are
values that refer to parameters.  A scatterer object is a function of the parameter store.

Not modelled: names of components, `interfaces` other than "default or not", `_micro_slabs`,
`contract_by_area` and `sld_profile` (refnx; arguments of the model), the bounds of parameters.
-/

namespace Verif.Struct
open Verif.Disp

/-- Reference to a `Parameter`. -/
abbrev PId := ℕ

/-- Current values of the parameters. -/
abbrev Vals := PId → ℝ

/-- A `ScattererSE` object. -/
abbrev ScatObj := Vals → Scat

/-- The attributes of a `StructureSE` other than its components and name.
structureSE.py:441-471. -/
structure Settings where
  solvent : Option ScatObj := none
  reverse : Bool := false
  contract : ℝ := 0
  wavelength : Option ℝ := none
  ema : String := "linear"
  dp : ℝ := 1 / 3

/-- `ComponentSE` objects: `SlabSE` (207-292), `MixedSlabSE` (295-398) and user defined ones, given
by what their `slabs` method returns.  `dflt`: the interface is `None`. -/
inductive Comp
  | slab (thick : PId) (ri : ScatObj) (rough vf : PId) (dflt : Bool)
  | mixed (thick : PId) (riA riB : ScatObj) (vfB rough : PId) (dflt : Bool)
  | other (rows : Vals → Settings → Except PyErr (Option (List Row))) (dflt : Bool)

/-- A component with the parameters replaced by their current values. -/
inductive CompView
  | slab (thick : ℝ) (ri : Scat) (rough vf : ℝ) (dflt : Bool)
  | mixed (thick : ℝ) (riA riB : Scat) (vfB rough : ℝ) (dflt : Bool)
  | other (rows : Settings → Except PyErr (Option (List Row))) (dflt : Bool)

/-- Reading the current parameter values of a component. -/
def Comp.view (v : Vals) : Comp → CompView
  | .slab t r g f d => .slab (v t) (r v) (v g) (v f) d
  | .mixed t a b f g d => .mixed (v t) (a v) (b v) (v f) (v g) d
  | .other r d => .other (r v) d

/-- `c.interfaces` is the default. -/
def Comp.dflt : Comp → Bool
  | .slab _ _ _ _ d | .mixed _ _ _ _ _ d | .other _ d => d

/-- `isinstance(c, SlabSE)`. -/
def Comp.isSlab : Comp → Bool
  | .slab .. => true
  | _ => false

/-- Python objects that can be put into a structure or next to `|`. -/
inductive PyObj
  | comp (c : Comp)
  | scat (s : ScatObj)
  | struct (id : ℕ)
  | junk

/-- A `StructureSE`. -/
structure Structure extends Settings where
  name : String := ""
  data : List PyObj := []

/-- Heap: values of parameters, structure objects, allocation pointers. -/
structure World where
  vals : Vals
  nextP : ℕ
  structs : ℕ → Structure
  nextS : ℕ

/-- External functions and signs of zero. -/
structure Ext where
  /-- sign of zero in the square roots of dispersion curves -/
  zs : SqrtOracle
  /-- signs of zero in the square roots of the mixing rules -/
  ze : ℂ → ℂ → ℝ → String → ℝ → Bool × Bool
  /-- refnx `Structure._micro_slabs` -/
  micro : Vals → Structure → Except PyErr (List Row)
  /-- refnx `contract_by_area` -/
  contractBy : List Row → ℝ → List Row
  /-- refnx `sld_profile` with `z=None`: positions and values -/
  profile : List Row → List ℝ × List (Option ℂ)

/-! ### Construction -/

/-- `StructureSE(components, name, solvent, ...)`: components that are not `ComponentSE` are dropped,
the depolarisation factor is stored as it is.  The solvent is a scatterer or `None` here, see
`setSolvent`.  structureSE.py:441-471. -/
def mkStructure (components : List PyObj) (st : Settings) (name : String) : Structure :=
  { st with
    name := name
    data := components.filter fun o => match o with | .comp _ => true | _ => false }

/-- `structure.solvent = x` (`none` is Python's `None`).  structureSE.py:486-495. -/
def setSolvent (s : Structure) (x : Option PyObj) : Except PyErr Structure :=
  match x with
  | none => .ok { s with solvent := none }
  | some (.scat r) => .ok { s with solvent := some r }
  | some _ => .error .valueError

/-- `structure.depolarisation_factor = x`.  structureSE.py:501-508. -/
noncomputable def setDp (s : Structure) (x : ℝ) : Except PyErr Structure :=
  open Classical in
  if 0 ≤ x ∧ x ≤ 1 then .ok { s with dp := x } else .error .valueError

/-- `copy.copy(structure)`.  structureSE.py:477-480. -/
noncomputable def copyStructure (s : Structure) : Structure :=
  { mkStructure [] { solvent := s.solvent } s.name with data := s.data }

/-- A new `Parameter` with the given value.  refnx `possibly_create_parameter`. -/
def World.newParam (w : World) (x : ℝ) : World × PId :=
  ({ w with vals := fun p => if p = w.nextP then x else w.vals p, nextP := w.nextP + 1 }, w.nextP)

/-- A new structure object. -/
def World.newStruct (w : World) (s : Structure) : World × ℕ :=
  ({ w with structs := fun i => if i = w.nextS then s else w.structs i, nextS := w.nextS + 1 },
    w.nextS)

/-- Overwriting a structure object. -/
def World.setStruct (w : World) (id : ℕ) (s : Structure) : World :=
  { w with structs := fun i => if i = id then s else w.structs i }

/-- `scatterer(thick, rough, vfsolv)` with numbers: a new slab.
structureSE.py:119-141, 234-261. -/
def World.callScat (w : World) (s : ScatObj) (thick rough vf : ℝ) : World × Comp :=
  let (w, t) := w.newParam thick
  let (w, g) := w.newParam rough
  let (w, f) := w.newParam vf
  (w, .slab t s g f true)

/-- `structure.append(item)`.  structureSE.py:510-527. -/
def World.append (w : World) (id : ℕ) (item : PyObj) : World × Except PyErr Unit :=
  match item with
  | .scat s =>
    let (w, c) := w.callScat s 0 0 0
    let st := w.structs id
    (w.setStruct id { st with data := st.data ++ [.comp c] }, .ok ())
  | .comp c =>
    let st := w.structs id
    (w.setStruct id { st with data := st.data ++ [.comp c] }, .ok ())
  | _ => (w, .error .valueError)

/-- `structure |= other`.  `extend` of a `UserList` does not check its argument.
structureSE.py:772-792. -/
def World.ior (w : World) (id : ℕ) (other : PyObj) : World × Except PyErr Unit :=
  match other with
  | .comp c => w.append id (.comp c)
  | .struct j =>
    let st := w.structs id
    (w.setStruct id { st with data := st.data ++ (w.structs j).data }, .ok ())
  | .scat s =>
    let (w, c) := w.callScat s 0 0 0
    w.append id (.comp c)
  | .junk => (w, .error .valueError)

/-- `a | b` for a component or a structure `a`.  structureSE.py:794-816, 160-181. -/
noncomputable def World.or (w : World) (a b : PyObj) : World × Except PyErr ℕ :=
  let (w, p) := w.newStruct {}
  match w.ior p a with
  | (w, .error e) => (w, .error e)
  | (w, .ok ()) =>
    match w.ior p b with
    | (w, .error e) => (w, .error e)
    | (w, .ok ()) => (w, .ok p)

/-- `component * n`.  structureSE.py:183-204. -/
noncomputable def World.mul (w : World) (c : Comp) (n : ℤ) : World × PyObj :=
  if n < 1 then
    let (w, p) := w.newStruct {}
    (w, .struct p)
  else if n = 1 then (w, .comp c)
  else
    let (w, p) := w.newStruct {}
    let st := w.structs p
    (w.setStruct p { st with data := st.data ++ List.replicate n.toNat (.comp c) }, .struct p)

/-! ### Slabs -/

/-- Index of a scatterer inside a slab: `ri.complex(structure.wavelength)` if it is dispersive, else
`complex(ri)`.  structureSE.py:270-278, 374-384. -/
noncomputable def layerRi (ext : Ext) (st : Settings) (s : Scat) : Option ℂ :=
  if s.dispersive then s.complex ext.zs st.wavelength else s.complex ext.zs none

/-- `component.slabs(structure=self)`.  structureSE.py:266-292, 370-398. -/
noncomputable def CompView.rows (ext : Ext) (st : Settings) :
    CompView → Except PyErr (Option (List Row))
  | .slab t r g f _ => .ok (some [⟨t, layerRi ext st r, g, f⟩])
  | .mixed t a b f g _ => do
    let ra := layerRi ext st a
    let rb := layerRi ext st b
    let n ← EMA.overallRiO (ext.ze (ra.getD 0) (rb.getD 0) f st.ema st.dp) ra rb f st.ema st.dp
    return some [⟨t, n, g, 0⟩]
  | .other r _ => r st

/-- The same for an entry of `structure.data`.  Entries that are not components do not occur in structures made
with the modelled operations (C38); they are not modelled further. -/
noncomputable def PyObj.rows (ext : Ext) (v : Vals) (st : Settings) :
    PyObj → Except PyErr (Option (List Row))
  | .comp c => (c.view v).rows ext st
  | _ => .error .attributeError

/-- Slabs of all components, concatenated; `None` entries are skipped.
structureSE.py:605-613. -/
noncomputable def componentRows (ext : Ext) (v : Vals) (st : Settings) (data : List PyObj) :
    Except PyErr (List Row) := do
  let sl ← data.mapM (PyObj.rows ext v st)
  return (sl.map fun o => o.getD []).flatten

/-- `reverse_structure`: rows flipped, roughnesses moved to the other side.
structureSE.py:619-625. -/
def reverseRows (rows : List Row) : List Row :=
  let roughs := rows.tail.map Row.rough
  List.zipWith (fun r g => { r with rough := g }) rows.reverse (0 :: roughs.reverse)

/-- `structure.overall_ri(slabs, solv)`.  structureSE.py:818-855. -/
noncomputable def mixRows (ext : Ext) (st : Settings) (solv : Option ℂ) (rows : List Row) :
    Except PyErr (List Row) :=
  if st.ema = "linear" ∨ st.ema = "maxwell-garnett" ∨ st.ema = "bruggeman" then
    rows.mapM fun r => do
      let n ← EMA.overallRiO (ext.ze (r.ri.getD 0) (solv.getD 0) r.vf st.ema st.dp) r.ri solv r.vf
        st.ema st.dp
      return { r with ri := n }
  else .error .runtimeError

/-- Rows 1 .. -1 replaced. -/
def setInterior (rows mid : List Row) : List Row :=
  match rows with
  | [] => []
  | [a] => [a]
  | a :: _ :: _ => a :: mid ++ rows.getLast?.toList

/-- The interior `slabs[1:-1]`. -/
def interior (rows : List Row) : List Row := rows.tail.dropLast

/-- Solvation.  structureSE.py:627-644. -/
noncomputable def solvate (ext : Ext) (v : Vals) (st : Settings) (rows : List Row) :
    Except PyErr (List Row) :=
  open Classical in
  if ∃ r ∈ rows, 0 < r.vf then do
    let solv : Option ℂ := match st.solvent with
      | some s => (s v).complex ext.zs st.wavelength
      | none => (rows.getLast?.bind Row.ri)
    return setInterior rows (← mixRows ext st solv (interior rows))
  else .ok rows

/-- First and last component are `SlabSE`.  structureSE.py:588-594. -/
def endsAreSlabs (data : List PyObj) : Bool :=
  match data.head?, data.getLast? with
  | some (.comp a), some (.comp b) => a.isSlab && b.isSlab
  | _, _ => false

/-- The interfaces of an entry of `structure.data` are the default. -/
def PyObj.dflt : PyObj → Bool
  | .comp c => c.dflt
  | _ => true

/-- Rows of the components, or the micro-slab representation if an interface is not the default.
structureSE.py:599-617. -/
noncomputable def rawRows (ext : Ext) (v : Vals) (s : Structure) : Except PyErr (List Row) :=
  if s.data.all PyObj.dflt = true then
    componentRows ext v s.toSettings s.data
  else ext.micro v s

/-- The part of `slabs` after the wavelength has been set.  structureSE.py:599-651. -/
noncomputable def slabsCore (ext : Ext) (v : Vals) (s : Structure) : Except PyErr (List Row) := do
  let raw ← rawRows ext v s
  let rows ← solvate ext v s.toSettings (if s.reverse then reverseRows raw else raw)
  return if 0 < s.contract then ext.contractBy rows s.contract else rows

/-- `structure.slabs(wavelength=kw)`: the result (`None` for an empty structure) and the structure
afterwards.  structureSE.py:585-651. -/
noncomputable def slabs (ext : Ext) (v : Vals) (s : Structure) (kw : Option ℝ) :
    Except PyErr (Option (List Row)) × Structure :=
  if s.data.isEmpty then (.ok none, s)
  else if endsAreSlabs s.data then
    let s' := match kw with
      | some w => { s with wavelength := some w }
      | none => s
    ((slabsCore ext v s').map some, s')
  else (.error .valueError, s)

/-! ### Profile -/

/-- `np.sum(a[:i])` for a Python index `i`. -/
noncomputable def sumTo (a : List ℝ) (i : ℤ) : ℝ :=
  if 0 ≤ i then (a.take i.toNat).sum else (a.take (a.length - (-i).toNat)).sum

/-- Offset computed by `ri_profile(align=align)`.  structureSE.py:693-707. -/
noncomputable def alignOffset (rows : List Row) (align : ℤ) : Except PyErr ℝ :=
  if align ≠ 0 then
    if align ≥ (rows.length : ℤ) - 1 ∨ align < -1 * (rows.length : ℤ) then .error .runtimeError
    else
      let th := ((rows.map Row.thick).set 0 0).set (rows.length - 1) 0
      .ok (if 0 ≤ align then sumTo th (align + 1) else sumTo th align)
  else .ok 0

/-- `structure.ri_profile(align=align)`.  structureSE.py:653-709. -/
noncomputable def riProfile (ext : Ext) (v : Vals) (s : Structure) (align : ℤ) :
    Except PyErr (List ℝ × List (Option ℂ)) := do
  match ← (slabs ext v s none).1 with
  | none => throw .valueError
  | some rows =>
    if rows.length < 2 then throw .valueError
    else
      let (z, ri) := ext.profile rows
      let off ← alignOffset rows align
      return (z.map (· - off), ri)

end Verif.Struct
