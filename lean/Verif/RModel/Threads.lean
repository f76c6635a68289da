import Verif.RModel.Model

/-!
# `ReflectModelSE.model` evaluated in several threads (reflect_modelSE.py:355-396)

`model` writes `structure.wavelength` and `structure.slabs` reads it, once for every scatterer.  Here both are
written as programs whose steps are these reads and writes.  Between two steps another thread may run.
Simplified: a component that is not of the package, and refnx's `_micro_slabs`, read the wavelength once;
parameters and components are not changed by any thread.
-/

namespace Verif.RModel
open Verif.Struct Verif.TMM

/-- What a thread still has to do with the wavelength of its structure, and its result. -/
inductive Prog (α : Type)
  | ret (a : α)
  | write (w : ℝ) (k : Prog α)
  | read (k : Option ℝ → Prog α)

namespace Prog
variable {α β ε : Type}

/-- One program after the other. -/
def bind (p : Prog α) (f : α → Prog β) : Prog β :=
  match p with
  | ret a => f a
  | write w k => write w (k.bind f)
  | read k => read fun x => (k x).bind f

/-- The same, unless an exception was raised. -/
def andThen (p : Prog (Except ε α)) (f : α → Prog (Except ε β)) : Prog (Except ε β) :=
  p.bind fun r => match r with
    | .ok a => f a
    | .error e => ret (.error e)

/-- Without other threads: the result, and the wavelength of the structure afterwards. -/
def run : Prog α → Option ℝ → α × Option ℝ
  | ret a, c => (a, c)
  | write w k, _ => k.run (some w)
  | read k, c => (k c).run c

/-- The number of steps without other threads. -/
def len : Prog α → Option ℝ → ℕ
  | ret _, _ => 0
  | write w k, _ => k.len (some w) + 1
  | read k, c => (k c).len c + 1

end Prog

/-- The result of a program for each element of a list, up to the first exception. -/
def mapProg {α β ε : Type} (f : α → Prog (Except ε β)) : List α → Prog (Except ε (List β))
  | [] => .ret (.ok [])
  | a :: l => (f a).andThen fun b => (mapProg f l).andThen fun bs => .ret (.ok (b :: bs))

/-- `component.slabs(structure=self)`: `structure.wavelength` is read once for every scatterer that is dispersive
(reading it for others makes no difference).  structureSE.py:269-292, 372-398. -/
noncomputable def rowsProg (ext : Ext) (st : Settings) : CompView → Prog (Except PyErr (Option (List Row)))
  | .slab t r g f _ => .read fun x => .ret (.ok (some [⟨t, layerRi ext { st with wavelength := x } r, g, f⟩]))
  | .mixed t a b f g _ => .read fun x => .read fun y =>
    let ra := layerRi ext { st with wavelength := x } a
    let rb := layerRi ext { st with wavelength := y } b
    .ret do
      let n ← EMA.overallRiO (ext.ze (ra.getD 0) (rb.getD 0) f st.ema st.dp) ra rb f st.ema st.dp
      return some [⟨t, n, g, 0⟩]
  | .other r _ => .read fun x => .ret (r { st with wavelength := x })

/-- The same for an entry of `structure.data`. -/
noncomputable def entryProg (ext : Ext) (v : Vals) (st : Settings) :
    PyObj → Prog (Except PyErr (Option (List Row)))
  | .comp c => rowsProg ext st (c.view v)
  | _ => .ret (.error .attributeError)

/-- The rows before solvation.  structureSE.py:599-617. -/
noncomputable def rawProg (ext : Ext) (v : Vals) (s : Structure) : Prog (Except PyErr (List Row)) :=
  if s.data.all PyObj.dflt = true then
    (mapProg (entryProg ext v s.toSettings) s.data).andThen fun sl =>
      .ret (.ok (sl.map fun o => o.getD []).flatten)
  else .read fun x => .ret (ext.micro v { s with wavelength := x })

/-- Solvation; the wavelength is read for the solvent, if there is one.  structureSE.py:627-644. -/
noncomputable def solvProg (ext : Ext) (v : Vals) (st : Settings) (rows : List Row) :
    Prog (Except PyErr (List Row)) :=
  open Classical in
  if ∃ r ∈ rows, 0 < r.vf then
    match st.solvent with
    | some s => .read fun x =>
      .ret ((mixRows ext st ((s v).complex ext.zs x) (interior rows)).map (setInterior rows))
    | none => .ret ((mixRows ext st (rows.getLast?.bind Row.ri) (interior rows)).map (setInterior rows))
  else .ret (.ok rows)

/-- `structure.slabs()`.  structureSE.py:585-651. -/
noncomputable def slabsProg (ext : Ext) (v : Vals) (s : Structure) : Prog (Except PyErr (Option (List Row))) :=
  if s.data.isEmpty then .ret (.ok none)
  else if endsAreSlabs s.data then
    (rawProg ext v s).andThen fun raw =>
      (solvProg ext v s.toSettings (if s.reverse then reverseRows raw else raw)).andThen fun rows =>
        .ret (.ok (some (if 0 < s.contract then ext.contractBy rows s.contract else rows)))
  else .ret (.error .valueError)

/-- The loop over the wavelengths.  reflect_modelSE.py:381-396. -/
noncomputable def loopProg (ext : Ext) (zs : List Layer → ℝ → ℝ → Bool) (d : DType) (v : Vals) (m : RM)
    (s : Structure) (pts : List (ℝ × ℝ)) : List ℝ → List Cell → Prog (Except PyErr (List Cell))
  | [], acc => .ret (.ok acc)
  | w :: ws, acc => .write w ((slabsProg ext v s).andThen fun o => match o with
    | none => .ret (.error .typeError)
    | some rows =>
      match (deltaPsiTMM zs (pick (maskEq (pts.map Prod.fst) w) (pts.map Prod.snd)) rows w (v m.off) m.flip).1 with
      | .error e => .ret (.error e)
      | .ok vals => loopProg ext zs d v m s pts ws
          (scatter (maskEq (pts.map Prod.fst) w) (vals.map d.storeCell) acc))

/-- `model(wavelength_aoi)`.  reflect_modelSE.py:355-396. -/
noncomputable def modelProg (ext : Ext) (zs : List Layer → ℝ → ℝ → Bool) (d : DType) (v : Vals) (m : RM)
    (s : Structure) (pts : List (ℝ × ℝ)) : Prog (Except PyErr (List Cell)) :=
  loopProg ext zs d v m s pts (npUnique (pts.map Prod.fst)) (pts.map fun _ => (some 0, some 0))

/-! ### Threads -/

/-- All threads, by number, and the wavelengths of all structures, by reference. -/
structure Conf (α : Type) where
  prog : ℕ → Prog α
  cell : ℕ → Option ℝ

/-- Thread `i`, which uses the structure `sid i`, makes one step. -/
def Conf.step {α : Type} (sid : ℕ → ℕ) (c : Conf α) (i : ℕ) : Conf α :=
  match c.prog i with
  | .ret _ => c
  | .write w k => ⟨Function.update c.prog i k, Function.update c.cell (sid i) (some w)⟩
  | .read k => { c with prog := Function.update c.prog i (k (c.cell (sid i))) }

/-- The threads make steps in the order of a schedule. -/
def Conf.exec {α : Type} (sid : ℕ → ℕ) (c : Conf α) (sched : List ℕ) : Conf α :=
  sched.foldl (Conf.step sid) c

end Verif.RModel
