import Verif.Struct.Model

/-! # Specification vocabulary for structures -/

namespace Verif.Struct
open Verif.Disp

/-- What a reader sees of the entries of a structure: each component with its current parameter
values; `none` for an entry that is not a component. -/
def entryView (v : Vals) : PyObj → Option CompView
  | .comp c => some (c.view v)
  | _ => none

/-- The components that an operand of `|` stands for: itself, the entries of a structure, or one
slab of zero thickness, roughness and solvent fraction for a bare scatterer. -/
def content (w : World) : PyObj → List (Option CompView)
  | .comp c => [some (c.view w.vals)]
  | .struct id => (w.structs id).data.map (entryView w.vals)
  | .scat s => [some (.slab 0 (s w.vals) 0 0 true)]
  | .junk => []

/-- `f` only looks at parameters that exist. -/
def Local {α : Type} (n : ℕ) (f : Vals → α) : Prop :=
  ∀ v v' : Vals, (∀ p < n, v p = v' p) → f v = f v'

/-- The component refers only to existing parameters. -/
def CompOk (n : ℕ) : Comp → Prop
  | .slab t r g f _ => t < n ∧ g < n ∧ f < n ∧ Local n r
  | .mixed t a b f g _ => t < n ∧ g < n ∧ f < n ∧ Local n a ∧ Local n b
  | .other r _ => Local n r

/-- The entries refer only to existing parameters. -/
def EntryOk (n : ℕ) : PyObj → Prop
  | .comp c => CompOk n c
  | _ => True

/-- All references in the heap are to existing objects. -/
def World.Ok (w : World) : Prop :=
  ∀ id < w.nextS, ∀ o ∈ (w.structs id).data, EntryOk w.nextP o

/-- The operand refers to existing objects. -/
def OperandOk (w : World) : PyObj → Prop
  | .comp c => CompOk w.nextP c
  | .struct id => id < w.nextS
  | .scat s => Local w.nextP s
  | .junk => True

/-- Nothing that existed in `w` has changed in `w'`. -/
def Preserved (w w' : World) : Prop :=
  w.nextP ≤ w'.nextP ∧ w.nextS ≤ w'.nextS ∧ (∀ p < w.nextP, w'.vals p = w.vals p) ∧
    ∀ id < w.nextS, w'.structs id = w.structs id

/-- A structure holds only components. -/
def OnlyComps (s : Structure) : Prop := ∀ o ∈ s.data, ∃ c, o = .comp c

/-- The operand is not a foreign object. -/
def NotJunk : PyObj → Prop
  | .junk => False
  | _ => True

/-- Components of the classes defined by the package. -/
def Pkg : Comp → Prop
  | .other .. => False
  | _ => True

/-- Thickness, roughness and solvent fraction a component describes (0 solvent in a mixed slab). -/
def cols (v : Vals) : Comp → ℝ × ℝ × ℝ
  | .slab t _ g f _ => (v t, v g, v f)
  | .mixed t _ _ _ g _ => (v t, v g, 0)
  | .other .. => (0, 0, 0)

/-- The same columns of a row of the slab array. -/
def Row.cols (r : Row) : ℝ × ℝ × ℝ := (r.thick, r.rough, r.vf)

/-- `n` is the index of a scatterer of the package at the structure's wavelength `w`, or at its own default
wavelength if `w` is `None` or 0. -/
def EvalAt (z : SqrtOracle) (w : Option ℝ) (s : Scat) (n : Option ℂ) : Prop :=
  ∃ own, s.ownWav = some own ∧
    ((∃ x, w = some x ∧ x ≠ 0 ∧ n = s.at z x) ∨ ((w = none ∨ w = some 0) ∧ n = s.at z own))

/-- Names of the mixing rules. -/
def KnownEma (st : Settings) : Prop :=
  st.ema = "linear" ∨ st.ema = "maxwell-garnett" ∨ st.ema = "bruggeman"

/-- The component has the default interface (`interface=None`). -/
def NoInterface : Comp → Prop
  | .slab _ _ _ _ d => d = true
  | .mixed _ _ _ _ _ d => d = true
  | .other _ d => d = true

/-- A structure made of components of the package with default interfaces, with slabs at both ends,
not contracted and with an existing mixing rule. -/
structure Plain (s : Structure) (cs : List Comp) : Prop where
  data : s.data = cs.map .comp
  ne : cs ≠ []
  pkg : ∀ c ∈ cs, Pkg c
  dflt : ∀ c ∈ cs, NoInterface c
  first : ∀ c, cs.head? = some c → c.isSlab = true
  last : ∀ c, cs.getLast? = some c → c.isSlab = true
  contract : s.contract ≤ 0
  ema : KnownEma s.toSettings

end Verif.Struct
