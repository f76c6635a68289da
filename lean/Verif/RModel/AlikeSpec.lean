import Verif.Struct.Model

/-! # Vocabulary: structures whose materials have the same indices -/

namespace Verif.RModel
open Verif.Struct Verif.Disp

/-- Two dispersive materials that have the same index at the wavelength `w` (with the current parameters). -/
def Same (zs : SqrtOracle) (v : Vals) (w : ℝ) (a b : ScatObj) : Prop :=
  (a v).dispersive = true ∧ (b v).dispersive = true ∧ (a v).complex zs (some w) = (b v).complex zs (some w)

/-- Two components with default interfaces that differ only in such materials; a user defined component does not look
at the solvent. -/
inductive SameComp (zs : SqrtOracle) (v : Vals) (w : ℝ) : Comp → Comp → Prop
  | slab {t a b g f} : Same zs v w a b → SameComp zs v w (.slab t a g f true) (.slab t b g f true)
  | mixed {t a b a' b' f g} : Same zs v w a a' → Same zs v w b b' →
      SameComp zs v w (.mixed t a b f g true) (.mixed t a' b' f g true)
  | other {r} : (∀ st x, r v { st with solvent := x } = r v st) → SameComp zs v w (.other r true) (.other r true)

/-- The same for a solvent. -/
inductive SameSolvent (zs : SqrtOracle) (v : Vals) (w : ℝ) : Option ScatObj → Option ScatObj → Prop
  | none : SameSolvent zs v w .none .none
  | some {a b} : Same zs v w a b → SameSolvent zs v w (.some a) (.some b)

/-- Two structures that differ only in materials with the same index at `w` (and in the wavelength they were left
at). -/
structure SameStruct (zs : SqrtOracle) (v : Vals) (w : ℝ) (s t : Structure) : Prop where
  data : ∃ l l', s.data = l.map .comp ∧ t.data = l'.map .comp ∧ List.Forall₂ (SameComp zs v w) l l'
  solvent : SameSolvent zs v w s.solvent t.solvent
  reverse : s.reverse = t.reverse
  contract : s.contract = t.contract
  ema : s.ema = t.ema
  dp : s.dp = t.dp

end Verif.RModel
