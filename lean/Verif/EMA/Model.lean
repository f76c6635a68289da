import Verif.Base

/-!
# Model of /repo/refellips/structureSE.py, lines 858-922

The module level function `overall_ri`.  Simplification: the arguments are complex numbers (as in
all calls made by the package); overflow is not modelled.
-/

namespace Verif.EMA

/-- `(1 - vf_B) * E_a + vf_B * E_b`.  structureSE.py:886-887. -/
noncomputable def linearE (Ea Eb : ℂ) (f : ℝ) : ℂ := (1 - f) * Ea + f * Eb

/-- Maxwell-Garnett rule, including the replacement of a non-finite quotient by 0.
structureSE.py:889-897. -/
noncomputable def garnettE (Ea Eb : ℂ) (f L : ℝ) : ℂ :=
  let top := Ea + (L * (1 - f) + f) * (Eb - Ea)
  let bottom := Ea + L * (1 - f) * (Eb - Ea)
  let v := match cdiv top bottom with
    | some v => v
    | none => 0
  Ea * v

/-- `b` of the Bruggeman rule.  structureSE.py:903-905. -/
noncomputable def bruggemanB (Ea Eb : ℂ) (f L : ℝ) : ℂ :=
  Ea * ((1 - f) - L) + Eb * (f - L)

/-- Argument of the square root of the Bruggeman rule.  structureSE.py:911-914. -/
noncomputable def bruggemanD (Ea Eb : ℂ) (f L : ℝ) : ℂ :=
  bruggemanB Ea Eb f L ^ 2 - 4 * (L - 1) * (Ea * Eb * L)

/-- Bruggeman rule, including the replacement of a non-finite value by 0.  `σ`: sign of zero
seen by the square root.  structureSE.py:899-917. -/
noncomputable def bruggemanE (σ : Bool) (Ea Eb : ℂ) (f L : ℝ) : ℂ :=
  let v := cdiv (bruggemanB Ea Eb f L + npSqrt σ (bruggemanD Ea Eb f L)) (2 * (1 - L))
  match v with
  | some v => v
  | none => 0

/-- `overall_ri`.  `σ`: signs of zero seen by the square root inside the Bruggeman rule and by the
final one.  structureSE.py:858-922. -/
noncomputable def overallRi (σ : Bool × Bool) (riA riB : ℂ) (vfB : ℝ) (ema : String) (L : ℝ) :
    Except PyErr ℂ :=
  let Ea := riA ^ 2
  let Eb := riB ^ 2
  if ema = "linear" then .ok (npSqrt σ.2 (linearE Ea Eb vfB))
  else if ema = "maxwell-garnett" then .ok (npSqrt σ.2 (garnettE Ea Eb vfB L))
  else if ema = "bruggeman" then .ok (npSqrt σ.2 (bruggemanE σ.1 Ea Eb vfB L))
  else .error .runtimeError

/-- `overall_ri` when an index may be `nan`: the linear rule gives `nan`, Maxwell-Garnett gives
`nan` for a `nan` first material and 0 for a `nan` second one, Bruggeman gives 0
(`np.where(np.isfinite(v), v, 0)`).  structureSE.py:858-922. -/
noncomputable def overallRiO (σ : Bool × Bool) (riA riB : Option ℂ) (vfB : ℝ) (ema : String)
    (L : ℝ) : Except PyErr (Option ℂ) :=
  match riA, riB with
  | some a, some b => (overallRi σ a b vfB ema L).map some
  | a, _ =>
    if ema = "linear" then .ok none
    else if ema = "maxwell-garnett" then .ok (match a with | some _ => some 0 | none => none)
    else if ema = "bruggeman" then .ok (some 0)
    else .error .runtimeError

end Verif.EMA
