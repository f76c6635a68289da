import Mathlib.Data.Complex.Basic
import Mathlib.Data.List.Pairwise

/-! # Specification vocabulary for dispersion curves (independent of the model) -/

namespace Verif.Disp

/-- Straight line through `(x0, y0)` and `(x1, y1)` evaluated at `x`. -/
noncomputable def lerp (x0 y0 x1 y1 x : ℝ) : ℝ := y0 + (y1 - y0) * ((x - x0) / (x1 - x0))

/-- A table `(wavelength, n, k)` with strictly increasing wavelengths. -/
def Increasing (tab : List (ℝ × ℝ × ℝ)) : Prop := tab.Pairwise fun a b => a.1 < b.1

/-- `a` and `b` are neighbouring rows of the table. -/
def Neighbours (tab : List (ℝ × ℝ × ℝ)) (a b : ℝ × ℝ × ℝ) : Prop :=
  ∃ pre post, tab = pre ++ a :: b :: post

/-- The index described by one row. -/
noncomputable def rowRI (r : ℝ × ℝ × ℝ) : ℂ := ⟨r.2.1, r.2.2⟩

end Verif.Disp
