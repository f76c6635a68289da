import Verif.Disp.Spec
import Mathlib.Analysis.Calculus.Deriv.Basic

/-! # Vocabulary for tables that are samples of a curve -/

namespace Verif.Disp

/-- Every row of the table is a point of the curve `f` (wavelength to index). -/
def Samples (tab : List (ℝ × ℝ × ℝ)) (f : ℝ → ℂ) : Prop := ∀ r ∈ tab, rowRI r = f r.1

/-- The slope of `f` changes by at most `M` per unit between `a` and `b` (for a curve with a second derivative: that
derivative is at most `M` in modulus). -/
def BendsAtMost (M : ℝ) (f : ℝ → ℝ) (a b : ℝ) : Prop :=
  ∃ f' : ℝ → ℝ, (∀ x ∈ Set.Icc a b, HasDerivWithinAt f (f' x) (Set.Icc a b) x) ∧
    ∀ x ∈ Set.Icc a b, ∀ y ∈ Set.Icc a b, |f' x - f' y| ≤ M * |x - y|

/-- The wavelength `w` lies between neighbouring rows that are at most `h` apart. -/
def Within (tab : List (ℝ × ℝ × ℝ)) (w h : ℝ) : Prop :=
  ∃ a b, Neighbours tab a b ∧ a.1 ≤ w ∧ w ≤ b.1 ∧ b.1 - a.1 ≤ h

end Verif.Disp
