import Mathlib.Analysis.Complex.Basic
import Mathlib.Analysis.Calculus.FDeriv.Basic

/-!
# Causal response functions

A dielectric function is the response of a material to a field.  That the material does not react before
the field acts means (Titchmarsh) that the dielectric function is the boundary value of a function which is
holomorphic above the real axis; this is equivalent to the Kramers-Kronig relations between its real and
imaginary part.
-/

namespace Verif.Disp
open Filter Topology

/-- Energies with positive imaginary part. -/
def upper : Set ℂ := {z | 0 < z.im}

/-- `F` is holomorphic above the real axis, tends to `einf` at infinity, and belongs to a real response:
`F (-conj z) = conj (F z)`. -/
structure Causal (F : ℂ → ℂ) (einf : ℝ) : Prop where
  holo : DifferentiableOn ℂ F upper
  atInf : Tendsto F (cocompact ℂ ⊓ 𝓟 upper) (𝓝 (einf : ℂ))
  real : ∀ z ∈ upper, F (-(starRingEnd ℂ) z) = (starRingEnd ℂ) (F z)

/-- The value of `F` on the real axis, approached from above. -/
def Boundary (F : ℂ → ℂ) (e : ℝ) (v : ℂ) : Prop := Tendsto F (𝓝[upper] (e : ℂ)) (𝓝 v)

end Verif.Disp
