import Verif.TMM.GradedSpec

/-!
# Specification: a film made of many thin layers (C156)

`X` and `Y` are the tangential fields, as for graded layers.
-/

namespace Verif.TMM

open Complex (I)
open Set

/-- First coefficient of Maxwell's equations in a uniaxial medium whose optic axis is the normal of the layers,
`X' = i k a Y`; `εo`, `εe`: dielectric functions for electric fields parallel to the layers and along the normal. -/
def uniA (pol : Pol) (εo : ℂ) : ℂ :=
  match pol with
  | .s => 1
  | .p => εo

/-- Second coefficient, `Y' = i k b X`. -/
noncomputable def uniB (pol : Pol) (s εo εe : ℂ) : ℂ :=
  match pol with
  | .s => εo - s ^ 2
  | .p => 1 - s ^ 2 / εe

/-- Maxwell's equations in a uniaxial layer of thickness `D` (nm). -/
structure UniaxialFields (pol : Pol) (s : ℂ) (lam D : ℝ) (εo εe : ℂ) (u : ℝ → ℂ × ℂ) : Prop where
  dX : ∀ z ∈ Icc 0 D, HasDerivWithinAt (fun z => (u z).1)
    (I * (2 * Real.pi / lam : ℝ) * uniA pol εo * (u z).2) (Icc 0 D) z
  dY : ∀ z ∈ Icc 0 D, HasDerivWithinAt (fun z => (u z).2)
    (I * (2 * Real.pi / lam : ℝ) * uniB pol s εo εe * (u z).1) (Icc 0 D) z

/-- A solution of the optical boundary value problem for a uniaxial layer between the films `pre` and `post`. -/
def UniaxialSolves (pol : Pol) (n₀ θ lam D : ℝ) (εo εe : ℂ) (pre post : List Medium) (nb cb r t : ℂ) : Prop :=
  ∃ u : ℝ → ℂ × ℂ, UniaxialFields pol (n₀ * Complex.sin θ) lam D εo εe u ∧
    Carries pol (tanField pol ⟨n₀, Complex.cos θ, 0⟩ 1 r) pre (u 0) ∧
    Carries pol (u D) post (tanField pol ⟨nb, cb, 0⟩ t 0)

/-- Films of `N` periods of thickness `d`; a cell lists the index and the share of each layer of a period. -/
def periods (cell : List (ℂ × ℝ)) (d : ℝ) (N : ℕ) : List (ℂ × ℝ) :=
  (List.replicate N (cell.map fun c => (c.1, c.2 * d))).flatten

/-- Mean of the dielectric function over a cell. -/
def meanEps (cell : List (ℂ × ℝ)) : ℂ := (cell.map fun c => (c.2 : ℂ) * c.1 ^ 2).sum

/-- Mean of its inverse. -/
noncomputable def meanInvEps (cell : List (ℂ × ℝ)) : ℂ := (cell.map fun c => (c.2 : ℂ) / c.1 ^ 2).sum

end Verif.TMM
