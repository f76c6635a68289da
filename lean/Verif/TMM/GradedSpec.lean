import Verif.TMM.Spec
import Mathlib.Analysis.Calculus.Deriv.Basic
import Mathlib.Order.Filter.Bases.Basic

/-!
# Specification: a layer whose index varies with depth (C155)

`X` and `Y` are the tangential fields: the electric and the magnetic field for s polarisation, the magnetic and
the electric field for p polarisation (in units in which the vacuum impedance is 1).
-/

namespace Verif.TMM

open Complex (I)
open Set

/-- Tangential fields of a forward wave `v` and a backward wave `w` in a homogeneous medium, as in `Tangential`. -/
def tanField (pol : Pol) (m : Medium) (v w : ℂ) : ℂ × ℂ :=
  match pol with
  | .s => (v + w, m.n * m.c * (v - w))
  | .p => (m.n * (v + w), m.c * (v - w))

/-- First coefficient of Maxwell's equations in a stratified medium, `X' = i k a Y`. -/
def coefA (pol : Pol) (n : ℂ) : ℂ :=
  match pol with
  | .s => 1
  | .p => n ^ 2

/-- Second coefficient, `Y' = i k b X`; `s` is the conserved transverse component `n₀ sin θ₀`. -/
noncomputable def coefB (pol : Pol) (s n : ℂ) : ℂ :=
  match pol with
  | .s => n ^ 2 - s ^ 2
  | .p => 1 - (s / n) ^ 2

/-- Maxwell's equations in a layer of thickness `D` (nm) whose index at depth `z` is `ν z`. -/
structure GradedFields (pol : Pol) (s : ℂ) (lam D : ℝ) (ν : ℝ → ℂ) (u : ℝ → ℂ × ℂ) : Prop where
  dX : ∀ z ∈ Icc 0 D, HasDerivWithinAt (fun z => (u z).1)
    (I * (2 * Real.pi / lam : ℝ) * coefA pol (ν z) * (u z).2) (Icc 0 D) z
  dY : ∀ z ∈ Icc 0 D, HasDerivWithinAt (fun z => (u z).2)
    (I * (2 * Real.pi / lam : ℝ) * coefB pol s (ν z) * (u z).1) (Icc 0 D) z

/-- Homogeneous films `ms` carry the tangential fields `u` at their front over to the fields `u'` behind them. -/
def Carries (pol : Pol) (u : ℂ × ℂ) : List Medium → ℂ × ℂ → Prop
  | [], u' => u = u'
  | m :: ms, u' => ∃ v w, u = tanField pol m v w ∧
      Carries pol (tanField pol m (v * Complex.exp (I * m.δ)) (w * Complex.exp (-(I * m.δ)))) ms u'

/-- A solution of the optical boundary value problem for a graded layer between the films `pre` and `post`:
an incoming wave of amplitude 1 in the fronting medium, a reflected one of amplitude `r`, and one of amplitude `t`
that leaves into the backing medium. -/
def GradedSolves (pol : Pol) (n₀ θ lam D : ℝ) (ν : ℝ → ℂ) (pre post : List Medium) (nb cb r t : ℂ) : Prop :=
  ∃ u : ℝ → ℂ × ℂ, GradedFields pol (n₀ * Complex.sin θ) lam D ν u ∧
    Carries pol (tanField pol ⟨n₀, Complex.cos θ, 0⟩ 1 r) pre (u 0) ∧
    Carries pol (u D) post (tanField pol ⟨nb, cb, 0⟩ t 0)

/-- `slices` (thickness, depth at which the index is taken) cut the layer from depth `z` to `D` into pieces of a
thickness of at most `η`; the index of a piece is taken anywhere in it. -/
def Slicing (η : ℝ) : ℝ → List (ℝ × ℝ) → ℝ → Prop
  | z, [], D => z = D
  | z, p :: rest, D => 0 ≤ p.1 ∧ p.1 ≤ η ∧ p.2 ∈ Icc z (z + p.1) ∧ Slicing η (z + p.1) rest D

/-- The films for a list of slices. -/
def sliceFilms (ν : ℝ → ℂ) (slices : List (ℝ × ℝ)) : List (ℂ × ℝ) := slices.map fun p => (ν p.2, p.1)

/-- `N` equal slices with the index in the middle of each. -/
noncomputable def equalSlices (D : ℝ) (N : ℕ) : List (ℝ × ℝ) :=
  (List.range N).map fun j : ℕ => (D / N, ((j : ℝ) + 1 / 2) * (D / N))

/-- Finer and finer slices; those whose index is exactly critical are left out. -/
def finer (s : ℂ) (ν : ℝ → ℂ) (D : ℝ) : Filter (List (ℝ × ℝ)) :=
  ⨅ η ∈ Ioi (0 : ℝ), Filter.principal {l | Slicing η 0 l D ∧ ∀ p ∈ l, ν p.2 ^ 2 ≠ s ^ 2}

end Verif.TMM
