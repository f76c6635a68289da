import Verif.TMM.GradedSpec

/-!
# Specification: periodic stacks (C157)

`X` and `Y` are the tangential fields, as for graded layers.
-/

namespace Verif.TMM

/-- `N` periods of the films in a cell. -/
def repeated (cell : List (ℂ × ℝ)) (N : ℕ) : List (ℂ × ℝ) := (List.replicate N cell).flatten

/-- A Bloch wave: tangential fields that one period multiplies by `κ` on the way in. -/
def BlochWave (pol : Pol) (ms : List Medium) (κ : ℂ) (u : ℂ × ℂ) : Prop := u ≠ 0 ∧ Carries pol u ms (κ • u)

/-- A light wave of amplitude 1 in the fronting medium and a reflected one of amplitude `r` go over, through the
films `pre`, into a multiple of the fields `u`. -/
def FeedsInto (pol : Pol) (n₀ θ : ℝ) (pre : List Medium) (u : ℂ × ℂ) (r : ℂ) : Prop :=
  ∃ c : ℂ, Carries pol (tanField pol ⟨n₀, Complex.cos θ, 0⟩ 1 r) pre (c • u)

/-- Ratio of the tangential magnetic and electric field of a plane wave (its inverse for p polarisation). -/
noncomputable def admittance (pol : Pol) (m : Medium) : ℂ :=
  match pol with
  | .s => m.n * m.c
  | .p => m.c / m.n

/-- Cosine of the Bloch phase of a period of two layers. -/
noncomputable def blochCos (pol : Pol) (m m' : Medium) : ℂ :=
  Complex.cos m.δ * Complex.cos m'.δ -
    (admittance pol m / admittance pol m' + admittance pol m' / admittance pol m) / 2 *
      (Complex.sin m.δ * Complex.sin m'.δ)

end Verif.TMM
