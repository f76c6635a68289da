import Verif.TMM.PropsSmooth
import Verif.TMM.PropsThickness
import Mathlib.Analysis.InnerProductSpace.Calculus
import Mathlib.Analysis.SpecialFunctions.Complex.LogDeriv

/-!
# First order in the thickness of a film (for C139)
-/

namespace Verif.TMM

open Complex (I)
open Filter Topology

/-- The Airy formula at thickness zero, to first order. -/
theorem airy_slope {a b : ℂ} (h : 1 + a * b ≠ 0) (κ : ℂ) :
    HasDerivAt (fun d : ℝ => (a + b * Complex.exp (κ * d)) / (1 + a * b * Complex.exp (κ * d)))
      (κ * (b * (1 - a ^ 2) / (1 + a * b) ^ 2)) 0 := by
  have he : HasDerivAt (fun d : ℝ => Complex.exp (κ * d)) κ 0 := by
    have h1 : HasDerivAt (fun d : ℝ => κ * (d : ℂ)) κ 0 := by
      simpa using (Complex.ofRealCLM.hasDerivAt (x := (0 : ℝ))).const_mul κ
    simpa using h1.cexp
  have hN := (he.const_mul b).const_add a
  have hD := (he.const_mul (a * b)).const_add 1
  have h0 : 1 + a * b * Complex.exp (κ * ((0 : ℝ) : ℂ)) ≠ 0 := by simpa using h
  refine (hN.fun_div hD h0).congr_deriv ?_
  simp only [Complex.ofReal_zero, mul_zero, Complex.exp_zero, mul_one]
  field_simp
  ring

/-- Value and logarithmic slope of the Airy formula in terms of admittances. -/
theorem airy_admittance {Y0 Y1 Y2 : ℂ} (h1 : Y1 ≠ 0) (h01 : Y0 + Y1 ≠ 0) (h12 : Y1 + Y2 ≠ 0) (h02 : Y0 + Y2 ≠ 0)
    (hne : Y0 - Y2 ≠ 0) :
    let a := (Y0 - Y1) / (Y0 + Y1)
    let b := (Y1 - Y2) / (Y1 + Y2)
    1 + a * b ≠ 0 ∧ (a + b) / (1 + a * b) = (Y0 - Y2) / (Y0 + Y2) ∧
    b * (1 - a ^ 2) / (1 + a * b) ^ 2 =
      (Y0 - Y2) / (Y0 + Y2) * (Y0 * (Y1 ^ 2 - Y2 ^ 2) / (Y1 * (Y0 ^ 2 - Y2 ^ 2))) := by
  intro a b
  have e : 1 + a * b = 2 * Y1 * (Y0 + Y2) / ((Y0 + Y1) * (Y1 + Y2)) := by
    simp only [a, b]; field_simp; ring
  have hsq : Y0 ^ 2 - Y2 ^ 2 ≠ 0 := by
    rw [show Y0 ^ 2 - Y2 ^ 2 = (Y0 + Y2) * (Y0 - Y2) by ring]
    exact mul_ne_zero h02 hne
  refine ⟨?_, ?_, ?_⟩
  · rw [e]
    exact div_ne_zero (mul_ne_zero (mul_ne_zero two_ne_zero h1) h02) (mul_ne_zero h01 h12)
  · rw [e]; simp only [a, b]; field_simp; ring
  · rw [e, show Y0 ^ 2 - Y2 ^ 2 = (Y0 + Y2) * (Y0 - Y2) by ring]
    simp only [a, b]; field_simp; ring

/-- Logarithmic slope of `ρ = r_p / r_s` in the thickness (nm) of a film of index `n` on a substrate of index
`nb`, at thickness zero. -/
noncomputable def drude (n₀ θ lam : ℝ) (nb n : ℂ) : ℂ :=
  -(4 * Real.pi * I / lam) * (n₀ * Real.cos θ * Real.sin θ ^ 2 * nb ^ 2 /
    ((nb ^ 2 - n₀ ^ 2) * (nb ^ 2 * Real.cos θ ^ 2 - n₀ ^ 2 * Real.sin θ ^ 2))) *
    ((n ^ 2 - n₀ ^ 2) * (n ^ 2 - nb ^ 2) / n ^ 2)

theorem drude_eq {n₀ c s lam q0 q1 q2 n nb : ℂ} (hn₀ : n₀ ≠ 0) (hn : n ≠ 0) (hb : nb ≠ 0) (hq1 : q1 ≠ 0)
    (hcs : s ^ 2 + c ^ 2 = 1) (h0 : q0 = n₀ * c) (h1 : q1 ^ 2 = n ^ 2 - (n₀ * s) ^ 2)
    (h2 : q2 ^ 2 = nb ^ 2 - (n₀ * s) ^ 2) (hne : nb ^ 2 - n₀ ^ 2 ≠ 0)
    (hbr : nb ^ 2 * c ^ 2 - n₀ ^ 2 * s ^ 2 ≠ 0) (hl : lam ≠ 0) :
    (4 * Real.pi * I * q1 / lam) * ((q0 / n₀ ^ 2) * ((q1 / n ^ 2) ^ 2 - (q2 / nb ^ 2) ^ 2) /
        ((q1 / n ^ 2) * ((q0 / n₀ ^ 2) ^ 2 - (q2 / nb ^ 2) ^ 2)) -
      q0 * (q1 ^ 2 - q2 ^ 2) / (q1 * (q0 ^ 2 - q2 ^ 2))) =
    -(4 * Real.pi * I / lam) * (n₀ * c * s ^ 2 * nb ^ 2 /
      ((nb ^ 2 - n₀ ^ 2) * (nb ^ 2 * c ^ 2 - n₀ ^ 2 * s ^ 2))) * ((n ^ 2 - n₀ ^ 2) * (n ^ 2 - nb ^ 2) / n ^ 2) := by
  have e1 : q0 ^ 2 - q2 ^ 2 = -(nb ^ 2 - n₀ ^ 2) := by
    rw [h0, h2]; linear_combination n₀ ^ 2 * hcs
  have e2 : (q0 / n₀ ^ 2) ^ 2 - (q2 / nb ^ 2) ^ 2 =
      (nb ^ 2 - n₀ ^ 2) * (nb ^ 2 * c ^ 2 - n₀ ^ 2 * s ^ 2) / (n₀ ^ 2 * nb ^ 4) := by
    rw [div_pow, div_pow, h0, h2]
    field_simp
    linear_combination (n₀ ^ 2 * nb ^ 2) * hcs
  have e3 : (q1 / n ^ 2) ^ 2 - (q2 / nb ^ 2) ^ 2 =
      (n ^ 2 - (n₀ * s) ^ 2) / n ^ 4 - (nb ^ 2 - (n₀ * s) ^ 2) / nb ^ 4 := by
    rw [div_pow, div_pow, h1, h2]; ring
  have e4 : q1 ^ 2 - q2 ^ 2 = n ^ 2 - nb ^ 2 := by rw [h1, h2]; ring
  rw [e1, e2, e3, e4, h0]
  have hc2 : c ^ 2 = 1 - s ^ 2 := by linear_combination hcs
  generalize hA : nb ^ 2 - n₀ ^ 2 = A at *
  generalize hB : nb ^ 2 * c ^ 2 - n₀ ^ 2 * s ^ 2 = B at *
  field_simp
  linear_combination (-(c * n ^ 2 * (n ^ 2 - nb ^ 2))) * hB + (c * n ^ 2 * (n ^ 2 - nb ^ 2) * nb ^ 2) * hc2

end Verif.TMM
