import Mathlib.Analysis.SpecialFunctions.Exponential
import Mathlib.Analysis.Calculus.Deriv.Add
import Mathlib.Analysis.SpecificLimits.Basic

/-! # Many small steps make an exponential (C156) -/

namespace Verif

open Filter Topology

/-- Powers of nearby elements. -/
theorem norm_pow_sub_pow_le {A : Type*} [NormedRing A] [NormOneClass A] {a b : A} {M : ℝ} (hM : 1 ≤ M)
    (ha : ‖a‖ ≤ M) (hb : ‖b‖ ≤ M) : ∀ n : ℕ, ‖a ^ n - b ^ n‖ ≤ n * ‖a - b‖ * M ^ n := by
  intro n
  induction n with
  | zero => simp
  | succ n ih =>
    have h0 : 0 ≤ M := zero_le_one.trans hM
    have e : a ^ (n + 1) - b ^ (n + 1) = a ^ n * (a - b) + (a ^ n - b ^ n) * b := by
      rw [pow_succ, pow_succ]; noncomm_ring
    have h1 : ‖a ^ n‖ ≤ M ^ n := (norm_pow_le a n).trans (pow_le_pow_left₀ (norm_nonneg _) ha n)
    calc ‖a ^ (n + 1) - b ^ (n + 1)‖ ≤ ‖a ^ n * (a - b)‖ + ‖(a ^ n - b ^ n) * b‖ := by rw [e]; exact norm_add_le _ _
      _ ≤ M ^ n * ‖a - b‖ + n * ‖a - b‖ * M ^ n * M := by
          refine add_le_add ((norm_mul_le _ _).trans (mul_le_mul_of_nonneg_right h1 (norm_nonneg _))) ?_
          exact (norm_mul_le _ _).trans (mul_le_mul ih hb (norm_nonneg _) (by positivity))
      _ ≤ M ^ n * M * ‖a - b‖ + n * ‖a - b‖ * M ^ n * M := by
          gcongr
          exact le_mul_of_one_le_right (by positivity) hM
      _ = (n + 1 : ℕ) * ‖a - b‖ * M ^ (n + 1) := by push_cast; ring

/-- `F (D / N) ^ N` tends to `exp (D G)` if `F` starts like `1 + x G`. -/
theorem tendsto_pow_exp {A : Type*} [NormedRing A] [NormOneClass A] [NormedAlgebra ℝ A] [CompleteSpace A]
    {F : ℝ → A} {G : A} (h0 : F 0 = 1) (hF : HasDerivAt F G 0) (D : ℝ) :
    Tendsto (fun N : ℕ => F (D / N) ^ N) atTop (𝓝 (NormedSpace.exp (D • G))) := by
  set E : ℝ → A := fun x => NormedSpace.exp (x • G) with hE
  have hE0 : E 0 = 1 := by simp [hE]
  have hE' : HasDerivAt E G 0 := by simpa using hasDerivAt_exp_smul_const (𝕂 := ℝ) G 0
  have hpow : ∀ N : ℕ, N ≠ 0 → E (D / N) ^ N = NormedSpace.exp (D • G) := by
    intro N hN
    have hne : (N : ℝ) ≠ 0 := by exact_mod_cast hN
    let _ : NormedAlgebra ℚ A := NormedAlgebra.restrictScalars ℚ ℝ A
    rw [hE, ← NormedSpace.exp_nsmul, ← Nat.cast_smul_eq_nsmul ℝ, smul_smul, mul_div_cancel₀ _ hne]
  -- the difference is of higher order
  have hd : HasDerivAt (fun x => F x - E x) 0 0 := (hF.sub hE').congr_deriv (sub_self G)
  have hlim : Tendsto (fun N : ℕ => D / (N : ℝ)) atTop (𝓝 0) := tendsto_const_div_atTop_nhds_zero_nat D
  set c := ‖G‖ + 1 with hc
  have hbd : ∀ {H : ℝ → A}, H 0 = 1 → HasDerivAt H G 0 → ∀ᶠ x in 𝓝 (0 : ℝ), ‖H x‖ ≤ 1 + c * |x| := by
    intro H h0 hH
    have := hH.isLittleO
    rw [Asymptotics.isLittleO_iff] at this
    filter_upwards [this (by norm_num : (0 : ℝ) < 1)] with x hx
    simp only [sub_zero, h0, one_mul, Real.norm_eq_abs] at hx
    have e : H x = (H x - 1 - x • G) + (1 + x • G) := by abel
    calc ‖H x‖ ≤ ‖H x - 1 - x • G‖ + (‖(1 : A)‖ + ‖x • G‖) := by
          conv_lhs => rw [e]
          exact (norm_add_le _ _).trans (add_le_add le_rfl (norm_add_le _ _))
      _ ≤ |x| + (1 + |x| * ‖G‖) := by rw [norm_one, norm_smul, Real.norm_eq_abs]; gcongr
      _ = 1 + c * |x| := by rw [hc]; ring
  rw [Metric.tendsto_nhds]
  intro ε hε
  set K := (|D| + 1) * Real.exp (c * |D|) with hK
  have hKpos : 0 < K := by positivity
  have hsmall : ∀ᶠ x in 𝓝 (0 : ℝ), ‖F x - E x‖ ≤ ε / (2 * K) * |x| := by
    have := hd.isLittleO
    rw [Asymptotics.isLittleO_iff] at this
    filter_upwards [this (by positivity : (0 : ℝ) < ε / (2 * K))] with x hx
    simpa [h0, hE0] using hx
  filter_upwards [hlim.eventually hsmall, hlim.eventually (hbd h0 hF), hlim.eventually (hbd hE0 hE'),
    eventually_ne_atTop 0] with N h1 h2 h3 hN
  have hN' : (N : ℝ) ≠ 0 := by exact_mod_cast hN
  have hNp : (0 : ℝ) < N := by positivity
  have hc0 : 0 ≤ c := by positivity
  rw [dist_eq_norm, ← hpow N hN]
  have hM : (1 + c * |D / N|) ^ N ≤ Real.exp (c * |D|) := by
    have e1 : 1 + c * |D / N| ≤ Real.exp (c * |D / N|) := by linarith [Real.add_one_le_exp (c * |D / N|)]
    calc (1 + c * |D / N|) ^ N ≤ Real.exp (c * |D / N|) ^ N := pow_le_pow_left₀ (by positivity) e1 N
      _ = Real.exp (c * |D|) := by
          rw [← Real.exp_nat_mul, abs_div, Nat.abs_cast]
          congr 1; field_simp
  calc ‖F (D / N) ^ N - E (D / N) ^ N‖ ≤ N * ‖F (D / N) - E (D / N)‖ * (1 + c * |D / N|) ^ N :=
        norm_pow_sub_pow_le (le_add_of_nonneg_right (by positivity)) h2 h3 N
    _ ≤ N * (ε / (2 * K) * |D / N|) * Real.exp (c * |D|) := by gcongr
    _ = ε / (2 * K) * (|D| * Real.exp (c * |D|)) := by
        rw [abs_div, Nat.abs_cast]; field_simp
    _ ≤ ε / (2 * K) * K := by
        gcongr
        rw [hK]; gcongr; linarith
    _ = ε / 2 := by field_simp
    _ < ε := by linarith

end Verif
