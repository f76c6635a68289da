import Verif.TMM.PropsBare

/-! # C181: delta of absorbing surfaces -/

namespace Verif.TMM
open Complex (I)

/-- C181: at oblique incidence psi and delta of a bare absorbing substrate always have values; psi is at most 45 and delta,
before the offset, is strictly between 0 and 180 degrees.  So folding delta (`reflect_delta`) changes nothing. -/
theorem C181_half {rows : List Row} {nb : ℂ} {n₀ a wav : ℝ} (hr : RowsOf rows ⟨(n₀ : ℂ), [], nb⟩)
    (h : Physical ⟨(n₀ : ℂ), [], nb⟩ n₀ (rad a) wav) (hi : 0 < nb.im) (hs : Real.sin (rad a) ≠ 0)
    (zs : List Layer → ℝ → ℝ → Bool) (off : ℝ) : ∃ ψ Δ, 0 < ψ ∧ ψ ≤ 45 ∧ 0 < Δ - off ∧ Δ - off < 180 ∧
      ∀ refl, (deltaPsiTMM zs [a] rows wav off refl).1 = .ok [(some ψ, some Δ)] := by
  have hpi := Real.pi_pos
  obtain ⟨rs, ts, rp, tp, h1, h2, hd1, hd2, e1, e2⟩ := bare_amps h
  obtain ⟨q1, q2⟩ := qOf_absorbing h.back.1 hi (n₀ * Real.sin (rad a))
  set q := qOf (n₀ * Real.sin (rad a)) nb
  have hc : 0 < n₀ * Real.cos (rad a) := mul_pos h.n₀_pos h.cos_pos
  have hs0 : n₀ * Real.sin (rad a) ≠ 0 := mul_ne_zero h.n₀_pos.ne' hs
  set c := n₀ * Real.cos (rad a)
  set s := n₀ * Real.sin (rad a)
  have hrs : rs ≠ 0 := by
    rintro rfl
    rw [zero_mul] at e1
    have := congrArg Complex.im e1
    simp at this
    exact q2.ne' this
  have hnum : (s : ℂ) ^ 2 - c * q ≠ 0 := by
    intro e
    have := congrArg Complex.im e
    rw [← Complex.ofReal_pow, Complex.sub_im, Complex.ofReal_im, Complex.im_ofReal_mul, Complex.zero_im] at this
    linarith [mul_pos hc q2]
  have hrp : rp ≠ 0 := by
    rintro rfl
    rw [zero_mul] at e2
    exact mul_ne_zero hrs hnum e2.symm
  obtain ⟨ψ, Δ, hv⟩ := (C14_finite_iff (off := off) hr h.nz h.lam_pos.ne' zs false).mpr
    ⟨_, rs, ts, rp, tp, coh_real rfl h.nz h.lam_pos.ne' _ _, h1, h2, hrs, hrp⟩
  obtain ⟨am, rs', ts', rp', tp', g1, g2, g3, g4, hψ0, hψ90, hΔ0, hΔ1⟩ := C14_encode_ratio hr h.nz h.lam_pos.ne' hv
  rw [coh_real_of rfl h.nz h.lam_pos.ne' g1, h1] at g2
  rw [coh_real_of rfl h.nz h.lam_pos.ne' g1, h2] at g3
  simp only [Option.some.injEq, Prod.mk.injEq] at g2 g3
  rw [← g2.1, ← g3.1] at g4
  set δ := rad (Δ - off) with hδ
  have htan : 0 < Real.tan (rad ψ) := by
    refine Real.tan_pos_of_pos_of_lt_pi_div_two (by unfold rad; positivity) ?_
    unfold rad
    have : ψ * (Real.pi / 180) < 90 * (Real.pi / 180) := mul_lt_mul_of_pos_right hψ90 (by positivity)
    linarith
  -- the ratio of the amplitudes has negative imaginary part
  have hρ : ((Real.tan (rad ψ) : ℝ) * Complex.exp (-(I * (δ : ℝ)))) * ((s : ℂ) ^ 2 + c * q) = (s : ℂ) ^ 2 - c * q := by
    rw [g4] at e2
    exact mul_left_cancel₀ hrs (by linear_combination e2)
  have hexp : Complex.exp (-(I * (δ : ℝ))) = ⟨Real.cos δ, -Real.sin δ⟩ := by
    rw [show -(I * (δ : ℂ)) = ((-δ : ℝ) : ℂ) * I by push_cast; ring, Complex.exp_mul_I, ← Complex.ofReal_cos,
      ← Complex.ofReal_sin]
    apply Complex.ext <;> simp [Complex.cos_ofReal_re, Complex.sin_ofReal_re, Complex.cos_ofReal_im, Complex.sin_ofReal_im]
  have hsin : 0 < Real.sin δ := by
    rw [hexp] at hρ
    have hre := congrArg Complex.re hρ
    have him := congrArg Complex.im hρ
    rw [← Complex.ofReal_pow] at hre him
    simp only [Complex.mul_re, Complex.mul_im, Complex.add_re, Complex.add_im, Complex.sub_re, Complex.sub_im,
      Complex.ofReal_re, Complex.ofReal_im, zero_mul, sub_zero, add_zero, zero_add, zero_sub] at hre him
    set t := Real.tan (rad ψ)
    set A := s ^ 2 + c * q.re
    set B := c * q.im with hB
    have hA : 0 < A := by positivity
    have hB0 : 0 < B := mul_pos hc q2
    have key : t * Real.sin δ * (A ^ 2 + B ^ 2) = 2 * s ^ 2 * B := by
      have e : s ^ 2 - c * q.re = 2 * s ^ 2 - A := by ring
      rw [e] at hre
      linear_combination B * hre - A * him
    have : 0 < t * Real.sin δ * (A ^ 2 + B ^ 2) := by rw [key]; positivity
    exact pos_of_mul_pos_right (pos_of_mul_pos_left this (by positivity)) htan.le
  have hδ0 : 0 ≤ δ := by rw [hδ]; unfold rad; positivity
  have hδ1 : δ ≤ 2 * Real.pi := by
    rw [hδ]; unfold rad
    calc (Δ - off) * (Real.pi / 180) ≤ 360 * (Real.pi / 180) := mul_le_mul_of_nonneg_right hΔ1 (by positivity)
      _ = 2 * Real.pi := by ring
  have hδ2 : 0 < δ ∧ δ < Real.pi := by
    constructor
    · rcases hδ0.lt_or_eq with e | e
      · exact e
      · rw [← e, Real.sin_zero] at hsin
        exact absurd hsin (lt_irrefl _)
    · by_contra hcon
      push Not at hcon
      have : 0 ≤ Real.sin (δ - Real.pi) := Real.sin_nonneg_of_nonneg_of_le_pi (by linarith) (by linarith)
      rw [Real.sin_sub_pi] at this
      linarith
  have hpos : 0 < Δ - off := by
    by_contra hcon
    push Not at hcon
    have : δ ≤ 0 := by rw [hδ]; unfold rad; exact mul_nonpos_of_nonpos_of_nonneg hcon (by positivity)
    linarith [hδ2.1]
  have hlt : Δ - off < 180 := by
    by_contra hcon
    push Not at hcon
    have : 180 * (Real.pi / 180) ≤ δ := by rw [hδ]; unfold rad; exact mul_le_mul_of_nonneg_right hcon (by positivity)
    linarith [hδ2.2]
  refine ⟨ψ, Δ, hψ0, (C113_psi_le hr h hv).2, hpos, hlt, fun refl => ?_⟩
  cases refl with
  | false => exact hv
  | true =>
    rw [(C15_reflect hv).1]
    simp only [List.map_cons, List.map_nil, Option.map_some]
    rw [min_eq_left (by linarith), sub_add_cancel]

/-- Non-vacuity: gold in air at 60 degrees. -/
example : Physical ⟨((1 : ℝ) : ℂ), [], ⟨0.2, 3.4⟩⟩ 1 (rad 60) 633 ∧ Real.sin (rad 60) ≠ 0 := by
  have hpi := Real.pi_pos
  have e : rad 60 = Real.pi / 3 := by unfold rad; ring
  refine ⟨physical_bare ⟨by norm_num, by norm_num⟩ one_pos ?_ (by norm_num), ?_⟩
  · rw [e, abs_of_pos (by positivity)]; linarith
  · rw [e, Real.sin_pi_div_three]; positivity

end Verif.TMM
