import Verif.TMM.PropsCont

/-! # How an error of the amplitudes shows in psi and delta -/

namespace Verif.TMM

theorem ratio_error {a b A B : ℂ} {x : ℝ} (hB : B ≠ 0) (ha : ‖a - A‖ ≤ x) (hb : ‖b - B‖ ≤ x) (hx : x ≤ ‖B‖ / 2) :
    b ≠ 0 ∧ ‖a / b - A / B‖ ≤ 2 * (‖A‖ + ‖B‖) / ‖B‖ ^ 2 * x := by
  have hB0 : 0 < ‖B‖ := norm_pos_iff.mpr hB
  have hx0 : 0 ≤ x := (norm_nonneg _).trans ha
  have hbl : ‖B‖ / 2 ≤ ‖b‖ := by
    have := norm_sub_norm_le B b
    rw [norm_sub_rev] at this
    linarith
  have hb0 : b ≠ 0 := norm_pos_iff.mp (by linarith)
  refine ⟨hb0, ?_⟩
  rw [show a / b - A / B = ((a - A) * B - A * (b - B)) / (b * B) by field_simp; ring, norm_div, norm_mul b,
    div_le_iff₀ (by positivity)]
  have h1 : ‖(a - A) * B - A * (b - B)‖ ≤ (‖A‖ + ‖B‖) * x := by
    refine (norm_sub_le _ _).trans ?_
    rw [norm_mul, norm_mul]
    nlinarith [norm_nonneg A]
  refine h1.trans ?_
  rw [show 2 * (‖A‖ + ‖B‖) / ‖B‖ ^ 2 * x * (‖b‖ * ‖B‖) = (‖A‖ + ‖B‖) * x * (2 * ‖b‖ / ‖B‖) by field_simp]
  refine le_mul_of_one_le_right (by positivity) ?_
  rw [le_div_iff₀ hB0]
  linarith

theorem arctan_lip (x y : ℝ) : |Real.arctan x - Real.arctan y| ≤ |x - y| := by
  have := convex_univ.norm_image_sub_le_of_norm_hasDerivWithin_le (f := Real.arctan) (f' := fun x => 1 / (1 + x ^ 2))
    (C := 1) (s := Set.univ) (x := y) (y := x) (fun z _ => (Real.hasDerivAt_arctan z).hasDerivWithinAt) (fun z _ => by
      rw [Real.norm_eq_abs, abs_of_pos (by positivity), div_le_one (by positivity)]
      nlinarith [sq_nonneg z]) trivial trivial
  simpa [Real.norm_eq_abs] using this

theorem unit_error {y Y : ℂ} (hY : Y ≠ 0) (hy : y ≠ 0) : ‖y / (‖y‖ : ℂ) - Y / (‖Y‖ : ℂ)‖ ≤ 2 / ‖Y‖ * ‖y - Y‖ := by
  have hY0 : 0 < ‖Y‖ := norm_pos_iff.mpr hY
  have hy0 : 0 < ‖y‖ := norm_pos_iff.mpr hy
  have c1 : (‖y‖ : ℂ) ≠ 0 := by exact_mod_cast hy0.ne'
  have c2 : (‖Y‖ : ℂ) ≠ 0 := by exact_mod_cast hY0.ne'
  rw [show y / (‖y‖ : ℂ) - Y / (‖Y‖ : ℂ) = ((y - Y) + y / (‖y‖ : ℂ) * ((‖Y‖ - ‖y‖ : ℝ) : ℂ)) / (‖Y‖ : ℂ) by
    push_cast; field_simp; ring, norm_div, Complex.norm_real (‖Y‖), norm_norm,
    show 2 / ‖Y‖ * ‖y - Y‖ = 2 * ‖y - Y‖ / ‖Y‖ by ring]
  refine div_le_div_of_nonneg_right ?_ hY0.le
  refine (norm_add_le (y - Y) _).trans ?_
  rw [norm_mul, norm_div, Complex.norm_real, norm_norm, div_self hy0.ne', one_mul, Complex.norm_real, Real.norm_eq_abs,
    norm_sub_rev y Y]
  linarith [abs_norm_sub_norm_le Y y]

/-- Amplitudes within `x` of `Rs`, `Rp` give psi and delta (as an angle) within a multiple of `x`. -/
theorem obs_error {Rs Rp : ℂ} (hRs : Rs ≠ 0) (hRp : Rp ≠ 0) : ∃ C ε : ℝ, 0 ≤ C ∧ 0 < ε ∧
    ∀ {rs rp ts tp : ℂ} {x : ℝ}, ‖rs - Rs‖ ≤ x → ‖rp - Rp‖ ≤ x → x ≤ ε → ∀ (σ : Bool) (off : ℝ) (refl : Bool), ∃ ψ Δ,
      psiDelta σ refl off ⟨some (rs, ts), some (rp, tp)⟩ = (some ψ, some Δ) ∧
      |ψ - Real.arctan (‖Rp‖ / ‖Rs‖) * 180 / Real.pi| ≤ C * x ∧
      |Real.cos (rad (Δ - off)) - Real.cos (Rs / Rp).arg| ≤ C * x ∧
      (refl = false → |Real.sin (rad (Δ - off)) - Real.sin (Rs / Rp).arg| ≤ C * x) := by
  have hpi := Real.pi_pos
  have hq : Rs / Rp ≠ 0 := div_ne_zero hRs hRp
  have ns : 0 < ‖Rs‖ := norm_pos_iff.mpr hRs
  have np : 0 < ‖Rp‖ := norm_pos_iff.mpr hRp
  set E1 := 2 * (‖Rp‖ + ‖Rs‖) / ‖Rs‖ ^ 2 with hE1
  set E2 := 2 / ‖Rs / Rp‖ * (2 * (‖Rs‖ + ‖Rp‖) / ‖Rp‖ ^ 2) with hE2
  have e1 : 0 ≤ E1 := by positivity
  have e2 : 0 ≤ E2 := by positivity
  refine ⟨E1 * (180 / Real.pi) + E2, min ‖Rs‖ ‖Rp‖ / 2, by positivity, by have := lt_min ns np; positivity, ?_⟩
  intro rs rp ts tp x d1 d2 hx σ off refl
  have hx0 : 0 ≤ x := (norm_nonneg _).trans d1
  have hxs : x ≤ ‖Rs‖ / 2 := hx.trans (by linarith [min_le_left ‖Rs‖ ‖Rp‖])
  have hxp : x ≤ ‖Rp‖ / 2 := hx.trans (by linarith [min_le_right ‖Rs‖ ‖Rp‖])
  obtain ⟨hrs, q1⟩ := ratio_error hRs d2 d1 hxs
  obtain ⟨hrp, q2⟩ := ratio_error hRp d1 d2 hxp
  set y : ℂ := -(rs / rp) with hy
  have hy0 : y ≠ 0 := neg_ne_zero.mpr (div_ne_zero hrs hrp)
  have erad : ∀ x : ℝ, rad (x * (180 / Real.pi) + off - off) = x := by
    intro x; unfold rad; field_simp; ring
  have hu : ‖y / (‖y‖ : ℂ) - -(Rs / Rp) / (‖-(Rs / Rp)‖ : ℂ)‖ ≤ E2 * x := by
    refine (unit_error (neg_ne_zero.mpr hq) hy0).trans ?_
    rw [norm_neg, hy, neg_sub_neg, norm_sub_rev, hE2, mul_assoc]
    exact mul_le_mul_of_nonneg_left q2 (by positivity)
  have hre : |y.re / ‖y‖ - (-(Rs / Rp)).re / ‖-(Rs / Rp)‖| ≤ E2 * x := by
    have := (Complex.abs_re_le_norm _).trans hu
    rwa [Complex.sub_re, Complex.div_ofReal_re, Complex.div_ofReal_re] at this
  have him : |y.im / ‖y‖ - (-(Rs / Rp)).im / ‖-(Rs / Rp)‖| ≤ E2 * x := by
    have := (Complex.abs_im_le_norm _).trans hu
    rwa [Complex.sub_im, Complex.div_ofReal_im, Complex.div_ofReal_im] at this
  have big : E2 * x ≤ (E1 * (180 / Real.pi) + E2) * x :=
    mul_le_mul_of_nonneg_right (le_add_of_nonneg_left (by positivity)) hx0
  refine ⟨Real.arctan ‖rp / rs‖ * (180 / Real.pi),
    reflectRad refl (npAngle σ y + Real.pi) * (180 / Real.pi) + off, ?_, ?_, ?_, ?_⟩
  · simp only [psiDelta]
    rw [deltaRad_of_ne hrs hrp, psiRad, if_neg hrs]
    rfl
  · rw [mul_div_assoc, ← sub_mul, abs_mul, abs_of_pos (by positivity : 0 < 180 / Real.pi), ← norm_div]
    have k1 : |Real.arctan ‖rp / rs‖ - Real.arctan ‖Rp / Rs‖| ≤ E1 * x :=
      (arctan_lip _ _).trans ((abs_norm_sub_norm_le _ _).trans q1)
    calc _ ≤ E1 * x * (180 / Real.pi) := mul_le_mul_of_nonneg_right k1 (by positivity)
      _ ≤ _ := by nlinarith
  · rw [erad]
    have k1 : Real.cos (reflectRad refl (npAngle σ y + Real.pi)) = -(y.re / ‖y‖) := by
      rw [← (cis_npAngle (σ := σ) hy0).1, ← Real.cos_add_pi]
      generalize npAngle σ y + Real.pi = z
      unfold reflectRad
      split_ifs
      · rw [Real.cos_two_pi_sub]
      · rfl
      · rfl
    rw [k1, Complex.cos_arg hq, show (Rs / Rp).re / ‖Rs / Rp‖ = -((-(Rs / Rp)).re / ‖-(Rs / Rp)‖) by
        rw [norm_neg, Complex.neg_re]; ring, neg_sub_neg, abs_sub_comm]
    exact hre.trans big
  · rintro rfl
    rw [erad]
    have k1 : Real.sin (reflectRad false (npAngle σ y + Real.pi)) = -(y.im / ‖y‖) := by
      rw [← (cis_npAngle (σ := σ) hy0).2, ← Real.sin_add_pi]
      rfl
    rw [k1, Complex.sin_arg, show (Rs / Rp).im / ‖Rs / Rp‖ = -((-(Rs / Rp)).im / ‖-(Rs / Rp)‖) by
        rw [norm_neg, Complex.neg_im]; ring, neg_sub_neg, abs_sub_comm]
    exact him.trans big

end Verif.TMM
