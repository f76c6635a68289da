import Verif.TMM.Bridge

/-! Which square root the code takes, for a passive medium and real `n₀ sin θ₀`. -/

namespace Verif.TMM

open Complex (I)

/-- `n cos θ` as used by the code. -/
noncomputable def qOf (s : ℝ) (n : ℂ) : ℂ := n * root1m (s / n)

theorem qOf_sq (s : ℝ) {n : ℂ} (hn : n ≠ 0) : qOf s n ^ 2 = n ^ 2 - s ^ 2 := by
  rw [qOf, mul_pow, root1m_sq]; field_simp

theorem PassiveIndex.ne_zero {n : ℂ} (h : PassiveIndex n) : n ≠ 0 := by
  intro h0; have := h.1; simp [h0] at this

theorem qOf_absorbing {n : ℂ} (hr : 0 < n.re) (hi : 0 < n.im) (s : ℝ) :
    0 < (qOf s n).re ∧ 0 < (qOf s n).im := by
  have hn : n ≠ 0 := by intro h; simp [h] at hr
  have hsq := qOf_sq s hn
  have him : (qOf s n ^ 2).im = 2 * (n.re * n.im) := by
    rw [hsq]; simp [sq, ← Complex.ofReal_mul]; ring
  have hprod : (qOf s n).re * (qOf s n).im = n.re * n.im := by
    have : (qOf s n ^ 2).im = 2 * ((qOf s n).re * (qOf s n).im) := by simp [sq]; ring
    linarith
  have hnn : 0 < n.re * n.im := mul_pos hr hi
  -- the cosine is in the closed first quadrant
  have hc : 0 ≤ (root1m (s / n)).re ∧ 0 ≤ (root1m (s / n)).im := by
    unfold root1m
    have hnorm : 0 < Complex.normSq n := Complex.normSq_pos.mpr hn
    have hdim : ((s : ℂ) / n).im = -(s * n.im) / Complex.normSq n := by
      rw [Complex.div_im]; simp [neg_div]
    have hdre : ((s : ℂ) / n).re = (s * n.re) / Complex.normSq n := by
      rw [Complex.div_re]; simp
    rw [if_neg]
    · refine ⟨csqrt_re_nonneg _, csqrt_im_nonneg ?_⟩
      have : (1 - ((s : ℂ) / n) ^ 2).im = -(2 * (((s : ℂ) / n).re * ((s : ℂ) / n).im)) := by
        simp [sq]; ring
      rw [this, hdim, hdre]
      have : -(2 * (s * n.re / Complex.normSq n * (-(s * n.im) / Complex.normSq n)))
          = 2 * s ^ 2 * (n.re * n.im) / Complex.normSq n ^ 2 := by
        field_simp
      rw [this]; positivity
    · rintro ⟨h1, h2⟩
      rw [hdim] at h1
      have : s = 0 := by
        rw [div_eq_zero_iff] at h1
        rcases h1 with h1 | h1
        · have : s * n.im = 0 := by linarith
          rcases mul_eq_zero.mp this with h | h
          · exact h
          · linarith
        · linarith
      rw [this] at h2
      simp at h2
      linarith
  have him0 : 0 ≤ (qOf s n).im := by
    simp only [qOf, Complex.mul_im]
    have := mul_nonneg hr.le hc.2
    have := mul_nonneg hi.le hc.1
    linarith
  rcases him0.lt_or_eq with h | h
  · refine ⟨?_, h⟩
    by_contra hcon
    have : (qOf s n).re * (qOf s n).im ≤ 0 := mul_nonpos_of_nonpos_of_nonneg (not_lt.mp hcon) h.le
    linarith
  · rw [← h] at hprod; simp at hprod
    rcases hprod with h | h <;> linarith

theorem qOf_transparent_below {n : ℝ} (hr : 0 < n) {s : ℝ} (h : |s| ≤ n) :
    qOf s (n : ℂ) = (Real.sqrt (n ^ 2 - s ^ 2) : ℂ) := by
  have h1 : |s / n| ≤ 1 := by rw [abs_div, abs_of_pos hr]; exact (div_le_one hr).mpr h
  rw [qOf, ← Complex.ofReal_div, root1m_ofReal_le h1, ← Complex.ofReal_mul]
  congr 1
  rw [← Real.sqrt_sq hr.le, ← Real.sqrt_mul (by positivity), Real.sqrt_sq hr.le]
  congr 1; field_simp

theorem qOf_transparent_above {n : ℝ} (hr : 0 < n) {s : ℝ} (h : n < s) :
    qOf s (n : ℂ) = -I * (Real.sqrt (s ^ 2 - n ^ 2) : ℂ) := by
  have h1 : 1 < s / n := (one_lt_div hr).mpr h
  rw [qOf, ← Complex.ofReal_div, root1m_ofReal_gt h1]
  have : (Real.sqrt (s ^ 2 - n ^ 2)) = n * Real.sqrt ((s / n) ^ 2 - 1) := by
    nth_rw 2 [← Real.sqrt_sq hr.le]
    rw [← Real.sqrt_mul (by positivity)]
    congr 1; field_simp
  rw [this]; push_cast; ring

theorem qOf_transparent_below_neg {n : ℝ} (hr : 0 < n) {s : ℝ} (h : s < -n) :
    qOf s (n : ℂ) = I * (Real.sqrt (s ^ 2 - n ^ 2) : ℂ) := by
  have h1 : s / n < -1 := by rw [div_lt_iff₀ hr]; linarith
  rw [qOf, ← Complex.ofReal_div, root1m_ofReal_lt h1]
  have : (Real.sqrt (s ^ 2 - n ^ 2)) = n * Real.sqrt ((s / n) ^ 2 - 1) := by
    nth_rw 2 [← Real.sqrt_sq hr.le]
    rw [← Real.sqrt_mul (by positivity)]
    congr 1; field_simp
  rw [this]; push_cast; ring

theorem ofReal_of_im_zero {n : ℂ} (h : n.im = 0) : n = ((n.re : ℝ) : ℂ) := by
  apply Complex.ext <;> simp [h]

/-- Full description of the branch for a passive medium. -/
theorem qOf_cases {n : ℂ} (hn : PassiveIndex n) (s : ℝ) :
    (0 < (qOf s n).re ∧ 0 ≤ (qOf s n).im) ∨
    (n.im = 0 ∧ s = n.re ∧ qOf s n = 0) ∨ (n.im = 0 ∧ s = -n.re ∧ qOf s n = 0) ∨
    (n.im = 0 ∧ n.re < s ∧ (qOf s n).re = 0 ∧ (qOf s n).im < 0) ∨
    (n.im = 0 ∧ s < -n.re ∧ (qOf s n).re = 0 ∧ 0 < (qOf s n).im) := by
  obtain ⟨hr, hi⟩ := hn
  rcases hi.lt_or_eq with hi | hi
  · left; have := qOf_absorbing hr hi s; exact ⟨this.1, this.2.le⟩
  · have hi := hi.symm
    have hq := ofReal_of_im_zero hi
    rcases lt_trichotomy |s| n.re with h | h | h
    · left
      rw [hq, qOf_transparent_below hr h.le]
      simp only [Complex.ofReal_re, Complex.ofReal_im, le_refl, and_true]
      apply Real.sqrt_pos.mpr
      have := sq_lt_sq' (by linarith [(abs_lt.mp h).1]) (abs_lt.mp h).2
      linarith
    · have hz : qOf s n = 0 := by
        rw [hq, qOf_transparent_below hr h.le, ← h]; simp
      rcases abs_choice s with h' | h'
      · right; left; exact ⟨hi, by rw [← h, h'], hz⟩
      · right; right; left; exact ⟨hi, by rw [← h, h']; ring, hz⟩
    · rcases lt_abs.mp h with h' | h'
      · right; right; right; left
        refine ⟨hi, h', ?_⟩
        rw [hq, qOf_transparent_above hr h']
        simp
        nlinarith
      · right; right; right; right
        refine ⟨hi, by linarith, ?_⟩
        rw [hq, qOf_transparent_below_neg hr (by linarith)]
        simp
        nlinarith

end Verif.TMM
