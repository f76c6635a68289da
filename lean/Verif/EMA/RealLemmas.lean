import Verif.EMA.Lemmas
import Verif.EMA.Spec

/-! # Mixing rules on transparent materials (real arithmetic) -/

namespace Verif.EMA

theorem npSqrt_ofReal_nonneg (σ : Bool) {x : ℝ} (h : 0 ≤ x) :
    npSqrt σ (x : ℂ) = (Real.sqrt x : ℂ) := by
  unfold npSqrt
  rw [if_neg (by simp [h]), csqrt_ofReal_nonneg h]

noncomputable def linR (x y f : ℝ) : ℝ := (1 - f) * x + f * y
noncomputable def garR (x y f L : ℝ) : ℝ :=
  x * ((x + (L * (1 - f) + f) * (y - x)) / (x + L * (1 - f) * (y - x)))
noncomputable def bB (x y f L : ℝ) : ℝ := x * ((1 - f) - L) + y * (f - L)
noncomputable def bruR (x y f L : ℝ) : ℝ :=
  (bB x y f L + Real.sqrt (bB x y f L ^ 2 + 4 * L * (1 - L) * (x * y))) / (2 * (1 - L))

theorem gar_bot_pos {x y f L : ℝ} (hx : 0 < x) (hy : 0 < y) (hf : 0 ≤ f ∧ f ≤ 1)
    (hL : 0 ≤ L ∧ L ≤ 1) : 0 < x + L * (1 - f) * (y - x) := by
  have h1 : 0 ≤ 1 - f := by linarith [hf.2]
  have h2 : 0 ≤ L * (1 - f) := mul_nonneg hL.1 h1
  have h3 : L * (1 - f) ≤ 1 := mul_le_one₀ hL.2 h1 (by linarith [hf.1])
  rcases h2.lt_or_eq with h | h
  · have := mul_pos h hy
    have := mul_nonneg (by linarith : 0 ≤ 1 - L * (1 - f)) hx.le
    nlinarith
  · rw [← h]; simpa using hx

theorem linearE_real (x y f : ℝ) : linearE (x : ℂ) y f = (linR x y f : ℝ) := by
  unfold linearE linR; push_cast; ring

theorem garnettE_real {x y f L : ℝ} (h : x + L * (1 - f) * (y - x) ≠ 0) :
    garnettE (x : ℂ) y f L = (garR x y f L : ℝ) := by
  have : (x : ℂ) + L * (1 - f) * (y - x) ≠ 0 := by exact_mod_cast h
  rw [garnett_eq this]
  unfold garR; push_cast; ring

theorem bruggemanE_real (σ : Bool) {x y f L : ℝ} (hx : 0 < x) (hy : 0 < y) (hL : 0 ≤ L)
    (hL1 : L < 1) : bruggemanE σ (x : ℂ) y f L = (bruR x y f L : ℝ) := by
  rw [bruggeman_eq σ hL1.ne]
  have e1 : bruggemanB (x : ℂ) y f L = (bB x y f L : ℝ) := by
    unfold bruggemanB bB; push_cast; ring
  have e2 : bruggemanD (x : ℂ) y f L
      = ((bB x y f L ^ 2 + 4 * L * (1 - L) * (x * y) : ℝ) : ℂ) := by
    unfold bruggemanD; rw [e1]; push_cast; ring
  have : 0 ≤ 1 - L := by linarith
  rw [e1, e2, npSqrt_ofReal_nonneg σ (by positivity)]
  unfold bruR; push_cast; ring

theorem linR_mono {x y f g : ℝ} (h : x ≤ y) (hfg : f ≤ g) : linR x y f ≤ linR x y g := by
  unfold linR; nlinarith

theorem linR_anti {x y f g : ℝ} (h : y ≤ x) (hfg : f ≤ g) : linR x y g ≤ linR x y f := by
  unfold linR; nlinarith

theorem linR_zero (x y : ℝ) : linR x y 0 = x := by simp [linR]
theorem linR_one (x y : ℝ) : linR x y 1 = y := by simp [linR]

theorem garR_diff {x y f g L : ℝ} (hx : 0 < x) (hy : 0 < y) (hf : 0 ≤ f ∧ f ≤ 1)
    (hg : 0 ≤ g ∧ g ≤ 1) (hL : 0 ≤ L ∧ L ≤ 1) :
    ∃ c : ℝ, 0 ≤ c ∧ garR x y g L - garR x y f L = c * ((y - x) * (g - f)) := by
  have b1 := gar_bot_pos hx hy hf hL
  have b2 := gar_bot_pos hx hy hg hL
  have b3 : 0 ≤ x + L * (y - x) := by nlinarith [hL.1, hL.2]
  refine ⟨x * (x + L * (y - x)) / ((x + L * (1 - f) * (y - x)) * (x + L * (1 - g) * (y - x))),
    by positivity, ?_⟩
  unfold garR
  have e : ∀ {u v p q r : ℝ}, 0 < u → 0 < v → x * (p * u - q * v) = x * r →
      x * (p / v) - x * (q / u) = x * r / (u * v) := by
    intro u v p q r hu hv h
    field_simp
    have := mul_left_cancel₀ hx.ne' h
    linarith
  rw [e (r := (x + L * (y - x)) * ((y - x) * (g - f))) b1 b2 (by ring)]
  ring

theorem garR_mono {x y f g L : ℝ} (hx : 0 < x) (hy : 0 < y) (hf : 0 ≤ f ∧ f ≤ 1)
    (hg : 0 ≤ g ∧ g ≤ 1) (hL : 0 ≤ L ∧ L ≤ 1) (h : x ≤ y) (hfg : f ≤ g) :
    garR x y f L ≤ garR x y g L := by
  obtain ⟨c, hc, e⟩ := garR_diff hx hy hf hg hL
  have := mul_nonneg hc (mul_nonneg (sub_nonneg.mpr h) (sub_nonneg.mpr hfg))
  linarith

theorem garR_anti {x y f g L : ℝ} (hx : 0 < x) (hy : 0 < y) (hf : 0 ≤ f ∧ f ≤ 1)
    (hg : 0 ≤ g ∧ g ≤ 1) (hL : 0 ≤ L ∧ L ≤ 1) (h : y ≤ x) (hfg : f ≤ g) :
    garR x y g L ≤ garR x y f L := by
  obtain ⟨c, hc, e⟩ := garR_diff hx hy hf hg hL
  have := mul_nonneg hc (mul_nonneg (sub_nonneg.mpr h) (sub_nonneg.mpr hfg))
  linarith

theorem garR_zero {x y L : ℝ} (hx : 0 < x) (hy : 0 < y) (hL : 0 ≤ L ∧ L ≤ 1) :
    garR x y 0 L = x := by
  have := gar_bot_pos (f := 0) hx hy (by norm_num) hL
  unfold garR
  rw [show L * (1 - 0) + 0 = L * (1 - (0 : ℝ)) by ring, div_self this.ne', mul_one]

theorem garR_one {x y L : ℝ} (hx : 0 < x) : garR x y 1 L = y := by
  unfold garR
  rw [show x + (L * (1 - 1) + 1) * (y - x) = y by ring,
    show x + L * (1 - 1) * (y - x) = x by ring, mul_div_cancel₀ _ hx.ne']

/-- `t + sqrt (t² + c)` is monotone. -/
theorem add_sqrt_mono {s t c : ℝ} (hc : 0 ≤ c) (h : s ≤ t) :
    s + Real.sqrt (s ^ 2 + c) ≤ t + Real.sqrt (t ^ 2 + c) := by
  have hr : -t ≤ Real.sqrt (t ^ 2 + c) :=
    (neg_le_abs t).trans (Real.abs_le_sqrt (by linarith))
  have hr0 := Real.sqrt_nonneg (t ^ 2 + c)
  have hr2 : Real.sqrt (t ^ 2 + c) ^ 2 = t ^ 2 + c := Real.sq_sqrt (by positivity)
  have : Real.sqrt (s ^ 2 + c) ≤ (t - s) + Real.sqrt (t ^ 2 + c) := by
    apply Real.sqrt_le_iff.mpr
    refine ⟨by linarith, ?_⟩
    nlinarith [mul_nonneg (sub_nonneg.mpr h) (by linarith : 0 ≤ Real.sqrt (t ^ 2 + c) + t)]
  linarith

theorem bruR_mono {x y f g L : ℝ} (hx : 0 < x) (hy : 0 < y) (hL : 0 ≤ L) (hL1 : L < 1)
    (h : x ≤ y) (hfg : f ≤ g) : bruR x y f L ≤ bruR x y g L := by
  have h1 : 0 < 1 - L := by linarith
  unfold bruR
  apply div_le_div_of_nonneg_right _ (by linarith)
  apply add_sqrt_mono (by positivity)
  unfold bB; nlinarith

theorem bruR_anti {x y f g L : ℝ} (hx : 0 < x) (hy : 0 < y) (hL : 0 ≤ L) (hL1 : L < 1)
    (h : y ≤ x) (hfg : f ≤ g) : bruR x y g L ≤ bruR x y f L := by
  have h1 : 0 < 1 - L := by linarith
  unfold bruR
  apply div_le_div_of_nonneg_right _ (by linarith)
  apply add_sqrt_mono (by positivity)
  unfold bB; nlinarith

theorem bruR_zero {x y L : ℝ} (hx : 0 < x) (hy : 0 < y) (hL : 0 ≤ L) (hL1 : L < 1) :
    bruR x y 0 L = x := by
  have h1 : 0 < 1 - L := by linarith
  unfold bruR bB
  rw [show (x * (1 - 0 - L) + y * (0 - L)) ^ 2 + 4 * L * (1 - L) * (x * y)
    = ((1 - L) * x + L * y) ^ 2 by ring, Real.sqrt_sq (by positivity)]
  field_simp; ring

theorem bruR_one {x y L : ℝ} (hx : 0 < x) (hy : 0 < y) (hL : 0 ≤ L) (hL1 : L < 1) :
    bruR x y 1 L = y := by
  have h1 : 0 < 1 - L := by linarith
  unfold bruR bB
  rw [show (x * (1 - 1 - L) + y * (1 - L)) ^ 2 + 4 * L * (1 - L) * (x * y)
    = ((1 - L) * y + L * x) ^ 2 by ring, Real.sqrt_sq (by positivity)]
  field_simp; ring

/-- The dielectric constant returned for transparent materials. -/
noncomputable def mixR (x y f : ℝ) (ema : String) (L : ℝ) : ℝ :=
  if ema = "linear" then linR x y f
  else if ema = "maxwell-garnett" then garR x y f L
  else bruR x y f L

theorem mixR_mono {x y f g L : ℝ} {ema : String} (he : Known ema) (hx : 0 < x) (hy : 0 < y)
    (hf : 0 ≤ f ∧ f ≤ 1) (hg : 0 ≤ g ∧ g ≤ 1) (hL : GoodL ema L) (h : x ≤ y) (hfg : f ≤ g) :
    mixR x y f ema L ≤ mixR x y g ema L := by
  obtain ⟨h0, h1, h2⟩ := hL
  unfold mixR
  rcases he with rfl | rfl | rfl
  · simpa using linR_mono h hfg
  · simpa using garR_mono hx hy hf hg ⟨h0, h1⟩ h hfg
  · simpa using bruR_mono hx hy h0 (h2 rfl) h hfg

theorem mixR_anti {x y f g L : ℝ} {ema : String} (he : Known ema) (hx : 0 < x) (hy : 0 < y)
    (hf : 0 ≤ f ∧ f ≤ 1) (hg : 0 ≤ g ∧ g ≤ 1) (hL : GoodL ema L) (h : y ≤ x) (hfg : f ≤ g) :
    mixR x y g ema L ≤ mixR x y f ema L := by
  obtain ⟨h0, h1, h2⟩ := hL
  unfold mixR
  rcases he with rfl | rfl | rfl
  · simpa using linR_anti h hfg
  · simpa using garR_anti hx hy hf hg ⟨h0, h1⟩ h hfg
  · simpa using bruR_anti hx hy h0 (h2 rfl) h hfg

theorem mixR_zero {x y L : ℝ} {ema : String} (he : Known ema) (hx : 0 < x) (hy : 0 < y)
    (hL : GoodL ema L) : mixR x y 0 ema L = x := by
  obtain ⟨h0, h1, h2⟩ := hL
  unfold mixR
  rcases he with rfl | rfl | rfl
  · simpa using linR_zero x y
  · simpa using garR_zero hx hy ⟨h0, h1⟩
  · simpa using bruR_zero hx hy h0 (h2 rfl)

theorem mixR_one {x y L : ℝ} {ema : String} (he : Known ema) (hx : 0 < x) (hy : 0 < y)
    (hL : GoodL ema L) : mixR x y 1 ema L = y := by
  obtain ⟨h0, h1, h2⟩ := hL
  unfold mixR
  rcases he with rfl | rfl | rfl
  · simpa using linR_one x y
  · simpa using garR_one hx
  · simpa using bruR_one hx hy h0 (h2 rfl)

theorem overallRi_real (σ : Bool × Bool) {a b f L : ℝ} {ema : String} (he : Known ema)
    (ha : 0 < a) (hb : 0 < b) (hf : 0 ≤ f ∧ f ≤ 1) (hL : GoodL ema L) :
    overallRi σ a b f ema L = .ok (Real.sqrt (mixR (a ^ 2) (b ^ 2) f ema L) : ℂ) ∧
      0 < mixR (a ^ 2) (b ^ 2) f ema L := by
  have ha2 : 0 < a ^ 2 := by positivity
  have hb2 : 0 < b ^ 2 := by positivity
  have hpos : 0 < mixR (a ^ 2) (b ^ 2) f ema L := by
    rcases le_total (a ^ 2) (b ^ 2) with h | h
    · have := mixR_mono (f := 0) he ha2 hb2 (by norm_num) hf hL h hf.1
      rw [mixR_zero he ha2 hb2 hL] at this
      linarith
    · have := mixR_anti (g := 1) he ha2 hb2 hf (by norm_num) hL h hf.2
      rw [mixR_one he ha2 hb2 hL] at this
      linarith
  refine ⟨?_, hpos⟩
  have e1 : ((a : ℂ)) ^ 2 = ((a ^ 2 : ℝ) : ℂ) := by push_cast; rfl
  have e2 : ((b : ℂ)) ^ 2 = ((b ^ 2 : ℝ) : ℂ) := by push_cast; rfl
  obtain ⟨h0, h1, h2⟩ := hL
  unfold overallRi
  rw [e1, e2]
  rcases he with rfl | rfl | rfl
  · simp only [if_true, linearE_real]
    rw [npSqrt_ofReal_nonneg]
    · simp [mixR]
    · simpa [mixR] using hpos.le
  · simp only [show ("maxwell-garnett" : String) ≠ "linear" by decide, if_false, if_true]
    rw [garnettE_real (gar_bot_pos ha2 hb2 hf ⟨h0, h1⟩).ne', npSqrt_ofReal_nonneg]
    · simp [mixR]
    · simpa [mixR] using hpos.le
  · simp only [show ("bruggeman" : String) ≠ "linear" by decide,
      show ("bruggeman" : String) ≠ "maxwell-garnett" by decide, if_false, if_true]
    rw [bruggemanE_real _ ha2 hb2 h0 (h2 rfl), npSqrt_ofReal_nonneg]
    · simp [mixR]
    · simpa [mixR] using hpos.le

end Verif.EMA
