import Verif.Disp.CausalSpec
import Mathlib.Analysis.SpecialFunctions.Complex.LogDeriv
import Mathlib.Analysis.SpecialFunctions.Trigonometric.Arctan
import Mathlib.Analysis.Complex.RemovableSingularity
import Mathlib.Analysis.SpecialFunctions.Log.NegMulLog
import Mathlib.Tactic.FieldSimp
import Mathlib.Tactic.LinearCombination
import Mathlib.Tactic.Positivity

/-! # Lemmas for causality: the Tauc-Lorentz function on the upper half plane -/

namespace Verif.Disp
open Complex Filter Topology

/-- Argument of a number above the real axis. -/
theorem arg_upper {x y : ℝ} (hy : 0 < y) : arg (⟨x, y⟩ : ℂ) = Real.pi / 2 - Real.arctan (x / y) := by
  set t := x / y
  have hs : 0 < Real.sqrt (1 + t ^ 2) := Real.sqrt_pos.mpr (by positivity)
  have h := Complex.arg_mul_cos_add_sin_mul_I (r := y * Real.sqrt (1 + t ^ 2)) (by positivity)
    (θ := Real.pi / 2 - Real.arctan t) ⟨by linarith [Real.arctan_lt_pi_div_two t, Real.pi_pos],
      by linarith [Real.neg_pi_div_two_lt_arctan t]⟩
  rw [← h]
  congr 1
  have h1 : Real.cos (Real.pi / 2 - Real.arctan t) = t / Real.sqrt (1 + t ^ 2) := by
    rw [Real.cos_pi_div_two_sub, Real.sin_arctan]
  have h2 : Real.sin (Real.pi / 2 - Real.arctan t) = 1 / Real.sqrt (1 + t ^ 2) := by
    rw [Real.sin_pi_div_two_sub, Real.cos_arctan]
  rw [← Complex.ofReal_cos, ← Complex.ofReal_sin, h1, h2]
  apply Complex.ext
  · simp only [mul_re, add_re, ofReal_re, ofReal_im, I_re, I_im, mul_im, add_im]
    field_simp
    simp only [t]
    field_simp
    ring
  · simp only [mul_re, add_re, ofReal_re, ofReal_im, I_re, I_im, mul_im, add_im]
    field_simp
    simp

/-- Logarithm of a number above the real axis. -/
theorem log_upper {x y : ℝ} (hy : 0 < y) : Complex.log (⟨x, y⟩ : ℂ) =
    (Real.log (x ^ 2 + y ^ 2) / 2 : ℝ) + (Real.pi / 2 - Real.arctan (x / y) : ℝ) * I := by
  have hn : Real.log ‖(⟨x, y⟩ : ℂ)‖ = Real.log (x ^ 2 + y ^ 2) / 2 := by
    rw [Complex.norm_def, Complex.normSq_mk, Real.log_sqrt (by nlinarith [mul_self_nonneg x, mul_self_nonneg y])]
    congr 2; ring
  apply Complex.ext
  · rw [Complex.log_re, hn]; simp
  · rw [Complex.log_im, arg_upper hy]; simp

/-- Logarithm of a number below the real axis. -/
theorem log_lower {x y : ℝ} (hy : 0 < y) : Complex.log (⟨x, -y⟩ : ℂ) =
    (Real.log (x ^ 2 + y ^ 2) / 2 : ℝ) + (-(Real.pi / 2) + Real.arctan (x / y) : ℝ) * I := by
  have h : (⟨x, -y⟩ : ℂ) = (starRingEnd ℂ) ⟨x, y⟩ := by apply Complex.ext <;> simp
  have ha : arg (⟨x, y⟩ : ℂ) ≠ Real.pi := by
    rw [arg_upper hy]
    have := Real.neg_pi_div_two_lt_arctan (x / y)
    intro hh; linarith
  rw [h, Complex.log_conj _ ha, log_upper hy, map_add, map_mul, Complex.conj_ofReal, Complex.conj_ofReal,
    Complex.conj_I]
  push_cast
  ring

theorem arctan_add_eq {x y : ℝ} (h : 0 < x + y) :
    Real.arctan x + Real.arctan y = Real.pi / 2 + Real.arctan ((x * y - 1) / (x + y)) := by
  set s := Real.arctan x + Real.arctan y
  have h1 : 0 < s := by
    have : Real.arctan (-y) < Real.arctan x := Real.arctan_strictMono (by linarith)
    rw [Real.arctan_neg] at this
    linarith
  have h2 : s < Real.pi := by
    linarith [Real.arctan_lt_pi_div_two x, Real.arctan_lt_pi_div_two y]
  have hsx : 0 < Real.sqrt (1 + x ^ 2) := Real.sqrt_pos.mpr (by positivity)
  have hsy : 0 < Real.sqrt (1 + y ^ 2) := Real.sqrt_pos.mpr (by positivity)
  have htan : Real.tan (s - Real.pi / 2) = (x * y - 1) / (x + y) := by
    rw [Real.tan_eq_sin_div_cos, Real.sin_sub_pi_div_two, Real.cos_sub_pi_div_two]
    simp only [s, Real.cos_add, Real.sin_add, Real.cos_arctan, Real.sin_arctan]
    have : x / Real.sqrt (1 + x ^ 2) * (1 / Real.sqrt (1 + y ^ 2)) +
        1 / Real.sqrt (1 + x ^ 2) * (y / Real.sqrt (1 + y ^ 2)) =
        (x + y) / (Real.sqrt (1 + x ^ 2) * Real.sqrt (1 + y ^ 2)) := by field_simp
    rw [this, div_div_eq_mul_div, div_left_inj' h.ne']
    field_simp
    ring
  have := Real.arctan_tan (x := s - Real.pi / 2) (by linarith) (by linarith)
  rw [htan] at this
  linarith

/-! ### The numerator -/

/-- Constants of the Tauc-Lorentz function for gap `g`, width `C` and `al = √(4 En² - C²)`. -/
noncomputable def tlA (g al C : ℝ) : ℝ := -(Real.pi / 2) + Real.arctan ((2 * g - al) / C)
noncomputable def tlB (g al C : ℝ) : ℝ := Real.pi / 2 - Real.arctan ((2 * g + al) / C)
noncomputable def tlLa (g al C : ℝ) : ℝ := Real.log ((g - al / 2) ^ 2 + (C / 2) ^ 2) / 2
noncomputable def tlLb (g al C : ℝ) : ℝ := Real.log ((g + al / 2) ^ 2 + (C / 2) ^ 2) / 2

/-- Coefficients of the polynomial part. -/
noncomputable def tlP1 (g al C : ℝ) : ℝ :=
  let W := (al ^ 2 + C ^ 2) / 4;
  -((tlLb g al C - tlLa g al C) / (al * W) * (g ^ 2 - W)
    - (tlB g al C - tlA g al C) / (W * C) * (W + g ^ 2)
    - 4 * g * (tlA g al C + tlB g al C) / (al * C))
noncomputable def tlP0 (g al C : ℝ) : ℝ :=
  let W := (al ^ 2 + C ^ 2) / 4;
  -((tlLb g al C - tlLa g al C) / (al * W) * (g ^ 2 * C ^ 2 - W * (W + 3 * g ^ 2))
    - (tlB g al C - tlA g al C) / (W * C) * (-W * (W + g ^ 2) + g ^ 2 * C ^ 2)
    + 4 * g * (tlA g al C + tlB g al C) / (al * C) * ((al ^ 2 - C ^ 2) / 4)
    - 2 * g * (tlLa g al C + tlLb g al C))

/-- Numerator of the function. -/
noncomputable def tlN (g al C : ℝ) (z : ℂ) : ℂ :=
  (z - g) ^ 2 * Complex.log (g - z) - (z + g) ^ 2 * Complex.log (g + z)
    + z * (tlP0 g al C + tlP1 g al C * z ^ 2)

/-- The zero of the denominator in the first quadrant. -/
noncomputable def tlZ (al C : ℝ) : ℂ := ⟨al / 2, C / 2⟩

theorem tlN_zero {g al C : ℝ} (ha : 0 < al) (hC : 0 < C) : tlN g al C (tlZ al C) = 0 := by
  have e1 : (g : ℂ) - tlZ al C = ⟨g - al / 2, -(C / 2)⟩ := by apply Complex.ext <;> simp [tlZ]
  have e2 : (g : ℂ) + tlZ al C = ⟨g + al / 2, C / 2⟩ := by apply Complex.ext <;> simp [tlZ]
  have hl1 : Complex.log (g - tlZ al C) = tlLa g al C + tlA g al C * I := by
    rw [e1, log_lower (by positivity)]
    simp only [tlLa, tlA]
    congr 4
    field_simp
  have hl2 : Complex.log (g + tlZ al C) = tlLb g al C + tlB g al C * I := by
    rw [e2, log_upper (by positivity)]
    simp only [tlLb, tlB]
    congr 4
    field_simp
  unfold tlN
  rw [hl1, hl2]
  simp only [tlP0, tlP1]
  set a := tlA g al C
  set b := tlB g al C
  set la := tlLa g al C
  set lb := tlLb g al C
  set z := tlZ al C with hz
  set w : ℂ := ⟨al / 2, -(C / 2)⟩ with hw
  have hal : (al : ℂ) = z + w := by apply Complex.ext <;> simp [z, w, tlZ]
  have hCC : (C : ℂ) = -I * (z - w) := by apply Complex.ext <;> simp [z, w, tlZ]
  have hz0 : z ≠ 0 := by
    intro h
    have := congrArg Complex.re h
    simp [z, tlZ] at this
    linarith
  have hw0 : w ≠ 0 := by
    intro h
    have := congrArg Complex.re h
    simp [w] at this
    linarith
  have hzw : z + w ≠ 0 := by
    rw [← hal]; exact_mod_cast ha.ne'
  have hzw' : z - w ≠ 0 := by
    intro h
    rw [h] at hCC
    simp at hCC
    linarith
  have hC2 : (C : ℂ) ^ 2 = -(z - w) ^ 2 := by
    rw [hCC]; linear_combination (z - w) ^ 2 * I_sq
  have hW : ((al : ℂ) ^ 2 + (C : ℂ) ^ 2) / 4 = z * w := by
    rw [hal, hC2]; ring
  have hG : ((al : ℂ) ^ 2 - (C : ℂ) ^ 2) / 4 = (z ^ 2 + w ^ 2) / 2 := by
    rw [hal, hC2]; ring
  push_cast
  rw [hW, hG, hC2, hal]
  have hCne : (C : ℂ) ≠ 0 := by exact_mod_cast hC.ne'
  have hCi : (C : ℂ)⁻¹ = I / (z - w) := by
    rw [hCC]
    field_simp
    linear_combination -I_sq
  have k1 : ((b : ℂ) - a) / (z * w * C) = (b - a) / (z * w) * (I / (z - w)) := by
    rw [← hCi]; field_simp
  have k2 : 4 * (g : ℂ) * (a + b) / ((z + w) * C) = 4 * g * (a + b) / (z + w) * (I / (z - w)) := by
    rw [← hCi]; field_simp
  rw [k1, k2]
  field_simp
  ring

/-! ### The function above the real axis -/

theorem upper_open : IsOpen upper := isOpen_lt continuous_const Complex.continuous_im

theorem neg_conj_upper {z : ℂ} (h : z ∈ upper) : -(starRingEnd ℂ) z ∈ upper := by
  simpa [upper] using h

theorem tlN_differentiable (g al C : ℝ) : DifferentiableOn ℂ (tlN g al C) upper := by
  intro z hz
  have hz' : 0 < z.im := hz
  apply DifferentiableAt.differentiableWithinAt
  have h1 : DifferentiableAt ℂ (fun z : ℂ => Complex.log (g - z)) z := by
    refine DifferentiableAt.clog (by fun_prop) ?_
    exact .inr (by simpa using hz'.ne')
  have h2 : DifferentiableAt ℂ (fun z : ℂ => Complex.log (g + z)) z := by
    refine DifferentiableAt.clog (by fun_prop) ?_
    exact .inr (by simpa using hz'.ne')
  unfold tlN
  fun_prop

theorem tlN_conj (g al C : ℝ) {z : ℂ} (hz : z ∈ upper) :
    tlN g al C (-(starRingEnd ℂ) z) = -(starRingEnd ℂ) (tlN g al C z) := by
  have hz' : 0 < z.im := hz
  have h1 : Complex.log (g - -(starRingEnd ℂ) z) = (starRingEnd ℂ) (Complex.log (g + z)) := by
    rw [← Complex.log_conj]
    · simp
    · intro h
      have := Complex.arg_eq_pi_iff.mp h
      simp at this
      linarith [this.2]
  have h2 : Complex.log (g + -(starRingEnd ℂ) z) = (starRingEnd ℂ) (Complex.log (g - z)) := by
    rw [← Complex.log_conj]
    · simp [sub_eq_add_neg]
    · intro h
      have := Complex.arg_eq_pi_iff.mp h
      simp at this
      linarith [this.2]
  unfold tlN
  rw [h1, h2]
  simp only [map_add, map_sub, map_mul, map_pow, Complex.conj_ofReal]
  ring

/-- The other zero of the denominator above the real axis. -/
noncomputable def tlZ' (al C : ℝ) : ℂ := ⟨-(al / 2), C / 2⟩

theorem tlZ'_eq (al C : ℝ) : tlZ' al C = -(starRingEnd ℂ) (tlZ al C) := by
  apply Complex.ext <;> simp [tlZ, tlZ']

theorem tlN_zero' {g al C : ℝ} (ha : 0 < al) (hC : 0 < C) : tlN g al C (tlZ' al C) = 0 := by
  rw [tlZ'_eq, tlN_conj g al C (show tlZ al C ∈ upper by simpa [upper, tlZ] using hC), tlN_zero ha hC]
  simp

/-- The denominator: `z ζ⁴(z)`. -/
noncomputable def tlD (al C : ℝ) (z : ℂ) : ℂ :=
  z * ((z ^ 2 - (al ^ 2 + C ^ 2) / 4) ^ 2 + C ^ 2 * z ^ 2)

theorem tlD_factor (al C : ℝ) (z : ℂ) : tlD al C z =
    (z - tlZ al C) * (z - tlZ' al C) * (z * (z + tlZ al C) * (z + tlZ' al C)) := by
  have h1 : tlZ al C = al / 2 + C / 2 * I := by apply Complex.ext <;> simp [tlZ]
  have h2 : tlZ' al C = -(al / 2) + C / 2 * I := by apply Complex.ext <;> simp [tlZ']
  rw [h1, h2]
  unfold tlD
  have h4 : I ^ 4 = 1 := by rw [show (4 : ℕ) = 2 * 2 from rfl, pow_mul, I_sq]; norm_num
  ring_nf
  simp only [h4, I_sq]
  ring

/-- The quotient of numerator and denominator, continued through the common zeros. -/
noncomputable def tlF (g al C : ℝ) (z : ℂ) : ℂ :=
  dslope (dslope (tlN g al C) (tlZ al C)) (tlZ' al C) z / (z * (z + tlZ al C) * (z + tlZ' al C))

variable {g al C : ℝ}

theorem rest_ne (hC : 0 < C) {z : ℂ} (hz : z ∈ upper) : z * (z + tlZ al C) * (z + tlZ' al C) ≠ 0 := by
  have hz' : 0 < z.im := hz
  have : ∀ w : ℂ, 0 < w.im → w ≠ 0 := by rintro w hw rfl; simp at hw
  refine mul_ne_zero (mul_ne_zero (this z hz') (this _ ?_)) (this _ ?_)
  · simp [tlZ]; linarith
  · simp [tlZ']; linarith

theorem tlZ_mem (hC : 0 < C) : tlZ al C ∈ upper := by simpa [upper, tlZ] using hC
theorem tlZ'_mem (hC : 0 < C) : tlZ' al C ∈ upper := by simpa [upper, tlZ'] using hC

theorem tlF_differentiable (hC : 0 < C) : DifferentiableOn ℂ (tlF g al C) upper := by
  have h1 := (Complex.differentiableOn_dslope (upper_open.mem_nhds (tlZ_mem (al := al) hC))).mpr
    (tlN_differentiable g al C)
  have h2 := (Complex.differentiableOn_dslope (upper_open.mem_nhds (tlZ'_mem (al := al) hC))).mpr h1
  refine h2.div (by fun_prop) fun z hz => rest_ne hC hz

theorem tlF_eq (ha : 0 < al) (hC : 0 < C) {z : ℂ} (h1 : z ≠ tlZ al C) (h2 : z ≠ tlZ' al C) :
    tlF g al C z = tlN g al C z / tlD al C z := by
  have e1 := sub_smul_dslope (dslope (tlN g al C) (tlZ al C)) (tlZ' al C) z
  have e2 := sub_smul_dslope (tlN g al C) (tlZ al C) z
  have e3 := sub_smul_dslope (tlN g al C) (tlZ al C) (tlZ' al C)
  rw [tlN_zero ha hC, sub_zero] at e2 e3
  rw [tlN_zero' ha hC] at e3
  have hne : tlZ' al C - tlZ al C ≠ 0 := by
    intro h
    have := congrArg Complex.re h
    simp [tlZ, tlZ'] at this
    linarith
  have e4 : dslope (tlN g al C) (tlZ al C) (tlZ' al C) = 0 := by
    simpa [hne] using e3
  rw [e4, sub_zero] at e1
  simp only [smul_eq_mul] at e1 e2
  rw [tlD_factor, ← e2, ← e1]
  unfold tlF
  have n1 := sub_ne_zero.mpr h1
  have n2 := sub_ne_zero.mpr h2
  by_cases hr : z * (z + tlZ al C) * (z + tlZ' al C) = 0
  · simp [hr]
  · field_simp

theorem tlD_conj (z : ℂ) : tlD al C (-(starRingEnd ℂ) z) = -(starRingEnd ℂ) (tlD al C z) := by
  unfold tlD
  simp only [map_add, map_sub, map_mul, map_pow, map_div₀, Complex.conj_ofReal, map_ofNat]
  ring

theorem tlF_conj (ha : 0 < al) (hC : 0 < C) {z : ℂ} (hz : z ∈ upper) :
    tlF g al C (-(starRingEnd ℂ) z) = (starRingEnd ℂ) (tlF g al C z) := by
  have key : ∀ w ∈ upper, w ≠ tlZ al C → w ≠ tlZ' al C →
      tlF g al C (-(starRingEnd ℂ) w) = (starRingEnd ℂ) (tlF g al C w) := by
    intro w hw h1 h2
    have m1 : -(starRingEnd ℂ) w ≠ tlZ al C := by
      intro h
      apply h2
      rw [tlZ'_eq, ← h]; simp
    have m2 : -(starRingEnd ℂ) w ≠ tlZ' al C := by
      intro h
      apply h1
      rw [tlZ'_eq] at h
      exact star_injective (neg_injective h)
    rw [tlF_eq ha hC m1 m2, tlF_eq ha hC h1 h2, tlN_conj g al C hw, tlD_conj, map_div₀, neg_div_neg_eq]
  have hU : upper ∈ 𝓝 z := upper_open.mem_nhds hz
  have c1 : ContinuousAt (fun w => tlF g al C (-(starRingEnd ℂ) w)) z := by
    have hc : ContinuousAt (tlF g al C) (-(starRingEnd ℂ) z) :=
      (tlF_differentiable hC).continuousOn.continuousAt (upper_open.mem_nhds (neg_conj_upper hz))
    exact ContinuousAt.comp (f := fun w => -(starRingEnd ℂ) w) hc
      (Complex.continuous_conj.neg.continuousAt)
  have c2 : ContinuousAt (fun w => (starRingEnd ℂ) (tlF g al C w)) z :=
    Complex.continuous_conj.continuousAt.comp
      ((tlF_differentiable hC).continuousOn.continuousAt hU)
  have hev : (fun w => tlF g al C (-(starRingEnd ℂ) w)) =ᶠ[𝓝[≠] z]
      fun w => (starRingEnd ℂ) (tlF g al C w) := by
    have hfin : ∀ p : ℂ, ∀ᶠ w in 𝓝[≠] z, w ≠ p := by
      intro p
      by_cases h : p = z
      · subst h; exact eventually_mem_nhdsWithin
      · exact (isOpen_ne.mem_nhds (Ne.symm h)) |> mem_nhdsWithin_of_mem_nhds
    filter_upwards [hfin (tlZ al C), hfin (tlZ' al C), mem_nhdsWithin_of_mem_nhds hU] with w h1 h2 h3
    exact key w h3 h1 h2
  exact tendsto_nhds_unique ((c1.tendsto.mono_left nhdsWithin_le_nhds).congr' hev)
    (c2.tendsto.mono_left nhdsWithin_le_nhds)

/-! ### At infinity -/

theorem norm_log_le {w : ℂ} (h : 1 ≤ ‖w‖) : ‖Complex.log w‖ ≤ ‖w‖ + 4 := by
  have h1 : Complex.log w = (Real.log ‖w‖ : ℂ) + arg w * I := by
    apply Complex.ext <;> simp [Complex.log_re, Complex.log_im]
  have h2 : 0 ≤ Real.log ‖w‖ := Real.log_nonneg h
  have h3 : Real.log ‖w‖ ≤ ‖w‖ := (Real.log_le_sub_one_of_pos (by linarith)).trans (by linarith)
  have h4 : |arg w| ≤ 4 := (Complex.abs_arg_le_pi w).trans Real.pi_le_four
  calc ‖Complex.log w‖ ≤ ‖(Real.log ‖w‖ : ℂ)‖ + ‖(arg w : ℂ) * I‖ := by rw [h1]; exact norm_add_le _ _
    _ = Real.log ‖w‖ + |arg w| := by
      rw [norm_mul, Complex.norm_I, mul_one, Complex.norm_real, Complex.norm_real, Real.norm_eq_abs,
        Real.norm_eq_abs, abs_of_nonneg h2]
    _ ≤ _ := by linarith

theorem tlZ_norm (ha : 0 < al) (hC : 0 < C) : ‖tlZ al C‖ ≤ (al + C) / 2 ∧ ‖tlZ' al C‖ ≤ (al + C) / 2 := by
  constructor
  · refine (Complex.norm_le_abs_re_add_abs_im _).trans ?_
    simp only [tlZ]
    rw [abs_of_pos (by positivity), abs_of_pos (by positivity)]; linarith
  · refine (Complex.norm_le_abs_re_add_abs_im _).trans ?_
    simp only [tlZ']
    rw [abs_neg, abs_of_pos (by positivity), abs_of_pos (by positivity)]; linarith

theorem tl_bound (ha : 0 < al) (hC : 0 < C) {z : ℂ} (hz : 2 + 2 * |g| + al + C ≤ ‖z‖) :
    ‖tlN g al C z / tlD al C z‖ ≤ 16 * (64 + |tlP0 g al C| + |tlP1 g al C|) / ‖z‖ := by
  have hg := abs_nonneg g
  have hz1 : 1 ≤ ‖z‖ := by linarith
  have hng : ‖(g : ℂ)‖ = |g| := by rw [Complex.norm_real, Real.norm_eq_abs]
  have hlow : ∀ w : ℂ, ‖w‖ ≤ ‖z‖ / 2 → ‖z‖ / 2 ≤ ‖z - w‖ ∧ ‖z‖ / 2 ≤ ‖z + w‖ := by
    intro w hw
    constructor
    · have := norm_sub_norm_le z w; linarith
    · have := norm_sub_norm_le z (-w); rw [norm_neg, sub_neg_eq_add] at this; linarith
  obtain ⟨hz0, hz0'⟩ := tlZ_norm ha hC
  obtain ⟨f1, f2⟩ := hlow _ (hz0.trans (by linarith))
  obtain ⟨f3, f4⟩ := hlow _ (hz0'.trans (by linarith))
  have hD : ‖z‖ ^ 5 / 16 ≤ ‖tlD al C z‖ := by
    rw [tlD_factor]
    simp only [norm_mul]
    calc ‖z‖ ^ 5 / 16 = (‖z‖ / 2 * (‖z‖ / 2)) * (‖z‖ * (‖z‖ / 2) * (‖z‖ / 2)) := by ring
      _ ≤ _ := by gcongr
  obtain ⟨g1, g2⟩ := hlow g (by rw [hng]; linarith)
  have s1 : ‖z - g‖ ≤ 2 * ‖z‖ := (norm_sub_le _ _).trans (by rw [hng]; linarith)
  have s2 : ‖z + g‖ ≤ 2 * ‖z‖ := (norm_add_le _ _).trans (by rw [hng]; linarith)
  have l1 : ‖Complex.log (g - z)‖ ≤ 8 * ‖z‖ := by
    have hge : 1 ≤ ‖z - g‖ := by
      have := norm_sub_norm_le z g; rw [hng] at this; linarith
    have := norm_log_le (w := g - z) (by rw [norm_sub_rev]; exact hge)
    rw [norm_sub_rev] at this; linarith
  have l2 : ‖Complex.log (g + z)‖ ≤ 8 * ‖z‖ := by
    have hge : 1 ≤ ‖z + g‖ := by
      have := norm_sub_norm_le z (-g); rw [norm_neg, hng, sub_neg_eq_add] at this; linarith
    have := norm_log_le (w := g + z) (by rw [add_comm]; exact hge)
    rw [add_comm] at this; rw [add_comm (g : ℂ)]; linarith
  have hN : ‖tlN g al C z‖ ≤ (64 + |tlP0 g al C| + |tlP1 g al C|) * ‖z‖ ^ 3 := by
    have t1 : ‖(z - g) ^ 2 * Complex.log (g - z)‖ ≤ 32 * ‖z‖ ^ 3 := by
      rw [norm_mul, norm_pow]
      calc ‖z - g‖ ^ 2 * ‖Complex.log (g - z)‖ ≤ (2 * ‖z‖) ^ 2 * (8 * ‖z‖) := by gcongr
        _ = _ := by ring
    have t2 : ‖(z + g) ^ 2 * Complex.log (g + z)‖ ≤ 32 * ‖z‖ ^ 3 := by
      rw [norm_mul, norm_pow]
      calc ‖z + g‖ ^ 2 * ‖Complex.log (g + z)‖ ≤ (2 * ‖z‖) ^ 2 * (8 * ‖z‖) := by gcongr
        _ = _ := by ring
    have t3 : ‖z * (tlP0 g al C + tlP1 g al C * z ^ 2)‖ ≤
        (|tlP0 g al C| + |tlP1 g al C|) * ‖z‖ ^ 3 := by
      have hsq : 1 ≤ ‖z‖ ^ 2 := one_le_pow₀ hz1
      rw [norm_mul]
      calc ‖z‖ * ‖(tlP0 g al C : ℂ) + tlP1 g al C * z ^ 2‖
          ≤ ‖z‖ * (|tlP0 g al C| + |tlP1 g al C| * ‖z‖ ^ 2) := by
            gcongr
            refine (norm_add_le _ _).trans ?_
            rw [norm_mul, norm_pow, Complex.norm_real, Complex.norm_real, Real.norm_eq_abs,
              Real.norm_eq_abs]
        _ ≤ ‖z‖ * (|tlP0 g al C| * ‖z‖ ^ 2 + |tlP1 g al C| * ‖z‖ ^ 2) := by
            gcongr
            exact le_mul_of_one_le_right (abs_nonneg _) hsq
        _ = _ := by ring
    unfold tlN
    calc _ ≤ ‖(z - g) ^ 2 * Complex.log (g - z) - (z + g) ^ 2 * Complex.log (g + z)‖ + _ :=
          norm_add_le _ _
      _ ≤ (‖(z - g) ^ 2 * Complex.log (g - z)‖ + ‖(z + g) ^ 2 * Complex.log (g + z)‖) + _ := by
          gcongr; exact norm_sub_le _ _
      _ ≤ _ := by linarith
  have hzp : 0 < ‖z‖ := by linarith
  rw [norm_div, div_le_div_iff₀ (lt_of_lt_of_le (by positivity) hD) hzp]
  set c := 64 + |tlP0 g al C| + |tlP1 g al C| with hc
  have hcpos : 0 < c := by positivity
  calc ‖tlN g al C z‖ * ‖z‖ ≤ c * ‖z‖ ^ 3 * ‖z‖ := by gcongr
    _ ≤ c * ‖z‖ ^ 5 := by
      have : ‖z‖ ^ 3 * ‖z‖ ≤ ‖z‖ ^ 5 := by
        rw [← pow_succ]; exact pow_le_pow_right₀ hz1 (by norm_num)
      rw [mul_assoc]; gcongr
    _ = 16 * c * (‖z‖ ^ 5 / 16) := by ring
    _ ≤ _ := by gcongr

theorem tlF_atInf (ha : 0 < al) (hC : 0 < C) :
    Tendsto (tlF g al C) (cocompact ℂ ⊓ 𝓟 upper) (𝓝 0) := by
  refine Tendsto.mono_left ?_ inf_le_left
  have hn : Tendsto (fun z : ℂ => ‖z‖) (cocompact ℂ) atTop := tendsto_norm_cocompact_atTop
  refine squeeze_zero_norm' (a := fun z : ℂ => 16 * (64 + |tlP0 g al C| + |tlP1 g al C|) / ‖z‖) ?_
    (tendsto_const_nhds.div_atTop hn)
  filter_upwards [hn.eventually_ge_atTop (2 + 2 * |g| + al + C)] with z hz
  obtain ⟨hz0, hz0'⟩ := tlZ_norm ha hC
  have hg := abs_nonneg g
  rw [tlF_eq ha hC (by rintro rfl; linarith) (by rintro rfl; linarith)]
  exact tl_bound ha hC hz

/-! ### On the real axis -/

/-- Limit of the numerator. -/
noncomputable def tlNe (g al C e : ℝ) : ℂ :=
  (e - g) ^ 2 * ((Real.log |e - g| : ℂ) - (if g < e then (Real.pi : ℂ) * I else 0))
    - (e + g) ^ 2 * (Real.log (e + g) : ℂ) + e * (tlP0 g al C + tlP1 g al C * e ^ 2)

theorem log_boundary {e : ℝ} (hne : e ≠ g) : Tendsto (fun z : ℂ => Complex.log (g - z)) (𝓝[upper] (e : ℂ))
    (𝓝 ((Real.log |e - g| : ℂ) - (if g < e then (Real.pi : ℂ) * I else 0))) := by
  rcases lt_or_gt_of_ne hne with h | h
  · rw [if_neg (by linarith), sub_zero]
    have hc : ContinuousAt (fun z : ℂ => Complex.log (g - z)) (e : ℂ) := by
      refine ContinuousAt.clog (by fun_prop) (.inl ?_)
      simpa using h
    have := hc.tendsto.mono_left (nhdsWithin_le_nhds (s := upper))
    have hv : Complex.log ((g : ℂ) - e) = (Real.log |e - g| : ℂ) := by
      rw [← Complex.ofReal_sub, ← Complex.ofReal_log (by linarith), abs_of_neg (by linarith), neg_sub]
    rwa [hv] at this
  · rw [if_pos h]
    have h1 := Complex.tendsto_log_nhdsWithin_im_neg_of_re_neg_of_im_zero (z := (g : ℂ) - e)
      (by simpa using h) (by simp)
    have h2 : Tendsto (fun z : ℂ => (g : ℂ) - z) (𝓝[upper] (e : ℂ))
        (𝓝[{z : ℂ | z.im < 0}] ((g : ℂ) - e)) := by
      refine tendsto_nhdsWithin_iff.mpr ⟨?_, ?_⟩
      · exact (Continuous.tendsto (by fun_prop) _).mono_left nhdsWithin_le_nhds
      · filter_upwards [self_mem_nhdsWithin] with z hz
        simpa [upper] using hz
    have hv : ‖(g : ℂ) - e‖ = |e - g| := by
      rw [← Complex.ofReal_sub, Complex.norm_real, Real.norm_eq_abs, abs_sub_comm]
    have := h1.comp h2
    rw [hv] at this
    exact this

theorem tlN_boundary {e : ℝ} (hg : 0 ≤ g) (he : 0 < e) (hne : e ≠ g) :
    Tendsto (tlN g al C) (𝓝[upper] (e : ℂ)) (𝓝 (tlNe g al C e)) := by
  have h2 : Tendsto (fun z : ℂ => Complex.log (g + z)) (𝓝[upper] (e : ℂ))
      (𝓝 (Real.log (e + g) : ℂ)) := by
    have hc : ContinuousAt (fun z : ℂ => Complex.log (g + z)) (e : ℂ) := by
      refine ContinuousAt.clog (by fun_prop) (.inl ?_)
      simp; linarith
    have := hc.tendsto.mono_left (nhdsWithin_le_nhds (s := upper))
    have hv : Complex.log ((g : ℂ) + e) = (Real.log (e + g) : ℂ) := by
      rw [← Complex.ofReal_add, ← Complex.ofReal_log (by linarith), add_comm]
    rwa [hv] at this
  have hpoly : ∀ p : ℂ → ℂ, Continuous p → Tendsto p (𝓝[upper] (e : ℂ)) (𝓝 (p e)) :=
    fun p hp => (hp.tendsto _).mono_left nhdsWithin_le_nhds
  unfold tlN tlNe
  exact (((hpoly (fun z => (z - g) ^ 2) (by fun_prop)).mul (log_boundary hne)).sub
    ((hpoly (fun z => (z + g) ^ 2) (by fun_prop)).mul h2)).add
    (hpoly (fun z => z * (tlP0 g al C + tlP1 g al C * z ^ 2)) (by fun_prop))

theorem tlD_real (al C e : ℝ) : tlD al C e =
    ((e * ((e ^ 2 - (al ^ 2 + C ^ 2) / 4) ^ 2 + C ^ 2 * e ^ 2) : ℝ) : ℂ) := by
  unfold tlD; push_cast; rfl

theorem tlF_boundary {e : ℝ} (ha : 0 < al) (hC : 0 < C) (hg : 0 ≤ g) (he : 0 < e) (hne : e ≠ g) :
    Tendsto (tlF g al C) (𝓝[upper] (e : ℂ)) (𝓝 (tlNe g al C e / tlD al C e)) := by
  have hD : tlD al C e ≠ 0 := by
    rw [tlD_real]
    have : 0 < e * ((e ^ 2 - (al ^ 2 + C ^ 2) / 4) ^ 2 + C ^ 2 * e ^ 2) := by positivity
    exact_mod_cast this.ne'
  have hDc : Tendsto (tlD al C) (𝓝[upper] (e : ℂ)) (𝓝 (tlD al C e)) := by
    have : Continuous (tlD al C) := by unfold tlD; fun_prop
    exact (this.tendsto _).mono_left nhdsWithin_le_nhds
  refine ((tlN_boundary hg he hne).div hDc hD).congr' ?_
  have hev : ∀ p ∈ upper, ∀ᶠ w in 𝓝[upper] (e : ℂ), w ≠ p := by
    intro p hp
    refine mem_nhdsWithin_of_mem_nhds (isOpen_ne.mem_nhds ?_)
    rintro rfl
    simp [upper] at hp
  filter_upwards [hev _ (tlZ_mem (al := al) hC), hev _ (tlZ'_mem (al := al) hC)] with z h1 h2
  exact (tlF_eq ha hC h1 h2).symm

/-! ### Boundary values everywhere -/

theorem sq_mul_log_tendsto : Tendsto (fun w : ℂ => w ^ 2 * Complex.log w) (𝓝 0) (𝓝 0) := by
  have hn : Tendsto (fun w : ℂ => ‖w‖) (𝓝 0) (𝓝 0) := by
    simpa using (continuous_norm (E := ℂ)).tendsto 0
  have hx : Tendsto (fun w : ℂ => ‖w‖ * Real.log ‖w‖) (𝓝 0) (𝓝 0) := by
    have := (Real.continuous_mul_log.tendsto 0).comp hn
    simp only [zero_mul] at this
    exact this
  refine squeeze_zero_norm (a := fun w : ℂ => ‖w‖ * |‖w‖ * Real.log ‖w‖| + Real.pi * ‖w‖ ^ 2) (fun w => ?_) ?_
  · have h1 : Complex.log w = (Real.log ‖w‖ : ℂ) + arg w * I := by
      apply Complex.ext <;> simp [Complex.log_re, Complex.log_im]
    have h2 : ‖Complex.log w‖ ≤ |Real.log ‖w‖| + Real.pi := by
      rw [h1]
      refine (norm_add_le _ _).trans ?_
      rw [norm_mul, Complex.norm_I, mul_one, Complex.norm_real, Complex.norm_real, Real.norm_eq_abs,
        Real.norm_eq_abs]
      gcongr
      exact Complex.abs_arg_le_pi w
    rw [norm_mul, norm_pow]
    calc ‖w‖ ^ 2 * ‖Complex.log w‖ ≤ ‖w‖ ^ 2 * (|Real.log ‖w‖| + Real.pi) := by gcongr
      _ = _ := by rw [abs_mul, abs_of_nonneg (norm_nonneg w)]; ring
  · have := (hn.mul hx.abs).add ((hn.pow 2).const_mul Real.pi)
    simpa using this

theorem tlF_boundary_gap (ha : 0 < al) (hC : 0 < C) (hg : 0 < g) :
    ∃ v, Boundary (tlF g al C) g v := by
  have hD : tlD al C g ≠ 0 := by
    rw [tlD_real]
    have : 0 < g * ((g ^ 2 - (al ^ 2 + C ^ 2) / 4) ^ 2 + C ^ 2 * g ^ 2) := by positivity
    exact_mod_cast this.ne'
  have hDc : Tendsto (tlD al C) (𝓝 (g : ℂ)) (𝓝 (tlD al C g)) := by
    have : Continuous (tlD al C) := by unfold tlD; fun_prop
    exact this.tendsto _
  have h1 : Tendsto (fun z : ℂ => (z - g) ^ 2 * Complex.log (g - z)) (𝓝 (g : ℂ)) (𝓝 0) := by
    have hs : Tendsto (fun z : ℂ => (g : ℂ) - z) (𝓝 (g : ℂ)) (𝓝 0) := by
      have hc : Continuous fun z : ℂ => (g : ℂ) - z := by fun_prop
      have := hc.tendsto (g : ℂ)
      simpa using this
    refine (sq_mul_log_tendsto.comp hs).congr fun z => ?_
    simp only [Function.comp_apply]; ring
  have h2 : ContinuousAt (fun z : ℂ => (z + g) ^ 2 * Complex.log (g + z)) (g : ℂ) := by
    refine ContinuousAt.mul (by fun_prop) (ContinuousAt.clog (by fun_prop) (.inl ?_))
    simp; linarith
  have h3 : ContinuousAt (fun z : ℂ => z * (tlP0 g al C + tlP1 g al C * z ^ 2)) (g : ℂ) := by fun_prop
  have hN : Tendsto (tlN g al C) (𝓝 (g : ℂ)) (𝓝 _) := (h1.sub h2.tendsto).add h3.tendsto
  refine ⟨_, ((hN.div hDc hD).mono_left nhdsWithin_le_nhds).congr' ?_⟩
  have hev : ∀ p ∈ upper, ∀ᶠ w in 𝓝[upper] (g : ℂ), w ≠ p := by
    intro p hp
    refine mem_nhdsWithin_of_mem_nhds (isOpen_ne.mem_nhds ?_)
    rintro rfl
    simp [upper] at hp
  filter_upwards [hev _ (tlZ_mem (al := al) hC), hev _ (tlZ'_mem (al := al) hC)] with z h1 h2
  exact (tlF_eq ha hC h1 h2).symm

theorem tlF_boundary_zero (ha : 0 < al) (hC : 0 < C) (hg : 0 < g) :
    ∃ v, Boundary (tlF g al C) (0 : ℝ) v := by
  have hN0 : tlN g al C 0 = 0 := by simp [tlN]
  have hd : DifferentiableAt ℂ (tlN g al C) 0 := by
    have h1 : DifferentiableAt ℂ (fun z : ℂ => Complex.log (g - z)) 0 :=
      DifferentiableAt.clog (by fun_prop) (.inl (by simpa using hg))
    have h2 : DifferentiableAt ℂ (fun z : ℂ => Complex.log (g + z)) 0 :=
      DifferentiableAt.clog (by fun_prop) (.inl (by simpa using hg))
    unfold tlN
    fun_prop
  have hs := hasDerivAt_iff_tendsto_slope.mp hd.hasDerivAt
  set q : ℂ → ℂ := fun z => (z ^ 2 - ((al : ℂ) ^ 2 + C ^ 2) / 4) ^ 2 + C ^ 2 * z ^ 2 with hq
  have hq0 : q 0 ≠ 0 := by
    have : 0 < ((al ^ 2 + C ^ 2) / 4) ^ 2 := by positivity
    have h2 : q 0 = ((((al ^ 2 + C ^ 2) / 4) ^ 2 : ℝ) : ℂ) := by simp [q]
    rw [h2]; exact_mod_cast this.ne'
  have hqc : Tendsto q (𝓝 0) (𝓝 (q 0)) := by
    have : Continuous q := by fun_prop
    exact this.tendsto _
  have hle : 𝓝[upper] ((0 : ℝ) : ℂ) ≤ 𝓝[≠] (0 : ℂ) := by
    rw [Complex.ofReal_zero]
    refine nhdsWithin_mono _ fun z hz => ?_
    rintro rfl
    simp [upper] at hz
  refine ⟨_, ((hs.mono_left hle).div (hqc.mono_left (hle.trans nhdsWithin_le_nhds)) hq0).congr' ?_⟩
  have hev : ∀ p ∈ upper, ∀ᶠ w in 𝓝[upper] ((0 : ℝ) : ℂ), w ≠ p := by
    intro p hp
    refine mem_nhdsWithin_of_mem_nhds (isOpen_ne.mem_nhds ?_)
    rintro rfl
    simp [upper] at hp
  filter_upwards [hev _ (tlZ_mem (al := al) hC), hev _ (tlZ'_mem (al := al) hC), self_mem_nhdsWithin]
    with z h1 h2 h3
  rw [tlF_eq ha hC h1 h2, Pi.div_apply, slope_def_field, hN0, sub_zero, sub_zero, div_div]
  rfl

end Verif.Disp
