import Mathlib.Analysis.Calculus.MeanValue
import Mathlib.MeasureTheory.Integral.IntervalIntegral.FundThmCalculus
import Mathlib.MeasureTheory.Integral.DominatedConvergence
import Mathlib.Analysis.SpecialFunctions.Integrals.Basic
import Mathlib.MeasureTheory.Integral.IntegralEqImproper
import Mathlib.MeasureTheory.Integral.ExpDecay
import Mathlib.Analysis.SpecialFunctions.ImproperIntegrals

/-! # Lemmas on the Kramers-Kronig transform: the midpoint rule for the difference quotient -/

namespace Verif.Disp

open MeasureTheory

section Midpoint

variable {F F1 F2 F3 : ℝ → ℝ} {M : ℝ}

theorem lip_of_deriv {G G1 : ℝ → ℝ} {C : ℝ} (h : ∀ x, HasDerivAt G (G1 x) x) (hC : ∀ x, |G1 x| ≤ C) (x y : ℝ) :
    |G y - G x| ≤ C * |y - x| :=
  Convex.norm_image_sub_le_of_norm_hasDerivWithin_le (s := Set.univ) (f := G) (f' := G1)
    (fun z _ => (h z).hasDerivWithinAt) (fun z _ => hC z) convex_univ (Set.mem_univ x) (Set.mem_univ y)

theorem taylor2 (h2 : ∀ x, HasDerivAt F1 (F2 x) x) (h3 : ∀ x, HasDerivAt F2 (F3 x) x) (hM : ∀ x, |F3 x| ≤ M)
    (w u : ℝ) : |F1 u - F1 w - (u - w) * F2 w| ≤ M * (u - w) ^ 2 := by
  have key := Convex.norm_image_sub_le_of_norm_hasDerivWithin_le (s := Set.uIcc w u)
    (f := fun x => F1 x - x * F2 w) (f' := fun x => F2 x - F2 w) (C := M * |u - w|)
    (fun z _ => ((h2 z).sub (by simpa using (hasDerivAt_id z).mul_const (F2 w))).hasDerivWithinAt)
    (fun z hz => ?_) (convex_uIcc _ _) Set.left_mem_uIcc Set.right_mem_uIcc
  · simp only [Real.norm_eq_abs] at key
    rw [mul_assoc, ← sq, sq_abs] at key
    rw [show F1 u - F1 w - (u - w) * F2 w = F1 u - u * F2 w - (F1 w - w * F2 w) by ring]
    exact key
  · rw [Real.norm_eq_abs]
    refine (lip_of_deriv h3 hM w z).trans (mul_le_mul_of_nonneg_left ?_ ((abs_nonneg _).trans (hM 0)))
    exact Set.abs_sub_left_of_mem_uIcc hz

/-- The difference quotient as an average of the derivative. -/
noncomputable def avg (F1 : ℝ → ℝ) (y : ℝ) : ℝ := ∫ t in (0 : ℝ)..1, F1 (t * y)

theorem avg_eq (h1 : ∀ x, HasDerivAt F (F1 x) x) (hc : Continuous F1) (h0 : F 0 = 0) {y : ℝ} (hy : y ≠ 0) :
    avg F1 y = F y / y := by
  unfold avg
  rw [intervalIntegral.integral_comp_mul_right _ hy, zero_mul, one_mul,
    intervalIntegral.integral_eq_sub_of_hasDerivAt (fun x _ => h1 x) (hc.intervalIntegrable _ _), h0, sub_zero,
    smul_eq_mul, inv_mul_eq_div]

theorem avg_continuous (hc : Continuous F1) : Continuous (avg F1) := by
  unfold avg
  exact intervalIntegral.continuous_parametric_intervalIntegral_of_continuous' (by fun_prop) _ _

theorem avg_taylor (h2 : ∀ x, HasDerivAt F1 (F2 x) x) (h3 : ∀ x, HasDerivAt F2 (F3 x) x) (hM : ∀ x, |F3 x| ≤ M)
    (c y : ℝ) : |avg F1 y - avg F1 c - (y - c) * ∫ t in (0 : ℝ)..1, t * F2 (t * c)| ≤ M / 3 * (y - c) ^ 2 := by
  have c1 : Continuous F1 := continuous_iff_continuousAt.2 fun x => (h2 x).continuousAt
  have c2 : Continuous F2 := continuous_iff_continuousAt.2 fun x => (h3 x).continuousAt
  unfold avg
  rw [← intervalIntegral.integral_const_mul, ← intervalIntegral.integral_sub, ← intervalIntegral.integral_sub]
  rotate_left
  · exact Continuous.intervalIntegrable (by fun_prop) _ _
  · exact Continuous.intervalIntegrable (by fun_prop) _ _
  · exact Continuous.intervalIntegrable (by fun_prop) _ _
  · exact Continuous.intervalIntegrable (by fun_prop) _ _
  have hb : ∀ t ∈ Set.Ioc (0 : ℝ) 1,
      ‖F1 (t * y) - F1 (t * c) - (y - c) * (t * F2 (t * c))‖ ≤ M * (y - c) ^ 2 * t ^ 2 := by
    intro t _
    have := taylor2 h2 h3 hM (t * c) (t * y)
    rw [Real.norm_eq_abs]
    refine le_trans (le_of_eq ?_) (this.trans (le_of_eq ?_))
    · congr 1; ring
    · ring
  have := intervalIntegral.norm_integral_le_of_norm_le (μ := volume) zero_le_one
    (Filter.Eventually.of_forall hb) (Continuous.intervalIntegrable (by fun_prop) _ _)
  rw [Real.norm_eq_abs] at this
  refine this.trans (le_of_eq ?_)
  rw [intervalIntegral.integral_const_mul, integral_pow]
  norm_num
  ring

/-- The midpoint rule for the difference quotient on one cell. -/
theorem midpoint (h1 : ∀ x, HasDerivAt F (F1 x) x) (h2 : ∀ x, HasDerivAt F1 (F2 x) x)
    (h3 : ∀ x, HasDerivAt F2 (F3 x) x) (hM : ∀ x, |F3 x| ≤ M) (h0 : F 0 = 0) {h c : ℝ} (hh : 0 < h) (hc : h ≤ c) :
    |(∫ y in (c - h)..(c + h), F y / y) - 2 * h * (F c / c)| ≤ 2 * M / 9 * h ^ 3 := by
  have c1 : Continuous F1 := continuous_iff_continuousAt.2 fun x => (h2 x).continuousAt
  have e1 : ∫ y in (c - h)..(c + h), F y / y = ∫ y in (c - h)..(c + h), avg F1 y := by
    rw [intervalIntegral.integral_of_le (by linarith), intervalIntegral.integral_of_le (by linarith)]
    refine setIntegral_congr_fun measurableSet_Ioc fun y hy => ?_
    exact (avg_eq h1 c1 h0 (by have := hy.1; intro h; linarith)).symm
  rw [e1, ← avg_eq h1 c1 h0 (by intro h; linarith : c ≠ 0)]
  set K := ∫ t in (0 : ℝ)..1, t * F2 (t * c) with hK
  have e2 : ∫ y in (c - h)..(c + h), (avg F1 c + (y - c) * K) = 2 * h * avg F1 c := by
    rw [intervalIntegral.integral_add (by simp) (Continuous.intervalIntegrable (by fun_prop) _ _)]
    rw [intervalIntegral.integral_const, intervalIntegral.integral_mul_const,
      intervalIntegral.integral_sub (by simp) (by simp), integral_id, intervalIntegral.integral_const]
    simp only [smul_eq_mul]
    ring
  have hcont := avg_continuous c1
  rw [← e2, ← intervalIntegral.integral_sub (hcont.intervalIntegrable _ _)
    (Continuous.intervalIntegrable (by fun_prop) _ _)]
  have hb : ∀ y ∈ Set.Ioc (c - h) (c + h),
      ‖avg F1 y - (avg F1 c + (y - c) * K)‖ ≤ M / 3 * (y - c) ^ 2 := by
    intro y _
    rw [Real.norm_eq_abs, ← sub_sub]
    exact avg_taylor h2 h3 hM c y
  have := intervalIntegral.norm_integral_le_of_norm_le (μ := volume) (by linarith : c - h ≤ c + h)
    (Filter.Eventually.of_forall hb) (Continuous.intervalIntegrable (by fun_prop) _ _)
  rw [Real.norm_eq_abs] at this
  refine this.trans (le_of_eq ?_)
  rw [intervalIntegral.integral_const_mul, intervalIntegral.integral_comp_sub_right (fun x => x ^ 2), integral_pow]
  ring

/-- The midpoint rule for the difference quotient on `N` cells. -/
theorem midpoint_sum (h1 : ∀ x, HasDerivAt F (F1 x) x) (h2 : ∀ x, HasDerivAt F1 (F2 x) x)
    (h3 : ∀ x, HasDerivAt F2 (F3 x) x) (hM : ∀ x, |F3 x| ≤ M) (h0 : F 0 = 0) {h : ℝ} (hh : 0 < h) (N : ℕ) :
    |(∫ y in (0 : ℝ)..(2 * N * h), F y / y) -
      ∑ j ∈ Finset.range N, 2 * h * (F ((2 * j + 1) * h) / ((2 * j + 1) * h))| ≤ N * (2 * M / 9 * h ^ 3) := by
  have c1 : Continuous F1 := continuous_iff_continuousAt.2 fun x => (h2 x).continuousAt
  have hint : ∀ a b : ℝ, IntervalIntegrable (fun y => F y / y) volume a b := by
    intro a b
    refine ((avg_continuous c1).intervalIntegrable a b).congr_ae ?_
    refine Filter.Eventually.filter_mono (ae_mono Measure.restrict_le_self) ?_
    filter_upwards [compl_mem_ae_iff.2 (measure_singleton (μ := (volume : Measure ℝ)) 0)] with y hy
    exact avg_eq h1 c1 h0 hy
  have hs := intervalIntegral.sum_integral_adjacent_intervals (μ := volume) (f := fun y => F y / y)
    (a := fun j : ℕ => 2 * (j : ℝ) * h) (n := N) fun k _ => hint _ _
  simp only [Nat.cast_zero, mul_zero, zero_mul] at hs
  rw [← hs, ← Finset.sum_sub_distrib]
  refine (Finset.abs_sum_le_sum_abs _ _).trans ?_
  refine (Finset.sum_le_card_nsmul _ _ (2 * M / 9 * h ^ 3) fun j _ => ?_).trans (by simp)
  have := midpoint h1 h2 h3 hM h0 hh (c := (2 * j + 1) * h) (by nlinarith [(Nat.cast_nonneg j : (0 : ℝ) ≤ j)])
  refine le_trans (le_of_eq ?_) this
  congr 3 <;> push_cast <;> ring

end Midpoint

/-! ### The Kramers-Kronig transform -/

/-- The Kramers-Kronig transform of `f` at `e`: the principal value of `(1/π) ∫ f x / (x - e) dx`, with the
contributions at equal distances on both sides of `e` taken together. -/
noncomputable def kkTransform (f : ℝ → ℝ) (e : ℝ) : ℝ :=
  1 / Real.pi * ∫ y in Set.Ioi (0 : ℝ), (f (e + y) - f (e - y)) / y

section Tail

variable {f : ℝ → ℝ} {τ e P : ℝ}

theorem tail_term (hf : ∀ x, 20 ≤ |x| → |f x| ≤ τ * Real.exp (-(|x| - 20))) (he : |e| ≤ 10) {y : ℝ} (hy : 40 ≤ y) :
    |(f (e + y) - f (e - y)) / y| ≤ τ / 20 * Real.exp 30 * Real.exp (-y) := by
  have h0 : 0 ≤ τ := by
    have := (abs_nonneg _).trans (hf 20 (by norm_num))
    simpa using this
  have hb : ∀ x, y - 10 ≤ |x| → |f x| ≤ τ * (Real.exp 30 * Real.exp (-y)) := by
    intro x hx
    refine (hf x (by linarith)).trans (mul_le_mul_of_nonneg_left ?_ h0)
    rw [← Real.exp_add]
    exact Real.exp_le_exp.2 (by linarith)
  have a := abs_le.1 he
  have h1 := hb (e + y) (by rw [abs_of_nonneg (by linarith)]; linarith)
  have h2 := hb (e - y) (by rw [abs_of_nonpos (by linarith)]; linarith)
  have h3 : |f (e + y) - f (e - y)| ≤ 2 * (τ * (Real.exp 30 * Real.exp (-y))) := by
    have := abs_sub (f (e + y)) (f (e - y))
    linarith
  rw [abs_div, abs_of_pos (by linarith : 0 < y), div_le_iff₀ (by linarith)]
  have h4 : 0 ≤ τ * (Real.exp 30 * Real.exp (-y)) := by positivity
  nlinarith

theorem tail (hc : Continuous f) (hf : ∀ x, 20 ≤ |x| → |f x| ≤ τ * Real.exp (-(|x| - 20))) (he : |e| ≤ 10)
    (hP : 40 ≤ P) : IntegrableOn (fun y => (f (e + y) - f (e - y)) / y) (Set.Ioi P) ∧
      |∫ y in Set.Ioi P, (f (e + y) - f (e - y)) / y| ≤ τ / 20 := by
  have h0 : 0 ≤ τ := by
    have := (abs_nonneg _).trans (hf 20 (by norm_num))
    simpa using this
  have hi : IntegrableOn (fun y => τ / 20 * Real.exp 30 * Real.exp (-y)) (Set.Ioi P) := by
    refine Integrable.const_mul ?_ _
    exact integrableOn_exp_neg_Ioi P
  have hb : ∀ᵐ y ∂(volume.restrict (Set.Ioi P)), ‖(f (e + y) - f (e - y)) / y‖ ≤
      τ / 20 * Real.exp 30 * Real.exp (-y) := by
    filter_upwards [ae_restrict_mem measurableSet_Ioi] with y hy
    exact tail_term hf he (hP.trans (le_of_lt hy))
  have hm : AEStronglyMeasurable (fun y => (f (e + y) - f (e - y)) / y) (volume.restrict (Set.Ioi P)) := by
    refine ContinuousOn.aestronglyMeasurable ?_ measurableSet_Ioi
    refine ContinuousOn.div (by fun_prop) continuousOn_id fun y hy => ?_
    have : P < y := hy
    intro h
    have : y = 0 := h
    linarith
  refine ⟨Integrable.mono' hi hm hb, ?_⟩
  have := norm_integral_le_of_norm_le hi hb
  rw [Real.norm_eq_abs] at this
  refine this.trans ?_
  rw [integral_const_mul, integral_exp_neg_Ioi, mul_assoc, ← Real.exp_add]
  have : Real.exp (30 + -P) ≤ 1 := Real.exp_le_one_iff.2 (by linarith)
  nlinarith

end Tail

/-! ### The sum over the knots at odd distances -/

theorem sum_odd_split (N n : ℕ) (hn : n < 2 * N) (a : ℕ → ℝ) :
    ∑ m ∈ (Finset.range (2 * N)).filter (fun m => Odd (n + m)), a m =
      ∑ j ∈ (Finset.range N).filter (fun j => n + (2 * j + 1) < 2 * N), a (n + (2 * j + 1)) +
      ∑ j ∈ (Finset.range N).filter (fun j => 2 * j + 1 ≤ n), a (n - (2 * j + 1)) := by
  rw [← Finset.sum_filter_add_sum_filter_not _ (fun m => n < m)]
  congr 1
  · refine Finset.sum_nbij' (fun m => (m - n - 1) / 2) (fun j => n + (2 * j + 1)) ?_ ?_ ?_ ?_ ?_
    · intro m hm
      simp only [Finset.mem_filter, Finset.mem_range] at hm ⊢
      obtain ⟨⟨h1, k, hk⟩, h3⟩ := hm
      omega
    · intro j hj
      simp only [Finset.mem_filter, Finset.mem_range] at hj ⊢
      exact ⟨⟨hj.2, ⟨n + j, by omega⟩⟩, by omega⟩
    · intro m hm
      simp only [Finset.mem_filter, Finset.mem_range] at hm
      obtain ⟨⟨h1, k, hk⟩, h3⟩ := hm
      omega
    · intro j hj
      omega
    · intro m hm
      simp only [Finset.mem_filter, Finset.mem_range] at hm
      obtain ⟨⟨h1, k, hk⟩, h3⟩ := hm
      congr 1
      omega
  · refine Finset.sum_nbij' (fun m => (n - m - 1) / 2) (fun j => n - (2 * j + 1)) ?_ ?_ ?_ ?_ ?_
    · intro m hm
      simp only [Finset.mem_filter, Finset.mem_range] at hm ⊢
      obtain ⟨⟨h1, k, hk⟩, h3⟩ := hm
      omega
    · intro j hj
      simp only [Finset.mem_filter, Finset.mem_range] at hj ⊢
      exact ⟨⟨by omega, ⟨n - j - 1, by omega⟩⟩, by omega⟩
    · intro m hm
      simp only [Finset.mem_filter, Finset.mem_range] at hm
      obtain ⟨⟨h1, k, hk⟩, h3⟩ := hm
      omega
    · intro j hj
      simp only [Finset.mem_filter, Finset.mem_range] at hj
      omega
    · intro m hm
      simp only [Finset.mem_filter, Finset.mem_range] at hm
      obtain ⟨⟨h1, k, hk⟩, h3⟩ := hm
      congr 1
      omega

/-- A knot of the grid. -/
noncomputable def knot (m : ℕ) : ℝ := -20 + 40 * m / 2047

/-- The knots at odd distances are the midpoint rule for the difference quotient, up to what is outside of the
grid. -/
theorem odd_sum {f : ℝ → ℝ} {τ : ℝ} (hf : ∀ x, 20 ≤ |x| → |f x| ≤ τ * Real.exp (-(|x| - 20)))
    {N n : ℕ} (hN : (N : ℝ) = 1024) (hn : n < 2 * N) (he : |knot n| ≤ 10) :
    |∑ j ∈ Finset.range N, 2 * (40 / 2047) * ((f (knot n + (2 * j + 1) * (40 / 2047)) -
        f (knot n - (2 * j + 1) * (40 / 2047))) / ((2 * j + 1) * (40 / 2047))) -
      2 * ∑ m ∈ (Finset.range (2 * N)).filter (fun m => Odd (n + m)), f (knot m) / ((m : ℝ) - n)| ≤ 9 / 2 * τ + 4 * τ := by
  have h0 : 0 ≤ τ := by
    have := (abs_nonneg _).trans (hf 20 (by norm_num))
    simpa using this
  have hf' : ∀ x, 20 ≤ |x| → |f x| ≤ τ := by
    intro x hx
    refine (hf x hx).trans (mul_le_of_le_one_right h0 (Real.exp_le_one_iff.2 (by linarith)))
  obtain ⟨e1, e2⟩ := abs_le.1 he
  rw [sum_odd_split N n hn]
  have hp : ∑ j ∈ (Finset.range N).filter (fun j => n + (2 * j + 1) < 2 * N),
      f (knot (n + (2 * j + 1))) / (((n + (2 * j + 1) : ℕ) : ℝ) - n) =
      ∑ j ∈ (Finset.range N).filter (fun j => n + (2 * j + 1) < 2 * N),
        f (knot n + (2 * j + 1) * (40 / 2047)) / (2 * j + 1) := by
    refine Finset.sum_congr rfl fun j _ => ?_
    congr 1
    · congr 1
      unfold knot
      push_cast
      ring
    · push_cast
      ring
  have hm : ∑ j ∈ (Finset.range N).filter (fun j => 2 * j + 1 ≤ n),
      f (knot (n - (2 * j + 1))) / (((n - (2 * j + 1) : ℕ) : ℝ) - n) =
      -∑ j ∈ (Finset.range N).filter (fun j => 2 * j + 1 ≤ n),
        f (knot n - (2 * j + 1) * (40 / 2047)) / (2 * j + 1) := by
    rw [← Finset.sum_neg_distrib]
    refine Finset.sum_congr rfl fun j hj => ?_
    simp only [Finset.mem_filter, Finset.mem_range] at hj
    rw [← div_neg]
    congr 1
    · congr 1
      unfold knot
      rw [Nat.cast_sub hj.2]
      push_cast
      ring
    · rw [Nat.cast_sub hj.2]
      push_cast
      ring
  rw [hp, hm]
  have hall : ∑ j ∈ Finset.range N, 2 * (40 / 2047) * ((f (knot n + (2 * j + 1) * (40 / 2047)) -
        f (knot n - (2 * j + 1) * (40 / 2047))) / ((2 * j + 1) * (40 / 2047))) =
      2 * (∑ j ∈ Finset.range N, f (knot n + (2 * j + 1) * (40 / 2047)) / (2 * (j : ℝ) + 1) -
        ∑ j ∈ Finset.range N, f (knot n - (2 * j + 1) * (40 / 2047)) / (2 * (j : ℝ) + 1)) := by
    rw [← Finset.sum_sub_distrib, Finset.mul_sum]
    refine Finset.sum_congr rfl fun j _ => ?_
    have : (2 * (j : ℝ) + 1) ≠ 0 := by positivity
    field_simp
  rw [hall, ← Finset.sum_filter_add_sum_filter_not (Finset.range N) (fun j => n + (2 * j + 1) < 2 * N),
    ← Finset.sum_filter_add_sum_filter_not (Finset.range N) (fun j => 2 * j + 1 ≤ n)]
  have hk : ∀ (x : ℝ) (j : ℕ), 20 ≤ |x| → 10 ≤ (2 * (j : ℝ) + 1) * (40 / 2047) →
      |f x / (2 * (j : ℝ) + 1)| ≤ τ / 500 := by
    intro x j h1 h2
    have h3 : (500 : ℝ) ≤ 2 * j + 1 := by linarith
    rw [abs_div, abs_of_pos (by linarith : (0 : ℝ) < 2 * j + 1)]
    exact div_le_div₀ h0 (hf' x h1) (by norm_num) h3
  have b1 : |∑ j ∈ (Finset.range N).filter (fun j => ¬ n + (2 * j + 1) < 2 * N),
      f (knot n + (2 * j + 1) * (40 / 2047)) / (2 * (j : ℝ) + 1)| ≤ 1024 * (τ / 500) := by
    refine (Finset.abs_sum_le_sum_abs _ _).trans ?_
    refine (Finset.sum_le_card_nsmul _ _ (τ / 500) fun j hj => ?_).trans ?_
    · simp only [Finset.mem_filter, Finset.mem_range, not_lt] at hj
      have hq : 2 * (N : ℝ) ≤ n + (2 * j + 1) := by exact_mod_cast hj.2
      rw [hN] at hq
      have hx : 20 ≤ knot n + (2 * j + 1) * (40 / 2047) := by
        unfold knot
        linarith
      exact hk _ _ (hx.trans (le_abs_self _)) (by linarith)
    · rw [nsmul_eq_mul]
      refine mul_le_mul_of_nonneg_right ?_ (by positivity)
      rw [← hN]
      exact_mod_cast (Finset.card_filter_le _ _).trans (by simp)
  have b2 : |∑ j ∈ (Finset.range N).filter (fun j => ¬ 2 * j + 1 ≤ n),
      f (knot n - (2 * j + 1) * (40 / 2047)) / (2 * (j : ℝ) + 1)| ≤ 1024 * (τ / 500) := by
    refine (Finset.abs_sum_le_sum_abs _ _).trans ?_
    refine (Finset.sum_le_card_nsmul _ _ (τ / 500) fun j hj => ?_).trans ?_
    · simp only [Finset.mem_filter, Finset.mem_range, not_le] at hj
      have hq : (n : ℝ) + 1 ≤ 2 * j + 1 := by exact_mod_cast hj.2
      have hx : knot n - (2 * j + 1) * (40 / 2047) ≤ -20 := by
        unfold knot
        linarith
      exact hk _ _ ((by linarith : (20 : ℝ) ≤ -(knot n - (2 * j + 1) * (40 / 2047))).trans (neg_le_abs _)) (by linarith)
    · rw [nsmul_eq_mul]
      refine mul_le_mul_of_nonneg_right ?_ (by positivity)
      rw [← hN]
      exact_mod_cast (Finset.card_filter_le _ _).trans (by simp)
  rw [abs_le] at b1 b2 ⊢
  constructor <;> linarith [b1.1, b1.2, b2.1, b2.2]

/-- The sum over the knots at odd distances approximates the Kramers-Kronig transform. -/
theorem kk_grid {f f1 f2 f3 : ℝ → ℝ} {M τ : ℝ} (h1 : ∀ x, HasDerivAt f (f1 x) x) (h2 : ∀ x, HasDerivAt f1 (f2 x) x)
    (h3 : ∀ x, HasDerivAt f2 (f3 x) x) (hM : ∀ x, |f3 x| ≤ M)
    (hf : ∀ x, 20 ≤ |x| → |f x| ≤ τ * Real.exp (-(|x| - 20))) {n : ℕ} (hn : n < 2048) (he : |knot n| ≤ 10) :
    IntegrableOn (fun y => (f (knot n + y) - f (knot n - y)) / y) (Set.Ioi 0) ∧
    |2 / Real.pi * ∑ m ∈ (Finset.range 2048).filter (fun m => Odd (n + m)), f (knot m) / ((m : ℝ) - n) -
      kkTransform f (knot n)| ≤ 1 / Real.pi * (1024 * (4 * M / 9 * (40 / 2047) ^ 3) + 9 * τ) := by
  have hc : Continuous f := continuous_iff_continuousAt.2 fun x => (h1 x).continuousAt
  have c1 : Continuous f1 := continuous_iff_continuousAt.2 fun x => (h2 x).continuousAt
  have h0 : 0 ≤ τ := by
    have := (abs_nonneg _).trans (hf 20 (by norm_num))
    simpa using this
  obtain ⟨e, hed⟩ : ∃ e, e = knot n := ⟨_, rfl⟩
  have hsum := odd_sum (N := 1024) hf (by norm_num) hn he
  rw [show 2 * 1024 = 2048 from rfl] at hsum
  rw [← hed] at he hsum ⊢
  obtain ⟨F, hF⟩ : ∃ F : ℝ → ℝ, F = fun y => f (e + y) - f (e - y) := ⟨_, rfl⟩
  have hp : ∀ {g g1 : ℝ → ℝ}, (∀ x, HasDerivAt g (g1 x) x) → ∀ y, HasDerivAt (fun y => g (e + y)) (g1 (e + y)) y :=
    fun {g g1} hg y => (hg (e + y)).comp_const_add e y
  have hq : ∀ {g g1 : ℝ → ℝ}, (∀ x, HasDerivAt g (g1 x) x) → ∀ y, HasDerivAt (fun y => g (e - y)) (-g1 (e - y)) y :=
    fun {g g1} hg y => (hg (e - y)).comp_const_sub e y
  have d1 : ∀ y, HasDerivAt F (f1 (e + y) + f1 (e - y)) y := by
    intro y
    rw [hF]
    exact ((hp h1 y).fun_sub (hq h1 y)).congr_deriv (by ring)
  have d2 : ∀ y, HasDerivAt (fun y => f1 (e + y) + f1 (e - y)) (f2 (e + y) - f2 (e - y)) y := by
    intro y
    exact ((hp h2 y).fun_add (hq h2 y)).congr_deriv (by ring)
  have d3 : ∀ y, HasDerivAt (fun y => f2 (e + y) - f2 (e - y)) (f3 (e + y) + f3 (e - y)) y := by
    intro y
    exact ((hp h3 y).fun_sub (hq h3 y)).congr_deriv (by ring)
  have hM' : ∀ y, |f3 (e + y) + f3 (e - y)| ≤ 2 * M := by
    intro y
    have := abs_add_le (f3 (e + y)) (f3 (e - y))
    linarith [hM (e + y), hM (e - y)]
  have hF0 : F 0 = 0 := by rw [hF]; simp
  have key := midpoint_sum d1 d2 d3 hM' hF0 (h := 40 / 2047) (by norm_num) 1024
  obtain ⟨P, hPd⟩ : ∃ P : ℝ, P = 2 * (1024 : ℕ) * (40 / 2047) := ⟨_, rfl⟩
  have hP : 40 ≤ P := by rw [hPd]; norm_num
  obtain ⟨t1, t2⟩ := tail (P := P) hc hf he hP
  rw [← hPd] at key
  have hcont : Continuous (avg fun y => f1 (e + y) + f1 (e - y)) := avg_continuous (by fun_prop)
  have hi : IntegrableOn (fun y => F y / y) (Set.Ioc 0 P) := by
    have : IntegrableOn (avg fun y => f1 (e + y) + f1 (e - y)) (Set.Ioc 0 P) :=
      (hcont.intervalIntegrable 0 P).1
    refine this.congr_fun (fun y hy => ?_) measurableSet_Ioc
    exact avg_eq d1 (by fun_prop) hF0 hy.1.ne'
  have hFe : ∀ y, (f (e + y) - f (e - y)) / y = F y / y := by intro y; rw [hF]
  simp only [hFe] at t1 t2
  have hu : Set.Ioc 0 P ∪ Set.Ioi P = Set.Ioi (0 : ℝ) := Set.Ioc_union_Ioi_eq_Ioi (by linarith)
  have hdis : Disjoint (Set.Ioc 0 P) (Set.Ioi P) := Set.Ioc_disjoint_Ioi le_rfl
  refine ⟨?_, ?_⟩
  · simp only [hFe]
    rw [← hu]
    exact hi.union t1
  · have hk : kkTransform f e = 1 / Real.pi * ((∫ y in (0 : ℝ)..P, F y / y) + ∫ y in Set.Ioi P, F y / y) := by
      unfold kkTransform
      simp only [hFe]
      rw [← hu, setIntegral_union hdis measurableSet_Ioi hi t1, intervalIntegral.integral_of_le (by linarith)]
    rw [hk, show ∀ a b : ℝ, 2 / Real.pi * a - 1 / Real.pi * b = 1 / Real.pi * (2 * a - b) by intros; ring, abs_mul,
      abs_of_pos (by positivity)]
    refine mul_le_mul_of_nonneg_left ?_ (by positivity)
    have hFs : ∀ j : ℕ, F ((2 * j + 1) * (40 / 2047)) = f (e + (2 * j + 1) * (40 / 2047)) -
      f (e - (2 * j + 1) * (40 / 2047)) := by intro j; rw [hF]
    simp only [hFs] at key
    push_cast at key
    rw [abs_le] at key t2 hsum ⊢
    constructor <;> linarith [key.1, key.2, t2.1, t2.2, hsum.1, hsum.2]

end Verif.Disp
