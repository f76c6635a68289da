import Verif.Disp.KK
import Verif.Disp.PropsStatic
import Mathlib.Analysis.Real.Pi.Bounds
import Mathlib.Analysis.Complex.ExponentialBounds

/-!
# C137: Gauss oscillators and the Kramers-Kronig relation

`Gauss` is documented as Kramers-Kronig consistent.  Its real part is a periodic Hilbert transform (period
40 eV) of 2048 samples of the imaginary part, interpolated linearly.
-/

namespace Verif.Disp

open MeasureTheory

/-! ### Gaussians -/

/-- The width of a Gaussian of full width `br` at half maximum. -/
noncomputable def bellWidth (br : ℝ) : ℝ := br / 2 / Real.sqrt (Real.log 2)

/-- The documented imaginary part of the dielectric function. -/
noncomputable def absorption (osc : List (ℝ × ℝ × ℝ)) (x : ℝ) : ℝ :=
  (osc.map fun o => o.1 * Real.exp (-((x - o.2.2) / bellWidth o.2.1) ^ 2) -
    o.1 * Real.exp (-((x + o.2.2) / bellWidth o.2.1) ^ 2)).sum

theorem bell_deriv {p : ℝ → ℝ} {q c s x : ℝ} (hp : HasDerivAt p q ((x - c) / s)) :
    HasDerivAt (fun x => p ((x - c) / s) * Real.exp (-((x - c) / s) ^ 2))
      ((q - 2 * ((x - c) / s) * p ((x - c) / s)) / s * Real.exp (-((x - c) / s) ^ 2)) x := by
  have h1 : HasDerivAt (fun x : ℝ => (x - c) / s) (1 / s) x := ((hasDerivAt_id x).sub_const c).div_const s
  have h2 : HasDerivAt (fun x => p ((x - c) / s)) (q * (1 / s)) x := hp.comp x h1
  have h3 : HasDerivAt (fun x : ℝ => Real.exp (-((x - c) / s) ^ 2))
      (Real.exp (-((x - c) / s) ^ 2) * (-(2 * ((x - c) / s) * (1 / s)))) x := by
    refine HasDerivAt.exp ?_
    have := (h1.fun_pow 2).fun_neg
    exact this.congr_deriv (by norm_num)
  exact (h2.fun_mul h3).congr_deriv (by ring)

/-- Three times differentiable with third derivative at most `M`, and at most `τ exp(20 - |x|)` beyond 20. -/
def Tame (f : ℝ → ℝ) (M τ : ℝ) : Prop :=
  ∃ f1 f2 f3 : ℝ → ℝ, (∀ x, HasDerivAt f (f1 x) x) ∧ (∀ x, HasDerivAt f1 (f2 x) x) ∧ (∀ x, HasDerivAt f2 (f3 x) x) ∧
    (∀ x, |f3 x| ≤ M) ∧ ∀ x, 20 ≤ |x| → |f x| ≤ τ * Real.exp (-(|x| - 20))

theorem Tame.zero : Tame (fun _ => 0) 0 0 :=
  ⟨fun _ => 0, fun _ => 0, fun _ => 0, fun x => hasDerivAt_const x 0, fun x => hasDerivAt_const x 0,
    fun x => hasDerivAt_const x 0, by simp, by simp⟩

theorem Tame.add {f g : ℝ → ℝ} {M τ M' τ' : ℝ} (hf : Tame f M τ) (hg : Tame g M' τ') :
    Tame (fun x => f x + g x) (M + M') (τ + τ') := by
  obtain ⟨f1, f2, f3, a1, a2, a3, a4, a5⟩ := hf
  obtain ⟨g1, g2, g3, b1, b2, b3, b4, b5⟩ := hg
  refine ⟨_, _, _, fun x => (a1 x).fun_add (b1 x), fun x => (a2 x).fun_add (b2 x), fun x => (a3 x).fun_add (b3 x),
    fun x => (abs_add_le _ _).trans (add_le_add (a4 x) (b4 x)), fun x hx => ?_⟩
  rw [add_mul]
  exact (abs_add_le _ _).trans (add_le_add (a5 x hx) (b5 x hx))

theorem Tame.mul {f : ℝ → ℝ} {M τ : ℝ} (hf : Tame f M τ) (a : ℝ) : Tame (fun x => a * f x) (|a| * M) (|a| * τ) := by
  obtain ⟨f1, f2, f3, a1, a2, a3, a4, a5⟩ := hf
  refine ⟨_, _, _, fun x => (a1 x).const_mul a, fun x => (a2 x).const_mul a, fun x => (a3 x).const_mul a,
    fun x => ?_, fun x hx => ?_⟩
  · rw [abs_mul]
    exact mul_le_mul_of_nonneg_left (a4 x) (abs_nonneg a)
  · rw [abs_mul, mul_assoc]
    exact mul_le_mul_of_nonneg_left (a5 x hx) (abs_nonneg a)

theorem cubic_bound (u : ℝ) : |12 * u - 8 * u ^ 3| * Real.exp (-u ^ 2) ≤ 5 := by
  have h1 : 1 + u ^ 2 + (u ^ 2) ^ 2 / 2 ≤ Real.exp (u ^ 2) := Real.quadratic_le_exp_of_nonneg (sq_nonneg u)
  rw [Real.exp_neg, ← div_eq_mul_inv, div_le_iff₀ (Real.exp_pos _)]
  refine le_trans ?_ (mul_le_mul_of_nonneg_left h1 (by norm_num))
  rw [abs_le]
  constructor
  · nlinarith [sq_nonneg (u ^ 2 + 8 / 5 * u - 1), sq_nonneg (u ^ 2 - 8 / 5 * u - 1), sq_nonneg (u - 1), sq_nonneg (u + 1),
      sq_nonneg u, sq_nonneg (u ^ 2 - 8 / 5 * u), sq_nonneg (2 * u - 1)]
  · nlinarith [sq_nonneg (u ^ 2 + 8 / 5 * u - 1), sq_nonneg (u ^ 2 - 8 / 5 * u - 1), sq_nonneg (u - 1), sq_nonneg (u + 1),
      sq_nonneg u, sq_nonneg (u ^ 2 + 8 / 5 * u), sq_nonneg (2 * u - 1)]

theorem Tame.bell {c s : ℝ} (hs : 0 < s) (hs2 : s ≤ 2) (hc : |c| ≤ 10) :
    Tame (fun x => Real.exp (-((x - c) / s) ^ 2)) (5 / s ^ 3) (Real.exp (-25)) := by
  refine ⟨fun x => (-2 * ((x - c) / s) / s) * Real.exp (-((x - c) / s) ^ 2),
    fun x => ((4 * ((x - c) / s) ^ 2 - 2) / s ^ 2) * Real.exp (-((x - c) / s) ^ 2),
    fun x => ((12 * ((x - c) / s) - 8 * ((x - c) / s) ^ 3) / s ^ 3) * Real.exp (-((x - c) / s) ^ 2),
    fun x => ?_, fun x => ?_, fun x => ?_, fun x => ?_, fun x hx => ?_⟩
  · have := bell_deriv (p := fun _ => 1) (c := c) (s := s) (x := x) (hasDerivAt_const _ 1)
    simp only [one_mul] at this
    exact this.congr_deriv (by ring)
  · have h : HasDerivAt (fun u : ℝ => -2 * u / s) (-2 / s) ((x - c) / s) := by
      simpa using ((hasDerivAt_id ((x - c) / s)).const_mul (-2)).div_const s
    refine (bell_deriv h).congr_deriv ?_
    field_simp
    ring
  · have h : HasDerivAt (fun u : ℝ => (4 * u ^ 2 - 2) / s ^ 2) (8 * ((x - c) / s) / s ^ 2) ((x - c) / s) := by
      have := ((((hasDerivAt_id ((x - c) / s)).fun_pow 2).const_mul 4).sub_const 2).div_const (s ^ 2)
      refine this.congr_deriv ?_
      norm_num
      ring
    refine (bell_deriv h).congr_deriv ?_
    field_simp
    ring
  · rw [abs_mul, abs_div, abs_of_pos (Real.exp_pos _), abs_of_pos (by positivity : 0 < s ^ 3), div_mul_eq_mul_div]
    exact div_le_div_of_nonneg_right (cubic_bound _) (by positivity)
  · rw [abs_of_pos (Real.exp_pos _), ← Real.exp_add]
    refine Real.exp_le_exp.2 ?_
    have h1 : |x| - 10 ≤ |x - c| := by
      have := abs_sub_abs_le_abs_sub x c
      linarith
    have h2 : (|x| - 10) ^ 2 / 4 ≤ ((x - c) / s) ^ 2 := by
      rw [div_pow, ← sq_abs (x - c)]
      refine div_le_div₀ (sq_nonneg _) (pow_le_pow_left₀ (by linarith) h1 2) (by positivity) ?_
      nlinarith
    nlinarith

theorem absorption_tame {osc : List (ℝ × ℝ × ℝ)}
    (hosc : ∀ o ∈ osc, 0 < bellWidth o.2.1 ∧ bellWidth o.2.1 ≤ 2 ∧ |o.2.2| ≤ 10) :
    Tame (absorption osc) (10 * (osc.map fun o => |o.1| / bellWidth o.2.1 ^ 3).sum)
      (2 * Real.exp (-25) * (osc.map fun o => |o.1|).sum) := by
  induction osc with
  | nil =>
    have : absorption [] = fun _ => 0 := by funext x; simp [absorption]
    rw [this]
    simpa using Tame.zero
  | cons o osc ih =>
    obtain ⟨h1, h2, h3⟩ := hosc o (by simp)
    have a := (Tame.bell h1 h2 h3).mul o.1
    have b := (Tame.bell h1 h2 (c := -o.2.2) (by rwa [abs_neg])).mul (-o.1)
    have key := (a.add b).add (ih fun o ho => hosc o (by simp [ho]))
    convert key using 1
    · funext x
      simp only [absorption, List.map_cons, List.sum_cons, sub_neg_eq_add]
      ring
    · simp only [List.map_cons, List.sum_cons, abs_neg]
      ring
    · simp only [List.map_cons, List.sum_cons, abs_neg]
      ring

/-! ### The cotangent -/

theorem sin_sub_nonneg {z : ℝ} (h0 : 0 ≤ z) (h1 : z ≤ Real.pi) : 0 ≤ Real.sin z - z * Real.cos z := by
  have hm : MonotoneOn (fun z => Real.sin z - z * Real.cos z) (Set.Icc 0 Real.pi) := by
    refine monotoneOn_of_hasDerivWithinAt_nonneg (f' := fun z => z * Real.sin z) (convex_Icc _ _) (by fun_prop)
      (fun x _ => ?_) fun x hx => ?_
    · refine HasDerivAt.hasDerivWithinAt ?_
      exact ((Real.hasDerivAt_sin x).fun_sub ((hasDerivAt_id x).fun_mul (Real.hasDerivAt_cos x))).congr_deriv
        (by simp)
    · rw [interior_Icc] at hx
      exact mul_nonneg hx.1.le (Real.sin_nonneg_of_mem_Icc ⟨hx.1.le, hx.2.le⟩)
  have := hm (Set.left_mem_Icc.2 Real.pi_pos.le) ⟨h0, h1⟩ h0
  simpa using this

theorem cot_lower {z : ℝ} (h0 : 0 < z) (h1 : z < Real.pi) : z / 3 ≤ 1 / z - Real.cot z := by
  have hs : 0 < Real.sin z := Real.sin_pos_of_pos_of_lt_pi h0 h1
  have hm : MonotoneOn (fun z => Real.sin z * (1 - z ^ 2 / 3) - z * Real.cos z) (Set.Icc 0 Real.pi) := by
    refine monotoneOn_of_hasDerivWithinAt_nonneg (f' := fun z => z / 3 * (Real.sin z - z * Real.cos z))
      (convex_Icc _ _) (by fun_prop) (fun x _ => ?_) fun x hx => ?_
    · refine HasDerivAt.hasDerivWithinAt ?_
      have hq : HasDerivAt (fun x : ℝ => 1 - x ^ 2 / 3) (-(2 * x / 3)) x :=
        (((hasDerivAt_id x).fun_pow 2).div_const 3).const_sub 1 |>.congr_deriv (by norm_num)
      exact (((Real.hasDerivAt_sin x).fun_mul hq).fun_sub
        ((hasDerivAt_id x).fun_mul (Real.hasDerivAt_cos x))).congr_deriv (by simp; ring)
    · rw [interior_Icc] at hx
      exact mul_nonneg (by linarith [hx.1]) (sin_sub_nonneg hx.1.le hx.2.le)
  have := hm (Set.left_mem_Icc.2 Real.pi_pos.le) ⟨h0.le, h1.le⟩ h0.le
  simp only [Real.sin_zero, zero_mul, sub_zero] at this
  rw [Real.cot_eq_cos_div_sin, div_sub_div _ _ h0.ne' hs.ne', div_le_div_iff₀ (by norm_num) (mul_pos h0 hs)]
  nlinarith

theorem cot_upper {z : ℝ} (h0 : 0 < z) (h1 : z ≤ 3 * Real.pi / 4) : 1 / z - Real.cot z ≤ 11 / 10 * z := by
  have hp := Real.pi_gt_d2
  have hs : 0 < Real.sin z := Real.sin_pos_of_pos_of_lt_pi h0 (by linarith)
  rw [Real.cot_eq_cos_div_sin]
  rcases le_total z (Real.pi / 2) with h2 | h2
  · have hc : 0 ≤ Real.cos z := Real.cos_nonneg_of_mem_Icc ⟨by linarith, h2⟩
    have a1 : (1 - z ^ 2 / 2) / z ≤ Real.cos z / Real.sin z := by
      refine le_trans (div_le_div_of_nonneg_right (Real.one_sub_sq_div_two_le_cos) h0.le) ?_
      exact div_le_div_of_nonneg_left hc hs (Real.sin_le h0.le)
    have a2 : (1 - z ^ 2 / 2) / z = 1 / z - z / 2 := by field_simp
    linarith
  · have a1 : -1 ≤ Real.cos z / Real.sin z := by
      rw [le_div_iff₀ hs]
      have e1 : Real.cos z = -Real.sin (z - Real.pi / 2) := by rw [Real.sin_sub_pi_div_two, neg_neg]
      have e2 : Real.sin z = Real.cos (z - Real.pi / 2) := by rw [Real.cos_sub_pi_div_two]
      rw [e1, e2]
      have b1 : Real.sin (z - Real.pi / 2) ≤ Real.sin (Real.pi / 4) :=
        Real.sin_le_sin_of_le_of_le_pi_div_two (by linarith) (by linarith) (by linarith)
      have b2 : Real.cos (Real.pi / 4) ≤ Real.cos (z - Real.pi / 2) :=
        Real.cos_le_cos_of_nonneg_of_le_pi (by linarith) (by linarith) (by linarith)
      rw [Real.sin_pi_div_four] at b1
      rw [Real.cos_pi_div_four] at b2
      linarith
    have a2 : 1 / z ≤ 2 / 3 := by
      rw [div_le_div_iff₀ h0 (by norm_num)]
      linarith
    linarith

theorem cot_defect {z : ℝ} (h0 : z ≠ 0) (h1 : |z| ≤ 3 * Real.pi / 4) : |1 / z - Real.cot z| ≤ 11 / 10 * |z| := by
  have key : ∀ {z : ℝ}, 0 < z → z ≤ 3 * Real.pi / 4 → |1 / z - Real.cot z| ≤ 11 / 10 * z := by
    intro z h0 h1
    rw [abs_of_nonneg ((by positivity : 0 ≤ z / 3).trans (cot_lower h0 (by linarith [Real.pi_pos])))]
    exact cot_upper h0 h1
  rcases lt_or_gt_of_ne h0 with h | h
  · have := key (neg_pos.2 h) (by rwa [abs_of_neg h] at h1)
    rw [abs_of_neg h]
    refine le_trans (le_of_eq ?_) this
    rw [← abs_neg (1 / -z - Real.cot (-z)), Real.cot_eq_cos_div_sin, Real.cot_eq_cos_div_sin, Real.cos_neg,
      Real.sin_neg]
    congr 1
    rw [div_neg, div_neg]
    ring
  · rw [abs_of_pos h] at h1 ⊢
    exact key h h1

/-! ### Gauss -/

theorem e2_absorption {osc : List (ℝ × ℝ × ℝ)} {y : ℕ → ℝ} (hosc : ∀ o ∈ osc, 0 < bellWidth o.2.1)
    (h : gaussSum id osc = some y) {j : ℕ} (hj : j < 2048) : y j = absorption osc (knot j) := by
  induction osc generalizing y with
  | nil =>
    simp only [gaussSum, Option.some.injEq] at h
    simp [← h, absorption]
  | cons o osc ih =>
    simp only [gaussSum, Option.bind_eq_bind, Option.bind_eq_some_iff, Option.pure_def, Option.some.injEq] at h
    obtain ⟨a, ha, b, hb, rfl⟩ := h
    have h1 := gaussGrid_eq ha hj
    have hs : o.2.1 / 2 / Real.sqrt (Real.log 2) ≠ 0 := (hosc o (by simp)).ne'
    simp only [gaussE2, gaussExp, if_neg hs, Option.bind_eq_bind, Option.bind_some, Option.pure_def,
      Option.some.injEq] at h1
    simp only [absorption, List.map_cons, List.sum_cons]
    rw [ih (fun o ho => hosc o (by simp [ho])) hb]
    simp only [id, ← h1, bellWidth, ePad, knot, absorption]

theorem im_absorption {osc : List (ℝ × ℝ × ℝ)} {einf : ℝ} {v : ℂ} (hosc : ∀ o ∈ osc, 0 < bellWidth o.2.1)
    {j : ℕ} (hj : j < 2048) (h : gaussEps osc einf (-20 + 40 * j / 2047) = some v) :
    v.im = absorption osc (knot j) := by
  obtain ⟨e1, e2, -, k2, -, k4⟩ := gaussEps_some h
  have b := gridInterp_knot e2 hj
  unfold ePad at b
  rw [k4, Option.some.injEq] at b
  rw [b]
  exact e2_absorption hosc k2 hj

theorem exp25 : Real.exp (-25) ≤ 1 / 10 ^ 10 := by
  have h : (2.7 : ℝ) ^ 25 ≤ Real.exp 1 ^ 25 := pow_le_pow_left₀ (by norm_num) (by linarith [Real.exp_one_gt_d9]) 25
  rw [← Real.exp_nat_mul] at h
  norm_num at h
  rw [Real.exp_neg, inv_eq_one_div]
  refine one_div_le_one_div_of_le (by norm_num) (le_trans ?_ h)
  norm_num

/-- What the real part at a knot differs from the Kramers-Kronig transform by: the difference of the kernels
`cot z` and `1/z`, and an error of quadrature. -/
theorem gauss_kk {osc : List (ℝ × ℝ × ℝ)} {einf : ℝ} {v : ℕ → ℂ}
    (hosc : ∀ o ∈ osc, 0 < bellWidth o.2.1 ∧ bellWidth o.2.1 ≤ 2 ∧ |o.2.2| ≤ 10)
    (h : ∀ j : ℕ, j < 2048 → gaussEps osc einf (-20 + 40 * j / 2047) = some (v j)) {n : ℕ} (hn : n < 2048)
    (he : |knot n| ≤ 10) :
    IntegrableOn (fun y => (absorption osc (knot n + y) - absorption osc (knot n - y)) / y) (Set.Ioi 0) ∧
    |(v n).re - (einf + kkTransform (absorption osc) (knot n)) +
      1 / 1024 * ∑ m ∈ (Finset.range 2048).filter (fun m => Odd (n + m)),
        (1 / (Real.pi * ((m : ℝ) - n) / 2048) - Real.cot (Real.pi * ((m : ℝ) - n) / 2048)) * (v m).im| ≤
      1 / 80 * (osc.map fun o => |o.1| / bellWidth o.2.1 ^ 3).sum + 1 / 10 ^ 9 * (osc.map fun o => |o.1|).sum := by
  obtain ⟨f1, f2, f3, a1, a2, a3, a4, a5⟩ := absorption_tame hosc
  obtain ⟨hi, hk⟩ := kk_grid a1 a2 a3 a4 a5 hn he
  refine ⟨hi, ?_⟩
  have hre := C129_gauss_knots h hn
  have him : ∀ m ∈ (Finset.range 2048).filter (fun m => Odd (n + m)), (v m).im = absorption osc (knot m) :=
    fun m hm => im_absorption (fun o ho => (hosc o ho).1) (Finset.mem_range.1 (Finset.mem_filter.1 hm).1)
      (h m (Finset.mem_range.1 (Finset.mem_filter.1 hm).1))
  have hsum : 1 / 1024 * ∑ m ∈ (Finset.range 2048).filter (fun m => Odd (n + m)),
        (1 / (Real.pi * ((m : ℝ) - n) / 2048) - Real.cot (Real.pi * ((m : ℝ) - n) / 2048)) * (v m).im =
      2 / Real.pi * (∑ m ∈ (Finset.range 2048).filter (fun m => Odd (n + m)),
        absorption osc (knot m) / ((m : ℝ) - n)) -
      1 / 1024 * ∑ m ∈ (Finset.range 2048).filter (fun m => Odd (n + m)),
        Real.cot (Real.pi * ((m : ℝ) - n) / 2048) * (v m).im := by
    rw [Finset.mul_sum, Finset.mul_sum, Finset.mul_sum, ← Finset.sum_sub_distrib]
    refine Finset.sum_congr rfl fun m hm => ?_
    rw [him m hm]
    have hmn : (m : ℝ) - n ≠ 0 := by
      obtain ⟨k, hk⟩ := (Finset.mem_filter.1 hm).2
      intro h0
      have : m = n := by exact_mod_cast sub_eq_zero.1 h0
      omega
    have := Real.pi_pos.ne'
    generalize Real.cot (Real.pi * ((m : ℝ) - n) / 2048) = c
    generalize absorption osc (knot m) = q
    field_simp
    ring
  have hA : 0 ≤ (osc.map fun o => |o.1| / bellWidth o.2.1 ^ 3).sum := by
    refine List.sum_nonneg fun x hx => ?_
    obtain ⟨o, ho, rfl⟩ := List.mem_map.1 hx
    have := (hosc o ho).1
    positivity
  have hB : 0 ≤ (osc.map fun o => |o.1|).sum := by
    refine List.sum_nonneg fun x hx => ?_
    obtain ⟨o, ho, rfl⟩ := List.mem_map.1 hx
    positivity
  rw [hsum, hre]
  refine le_trans (le_of_eq ?_) (hk.trans ?_)
  · congr 1
    ring
  · have hp : 1 / Real.pi ≤ 1 / 3 := one_div_le_one_div_of_le (by norm_num) Real.pi_gt_three.le
    have hx := exp25
    generalize (osc.map fun o => |o.1| / bellWidth o.2.1 ^ 3).sum = A at hA ⊢
    generalize (osc.map fun o => |o.1|).sum = B at hB ⊢
    have hE := (Real.exp_pos (-25)).le
    generalize Real.exp (-25) = E at hx hE ⊢
    have h1 : 0 ≤ 1024 * (4 * (10 * A) / 9 * (40 / 2047) ^ 3) + 9 * (2 * E * B) := by positivity
    refine (mul_le_mul_of_nonneg_right hp h1).trans ?_
    have h2 : E * B ≤ 1 / 10 ^ 10 * B := mul_le_mul_of_nonneg_right hx hB
    norm_num at h2 ⊢
    nlinarith

/-- C137, partial: at a knot of the grid up to 10 eV, for Gaussians of widths up to 2 eV centred up to 10 eV, the
real part differs from `Einf` plus the Kramers-Kronig transform of the documented imaginary part by at most 1/450 of
the first moment of the absorption about the energy (in eV², as sampled on the grid), and `|A| / 80 σ³` for each
oscillator, and `10⁻⁹ |A|`.  Missing: equality (`C137_fails`); energies between
the knots are in `C137_between_partial`. -/
theorem C137_close_partial {osc : List (ℝ × ℝ × ℝ)} {einf : ℝ} {v : ℕ → ℂ}
    (hosc : ∀ o ∈ osc, 0 < bellWidth o.2.1 ∧ bellWidth o.2.1 ≤ 2 ∧ |o.2.2| ≤ 10)
    (h : ∀ j : ℕ, j < 2048 → gaussEps osc einf (-20 + 40 * j / 2047) = some (v j)) {n : ℕ} (hn : n < 2048)
    {e : ℝ} (hne : e = -20 + 40 * n / 2047) (he : |e| ≤ 10) :
    IntegrableOn (fun y => (absorption osc (e + y) - absorption osc (e - y)) / y) (Set.Ioi 0) ∧
    |(v n).re - (einf + kkTransform (absorption osc) e)| ≤
      1 / 450 * ∑ m ∈ (Finset.range 2048).filter (fun m => Odd (n + m)),
        80 / 2047 * |(v m).im| * |-20 + 40 * m / 2047 - e| +
      1 / 80 * (osc.map fun o => |o.1| / bellWidth o.2.1 ^ 3).sum + 1 / 10 ^ 9 * (osc.map fun o => |o.1|).sum := by
  have hek : e = knot n := hne
  subst hek
  obtain ⟨hi, hk⟩ := gauss_kk hosc h hn he
  refine ⟨hi, ?_⟩
  have hD : |1 / 1024 * ∑ m ∈ (Finset.range 2048).filter (fun m => Odd (n + m)),
        (1 / (Real.pi * ((m : ℝ) - n) / 2048) - Real.cot (Real.pi * ((m : ℝ) - n) / 2048)) * (v m).im| ≤
      1 / 450 * ∑ m ∈ (Finset.range 2048).filter (fun m => Odd (n + m)),
        80 / 2047 * |(v m).im| * |-20 + 40 * m / 2047 - knot n| := by
    rw [Finset.mul_sum, Finset.mul_sum]
    refine (Finset.abs_sum_le_sum_abs _ _).trans (Finset.sum_le_sum fun m hm => ?_)
    obtain ⟨hm1, k, hk⟩ := Finset.mem_filter.1 hm
    have hm1 := Finset.mem_range.1 hm1
    have hmn : (m : ℝ) - n ≠ 0 := by
      intro h0
      have : m = n := by exact_mod_cast sub_eq_zero.1 h0
      omega
    have hdist : |-20 + 40 * m / 2047 - knot n| = 40 / 2047 * |(m : ℝ) - n| := by
      unfold knot
      rw [show (-20 + 40 * m / 2047 - (-20 + 40 * n / 2047) : ℝ) = 40 / 2047 * ((m : ℝ) - n) by ring, abs_mul,
        abs_of_pos (by norm_num)]
    have hr : |(m : ℝ) - n| ≤ 1536 := by
      have h1 : (m : ℝ) ≤ 2047 := by exact_mod_cast (by omega : m ≤ 2047)
      have h2 : (0 : ℝ) ≤ m := Nat.cast_nonneg m
      obtain ⟨h3, h4⟩ := abs_le.1 he
      unfold knot at h3 h4
      rw [abs_le]
      constructor <;> linarith
    have hp := Real.pi_pos
    have hz : |Real.pi * ((m : ℝ) - n) / 2048| = Real.pi * |(m : ℝ) - n| / 2048 := by
      rw [abs_div, abs_mul, abs_of_pos hp, abs_of_pos (by norm_num : (0 : ℝ) < 2048)]
    have hc := cot_defect (z := Real.pi * ((m : ℝ) - n) / 2048) (by positivity) (by
      rw [hz]
      have := mul_le_mul_of_nonneg_left hr hp.le
      linarith)
    rw [hz] at hc
    rw [hdist, abs_mul, abs_mul, abs_of_pos (by norm_num : (0 : ℝ) < 1 / 1024)]
    have h0 := abs_nonneg (v m).im
    have h5 := mul_le_mul_of_nonneg_right hc h0
    have h6 : Real.pi * (|(m : ℝ) - n| * |(v m).im|) ≤ 3.15 * (|(m : ℝ) - n| * |(v m).im|) :=
      mul_le_mul_of_nonneg_right Real.pi_lt_d2.le (by positivity)
    have h7 : 0 ≤ |(m : ℝ) - n| * |(v m).im| := by positivity
    norm_num at h6 ⊢
    nlinarith
  rw [abs_le] at hk hD ⊢
  constructor <;> linarith [hk.1, hk.2, hD.1, hD.2]

theorem width_two : bellWidth (4 * Real.sqrt (Real.log 2)) = 2 := by
  have : 0 < Real.sqrt (Real.log 2) := Real.sqrt_pos.mpr (Real.log_pos (by norm_num))
  unfold bellWidth
  field_simp
  norm_num

/-- **C137 is false of the code.**  One Gaussian of amplitude 4 and width 2 eV at 8 eV: close to the static limit the
real part is lower than `Einf` plus the Kramers-Kronig transform of the imaginary part by more than 1/50, because
the Hilbert transform is that of a function with period 40 eV. -/
theorem C137_fails (einf : ℝ) : ∃ v, gaussEps [(4, 4 * Real.sqrt (Real.log 2), 8)] einf (20 / 2047) = some v ∧
    IntegrableOn (fun y => (absorption [(4, 4 * Real.sqrt (Real.log 2), 8)] (20 / 2047 + y) -
      absorption [(4, 4 * Real.sqrt (Real.log 2), 8)] (20 / 2047 - y)) / y) (Set.Ioi 0) ∧
    v.re + 1 / 50 < einf + kkTransform (absorption [(4, 4 * Real.sqrt (Real.log 2), 8)]) (20 / 2047) := by
  obtain ⟨osc, ho⟩ : ∃ osc : List (ℝ × ℝ × ℝ), osc = [(4, 4 * Real.sqrt (Real.log 2), 8)] := ⟨_, rfl⟩
  rw [← ho]
  have hsq : 0 < Real.sqrt (Real.log 2) := Real.sqrt_pos.mpr (Real.log_pos (by norm_num))
  have hosc : ∀ o ∈ osc, 0 < bellWidth o.2.1 ∧ bellWidth o.2.1 ≤ 2 ∧ |o.2.2| ≤ 10 := by
    intro o h
    rw [ho, List.mem_singleton] at h
    subst h
    simp only [width_two]
    norm_num
  have hfin := fun e => C54_finite (osc := osc) einf e (by
    intro o h
    rw [ho, List.mem_singleton] at h
    subst h
    positivity)
  choose g hg using hfin
  have hkn : knot 1024 = 20 / 2047 := by unfold knot; norm_num
  obtain ⟨hi, hk⟩ := gauss_kk (v := fun j => g (-20 + 40 * j / 2047)) (einf := einf) hosc (fun j _ => hg _)
    (n := 1024) (by norm_num) (by rw [hkn]; norm_num [abs_of_pos])
  rw [hkn] at hi hk
  have he : (-20 + 40 * ((1024 : ℕ) : ℝ) / 2047) = 20 / 2047 := by norm_num
  simp only [he] at hk
  refine ⟨_, hg _, hi, ?_⟩
  have habs : ∀ x, absorption osc x = 4 * Real.exp (-((x - 8) / 2) ^ 2) - 4 * Real.exp (-((x + 8) / 2) ^ 2) := by
    intro x
    simp [absorption, ho, width_two]
  have him : ∀ m : ℕ, m < 2048 → (g (-20 + 40 * m / 2047)).im = absorption osc (knot m) := fun m hm =>
    im_absorption (fun o ho => (hosc o ho).1) hm (hg _)
  have hnn : ∀ x, 0 ≤ x → 0 ≤ absorption osc x := by
    intro x hx
    rw [habs]
    have : Real.exp (-((x + 8) / 2) ^ 2) ≤ Real.exp (-((x - 8) / 2) ^ 2) := Real.exp_le_exp.2 (by nlinarith)
    linarith
  have hodd : ∀ x, absorption osc (-x) = -absorption osc x := by
    intro x
    rw [habs, habs, show -((-x - 8) / 2) ^ 2 = -((x + 8) / 2) ^ 2 by ring,
      show -((-x + 8) / 2) ^ 2 = -((x - 8) / 2) ^ 2 by ring]
    ring
  have hp := Real.pi_gt_d2
  have hterm : ∀ m ∈ (Finset.range 2048).filter (fun m => Odd (1024 + m)), 0 ≤
      (1 / (Real.pi * ((m : ℝ) - (1024 : ℕ)) / 2048) - Real.cot (Real.pi * ((m : ℝ) - (1024 : ℕ)) / 2048)) *
        (g (-20 + 40 * m / 2047)).im := by
    intro m hm
    obtain ⟨hm1, k, hk⟩ := Finset.mem_filter.1 hm
    have hm1 := Finset.mem_range.1 hm1
    have h2047 : (m : ℝ) ≤ 2047 := by exact_mod_cast (by omega : m ≤ 2047)
    have h2 : (0 : ℝ) ≤ m := Nat.cast_nonneg m
    rw [him m hm1]
    rcases Nat.lt_or_ge m 1024 with hlt | hge
    · have h3 : (m : ℝ) ≤ 1023 := by exact_mod_cast (by omega : m ≤ 1023)
      have hz0 : 0 < Real.pi * (1024 - (m : ℝ)) / 2048 := by
        have : 0 < 1024 - (m : ℝ) := by linarith
        positivity
      have hz1 : Real.pi * (1024 - (m : ℝ)) / 2048 < Real.pi := by nlinarith
      have hl := cot_lower hz0 hz1
      have hneg : 1 / (Real.pi * ((m : ℝ) - (1024 : ℕ)) / 2048) - Real.cot (Real.pi * ((m : ℝ) - (1024 : ℕ)) / 2048) =
          -(1 / (Real.pi * (1024 - (m : ℝ)) / 2048) - Real.cot (Real.pi * (1024 - (m : ℝ)) / 2048)) := by
        rw [show Real.pi * ((m : ℝ) - (1024 : ℕ)) / 2048 = -(Real.pi * (1024 - (m : ℝ)) / 2048) by push_cast; ring,
          Real.cot_eq_cos_div_sin, Real.cot_eq_cos_div_sin, Real.cos_neg, Real.sin_neg, div_neg, div_neg]
        ring
      have h5 := hnn (-knot m) (by unfold knot; linarith)
      rw [hodd] at h5
      rw [hneg]
      nlinarith
    · have h3 : (1024 : ℝ) < m := by
        exact_mod_cast lt_of_le_of_ne hge (by omega)
      have hz0 : 0 < Real.pi * ((m : ℝ) - (1024 : ℕ)) / 2048 := by
        have : 0 < (m : ℝ) - (1024 : ℕ) := by push_cast; linarith
        positivity
      have hz1 : Real.pi * ((m : ℝ) - (1024 : ℕ)) / 2048 < Real.pi := by push_cast; nlinarith
      have hl := cot_lower hz0 hz1
      exact mul_nonneg (by linarith) (hnn _ (by unfold knot; linarith))
  have hsub : (Finset.Ico 179 230).image (fun j => 1025 + 2 * j) ⊆
      (Finset.range 2048).filter (fun m => Odd (1024 + m)) := by
    intro m hm
    obtain ⟨j, hj, rfl⟩ := Finset.mem_image.1 hm
    have hj := Finset.mem_Ico.1 hj
    exact Finset.mem_filter.2 ⟨Finset.mem_range.2 (by omega), ⟨1024 + j, by omega⟩⟩
  have hle := Finset.sum_le_sum_of_subset_of_nonneg hsub fun m hm _ => hterm m hm
  rw [Finset.sum_image (by intro a _ b _ h; simp only at h; omega)] at hle
  have hbig : (Finset.Ico 179 230).card • (0.548 : ℝ) ≤ ∑ j ∈ Finset.Ico 179 230,
      (1 / (Real.pi * (((1025 + 2 * j : ℕ) : ℝ) - (1024 : ℕ)) / 2048) -
        Real.cot (Real.pi * (((1025 + 2 * j : ℕ) : ℝ) - (1024 : ℕ)) / 2048)) *
        (g (-20 + 40 * ((1025 + 2 * j : ℕ) : ℝ) / 2047)).im := by
    refine Finset.card_nsmul_le_sum _ _ _ fun j hj => ?_
    have hj := Finset.mem_Ico.1 hj
    have j1 : (179 : ℝ) ≤ j := by exact_mod_cast hj.1
    have j2 : (j : ℝ) ≤ 229 := by exact_mod_cast (by omega : j ≤ 229)
    rw [him _ (by omega)]
    have hx : knot (1025 + 2 * j) = -20 + 40 * (1025 + 2 * (j : ℝ)) / 2047 := by unfold knot; push_cast; ring
    have hx1 : 7 ≤ knot (1025 + 2 * j) := by rw [hx]; linarith
    have hx2 : knot (1025 + 2 * j) ≤ 9 := by rw [hx]; linarith
    have hz : Real.pi * (((1025 + 2 * j : ℕ) : ℝ) - (1024 : ℕ)) / 2048 = Real.pi * (2 * j + 1) / 2048 := by
      push_cast; ring
    rw [hz]
    have hz0 : 0.55 ≤ Real.pi * (2 * (j : ℝ) + 1) / 2048 := by nlinarith
    have hz1 : Real.pi * (2 * (j : ℝ) + 1) / 2048 < Real.pi := by nlinarith
    have hl := cot_lower (by linarith) hz1
    have hI : 2.99 ≤ absorption osc (knot (1025 + 2 * j)) := by
      generalize knot (1025 + 2 * j) = x at hx1 hx2
      rw [habs]
      have b1 : Real.exp (-(1 / 4)) ≤ Real.exp (-((x - 8) / 2) ^ 2) := Real.exp_le_exp.2 (by nlinarith)
      have b2 : Real.exp (-((x + 8) / 2) ^ 2) ≤ Real.exp (-25) := Real.exp_le_exp.2 (by nlinarith)
      have b3 : -(1 / 4) + 1 ≤ Real.exp (-(1 / 4)) := Real.add_one_le_exp _
      have b4 := exp25
      norm_num at b4
      linarith
    nlinarith
  have hcard : (Finset.Ico 179 230).card = 51 := by simp
  rw [hcard, nsmul_eq_mul] at hbig
  have hs1 : (osc.map fun o => |o.1| / bellWidth o.2.1 ^ 3).sum = 1 / 2 := by
    simp [ho, width_two]; norm_num
  have hs2 : (osc.map fun o => |o.1|).sum = 4 := by simp [ho]
  rw [hs1, hs2] at hk
  have h1 := (abs_le.1 hk).1
  have h2 := (abs_le.1 hk).2
  have hall := hbig.trans hle
  generalize ∑ m ∈ (Finset.range 2048).filter (fun m => Odd (1024 + m)),
      (1 / (Real.pi * ((m : ℝ) - (1024 : ℕ)) / 2048) - Real.cot (Real.pi * ((m : ℝ) - (1024 : ℕ)) / 2048)) *
        (g (-20 + 40 * m / 2047)).im = S at hall h1 h2
  norm_num at hall h1 h2 ⊢
  linarith

/-- **C137 is false of the code.**  Beyond 20 eV the imaginary part stays at its value at 20 eV; unless that value
is zero the Kramers-Kronig integral of the imaginary part that the model returns does not exist, at no energy up to
20 eV. -/
theorem C137_fails_far {osc : List (ℝ × ℝ × ℝ)} {einf : ℝ} {v : ℝ → ℂ}
    (h : ∀ x, gaussEps osc einf x = some (v x)) (hc : (v 20).im ≠ 0) {e : ℝ} (he : |e| ≤ 20) :
    ¬ IntegrableOn (fun y => ((v (e + y)).im - (v (e - y)).im) / y) (Set.Ioi 0) := by
  intro hi
  obtain ⟨y1, y2, h1, h2, -, h4⟩ := gaussEps_some (h 20)
  rw [gridInterp_high _ le_rfl, Option.some.injEq] at h4
  have hodd := e2_odd h2 0 (by norm_num)
  norm_num at hodd
  obtain ⟨a1, a2⟩ := abs_le.1 he
  have hup : ∀ x, 20 ≤ x → (v x).im = (v 20).im := by
    intro x hx
    obtain ⟨z1, z2, -, k2, -, k4⟩ := gaussEps_some (h x)
    rw [h2, Option.some.injEq] at k2
    subst k2
    rw [gridInterp_high _ hx, Option.some.injEq] at k4
    rw [← k4, h4]
  have hdn : ∀ x, x ≤ -20 → (v x).im = -(v 20).im := by
    intro x hx
    obtain ⟨z1, z2, -, k2, -, k4⟩ := gaussEps_some (h x)
    rw [h2, Option.some.injEq] at k2
    subst k2
    rw [gridInterp_low _ hx, Option.some.injEq] at k4
    rw [← k4, ← h4, hodd, neg_neg]
  have h40 : IntegrableOn (fun y => ((v (e + y)).im - (v (e - y)).im) / y) (Set.Ioi 40) :=
    hi.mono_set (Set.Ioi_subset_Ioi (by norm_num))
  have h5 : IntegrableOn (fun y => (2 * (v 20).im) * y⁻¹) (Set.Ioi (40 : ℝ)) := by
    refine h40.congr_fun (fun y hy => ?_) measurableSet_Ioi
    have hy : 40 < y := hy
    beta_reduce
    rw [hup (e + y) (by linarith), hdn (e - y) (by linarith)]
    ring
  have h6 : IntegrableOn (fun y : ℝ => y⁻¹) (Set.Ioi (40 : ℝ)) := by
    have h7 : IntegrableOn (fun y : ℝ => (2 * (v 20).im)⁻¹ * ((2 * (v 20).im) * y⁻¹)) (Set.Ioi (40 : ℝ)) :=
      h5.const_mul _
    refine h7.congr_fun (fun y _ => ?_) measurableSet_Ioi
    beta_reduce
    rw [← mul_assoc, inv_mul_cancel₀ (mul_ne_zero two_ne_zero hc), one_mul]
  exact not_integrableOn_Ioi_inv h6

/-- Not vacuous: the oscillator of `C137_fails` absorbs at 20 eV. -/
example : ∃ v : ℝ → ℂ, (∀ x, gaussEps [(4, 4 * Real.sqrt (Real.log 2), 8)] 1 x = some (v x)) ∧ (v 20).im ≠ 0 := by
  have hsq : 0 < Real.sqrt (Real.log 2) := Real.sqrt_pos.mpr (Real.log_pos (by norm_num))
  have hfin := fun e => C54_finite (osc := [(4, 4 * Real.sqrt (Real.log 2), 8)]) 1 e (by
    intro o h
    rw [List.mem_singleton] at h
    subst h
    positivity)
  choose g hg using hfin
  refine ⟨g, hg, ?_⟩
  have he : (-20 + 40 * ((2047 : ℕ) : ℝ) / 2047) = 20 := by norm_num
  have := im_absorption (osc := [(4, 4 * Real.sqrt (Real.log 2), 8)]) (by simp [width_two]) (j := 2047) (by norm_num)
    (hg _)
  rw [he] at this
  rw [this]
  have hk : knot 2047 = 20 := by unfold knot; norm_num
  simp only [absorption, hk, width_two, List.map_cons, List.map_nil, List.sum_cons, List.sum_nil, add_zero]
  have : Real.exp (-((20 + 8) / 2) ^ 2) < Real.exp (-((20 - 8) / 2) ^ 2) := Real.exp_lt_exp.2 (by norm_num)
  linarith

/-- Not vacuous: an absorption of width 1 eV at 5 eV. -/
example : ∀ o ∈ [((1 : ℝ), 2 * Real.sqrt (Real.log 2), (5 : ℝ))],
    0 < bellWidth o.2.1 ∧ bellWidth o.2.1 ≤ 2 ∧ |o.2.2| ≤ 10 := by
  have hsq : 0 < Real.sqrt (Real.log 2) := Real.sqrt_pos.mpr (Real.log_pos (by norm_num))
  have : bellWidth (2 * Real.sqrt (Real.log 2)) = 1 := by
    unfold bellWidth
    field_simp
  intro o h
  rw [List.mem_singleton] at h
  subst h
  simp only [this]
  norm_num

end Verif.Disp
