import Verif.Disp.PropsGauss

/-!
# C129: the real part of oscillator models around their resonances
-/

namespace Verif.Disp

/-! ### The kernel of the Hilbert transform in closed form -/

theorem sum_sin (θ : ℝ) : ∀ n : ℕ,
    2 * Real.sin (θ / 2) * ∑ j ∈ Finset.Ico 1 (n + 1), Real.sin (j * θ) =
      Real.cos (θ / 2) - Real.cos ((n + 1 / 2) * θ)
  | 0 => by simp; ring_nf
  | n + 1 => by
    rw [Finset.sum_Ico_succ_top (by omega), mul_add, sum_sin θ n]
    have h := Real.cos_sub_cos ((n + 1 / 2) * θ) ((n + 1 + 1 / 2) * θ)
    have e1 : ((n + 1 / 2) * θ + (n + 1 + 1 / 2) * θ) / 2 = (n + 1) * θ := by ring
    have e2 : ((n + 1 / 2) * θ - (n + 1 + 1 / 2) * θ) / 2 = -(θ / 2) := by ring
    rw [e1, e2, Real.sin_neg] at h
    push_cast
    linarith

/-- Even distances do not contribute. -/
theorem kernel_sin (k : ℤ) : Real.sin (Real.pi * k / 2048) * hilbertKernel k =
    -(1 / 2048) * (1 - (-1) ^ k) * Real.cos (Real.pi * k / 2048) := by
  have h := sum_sin (2 * Real.pi * k / 2048) 1023
  have e1 : 2 * Real.pi * (k : ℝ) / 2048 / 2 = Real.pi * k / 2048 := by ring
  have e2 : ((1023 : ℕ) + 1 / 2 : ℝ) * (2 * Real.pi * k / 2048) = k * Real.pi - Real.pi * k / 2048 := by
    push_cast; ring
  rw [e1, e2, Real.cos_int_mul_pi_sub] at h
  unfold hilbertKernel gaussN
  have e3 : ∑ j ∈ Finset.Ico (1 : ℕ) (1023 + 1), Real.sin (j * (2 * Real.pi * k / 2048)) =
      ∑ j ∈ Finset.Ico (1 : ℕ) (2048 / 2), Real.sin (2 * Real.pi * j * k / (2048 : ℕ)) := by
    refine Finset.sum_congr rfl fun j _ => ?_
    congr 1
    push_cast
    ring
  rw [e3] at h
  push_cast at h ⊢
  linarith

theorem kernel_odd {k : ℤ} (hk : Odd k) :
    hilbertKernel k = -(1 / 1024) * Real.cot (Real.pi * k / 2048) := by
  have h := kernel_sin k
  have hs : Real.sin (Real.pi * k / 2048) ≠ 0 := by
    intro h0
    obtain ⟨n, hn⟩ := Real.sin_eq_zero_iff.1 h0
    have : (n : ℝ) * 2048 = k := by
      have := Real.pi_pos.ne'
      field_simp at hn
      linarith
    have : n * 2048 = k := by exact_mod_cast this
    obtain ⟨j, hj⟩ := hk
    omega
  rw [hk.neg_one_zpow] at h
  rw [Real.cot_eq_cos_div_sin]
  field_simp
  linarith

theorem kernel_even {k : ℤ} (hk : Even k) (h1 : -2048 < k) (h2 : k < 2048) : hilbertKernel k = 0 := by
  rcases eq_or_ne k 0 with rfl | h0
  · simp [hilbertKernel]
  have h := kernel_sin k
  rw [hk.neg_one_zpow, sub_self, mul_zero, zero_mul, mul_eq_zero] at h
  refine h.resolve_left fun hs => ?_
  obtain ⟨n, hn⟩ := Real.sin_eq_zero_iff.1 hs
  have : (n : ℝ) * 2048 = k := by
    have := Real.pi_pos.ne'
    field_simp at hn
    linarith
  have : n * 2048 = k := by exact_mod_cast this
  omega

/-- The kernel is non-positive at distances between 0 and half the period. -/
theorem kernel_nonpos {k : ℤ} (h0 : 0 ≤ k) (h1 : k ≤ 1024) : hilbertKernel k ≤ 0 := by
  rcases Int.even_or_odd k with hk | hk
  · exact (kernel_even hk (by omega) (by omega)).le
  · rw [kernel_odd hk]
    have hk0 : (0 : ℝ) ≤ k := by exact_mod_cast h0
    have hk1 : (k : ℝ) ≤ 1024 := by exact_mod_cast h1
    have : 0 ≤ Real.cot (Real.pi * k / 2048) := by
      rw [Real.cot_eq_cos_div_sin]
      have hp := Real.pi_pos
      refine div_nonneg (Real.cos_nonneg_of_mem_Icc ⟨?_, ?_⟩) (Real.sin_nonneg_of_mem_Icc ⟨?_, ?_⟩)
      · have : 0 ≤ Real.pi * k / 2048 := by positivity
        linarith
      · have := mul_le_mul_of_nonneg_left hk1 hp.le
        linarith
      · positivity
      · have := mul_le_mul_of_nonneg_left hk1 hp.le
        linarith
    linarith

/-- The kernel has period 2048 and is odd. -/
theorem kernel_far (k : ℤ) : hilbertKernel k = -hilbertKernel (2048 - k) := by
  unfold hilbertKernel gaussN
  rw [← mul_neg, ← Finset.sum_neg_distrib]
  congr 1
  refine Finset.sum_congr rfl fun j _ => ?_
  rw [← Real.sin_neg]
  have e : -(2 * Real.pi * j * ((2048 - k : ℤ) : ℝ) / (2048 : ℕ)) =
      2 * Real.pi * j * k / (2048 : ℕ) - j * (2 * Real.pi) := by
    push_cast; ring
  rw [e, Real.sin_sub_nat_mul_two_pi]

theorem kernel_neg_odd {k : ℤ} (h0 : 0 < k) (h1 : k < 1024) (hk : Odd k) : hilbertKernel k < 0 := by
  rw [kernel_odd hk]
  have hk0 : (0 : ℝ) < k := by exact_mod_cast h0
  have hk1 : (k : ℝ) < 1024 := by exact_mod_cast h1
  have : 0 < Real.cot (Real.pi * k / 2048) := by
    rw [Real.cot_eq_cos_div_sin]
    have hp := Real.pi_pos
    have := mul_lt_mul_of_pos_left hk1 hp
    refine div_pos (Real.cos_pos_of_mem_Ioo ⟨?_, ?_⟩) (Real.sin_pos_of_mem_Ioo ⟨by positivity, ?_⟩)
    · have : 0 ≤ Real.pi * k / 2048 := by positivity
      linarith
    · linarith
    · linarith
  linarith

/-! ### Gauss -/

theorem gaussSum_hilbert {osc : List (ℝ × ℝ × ℝ)} {y1 y2 : ℕ → ℝ} (h1 : gaussSum hilbert osc = some y1)
    (h2 : gaussSum id osc = some y2) (n : ℕ) : y1 n = hilbert y2 n := by
  induction osc generalizing y1 y2 with
  | nil =>
    simp only [gaussSum, Option.some.injEq] at h1 h2
    subst h1 h2
    simp only [hilbert, zero_mul, Finset.sum_const_zero]
  | cons o osc ih =>
    simp only [gaussSum, Option.bind_eq_bind, Option.bind_eq_some_iff, Option.pure_def, Option.some.injEq]
      at h1 h2
    obtain ⟨g, hg, r1, hr1, rfl⟩ := h1
    obtain ⟨g', hg', r2, hr2, rfl⟩ := h2
    rw [hg, Option.some.injEq] at hg'
    subst hg'
    beta_reduce
    rw [ih hr1 hr2]
    simp only [hilbert, id, add_mul, Finset.sum_add_distrib]

/-- C129, Gauss: at the knots of the grid the real part is `Einf` plus the periodic Hilbert transform of the
imaginary part, with cotangent kernel at odd distances: resonances above an energy raise the real part there,
resonances below lower it. -/
theorem C129_gauss_knots {osc : List (ℝ × ℝ × ℝ)} {einf : ℝ} {v : ℕ → ℂ}
    (h : ∀ j : ℕ, j < 2048 → gaussEps osc einf (-20 + 40 * j / 2047) = some (v j)) {n : ℕ} (hn : n < 2048) :
    (v n).re = einf + 1 / 1024 * ∑ m ∈ (Finset.range 2048).filter fun m => Odd (n + m),
      Real.cot (Real.pi * ((m : ℝ) - n) / 2048) * (v m).im := by
  obtain ⟨y1, y2, h1, h2, -, -⟩ := gaussEps_some (h 0 (by norm_num))
  have hval : ∀ j < 2048, (v j).re = y1 j + einf ∧ (v j).im = y2 j := by
    intro j hj
    obtain ⟨e1, e2, k1, k2, k3, k4⟩ := gaussEps_some (h j hj)
    rw [h1, Option.some.injEq] at k1
    rw [h2, Option.some.injEq] at k2
    subst k1 k2
    have a := gridInterp_knot (fun j => y1 j + einf) hj
    have b := gridInterp_knot y2 hj
    unfold ePad at a b
    rw [k3] at a
    rw [k4] at b
    exact ⟨by simpa using a, by simpa using b⟩
  rw [(hval n hn).1, gaussSum_hilbert h1 h2 n, hilbert, add_comm, Finset.sum_filter, Finset.mul_sum, add_right_inj]
  refine Finset.sum_congr rfl fun m hm => ?_
  have hm' : m < 2048 := Finset.mem_range.1 hm
  rw [(hval m hm').2]
  by_cases ho : Odd (n + m)
  · have hk : Odd ((n : ℤ) - m) := by
      rw [Int.odd_sub, ← Int.odd_add]
      exact_mod_cast ho
    rw [if_pos ho, kernel_odd hk]
    have e : Real.pi * ((m : ℝ) - n) / 2048 = -(Real.pi * (((n : ℤ) - m : ℤ) : ℝ) / 2048) := by
      push_cast; ring
    rw [e, Real.cot_eq_cos_div_sin, Real.cot_eq_cos_div_sin, Real.cos_neg, Real.sin_neg, div_neg]
    ring
  · have hk : Even ((n : ℤ) - m) := by
      rw [Int.even_sub, ← Int.even_add]
      rw [Nat.not_odd_iff_even] at ho
      exact_mod_cast ho
    rw [if_neg ho, kernel_even hk (by omega) (by omega), mul_zero, mul_zero]

theorem e2_nonneg {osc : List (ℝ × ℝ × ℝ)} {y : ℕ → ℝ} (hosc : ∀ o ∈ osc, 0 ≤ o.1 ∧ 0 ≤ o.2.2)
    (h : gaussSum id osc = some y) {j : ℕ} (hj : j < 2048) (hj' : 1024 ≤ j) : 0 ≤ y j := by
  refine gaussSum_induct h (fun y => 0 ≤ y j) (by simp) (fun u w hu hw => add_nonneg hu hw) fun o ho g hg => ?_
  refine gaussE2_nonneg (hosc o ho).1 (hosc o ho).2 ?_ (gaussGrid_eq hg hj)
  have : (1024 : ℝ) ≤ j := by exact_mod_cast hj'
  unfold ePad
  linarith

theorem gaussE2_pos {o : ℝ × ℝ × ℝ} (hA : 0 < o.1) (hB : o.2.1 ≠ 0) (hE : 0 < o.2.2) {x : ℝ} (hx : 0 < x)
    {v : ℝ} (h : gaussE2 o x = some v) : 0 < v := by
  have hs : o.2.1 / 2 / Real.sqrt (Real.log 2) ≠ 0 := by
    have : 0 < Real.sqrt (Real.log 2) := Real.sqrt_pos.mpr (Real.log_pos (by norm_num))
    exact div_ne_zero (div_ne_zero hB (by norm_num)) this.ne'
  unfold gaussE2 gaussExp at h
  set s := o.2.1 / 2 / Real.sqrt (Real.log 2)
  simp only [if_neg hs, Option.bind_eq_bind, Option.bind_some, Option.pure_def, Option.some.injEq] at h
  rw [← h, ← mul_sub]
  refine mul_pos hA (sub_pos.2 (Real.exp_lt_exp.2 (neg_lt_neg ?_)))
  rw [div_pow _ s, div_pow _ s]
  refine div_lt_div_of_pos_right ?_ (by positivity)
  nlinarith [mul_pos hx hE]

theorem e2_pos {osc : List (ℝ × ℝ × ℝ)} {y : ℕ → ℝ} (hosc : ∀ o ∈ osc, 0 ≤ o.1 ∧ 0 ≤ o.2.2)
    (hp : ∃ o ∈ osc, 0 < o.1 ∧ o.2.1 ≠ 0 ∧ 0 < o.2.2) (hy : gaussSum id osc = some y) {j : ℕ} (hj : j < 2048)
    (hj' : 1024 ≤ j) : 0 < y j := by
  induction osc generalizing y with
  | nil => simp at hp
  | cons o osc ih =>
    simp only [gaussSum, Option.bind_eq_bind, Option.bind_eq_some_iff, Option.pure_def, Option.some.injEq] at hy
    obtain ⟨g, hg, r, hr, rfl⟩ := hy
    have hx : 0 < ePad j := by
      have : (1024 : ℝ) ≤ j := by exact_mod_cast hj'
      unfold ePad
      linarith
    have h1 : 0 ≤ g j := gaussE2_nonneg (hosc o (by simp)).1 (hosc o (by simp)).2 hx.le (gaussGrid_eq hg hj)
    have h2 : 0 ≤ r j := e2_nonneg (fun o' ho' => hosc o' (by simp [ho'])) hr hj hj'
    obtain ⟨o', ho', hp'⟩ := hp
    rcases List.mem_cons.1 ho' with rfl | ho'
    · exact add_pos_of_pos_of_nonneg (gaussE2_pos hp'.1 hp'.2.1 hp'.2.2 hx (gaussGrid_eq hg hj)) h2
    · exact add_pos_of_nonneg_of_pos h1 (ih (fun o' ho' => hosc o' (by simp [ho'])) ⟨o', ho', hp'⟩ hr)

/-- C129, Gauss: oscillators with non-negative amplitudes and centres raise the static dielectric constant
above `Einf`, strictly if one of them has a positive amplitude, a width and a positive centre. -/
theorem C129_gauss_static {osc : List (ℝ × ℝ × ℝ)} {einf : ℝ} {v : ℂ}
    (hosc : ∀ o ∈ osc, 0 ≤ o.1 ∧ 0 ≤ o.2.2) (h : gaussEps osc einf 0 = some v) :
    einf ≤ v.re ∧ ((∃ o ∈ osc, 0 < o.1 ∧ o.2.1 ≠ 0 ∧ 0 < o.2.2) → einf < v.re) := by
  obtain ⟨y1, y2, h1, h2, h3, -⟩ := gaussEps_some h
  have ea : ePad 1023 = -(20 / 2047) := by norm_num [ePad]
  have eb : ePad (1023 + 1) = 20 / 2047 := by norm_num [ePad]
  have hsym := e1_even h1 1024 (by norm_num)
  norm_num at hsym
  rw [gridInterp_seg _ (j := 1023) (by norm_num) (by rw [ea]; norm_num) (by rw [eb]; norm_num), ea, eb,
    Option.some.injEq] at h3
  have hre : v.re = y1 1024 + einf := by
    rw [← h3]
    simp only [lerp, Nat.reduceAdd, hsym]
    ring
  have hodd := e2_odd h2
  have hterm : ∀ m ∈ Finset.range gaussN, 0 ≤ y2 m * hilbertKernel (((1024 : ℕ) : ℤ) - m) := by
    intro m hm
    have hm' : m < 2048 := Finset.mem_range.1 hm
    by_cases hlt : m < 1024
    · have := e2_nonneg hosc h2 (j := 2047 - m) (by omega) (by omega)
      rw [hodd m hm'] at this
      exact mul_nonneg_of_nonpos_of_nonpos (by linarith) (kernel_nonpos (by push_cast; omega) (by push_cast; omega))
    · have hk := hilbertKernel_neg (((1024 : ℕ) : ℤ) - m)
      have hk' := kernel_nonpos (k := -(((1024 : ℕ) : ℤ) - m)) (by push_cast; omega) (by push_cast; omega)
      exact mul_nonneg (e2_nonneg hosc h2 hm' (by omega)) (by linarith)
  have hy := gaussSum_hilbert h1 h2 1024
  rw [hilbert] at hy
  refine ⟨by rw [hre, hy]; linarith [Finset.sum_nonneg hterm], fun hp => ?_⟩
  rw [hre, hy]
  have : 0 < ∑ m ∈ Finset.range gaussN, y2 m * hilbertKernel (((1024 : ℕ) : ℤ) - m) := by
    refine Finset.sum_pos' hterm ⟨1025, Finset.mem_range.2 (by norm_num [gaussN]), ?_⟩
    have hk := hilbertKernel_neg 1
    have hk' := kernel_neg_odd (k := 1) (by norm_num) (by norm_num) (by decide)
    have e : (((1024 : ℕ) : ℤ) - (1025 : ℕ)) = -1 := by norm_num
    rw [e, hk]
    exact mul_pos (e2_pos hosc hp h2 (by norm_num) (by norm_num)) (by linarith)
  linarith

/-- C129, Gauss: from 20 eV on, where the grid ends, the real part is at most `Einf`. -/
theorem C129_gauss_high {osc : List (ℝ × ℝ × ℝ)} {einf e : ℝ} {v : ℂ}
    (hosc : ∀ o ∈ osc, 0 ≤ o.1 ∧ 0 ≤ o.2.2) (he : 20 ≤ e) (h : gaussEps osc einf e = some v) : v.re ≤ einf := by
  obtain ⟨y1, y2, h1, h2, h3, -⟩ := gaussEps_some h
  rw [gridInterp_high _ he, Option.some.injEq] at h3
  have hodd := e2_odd h2
  rw [← h3, gaussSum_hilbert h1 h2 2047, hilbert]
  have hterm : ∀ m ∈ Finset.range gaussN, y2 m * hilbertKernel (((2047 : ℕ) : ℤ) - m) ≤ 0 := by
    intro m hm
    have hm' : m < 2048 := Finset.mem_range.1 hm
    by_cases hlt : m < 1024
    · have := e2_nonneg hosc h2 (j := 2047 - m) (by omega) (by omega)
      rw [hodd m hm'] at this
      have hk : 0 ≤ hilbertKernel (((2047 : ℕ) : ℤ) - m) := by
        rw [kernel_far]
        have := kernel_nonpos (k := 2048 - (((2047 : ℕ) : ℤ) - m)) (by push_cast; omega) (by push_cast; omega)
        linarith
      exact mul_nonpos_of_nonpos_of_nonneg (by linarith) hk
    · exact mul_nonpos_of_nonneg_of_nonpos (e2_nonneg hosc h2 hm' (by omega))
        (kernel_nonpos (by push_cast; omega) (by push_cast; omega))
  linarith [Finset.sum_nonpos hterm]

/-! ### Lorentz -/

theorem lorentzTerm_re {e : ℝ} {o : ℝ × ℝ × ℝ} {t : ℂ} (h : lorentzTerm e o = some t) :
    t.re * Complex.normSq ((o.2.2 : ℂ) ^ 2 - e ^ 2 - Complex.I * o.2.1 * e) = o.1 * (o.2.2 ^ 2 - e ^ 2) ∧
      0 < Complex.normSq ((o.2.2 : ℂ) ^ 2 - e ^ 2 - Complex.I * o.2.1 * e) := by
  unfold lorentzTerm cdiv at h
  split_ifs at h with h0
  rw [Option.some.injEq] at h
  have hp : 0 < Complex.normSq ((o.2.2 : ℂ) ^ 2 - e ^ 2 - Complex.I * o.2.1 * e) := Complex.normSq_pos.2 h0
  refine ⟨?_, hp⟩
  have hre : ((o.2.2 : ℂ) ^ 2 - e ^ 2 - Complex.I * o.2.1 * e).re = o.2.2 ^ 2 - e ^ 2 := by
    simp [pow_two]
  rw [← h, Complex.div_re, hre, Complex.ofReal_re, Complex.ofReal_im, zero_mul, zero_div, add_zero]
  exact div_mul_cancel₀ _ hp.ne'

theorem lorentz_sum {e : ℝ} (P : ℝ → Prop) (h0 : P 0) (hadd : ∀ a b, P a → P b → P (a + b)) :
    ∀ {osc : List (ℝ × ℝ × ℝ)} {u : ℂ}, (∀ o ∈ osc, ∀ t, lorentzTerm e o = some t → P t.re) →
      sumO (osc.map (lorentzTerm e)) = some u → P u.re
  | [], u, _, h => by
    simp only [List.map_nil, sumO, Option.some.injEq] at h
    rw [← h]; exact h0
  | o :: osc, u, ho, h => by
    simp only [List.map_cons, sumO, Option.bind_eq_bind, Option.bind_eq_some_iff, Option.pure_def,
      Option.some.injEq] at h
    obtain ⟨t, ht, r, hr, rfl⟩ := h
    rw [Complex.add_re]
    exact hadd _ _ (ho o (by simp) t ht) (lorentz_sum P h0 hadd (fun o' ho' => ho o' (by simp [ho'])) hr)

/-- C129, Lorentz: below all resonances the real part is at least `Einf`, above all of them at most `Einf`. -/
theorem C129_lorentz {osc : List (ℝ × ℝ × ℝ)} {einf e : ℝ} {v : ℂ} (hA : ∀ o ∈ osc, 0 ≤ o.1)
    (h : lorentzEps osc einf e = some v) :
    ((∀ o ∈ osc, |e| ≤ |o.2.2|) → einf ≤ v.re) ∧ ((∀ o ∈ osc, |o.2.2| ≤ |e|) → v.re ≤ einf) := by
  simp only [lorentzEps, Option.bind_eq_bind, Option.bind_eq_some_iff, Option.pure_def, Option.some.injEq] at h
  obtain ⟨u, hu, rfl⟩ := h
  rw [Complex.add_re, Complex.ofReal_re]
  refine ⟨fun hb => ?_, fun hb => ?_⟩
  · have := lorentz_sum (fun x => 0 ≤ x) le_rfl (fun a b => add_nonneg) (fun o ho t ht => ?_) hu
    · linarith
    · obtain ⟨h1, h2⟩ := lorentzTerm_re ht
      have h3 := mul_nonneg (hA o ho) (sub_nonneg.2 (sq_le_sq.2 (hb o ho)))
      rw [← h1] at h3
      exact nonneg_of_mul_nonneg_left h3 h2
  · have := lorentz_sum (fun x => x ≤ 0) le_rfl (fun a b => add_nonpos) (fun o ho t ht => ?_) hu
    · linarith
    · obtain ⟨h1, h2⟩ := lorentzTerm_re ht
      have h3 := mul_nonneg (hA o ho) (sub_nonneg.2 (sq_le_sq.2 (hb o ho)))
      by_contra hc
      push Not at hc
      nlinarith [mul_pos hc h2]

/-- Not vacuous: one oscillator at 3 eV. -/
example (einf : ℝ) : ∃ v, gaussEps [(1, 1, 3)] einf 0 = some v ∧ einf < v.re := by
  obtain ⟨v, hv⟩ := C54_finite (osc := [(1, 1, 3)]) einf 0 (by simp)
  exact ⟨v, hv, (C129_gauss_static (by simp) hv).2 ⟨_, List.mem_singleton_self _, by norm_num⟩⟩

end Verif.Disp
