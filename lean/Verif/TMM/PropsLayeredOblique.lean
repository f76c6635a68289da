import Verif.TMM.PropsLayered

/-! # Fine layers at oblique incidence are not the linear mixture (C156) -/

namespace Verif.TMM

open Complex (I)
open Set Filter Topology EMA

/-- Layers of index 1 and `√3`, half and half. -/
noncomputable def fineCell : List (ℂ × ℝ) := [(1, 1 - 1 / 2), ((Real.sqrt 3 : ℝ), 1 / 2)]

theorem rad45 : rad 45 = Real.pi / 4 := by unfold rad; ring

theorem s45 : ((1 : ℝ) : ℂ) * Complex.sin (rad 45 : ℝ) = ((Real.sqrt 2 / 2 : ℝ) : ℂ) := by
  rw [rad45, ← Complex.ofReal_sin, Real.sin_pi_div_four]; simp

theorem s45_sq : (((Real.sqrt 2 / 2 : ℝ) : ℂ)) ^ 2 = 1 / 2 := by
  rw [← Complex.ofReal_pow, div_pow, Real.sq_sqrt (by norm_num)]; norm_num

theorem sqrtC_sq {x : ℝ} (h : 0 ≤ x) : ((Real.sqrt x : ℝ) : ℂ) ^ 2 = x := by
  rw [← Complex.ofReal_pow, Real.sq_sqrt h]

theorem fine_eps : meanEps fineCell = 2 := by
  simp only [meanEps, fineCell, List.map_cons, List.map_nil, List.sum_cons, List.sum_nil, sqrtC_sq (by norm_num : (0 : ℝ) ≤ 3)]
  norm_num

theorem fine_inv : meanInvEps fineCell = 2 / 3 := by
  simp only [meanInvEps, fineCell, List.map_cons, List.map_nil, List.sum_cons, List.sum_nil, sqrtC_sq (by norm_num : (0 : ℝ) ≤ 3)]
  norm_num

theorem fine_layered : Layered [] [] fineCell (Real.sqrt 3 / 2) 3 1 (rad 45) 2 := by
  have hpi := Real.pi_pos
  refine ⟨⟨rfl, one_pos, by rw [rad45, abs_of_pos (by positivity)]; linarith, by norm_num, by simp, ⟨by simp, by simp⟩,
    by simp, by simp⟩, by positivity, ?_, by norm_num [fineCell], ?_⟩
  · intro c hc
    simp only [fineCell, List.mem_cons, List.not_mem_nil, or_false] at hc
    rcases hc with rfl | rfl
    · exact ⟨⟨by simp, by simp⟩, by norm_num⟩
    · exact ⟨⟨by simp, by simp⟩, by norm_num⟩
  · intro c hc
    rw [s45, s45_sq]
    simp only [fineCell, List.mem_cons, List.not_mem_nil, or_false] at hc
    rcases hc with rfl | rfl
    · norm_num
    · simp only [sqrtC_sq (by norm_num : (0 : ℝ) ≤ 3)]; norm_num

/-- The film of the linear mixture, index `√2`. -/
noncomputable def mixFilm : ℂ × ℝ := ((Real.sqrt 2 : ℝ), Real.sqrt 3 / 2)

theorem mix_film_im {m : Medium} (hm : IsFilm (((1 : ℝ) : ℂ) * Complex.sin (rad 45 : ℝ)) 2 mixFilm m) : m.δ.im = 0 := by
  obtain ⟨h1, h2, h3⟩ := hm
  rw [s45] at h2
  simp only [mixFilm] at h1 h2 h3
  have hc2 : m.c ^ 2 = ((3 / 4 : ℝ) : ℂ) := by
    rw [h2, div_pow, s45_sq, sqrtC_sq (by norm_num)]; norm_num
  have him : m.c.im = 0 := by
    have e1 := congrArg Complex.re hc2
    have e2 := congrArg Complex.im hc2
    rw [Complex.ofReal_re, sq, Complex.mul_re] at e1
    rw [Complex.ofReal_im, sq, Complex.mul_im] at e2
    have : m.c.re * m.c.im = 0 := by linarith
    rcases mul_eq_zero.mp this with h | h
    · rw [h] at e1; nlinarith [sq_nonneg m.c.im]
    · exact h
  have e : m.δ = ((2 * Real.pi * Real.sqrt 2 * (Real.sqrt 3 / 2) / 2 : ℝ) : ℂ) * m.c := by rw [h3]; push_cast; ring
  rw [e, Complex.im_ofReal_mul, him, mul_zero]

theorem mix_thin : Thin 1 (rad 45) 2 mixFilm := by
  refine ⟨⟨by simp [mixFilm], by simp [mixFilm]⟩, by simp only [mixFilm]; positivity, ?_, fun m hm => ?_⟩
  · rw [s45, s45_sq, mixFilm, sqrtC_sq (by norm_num)]; norm_num
  · rw [mix_film_im hm]; norm_num

theorem mix_linear (σ : Bool × Bool) (L : ℝ) :
    overallRi σ 1 (Real.sqrt 3 : ℝ) (1 / 2) "linear" L = .ok mixFilm.1 := by
  obtain ⟨no, ne, e1, -, hp, ho, -⟩ := C156_indices σ σ (A := 1) (B := (Real.sqrt 3 : ℝ)) ⟨by simp, by simp⟩
    ⟨by simp, by simp⟩ (f := 1 / 2) (by norm_num) L
  rw [e1]
  have h2 : no ^ 2 = mixFilm.1 ^ 2 := by
    rw [ho]
    have := fine_eps
    unfold fineCell at this
    rw [this, mixFilm, sqrtC_sq (by norm_num)]; norm_num
  rcases sq_eq_sq_iff_eq_or_eq_neg.mp h2 with h | h
  · rw [h]
  · have := hp.1
    rw [h] at this
    simp [mixFilm] at this
    linarith [Real.sqrt_nonneg 2]

/-- Direction in the backing medium. -/
theorem fine_cb : root1m (((1 : ℝ) : ℂ) * Complex.sin (rad 45 : ℝ) / 3) = ((Real.sqrt (17 / 18) : ℝ) : ℂ) := by
  have h2 : Real.sqrt 2 ^ 2 = 2 := Real.sq_sqrt (by norm_num)
  have h1 : Real.sqrt 2 < 2 := by nlinarith [Real.sqrt_nonneg 2]
  rw [s45, show ((Real.sqrt 2 / 2 : ℝ) : ℂ) / 3 = ((Real.sqrt 2 / 2 / 3 : ℝ) : ℂ) by push_cast; rfl, root1m_ofReal_le]
  · congr 2
    rw [div_pow, div_pow, h2]; norm_num
  · rw [abs_of_nonneg (by positivity)]; linarith

/-- A half-wave film for p polarisation. -/
theorem fine_p : limitField .p [] [] fineCell (Real.sqrt 3 / 2) 3 1 (rad 45) 2 =
    (-3, -((Real.sqrt (17 / 18) : ℝ) : ℂ)) := by
  have hq : ((2 / Real.sqrt 3 : ℝ) : ℂ) ^ 2 = 4 / 3 := by
    rw [← Complex.ofReal_pow, div_pow, Real.sq_sqrt (by norm_num)]; norm_num
  have e := across_exp (pol := .p) (s := ((Real.sqrt (2 / 3) : ℝ) : ℂ)) (n := ((Real.sqrt 2 : ℝ) : ℂ))
    (q := ((2 / Real.sqrt 3 : ℝ) : ℂ)) (k := 2 * Real.pi / 2) (D := Real.sqrt 3 / 2) (by positivity)
    (by simp) (by simp)
    (by rw [hq, sqrtC_sq (by norm_num), sqrtC_sq (by norm_num)]; norm_num)
    (backField .p [] 3 1 (rad 45) 2)
  have ha : coefA .p ((Real.sqrt 2 : ℝ) : ℂ) = uniA .p (meanEps fineCell) := by
    simp only [coefA, uniA, fine_eps, sqrtC_sq (by norm_num : (0 : ℝ) ≤ 2)]; norm_num
  have hb : coefB .p ((Real.sqrt (2 / 3) : ℝ) : ℂ) ((Real.sqrt 2 : ℝ) : ℂ) =
      uniB .p (((1 : ℝ) : ℂ) * Complex.sin (rad 45 : ℝ)) (meanEps fineCell) (1 / meanInvEps fineCell) := by
    simp only [coefB, uniB, fine_inv, s45, s45_sq, div_pow, sqrtC_sq (by norm_num : (0 : ℝ) ≤ 2),
      sqrtC_sq (by norm_num : (0 : ℝ) ≤ 2 / 3)]
    norm_num
  rw [ha, hb] at e
  have hl : limitField .p [] [] fineCell (Real.sqrt 3 / 2) 3 1 (rad 45) 2 =
      uniMap .p (((1 : ℝ) : ℂ) * Complex.sin (rad 45 : ℝ)) 2 (Real.sqrt 3 / 2) (meanEps fineCell)
        (1 / meanInvEps fineCell) (backField .p [] 3 1 (rad 45) 2) := rfl
  rw [hl, uniMap, ← e]
  have hδ : ((2 * Real.pi / 2 : ℝ) : ℂ) * ((2 / Real.sqrt 3 : ℝ) : ℂ) * ((Real.sqrt 3 / 2 : ℝ) : ℂ) = Real.pi := by
    rw [← Complex.ofReal_mul, ← Complex.ofReal_mul]
    congr 1
    field_simp
  rw [hδ]
  have hbf : backField .p [] 3 1 (rad 45) 2 = (3, ((Real.sqrt (17 / 18) : ℝ) : ℂ)) := by
    have : backField .p [] 3 1 (rad 45) 2 =
      tanField .p ⟨3, root1m (((1 : ℝ) : ℂ) * Complex.sin (rad 45 : ℝ) / 3), 0⟩ 1 0 := rfl
    rw [this, fine_cb]
    simp [tanField]
  simp [across, hbf]

/-- Phase of the film for the linear mixture. -/
noncomputable def mixPhase : ℝ := Real.pi * (3 / (2 * Real.sqrt 2))

theorem mix_cos_sin : Real.cos mixPhase ≠ 0 ∧ Real.sin mixPhase ≠ 0 := by
  have hpi := Real.pi_pos
  have h2 : Real.sqrt 2 ^ 2 = 2 := Real.sq_sqrt (by norm_num)
  have h0 : 0 < Real.sqrt 2 := by positivity
  have l1 : 1 < 3 / (2 * Real.sqrt 2) := by rw [lt_div_iff₀ (by positivity)]; nlinarith
  have l2 : 3 / (2 * Real.sqrt 2) < 3 / 2 := by rw [div_lt_div_iff₀ (by positivity) (by norm_num)]; nlinarith
  have e : mixPhase = (mixPhase - Real.pi) + Real.pi := by ring
  have b1 : 0 < mixPhase - Real.pi := by unfold mixPhase; nlinarith
  have b2 : mixPhase - Real.pi < Real.pi / 2 := by unfold mixPhase; nlinarith
  rw [e, Real.cos_add_pi, Real.sin_add_pi]
  exact ⟨neg_ne_zero.mpr (Real.cos_pos_of_mem_Ioo ⟨by linarith, b2⟩).ne',
    neg_ne_zero.mpr (Real.sin_pos_of_pos_of_lt_pi b1 (by linarith)).ne'⟩

/-- Field at the front of the mixed film. -/
theorem mix_front (pol : Pol) : acrossAll pol (((1 : ℝ) : ℂ) * Complex.sin (rad 45 : ℝ))
    ([].map (codeMed (((1 : ℝ) : ℂ) * Complex.sin (rad 45 : ℝ)) 2))
      (acrossAll pol (((1 : ℝ) : ℂ) * Complex.sin (rad 45 : ℝ))
        ([mixFilm].map (fullMed (((1 : ℝ) : ℂ) * Complex.sin (rad 45 : ℝ)) 2)) (backField pol [] 3 1 (rad 45) 2)) =
    across pol ((Real.sqrt 2 / 2 : ℝ) : ℂ) ((Real.sqrt 2 : ℝ) : ℂ) ((Real.sqrt 2 * (Real.sqrt 3 / 2) : ℝ) : ℂ) mixPhase
      (tanField pol ⟨3, ((Real.sqrt (17 / 18) : ℝ) : ℂ), 0⟩ 1 0) := by
  have h2 : Real.sqrt 2 ^ 2 = 2 := Real.sq_sqrt (by norm_num)
  have h3 : Real.sqrt 3 ^ 2 = 3 := Real.sq_sqrt (by norm_num)
  have h0 : Real.sqrt 2 ≠ 0 := by positivity
  have hr : root1m (((Real.sqrt 2 / 2 : ℝ) : ℂ) / ((Real.sqrt 2 : ℝ) : ℂ)) = ((Real.sqrt 3 / 2 : ℝ) : ℂ) := by
    rw [← Complex.ofReal_div, root1m_ofReal_le]
    · congr 1
      rw [Real.sqrt_eq_iff_mul_self_eq_of_pos (by positivity)]
      field_simp
      nlinarith
    · rw [div_div, mul_comm 2, ← div_div, div_self h0]; norm_num
  have e1 : backField pol [] 3 1 (rad 45) 2 = tanField pol ⟨3, ((Real.sqrt (17 / 18) : ℝ) : ℂ), 0⟩ 1 0 := by
    rw [← fine_cb]; rfl
  rw [e1]
  show across pol _ mixFilm.1 (mixFilm.1 * root1m (_ / mixFilm.1))
    (2 * Real.pi * mixFilm.1 * root1m (_ / mixFilm.1) / (2 : ℝ) * mixFilm.2) _ = _
  rw [s45]
  simp only [mixFilm, hr]
  congr 1
  · push_cast; rfl
  · unfold mixPhase
    have : (2 : ℝ) * Real.pi * Real.sqrt 2 * (Real.sqrt 3 / 2) / 2 * (Real.sqrt 3 / 2) =
      Real.pi * (3 / (2 * Real.sqrt 2)) := by
      field_simp
      nlinarith
    rw [← this]; push_cast; ring

/-- Reflection of the mixed film. -/
theorem mix_solve (pol : Pol) : solveSt pol ⟨(1 : ℝ), [mixFilm], 3⟩ (rad 45) 2 =
    some (reflOf pol 1 (rad 45) (across pol ((Real.sqrt 2 / 2 : ℝ) : ℂ) ((Real.sqrt 2 : ℝ) : ℂ)
        ((Real.sqrt 2 * (Real.sqrt 3 / 2) : ℝ) : ℂ) mixPhase (tanField pol ⟨3, ((Real.sqrt (17 / 18) : ℝ) : ℂ), 0⟩ 1 0)),
      transOf pol 1 (rad 45) (across pol ((Real.sqrt 2 / 2 : ℝ) : ℂ) ((Real.sqrt 2 : ℝ) : ℂ)
        ((Real.sqrt 2 * (Real.sqrt 3 / 2) : ℝ) : ℂ) mixPhase (tanField pol ⟨3, ((Real.sqrt (17 / 18) : ℝ) : ℂ), 0⟩ 1 0))) :=
  front_insert (pre := []) (post := []) (mid := [mixFilm]) fine_layered.stack (by simpa using mix_thin) pol
    (mix_front pol).symm

theorem cos45 : Real.cos (rad 45) = Real.sqrt 2 / 2 := by rw [rad45, Real.cos_pi_div_four]

/-- Shape of a quotient. -/
theorem normSq_quot (x y z w : ℝ) : Complex.normSq (((x : ℂ) - I * y) / ((z : ℂ) - I * w)) =
    (x ^ 2 + y ^ 2) / (z ^ 2 + w ^ 2) := by
  rw [Complex.normSq_div]
  simp [Complex.normSq_apply]
  ring

theorem mix_s_ne : reflOf .s 1 (rad 45) (across .s ((Real.sqrt 2 / 2 : ℝ) : ℂ) ((Real.sqrt 2 : ℝ) : ℂ)
    ((Real.sqrt 2 * (Real.sqrt 3 / 2) : ℝ) : ℂ) mixPhase
      (tanField .s ⟨3, ((Real.sqrt (17 / 18) : ℝ) : ℂ), 0⟩ 1 0)) ≠ 0 := by
  obtain ⟨hc, -⟩ := mix_cos_sin
  have h2 : Real.sqrt 2 ^ 2 = 2 := Real.sq_sqrt (by norm_num)
  have h0 : 0 < Real.sqrt 2 := by positivity
  have hb : Real.sqrt (17 / 18) ^ 2 = 17 / 18 := Real.sq_sqrt (by norm_num)
  have hb0 : 0 < Real.sqrt (17 / 18) := by positivity
  set q := Real.sqrt 2 * (Real.sqrt 3 / 2) with hq
  set b := Real.sqrt (17 / 18)
  set c := Real.cos mixPhase
  set σ := Real.sin mixPhase
  have hcC : Complex.cos (mixPhase : ℂ) = c := (Complex.ofReal_cos _).symm
  have hsC : Complex.sin (mixPhase : ℂ) = σ := (Complex.ofReal_sin _).symm
  have e : reflOf .s 1 (rad 45) (across .s ((Real.sqrt 2 / 2 : ℝ) : ℂ) ((Real.sqrt 2 : ℝ) : ℂ) (q : ℂ) mixPhase
      (tanField .s ⟨3, (b : ℂ), 0⟩ 1 0)) =
      (((c * (Real.sqrt 2 / 2 - 3 * b) : ℝ) : ℂ) -
        I * ((Real.sqrt 2 / 2 * (1 / q) * σ * (3 * b) - (2 - 1 / 2) / q * σ : ℝ) : ℂ)) /
      (((c * (Real.sqrt 2 / 2 + 3 * b) : ℝ) : ℂ) -
        I * ((Real.sqrt 2 / 2 * (1 / q) * σ * (3 * b) + (2 - 1 / 2) / q * σ : ℝ) : ℂ)) := by
    simp only [reflOf, frontScale, across, tanField, coefA, coefB, s45_sq, sqrtC_sq (by norm_num : (0 : ℝ) ≤ 2), cos45,
      hcC, hsC]
    push_cast
    congr 1 <;> ring
  have hlt : Real.sqrt 2 / 2 < 3 * b := by nlinarith
  rw [e]
  intro h
  have := congrArg Complex.normSq h
  rw [normSq_quot, Complex.normSq_zero] at this
  have n1 : c * (Real.sqrt 2 / 2 - 3 * b) ≠ 0 := mul_ne_zero hc (by linarith)
  have n2 : c * (Real.sqrt 2 / 2 + 3 * b) ≠ 0 := mul_ne_zero hc (by positivity)
  rcases div_eq_zero_iff.mp this with h | h
  · nlinarith [sq_nonneg (Real.sqrt 2 / 2 * (1 / q) * σ * (3 * b) - (2 - 1 / 2) / q * σ), sq_pos_of_ne_zero n1]
  · nlinarith [sq_nonneg (Real.sqrt 2 / 2 * (1 / q) * σ * (3 * b) + (2 - 1 / 2) / q * σ), sq_pos_of_ne_zero n2]

/-- Reflection for p polarisation: layers and mixture. -/
theorem mix_p_ne : Complex.normSq (reflOf .p 1 (rad 45) (-3, -((Real.sqrt (17 / 18) : ℝ) : ℂ))) ≠
    Complex.normSq (reflOf .p 1 (rad 45) (across .p ((Real.sqrt 2 / 2 : ℝ) : ℂ) ((Real.sqrt 2 : ℝ) : ℂ)
    ((Real.sqrt 2 * (Real.sqrt 3 / 2) : ℝ) : ℂ) mixPhase
      (tanField .p ⟨3, ((Real.sqrt (17 / 18) : ℝ) : ℂ), 0⟩ 1 0))) ∧
    reflOf .p 1 (rad 45) (across .p ((Real.sqrt 2 / 2 : ℝ) : ℂ) ((Real.sqrt 2 : ℝ) : ℂ)
      ((Real.sqrt 2 * (Real.sqrt 3 / 2) : ℝ) : ℂ) mixPhase
        (tanField .p ⟨3, ((Real.sqrt (17 / 18) : ℝ) : ℂ), 0⟩ 1 0)) ≠ 0 := by
  obtain ⟨hc, hσ⟩ := mix_cos_sin
  have h2 : Real.sqrt 2 ^ 2 = 2 := Real.sq_sqrt (by norm_num)
  have h0 : 0 < Real.sqrt 2 := by positivity
  have hb : Real.sqrt (17 / 18) ^ 2 = 17 / 18 := Real.sq_sqrt (by norm_num)
  have hb0 : 0 < Real.sqrt (17 / 18) := by positivity
  have hq0 : Real.sqrt 2 * (Real.sqrt 3 / 2) ≠ 0 := by positivity
  set q := Real.sqrt 2 * (Real.sqrt 3 / 2) with hq
  set b := Real.sqrt (17 / 18)
  set c := Real.cos mixPhase
  set σ := Real.sin mixPhase
  have hcC : Complex.cos (mixPhase : ℂ) = c := (Complex.ofReal_cos _).symm
  have hsC : Complex.sin (mixPhase : ℂ) = σ := (Complex.ofReal_sin _).symm
  set a := Real.sqrt 2 / 2 with ha
  have ha0 : 0 < a := by positivity
  have ha2 : a ^ 2 = 1 / 2 := by rw [ha, div_pow, h2]; norm_num
  have e1 : reflOf .p 1 (rad 45) (-3, -(b : ℂ)) =
      (((3 * a - b : ℝ) : ℂ) - I * ((0 : ℝ) : ℂ)) / (((3 * a + b : ℝ) : ℂ) - I * ((0 : ℝ) : ℂ)) := by
    simp only [reflOf, frontScale, cos45, ← ha]
    rw [← neg_div_neg_eq]
    push_cast
    congr 1 <;> ring
  have e2 : reflOf .p 1 (rad 45) (across .p (a : ℂ) ((Real.sqrt 2 : ℝ) : ℂ) (q : ℂ) mixPhase
      (tanField .p ⟨3, (b : ℂ), 0⟩ 1 0)) =
      (((c * (3 * a - b) : ℝ) : ℂ) - I * ((σ / q * (2 * a * b - 9 / 4) : ℝ) : ℂ)) /
      (((c * (3 * a + b) : ℝ) : ℂ) - I * ((σ / q * (2 * a * b + 9 / 4) : ℝ) : ℂ)) := by
    have hs : ((a : ℂ)) ^ 2 = 1 / 2 := by rw [← Complex.ofReal_pow, ha2]; norm_num
    simp only [reflOf, frontScale, across, tanField, coefA, coefB, div_pow, hs, sqrtC_sq (by norm_num : (0 : ℝ) ≤ 2),
      cos45, ← ha, hcC, hsC]
    push_cast
    congr 1 <;> ring
  have d2 : 0 < (c * (3 * a + b)) ^ 2 + (σ / q * (2 * a * b + 9 / 4)) ^ 2 := by positivity
  refine ⟨?_, fun h => ?_⟩
  swap
  · have := congrArg Complex.normSq h
    rw [e2, normSq_quot, Complex.normSq_zero, div_eq_zero_iff, or_iff_left d2.ne'] at this
    have hab : 3 * a - b ≠ 0 := by
      intro h
      have h3 : b ^ 2 = (3 * a) ^ 2 := by rw [show b = 3 * a by linarith]
      rw [hb, mul_pow, ha2] at h3
      norm_num at h3
    nlinarith [sq_nonneg (σ / q * (2 * a * b - 9 / 4)), sq_pos_of_ne_zero (mul_ne_zero hc hab)]
  rw [e1, e2, normSq_quot, normSq_quot]
  have d1 : 0 < (3 * a + b) ^ 2 + 0 ^ 2 := by positivity
  rw [Ne, div_eq_div_iff d1.ne' d2.ne']
  intro h
  have hσq : (σ / q) ^ 2 ≠ 0 := pow_ne_zero 2 (div_ne_zero hσ hq0)
  have key : (σ / q) ^ 2 * ((a * (27 / 2 - 4 * b ^ 2)) * (b * (12 * a ^ 2 - 9 / 2))) = 0 := by
    linear_combination h
  rw [hb, ha2] at key
  have : (a * (27 / 2 - 4 * (17 / 18))) * (b * (12 * (1 / 2) - 9 / 2)) ≠ 0 := by
    refine mul_ne_zero (mul_ne_zero ha0.ne' (by norm_num)) (mul_ne_zero hb0.ne' (by norm_num))
  exact (mul_ne_zero hσq this) key

/-- C156 fails for the mixture rules at oblique incidence: psi of layers of index 1 and `√3`, half and half, does not
tend to psi of the film with the index that `overall_ri` gives by the linear rule, although the amplitude for
s polarisation does (`C156_linear_partial`). -/
theorem C156_fails_oblique (σ : Bool × Bool) (L : ℝ) (zs : List Layer → ℝ → ℝ → Bool) (off : ℝ) (refl : Bool)
    {rows : ℕ → List Row} (hr : ∀ N, RowsOf (rows N) (layered [] [] fineCell (Real.sqrt 3 / 2) 3 1 N)) {nm : ℂ}
    (hm : overallRi σ 1 (Real.sqrt 3 : ℝ) (1 / 2) "linear" L = .ok nm) {film : List Row}
    (hf : RowsOf film ⟨(1 : ℝ), [(nm, Real.sqrt 3 / 2)], 3⟩) :
    ∃ ψ Δ : ℕ → ℝ, ∃ ψ' Δ' : ℝ,
      (∀ᶠ N in atTop, (deltaPsiTMM zs [45] (rows N) 2 off refl).1 = .ok [(some (ψ N), some (Δ N))]) ∧
      (deltaPsiTMM zs [45] film 2 off refl).1 = .ok [(some ψ', some Δ')] ∧ ¬ Tendsto ψ atTop (𝓝 ψ') := by
  have hnm : nm = mixFilm.1 := by
    rw [mix_linear, Except.ok.injEq] at hm
    exact hm.symm
  subst hnm
  have hpi := Real.pi_pos
  have h2 : Real.sqrt 2 ^ 2 = 2 := Real.sq_sqrt (by norm_num)
  have h := fine_layered
  have hcb : (((Real.sqrt (17 / 18) : ℝ) : ℂ)) ^ 2 = 1 - (((1 : ℝ) : ℂ) * Complex.sin (rad 45 : ℝ) / 3) ^ 2 := by
    rw [← fine_cb, root1m_sq]
  have hl := h.film (nm := mixFilm.1) mix_thin .s (by simp [coefA, uniA])
    (by simp only [coefB, uniB, fine_eps, mixFilm, sqrtC_sq (by norm_num : (0 : ℝ) ≤ 2)]; norm_num)
  have hl' := (mix_solve .s).symm.trans hl
  simp only [Option.some.injEq, Prod.mk.injEq] at hl'
  have hS := (h.solves_iff (pol := .s) .nil .nil (by simp) _ _).mpr ⟨rfl, rfl⟩
  have hP := (h.solves_iff (pol := .p) .nil .nil (by simp) _ _).mpr ⟨rfl, rfl⟩
  rw [← hl'.1, fine_cb] at hS
  rw [fine_p, fine_cb] at hP
  have hRs := mix_s_ne
  have hRp : reflOf .p 1 (rad 45) (-3, -((Real.sqrt (17 / 18) : ℝ) : ℂ)) ≠ 0 := by
    have hb : Real.sqrt (17 / 18) ^ 2 = 17 / 18 := Real.sq_sqrt (by norm_num)
    have hb0 : 0 < Real.sqrt (17 / 18) := by positivity
    have h0 : 0 < Real.sqrt 2 := by positivity
    have e : reflOf .p 1 (rad 45) (-3, -((Real.sqrt (17 / 18) : ℝ) : ℂ)) =
        (((3 * (Real.sqrt 2 / 2) - Real.sqrt (17 / 18)) / (3 * (Real.sqrt 2 / 2) + Real.sqrt (17 / 18)) : ℝ) : ℂ) := by
      simp only [reflOf, frontScale, cos45]
      rw [← neg_div_neg_eq]
      push_cast
      congr 1 <;> ring
    rw [e, Complex.ofReal_ne_zero]
    refine div_ne_zero (sub_ne_zero.mpr fun h => ?_) (by positivity)
    have := congrArg (· ^ 2) h
    simp only [mul_pow, div_pow, h2, hb] at this
    norm_num at this
  obtain ⟨hne, hrp⟩ := mix_p_ne
  set Rs := reflOf .s 1 (rad 45) (across .s ((Real.sqrt 2 / 2 : ℝ) : ℂ) ((Real.sqrt 2 : ℝ) : ℂ)
    ((Real.sqrt 2 * (Real.sqrt 3 / 2) : ℝ) : ℂ) mixPhase
      (tanField .s ⟨3, ((Real.sqrt (17 / 18) : ℝ) : ℂ), 0⟩ 1 0)) with hRsdef
  have mP := mix_solve .p
  have mS := mix_solve .s
  rw [← hRsdef] at mS
  set Rp := reflOf .p 1 (rad 45) (-3, -((Real.sqrt (17 / 18) : ℝ) : ℂ)) with hRpdef
  set rp := reflOf .p 1 (rad 45) (across .p ((Real.sqrt 2 / 2 : ℝ) : ℂ) ((Real.sqrt 2 : ℝ) : ℂ)
    ((Real.sqrt 2 * (Real.sqrt 3 / 2) : ℝ) : ℂ) mixPhase
      (tanField .p ⟨3, ((Real.sqrt (17 / 18) : ℝ) : ℂ), 0⟩ 1 0)) with hrpdef
  obtain ⟨ψ, Δ, hev, hψ, -⟩ := C156_psi_delta_partial h .nil .nil (by simp)
    (fun h3 => by
      have h1 : (3 : ℝ) < 1 * Real.sin (rad 45) := by simpa using h3.2
      linarith [Real.sin_le_one (rad 45)]) hcb
    (Or.inr ⟨by simp, by simp⟩) hS hP hr zs off refl hRs hRp
  have hPf : Physical ⟨(1 : ℝ), [mixFilm], 3⟩ 1 (rad 45) 2 :=
    physical_insert (pre := []) (post := []) (mid := [mixFilm]) h.stack (by simpa using mix_thin)
  have hf' : RowsOf film ⟨(1 : ℝ), [mixFilm], 3⟩ := hf
  refine ⟨ψ, Δ, Real.arctan ‖rp / Rs‖ * (180 / Real.pi),
    reflectRad refl (npAngle (zs (Stack.layers ⟨(1 : ℝ), [mixFilm], 3⟩ .inf .inf) 45 2) (-(Rs / rp)) + Real.pi) *
      (180 / Real.pi) + off, hev, ?_, fun hψ' => ?_⟩
  · rw [deltaPsi_rows hf' hPf.nz hPf.lam_pos.ne']
    simp only [List.map_cons, List.map_nil, mS, mP, psiDelta]
    rw [deltaRad_of_ne hRs hrp, psiRad, if_neg hRs]
    rfl
  · have e := tendsto_nhds_unique hψ hψ'
    rw [mul_div_assoc] at e
    have e1 := mul_right_cancel₀ (by positivity : (180 / Real.pi) ≠ 0) e
    have e2 := Real.arctan_injective e1
    rw [norm_div, div_left_inj' (norm_ne_zero_iff.mpr hRs)] at e2
    exact hne (by rw [Complex.normSq_eq_norm_sq, Complex.normSq_eq_norm_sq, e2])

/-! ### Non-vacuity -/

/-- Rows of a stack with films `fs` between air and a medium of index 3. -/
noncomputable def airRows (fs : List (ℂ × ℝ)) : List Row :=
  ⟨0, some 1, 0, 0⟩ :: fs.map (fun f => ⟨10 * f.2, some f.1, 0, 0⟩) ++ [⟨0, some 3, 0, 0⟩]

theorem airRows_of (fs : List (ℂ × ℝ)) : RowsOf (airRows fs) ⟨(1 : ℝ), fs, 3⟩ := by
  refine ⟨_, _, _, 1, rfl, rfl, by simp, ?_, rfl⟩
  rw [List.forall₂_map_left_iff]
  exact List.forall₂_same.mpr fun f _ => ⟨rfl, rfl⟩

/-- C156 with these numbers: the layers, their rows in the model and the index of the mixture. -/
example (σ : Bool × Bool) (zs : List Layer → ℝ → ℝ → Bool) : ∃ ψ Δ : ℕ → ℝ, ∃ ψ' Δ' : ℝ,
    (∀ᶠ N : ℕ in atTop, (deltaPsiTMM zs [45] (airRows (periods fineCell (Real.sqrt 3 / 2 / N) N)) 2 0 false).1 =
      .ok [(some (ψ N), some (Δ N))]) ∧
    (deltaPsiTMM zs [45] (airRows [mixFilm]) 2 0 false).1 = .ok [(some ψ', some Δ')] ∧ ¬ Tendsto ψ atTop (𝓝 ψ') :=
  C156_fails_oblique σ 0 zs 0 false (fun N => by
    have := airRows_of (periods fineCell (Real.sqrt 3 / 2 / N) N)
    simpa [layered] using this) (mix_linear σ 0) (airRows_of _)

/-- C156: the same layers for s polarisation do tend to the mixture. -/
example (σ : Bool × Bool) : ∃ a : Amps,
    cohTmm (Stack.layers ⟨(1 : ℝ), [mixFilm], 3⟩ .inf .inf) [(((rad 45 : ℝ) : ℂ), 2)] = .ok [a] ∧
    ∃ r t : Pol → ℕ → ℂ,
      (∀ᶠ N in atTop, cohTmm ((layered [] [] fineCell (Real.sqrt 3 / 2) 3 1 N).layers .inf .inf)
        [(((rad 45 : ℝ) : ℂ), 2)] = .ok [⟨some (r .s N, t .s N), some (r .p N, t .p N)⟩]) ∧
      ∃ R T, a.s = some (R, T) ∧ Tendsto (r .s) atTop (𝓝 R) ∧ Tendsto (t .s) atTop (𝓝 T) := by
  obtain ⟨a, h1, r, t, h2, h3⟩ := C156_linear_partial (f := 1 / 2) fine_layered σ 0 (mix_linear σ 0) mix_thin.2.2.1
    mix_thin.2.2.2 .inf .inf
  exact ⟨a, h1, r, t, h2, h3 .s (Or.inl rfl)⟩

/-- C156: the uniaxial film in question and its one solution. -/
example : ∃ cb, ∃ R T : Pol → ℂ, (∀ pol r t,
      UniaxialSolves pol 1 (rad 45) 2 (Real.sqrt 3 / 2) 2 (3 / 2) [] [] 3 cb r t ↔ r = R pol ∧ t = T pol) ∧
    ∃ r t : Pol → ℕ → ℂ,
      (∀ᶠ N in atTop, cohTmm ((layered [] [] fineCell (Real.sqrt 3 / 2) 3 1 N).layers .inf .inf)
        [(((rad 45 : ℝ) : ℂ), 2)] = .ok [⟨some (r .s N, t .s N), some (r .p N, t .p N)⟩]) ∧
      ∀ pol, Tendsto (r pol) atTop (𝓝 (R pol)) ∧ Tendsto (t pol) atTop (𝓝 (T pol)) := by
  obtain ⟨cb, -, -, R, T, h1, h2⟩ := C156_amplitudes_partial fine_layered
  obtain ⟨r, t, h3, h4⟩ := h2 .inf .inf
  refine ⟨cb, R, T, fun pol r t => ?_, r, t, h3, h4⟩
  have := h1 pol [] [] .nil .nil (by simp) r t
  rwa [fine_eps, fine_inv, show (1 : ℂ) / (2 / 3) = 3 / 2 by norm_num] at this

end Verif.TMM
