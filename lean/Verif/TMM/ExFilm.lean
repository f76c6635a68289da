import Verif.TMM.PropsSym

/-!
# An example with delta above 180

A film of index 1.56 and thickness 125 nm on a substrate of index 15/7 in vacuum, at a wavelength of 480 nm
and an angle of incidence with sine 3/5.
-/

namespace Verif.TMM

open Complex (I)

/-- The angle of incidence in degrees. -/
noncomputable def filmAoi : ℝ := Real.arcsin (3 / 5) * (180 / Real.pi)

/-- The stack. -/
noncomputable def filmStack : Stack := ⟨((1 : ℝ) : ℂ), [(((39 / 25 : ℝ) : ℂ), 125)], ((15 / 7 : ℝ) : ℂ)⟩

/-- The slabs. -/
noncomputable def filmRows : List Row :=
  [⟨0, some 1, 0, 0⟩, ⟨1250, some ((39 / 25 : ℝ) : ℂ), 0, 0⟩, ⟨0, some ((15 / 7 : ℝ) : ℂ), 0, 0⟩]

theorem filmRows_of : RowsOf filmRows filmStack := by
  refine ⟨_, [_], _, 1, rfl, rfl, by simp [filmStack], .cons ⟨rfl, ?_⟩ .nil, rfl⟩
  norm_num

theorem film_rad : rad filmAoi = Real.arcsin (3 / 5) := by
  unfold rad filmAoi
  have := Real.pi_pos
  field_simp

theorem film_sin : Complex.sin ((rad filmAoi : ℝ) : ℂ) = ((3 / 5 : ℝ) : ℂ) := by
  rw [film_rad, ← Complex.ofReal_sin, Real.sin_arcsin] <;> norm_num

theorem root_film {x y : ℝ} (hx : |x| ≤ 1) (hy : 0 ≤ y) (h : 1 - x ^ 2 = y ^ 2) :
    root1m (x : ℂ) = (y : ℂ) := by
  rw [root1m_ofReal_le hx, h, Real.sqrt_sq hy]

theorem film_front : frontM filmStack (rad filmAoi : ℝ) = ⟨1, ((4 / 5 : ℝ) : ℂ), 0⟩ := by
  simp only [frontM, film_sin, filmStack, Complex.ofReal_one]
  rw [root_film (y := 4 / 5) (by norm_num [abs_of_pos]) (by norm_num) (by norm_num)]

theorem film_back : backM filmStack (rad filmAoi : ℝ) =
    ⟨((15 / 7 : ℝ) : ℂ), ((24 / 25 : ℝ) : ℂ), 0⟩ := by
  simp only [backM, film_sin, filmStack]
  have : ((1 : ℝ) : ℂ) * ((3 / 5 : ℝ) : ℂ) / ((15 / 7 : ℝ) : ℂ) = ((7 / 25 : ℝ) : ℂ) := by
    push_cast; norm_num
  rw [this, root_film (y := 24 / 25) (by norm_num [abs_of_pos]) (by norm_num) (by norm_num)]

theorem film_films : filmsM filmStack (rad filmAoi : ℝ) 480 =
    [⟨((39 / 25 : ℝ) : ℂ), ((12 / 13 : ℝ) : ℂ), ((3 / 4 * Real.pi : ℝ) : ℂ)⟩] := by
  simp only [filmsM, film_sin, filmStack, List.map_cons, List.map_nil, codeMed]
  have : ((1 : ℝ) : ℂ) * ((3 / 5 : ℝ) : ℂ) / ((39 / 25 : ℝ) : ℂ) = ((5 / 13 : ℝ) : ℂ) := by
    push_cast; norm_num
  rw [this, root_film (y := 12 / 13) (by norm_num [abs_of_pos]) (by norm_num) (by norm_num)]
  have e : 2 * (Real.pi : ℂ) * ((39 / 25 : ℝ) : ℂ) * ((12 / 13 : ℝ) : ℂ) / ((480 : ℝ) : ℂ) *
      ((125 : ℝ) : ℂ) = ((3 / 4 * Real.pi : ℝ) : ℂ) := by
    push_cast; ring
  rw [e, clip35_of_le (by simp)]

theorem film_physical : Physical filmStack 1 (rad filmAoi) 480 := by
  have hpi := Real.pi_pos
  refine ⟨rfl, one_pos, ?_, by norm_num, ?_, ?_, ?_, ?_⟩
  · rw [film_rad, abs_lt]
    constructor
    · have := Real.arcsin_nonneg.mpr (by norm_num : (0 : ℝ) ≤ 3 / 5)
      linarith
    · exact Real.arcsin_lt_pi_div_two.mpr (by norm_num)
  · intro f hf
    simp only [filmStack, List.mem_cons, List.not_mem_nil, or_false] at hf
    subst hf
    refine ⟨⟨?_, ?_⟩, by norm_num⟩
    · rw [Complex.ofReal_re]; norm_num
    · rw [Complex.ofReal_im]
  · refine ⟨?_, ?_⟩
    · simp only [filmStack]; rw [Complex.ofReal_re]; norm_num
    · simp only [filmStack]; rw [Complex.ofReal_im]
  · intro f hf
    simp only [filmStack, List.mem_cons, List.not_mem_nil, or_false] at hf
    subst hf
    simp only [filmStack, film_sin]
    rw [← Complex.ofReal_mul, ← Complex.ofReal_pow, ← Complex.ofReal_pow, Ne, Complex.ofReal_inj]
    norm_num
  · intro f hf m hm
    simp only [filmStack, List.mem_cons, List.not_mem_nil, or_false] at hf
    subst hf
    obtain ⟨_, h2, h3⟩ := hm
    simp only [filmStack, film_sin] at h2 h3
    have h4 : m.c ^ 2 = ((144 / 169 : ℝ) : ℂ) := by
      rw [h2]; push_cast; norm_num
    have h5 : m.c = ((12 / 13 : ℝ) : ℂ) ∨ m.c = -((12 / 13 : ℝ) : ℂ) := by
      rw [← sq_eq_sq_iff_eq_or_eq_neg, h4]; push_cast; norm_num
    have h6 : m.δ.im = 0 := by
      have e : ∀ y : ℝ, 2 * (Real.pi : ℂ) * ((39 / 25 : ℝ) : ℂ) * (y : ℂ) * ((125 : ℝ) : ℂ) /
          ((480 : ℝ) : ℂ) = ((2 * Real.pi * (39 / 25) * y * 125 / 480 : ℝ) : ℂ) := by
        intro y; push_cast; ring
      rcases h5 with h5 | h5
      · rw [h3, h5, e, Complex.ofReal_im]
      · rw [h3, h5, ← Complex.ofReal_neg, e, Complex.ofReal_im]
    rw [h6]
    exact Real.sinh_nonneg_iff.mpr (by norm_num)

/-- `exp(2 i δ) = -i` in the film. -/
theorem film_exp : Complex.exp (I * ((3 / 4 * Real.pi : ℝ) : ℂ)) ^ 2 = -I := by
  rw [← Complex.exp_nat_mul]
  have : ((2 : ℕ) : ℂ) * (I * ((3 / 4 * Real.pi : ℝ) : ℂ)) = -(Real.pi / 2 * I) + 2 * Real.pi * I := by
    push_cast; ring
  rw [this, Complex.exp_add, Complex.exp_two_pi_mul_I, mul_one, Complex.exp_neg]
  rw [Complex.exp_pi_div_two_mul_I, Complex.inv_I]

/-- The amplitudes of reflection. -/
theorem film_amps : ∃ ts tp, solveSt .s filmStack (rad filmAoi : ℝ) 480 =
      some ((-34 + 21 * I) / (119 - 6 * I), ts) ∧
    solveSt .p filmStack (rad filmAoi : ℝ) 480 =
      some ((120802 - 111573 * I) / (807177 - 16698 * I), tp) := by
  obtain ⟨rs, ts, hs⟩ := film_physical.solved .s
  obtain ⟨rp, tp, hp⟩ := film_physical.solved .p
  refine ⟨ts, tp, ?_, ?_⟩
  · have h := (solveL_spec (by rw [← solveSt_eq]; exact hs)).2
    rw [film_front, film_back, film_films] at h
    have hE := film_exp
    have hd : (119 - 6 * I : ℂ) ≠ 0 := by
      intro h; have := congrArg Complex.re h; simp at this
    have := (h (119 - 6 * I) (-34 + 21 * I) (70 * Complex.exp (I * ((3 / 4 * Real.pi : ℝ) : ℂ))) ?_).1
    · rw [hs, this]; field_simp
    · simp only [List.cons_append, List.nil_append, Fields, Tangential, Complex.exp_neg]
      have hE0 := Complex.exp_ne_zero (I * ((3 / 4 * Real.pi : ℝ) : ℂ))
      generalize Complex.exp (I * ((3 / 4 * Real.pi : ℝ) : ℂ)) = E at hE hE0
      have hinv : E⁻¹ = I * E := by
        exact (eq_inv_of_mul_eq_one_left (by linear_combination I * hE - Complex.I_sq)).symm
      rw [hinv]
      refine ⟨85, 15 * I, ⟨by ring, by push_cast; ring⟩, ⟨?_, ?_⟩⟩
      · linear_combination 15 * E * Complex.I_sq
      · push_cast
        linear_combination -(36 / 25) * 15 * E * Complex.I_sq
  · have h := (solveL_spec (by rw [← solveSt_eq]; exact hp)).2
    rw [film_front, film_back, film_films] at h
    have hE := film_exp
    have hd : (807177 - 16698 * I : ℂ) ≠ 0 := by
      intro h; have := congrArg Complex.re h; simp at this
    have := (h (807177 - 16698 * I) (120802 - 111573 * I)
      (1478750 / 3 * Complex.exp (I * ((3 / 4 * Real.pi : ℝ) : ℂ))) ?_).1
    · rw [hp, this]; field_simp
    · simp only [List.cons_append, List.nil_append, Fields, Tangential, Complex.exp_neg]
      have hE0 := Complex.exp_ne_zero (I * ((3 / 4 * Real.pi : ℝ) : ℂ))
      generalize Complex.exp (I * ((3 / 4 * Real.pi : ℝ) : ℂ)) = E at hE hE0
      have hinv : E⁻¹ = I * E := by
        exact (eq_inv_of_mul_eq_one_left (by linear_combination I * hE - Complex.I_sq)).symm
      rw [hinv]
      refine ⟨5491 * 325 / 3, -(253 * 325) * I, ⟨by push_cast; ring, by push_cast; ring⟩, ⟨?_, ?_⟩⟩
      · push_cast
        linear_combination -(39 / 25) * (253 * 325) * E * Complex.I_sq
      · push_cast
        linear_combination (12 / 13) * (253 * 325) * E * Complex.I_sq

/-- The result: psi and delta, with delta strictly between 180 and 360. -/
theorem film_delta (zs : List Layer → ℝ → ℝ → Bool) : ∃ ψ Δ : ℝ, 180 < Δ ∧ Δ < 360 ∧
    ∀ off, (deltaPsiTMM zs [filmAoi] filmRows 480 off false).1 = .ok [(some ψ, some (Δ + off))] ∧
      (deltaPsiTMM zs [filmAoi] filmRows 480 off true).1 = .ok [(some ψ, some (360 - Δ + off))] := by
  obtain ⟨ts, tp, hs, hp⟩ := film_amps
  have hpi := Real.pi_pos
  have hfin := (C14_finite_iff (a := filmAoi) (off := 0) filmRows_of film_physical.nz
    (by norm_num : (480 : ℝ) ≠ 0) zs false).mpr
  have hcoh := coh_real (θ := rad filmAoi) film_physical.front film_physical.nz (lam := 480) (by norm_num) .inf .inf
  have d1 : (119 - 6 * I : ℂ) ≠ 0 := by intro h; have := congrArg Complex.re h; simp at this
  have d2 : (-34 + 21 * I : ℂ) ≠ 0 := by intro h; have := congrArg Complex.re h; simp at this
  have d3 : (807177 - 16698 * I : ℂ) ≠ 0 := by intro h; have := congrArg Complex.re h; simp at this
  have d4 : (120802 - 111573 * I : ℂ) ≠ 0 := by intro h; have := congrArg Complex.re h; simp at this
  obtain ⟨ψ, Δ, h⟩ := hfin ⟨_, _, _, _, _, hcoh, hs, hp, div_ne_zero d2 d1, div_ne_zero d4 d3⟩
  have h0 := h
  rw [deltaPsi_rows filmRows_of film_physical.nz (by norm_num)] at h
  simp only [List.map_cons, List.map_nil, Except.ok.injEq, List.cons.injEq, and_true, hs, hp] at h
  obtain ⟨e, h1, h2, h3, h4⟩ := psiDelta_encodes h
  rw [sub_zero] at e h3 h4
  -- sin of delta is negative
  have htan : 0 < Real.tan (rad ψ) := by
    apply Real.tan_pos_of_pos_of_lt_pi_div_two
    · unfold rad; positivity
    · unfold rad
      calc ψ * (Real.pi / 180) < 90 * (Real.pi / 180) := by gcongr
        _ = Real.pi / 2 := by ring
  have hsin : Real.sin (rad Δ) < 0 := by
    rw [div_eq_iff d3, div_mul_eq_mul_div, div_mul_eq_mul_div, div_mul_eq_mul_div, eq_div_iff d1] at e
    have hexp : Complex.exp (-(I * (rad Δ : ℝ))) = ((Real.cos (rad Δ) : ℝ) : ℂ) -
        ((Real.sin (rad Δ) : ℝ) : ℂ) * I := by
      have := Complex.exp_mul_I (-(rad Δ : ℝ) : ℂ)
      rw [Complex.cos_neg, Complex.sin_neg, ← Complex.ofReal_cos, ← Complex.ofReal_sin] at this
      rw [show -(I * ((rad Δ : ℝ) : ℂ)) = -((rad Δ : ℝ) : ℂ) * I by ring, this]
      ring
    rw [hexp] at e
    have er := congrArg Complex.re e
    have ei := congrArg Complex.im e
    simp [-Complex.ofReal_cos, -Complex.ofReal_sin, -Complex.ofReal_tan] at er ei
    by_contra hc
    push Not at hc
    have hts : 0 ≤ Real.tan (rad ψ) * Real.sin (rad Δ) := mul_nonneg htan.le hc
    nlinarith
  have h5 : 180 < Δ := by
    by_contra hc
    push Not at hc
    have : 0 ≤ Real.sin (rad Δ) := by
      apply Real.sin_nonneg_of_nonneg_of_le_pi
      · unfold rad; positivity
      · unfold rad
        calc Δ * (Real.pi / 180) ≤ 180 * (Real.pi / 180) := by gcongr
          _ = Real.pi := by ring
    linarith
  have h6 : Δ < 360 := by
    refine lt_of_le_of_ne h4 fun hc => ?_
    have : Real.sin (rad Δ) = 0 := by
      rw [hc, rad, show (360 : ℝ) * (Real.pi / 180) = 2 * Real.pi by ring, Real.sin_two_pi]
    linarith
  refine ⟨ψ, Δ, h5, h6, fun off => ?_⟩
  have h7 : (deltaPsiTMM zs [filmAoi] filmRows 480 off false).1 = .ok [(some ψ, some (Δ + off))] := by
    have := C16_offset zs [filmAoi] filmRows 480 0 off false
    rw [zero_add, h0] at this
    exact this
  refine ⟨h7, ?_⟩
  rw [(C15_reflect h7).1]
  simp only [List.map_cons, List.map_nil, Option.map_some, add_sub_cancel_right]
  rw [min_eq_right (by linarith)]

end Verif.TMM
