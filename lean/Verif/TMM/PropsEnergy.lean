import Verif.TMM.PhysLemmas

/-!
# C08, C09, C10: finite results and power balance of passive stacks
-/

namespace Verif.TMM

open Complex (I)

/-- C10: for a physical stack every amplitude is finite (no zero denominator anywhere). -/
theorem C10_coh_tmm_finite {st : Stack} {n₀ θ lam : ℝ} (h : Physical st n₀ θ lam)
    (d0 db : Thick) :
    ∃ a, cohTmm (st.layers d0 db) [((θ : ℂ), lam)] = .ok [a] ∧
      ∀ pol, ∃ r t, a.of pol = some (r, t) := by
  refine ⟨_, coh_real h.front h.nz h.lam_pos.ne' d0 db, fun pol => ?_⟩
  obtain ⟨r, t, hs⟩ := h.solved pol
  exact ⟨r, t, by rw [← hs]; cases pol <;> rfl⟩

/-- C08: reflected plus transmitted power never exceeds the incident power. -/
theorem C08_coh_tmm_passive {st : Stack} {n₀ θ lam : ℝ} (h : Physical st n₀ θ lam)
    {d0 db : Thick} {a : Amps} (ha : cohTmm (st.layers d0 db) [((θ : ℂ), lam)] = .ok [a])
    {pol : Pol} {r t : ℂ} (hr : a.of pol = some (r, t))
    {cb : ℂ} (hcb : cb ^ 2 = 1 - (st.front * Complex.sin θ / st.back) ^ 2)
    (hre : 0 ≤ (st.back * cb).re) :
    0 ≤ transmittance pol n₀ θ st.back cb t ∧
    ‖r‖ ^ 2 + transmittance pol n₀ θ st.back cb t ≤ 1 ∧ ‖r‖ ≤ 1 := by
  rw [coh_real_of h.front h.nz h.lam_pos.ne' ha] at hr
  have hp := h.power hr
  rw [h.trans_eq hcb hre]
  have hpos : 0 < n₀ * Real.cos θ := mul_pos h.n₀_pos h.cos_pos
  have hk := kap_re_nonneg h.back_dir pol
  have h0 : 0 ≤ (kap pol (backM st θ)).re * ‖t‖ ^ 2 / (n₀ * Real.cos θ) := by positivity
  have h1 : ‖r‖ ^ 2 + (kap pol (backM st θ)).re * ‖t‖ ^ 2 / (n₀ * Real.cos θ) ≤ 1 := by
    have : (kap pol (backM st θ)).re * ‖t‖ ^ 2 / (n₀ * Real.cos θ) ≤ 1 - ‖r‖ ^ 2 := by
      rw [div_le_iff₀ hpos]; linarith
    linarith
  refine ⟨h0, h1, ?_⟩
  have : ‖r‖ ^ 2 ≤ 1 := by linarith
  exact (sq_le_one_iff₀ (norm_nonneg r)).mp this

/-- C09: if no film absorbs, the power balance is an equality. -/
theorem C09_coh_tmm_lossless {st : Stack} {n₀ θ lam : ℝ} (h : Physical st n₀ θ lam)
    (hl : ∀ f ∈ st.films, f.1.im = 0)
    {d0 db : Thick} {a : Amps} (ha : cohTmm (st.layers d0 db) [((θ : ℂ), lam)] = .ok [a])
    {pol : Pol} {r t : ℂ} (hr : a.of pol = some (r, t))
    {cb : ℂ} (hcb : cb ^ 2 = 1 - (st.front * Complex.sin θ / st.back) ^ 2)
    (hre : 0 ≤ (st.back * cb).re) :
    ‖r‖ ^ 2 + transmittance pol n₀ θ st.back cb t = 1 := by
  rw [coh_real_of h.front h.nz h.lam_pos.ne' ha] at hr
  have hp := h.power_eq hl hr
  rw [h.trans_eq hcb hre]
  have hpos : 0 < n₀ * Real.cos θ := mul_pos h.n₀_pos h.cos_pos
  rw [hp, mul_div_cancel_left₀ _ hpos.ne']
  ring

/-! ### Non-vacuity: a concrete absorbing stack -/

theorem IsFilm.norm_le {s : ℂ} {lam : ℝ} {f : ℂ × ℝ} {m : Medium} (hf : f.1 ≠ 0) (hl : 0 < lam)
    (hd : 0 ≤ f.2) (h : IsFilm s lam f m) : ‖m.δ‖ ≤ 2 * Real.pi * f.2 / lam * (‖f.1‖ + ‖s‖) := by
  obtain ⟨_, h2, h3⟩ := h
  have hq : ‖f.1 * m.c‖ ≤ ‖f.1‖ + ‖s‖ := by
    apply le_of_sq_le_sq _ (by positivity)
    rw [← norm_pow, mul_pow, h2]
    have : f.1 ^ 2 * (1 - (s / f.1) ^ 2) = f.1 ^ 2 - s ^ 2 := by field_simp
    rw [this]
    calc ‖f.1 ^ 2 - s ^ 2‖ ≤ ‖f.1 ^ 2‖ + ‖s ^ 2‖ := norm_sub_le _ _
      _ = ‖f.1‖ ^ 2 + ‖s‖ ^ 2 := by rw [norm_pow, norm_pow]
      _ ≤ (‖f.1‖ + ‖s‖) ^ 2 := by nlinarith [norm_nonneg f.1, norm_nonneg s]
  have e : m.δ = ((2 * Real.pi * f.2 / lam : ℝ) : ℂ) * (f.1 * m.c) := by
    rw [h3]; push_cast; ring
  rw [e, norm_mul, Complex.norm_real, Real.norm_eq_abs, abs_of_nonneg (by positivity)]
  exact mul_le_mul_of_nonneg_left hq (by positivity)

/-- An absorbing film and a transparent film on an absorbing substrate. -/
noncomputable def exStack : Stack := ⟨1, [(2 + I, 10), (3 / 2, 20)], 4 + I⟩

theorem exStack_physical : Physical exStack 1 (Real.pi / 6) 500 := by
  have hs : exStack.front * Complex.sin ((Real.pi / 6 : ℝ) : ℂ) = ((1 / 2 : ℝ) : ℂ) := by
    rw [← Complex.ofReal_sin, Real.sin_pi_div_six]; simp [exStack]
  have hpi := Real.pi_pos
  have hpi4 := Real.pi_le_four
  have hsinh : (35 : ℝ) ≤ Real.sinh 35 := Real.self_le_sinh_iff.mpr (by norm_num)
  refine ⟨by simp [exStack], one_pos, ?_, by norm_num, ?_, ?_, ?_, ?_⟩
  · rw [abs_of_pos (by positivity)]; linarith
  · intro f hf
    simp only [exStack, List.mem_cons, List.not_mem_nil, or_false] at hf
    rcases hf with rfl | rfl <;> constructor <;> simp [PassiveIndex]
  · simp [exStack, PassiveIndex]
  · intro f hf
    rw [hs]
    simp only [exStack, List.mem_cons, List.not_mem_nil, or_false] at hf
    rcases hf with rfl | rfl
    · intro h
      have := congrArg Complex.im h
      simp [sq] at this
    · intro h
      have := congrArg Complex.re h
      simp [sq] at this
      norm_num at this
  · intro f hf m hm
    rw [hs] at hm
    have hb : ∀ g ∈ exStack.films, g.1 ≠ 0 ∧ 0 ≤ g.2 ∧ g.2 ≤ 20 ∧ ‖g.1‖ ≤ 3 := by
      intro g hg
      simp only [exStack, List.mem_cons, List.not_mem_nil, or_false] at hg
      rcases hg with rfl | rfl
      · refine ⟨?_, by norm_num, by norm_num, ?_⟩
        · intro h; have := congrArg Complex.im h; simp at this
        · calc ‖(2 : ℂ) + I‖ ≤ ‖(2 : ℂ)‖ + ‖I‖ := norm_add_le _ _
            _ = 3 := by simp; norm_num
      · refine ⟨by norm_num, by norm_num, by norm_num, ?_⟩
        simp
    obtain ⟨h1, h2, h3, h4⟩ := hb f hf
    have := hm.norm_le h1 (by norm_num) h2
    have h5 : ‖((1 / 2 : ℝ) : ℂ)‖ = 1 / 2 := by rw [Complex.norm_real]; norm_num
    rw [h5] at this
    have h6 : 2 * Real.pi * f.2 / 500 * (‖f.1‖ + 1 / 2) ≤ 2 * 4 * 20 / 500 * (3 + 1 / 2) := by
      gcongr
    have h7 := (Complex.abs_im_le_norm m.δ)
    have h8 := le_abs_self m.δ.im
    norm_num at h6
    linarith

example : ∃ a, cohTmm (exStack.layers .inf .inf) [((Real.pi / 6 : ℝ), 500)] = .ok [a] ∧
    ∀ pol, ∃ r t, a.of pol = some (r, t) ∧ ‖r‖ ≤ 1 := by
  obtain ⟨a, ha, hs⟩ := C10_coh_tmm_finite exStack_physical .inf .inf
  refine ⟨a, ha, fun pol => ?_⟩
  obtain ⟨r, t, hr⟩ := hs pol
  have hcb := root1m_sq (exStack.front * Complex.sin ((Real.pi / 6 : ℝ) : ℂ) / exStack.back)
  have hre : 0 ≤ (exStack.back * root1m (exStack.front *
      Complex.sin ((Real.pi / 6 : ℝ) : ℂ) / exStack.back)).re := by
    have := (qOf_fwd exStack_physical.back (1 * Real.sin (Real.pi / 6))).re_nonneg
    rwa [qOf, ← exStack_physical.sreal] at this
  exact ⟨r, t, hr, (C08_coh_tmm_passive exStack_physical ha hr hcb hre).2.2⟩

end Verif.TMM
