import Verif.TMM.PropsSym

/-! # C126: a transparent sample seen from both sides -/

namespace Verif.TMM

open Complex (I)

theorem Physical.reverse {n₀ nb : ℝ} {films : List (ℂ × ℝ)} {θ θ' lam : ℝ}
    (h : Physical ⟨(n₀ : ℂ), films, (nb : ℂ)⟩ n₀ θ lam) (hθ' : |θ'| < Real.pi / 2)
    (hsnell : n₀ * Real.sin θ = nb * Real.sin θ') :
    Physical ⟨(nb : ℂ), films.reverse, (n₀ : ℂ)⟩ nb θ' lam := by
  have hsn : (nb : ℂ) * Complex.sin θ' = n₀ * Complex.sin θ := by
    rw [← Complex.ofReal_sin, ← Complex.ofReal_sin, ← Complex.ofReal_mul, ← Complex.ofReal_mul,
      hsnell]
  have hb : 0 < nb := by simpa using h.back.1
  refine ⟨rfl, hb, hθ', h.lam_pos, fun f hf => h.films f (by simpa using hf),
    ⟨by simpa using h.n₀_pos, by simp⟩, fun f hf => ?_, fun f hf m hm => ?_⟩
  · simp only [hsn]
    exact h.offCritical f (by simpa using hf)
  · simp only [hsn] at hm
    exact h.mild f (by simpa using hf) m hm

/-- C126: each polarisation is reflected to the same fraction by a transparent stack and by the reversed
stack, at angles related by Snell's law. -/
theorem C126_reflectance {n₀ nb : ℝ} {films : List (ℂ × ℝ)} {θ θ' lam : ℝ}
    (h : Physical ⟨(n₀ : ℂ), films, (nb : ℂ)⟩ n₀ θ lam) (hl : ∀ f ∈ films, f.1.im = 0)
    (hθ' : |θ'| < Real.pi / 2) (hsnell : n₀ * Real.sin θ = nb * Real.sin θ') (d0 db d0' db' : Thick) :
    ∃ a a', cohTmm (Stack.layers ⟨(n₀ : ℂ), films, (nb : ℂ)⟩ d0 db) [((θ : ℂ), lam)] = .ok [a] ∧
      cohTmm (Stack.layers ⟨(nb : ℂ), films.reverse, (n₀ : ℂ)⟩ d0' db') [((θ' : ℂ), lam)] = .ok [a'] ∧
      ∀ pol, ∃ r t r' t', a.of pol = some (r, t) ∧ a'.of pol = some (r', t') ∧ ‖r‖ = ‖r'‖ := by
  have h' := h.reverse hθ' hsnell
  have hn0 := h.n₀_pos
  have hb := h'.n₀_pos
  obtain ⟨a, ha, hfin⟩ := C10_coh_tmm_finite h d0 db
  obtain ⟨a', ha', hfin'⟩ := C10_coh_tmm_finite h' d0' db'
  refine ⟨a, a', ha, ha', fun pol => ?_⟩
  obtain ⟨r, t, hr⟩ := hfin pol
  obtain ⟨r', t', hr'⟩ := hfin' pol
  refine ⟨r, t, r', t', hr, hr', ?_⟩
  have hT := C93_transmittance hn0 hb (fun f hf => (h.films f hf).1.ne_zero) h.lam_pos.ne' h.angle hθ' hsnell
    ha ha' hr hr'
  have cs : ∀ {n n' : ℝ} {x x' : ℝ}, 0 < n' → |x'| < Real.pi / 2 → n * Real.sin x = n' * Real.sin x' →
      Complex.cos x' ^ 2 = 1 - ((n : ℂ) * Complex.sin x / n') ^ 2 ∧ 0 ≤ ((n' : ℂ) * Complex.cos x').re := by
    intro n n' x x' hn hx he
    have hnc : (n' : ℂ) ≠ 0 := Complex.ofReal_ne_zero.mpr hn.ne'
    have hec : (n : ℂ) * Complex.sin x = n' * Complex.sin x' := by
      rw [← Complex.ofReal_sin, ← Complex.ofReal_sin, ← Complex.ofReal_mul, ← Complex.ofReal_mul, he]
    refine ⟨?_, ?_⟩
    · rw [hec, mul_div_cancel_left₀ _ hnc, eq_sub_iff_add_eq, Complex.cos_sq_add_sin_sq]
    · rw [← Complex.ofReal_cos, ← Complex.ofReal_mul, Complex.ofReal_re]
      exact mul_nonneg hn.le (Real.cos_nonneg_of_mem_Icc ⟨by linarith [(abs_lt.mp hx).1], (abs_lt.mp hx).2.le⟩)
  obtain ⟨c1, c2⟩ := cs hb hθ' hsnell
  obtain ⟨c3, c4⟩ := cs hn0 h.angle hsnell.symm
  have e1 := C09_coh_tmm_lossless h hl ha hr c1 c2
  have e2 := C09_coh_tmm_lossless h' (fun f hf => hl f (by simpa using hf)) ha' hr' c3 c4
  have : ‖r‖ ^ 2 = ‖r'‖ ^ 2 := by
    rw [hT] at e1
    linarith
  exact (sq_eq_sq₀ (norm_nonneg _) (norm_nonneg _)).mp this

theorem psiRad_norm {rs rp rs' rp' : ℂ} (hs : ‖rs‖ = ‖rs'‖) (hp : ‖rp‖ = ‖rp'‖) :
    psiRad rs rp = psiRad rs' rp' := by
  have e1 : rs = 0 ↔ rs' = 0 := by rw [← norm_eq_zero, hs, norm_eq_zero]
  have e2 : rp = 0 ↔ rp' = 0 := by rw [← norm_eq_zero, hp, norm_eq_zero]
  unfold psiRad
  simp only [e1, e2, norm_div, hs, hp]

/-- C126: psi of a transparent sample is the same from both sides (also if it has no value). -/
theorem C126_psi {n₀ nb : ℝ} {films : List (ℂ × ℝ)} {a a' wav : ℝ}
    (h : Physical ⟨(n₀ : ℂ), films, (nb : ℂ)⟩ n₀ (rad a) wav) (hl : ∀ f ∈ films, f.1.im = 0)
    (ha' : |rad a'| < Real.pi / 2) (hsnell : n₀ * Real.sin (rad a) = nb * Real.sin (rad a'))
    {rows rows' : List Row} (hr : RowsOf rows ⟨(n₀ : ℂ), films, (nb : ℂ)⟩)
    (hr' : RowsOf rows' ⟨(nb : ℂ), films.reverse, (n₀ : ℂ)⟩) (zs zs' : List Layer → ℝ → ℝ → Bool)
    (off off' : ℝ) (refl refl' : Bool) :
    ∃ x y, (deltaPsiTMM zs [a] rows wav off refl).1 = .ok [x] ∧
      (deltaPsiTMM zs' [a'] rows' wav off' refl').1 = .ok [y] ∧ x.1 = y.1 := by
  have h' := h.reverse ha' hsnell
  obtain ⟨m, m', hm, hm', he⟩ := C126_reflectance h hl ha' hsnell .inf .inf .inf .inf
  obtain ⟨rs, ts, rs', ts', hs, hs', es⟩ := he .s
  obtain ⟨rp, tp, rp', tp', hp, hp', ep⟩ := he .p
  rw [coh_real_of rfl h.nz h.lam_pos.ne' hm] at hs hp
  rw [coh_real_of rfl h'.nz h'.lam_pos.ne' hm'] at hs' hp'
  rw [deltaPsi_rows hr h.nz h.lam_pos.ne', deltaPsi_rows hr' h'.nz h'.lam_pos.ne']
  refine ⟨_, _, rfl, rfl, ?_⟩
  simp only [hs, hp, hs', hp', psiDelta, psiRad_norm es ep]

/-- Non-vacuity: two transparent films between vacuum and a medium of index 2, at 30 degrees; the angle in the
medium is arcsin (1/4). -/
example : ∃ θ' : ℝ, |θ'| < Real.pi / 2 ∧ (1 : ℝ) * Real.sin (Real.pi / 6) = 2 * Real.sin θ' ∧
    Physical ⟨((1 : ℝ) : ℂ), [((3 : ℝ), 10), ((3 / 2 : ℝ), 20)], ((2 : ℝ) : ℂ)⟩ 1 (Real.pi / 6) 500 := by
  have hpi := Real.pi_pos
  refine ⟨Real.arcsin (1 / 4), ?_, ?_, ?_⟩
  · rw [abs_lt]
    exact ⟨by rw [Real.neg_pi_div_two_lt_arcsin]; norm_num, by rw [Real.arcsin_lt_pi_div_two]; norm_num⟩
  · rw [Real.sin_pi_div_six, Real.sin_arcsin (by norm_num) (by norm_num)]; norm_num
  · have hs : ((1 : ℝ) : ℂ) * Complex.sin ((Real.pi / 6 : ℝ) : ℂ) = ((1 / 2 : ℝ) : ℂ) := by
      rw [← Complex.ofReal_sin, Real.sin_pi_div_six]; simp
    have hsinh : (35 : ℝ) ≤ Real.sinh 35 := Real.self_le_sinh_iff.mpr (by norm_num)
    refine ⟨rfl, one_pos, ?_, by norm_num, ?_, ⟨by simp, by simp⟩, ?_, ?_⟩
    · rw [abs_of_pos (by positivity)]; linarith
    · intro f hf
      simp only [List.mem_cons, List.not_mem_nil, or_false] at hf
      rcases hf with rfl | rfl <;> constructor <;> norm_num [PassiveIndex]
    · intro f hf
      simp only [hs]
      simp only [List.mem_cons, List.not_mem_nil, or_false] at hf
      rcases hf with rfl | rfl <;> rw [← Complex.ofReal_pow, ← Complex.ofReal_pow] <;>
        rw [Ne, Complex.ofReal_inj] <;> norm_num
    · intro f hf m hm
      simp only [hs] at hm
      obtain ⟨x, hx, hx1, hx2⟩ : ∃ x : ℝ, f.1 = (x : ℂ) ∧ 1 ≤ x ∧ x ≤ 3 := by
        simp only [List.mem_cons, List.not_mem_nil, or_false] at hf
        rcases hf with rfl | rfl
        · exact ⟨3, rfl, by norm_num, by norm_num⟩
        · exact ⟨3 / 2, rfl, by norm_num, by norm_num⟩
      have hd : 0 ≤ f.2 ∧ f.2 ≤ 20 := by
        simp only [List.mem_cons, List.not_mem_nil, or_false] at hf
        rcases hf with rfl | rfl <;> norm_num
      have := hm.norm_le (by rw [hx]; exact Complex.ofReal_ne_zero.mpr (by linarith)) (by norm_num) hd.1
      rw [hx, Complex.norm_real, Complex.norm_real, Real.norm_of_nonneg (by linarith),
        Real.norm_of_nonneg (by norm_num)] at this
      have h6 : 2 * Real.pi * f.2 / 500 * (x + 1 / 2) ≤ 2 * 4 * 20 / 500 * (3 + 1 / 2) := by
        have := Real.pi_le_four
        obtain ⟨_, _⟩ := hd
        gcongr
      have h7 := (Complex.abs_im_le_norm m.δ)
      have h8 := le_abs_self m.δ.im
      norm_num at h6
      linarith

end Verif.TMM
