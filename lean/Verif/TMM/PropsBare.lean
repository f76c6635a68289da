import Verif.TMM.PropsObs

/-!
# Normal incidence (C111), bare surfaces (C112, C113)
-/

namespace Verif.TMM

open Complex (I)
open scoped ComplexConjugate

/-! ### C111: normal incidence -/

theorem fields_normal {L : List Medium} (hL : ∀ m ∈ L, m.c = 1) {t : ℂ} : ∀ {m : Medium} {v w : ℂ},
    m.c = 1 → Fields .s m v w L t → Fields .p m v (-w) L t := by
  have tang : ∀ {m m' : Medium} {v w v' w' : ℂ}, m.c = 1 → m'.c = 1 →
      Tangential .s m m' v w v' w' → Tangential .p m m' v (-w) v' (-w') := by
    rintro m m' v w v' w' h h' ⟨h1, h2⟩
    rw [h, h'] at h2
    refine ⟨?_, ?_⟩
    · linear_combination h2
    · rw [h, h']; linear_combination h1
  induction L with
  | nil => intro m v w _ h; exact h
  | cons b L ih =>
    intro m v w hm h
    cases L with
    | nil =>
      have := tang hm (hL b (by simp)) h
      rwa [neg_zero] at this
    | cons b' L =>
      rw [fields_cons (by simp)] at h ⊢
      obtain ⟨v', w', h1, h2⟩ := h
      refine ⟨v', -w', tang hm (hL b (by simp)) h1, ?_⟩
      have := ih (fun m hm => hL m (by simp [hm])) (hL b (by simp)) h2
      rwa [← neg_mul] at this

theorem root1m_zero : root1m 0 = 1 := by
  have := root1m_ofReal_le (x := 0) (by simp)
  simpa using this

theorem solveSt_normal {st : Stack} {lam : ℝ} {rs ts rp tp : ℂ}
    (hs : solveSt .s st ((0 : ℝ) : ℂ) lam = some (rs, ts))
    (hp : solveSt .p st ((0 : ℝ) : ℂ) lam = some (rp, tp)) : rp = -rs ∧ tp = ts := by
  rw [solveSt_eq] at hs hp
  have hf := fields_normal (m := frontM st ((0 : ℝ) : ℂ)) ?_ ?_ (solveL_spec hs).1
  · have := (solveL_spec hp).2 _ _ _ hf
    rw [one_mul, one_mul] at this
    exact ⟨this.1.symm, this.2.symm⟩
  · intro m hm
    rcases List.mem_append.mp hm with h | h
    · obtain ⟨f, _, rfl⟩ := List.mem_map.mp h
      simp [codeMed, root1m_zero]
    · simp only [List.mem_singleton] at h
      subst h
      simp [backM, root1m_zero]
  · simp [frontM, root1m_zero]

theorem psiDelta_opposite {σ refl : Bool} {off : ℝ} {r t t' : ℂ} :
    psiDelta σ refl off ⟨some (r, t), some (-r, t')⟩ =
      if r = 0 then (none, none) else (some 45, some (180 + off)) := by
  have hpi := Real.pi_pos
  by_cases h : r = 0
  · subst h
    rw [if_pos rfl]
    simp [psiDelta, psiRad, deltaRad, cdiv_zero]
  · rw [if_neg h]
    have h1 : -r / r = -1 := by field_simp
    have h2 : - -r / r = 1 := by field_simp
    have h4 : npAngle σ 1 = 0 := by
      unfold npAngle
      rw [if_neg (by simp), Complex.arg_one]
    have h5 : reflectRad refl Real.pi = Real.pi := by
      unfold reflectRad; split_ifs <;> linarith
    simp only [psiDelta, psiRad, if_neg h, h1, norm_neg, norm_one, Real.arctan_one, Option.map_some,
      deltaRad, cdiv_of_ne h, Option.bind_eq_bind, Option.bind_some, h2,
      cdiv_of_ne one_ne_zero, div_one, h4, zero_add, h5]
    congr 2
    · field_simp; norm_num
    · field_simp

/-- C111: at normal incidence there is no difference between the polarisations: psi is 45 and delta
180 degrees (plus offset) for every stack and wavelength - unless nothing is reflected, and neither has a
value. -/
theorem C111_normal {rows : List Row} {st : Stack} (hr : RowsOf rows st) {n₀ wav : ℝ}
    (h : Physical st n₀ (rad 0) wav) (zs : List Layer → ℝ → ℝ → Bool) (off : ℝ) (refl : Bool) :
    ∃ a r t, cohTmm (st.layers .inf .inf) [((rad 0 : ℝ), wav)] = .ok [a] ∧
      a.s = some (r, t) ∧ a.p = some (-r, t) ∧
      (r ≠ 0 → (deltaPsiTMM zs [0] rows wav off refl).1 = .ok [(some 45, some (180 + off))]) ∧
      (r = 0 → (deltaPsiTMM zs [0] rows wav off refl).1 = .ok [(none, none)]) := by
  obtain ⟨rs, ts, h1⟩ := h.solved .s
  obtain ⟨rp, tp, h2⟩ := h.solved .p
  have e0 : rad 0 = 0 := by simp [rad]
  have h1' := h1
  have h2' := h2
  rw [e0] at h1' h2'
  obtain ⟨e1, e2⟩ := solveSt_normal h1' h2'
  subst e1 e2
  refine ⟨_, rs, tp, coh_real h.front h.nz h.lam_pos.ne' _ _, h1, h2, fun hr0 => ?_, fun hr0 => ?_⟩
  all_goals
    rw [deltaPsi_rows hr h.nz h.lam_pos.ne']
    simp only [List.map_cons, List.map_nil]
    rw [h1, h2, psiDelta_opposite]
  · rw [if_neg hr0]
  · rw [if_pos hr0]

/-- Non-vacuity: an absorbing film on a substrate. -/
example : Physical ⟨((1 : ℝ) : ℂ), [(2 + I, 10)], 3⟩ 1 (rad 0) 500 := exPhysical _ (by simp)

/-! ### Bare surfaces -/

/-- Amplitudes of a bare surface, with the normal components `q₀`, `q` of the wavevectors. -/
theorem bare_amps {nb : ℂ} {n₀ θ lam : ℝ} (h : Physical ⟨(n₀ : ℂ), [], nb⟩ n₀ θ lam) :
    ∃ rs ts rp tp, solveSt .s ⟨(n₀ : ℂ), [], nb⟩ θ lam = some (rs, ts) ∧
      solveSt .p ⟨(n₀ : ℂ), [], nb⟩ θ lam = some (rp, tp) ∧
      ((n₀ * Real.cos θ : ℝ) : ℂ) + qOf (n₀ * Real.sin θ) nb ≠ 0 ∧
      ((n₀ * Real.sin θ : ℝ) : ℂ) ^ 2 + (n₀ * Real.cos θ : ℝ) * qOf (n₀ * Real.sin θ) nb ≠ 0 ∧
      rs * ((n₀ * Real.cos θ : ℝ) + qOf (n₀ * Real.sin θ) nb) =
        (n₀ * Real.cos θ : ℝ) - qOf (n₀ * Real.sin θ) nb ∧
      rp * (((n₀ * Real.sin θ : ℝ) : ℂ) ^ 2 + (n₀ * Real.cos θ : ℝ) * qOf (n₀ * Real.sin θ) nb) =
        rs * (((n₀ * Real.sin θ : ℝ) : ℂ) ^ 2 - (n₀ * Real.cos θ : ℝ) * qOf (n₀ * Real.sin θ) nb) := by
  obtain ⟨rs, ts, h1⟩ := h.solved .s
  obtain ⟨rp, tp, h2⟩ := h.solved .p
  have hq := h.back_dir.q
  have hq2 := qOf_sq (n₀ * Real.sin θ) h.back.ne_zero
  have hre := (qOf_fwd h.back (n₀ * Real.sin θ)).re_nonneg
  have hnb : (nb : ℂ) ≠ 0 := h.back.ne_zero
  have hn0 := h.n₀_pos
  have hc0 := h.cos_pos
  have hfc := h.front_c
  have hn0' : (n₀ : ℂ) ≠ 0 := Complex.ofReal_ne_zero.mpr hn0.ne'
  have trig : ((n₀ * Real.cos θ : ℝ) : ℂ) ^ 2 + ((n₀ * Real.sin θ : ℝ) : ℂ) ^ 2 = (n₀ : ℂ) ^ 2 := by
    rw [← Complex.ofReal_pow, ← Complex.ofReal_pow, ← Complex.ofReal_add, ← Complex.ofReal_pow]
    congr 1
    have := Real.sin_sq_add_cos_sq θ
    linear_combination n₀ ^ 2 * this
  rw [solveSt_eq] at h1 h2
  have f1 := (solveL_spec h1).1
  have f2 := (solveL_spec h2).1
  rw [← solveSt_eq] at h1 h2
  simp only [filmsM, List.map_nil, List.nil_append, Fields, Tangential] at f1 f2
  rw [hq, hfc] at f1
  rw [hfc] at f2
  set cb := (backM (⟨(n₀ : ℂ), [], nb⟩ : Stack) θ).c with hcb
  have en : (backM (⟨(n₀ : ℂ), [], nb⟩ : Stack) θ).n = nb := rfl
  have ef : (frontM (⟨(n₀ : ℂ), [], nb⟩ : Stack) θ).n = n₀ := rfl
  rw [en] at hq f1 f2
  rw [ef] at f1 f2
  set q := qOf (n₀ * Real.sin θ) nb with hqd
  set q0 := n₀ * Real.cos θ with hq0d
  set s := n₀ * Real.sin θ with hsd
  have hq0 : 0 < q0 := mul_pos hn0 hc0
  have eq0 : (n₀ : ℂ) * ((Real.cos θ : ℝ) : ℂ) = (q0 : ℂ) := by rw [hq0d, Complex.ofReal_mul]
  have hd1 : (q0 : ℂ) + q ≠ 0 := by
    intro hz
    have := congrArg Complex.re hz
    simp only [Complex.add_re, Complex.ofReal_re, Complex.zero_re] at this
    linarith
  have hd2 : (s : ℂ) ^ 2 + q0 * q ≠ 0 := by
    intro hz
    have := congrArg Complex.re hz
    rw [← Complex.ofReal_pow] at this
    simp only [Complex.add_re, Complex.ofReal_re, Complex.re_ofReal_mul, Complex.zero_re] at this
    have h3 := mul_nonneg hq0.le hre
    have h4 : s ^ 2 = 0 := by nlinarith [sq_nonneg s]
    have h5 : q.re = 0 := by
      have : q0 * q.re = 0 := by nlinarith [sq_nonneg s]
      rcases mul_eq_zero.mp this with h' | h'
      · exact absurd h' hq0.ne'
      · exact h'
    have h6 : q ^ 2 = nb ^ 2 := by
      rw [hq2, ← Complex.ofReal_pow, h4]; simp
    rcases sq_eq_sq_iff_eq_or_eq_neg.mp h6 with h' | h'
    · rw [h'] at h5; linarith [h.back.1]
    · rw [h'] at h5
      have := h.back.1
      simp only [Complex.neg_re] at h5
      linarith
  refine ⟨rs, ts, rp, tp, h1, h2, hd1, hd2, ?_, ?_⟩
  · have e := f1.2
    rw [eq0] at e
    linear_combination q * f1.1 - e
  · -- r_s, r_p from the tangential conditions
    have e1 : rs * ((q0 : ℂ) + q) = q0 - q := by
      have e := f1.2
      rw [eq0] at e
      linear_combination q * f1.1 - e
    have e2 : rp * (n₀ ^ 2 * q + nb ^ 2 * q0) = nb ^ 2 * q0 - n₀ ^ 2 * q := by
      have a := f2.1
      have b := f2.2
      rw [← hq, ← eq0]
      linear_combination (n₀ * nb * cb) * a - (n₀ * nb * nb) * b
    have e3 : nb ^ 2 = q ^ 2 + (s : ℂ) ^ 2 := by rw [hq2]; ring
    have e4 : rp * (((s : ℂ) ^ 2 + q0 * q) * (q0 + q)) = (q0 - q) * ((s : ℂ) ^ 2 - q0 * q) := by
      rw [e3, ← trig] at e2
      linear_combination e2
    have e5 : (rp * ((s : ℂ) ^ 2 + q0 * q)) * (q0 + q) = (rs * ((s : ℂ) ^ 2 - q0 * q)) * (q0 + q) := by
      linear_combination e4 - ((s : ℂ) ^ 2 - q0 * q) * e1
    exact mul_right_cancel₀ hd1 e5

/-- A bare surface is physical whatever its index. -/
theorem physical_bare {nb : ℂ} (hb : PassiveIndex nb) {n₀ θ lam : ℝ} (h0 : 0 < n₀)
    (hθ : |θ| < Real.pi / 2) (hl : 0 < lam) : Physical ⟨(n₀ : ℂ), [], nb⟩ n₀ θ lam :=
  ⟨rfl, h0, hθ, hl, by simp, hb, by simp, by simp⟩

/-- C112: the index of a bare substrate follows from one pair (psi, delta) measured at oblique
incidence, by the formula for the pseudo-dielectric function. -/
theorem C112_invert {rows : List Row} {nb : ℂ} {n₀ a wav off : ℝ}
    (hr : RowsOf rows ⟨(n₀ : ℂ), [], nb⟩) (h : Physical ⟨(n₀ : ℂ), [], nb⟩ n₀ (rad a) wav)
    (hs : Real.sin (rad a) ≠ 0) {zs : List Layer → ℝ → ℝ → Bool} {ψ Δ : ℝ}
    (ho : (deltaPsiTMM zs [a] rows wav off false).1 = .ok [(some ψ, some Δ)]) :
    let ρ : ℂ := (Real.tan (rad ψ) : ℝ) * Complex.exp (-(I * (rad (Δ - off) : ℝ)))
    1 + ρ ≠ 0 ∧ nb ^ 2 = n₀ ^ 2 * (Real.sin (rad a) : ℝ) ^ 2 *
      (1 + (Real.tan (rad a) : ℝ) ^ 2 * ((1 - ρ) / (1 + ρ)) ^ 2) := by
  intro ρ
  obtain ⟨rs, ts, rp, tp, h1, h2, hd1, hd2, e1, e2⟩ := bare_amps h
  rw [deltaPsi_rows hr h.nz h.lam_pos.ne'] at ho
  simp only [List.map_cons, List.map_nil, Except.ok.injEq, List.cons.injEq, and_true, h1, h2] at ho
  have hrs : rs ≠ 0 := by
    rintro rfl
    simp [psiDelta, deltaRad, cdiv_zero] at ho
  have hρ : rp = rs * ρ := by
    have := (psiDelta_encodes ho).1
    rw [this]; ring
  have hq2 := qOf_sq (n₀ * Real.sin (rad a)) h.back.ne_zero
  set q := qOf (n₀ * Real.sin (rad a)) nb
  set q0 := n₀ * Real.cos (rad a) with hq0d
  set s := n₀ * Real.sin (rad a) with hsd
  have hq0 : (q0 : ℂ) ≠ 0 := Complex.ofReal_ne_zero.mpr (mul_pos h.n₀_pos h.cos_pos).ne'
  have hs0 : (s : ℂ) ≠ 0 := Complex.ofReal_ne_zero.mpr (mul_ne_zero h.n₀_pos.ne' hs)
  have hρ' : ρ * ((s : ℂ) ^ 2 + q0 * q) = (s : ℂ) ^ 2 - q0 * q := by
    rw [hρ] at e2
    exact mul_left_cancel₀ hrs (by linear_combination e2)
  have h1ρ : (1 + ρ) * ((s : ℂ) ^ 2 + q0 * q) = 2 * (s : ℂ) ^ 2 := by linear_combination hρ'
  have hne : 1 + ρ ≠ 0 := by
    intro hz
    rw [hz, zero_mul] at h1ρ
    exact (mul_ne_zero two_ne_zero (pow_ne_zero 2 hs0)) h1ρ.symm
  refine ⟨hne, ?_⟩
  have hx : (1 - ρ) / (1 + ρ) = q0 * q / (s : ℂ) ^ 2 := by
    rw [div_eq_div_iff hne (pow_ne_zero 2 hs0)]
    have : ((1 - ρ) * (s : ℂ) ^ 2 - q0 * q * (1 + ρ)) = 0 := by linear_combination -hρ'
    exact sub_eq_zero.mp this
  have hcos : (Real.cos (rad a) : ℂ) ≠ 0 := Complex.ofReal_ne_zero.mpr h.cos_pos.ne'
  have hsin : (Real.sin (rad a) : ℂ) ≠ 0 := Complex.ofReal_ne_zero.mpr hs
  have hn0 : (n₀ : ℂ) ≠ 0 := Complex.ofReal_ne_zero.mpr h.n₀_pos.ne'
  have hb : nb ^ 2 = (s : ℂ) ^ 2 + q ^ 2 := by rw [hq2]; ring
  rw [hx, hb, Real.tan_eq_sin_div_cos, hsd, hq0d]
  push_cast at hcos hsin ⊢
  field_simp

/-- Everything that psi and delta, in either convention, say about the ratio of the amplitudes. -/
theorem ratio_of_same {σ σ' refl : Bool} {off : ℝ} {rs ts rp tp rs' ts' rp' tp' : ℂ}
    (h : SamePD (psiDelta σ refl off ⟨some (rs, ts), some (rp, tp)⟩)
      (psiDelta σ' refl off ⟨some (rs', ts'), some (rp', tp')⟩)) (hrs : rs ≠ 0) (hrs' : rs' ≠ 0) :
    rp / rs = rp' / rs' ∨ rp / rs = conj (rp' / rs') := by
  have hpi := Real.pi_pos
  obtain ⟨hψ, hΔ⟩ := h
  simp only [psiDelta, psiRad, if_neg hrs, if_neg hrs', Option.map_some, Option.some.injEq] at hψ
  have hn : ‖rp / rs‖ = ‖rp' / rs'‖ := by
    have h180 : (180 / Real.pi) ≠ 0 := by positivity
    exact Real.arctan_injective (mul_right_cancel₀ h180 hψ)
  set ρ := rp / rs with hρ
  set ρ' := rp' / rs' with hρ'
  by_cases h0 : ρ = 0
  · left
    rw [h0] at hn ⊢
    rw [norm_zero] at hn
    exact (norm_eq_zero.mp hn.symm).symm
  have h0' : ρ' ≠ 0 := by
    intro hz
    rw [hz, norm_zero] at hn
    exact h0 (norm_eq_zero.mp hn)
  -- cosine of delta
  have key : ∀ (τ : Bool) (a b : ℂ), a ≠ 0 → b / a ≠ 0 → ∃ D,
      (deltaRad τ a b).map (fun x => reflectRad refl x * (180 / Real.pi) + off) = some D ∧
      Real.cos (rad (D - off)) * ‖b / a‖ = (b / a).re := by
    intro τ a b ha hba
    have hd : deltaRad τ a b = some (npAngle τ (1 / (-b / a)) + Real.pi) := by
      have h1 : -b / a ≠ 0 := by rw [neg_div]; exact neg_ne_zero.mpr hba
      simp [deltaRad, cdiv_of_ne ha, cdiv_of_ne h1]
    refine ⟨_, by rw [hd]; rfl, ?_⟩
    have e : rad (reflectRad refl (npAngle τ (1 / (-b / a)) + Real.pi) * (180 / Real.pi) + off - off) =
        reflectRad refl (npAngle τ (1 / (-b / a)) + Real.pi) := by
      unfold rad; field_simp; ring
    rw [e]
    have ec : Real.cos (reflectRad refl (npAngle τ (1 / (-b / a)) + Real.pi)) =
        -Real.cos (npAngle τ (1 / (-b / a))) := by
      unfold reflectRad
      split_ifs
      · rw [Real.cos_two_pi_sub, Real.cos_add_pi]
      · rw [Real.cos_add_pi]
      · rw [Real.cos_add_pi]
    rw [ec]
    have hx := exp_npAngle τ (1 / (-b / a))
    have hre := congrArg Complex.re hx
    rw [Complex.re_ofReal_mul, Complex.exp_ofReal_mul_I_re] at hre
    have e2 : (1 : ℂ) / (-b / a) = -(b / a)⁻¹ := by rw [neg_div]; field_simp
    rw [e2, norm_neg, norm_inv, Complex.neg_re, Complex.inv_re] at hre
    rw [e2]
    have hn0 : ‖b / a‖ ≠ 0 := norm_ne_zero_iff.mpr hba
    rw [Complex.normSq_eq_norm_sq] at hre
    generalize Real.cos (npAngle τ (-(b / a)⁻¹)) = C at hre ⊢
    field_simp at hre
    linarith
  obtain ⟨D, hD, c1⟩ := key σ rs rp hrs h0
  obtain ⟨D', hD', c2⟩ := key σ' rs' rp' hrs' h0'
  have hcos : Real.cos (rad (D - off)) = Real.cos (rad (D' - off)) := by
    simp only [psiDelta] at hΔ
    rw [hD, hD'] at hΔ
    rcases hΔ with hΔ | ⟨x, y, hx, hy, hxy⟩
    · simp only [Option.some.injEq] at hΔ; rw [hΔ]
    · simp only [Option.some.injEq] at hx hy
      subst hx hy
      rcases abs_eq (by norm_num : (0 : ℝ) ≤ 360) |>.mp hxy with e | e
      · have : rad (D - off) = rad (D' - off) + 2 * Real.pi := by
          unfold rad
          linear_combination (Real.pi / 180) * e
        rw [this, Real.cos_add_two_pi]
      · have : rad (D' - off) = rad (D - off) + 2 * Real.pi := by
          unfold rad
          linear_combination (-Real.pi / 180) * e
        rw [this, Real.cos_add_two_pi]
  have hre : ρ.re = ρ'.re := by
    rw [← c1, ← c2, hcos, hn]
  have him : ρ.im ^ 2 = ρ'.im ^ 2 := by
    have e1 := Complex.normSq_eq_norm_sq ρ
    have e2 := Complex.normSq_eq_norm_sq ρ'
    rw [Complex.normSq_apply] at e1 e2
    rw [hn, ← e2, hre] at e1
    nlinarith
  rcases sq_eq_sq_iff_eq_or_eq_neg.mp him with e | e
  · left; exact Complex.ext hre e
  · right; exact Complex.ext (by simpa using hre) (by simpa using e)

/-- C112: so different substrates give different data: if two passive substrates give the same psi and delta
(up to a full turn, in either convention, or both none) at one wavelength and one oblique angle, they have the
same index there. -/
theorem C112_unique {rows rows' : List Row} {nb nb' : ℂ} {n₀ a wav off : ℝ}
    (hr : RowsOf rows ⟨(n₀ : ℂ), [], nb⟩) (hr' : RowsOf rows' ⟨(n₀ : ℂ), [], nb'⟩)
    (h : Physical ⟨(n₀ : ℂ), [], nb⟩ n₀ (rad a) wav) (h' : Physical ⟨(n₀ : ℂ), [], nb'⟩ n₀ (rad a) wav)
    (hs : Real.sin (rad a) ≠ 0) {zs zs' : List Layer → ℝ → ℝ → Bool} {refl : Bool} {x y : Option ℝ × Option ℝ}
    (hx : (deltaPsiTMM zs [a] rows wav off refl).1 = .ok [x])
    (hy : (deltaPsiTMM zs' [a] rows' wav off refl).1 = .ok [y]) (hxy : SamePD x y) : nb = nb' := by
  obtain ⟨rs, ts, rp, tp, h1, h2, hd1, hd2, e1, e2⟩ := bare_amps h
  obtain ⟨rs', ts', rp', tp', h1', h2', hd1', hd2', e1', e2'⟩ := bare_amps h'
  rw [deltaPsi_rows hr h.nz h.lam_pos.ne'] at hx
  rw [deltaPsi_rows hr' h'.nz h'.lam_pos.ne'] at hy
  simp only [List.map_cons, List.map_nil, Except.ok.injEq, List.cons.injEq, and_true, h1, h2] at hx
  simp only [List.map_cons, List.map_nil, Except.ok.injEq, List.cons.injEq, and_true, h1', h2'] at hy
  subst hx hy
  have hq2 := qOf_sq (n₀ * Real.sin (rad a)) h.back.ne_zero
  have hq2' := qOf_sq (n₀ * Real.sin (rad a)) h'.back.ne_zero
  have hre := (qOf_fwd h.back (n₀ * Real.sin (rad a))).re_nonneg
  have hre' := (qOf_fwd h'.back (n₀ * Real.sin (rad a))).re_nonneg
  have hpb : PassiveIndex nb := h.back
  have hpb' : PassiveIndex nb' := h'.back
  simp only at hq2 hq2' hre hre'
  set q := qOf (n₀ * Real.sin (rad a)) nb
  set q' := qOf (n₀ * Real.sin (rad a)) nb'
  set q0 := n₀ * Real.cos (rad a) with hq0d
  set s := n₀ * Real.sin (rad a) with hsd
  have hq0 : (q0 : ℂ) ≠ 0 := Complex.ofReal_ne_zero.mpr (mul_pos h.n₀_pos h.cos_pos).ne'
  have hs0 : (s : ℂ) ≠ 0 := Complex.ofReal_ne_zero.mpr (mul_ne_zero h.n₀_pos.ne' hs)
  -- it is enough to compare the squares
  have hfin : q = q' ∨ q = conj q' → nb = nb' := by
    have root : ∀ z : ℂ, 0 < z.re → nb ^ 2 = z ^ 2 → nb = z := by
      intro z hz e
      rcases sq_eq_sq_iff_eq_or_eq_neg.mp e with e | e
      · exact e
      · have := hpb.1
        rw [e, Complex.neg_re] at this
        linarith
    rintro (e | e)
    · refine root nb' hpb'.1 ?_
      rw [e, hq2'] at hq2
      linear_combination -hq2
    · have e3 : nb = conj nb' := by
        refine root _ (by simpa using hpb'.1) ?_
        have : conj (q' ^ 2) = conj (nb' ^ 2 - (s : ℂ) ^ 2) := by rw [hq2']
        simp only [map_pow, map_sub, Complex.conj_ofReal] at this
        rw [e] at hq2
        linear_combination this - hq2
      have i1 := hpb.2
      rw [e3, Complex.conj_im] at i1
      have i2 : nb'.im = 0 := le_antisymm (by linarith) hpb'.2
      rw [e3]
      exact Complex.ext (by simp) (by simp [i2])
  -- no reflection means equal index
  have z1 : rs = 0 → rp = 0 := by
    rintro rfl
    rw [zero_mul] at e2
    exact (mul_eq_zero.mp e2).resolve_right hd2
  have z1' : rs' = 0 → rp' = 0 := by
    rintro rfl
    rw [zero_mul] at e2'
    exact (mul_eq_zero.mp e2').resolve_right hd2'
  by_cases hrs : rs = 0
  · have hrs' : rs' = 0 := by
      by_contra hc
      have := hxy.1
      simp [psiDelta, psiRad, hrs, z1 hrs, hc] at this
    apply hfin
    left
    rw [hrs, zero_mul] at e1
    rw [hrs', zero_mul] at e1'
    linear_combination e1 - e1'
  · have hrs' : rs' ≠ 0 := by
      intro hc
      have := hxy.1
      simp [psiDelta, psiRad, hrs, z1' hc, hc] at this
    have e3 : rp / rs = ((s : ℂ) ^ 2 - q0 * q) / ((s : ℂ) ^ 2 + q0 * q) := by
      rw [div_eq_div_iff hrs hd2]; linear_combination e2
    have e3' : rp' / rs' = ((s : ℂ) ^ 2 - q0 * q') / ((s : ℂ) ^ 2 + q0 * q') := by
      rw [div_eq_div_iff hrs' hd2']; linear_combination e2'
    have cross : ∀ z : ℂ, (s : ℂ) ^ 2 + q0 * z ≠ 0 →
        ((s : ℂ) ^ 2 - q0 * q) / ((s : ℂ) ^ 2 + q0 * q) = ((s : ℂ) ^ 2 - q0 * z) / ((s : ℂ) ^ 2 + q0 * z) →
        q = z := by
      intro z hz e
      rw [div_eq_div_iff hd2 hz] at e
      have hk : (2 * (s : ℂ) ^ 2 * q0) ≠ 0 := mul_ne_zero (mul_ne_zero two_ne_zero (pow_ne_zero 2 hs0)) hq0
      exact mul_left_cancel₀ hk (by linear_combination -e)
    apply hfin
    rcases ratio_of_same hxy hrs hrs' with e | e
    · left
      rw [e3, e3'] at e
      exact cross q' hd2' e
    · right
      have ec : conj ((s : ℂ) ^ 2 + q0 * q') = (s : ℂ) ^ 2 + q0 * conj q' := by simp
      have ec' : conj ((s : ℂ) ^ 2 - q0 * q') = (s : ℂ) ^ 2 - q0 * conj q' := by simp
      rw [e3, e3', map_div₀, ec, ec'] at e
      refine cross _ ?_ e
      rw [← ec]
      exact (map_ne_zero _).mpr hd2'

/-- Non-vacuity: both formulas hold for glass and for an absorbing substrate at 60 degrees. -/
example : Physical ⟨((1 : ℝ) : ℂ), [], 3⟩ 1 (rad 60) 500 ∧ Physical ⟨((1 : ℝ) : ℂ), [], 2 + I⟩ 1 (rad 60) 500 ∧
    Real.sin (rad 60) ≠ 0 := by
  have hpi := Real.pi_pos
  have h60 : |rad 60| < Real.pi / 2 := by
    unfold rad
    rw [abs_of_pos (by positivity)]
    linarith
  refine ⟨physical_bare (by simp [PassiveIndex]) one_pos h60 (by norm_num),
    physical_bare (by simp [PassiveIndex]) one_pos h60 (by norm_num), ?_⟩
  exact (Real.sin_pos_of_pos_of_lt_pi (by unfold rad; positivity) (by unfold rad; linarith)).ne'

/-! ### C113: the Brewster angle -/

/-- C113: no bare surface, however absorbing, gives psi above 45 degrees. -/
theorem C113_psi_le {rows : List Row} {nb : ℂ} {n₀ a wav off : ℝ}
    (hr : RowsOf rows ⟨(n₀ : ℂ), [], nb⟩) (h : Physical ⟨(n₀ : ℂ), [], nb⟩ n₀ (rad a) wav)
    {zs : List Layer → ℝ → ℝ → Bool} {refl : Bool} {ψ : ℝ} {d : Option ℝ}
    (ho : (deltaPsiTMM zs [a] rows wav off refl).1 = .ok [(some ψ, d)]) : 0 ≤ ψ ∧ ψ ≤ 45 := by
  have hpi := Real.pi_pos
  obtain ⟨rs, ts, rp, tp, h1, h2, hd1, hd2, e1, e2⟩ := bare_amps h
  rw [deltaPsi_rows hr h.nz h.lam_pos.ne'] at ho
  simp only [List.map_cons, List.map_nil, Except.ok.injEq, List.cons.injEq, and_true, h1, h2,
    psiDelta, Prod.mk.injEq] at ho
  have hrs : rs ≠ 0 := by
    rintro rfl
    rw [zero_mul] at e2
    have : rp = 0 := (mul_eq_zero.mp e2).resolve_right hd2
    simp [psiRad, this] at ho
  have hre := (qOf_fwd h.back (n₀ * Real.sin (rad a))).re_nonneg
  have ho1 := ho.1
  simp only [psiRad, if_neg hrs, Option.map_some, Option.some.injEq] at ho1
  simp only at hre
  set q := qOf (n₀ * Real.sin (rad a)) nb
  set s := n₀ * Real.sin (rad a)
  have hq0 : 0 < n₀ * Real.cos (rad a) := mul_pos h.n₀_pos h.cos_pos
  set q0 := n₀ * Real.cos (rad a)
  have e3 : rp / rs = ((s : ℂ) ^ 2 - q0 * q) / ((s : ℂ) ^ 2 + q0 * q) := by
    rw [div_eq_div_iff hrs hd2]; linear_combination e2
  have hn : ‖rp / rs‖ ≤ 1 := by
    rw [e3, norm_div, div_le_one (norm_pos_iff.mpr hd2)]
    rw [← sq_le_sq₀ (norm_nonneg _) (norm_nonneg _), ← Complex.normSq_eq_norm_sq, ← Complex.normSq_eq_norm_sq]
    have e : (s : ℂ) ^ 2 = ((s ^ 2 : ℝ) : ℂ) := by push_cast; ring
    rw [e]
    simp only [Complex.normSq_apply, Complex.sub_re, Complex.add_re, Complex.sub_im, Complex.add_im,
      Complex.ofReal_re, Complex.ofReal_im, Complex.re_ofReal_mul, Complex.im_ofReal_mul]
    nlinarith [mul_nonneg (sq_nonneg s) (mul_nonneg hq0.le hre)]
  have ha0 : 0 ≤ Real.arctan ‖rp / rs‖ := Real.arctan_nonneg.mpr (norm_nonneg _)
  have ha1 : Real.arctan ‖rp / rs‖ ≤ Real.pi / 4 := by
    rw [← Real.arctan_one]; exact Real.arctan_mono hn
  rw [← ho1]
  constructor
  · positivity
  · calc Real.arctan ‖rp / rs‖ * (180 / Real.pi) ≤ Real.pi / 4 * (180 / Real.pi) := by gcongr
      _ = 45 := by field_simp; norm_num

/-- psi and delta for a real ratio of the amplitudes. -/
theorem psiDelta_real {σ refl : Bool} {off x : ℝ} {rs rp ts tp : ℂ} (hrs : rs ≠ 0) (h : rp / rs = (x : ℂ)) :
    (x < 0 → psiDelta σ refl off ⟨some (rs, ts), some (rp, tp)⟩ =
      (some (Real.arctan |x| * (180 / Real.pi)), some (180 + off))) ∧
    (x = 0 → psiDelta σ refl off ⟨some (rs, ts), some (rp, tp)⟩ = (some 0, none)) ∧
    (0 < x → ∃ Δ, psiDelta σ refl off ⟨some (rs, ts), some (rp, tp)⟩ =
      (some (Real.arctan |x| * (180 / Real.pi)), some Δ) ∧ (Δ = off ∨ (Δ = 360 + off ∧ refl = false))) := by
  have hpi := Real.pi_pos
  have hpsi : psiRad rs rp = some (Real.arctan |x|) := by
    rw [psiRad, if_neg hrs, h, Complex.norm_real, Real.norm_eq_abs]
  have hneg : -rp / rs = ((-x : ℝ) : ℂ) := by rw [neg_div, h]; push_cast; ring
  refine ⟨fun hx => ?_, fun hx => ?_, fun hx => ?_⟩
  · have h0 : ((-x : ℝ) : ℂ) ≠ 0 := Complex.ofReal_ne_zero.mpr (by linarith)
    have ha : npAngle σ (1 / ((-x : ℝ) : ℂ)) = 0 := by
      rw [← Complex.ofReal_one, ← Complex.ofReal_div]
      unfold npAngle
      have : 0 < 1 / -x := by apply one_div_pos.mpr; linarith
      rw [if_neg (by simp only [Complex.ofReal_re]; intro hh; linarith [hh.2]),
        Complex.arg_ofReal_of_nonneg this.le]
    have h5 : reflectRad refl Real.pi = Real.pi := by
      unfold reflectRad; split_ifs <;> linarith
    simp only [psiDelta, hpsi, deltaRad, cdiv_of_ne hrs, Option.bind_eq_bind, Option.bind_some, hneg,
      cdiv_of_ne h0, ha, zero_add, h5, Option.map_some]
    congr 2
    field_simp
  · have hz : rp = 0 := by
      rw [hx, Complex.ofReal_zero, div_eq_zero_iff] at h
      exact h.resolve_right hrs
    simp [psiDelta, psiRad, deltaRad, hz, hrs, cdiv_of_ne hrs, cdiv_zero]
  · have h0 : ((-x : ℝ) : ℂ) ≠ 0 := Complex.ofReal_ne_zero.mpr (by linarith)
    have ha : npAngle σ (1 / ((-x : ℝ) : ℂ)) = if σ then Real.pi else -Real.pi := by
      rw [← Complex.ofReal_one, ← Complex.ofReal_div]
      unfold npAngle
      have : 1 / -x < 0 := by apply one_div_neg.mpr; linarith
      rw [if_pos ⟨Complex.ofReal_im _, by rwa [Complex.ofReal_re]⟩]
    refine ⟨_, by
      simp only [psiDelta, hpsi, deltaRad, cdiv_of_ne hrs, Option.bind_eq_bind, Option.bind_some, hneg,
        cdiv_of_ne h0, ha, Option.map_some]; rfl, ?_⟩
    unfold reflectRad
    cases σ <;> cases refl
    · left; simp
    · left; simp [hpi.le]
    · right; simp only [if_true, Bool.false_eq_true, if_false, and_true]; field_simp; ring
    · left
      simp only [if_true]
      rw [if_pos (by linarith)]
      ring

/-- C113: the Brewster angle of a bare transparent substrate.  With the angle of incidence below it, delta is
180 degrees; above it, delta is 0 (or 360, which is the same); and exactly at it psi is 0 and delta has no value.
(`n₀ ≠ nb`; below the critical angle if there is one.) -/
theorem C113_brewster {rows : List Row} {n₀ nb a wav : ℝ}
    (hr : RowsOf rows ⟨(n₀ : ℂ), [], (nb : ℂ)⟩) (h : Physical ⟨(n₀ : ℂ), [], (nb : ℂ)⟩ n₀ (rad a) wav)
    (ha : 0 ≤ a) (hcrit : n₀ * Real.sin (rad a) ≤ nb) (hne : nb ≠ n₀)
    (zs : List Layer → ℝ → ℝ → Bool) (off : ℝ) (refl : Bool) :
    (Real.tan (rad a) < nb / n₀ → ∃ ψ, 0 < ψ ∧
      (deltaPsiTMM zs [a] rows wav off refl).1 = .ok [(some ψ, some (180 + off))]) ∧
    (Real.tan (rad a) = nb / n₀ → (deltaPsiTMM zs [a] rows wav off refl).1 = .ok [(some 0, none)]) ∧
    (nb / n₀ < Real.tan (rad a) → ∃ ψ Δ, 0 < ψ ∧ (Δ = off ∨ (Δ = 360 + off ∧ refl = false)) ∧
      (deltaPsiTMM zs [a] rows wav off refl).1 = .ok [(some ψ, some Δ)]) := by
  have hpi := Real.pi_pos
  obtain ⟨rs, ts, rp, tp, h1, h2, hd1, hd2, e1, e2⟩ := bare_amps h
  rw [deltaPsi_rows hr h.nz h.lam_pos.ne']
  simp only [List.map_cons, List.map_nil, h1, h2]
  have hnb : 0 < nb := by simpa using h.back.1
  have hn0 := h.n₀_pos
  have hc := h.cos_pos
  have hs : 0 ≤ Real.sin (rad a) := by
    apply Real.sin_nonneg_of_nonneg_of_le_pi
    · unfold rad; positivity
    · have := (abs_lt.mp h.angle).2; linarith
  have hs' : 0 ≤ n₀ * Real.sin (rad a) := by positivity
  have hq : qOf (n₀ * Real.sin (rad a)) (nb : ℂ) = (Real.sqrt (nb ^ 2 - (n₀ * Real.sin (rad a)) ^ 2) : ℂ) :=
    qOf_transparent_below hnb (by rwa [abs_of_nonneg hs'])
  have hrad : 0 ≤ nb ^ 2 - (n₀ * Real.sin (rad a)) ^ 2 := by nlinarith
  have hQ2 := Real.sq_sqrt hrad
  have hQ0 := Real.sqrt_nonneg (nb ^ 2 - (n₀ * Real.sin (rad a)) ^ 2)
  rw [hq] at hd1 hd2 e1 e2
  set Q := Real.sqrt (nb ^ 2 - (n₀ * Real.sin (rad a)) ^ 2)
  have htrig := Real.sin_sq_add_cos_sq (rad a)
  have htan := Real.tan_eq_sin_div_cos (rad a)
  set S := Real.sin (rad a)
  set C := Real.cos (rad a)
  have hrs : rs ≠ 0 := by
    rintro rfl
    rw [zero_mul] at e1
    have : (n₀ * C : ℝ) = Q := by exact_mod_cast (sub_eq_zero.mp e1.symm)
    have : nb ^ 2 = n₀ ^ 2 := by
      rw [← this] at hQ2
      nlinarith
    exact hne (by nlinarith [sq_eq_sq₀ hnb.le hn0.le |>.mp this])
  have hd2' : (n₀ * S) ^ 2 + n₀ * C * Q ≠ 0 := by
    intro hz
    apply hd2
    exact_mod_cast hz
  have hpos : 0 < (n₀ * S) ^ 2 + n₀ * C * Q := lt_of_le_of_ne (by positivity) hd2'.symm
  have e3 : rp / rs = ((((n₀ * S) ^ 2 - n₀ * C * Q) / ((n₀ * S) ^ 2 + n₀ * C * Q) : ℝ) : ℂ) := by
    push_cast at e2 hd2 ⊢
    rw [div_eq_div_iff hrs hd2]
    linear_combination e2
  set x := ((n₀ * S) ^ 2 - n₀ * C * Q) / ((n₀ * S) ^ 2 + n₀ * C * Q)
  -- sign of the ratio
  have hfac : (n₀ * S) ^ 2 * (n₀ * S) ^ 2 - (n₀ * C * Q) * (n₀ * C * Q) =
      n₀ ^ 2 * ((n₀ * S) ^ 2 - (nb * C) ^ 2) := by
    have : (n₀ * C * Q) * (n₀ * C * Q) = (n₀ * C) ^ 2 * (nb ^ 2 - (n₀ * S) ^ 2) := by rw [← hQ2]; ring
    rw [this]
    linear_combination (n₀ ^ 4 * S ^ 2) * htrig
  have hx : x * ((n₀ * S) ^ 2 + n₀ * C * Q) ^ 2 = n₀ ^ 2 * ((n₀ * S) ^ 2 - (nb * C) ^ 2) := by
    rw [← hfac]
    simp only [x]
    field_simp
    ring
  have hN : 0 < ((n₀ * S) ^ 2 + n₀ * C * Q) ^ 2 := by positivity
  have hn2 : 0 < n₀ ^ 2 := by positivity
  have k1 : Real.tan (rad a) < nb / n₀ → x < 0 := by
    intro ht
    rw [htan, div_lt_div_iff₀ hc hn0] at ht
    have : (n₀ * S) ^ 2 < (nb * C) ^ 2 := by nlinarith
    have : x * ((n₀ * S) ^ 2 + n₀ * C * Q) ^ 2 < 0 := by rw [hx]; nlinarith
    by_contra hcon
    push Not at hcon
    nlinarith [mul_nonneg hcon hN.le]
  have k2 : Real.tan (rad a) = nb / n₀ → x = 0 := by
    intro ht
    rw [htan, div_eq_div_iff hc.ne' hn0.ne'] at ht
    have : n₀ * S = nb * C := by linarith
    have h0 : (n₀ * S) ^ 2 - (nb * C) ^ 2 = 0 := by rw [this, sub_self]
    rw [h0, mul_zero] at hx
    exact (mul_eq_zero.mp hx).resolve_right hN.ne'
  have k3 : nb / n₀ < Real.tan (rad a) → 0 < x := by
    intro ht
    rw [htan, div_lt_div_iff₀ hn0 hc] at ht
    have : (nb * C) ^ 2 < (n₀ * S) ^ 2 := by
      have : 0 < nb * C := by positivity
      nlinarith
    have : 0 < x * ((n₀ * S) ^ 2 + n₀ * C * Q) ^ 2 := by
      rw [hx]; exact mul_pos hn2 (by linarith)
    exact pos_of_mul_pos_left this hN.le
  have hψ : x ≠ 0 → 0 < Real.arctan |x| * (180 / Real.pi) := by
    intro h0
    have := Real.arctan_pos.mpr (abs_pos.mpr h0)
    positivity
  obtain ⟨p1, p2, p3⟩ := psiDelta_real (σ := zs (Stack.layers ⟨(n₀ : ℂ), [], (nb : ℂ)⟩ .inf .inf) a wav)
    (refl := refl) (off := off) (ts := ts) (tp := tp) hrs e3
  refine ⟨fun ht => ⟨_, hψ (k1 ht).ne, ?_⟩, fun ht => ?_, fun ht => ?_⟩
  · rw [p1 (k1 ht)]
  · rw [p2 (k2 ht)]
  · obtain ⟨Δ, q1, q2⟩ := p3 (k3 ht)
    exact ⟨_, Δ, hψ (k3 ht).ne', q2, by rw [q1]⟩

/-- Non-vacuity: air on an index of `√3` has its Brewster angle at 60 degrees. -/
example (zs : List Layer → ℝ → ℝ → Bool) (off : ℝ) (refl : Bool) :
    (deltaPsiTMM zs [60] [⟨0, some 1, 0, 0⟩, ⟨0, some (Real.sqrt 3 : ℝ), 0, 0⟩] 500 off refl).1 =
      .ok [(some 0, none)] := by
  have hpi := Real.pi_pos
  have e60 : rad 60 = Real.pi / 3 := by unfold rad; ring
  have h3 : (0 : ℝ) < Real.sqrt 3 := by positivity
  refine (C113_brewster (n₀ := 1) (nb := Real.sqrt 3) (rows := _) ?_ ?_ (by norm_num) ?_ ?_ zs off refl).2.1 ?_
  · exact ⟨_, [], _, 1, rfl, rfl, by simp, by simp, rfl⟩
  · refine physical_bare ?_ one_pos ?_ (by norm_num)
    · simp [PassiveIndex]
    · rw [e60, abs_of_pos (by positivity)]; linarith
  · rw [e60, Real.sin_pi_div_three]; linarith
  · intro hcon
    have := Real.sqrt_eq_one.mp hcon
    norm_num at this
  · rw [e60, Real.tan_pi_div_three]; simp

end Verif.TMM
