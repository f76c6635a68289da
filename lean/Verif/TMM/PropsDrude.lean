import Verif.TMM.Drude

/-!
# C139: what an ellipsometer sees of a very thin film
-/

namespace Verif.TMM

open Complex (I)
open Filter Topology

/-- A film of index `n` and thickness `d` (nm) on a substrate. -/
noncomputable def coat (n₀ : ℝ) (n nb : ℂ) (d : ℝ) : Stack := ⟨(n₀ : ℂ), [(n, d)], nb⟩

section
variable {n₀ θ lam : ℝ} {n nb : ℂ}

/-- The situation: film and substrate do not amplify, the film is not at its critical angle, the substrate
reflects both polarisations (it differs from the fronting medium and is not at its Brewster angle). -/
structure Coatable (n₀ θ lam : ℝ) (n nb : ℂ) : Prop where
  n₀_pos : 0 < n₀
  angle : |θ| < Real.pi / 2
  lam_pos : 0 < lam
  film : PassiveIndex n
  back : PassiveIndex nb
  offCritical : n ^ 2 ≠ ((n₀ * Real.sin θ : ℝ) : ℂ) ^ 2
  differs : nb ≠ n₀
  offBrewster : nb ^ 2 * ((Real.cos θ : ℝ) : ℂ) ^ 2 ≠ (n₀ : ℂ) ^ 2 * ((Real.sin θ : ℝ) : ℂ) ^ 2

theorem Coatable.physical (h : Coatable n₀ θ lam n nb) : Physical (coat n₀ n nb 0) n₀ θ lam := by
  refine ⟨rfl, h.n₀_pos, h.angle, h.lam_pos, ?_, h.back, ?_, ?_⟩
  · simp [coat, h.film]
  · simp only [coat, List.mem_singleton, forall_eq]
    have := h.offCritical
    push_cast at this
    exact this
  · simp only [coat, List.mem_singleton, forall_eq]
    rintro m ⟨-, -, hm⟩
    rw [hm]
    simp

theorem Coatable.varies (h : Coatable n₀ θ lam n nb) :
    VariesSmoothly (⊤ : ℕ∞) (fun _ : ℝ => n₀) (fun _ => θ) (fun _ => lam) [(fun _ => n, fun d => d)] (fun _ => nb) 0 := by
  refine ⟨contDiffAt_const, contDiffAt_const, contDiffAt_const, ?_, contDiffAt_const, h.physical, ?_, ?_, ?_⟩
  · simp only [List.mem_singleton, forall_eq]
    exact ⟨contDiffAt_const, contDiffAt_id⟩
  · simp only [List.mem_singleton, forall_eq]
    exact .inl (.inr (.inr (.inl (.of_forall fun _ => ⟨rfl, rfl⟩))))
  · exact .inr (.inr (.inl (.of_forall fun _ => ⟨rfl, rfl⟩)))
  · simp only [List.mem_singleton, forall_eq]
    rintro m ⟨-, -, hm⟩
    rw [hm]
    simp

theorem Coatable.sq_ne (h : Coatable n₀ θ lam n nb) : nb ^ 2 - (n₀ : ℂ) ^ 2 ≠ 0 := by
  intro hz
  rcases sq_eq_sq_iff_eq_or_eq_neg.mp (sub_eq_zero.mp hz) with h' | h'
  · exact h.differs h'
  · have := congrArg Complex.re h'
    have h1 := h.back.1
    have h2 := h.n₀_pos
    simp only [Complex.ofReal_re, Complex.neg_re] at this
    linarith

/-- The ratio of the amplitudes near thickness zero. -/
theorem Coatable.ratio (h : Coatable n₀ θ lam n nb) : ∃ rs ts rp tp : ℝ → ℂ,
    (∀ᶠ d in 𝓝 0, solveSt .s (coat n₀ n nb d) θ lam = some (rs d, ts d) ∧
      solveSt .p (coat n₀ n nb d) θ lam = some (rp d, tp d)) ∧
    (∀ᶠ d in 𝓝 0, rs d ≠ 0 ∧ rp d ≠ 0) ∧ rs 0 ≠ 0 ∧ rp 0 ≠ 0 ∧
    HasDerivAt (fun d => rp d / rs d) (rp 0 / rs 0 * drude n₀ θ lam nb n) 0 := by
  have hn₀ : (n₀ : ℂ) ≠ 0 := Complex.ofReal_ne_zero.mpr h.n₀_pos.ne'
  have hn := h.film.ne_zero
  have hb := h.back.ne_zero
  have hl : (lam : ℂ) ≠ 0 := Complex.ofReal_ne_zero.mpr h.lam_pos.ne'
  obtain ⟨S, hS⟩ : ∃ S : ℂ, S = (n₀ : ℂ) * Complex.sin θ := ⟨_, rfl⟩
  obtain ⟨c1, hc1⟩ : ∃ c : ℂ, c = root1m (S / n) := ⟨_, rfl⟩
  obtain ⟨c2, hc2⟩ : ∃ c : ℂ, c = root1m (S / nb) := ⟨_, rfl⟩
  have q1sq : (n * c1) ^ 2 = n ^ 2 - (n₀ * Complex.sin θ) ^ 2 := by
    rw [hc1, mul_pow, root1m_sq, ← hS]; field_simp
  have q2sq : (nb * c2) ^ 2 = nb ^ 2 - (n₀ * Complex.sin θ) ^ 2 := by
    rw [hc2, mul_pow, root1m_sq, ← hS]; field_simp
  have hcrit : n ^ 2 - ((n₀ : ℂ) * Complex.sin θ) ^ 2 ≠ 0 := by
    have := h.offCritical
    push_cast at this
    exact sub_ne_zero.mpr this
  have hq1 : n * c1 ≠ 0 := by
    intro hz
    rw [hz] at q1sq
    exact hcrit (by rw [← q1sq]; ring)
  have hbr : nb ^ 2 * Complex.cos θ ^ 2 - (n₀ : ℂ) ^ 2 * Complex.sin θ ^ 2 ≠ 0 := by
    have := h.offBrewster
    push_cast at this
    exact sub_ne_zero.mpr this
  have hcs : Complex.sin θ ^ 2 + Complex.cos θ ^ 2 = 1 := Complex.sin_sq_add_cos_sq _
  have hne := h.sq_ne
  -- denominators
  have nd : ∀ pol, Nondeg pol ⟨n₀, Complex.cos θ, 0⟩ [codeMed S lam (n, 0), ⟨nb, c2, 0⟩] := by
    intro pol
    obtain ⟨r, t, e⟩ := h.physical.solved pol
    simp only [solveSt, coat, List.map_cons, List.map_nil, List.cons_append, List.nil_append, solveL,
      root1m_sin h.angle.le] at e
    rw [hc2, hS]
    exact (solve_eq_some.mp e).1
  have ndb : ∀ pol, Nondeg pol ⟨n₀, Complex.cos θ, 0⟩ [⟨nb, c2, 0⟩] := by
    intro pol
    obtain ⟨r, t, e⟩ := (physical_bare h.back h.n₀_pos h.angle h.lam_pos).solved pol
    simp only [solveSt, List.map_nil, List.nil_append, solveL, root1m_sin h.angle.le] at e
    rw [hc2, hS]
    exact (solve_eq_some.mp e).1
  have s01 : (n₀ : ℂ) * Complex.cos θ + n * c1 ≠ 0 := by
    have := (nd .s).1.1; simpa only [den, codeMed, ← hc1] using this
  have s12 : n * c1 + nb * c2 ≠ 0 := by
    have := (nd .s).2.1.1; simpa only [den, codeMed, ← hc1] using this
  have s02 : (n₀ : ℂ) * Complex.cos θ + nb * c2 ≠ 0 := (ndb .s).1.1
  have p01 : n * Complex.cos θ + n₀ * c1 ≠ 0 := by
    have := (nd .p).1.1; simpa only [den, codeMed, ← hc1] using this
  have p12 : nb * c1 + n * c2 ≠ 0 := by
    have := (nd .p).2.1.1; simpa only [den, codeMed, ← hc1] using this
  have p02 : nb * Complex.cos θ + (n₀ : ℂ) * c2 ≠ 0 := (ndb .p).1.1
  have sne : (n₀ : ℂ) * Complex.cos θ - nb * c2 ≠ 0 := by
    intro hz
    apply hne
    linear_combination (-((n₀ : ℂ) * Complex.cos θ + nb * c2)) * hz - q2sq + (n₀ : ℂ) ^ 2 * hcs
  have pne : nb * Complex.cos θ - (n₀ : ℂ) * c2 ≠ 0 := by
    intro hz
    apply mul_ne_zero hne hbr
    linear_combination (nb ^ 2 * (nb * Complex.cos θ + (n₀ : ℂ) * c2)) * hz + (n₀ : ℂ) ^ 2 * q2sq -
      ((n₀ : ℂ) ^ 2 * nb ^ 2) * hcs
  -- admittances
  have hc1' : c1 ≠ 0 := right_ne_zero_of_mul hq1
  have d0 : ∀ x y u v : ℂ, x ≠ 0 → y ≠ 0 → y * u + x * v ≠ 0 → x * u / x ^ 2 + y * v / y ^ 2 ≠ 0 := by
    intro x y u v hx hy hh
    rw [show x * u / x ^ 2 + y * v / y ^ 2 = (y * u + x * v) / (x * y) by field_simp]
    exact div_ne_zero hh (mul_ne_zero hx hy)
  have As := airy_admittance hq1 s01 s12 s02 sne
  have Ap := airy_admittance (Y0 := n₀ * Complex.cos θ / n₀ ^ 2) (Y1 := n * c1 / n ^ 2) (Y2 := nb * c2 / nb ^ 2)
    (div_ne_zero hq1 (pow_ne_zero 2 hn)) (d0 _ _ _ _ hn₀ hn p01) (d0 _ _ _ _ hn hb p12) (d0 _ _ _ _ hn₀ hb p02) (by
      rw [show (n₀ : ℂ) * Complex.cos θ / n₀ ^ 2 - nb * c2 / nb ^ 2 =
        (nb * Complex.cos θ - n₀ * c2) / (n₀ * nb) by field_simp]
      exact div_ne_zero pne (mul_ne_zero hn₀ hb))
  have fp : ∀ x y u v : ℂ, x ≠ 0 → y ≠ 0 → y * u + x * v ≠ 0 →
      (x * u / x ^ 2 - y * v / y ^ 2) / (x * u / x ^ 2 + y * v / y ^ 2) = fresnelR .p x y u v := by
    intro x y u v hx hy hh
    simp only [fresnelR]
    rw [div_eq_div_iff (d0 _ _ _ _ hx hy hh) hh]
    field_simp
  rw [fp _ _ _ _ hn₀ hn p01, fp _ _ _ _ hn hb p12, fp _ _ _ _ hn₀ hb p02] at Ap
  change 1 + fresnelR .s n₀ n (Complex.cos θ) c1 * fresnelR .s n nb c1 c2 ≠ 0 ∧
    (fresnelR .s n₀ n (Complex.cos θ) c1 + fresnelR .s n nb c1 c2) /
      (1 + fresnelR .s n₀ n (Complex.cos θ) c1 * fresnelR .s n nb c1 c2) = fresnelR .s n₀ nb (Complex.cos θ) c2 ∧
    fresnelR .s n nb c1 c2 * (1 - fresnelR .s n₀ n (Complex.cos θ) c1 ^ 2) /
      (1 + fresnelR .s n₀ n (Complex.cos θ) c1 * fresnelR .s n nb c1 c2) ^ 2 =
      fresnelR .s n₀ nb (Complex.cos θ) c2 * _ at As
  have r0s : fresnelR .s n₀ nb (Complex.cos θ) c2 ≠ 0 := div_ne_zero sne s02
  have r0p : fresnelR .p n₀ nb (Complex.cos θ) c2 ≠ 0 := div_ne_zero pne p02
  obtain ⟨κ, hκ⟩ : ∃ κ : ℂ, κ = 4 * Real.pi * I * (n * c1) / lam := ⟨_, rfl⟩
  let A : Pol → ℝ → ℂ := fun pol d =>
    (fresnelR pol n₀ n (Complex.cos θ) c1 + fresnelR pol n nb c1 c2 * Complex.exp (κ * d)) /
    (1 + fresnelR pol n₀ n (Complex.cos θ) c1 * fresnelR pol n nb c1 c2 * Complex.exp (κ * d))
  have hA0 : ∀ pol, A pol 0 = fresnelR pol n₀ nb (Complex.cos θ) c2 := by
    intro pol
    simp only [A, Complex.ofReal_zero, mul_zero, Complex.exp_zero, mul_one]
    cases pol
    · exact As.2.1
    · exact Ap.2.1
  have dS := airy_slope As.1 κ
  have dP := airy_slope Ap.1 κ
  rw [As.2.2] at dS
  rw [Ap.2.2] at dP
  change HasDerivAt (A .s) _ 0 at dS
  change HasDerivAt (A .p) _ 0 at dP
  -- the code near thickness zero
  have hpt : ∀ pol, ∃ t : ℝ → ℂ, ∀ᶠ d in 𝓝 (0 : ℝ), solveSt pol (coat n₀ n nb d) θ lam = some (A pol d, t d) := by
    intro pol
    obtain ⟨r, t, ev, -, -⟩ := h.varies.amps pol
    refine ⟨t, ?_⟩
    have him : ∀ᶠ d : ℝ in 𝓝 0, (2 * Real.pi * n * c1 * (d : ℂ) / lam : ℂ).im < 35 := by
      have hc : Continuous fun d : ℝ => (2 * Real.pi * n * c1 * (d : ℂ) / lam : ℂ).im := by fun_prop
      exact hc.continuousAt.eventually_lt (x₀ := (0 : ℝ)) (g := fun _ => (35 : ℝ)) continuousAt_const (by simp)
    filter_upwards [ev, h.varies.nz, him] with d e1 e2 e3
    have e1' : solveSt pol (coat n₀ n nb d) θ lam = some (r d, t d) := e1
    have e2' : (coat n₀ n nb d).NZ := e2.1
    have hcoh := coh_real (st := coat n₀ n nb d) (n₀ := n₀) (θ := θ) (lam := lam) rfl e2' e2.2 .inf .inf
    have := airy_code hn₀ hn hb h.angle.le e2.2 (pol := pol) (r := r d) (t := t d) hcoh (by
      cases pol <;> exact e1')
    simp only [← hS, ← hc1, ← hc2] at this
    rw [e1', this e3.le]
    have : 2 * I * (2 * Real.pi * n * c1 * d / lam) = κ * d := by rw [hκ]; ring
    rw [this]
  obtain ⟨ts, es⟩ := hpt .s
  obtain ⟨tp, ep⟩ := hpt .p
  refine ⟨A .s, ts, A .p, tp, ?_, ?_, ?_, ?_, ?_⟩
  · filter_upwards [es, ep] with d h1 h2
    exact ⟨h1, h2⟩
  · filter_upwards [dS.continuousAt.eventually_ne (by rw [hA0]; exact r0s),
      dP.continuousAt.eventually_ne (by rw [hA0]; exact r0p)] with d h1 h2
    exact ⟨h1, h2⟩
  · rw [hA0]; exact r0s
  · rw [hA0]; exact r0p
  · refine (dP.fun_div dS (by rw [hA0]; exact r0s)).congr_deriv ?_
    have := drude_eq (n₀ := n₀) (c := Complex.cos θ) (s := Complex.sin θ) (lam := lam) (q0 := n₀ * Complex.cos θ)
      (q1 := n * c1) (q2 := nb * c2) (n := n) (nb := nb) hn₀ hn hb hq1 hcs rfl q1sq q2sq hne hbr hl
    rw [← hκ] at this
    have alg : ∀ r r' x y : ℂ, r ≠ 0 →
        (κ * (r' * x) * r - r' * (κ * (r * y))) / r ^ 2 = r' / r * (κ * (x - y)) := by
      intro r r' x y hr
      field_simp
    rw [hA0, hA0, alg _ _ _ _ r0s]
    unfold drude
    push_cast
    rw [this]

/-- The observables near thickness zero. -/
theorem Coatable.observables {a wav off : ℝ} (h : Coatable n₀ (rad a) wav n nb) {rows : ℝ → List Row}
    (hr : ∀ d, RowsOf (rows d) (coat n₀ n nb d)) (zs : List Layer → ℝ → ℝ → Bool) :
    ∃ ψ Δ : ℝ → ℝ,
      (∀ᶠ d in 𝓝 0, (deltaPsiTMM zs [a] (rows d) wav off false).1 = .ok [(some (ψ d), some (Δ d))]) ∧
      HasDerivAt ψ (Real.sin (2 * rad (ψ 0)) / 2 * (drude n₀ (rad a) wav nb n).re * (180 / Real.pi)) 0 ∧
      HasDerivAt (fun d => Complex.exp (I * (rad (Δ d) : ℝ)))
        (-(I * (drude n₀ (rad a) wav nb n).im) * Complex.exp (I * (rad (Δ 0) : ℝ))) 0 ∧
      (0 < Δ 0 - off → Δ 0 - off < 360 →
        HasDerivAt Δ (-(drude n₀ (rad a) wav nb n).im * (180 / Real.pi)) 0) := by
  have hpi := Real.pi_pos
  obtain ⟨rs, ts, rp, tp, ev, ene, hrs, hrp, hd⟩ := h.ratio
  obtain ⟨L, hL⟩ : ∃ L, L = drude n₀ (rad a) wav nb n := ⟨_, rfl⟩
  rw [← hL] at hd ⊢
  set ρ : ℝ → ℂ := fun d => rp d / rs d with hρ
  have hd : HasDerivAt ρ (ρ 0 * L) 0 := hd
  have hρ0 : ρ 0 ≠ 0 := div_ne_zero hrp hrs
  have hn0 : 0 < ‖ρ 0‖ := norm_pos_iff.mpr hρ0
  have hnorm : HasDerivAt (fun d => ‖ρ d‖) (‖ρ 0‖ * L.re) 0 := by
    have h1 := hd.norm_sq
    have h2 := h1.sqrt (by positivity)
    simp only [Real.sqrt_sq (norm_nonneg _)] at h2
    refine h2.congr_deriv ?_
    rw [Complex.inner, show ρ 0 * L * (starRingEnd ℂ) (ρ 0) = (starRingEnd ℂ) (ρ 0) * ρ 0 * L by ring,
      ← Complex.normSq_eq_conj_mul_self, Complex.re_ofReal_mul, Complex.normSq_eq_norm_sq]
    field_simp
  set σ : ℝ → Bool := fun d => zs ((coat n₀ n nb d).layers .inf .inf) a wav with hσ
  refine ⟨fun d => Real.arctan ‖ρ d‖ * (180 / Real.pi),
    fun d => (npAngle (σ d) (-(rs d / rp d)) + Real.pi) * (180 / Real.pi) + off, ?_, ?_, ?_, ?_⟩
  · filter_upwards [ev, ene, h.varies.nz] with d e1 e2 e3
    have e3' : (coat n₀ n nb d).NZ := e3.1
    rw [deltaPsi_rows (hr d) e3' e3.2]
    simp only [List.map_cons, List.map_nil, e1.1, e1.2, psiDelta, deltaRad_of_ne e2.1 e2.2, psiRad, if_neg e2.1,
      Option.map_some, reflectRad, Bool.false_eq_true, if_false, hρ, hσ]
  · refine (hnorm.arctan.mul_const (180 / Real.pi)).congr_deriv ?_
    have e : rad (Real.arctan ‖ρ 0‖ * (180 / Real.pi)) = Real.arctan ‖ρ 0‖ := by
      unfold rad; field_simp
    rw [e, Real.sin_two_mul, Real.sin_arctan, Real.cos_arctan]
    have hs : Real.sqrt (1 + ‖ρ 0‖ ^ 2) ^ 2 = 1 + ‖ρ 0‖ ^ 2 := Real.sq_sqrt (by positivity)
    have hs0 : 0 < Real.sqrt (1 + ‖ρ 0‖ ^ 2) := by positivity
    generalize Real.sqrt (1 + ‖ρ 0‖ ^ 2) = w at *
    rw [← hs]
    field_simp
  · have e : ∀ᶠ d in 𝓝 (0 : ℝ), Complex.exp (I * (rad ((npAngle (σ d) (-(rs d / rp d)) + Real.pi) * (180 / Real.pi) + off) : ℝ)) =
        Complex.exp (I * (rad off : ℝ)) * ((‖ρ d‖ : ℂ) / ρ d) := by
      filter_upwards [ene] with d hne
      have e1 : rad ((npAngle (σ d) (-(rs d / rp d)) + Real.pi) * (180 / Real.pi) + off) =
          npAngle (σ d) (-(rs d / rp d)) + Real.pi + rad off := by
        unfold rad; field_simp
      have e2 := exp_npAngle (σ d) (-(rs d / rp d))
      have e3 : ‖-(rs d / rp d)‖ = ‖ρ d‖⁻¹ := by rw [norm_neg, hρ]; simp only [norm_div, inv_div]
      have hne' : (‖ρ d‖ : ℂ) ≠ 0 := Complex.ofReal_ne_zero.mpr (norm_ne_zero_iff.mpr (div_ne_zero hne.2 hne.1))
      rw [e3] at e2
      rw [e1, show I * ((npAngle (σ d) (-(rs d / rp d)) + Real.pi + rad off : ℝ) : ℂ) =
        I * (rad off : ℝ) + (npAngle (σ d) (-(rs d / rp d)) * I + Real.pi * I) by push_cast; ring,
        Complex.exp_add, Complex.exp_add, Complex.exp_pi_mul_I]
      congr 1
      push_cast at e2
      rw [inv_mul_eq_iff_eq_mul₀ hne'] at e2
      rw [e2]
      simp only [hρ]
      have := hne.1
      have := hne.2
      field_simp
    have e0 := e.self_of_nhds
    refine HasDerivAt.congr_of_eventuallyEq ?_ e
    rw [e0]
    have h1 : HasDerivAt (fun d => ((‖ρ d‖ : ℝ) : ℂ)) ((‖ρ 0‖ * L.re : ℝ) : ℂ) 0 := hnorm.ofReal_comp
    refine ((h1.fun_div hd hρ0).const_mul (Complex.exp (I * (rad off : ℝ)))).congr_deriv ?_
    have hLL : L = (L.re : ℂ) + L.im * I := (Complex.re_add_im L).symm
    push_cast
    field_simp
    linear_combination (-(‖ρ 0‖ : ℂ)) * hLL
  · intro k1 k2
    set y : ℝ → ℂ := fun d => -(rs d / rp d) with hy
    have ey : ∀ d, y d = -(ρ d)⁻¹ := fun d => by simp only [hy, hρ, inv_div]
    have hy0 : y 0 ≠ 0 := by rw [ey]; exact neg_ne_zero.mpr (inv_ne_zero hρ0)
    have dy : HasDerivAt y (-(y 0 * L)) 0 := by
      have h1 : HasDerivAt (fun d => -(ρ d)⁻¹) _ 0 := (hd.fun_inv hρ0).fun_neg
      have h2 : y = fun d => -(ρ d)⁻¹ := funext ey
      rw [h2]
      refine h1.congr_deriv ?_
      field_simp
    simp only [add_sub_cancel_right] at k1 k2
    have k1' : 0 < npAngle (σ 0) (y 0) + Real.pi := pos_of_mul_pos_left k1 (by positivity)
    have k2' : npAngle (σ 0) (y 0) + Real.pi < 2 * Real.pi := by
      rw [← lt_div_iff₀ (by positivity)] at k2
      refine k2.trans_eq ?_
      field_simp; norm_num
    have hslit : y 0 ∈ Complex.slitPlane := by
      rw [Complex.mem_slitPlane_iff_not_le_zero]
      intro hle
      rw [Complex.le_def] at hle
      have hneg : (y 0).re < 0 := lt_of_le_of_ne hle.1 (by
        intro hz
        exact hy0 (Complex.ext hz hle.2))
      have hh : npAngle (σ 0) (y 0) = if σ 0 then Real.pi else -Real.pi := by
        unfold npAngle
        rw [if_pos ⟨hle.2, hneg⟩]
      rw [hh] at k1' k2'
      split_ifs at k1' k2' <;> linarith
    have hang : ∀ᶠ d in 𝓝 (0 : ℝ), npAngle (σ d) (y d) = Complex.arg (y d) := by
      filter_upwards [dy.continuousAt.eventually_mem (Complex.isOpen_slitPlane.mem_nhds hslit)] with x hx
      unfold npAngle
      rw [if_neg]
      rintro ⟨i1, i2⟩
      rcases Complex.mem_slitPlane_iff.mp hx with h | h
      · linarith
      · exact h i1
    have darg : HasDerivAt (fun d => Complex.arg (y d)) (-L.im) 0 := by
      have h1 := dy.clog_real hslit
      have h2 : HasDerivAt (fun d => (Complex.log (y d)).im) _ 0 := Complex.imCLM.hasFDerivAt.comp_hasDerivAt 0 h1
      simp only [Complex.log_im] at h2
      refine h2.congr_deriv ?_
      have : -(y 0 * L) / y 0 = -L := by field_simp
      rw [this]; simp
    refine HasDerivAt.congr_of_eventuallyEq (f := fun d => (Complex.arg (y d) + Real.pi) * (180 / Real.pi) + off) ?_ ?_
    · exact ((darg.add_const Real.pi).mul_const (180 / Real.pi)).add_const off
    · filter_upwards [hang] with d hd
      show (npAngle (σ d) (y d) + Real.pi) * (180 / Real.pi) + off = _
      rw [hd]

/-- C139: to first order in its thickness a film on a substrate changes psi and delta as Drude's formula says:
`ρ = tan psi exp(-i delta)` changes by the factor `1 + drude * d`.  Delta as an angle; as a number when it is not
at the ends of the range 0..360. -/
theorem C139_slope {a wav off : ℝ} (h : Coatable n₀ (rad a) wav n nb) {rows : ℝ → List Row}
    (hr : ∀ d, RowsOf (rows d) (coat n₀ n nb d)) (zs : List Layer → ℝ → ℝ → Bool) :
    ∃ ψ Δ : ℝ → ℝ,
      (∀ᶠ d in 𝓝 0, (deltaPsiTMM zs [a] (rows d) wav off false).1 = .ok [(some (ψ d), some (Δ d))]) ∧
      HasDerivAt ψ (Real.sin (2 * rad (ψ 0)) / 2 * (drude n₀ (rad a) wav nb n).re * (180 / Real.pi)) 0 ∧
      HasDerivAt (fun d => Complex.exp (I * (rad (Δ d) : ℝ)))
        (-(I * (drude n₀ (rad a) wav nb n).im) * Complex.exp (I * (rad (Δ 0) : ℝ))) 0 ∧
      (0 < Δ 0 - off → Δ 0 - off < 360 →
        HasDerivAt Δ (-(drude n₀ (rad a) wav nb n).im * (180 / Real.pi)) 0) := h.observables hr zs

theorem drude_ne_zero (h : Coatable n₀ θ lam n nb) :
    drude n₀ θ lam nb n ≠ 0 ↔ θ ≠ 0 ∧ n ≠ n₀ ∧ n ≠ nb := by
  have hpi := Real.pi_pos
  have hn₀ : (n₀ : ℂ) ≠ 0 := Complex.ofReal_ne_zero.mpr h.n₀_pos.ne'
  have hl : (lam : ℂ) ≠ 0 := Complex.ofReal_ne_zero.mpr h.lam_pos.ne'
  have hpc : (Real.pi : ℂ) ≠ 0 := Complex.ofReal_ne_zero.mpr hpi.ne'
  have hcos : ((Real.cos θ : ℝ) : ℂ) ≠ 0 := Complex.ofReal_ne_zero.mpr h.physical.cos_pos.ne'
  have hbr := sub_ne_zero.mpr h.offBrewster
  have hsin : ((Real.sin θ : ℝ) : ℂ) = 0 ↔ θ = 0 := by
    rw [Complex.ofReal_eq_zero]
    have := abs_lt.mp h.angle
    exact Real.sin_eq_zero_iff_of_lt_of_lt (by linarith) (by linarith)
  have hsq : ∀ x : ℂ, 0 < x.re → (n ^ 2 - x ^ 2 = 0 ↔ n = x) := by
    intro x hx
    rw [sub_eq_zero, sq_eq_sq_iff_eq_or_eq_neg]
    constructor
    · rintro (h' | h')
      · exact h'
      · have := congrArg Complex.re h'
        have h1 := h.film.1
        rw [Complex.neg_re] at this
        linarith
    · exact .inl
  unfold drude
  simp only [ne_eq, mul_eq_zero, neg_eq_zero, div_eq_zero_iff, pow_eq_zero_iff two_ne_zero, hl, hn₀, hpc, hcos,
    hbr, h.sq_ne, h.film.ne_zero, h.back.ne_zero, Complex.I_ne_zero, hsin, hsq _ h.back.1,
    hsq (n₀ : ℂ) (by rw [Complex.ofReal_re]; exact h.n₀_pos), or_false, false_or, OfNat.ofNat_ne_zero, not_or]

/-- Without thickness the film is not there: the observables are those of the bare substrate. -/
theorem coat_bare {a wav off : ℝ} (h : Coatable n₀ (rad a) wav n nb)
    {rows rows' : List Row} (hr : RowsOf rows (coat n₀ n nb 0)) (hr' : RowsOf rows' ⟨(n₀ : ℂ), [], nb⟩)
    {zs : List Layer → ℝ → ℝ → Bool} {ψ Δ ψ' Δ' : ℝ}
    (e : (deltaPsiTMM zs [a] rows wav off false).1 = .ok [(some ψ, some Δ)])
    (e' : (deltaPsiTMM zs [a] rows' wav off false).1 = .ok [(some ψ', some Δ')]) :
    ψ = ψ' ∧ Complex.exp (I * (rad Δ : ℝ)) = Complex.exp (I * (rad Δ' : ℝ)) := by
  have hpi := Real.pi_pos
  have hb := physical_bare h.back h.n₀_pos h.angle h.lam_pos
  obtain ⟨rs, ts, hs⟩ := hb.solved .s
  obtain ⟨rp, tp, hp⟩ := hb.solved .p
  obtain ⟨rs', ts', hs'⟩ := h.physical.solved .s
  obtain ⟨rp', tp', hp'⟩ := h.physical.solved .p
  rw [deltaPsi_rows hr h.physical.nz h.lam_pos.ne'] at e
  simp only [List.map_cons, List.map_nil, hs', hp', Except.ok.injEq, List.cons.injEq, and_true] at e
  rw [deltaPsi_rows hr' hb.nz h.lam_pos.ne'] at e'
  simp only [List.map_cons, List.map_nil, hs, hp, Except.ok.injEq, List.cons.injEq, and_true] at e'
  obtain ⟨q, p1, p2, -⟩ := psiDelta_encodes e
  obtain ⟨q', p1', p2', -⟩ := psiDelta_encodes e'
  rw [(solveSt_zero_thickness (pre := []) (post := []) hs' hs).1,
    (solveSt_zero_thickness (pre := []) (post := []) hp' hp).1] at q
  have hrs : rs ≠ 0 := by
    obtain ⟨rs', ts', rp', tp', ev, -, hne, -⟩ := h.ratio
    rw [← (solveSt_zero_thickness (pre := []) (post := []) ev.self_of_nhds.1 hs).1]
    exact hne
  have hrange : ∀ x : ℝ, 0 < x → x < 90 → 0 < rad x ∧ rad x < Real.pi / 2 := by
    intro x h1 h2
    unfold rad
    refine ⟨by positivity, ?_⟩
    calc x * (Real.pi / 180) < 90 * (Real.pi / 180) := by gcongr
      _ = Real.pi / 2 := by ring
  have t := hrange ψ p1 p2
  have t' := hrange ψ' p1' p2'
  have tp := Real.tan_pos_of_pos_of_lt_pi_div_two t.1 t.2
  have tp' := Real.tan_pos_of_pos_of_lt_pi_div_two t'.1 t'.2
  have eq : ((Real.tan (rad ψ) : ℝ) : ℂ) * Complex.exp (-(I * (rad (Δ - off) : ℝ))) =
      ((Real.tan (rad ψ') : ℝ) : ℂ) * Complex.exp (-(I * (rad (Δ' - off) : ℝ))) := by
    refine mul_left_cancel₀ hrs ?_
    rw [← mul_assoc, ← mul_assoc, ← q, ← q']
  have hn : ∀ x : ℝ, ‖Complex.exp (-(I * (x : ℂ)))‖ = 1 := by
    intro x
    rw [Complex.norm_exp]
    simp
  have et : Real.tan (rad ψ) = Real.tan (rad ψ') := by
    have := congrArg norm eq
    rw [norm_mul, norm_mul, hn, hn, mul_one, mul_one, Complex.norm_of_nonneg tp.le, Complex.norm_of_nonneg tp'.le] at this
    exact this
  constructor
  · have := Real.injOn_tan ⟨by linarith [t.1], t.2⟩ ⟨by linarith [t'.1], t'.2⟩ et
    exact mul_right_cancel₀ (by positivity : Real.pi / 180 ≠ 0) this
  · rw [et] at eq
    have eq := mul_left_cancel₀ (Complex.ofReal_ne_zero.mpr tp'.ne') eq
    have sp : ∀ x : ℝ, Complex.exp (I * (rad x : ℝ)) =
        (Complex.exp (-(I * (rad (x - off) : ℝ))))⁻¹ * Complex.exp (I * (rad off : ℝ)) := by
      intro x
      rw [← Complex.exp_neg, ← Complex.exp_add]
      congr 1
      unfold rad
      push_cast
      ring
    rw [sp Δ, sp Δ', eq]

/-- There is a bare substrate to compare with. -/
theorem coat_bare_exists {a wav : ℝ} (off : ℝ) (h : Coatable n₀ (rad a) wav n nb) (zs : List Layer → ℝ → ℝ → Bool) :
    ∃ rows ψ Δ, RowsOf rows ⟨(n₀ : ℂ), [], nb⟩ ∧
      (deltaPsiTMM zs [a] rows wav off false).1 = .ok [(some ψ, some Δ)] := by
  have hr : RowsOf [⟨0, some n₀, 0, 0⟩, ⟨0, some nb, 0, 0⟩] ⟨(n₀ : ℂ), [], nb⟩ :=
    ⟨_, [], _, n₀, rfl, rfl, by simp, .nil, rfl⟩
  have hb := physical_bare h.back h.n₀_pos h.angle h.lam_pos
  obtain ⟨rs', ts', rp', tp', ev, -, hne, hne', -⟩ := h.ratio
  obtain ⟨rs, ts, hs⟩ := hb.solved .s
  obtain ⟨rp, tp, hp⟩ := hb.solved .p
  rw [(solveSt_zero_thickness (pre := []) (post := []) ev.self_of_nhds.1 hs).1] at hne
  rw [(solveSt_zero_thickness (pre := []) (post := []) ev.self_of_nhds.2 hp).1] at hne'
  obtain ⟨ψ, Δ, e⟩ := (C14_finite_iff (a := a) (off := off) hr hb.nz h.lam_pos.ne' zs false).mpr
    ⟨_, _, _, _, _, coh_real (θ := rad a) rfl hb.nz h.lam_pos.ne' .inf .inf, hs, hp, hne, hne'⟩
  exact ⟨_, ψ, Δ, hr, e⟩

/-- Without thickness the film is not there: the observables do not depend on its index. -/
theorem coat_zero {n' : ℂ} {a wav off : ℝ} (h : Coatable n₀ (rad a) wav n nb) (h' : Coatable n₀ (rad a) wav n' nb)
    {rows rows' : List Row} (hr : RowsOf rows (coat n₀ n nb 0)) (hr' : RowsOf rows' (coat n₀ n' nb 0))
    {zs : List Layer → ℝ → ℝ → Bool} {ψ Δ ψ' Δ' : ℝ}
    (e : (deltaPsiTMM zs [a] rows wav off false).1 = .ok [(some ψ, some Δ)])
    (e' : (deltaPsiTMM zs [a] rows' wav off false).1 = .ok [(some ψ', some Δ')]) :
    ψ = ψ' ∧ Complex.exp (I * (rad Δ : ℝ)) = Complex.exp (I * (rad Δ' : ℝ)) := by
  obtain ⟨rows₀, ψ₀, Δ₀, hr₀, e₀⟩ := coat_bare_exists off h zs
  obtain ⟨p, q⟩ := coat_bare h hr hr₀ e e₀
  obtain ⟨p', q'⟩ := coat_bare h' hr' hr₀ e' e₀
  exact ⟨p.trans p'.symm, q.trans q'.symm⟩

/-- C139: a film that differs from both of its neighbours is visible to first order at every oblique angle: psi or
delta has a slope that is not zero. -/
theorem C139_visible {a wav off : ℝ} (h : Coatable n₀ (rad a) wav n nb) (ha : a ≠ 0) (h1 : n ≠ n₀) (h2 : n ≠ nb)
    {rows : ℝ → List Row} (hr : ∀ d, RowsOf (rows d) (coat n₀ n nb d)) (zs : List Layer → ℝ → ℝ → Bool) :
    ∃ ψ Δ : ℝ → ℝ, ∃ ψ' : ℝ, ∃ e' : ℂ,
      (∀ᶠ d in 𝓝 0, (deltaPsiTMM zs [a] (rows d) wav off false).1 = .ok [(some (ψ d), some (Δ d))]) ∧
      HasDerivAt ψ ψ' 0 ∧ HasDerivAt (fun d => Complex.exp (I * (rad (Δ d) : ℝ))) e' 0 ∧ (ψ' ≠ 0 ∨ e' ≠ 0) := by
  have hpi := Real.pi_pos
  obtain ⟨ψ, Δ, e1, e2, e3, -⟩ := C139_slope (off := off) h hr zs
  refine ⟨ψ, Δ, _, _, e1, e2, e3, ?_⟩
  have hrad : rad a ≠ 0 := mul_ne_zero ha (by positivity)
  have hne := (drude_ne_zero h).mpr ⟨hrad, h1, h2⟩
  by_cases him : (drude n₀ (rad a) wav nb n).im = 0
  · left
    have hre : (drude n₀ (rad a) wav nb n).re ≠ 0 := fun hz => hne (Complex.ext hz him)
    obtain ⟨rs, ts, rp, tp, ev, ene, hrs, hrp, -⟩ := h.ratio
    obtain ⟨hs, hp⟩ := ev.self_of_nhds
    have e0 := e1.self_of_nhds
    have e4 : (psiDelta (zs ((coat n₀ n nb 0).layers .inf .inf) a wav) false off ⟨some (rs 0, ts 0), some (rp 0, tp 0)⟩) =
        (some (ψ 0), some (Δ 0)) := by
      rw [deltaPsi_rows (hr 0) h.physical.nz h.lam_pos.ne'] at e0
      simpa only [List.map_cons, List.map_nil, hs, hp, Except.ok.injEq, List.cons.injEq, and_true] using e0
    obtain ⟨-, p1, p2, -⟩ := psiDelta_encodes e4
    have h3 : 0 < rad (ψ 0) := by unfold rad; positivity
    have h4 : rad (ψ 0) < Real.pi / 2 := by
      unfold rad
      calc ψ 0 * (Real.pi / 180) < 90 * (Real.pi / 180) := by gcongr
        _ = Real.pi / 2 := by ring
    have hsin : 0 < Real.sin (2 * rad (ψ 0)) := Real.sin_pos_of_pos_of_lt_pi (by linarith) (by linarith)
    have : (180 / Real.pi) ≠ 0 := by positivity
    exact mul_ne_zero (mul_ne_zero (by positivity) hre) this
  · right
    exact mul_ne_zero (neg_ne_zero.mpr (mul_ne_zero Complex.I_ne_zero (Complex.ofReal_ne_zero.mpr him)))
      (Complex.exp_ne_zero _)

/-- C139: a transparent film on a transparent substrate leaves psi alone to first order; below the Brewster angle of
the substrate delta starts at 180 degrees and changes with the slope
`720/λ · n₀ cos θ sin² θ n_b² (n² - n₀²)(n² - n_b²) / (n² (n_b² - n₀²)(n_b² cos² θ - n₀² sin² θ))` degrees per nm. -/
theorem C139_transparent {m mb a wav off : ℝ} (h : Coatable n₀ (rad a) wav (m : ℂ) (mb : ℂ)) {rows : ℝ → List Row}
    (hr : ∀ d, RowsOf (rows d) (coat n₀ m mb d)) (zs : List Layer → ℝ → ℝ → Bool) :
    ∃ ψ Δ : ℝ → ℝ,
      (∀ᶠ d in 𝓝 0, (deltaPsiTMM zs [a] (rows d) wav off false).1 = .ok [(some (ψ d), some (Δ d))]) ∧
      HasDerivAt ψ 0 0 ∧
      (0 ≤ a → n₀ * Real.sin (rad a) ≤ mb → Real.tan (rad a) < mb / n₀ → Δ 0 = 180 + off ∧
        HasDerivAt Δ (720 / wav * (n₀ * Real.cos (rad a) * Real.sin (rad a) ^ 2 * mb ^ 2 /
          ((mb ^ 2 - n₀ ^ 2) * (mb ^ 2 * Real.cos (rad a) ^ 2 - n₀ ^ 2 * Real.sin (rad a) ^ 2))) *
          ((m ^ 2 - n₀ ^ 2) * (m ^ 2 - mb ^ 2) / m ^ 2)) 0) := by
  have hpi := Real.pi_pos
  obtain ⟨ψ, Δ, e1, e2, -, e4⟩ := C139_slope (off := off) h hr zs
  obtain ⟨F, hF⟩ : ∃ F : ℝ, F = (n₀ * Real.cos (rad a) * Real.sin (rad a) ^ 2 * mb ^ 2 /
          ((mb ^ 2 - n₀ ^ 2) * (mb ^ 2 * Real.cos (rad a) ^ 2 - n₀ ^ 2 * Real.sin (rad a) ^ 2))) *
          ((m ^ 2 - n₀ ^ 2) * (m ^ 2 - mb ^ 2) / m ^ 2) := ⟨_, rfl⟩
  have hd : drude n₀ (rad a) wav mb m = ((-(4 * Real.pi / wav) * F : ℝ) : ℂ) * I := by
    rw [hF]; unfold drude; push_cast; ring
  rw [hd] at e2 e4
  refine ⟨ψ, Δ, e1, e2.congr_deriv ?_, fun k1 k2 k3 => ?_⟩
  · simp
  obtain ⟨rows₀, ψ₀, Δ₀, hr₀, e₀⟩ := coat_bare_exists off h zs
  have hb := physical_bare h.back h.n₀_pos h.angle h.lam_pos
  have hne : mb ≠ n₀ := fun he => h.differs (by rw [he])
  obtain ⟨ψ₁, -, e₁⟩ := (C113_brewster hr₀ hb k1 k2 hne zs off false).1 k3
  obtain ⟨-, q⟩ := coat_bare h (hr 0) hr₀ e1.self_of_nhds e₁
  have hΔ : Δ 0 = 180 + off := by
    have e0 := e1.self_of_nhds
    obtain ⟨rs', ts', hs'⟩ := h.physical.solved .s
    obtain ⟨rp', tp', hp'⟩ := h.physical.solved .p
    rw [deltaPsi_rows (hr 0) h.physical.nz h.lam_pos.ne'] at e0
    simp only [List.map_cons, List.map_nil, hs', hp', Except.ok.injEq, List.cons.injEq, and_true] at e0
    obtain ⟨-, -, -, l1, l2⟩ := psiDelta_encodes e0
    obtain ⟨k, hk⟩ := Complex.exp_eq_exp_iff_exists_int.mp q
    have hk' : Δ 0 = 180 + off + 360 * k := by
      have h1 := congrArg Complex.im hk
      have h2 : ∀ x : ℝ, (I * (x : ℂ)).im = x := by intro x; simp
      have h3 : ((k : ℂ) * (2 * Real.pi * I)).im = k * (2 * Real.pi) := by simp
      rw [Complex.add_im, h2, h2, h3] at h1
      unfold rad at h1
      have : (Δ 0 - (180 + off + 360 * k)) * (Real.pi / 180) = 0 := by linear_combination h1
      have := (mul_eq_zero.mp this).resolve_right (by positivity)
      linarith
    have g1 : (-1 : ℝ) < k := by linarith
    have g2 : (k : ℝ) < 1 := by linarith
    have : k = 0 := by
      have g1 : (-1 : ℤ) < k := by exact_mod_cast g1
      have g2 : k < 1 := by exact_mod_cast g2
      omega
    rw [hk', this]; simp
  refine ⟨hΔ, (e4 (by rw [hΔ]; linarith) (by rw [hΔ]; linarith)).congr_deriv ?_⟩
  · rw [Complex.im_ofReal_mul, Complex.I_im, mul_assoc (720 / wav), ← hF]
    have := h.lam_pos.ne'
    field_simp
    ring

/-- C139: two films for which `(n² - n₀²)(n² - n_b²)/n²` differs by a real factor `c` cannot be told apart to first
order: a thickness `d` of one looks like a thickness `c d` of the other.  (For transparent films on transparent
substrates there always is such a factor: index and thickness are not determined separately.) -/
theorem C139_confounded {n' : ℂ} {a wav off c : ℝ} (h : Coatable n₀ (rad a) wav n nb)
    (h' : Coatable n₀ (rad a) wav n' nb)
    (hc : (n ^ 2 - n₀ ^ 2) * (n ^ 2 - nb ^ 2) / n ^ 2 = c * ((n' ^ 2 - n₀ ^ 2) * (n' ^ 2 - nb ^ 2) / n' ^ 2))
    {rows rows' : ℝ → List Row} (hr : ∀ d, RowsOf (rows d) (coat n₀ n nb d))
    (hr' : ∀ d, RowsOf (rows' d) (coat n₀ n' nb d)) (zs : List Layer → ℝ → ℝ → Bool) :
    ∃ ψ Δ ψ' Δ' : ℝ → ℝ,
      (∀ᶠ d in 𝓝 0, (deltaPsiTMM zs [a] (rows d) wav off false).1 = .ok [(some (ψ d), some (Δ d))]) ∧
      (∀ᶠ d in 𝓝 0, (deltaPsiTMM zs [a] (rows' d) wav off false).1 = .ok [(some (ψ' d), some (Δ' d))]) ∧
      (fun d => ψ d - ψ' (c * d)) =o[𝓝 0] (fun d => d) ∧
      (fun d => Complex.exp (I * (rad (Δ d) : ℝ)) - Complex.exp (I * (rad (Δ' (c * d)) : ℝ))) =o[𝓝 0]
        (fun d => d) := by
  obtain ⟨ψ, Δ, e1, e2, e3, -⟩ := C139_slope (off := off) h hr zs
  obtain ⟨ψ', Δ', f1, f2, f3, -⟩ := C139_slope (off := off) h' hr' zs
  have hd : drude n₀ (rad a) wav nb n = c * drude n₀ (rad a) wav nb n' := by
    unfold drude; rw [hc]; ring
  rw [hd, Complex.re_ofReal_mul] at e2
  rw [hd, Complex.im_ofReal_mul] at e3
  obtain ⟨q1, q2⟩ := coat_zero h h' (hr 0) (hr' 0) e1.self_of_nhds f1.self_of_nhds
  have hm : HasDerivAt (fun d : ℝ => c * d) c 0 := by simpa using (hasDerivAt_id (0 : ℝ)).const_mul c
  refine ⟨ψ, Δ, ψ', Δ', e1, f1, ?_, ?_⟩
  · have f2' : HasDerivAt (fun d => ψ' (c * d)) _ 0 := HasDerivAt.comp (h₂ := ψ') (0 : ℝ) (by rw [mul_zero]; exact f2) hm
    have := (e2.fun_sub f2').isLittleO
    simp only [mul_zero, q1, sub_self, sub_zero] at this
    refine this.congr_left fun d => ?_
    simp only [smul_eq_mul]
    ring
  · have f3' : HasDerivAt (fun d => Complex.exp (I * (rad (Δ' (c * d)) : ℝ))) _ 0 :=
      HasDerivAt.scomp (g₁ := fun d => Complex.exp (I * (rad (Δ' d) : ℝ))) (0 : ℝ) (by rw [mul_zero]; exact f3) hm
    have := (e3.fun_sub f3').isLittleO
    simp only [mul_zero, q2, sub_self, sub_zero] at this
    refine this.congr_left fun d => ?_
    simp only [Complex.real_smul]
    push_cast
    ring

/-- The rows of a film on a substrate (thicknesses in Angstrom). -/
theorem coat_rows (n₀ : ℝ) (n nb : ℂ) (d : ℝ) :
    RowsOf [⟨0, some n₀, 0, 0⟩, ⟨10 * d, some n, 0, 0⟩, ⟨0, some nb, 0, 0⟩] (coat n₀ n nb d) := by
  refine ⟨_, [_], _, n₀, rfl, rfl, by simp [coat], .cons ⟨rfl, ?_⟩ .nil, rfl⟩
  simp

/-- C139: the hypotheses can be met: a film of index 39/25 or 2 on a substrate of index 15/7. -/
theorem coat_example {m : ℝ} (hm : 1 ≤ m) : Coatable 1 (rad filmAoi) 480 (m : ℂ) ((15 / 7 : ℝ) : ℂ) := by
  have hs : Real.sin (rad filmAoi) = 3 / 5 := by
    have := film_sin
    rw [← Complex.ofReal_sin] at this
    exact Complex.ofReal_injective this
  have hc : Real.cos (rad filmAoi) ^ 2 = 16 / 25 := by
    have := Real.sin_sq_add_cos_sq (rad filmAoi)
    rw [hs] at this
    linarith
  refine ⟨one_pos, film_physical.angle, by norm_num, ?_, ?_, ?_, ?_, ?_⟩
  · exact ⟨by rw [Complex.ofReal_re]; linarith, by simp⟩
  · exact ⟨by rw [Complex.ofReal_re]; norm_num, by simp⟩
  · rw [hs]; norm_cast; intro h; nlinarith
  · norm_cast; norm_num
  · rw [← Complex.ofReal_pow, ← Complex.ofReal_pow, ← Complex.ofReal_pow,hs, hc]; norm_cast; norm_num

/-- C139 at a point: films of index 39/25 and of index 2 on a substrate of index 15/7 at the angle whose sine is
3/5 look alike to first order, a thickness `d` of the one like a thickness `c d` of the other. -/
example (zs : List Layer → ℝ → ℝ → Bool) : ∃ c : ℝ, c ≠ 0 ∧ ∃ ψ Δ ψ' Δ' : ℝ → ℝ,
    (∀ᶠ d : ℝ in 𝓝 0, (deltaPsiTMM zs [filmAoi] [⟨0, some (1 : ℝ), 0, 0⟩, ⟨10 * d, some ((39 / 25 : ℝ) : ℂ), 0, 0⟩,
      ⟨0, some ((15 / 7 : ℝ) : ℂ), 0, 0⟩] 480 0 false).1 = .ok [(some (ψ d), some (Δ d))]) ∧
    (∀ᶠ d : ℝ in 𝓝 0, (deltaPsiTMM zs [filmAoi] [⟨0, some (1 : ℝ), 0, 0⟩, ⟨10 * d, some ((2 : ℝ) : ℂ), 0, 0⟩,
      ⟨0, some ((15 / 7 : ℝ) : ℂ), 0, 0⟩] 480 0 false).1 = .ok [(some (ψ' d), some (Δ' d))]) ∧
    (fun d => ψ d - ψ' (c * d)) =o[𝓝 0] (fun d => d) ∧
    (fun d => Complex.exp (I * (rad (Δ d) : ℝ)) - Complex.exp (I * (rad (Δ' (c * d)) : ℝ))) =o[𝓝 0] (fun d => d) := by
  refine ⟨(((39 / 25) ^ 2 - 1 ^ 2) * ((39 / 25) ^ 2 - (15 / 7) ^ 2) / (39 / 25) ^ 2) /
    ((2 ^ 2 - 1 ^ 2) * (2 ^ 2 - (15 / 7) ^ 2) / 2 ^ 2), by norm_num, ?_⟩
  refine C139_confounded (coat_example (by norm_num)) (coat_example (by norm_num)) ?_
    (fun d => coat_rows 1 _ _ d) (fun d => coat_rows 1 _ _ d) zs
  norm_cast
  norm_num

/-- The angle of the example is below the Brewster angle. -/
example : 0 ≤ filmAoi ∧ 1 * Real.sin (rad filmAoi) ≤ 15 / 7 ∧ Real.tan (rad filmAoi) < 15 / 7 / 1 := by
  have hs : Real.sin (rad filmAoi) = 3 / 5 := by
    have := film_sin
    rw [← Complex.ofReal_sin] at this
    exact Complex.ofReal_injective this
  have hc0 := film_physical.cos_pos
  have hc : Real.cos (rad filmAoi) = 4 / 5 := by
    have := Real.sin_sq_add_cos_sq (rad filmAoi)
    rw [hs] at this
    nlinarith
  refine ⟨?_, by rw [hs]; norm_num, by rw [Real.tan_eq_sin_div_cos, hs, hc]; norm_num⟩
  have := Real.pi_pos
  have : 0 ≤ Real.arcsin (3 / 5) := Real.arcsin_nonneg.mpr (by norm_num)
  unfold filmAoi
  positivity

end

end Verif.TMM
