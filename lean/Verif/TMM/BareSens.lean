import Verif.TMM.PropsBare
import Verif.TMM.PropsSmooth

/-! # Psi and delta of a bare substrate respond to every change of its index -/

namespace Verif.TMM

open Complex (I)
open Filter Topology

variable {X : Type*} [NormedAddCommGroup X] [NormedSpace ℝ X]

/-- The formula for the square of the index (C112). -/
noncomputable def pseudo (n₀ a off ψ Δ : ℝ) : ℂ :=
  n₀ ^ 2 * (Real.sin (rad a) : ℝ) ^ 2 * (1 + (Real.tan (rad a) : ℝ) ^ 2 *
    ((1 - (Real.tan (rad ψ) : ℝ) * Complex.exp (-(I * (rad (Δ - off) : ℝ)))) /
      (1 + (Real.tan (rad ψ) : ℝ) * Complex.exp (-(I * (rad (Δ - off) : ℝ))))) ^ 2)

/-- Without folding delta is what it is with folding, or its mirror image. -/
theorem unfolded {σ refl : Bool} {off ψ Δ : ℝ} {am : Amps} (h : psiDelta σ refl off am = (some ψ, some Δ)) :
    ∃ Δ', psiDelta σ false off am = (some ψ, some Δ') ∧ (Δ' = Δ ∨ Δ' - off = 360 - (Δ - off)) := by
  have hpi := Real.pi_ne_zero
  unfold psiDelta at h ⊢
  split at h
  · next rs _ rp _ _ _ =>
    simp only [Prod.mk.injEq, Option.map_eq_some_iff] at h
    obtain ⟨⟨x, hx, hxψ⟩, ⟨y, hy, hyΔ⟩⟩ := h
    refine ⟨y * (180 / Real.pi) + off, by simp [hx, hxψ, hy, reflectRad], ?_⟩
    rw [← hyΔ]
    unfold reflectRad
    split_ifs
    · right
      field_simp
      ring
    · exact .inl rfl
    · exact .inl rfl
  · simp at h

/-- Folded delta is at most half a turn. -/
theorem folded_le {σ : Bool} {off ψ Δ : ℝ} {am : Amps} (h : psiDelta σ true off am = (some ψ, some Δ)) : Δ - off ≤ 180 := by
  have hpi := Real.pi_pos
  unfold psiDelta at h
  split at h
  · simp only [Prod.mk.injEq, Option.map_eq_some_iff] at h
    obtain ⟨-, ⟨y, -, hyΔ⟩⟩ := h
    have hle : reflectRad true y ≤ Real.pi := by
      unfold reflectRad
      split_ifs <;> first | linarith | exact absurd rfl ‹_›
    have := mul_le_mul_of_nonneg_right hle (by positivity : 0 ≤ 180 / Real.pi)
    rw [mul_div_cancel₀ _ hpi.ne'] at this
    linarith
  · simp at h

/-- C112 also with folded delta: the formula gives the square of the index or its conjugate. -/
theorem invert_folded {rows : List Row} {nb : ℂ} {n₀ a wav off : ℝ}
    (hr : RowsOf rows ⟨(n₀ : ℂ), [], nb⟩) (h : Physical ⟨(n₀ : ℂ), [], nb⟩ n₀ (rad a) wav)
    (hs : Real.sin (rad a) ≠ 0) {zs : List Layer → ℝ → ℝ → Bool} {refl : Bool} {ψ Δ : ℝ}
    (ho : (deltaPsiTMM zs [a] rows wav off refl).1 = .ok [(some ψ, some Δ)]) : (0 < ψ ∧ ψ < 90) ∧
    1 + (Real.tan (rad ψ) : ℝ) * Complex.exp (-(I * (rad (Δ - off) : ℝ))) ≠ 0 ∧
      (nb ^ 2 = pseudo n₀ a off ψ Δ ∨ nb ^ 2 = (starRingEnd ℂ) (pseudo n₀ a off ψ Δ)) := by
  obtain ⟨rs, ts, rp, tp, h1, h2, -⟩ := bare_amps h
  rw [deltaPsi_rows hr h.nz h.lam_pos.ne'] at ho
  simp only [List.map_cons, List.map_nil, Except.ok.injEq, List.cons.injEq, and_true, h1, h2] at ho
  obtain ⟨Δ', e, hd⟩ := unfolded ho
  have ho' : (deltaPsiTMM zs [a] rows wav off false).1 = .ok [(some ψ, some Δ')] := by
    rw [deltaPsi_rows hr h.nz h.lam_pos.ne']
    simp only [List.map_cons, List.map_nil, h1, h2, e]
  obtain ⟨i1, i2⟩ := C112_invert hr h hs ho'
  obtain ⟨-, p0, p1, -⟩ := psiDelta_encodes e
  refine ⟨⟨p0, p1⟩, ?_⟩
  rcases hd with rfl | hd
  · exact ⟨i1, .inl i2⟩
  · have hconj : Complex.exp (-(I * (rad (Δ' - off) : ℝ))) =
        (starRingEnd ℂ) (Complex.exp (-(I * (rad (Δ - off) : ℝ)))) := by
      rw [hd, ← Complex.exp_conj]
      have : rad (360 - (Δ - off)) = 2 * Real.pi - rad (Δ - off) := by unfold rad; ring
      rw [this]
      have e2 : -(I * ((2 * Real.pi - rad (Δ - off) : ℝ) : ℂ)) =
          (starRingEnd ℂ) (-(I * (rad (Δ - off) : ℝ))) - 2 * Real.pi * I := by
        simp; ring
      rw [e2, Complex.exp_sub, Complex.exp_two_pi_mul_I, div_one]
    rw [hconj] at i1 i2
    constructor
    · intro hz
      apply i1
      have := congrArg (starRingEnd ℂ) hz
      simpa [-Complex.ofReal_tan] using this
    · right
      rw [i2]
      simp [pseudo, -Complex.ofReal_tan, -Complex.ofReal_sin]

theorem upper_close {z w F G : ℂ} (hz : 0 ≤ z.im) (hw : 0 ≤ w.im) (h1 : z = F ∨ z = (starRingEnd ℂ) F)
    (h2 : w = G ∨ w = (starRingEnd ℂ) G) : ‖z - w‖ ≤ ‖F - G‖ := by
  have key : ∀ u v : ℂ, ‖u - v‖ ^ 2 = (u.re - v.re) ^ 2 + (u.im - v.im) ^ 2 := by
    intro u v
    rw [Complex.sq_norm, Complex.normSq_apply]
    simp only [Complex.sub_re, Complex.sub_im]
    ring
  refine le_of_sq_le_sq ?_ (norm_nonneg _)
  rw [key, key]
  rcases h1 with rfl | rfl <;> rcases h2 with rfl | rfl <;>
    (try simp only [Complex.conj_re, Complex.conj_im] at *) <;> nlinarith

/-- A change of parameters that leaves psi and delta of a bare substrate unchanged to first order leaves its index
unchanged to first order. -/
theorem bare_sensitive {n₀ a wav off : ℝ} {nb : X → ℂ} {rows : X → List Row} {ψ Δ : X → ℝ} {x0 v : X}
    (hr : ∀ᶠ x in 𝓝 x0, RowsOf (rows x) ⟨(n₀ : ℂ), [], nb x⟩)
    (hp : ∀ᶠ x in 𝓝 x0, Physical ⟨(n₀ : ℂ), [], nb x⟩ n₀ (rad a) wav) (hs : Real.sin (rad a) ≠ 0)
    {zs : List Layer → ℝ → ℝ → Bool} {refl : Bool}
    (ho : ∀ᶠ x in 𝓝 x0, (deltaPsiTMM zs [a] (rows x) wav off refl).1 = .ok [(some (ψ x), some (Δ x))])
    {ψ' Δ' : X →L[ℝ] ℝ} {nb' : X →L[ℝ] ℂ} (hψ : HasFDerivAt ψ ψ' x0) (hΔ : HasFDerivAt Δ Δ' x0)
    (hn : HasFDerivAt nb nb' x0) (h1 : ψ' v = 0) (h2 : Δ' v = 0) : nb' v = 0 := by
  have hc : HasDerivAt (fun t : ℝ => x0 + t • v) v 0 := by
    simpa using ((hasDerivAt_id (0 : ℝ)).smul_const v).const_add x0
  have hc0 : (fun t : ℝ => x0 + t • v) 0 = x0 := by simp
  have dψ : HasDerivAt (fun t : ℝ => ψ (x0 + t • v)) 0 0 := by
    have := hψ.comp_hasDerivAt_of_eq 0 hc hc0.symm
    rwa [h1] at this
  have dΔ : HasDerivAt (fun t : ℝ => Δ (x0 + t • v)) 0 0 := by
    have := hΔ.comp_hasDerivAt_of_eq 0 hc hc0.symm
    rwa [h2] at this
  have dn : HasDerivAt (fun t : ℝ => nb (x0 + t • v)) (nb' v) 0 :=
    hn.comp_hasDerivAt_of_eq 0 hc hc0.symm
  have inv0 := invert_folded hr.self_of_nhds hp.self_of_nhds hs ho.self_of_nhds
  have hcos : Real.cos (rad (ψ (x0 + (0 : ℝ) • v))) ≠ 0 := by
    rw [zero_smul, add_zero]
    obtain ⟨p0, p1⟩ := inv0.1
    refine (Real.cos_pos_of_mem_Ioo ⟨?_, ?_⟩).ne' <;> unfold rad <;> nlinarith [Real.pi_pos]
  have dP : HasDerivAt (fun t : ℝ => ((Real.tan (rad (ψ (x0 + t • v))) : ℝ) : ℂ)) 0 0 := by
    have e : HasDerivAt (fun t : ℝ => rad (ψ (x0 + t • v))) 0 0 := by
      have := dψ.mul_const (Real.pi / 180)
      simpa [rad] using this
    have := ((Real.hasDerivAt_tan hcos).comp (0 : ℝ) e).ofReal_comp
    simpa using this
  have dE : HasDerivAt (fun t : ℝ => Complex.exp (-(I * (rad (Δ (x0 + t • v) - off) : ℝ)))) 0 0 := by
    have e : HasDerivAt (fun t : ℝ => rad (Δ (x0 + t • v) - off)) 0 0 := by
      have := (dΔ.sub_const off).mul_const (Real.pi / 180)
      simpa [rad] using this
    have := ((e.ofReal_comp.const_mul I).neg).cexp
    simpa using this
  have dρ := dP.mul dE
  simp only [zero_mul, mul_zero, add_zero] at dρ
  have hne : 1 + ((Real.tan (rad (ψ (x0 + (0 : ℝ) • v))) : ℝ) : ℂ) *
      Complex.exp (-(I * (rad (Δ (x0 + (0 : ℝ) • v) - off) : ℝ))) ≠ 0 := by
    rw [zero_smul, add_zero]
    exact inv0.2.1
  have dF : HasDerivAt (fun t : ℝ => pseudo n₀ a off (ψ (x0 + t • v)) (Δ (x0 + t • v))) 0 0 := by
    have := (((((dρ.const_sub 1).div (dρ.const_add 1) hne).pow 2).const_mul
      ((Real.tan (rad a) : ℝ) ^ 2 : ℂ)).const_add 1).const_mul ((n₀ : ℂ) ^ 2 * (Real.sin (rad a) : ℝ) ^ 2)
    simpa [pseudo] using this
  have ev : ∀ᶠ t : ℝ in 𝓝 0, ‖nb (x0 + t • v) ^ 2 - nb x0 ^ 2‖ ≤
      ‖pseudo n₀ a off (ψ (x0 + t • v)) (Δ (x0 + t • v)) - pseudo n₀ a off (ψ x0) (Δ x0)‖ := by
    have ht : Tendsto (fun t : ℝ => x0 + t • v) (𝓝 0) (𝓝 x0) := by
      have := hc.continuousAt.tendsto
      simpa using this
    have him : ∀ {n : ℂ}, Physical ⟨(n₀ : ℂ), [], n⟩ n₀ (rad a) wav → 0 ≤ (n ^ 2).im := by
      intro n h
      have hb : PassiveIndex n := h.back
      rw [sq, Complex.mul_im]
      have := mul_nonneg hb.1.le hb.2
      linarith
    filter_upwards [ht.eventually hr, ht.eventually hp, ht.eventually ho] with t e1 e2 e3
    exact upper_close (him e2) (him hp.self_of_nhds) (invert_folded e1 e2 hs e3).2.2 inv0.2.2
  have dG : HasDerivAt (fun t : ℝ => nb (x0 + t • v) ^ 2) 0 0 := by
    rw [hasDerivAt_iff_isLittleO] at dF ⊢
    simp only [smul_zero, sub_zero, zero_smul, add_zero] at dF ⊢
    refine Asymptotics.IsBigO.trans_isLittleO ?_ dF
    exact Asymptotics.IsBigO.of_bound 1 (ev.mono fun t h => by rw [one_mul]; exact h)
  have hz := dG.unique (dn.pow 2)
  have hn0 : nb x0 ≠ 0 := hp.self_of_nhds.back.ne_zero
  simp only [zero_smul, add_zero] at hz
  have : (2 : ℂ) * nb x0 * nb' v = 0 := by simpa using hz.symm
  simpa [hn0] using this

end Verif.TMM
