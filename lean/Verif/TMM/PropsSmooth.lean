import Verif.TMM.Smooth
import Verif.TMM.ExFilm

/-!
# C138: psi and delta are smooth functions of the parameters
-/

namespace Verif.TMM

open Complex (I)
open Filter Topology

section
variable {X : Type*} [NormedAddCommGroup X] [NormedSpace ℝ X] {N : WithTop ℕ∞}

/-- C138 for the amplitudes: they are as often differentiable as the fronting index, angle, wavelength,
thicknesses and indices are. -/
theorem C138_amplitudes {n₀ θ lam : X → ℝ} {films : List ((X → ℂ) × (X → ℝ))} {nb : X → ℂ} {x0 : X}
    (h : VariesSmoothly N n₀ θ lam films nb x0) (d0 db : Thick) : ∃ a : X → Amps, ∃ r t : Pol → X → ℂ,
      (∀ᶠ x in 𝓝 x0,
        cohTmm ((stackAt n₀ films nb x).layers d0 db) [((θ x : ℂ), lam x)] = .ok [a x] ∧
        ∀ pol, (a x).of pol = some (r pol x, t pol x)) ∧
      ∀ pol, ContDiffAt ℝ N (r pol) x0 ∧ ContDiffAt ℝ N (t pol) x0 := by
  choose r t h1 h2 using h.amps
  refine ⟨fun x => ⟨solveSt .s (stackAt n₀ films nb x) (θ x) (lam x),
    solveSt .p (stackAt n₀ films nb x) (θ x) (lam x)⟩, r, t, ?_, h2⟩
  filter_upwards [h.nz, h1 .s, h1 .p] with x hx e1 e2
  refine ⟨coh_real rfl hx.1 hx.2 _ _, ?_⟩
  intro pol
  cases pol
  · exact e1
  · exact e2

/-- C138: where `Delta_Psi_TMM` returns psi and delta, delta strictly between the ends of its range, both are
as often differentiable as the fronting index, angle, wavelength, thicknesses and indices are. -/
theorem C138_psi_delta {N : ℕ∞} {n₀ a wav off : X → ℝ} {films : List ((X → ℂ) × (X → ℝ))} {nb : X → ℂ} {x0 : X}
    (h : VariesSmoothly (N : WithTop ℕ∞) n₀ (fun x => rad (a x)) wav films nb x0) (hoff : ContDiffAt ℝ N off x0)
    {rows : X → List Row} (hr : ∀ x, RowsOf (rows x) (stackAt n₀ films nb x))
    (zs : List Layer → ℝ → ℝ → Bool) (refl : Bool) {p0 d0 : ℝ}
    (h0 : (deltaPsiTMM zs [a x0] (rows x0) (wav x0) (off x0) refl).1 = .ok [(some p0, some d0)])
    (hd : 0 < d0 - off x0) (hd' : d0 - off x0 < if refl then 180 else 360) :
    ∃ ψ Δ : X → ℝ,
      (∀ᶠ x in 𝓝 x0, (deltaPsiTMM zs [a x] (rows x) (wav x) (off x) refl).1 = .ok [(some (ψ x), some (Δ x))]) ∧
      ContDiffAt ℝ N ψ x0 ∧ ContDiffAt ℝ N Δ x0 := by
  have hpi := Real.pi_pos
  obtain ⟨rs, ts, es, cs, -⟩ := h.amps .s
  obtain ⟨rp, tp, ep, cp, -⟩ := h.amps .p
  set σ : X → Bool := fun x => zs ((stackAt n₀ films nb x).layers .inf .inf) (a x) (wav x) with hσ
  have ev : ∀ᶠ x in 𝓝 x0, (deltaPsiTMM zs [a x] (rows x) (wav x) (off x) refl).1 =
      .ok [psiDelta (σ x) refl (off x) ⟨some (rs x, ts x), some (rp x, tp x)⟩] := by
    filter_upwards [h.nz, es, ep] with x hx e1 e2
    rw [deltaPsi_rows (hr x) hx.1 hx.2]
    simp only [List.map_cons, List.map_nil, e1, e2, hσ]
  have e0 := ev.self_of_nhds
  rw [h0] at e0
  simp only [Except.ok.injEq, List.cons.injEq, and_true, psiDelta, Prod.mk.injEq] at e0
  have hrs : rs x0 ≠ 0 := by
    intro hz
    have := e0.2
    simp [deltaRad, hz, cdiv_zero] at this
  have hrp : rp x0 ≠ 0 := by
    intro hz
    have := e0.2
    simp [deltaRad, hz, cdiv_of_ne hrs, cdiv_zero] at this
  have ers : ∀ᶠ x in 𝓝 x0, rs x ≠ 0 := cs.continuousAt.eventually_ne hrs
  have erp : ∀ᶠ x in 𝓝 x0, rp x ≠ 0 := cp.continuousAt.eventually_ne hrp
  set y : X → ℂ := fun x => -(rs x / rp x) with hy
  have cy : ContDiffAt ℝ N y x0 := (sm_div cs cp hrp).neg
  have hy0 : y x0 ≠ 0 := neg_ne_zero.mpr (div_ne_zero hrs hrp)
  have hd0 := e0.2
  rw [deltaRad_of_ne hrs hrp, Option.map_some, Option.some.injEq] at hd0
  change d0 = reflectRad refl (npAngle (σ x0) (y x0) + Real.pi) * (180 / Real.pi) + off x0 at hd0
  have hmem := npAngle_mem (σ x0) (y x0)
  obtain ⟨z, hz⟩ : ∃ z, z = npAngle (σ x0) (y x0) + Real.pi := ⟨_, rfl⟩
  have hdz : d0 - off x0 = reflectRad refl z * (180 / Real.pi) := by rw [hd0, hz]; ring
  rw [hdz] at hd hd'
  have hpos : 0 < reflectRad refl z := pos_of_mul_pos_left hd (by positivity)
  have hlt : reflectRad refl z < if refl then Real.pi else 2 * Real.pi := by
    rw [← lt_div_iff₀ (by positivity)] at hd'
    refine hd'.trans_eq ?_
    cases refl
    · simp; field_simp; norm_num
    · simp
  -- the angle before folding is strictly inside and, if folded, not at 180
  have hin : 0 < z ∧ z < 2 * Real.pi ∧ (refl = true → z ≠ Real.pi) := by
    cases refl
    · simp only [reflectRad, Bool.false_eq_true, if_false] at hpos hlt
      exact ⟨hpos, hlt, fun h => absurd h (by simp)⟩
    · simp only [reflectRad, if_true] at hpos hlt
      split_ifs at hpos hlt with hc
      · exact ⟨by linarith, by linarith, fun _ => hc.ne'⟩
      · exact ⟨hpos, by linarith, fun _ => hlt.ne⟩
  have hslit : y x0 ∈ Complex.slitPlane := by
    rw [Complex.mem_slitPlane_iff_not_le_zero]
    intro hle
    rw [Complex.le_def] at hle
    have hneg : (y x0).re < 0 := lt_of_le_of_ne hle.1 (by
      intro hz
      exact hy0 (Complex.ext hz hle.2))
    have hh : npAngle (σ x0) (y x0) = if σ x0 then Real.pi else -Real.pi := by
      unfold npAngle
      rw [if_pos ⟨hle.2, hneg⟩]
    rw [hh] at hz
    split_ifs at hz <;> linarith [hin.1, hin.2.1]
  have hang : ∀ᶠ x in 𝓝 x0, npAngle (σ x) (y x) = Complex.arg (y x) := by
    filter_upwards [cy.continuousAt.eventually_mem (Complex.isOpen_slitPlane.mem_nhds hslit)] with x hx
    unfold npAngle
    rw [if_neg]
    rintro ⟨i1, i2⟩
    rcases Complex.mem_slitPlane_iff.mp hx with h | h
    · linarith
    · exact h i1
  have carg : ContDiffAt ℝ N (fun x => Complex.arg (y x) + Real.pi) x0 := by
    have : ContDiffAt ℝ N (fun x => (Complex.log (y x)).im) x0 :=
      Complex.imCLM.contDiff.contDiffAt.comp x0 ((contDiffAt_clog hslit).comp x0 cy)
    simp only [Complex.log_im] at this
    exact this.add contDiffAt_const
  have hz0 : Complex.arg (y x0) + Real.pi = z := by rw [hz, hang.self_of_nhds]
  have crefl : ContDiffAt ℝ N (fun x => reflectRad refl (Complex.arg (y x) + Real.pi)) x0 := by
    cases refl
    · simpa only [reflectRad, Bool.false_eq_true, if_false] using carg
    · rcases lt_or_gt_of_ne (hin.2.2 rfl) with hc | hc
      · refine carg.congr_of_eventuallyEq ?_
        filter_upwards [carg.continuousAt.eventually_lt continuousAt_const (by rw [hz0]; exact hc)] with x hx
        simp only [reflectRad, if_true]
        rw [if_neg (not_lt.mpr hx.le)]
      · refine (contDiffAt_const.sub carg (f := fun _ => 2 * Real.pi)).congr_of_eventuallyEq ?_
        filter_upwards [continuousAt_const.eventually_lt carg.continuousAt (by rw [hz0]; exact hc)] with x hx
        simp only [reflectRad, if_true]
        rw [if_pos hx]
  refine ⟨fun x => Real.arctan ‖rp x / rs x‖ * (180 / Real.pi),
    fun x => reflectRad refl (Complex.arg (y x) + Real.pi) * (180 / Real.pi) + off x, ?_, ?_, ?_⟩
  · filter_upwards [ev, ers, erp, hang] with x hx h1 h2 h3
    rw [hx]
    simp only [psiDelta, deltaRad_of_ne h1 h2, psiRad, if_neg h1, Option.map_some]
    rw [← h3]
  · refine ContDiffAt.mul ?_ contDiffAt_const
    exact (ContDiffAt.norm ℝ (sm_div cp cs hrs) (div_ne_zero hrp hrs)).arctan
  · exact (crefl.mul contDiffAt_const).add hoff

end

/-- Non-vacuity: thickness, index and angle of incidence are varied together around a film of 125 nm, index 1.56. -/
theorem film_varies : VariesSmoothly (⊤ : ℕ∞) (fun _ : ℝ × ℝ × ℝ => 1) (fun x => rad x.2.2) (fun _ => 480)
    [(fun x => ((x.2.1 : ℝ) : ℂ), fun x => x.1)] (fun _ => ((15 / 7 : ℝ) : ℂ)) (125, 39 / 25, filmAoi) := by
  have hsin : Real.sin (rad filmAoi) = 3 / 5 := by
    rw [film_rad, Real.sin_arcsin] <;> norm_num
  refine ⟨contDiffAt_const, ?_, contDiffAt_const, ?_, contDiffAt_const, film_physical, ?_, ?_, ?_⟩
  · exact (contDiffAt_snd.comp _ contDiffAt_snd).mul contDiffAt_const
  · intro f hf
    rw [List.mem_singleton] at hf
    subst hf
    exact ⟨Complex.ofRealCLM.contDiff.contDiffAt.comp _ (contDiffAt_fst.comp _ contDiffAt_snd), contDiffAt_fst⟩
  · left
    intro f hf
    rw [List.mem_singleton] at hf
    subst hf
    right; left
    rw [Complex.ofReal_re]
    simp only [hsin]
    rw [abs_of_pos] <;> norm_num
  · right; left
    rw [Complex.ofReal_re]
    simp only [hsin]
    rw [abs_of_pos] <;> norm_num
  · intro f hf m hm
    rw [List.mem_singleton] at hf
    subst hf
    obtain ⟨-, h2, h3⟩ := hm
    simp only [film_sin] at h2 h3
    have h4 : m.c ^ 2 = ((144 / 169 : ℝ) : ℂ) := by rw [h2]; push_cast; norm_num
    have h5 : m.c.im = 0 := by
      have e1 := congrArg Complex.re h4
      have e2 := congrArg Complex.im h4
      rw [Complex.ofReal_re] at e1
      rw [Complex.ofReal_im] at e2
      simp only [sq, Complex.mul_re, Complex.mul_im] at e1 e2
      have e3 : m.c.re * m.c.im = 0 := by linarith
      rcases mul_eq_zero.mp e3 with h | h
      · rw [h] at e1
        nlinarith [mul_self_nonneg m.c.im]
      · exact h
    have h6 : m.c = ((m.c.re : ℝ) : ℂ) := Complex.ext rfl (by simp [h5])
    have h7 : m.δ = ((2 * Real.pi * (39 / 25) * m.c.re * 125 / 480 : ℝ) : ℂ) := by
      rw [h3, h6]; push_cast; rfl
    rw [h7, Complex.ofReal_im]
    norm_num

/-- Non-vacuity beyond the critical angle: the gap of `gap_varies`. -/
example : VariesSmoothly (⊤ : ℕ∞) (fun _ : ℝ × ℝ × ℝ => 2) (fun x => x.2.2) (fun _ => 2 * Real.pi)
    [(fun x => ((x.2.1 : ℝ) : ℂ), fun x => x.1)] (fun _ => ((2 : ℝ) : ℂ)) (1, 1, Real.pi / 4) := by
  refine ⟨contDiffAt_const, contDiffAt_snd.comp _ contDiffAt_snd, contDiffAt_const, ?_, contDiffAt_const,
    gap_varies.physical.self_of_nhds, .inr ⟨gap_varies.physical, gap_varies.films_regular⟩,
    gap_back, ?_⟩
  · simp only [List.mem_singleton, forall_eq]
    exact ⟨Complex.ofRealCLM.contDiff.contDiffAt.comp _ (contDiffAt_fst.comp _ contDiffAt_snd), contDiffAt_fst⟩
  · simp only [List.mem_singleton, forall_eq]
    have hs2 : Real.sqrt 2 ^ 2 = 2 := Real.sq_sqrt (by norm_num)
    have hsp : 0 < Real.sqrt 2 := by positivity
    have hS : ((2 : ℝ) : ℂ) * Complex.sin ((Real.pi / 4 : ℝ) : ℂ) = ((Real.sqrt 2 : ℝ) : ℂ) := by
      rw [← Complex.ofReal_sin, Real.sin_pi_div_four]; push_cast; ring
    rw [hS]
    exact fun m hm => (gap_im _ 1 1 one_pos (by nlinarith) (by nlinarith) (by norm_num) (by norm_num) m hm).ne

example (zs : List Layer → ℝ → ℝ → Bool) : ∃ ψ Δ : ℝ × ℝ × ℝ → ℝ,
    (∀ᶠ x in 𝓝 ((125, 39 / 25, filmAoi) : ℝ × ℝ × ℝ), (deltaPsiTMM zs [x.2.2]
      [⟨0, some 1, 0, 0⟩, ⟨10 * x.1, some ((x.2.1 : ℝ) : ℂ), 0, 0⟩, ⟨0, some ((15 / 7 : ℝ) : ℂ), 0, 0⟩] 480 0 false).1 =
        .ok [(some (ψ x), some (Δ x))]) ∧
    ContDiffAt ℝ (⊤ : ℕ∞) ψ (125, 39 / 25, filmAoi) ∧ ContDiffAt ℝ (⊤ : ℕ∞) Δ (125, 39 / 25, filmAoi) := by
  obtain ⟨ψ, Δ, h1, h2, h⟩ := film_delta zs
  have h0 := (h 0).1
  refine C138_psi_delta (N := ⊤) (a := fun x : ℝ × ℝ × ℝ => x.2.2) (wav := fun _ => 480) (off := fun _ => 0)
    (rows := fun x => [⟨0, some 1, 0, 0⟩, ⟨10 * x.1, some ((x.2.1 : ℝ) : ℂ), 0, 0⟩,
      ⟨0, some ((15 / 7 : ℝ) : ℂ), 0, 0⟩]) film_varies contDiffAt_const ?_ zs false (p0 := ψ) (d0 := Δ + 0) ?_ ?_ ?_
  · intro x
    exact ⟨_, [_], _, 1, rfl, rfl, by simp [stackAt], .cons ⟨rfl, rfl⟩ .nil, rfl⟩
  · rw [← h0]
    simp only [filmRows]
    norm_num
  · linarith
  · simp; linarith

end Verif.TMM
