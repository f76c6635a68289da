import Verif.TMM.PropsBare

/-! # Total reflection (C145) -/

namespace Verif.TMM

open Complex (I)
open scoped ComplexConjugate

/-- Fresnel's phase difference at total reflection, in degrees:
`tan(δ/2) = cos a sqrt(sin² a - n²) / sin² a` with the relative index `n` (Born & Wolf, eq. 1.5.61). -/
noncomputable def fresnelPhase (n a : ℝ) : ℝ :=
  2 * Real.arctan (Real.cos a * Real.sqrt (Real.sin a ^ 2 - n ^ 2) / Real.sin a ^ 2) * (180 / Real.pi)

theorem Physical.total {st : Stack} {n₀ θ lam nb : ℝ} (h : Physical st n₀ θ lam) (hl : ∀ f ∈ st.films, f.1.im = 0)
    (hb : st.back = (nb : ℂ)) (ht : nb ≤ |n₀ * Real.sin θ|) {pol : Pol} {r t : ℂ}
    (hs : solveSt pol st θ lam = some (r, t)) : ‖r‖ = 1 := by
  have hp := h.power_eq hl hs
  have hnb : 0 < nb := by have := h.back.1; rwa [hb, Complex.ofReal_re] at this
  have hk : (kap pol (backM st θ)).re = 0 := by
    obtain ⟨A, hA, hre, him⟩ := kap_bound h.back_dir pol
    have en : (backM st θ).n = nb := hb
    rw [en] at hre
    have : (qOf (n₀ * Real.sin θ) (nb : ℂ)).re = 0 := by
      rcases ht.lt_or_eq with ht | ht
      · rcases lt_abs.mp ht with h' | h'
        · rw [qOf_transparent_above hnb h']; simp
        · rw [qOf_transparent_below_neg hnb (by linarith)]; simp
      · rw [qOf_transparent_below hnb ht.ge]
        have : nb ^ 2 - (n₀ * Real.sin θ) ^ 2 = 0 := by rw [← sq_abs (n₀ * Real.sin θ), ← ht, sub_self]
        rw [this]; simp
    rw [hre, this]; simp
  rw [hk, zero_mul] at hp
  have h1 : ‖r‖ ^ 2 = 1 := by
    have := (mul_eq_zero.mp hp.symm).resolve_left (mul_pos h.n₀_pos h.cos_pos).ne'
    linarith
  exact (pow_eq_one_iff_of_nonneg (norm_nonneg r) (by norm_num)).mp h1

/-- C145: transparent films on a transparent backing medium at or beyond its critical angle reflect everything, in
both polarisations, so psi is 45 degrees and delta has a value. -/
theorem C145_psi {rows : List Row} {st : Stack} (hr : RowsOf rows st) {n₀ a wav nb : ℝ}
    (h : Physical st n₀ (rad a) wav) (hl : ∀ f ∈ st.films, f.1.im = 0) (hb : st.back = (nb : ℂ))
    (ht : nb ≤ |n₀ * Real.sin (rad a)|) (zs : List Layer → ℝ → ℝ → Bool) (off : ℝ) (refl : Bool) :
    ∃ am rs ts rp tp, cohTmm (st.layers .inf .inf) [((rad a : ℝ), wav)] = .ok [am] ∧
      am.of .s = some (rs, ts) ∧ am.of .p = some (rp, tp) ∧ ‖rs‖ = 1 ∧ ‖rp‖ = 1 ∧
      ∃ Δ, (deltaPsiTMM zs [a] rows wav off refl).1 = .ok [(some 45, some Δ)] := by
  have hpi := Real.pi_pos
  obtain ⟨rs, ts, h1⟩ := h.solved .s
  obtain ⟨rp, tp, h2⟩ := h.solved .p
  have n1 := h.total hl hb ht h1
  have n2 := h.total hl hb ht h2
  have hrs : rs ≠ 0 := by rintro rfl; simp at n1
  have hrp : rp ≠ 0 := by rintro rfl; simp at n2
  refine ⟨_, rs, ts, rp, tp, coh_real h.front h.nz h.lam_pos.ne' _ _, h1, h2, n1, n2, ?_⟩
  rw [deltaPsi_rows hr h.nz h.lam_pos.ne']
  simp only [List.map_cons, List.map_nil, h1, h2, psiDelta, psiRad, if_neg hrs, norm_div, n1, n2, div_one,
    Real.arctan_one, Option.map_some, deltaRad, cdiv_of_ne hrs, Option.bind_eq_bind, Option.bind_some,
    cdiv_of_ne (div_ne_zero (neg_ne_zero.mpr hrp) hrs)]
  have h45 : Real.pi / 4 * (180 / Real.pi) = 45 := by field_simp; norm_num
  rw [h45]
  exact ⟨_, rfl⟩

/-- Beyond the critical angle the ratio of the amplitudes of the code is `exp(i δ)` with Fresnel's `δ`. -/
theorem total_ratio {n₀ nb a wav : ℝ} (h : Physical ⟨(n₀ : ℂ), [], (nb : ℂ)⟩ n₀ (rad a) wav)
    (ht : nb < n₀ * Real.sin (rad a)) :
    0 < fresnelPhase (nb / n₀) (rad a) ∧ fresnelPhase (nb / n₀) (rad a) < 180 ∧
    ∃ rs ts rp tp, solveSt .s ⟨(n₀ : ℂ), [], (nb : ℂ)⟩ (rad a : ℝ) wav = some (rs, ts) ∧
      solveSt .p ⟨(n₀ : ℂ), [], (nb : ℂ)⟩ (rad a : ℝ) wav = some (rp, tp) ∧ rs ≠ 0 ∧
      rp = rs * Complex.exp ((rad (fresnelPhase (nb / n₀) (rad a)) : ℝ) * I) := by
  have hpi := Real.pi_pos
  obtain ⟨rs, ts, rp, tp, h1, h2, hd1, hd2, e1, e2⟩ := bare_amps h
  have hnb : 0 < nb := by simpa using h.back.1
  have hn0 := h.n₀_pos
  have hc := h.cos_pos
  rw [qOf_transparent_above hnb ht] at hd1 hd2 e1 e2
  have hs : 0 < Real.sin (rad a) := by
    by_contra hcon
    push Not at hcon
    nlinarith
  have hγ : Real.sqrt ((n₀ * Real.sin (rad a)) ^ 2 - nb ^ 2) =
      n₀ * Real.sqrt (Real.sin (rad a) ^ 2 - (nb / n₀) ^ 2) := by
    have : (n₀ * Real.sin (rad a)) ^ 2 - nb ^ 2 = n₀ ^ 2 * (Real.sin (rad a) ^ 2 - (nb / n₀) ^ 2) := by
      field_simp
    rw [this, Real.sqrt_mul (sq_nonneg _), Real.sqrt_sq hn0.le]
  have hg : 0 < Real.sqrt (Real.sin (rad a) ^ 2 - (nb / n₀) ^ 2) := by
    apply Real.sqrt_pos.mpr
    have : nb / n₀ < Real.sin (rad a) := by rw [div_lt_iff₀ hn0]; linarith
    have : 0 < nb / n₀ := div_pos hnb hn0
    nlinarith
  rw [hγ] at hd1 hd2 e1 e2
  unfold fresnelPhase
  obtain ⟨g, hgd⟩ : ∃ g, g = Real.sqrt (Real.sin (rad a) ^ 2 - (nb / n₀) ^ 2) := ⟨_, rfl⟩
  rw [← hgd] at hg hd1 hd2 e1 e2 ⊢
  obtain ⟨X, hX⟩ : ∃ X, X = Real.cos (rad a) * g / Real.sin (rad a) ^ 2 := ⟨_, rfl⟩
  rw [← hX]
  have hXpos : 0 < X := by rw [hX]; positivity
  have a1 := Real.arctan_pos.mpr hXpos
  have a2 := Real.arctan_lt_pi_div_two X
  have hrad : rad (2 * Real.arctan X * (180 / Real.pi)) = 2 * Real.arctan X := by
    unfold rad; field_simp
  have hrs : rs ≠ 0 := by
    rintro rfl
    rw [zero_mul] at e1
    have := congrArg Complex.re e1
    simp at this
    rcases this with h' | h'
    · exact hn0.ne' h'
    · rw [← Complex.ofReal_cos, Complex.ofReal_re] at h'
      exact hc.ne' h'
  refine ⟨by positivity, ?_, rs, ts, rp, tp, h1, h2, hrs, ?_⟩
  · have : 2 * Real.arctan X * (180 / Real.pi) < 2 * (Real.pi / 2) * (180 / Real.pi) := by gcongr
    calc _ < _ := this
      _ = 180 := by field_simp
  · rw [hrad]
    -- exp(2 i arctan X) = (1 + i X) / (1 - i X)
    have hne : (1 : ℂ) - X * I ≠ 0 := by
      intro hz
      have := congrArg Complex.re hz
      simp at this
    have hexp : Complex.exp (((2 * Real.arctan X : ℝ) : ℂ) * I) = (1 + X * I) / (1 - X * I) := by
      have hcos : Real.cos (Real.arctan X) ≠ 0 := (Real.cos_arctan_pos X).ne'
      have htan : Real.sin (Real.arctan X) = X * Real.cos (Real.arctan X) := by
        have := Real.tan_arctan X
        rw [Real.tan_eq_sin_div_cos, div_eq_iff hcos] at this
        exact this
      have htr := Real.sin_sq_add_cos_sq (Real.arctan X)
      rw [eq_div_iff hne]
      have e : Complex.exp (((2 * Real.arctan X : ℝ) : ℂ) * I) =
          ((Real.cos (Real.arctan X) : ℝ) + (Real.sin (Real.arctan X) : ℝ) * I) ^ 2 := by
        rw [Complex.ofReal_cos, Complex.ofReal_sin, ← Complex.exp_mul_I, ← Complex.exp_nat_mul]
        congr 1
        push_cast; ring
      rw [e, htan]
      rw [htan] at htr
      have htr' : ((Real.cos (Real.arctan X) : ℝ) : ℂ) ^ 2 * (1 + X ^ 2) = 1 := by
        have : Real.cos (Real.arctan X) ^ 2 * (1 + X ^ 2) = 1 := by linarith
        exact_mod_cast this
      push_cast at htr' ⊢
      linear_combination (1 + (X : ℂ) * I) * htr' -
        (((Complex.cos (Complex.ofReal (Real.arctan X)))) ^ 2 * (1 + (X : ℂ) * I) * X ^ 2) * Complex.I_sq
    rw [hexp, mul_div_assoc', eq_div_iff hne]
    have hS : (n₀ * Real.sin (rad a) : ℝ) ≠ 0 := (mul_pos hn0 hs).ne'
    have hSC : (((n₀ * Real.sin (rad a) : ℝ) : ℂ)) ^ 2 ≠ 0 := pow_ne_zero 2 (Complex.ofReal_ne_zero.mpr hS)
    have hXS : (X : ℂ) * (((n₀ * Real.sin (rad a) : ℝ) : ℂ)) ^ 2 = ((n₀ * Real.cos (rad a) : ℝ) : ℂ) * ((n₀ * g : ℝ) : ℂ) := by
      have : X * (n₀ * Real.sin (rad a)) ^ 2 = n₀ * Real.cos (rad a) * (n₀ * g) := by
        rw [hX]; field_simp
      exact_mod_cast this
    apply mul_right_cancel₀ hSC
    generalize ((n₀ * Real.sin (rad a) : ℝ) : ℂ) = S at *
    generalize ((n₀ * Real.cos (rad a) : ℝ) : ℂ) = C at *
    generalize ((n₀ * g : ℝ) : ℂ) = G at *
    linear_combination e2 - (rp + rs) * I * hXS

theorem psiDelta_total {σ refl : Bool} {off δ : ℝ} {rs ts rp tp : ℂ} (hrs : rs ≠ 0) (h0 : 0 < δ) (h1 : δ < 180)
    (h : rp = rs * Complex.exp ((rad δ : ℝ) * I)) :
    psiDelta σ refl off ⟨some (rs, ts), some (rp, tp)⟩ = (some 45, some ((if refl then δ else 360 - δ) + off)) := by
  have hpi := Real.pi_pos
  have hr0 : 0 < rad δ := by unfold rad; positivity
  have hr1 : rad δ < Real.pi := by
    unfold rad
    rw [show δ * (Real.pi / 180) = δ / 180 * Real.pi by ring]
    have : δ / 180 < 1 := by linarith
    nlinarith
  have hq : rp / rs = Complex.exp ((rad δ : ℝ) * I) := by rw [h]; field_simp
  have hw : 1 / (-rp / rs) = Complex.exp (((Real.pi - rad δ : ℝ) : ℂ) * I) := by
    rw [neg_div, hq]
    push_cast
    rw [sub_mul, Complex.exp_sub, Complex.exp_pi_mul_I]
    have := Complex.exp_ne_zero ((rad δ : ℂ) * I)
    field_simp
  have hrp : rp ≠ 0 := by rw [h]; exact mul_ne_zero hrs (Complex.exp_ne_zero _)
  have harg : npAngle σ (Complex.exp (((Real.pi - rad δ : ℝ) : ℂ) * I)) = Real.pi - rad δ := by
    have him : (Complex.exp (((Real.pi - rad δ : ℝ) : ℂ) * I)).im ≠ 0 := by
      rw [Complex.exp_ofReal_mul_I_im]
      exact (Real.sin_pos_of_pos_of_lt_pi (by linarith) (by linarith)).ne'
    unfold npAngle
    rw [if_neg (fun hc => him hc.1), Complex.arg_exp_mul_I, toIocMod_eq_self]
    constructor <;> linarith
  have h45 : Real.pi / 4 * (180 / Real.pi) = 45 := by field_simp; norm_num
  have hδ : rad δ * (180 / Real.pi) = δ := by unfold rad; field_simp
  simp only [psiDelta, psiRad, if_neg hrs, hq, Complex.norm_exp_ofReal_mul_I, Real.arctan_one, Option.map_some, h45,
    deltaRad, cdiv_of_ne hrs, Option.bind_eq_bind, Option.bind_some,
    cdiv_of_ne (div_ne_zero (neg_ne_zero.mpr hrp) hrs), hw, harg, reflectRad]
  cases refl
  · simp only [Bool.false_eq_true, if_false]
    congr 3
    calc _ = 2 * Real.pi * (180 / Real.pi) - rad δ * (180 / Real.pi) := by ring
      _ = _ := by rw [hδ]; field_simp; norm_num
  · simp only [if_true]
    rw [if_pos (by linarith)]
    congr 3
    calc _ = rad δ * (180 / Real.pi) := by ring
      _ = δ := hδ

/-- C145, partial: beyond the critical angle of a bare interface delta, folded onto [0, 180], is Fresnel's phase
difference.  Missing: delta that is not folded (`C145_fails_phase`). -/
theorem C145_phase_partial {rows : List Row} {n₀ nb a wav : ℝ} (hr : RowsOf rows ⟨(n₀ : ℂ), [], (nb : ℂ)⟩)
    (h : Physical ⟨(n₀ : ℂ), [], (nb : ℂ)⟩ n₀ (rad a) wav) (ht : nb < n₀ * Real.sin (rad a))
    (zs : List Layer → ℝ → ℝ → Bool) (off : ℝ) :
    (deltaPsiTMM zs [a] rows wav off true).1 = .ok [(some 45, some (fresnelPhase (nb / n₀) (rad a) + off))] := by
  obtain ⟨p0, p1, rs, ts, rp, tp, h1, h2, hrs, hρ⟩ := total_ratio h ht
  rw [deltaPsi_rows hr h.nz h.lam_pos.ne']
  simp only [List.map_cons, List.map_nil, h1, h2]
  rw [psiDelta_total hrs p0 p1 hρ]
  simp

/-- C145 is false of the code for delta that is not folded: at every angle beyond the critical angle of a bare
interface `Delta_Psi_TMM` returns 360 - δ, whereas the solution of Maxwell's equations whose wave decays in the
backing medium has `r_p = r_s exp(-i δ)`, that is (C14) delta = δ, between 0 and 180 degrees. -/
theorem C145_fails_phase {rows : List Row} {n₀ nb a wav : ℝ} (hr : RowsOf rows ⟨(n₀ : ℂ), [], (nb : ℂ)⟩)
    (h : Physical ⟨(n₀ : ℂ), [], (nb : ℂ)⟩ n₀ (rad a) wav) (ht : nb < n₀ * Real.sin (rad a))
    (zs : List Layer → ℝ → ℝ → Bool) (off : ℝ) :
    let δ := fresnelPhase (nb / n₀) (rad a)
    (deltaPsiTMM zs [a] rows wav off false).1 = .ok [(some 45, some (360 - δ + off))] ∧ 0 < δ ∧ δ < 180 ∧
    ∀ {cb rs ts rp tp : ℂ}, cb ^ 2 = 1 - ((n₀ : ℂ) * Complex.sin (rad a : ℝ) / (nb : ℂ)) ^ 2 → Outgoing nb cb →
      Solves .s ⟨(n₀ : ℂ), [], (nb : ℂ)⟩ (rad a) [] cb rs ts → Solves .p ⟨(n₀ : ℂ), [], (nb : ℂ)⟩ (rad a) [] cb rp tp →
      rp = rs * Complex.exp (-(I * (rad δ : ℝ))) := by
  intro δ
  obtain ⟨p0, p1, rs, ts, rp, tp, h1, h2, hrs, hρ⟩ := total_ratio h ht
  refine ⟨?_, p0, p1, ?_⟩
  · rw [deltaPsi_rows hr h.nz h.lam_pos.ne']
    simp only [List.map_cons, List.map_nil, h1, h2]
    rw [psiDelta_total hrs p0 p1 hρ]
    simp [δ]
  · intro cb rs' ts' rp' tp' hcb hout hs hp
    have hnb : 0 < nb := by simpa using h.back.1
    have ha := coh_real h.front h.nz h.lam_pos.ne' (θ := rad a) .inf .inf
    have g1 := (C12_growing_wave h.n₀_pos hnb h.angle h.lam_pos.ne' ht ha (pol := .s) h1 hcb hout hs).1
    have g2 := (C12_growing_wave h.n₀_pos hnb h.angle h.lam_pos.ne' ht ha (pol := .p) h2 hcb hout hp).1
    rw [g1, g2] at hρ
    have := congrArg conj hρ
    rw [map_mul, Complex.conj_conj, Complex.conj_conj, ← Complex.exp_conj] at this
    rw [this]
    congr 2
    simp [δ]
    ring

/-- Glass against air at 60 degrees. -/
example : Physical ⟨((3 / 2 : ℝ) : ℂ), [], ((1 : ℝ) : ℂ)⟩ (3 / 2) (rad 60) 500 ∧ (1 : ℝ) < 3 / 2 * Real.sin (rad 60) := by
  have h60 : rad 60 = Real.pi / 3 := by unfold rad; ring
  have hpi := Real.pi_pos
  refine ⟨physical_bare ⟨by norm_num, by norm_num⟩ (by norm_num) ?_ (by norm_num), ?_⟩
  · rw [h60, abs_of_pos (by positivity)]; linarith
  · rw [h60, Real.sin_pi_div_three]
    have : (1.7 : ℝ) < Real.sqrt 3 := by rw [Real.lt_sqrt] <;> norm_num
    linarith

/-- A transparent film between them. -/
example : Physical ⟨((3 / 2 : ℝ) : ℂ), [((2 : ℝ), 100)], ((1 : ℝ) : ℂ)⟩ (3 / 2) (rad 60) 500 := by
  have h60 : rad 60 = Real.pi / 3 := by unfold rad; ring
  have hpi := Real.pi_pos
  have hs2 : (((3 / 2 : ℝ) : ℂ) * Complex.sin (rad 60 : ℝ)) ^ 2 = ((27 / 16 : ℝ) : ℂ) := by
    rw [h60, ← Complex.ofReal_sin, Real.sin_pi_div_three, ← Complex.ofReal_mul, ← Complex.ofReal_pow]
    congr 1
    rw [mul_pow, div_pow (Real.sqrt 3), Real.sq_sqrt (by norm_num)]
    norm_num
  refine ⟨rfl, by norm_num, ?_, by norm_num, ?_, ⟨by norm_num, by norm_num⟩, ?_, ?_⟩
  · rw [h60, abs_of_pos (by positivity)]; linarith
  · simp [PassiveIndex]
  · simp only [List.mem_singleton, forall_eq]
    rw [hs2, ← Complex.ofReal_pow]
    norm_num
  · simp only [List.mem_singleton, forall_eq]
    rintro m ⟨-, hc, hδ⟩
    rw [div_pow, hs2, ← Complex.ofReal_pow, ← Complex.ofReal_div, ← Complex.ofReal_one, ← Complex.ofReal_sub] at hc
    have e1 := congrArg Complex.re hc
    have e2 := congrArg Complex.im hc
    simp only [sq, Complex.mul_re, Complex.mul_im, Complex.ofReal_re, Complex.ofReal_im] at e1 e2
    have him : m.c.im = 0 := by
      have : m.c.re * m.c.im = 0 := by linarith
      rcases mul_eq_zero.mp this with h' | h'
      · rw [h'] at e1; nlinarith [mul_self_nonneg m.c.im]
      · exact h'
    have hcr : m.c = (m.c.re : ℂ) := Complex.ext (by simp) (by simp [him])
    have : m.δ = ((2 * Real.pi * 2 * m.c.re * 100 / 500 : ℝ) : ℂ) := by
      rw [hδ, hcr]; push_cast; simp
    rw [this, Complex.ofReal_im]
    exact (Real.sinh_pos_iff.mpr (by norm_num)).le

end Verif.TMM
