import Verif.TMM.PropsThick
import Verif.TMM.PropsBare
import Verif.TMM.ExFilm

/-!
# C131: reading the thickness of a transparent film from psi and delta
-/

namespace Verif.TMM
open Complex (I)
open scoped ComplexConjugate

/-- The stack of one film. -/
noncomputable def oneFilm (n₀ n : ℝ) (nb : ℂ) (d : ℝ) : Stack := ⟨(n₀ : ℂ), [((n : ℂ), d)], nb⟩

/-- The interference period of a transparent film: `λ / (2 n cos θ')`. -/
noncomputable def period (n₀ n θ lam : ℝ) : ℝ := lam / (2 * Real.sqrt (n ^ 2 - (n₀ * Real.sin θ) ^ 2))

/-- Three different numbers are not all roots of a quadratic polynomial that is not zero. -/
theorem quad_roots {A B C x y z : ℂ} (hx : A * x ^ 2 + B * x + C = 0) (hy : A * y ^ 2 + B * y + C = 0)
    (hz : A * z ^ 2 + B * z + C = 0) (h1 : x ≠ y) (h2 : x ≠ z) (h3 : y ≠ z) : A = 0 ∧ B = 0 ∧ C = 0 := by
  have e1 : (x - y) * (A * (x + y) + B) = 0 := by linear_combination hx - hy
  have e2 : (x - z) * (A * (x + z) + B) = 0 := by linear_combination hx - hz
  have f1 := (mul_eq_zero.mp e1).resolve_left (sub_ne_zero.mpr h1)
  have f2 := (mul_eq_zero.mp e2).resolve_left (sub_ne_zero.mpr h2)
  have e3 : (y - z) * A = 0 := by linear_combination f1 - f2
  have hA := (mul_eq_zero.mp e3).resolve_left (sub_ne_zero.mpr h3)
  subst hA
  have hB : B = 0 := by linear_combination f1
  subst hB
  exact ⟨rfl, rfl, by linear_combination hx⟩

/-- The quadratic equation for `exp(2 i δ)`. -/
theorem quad_of_airy {p1 p2 s1 s2 E ρ rs rp : ℂ} (hs : rs = (s1 + s2 * E) / (1 + s1 * s2 * E))
    (hp : rp = (p1 + p2 * E) / (1 + p1 * p2 * E)) (hrs : rs ≠ 0) (hrp : rp ≠ 0) (hρ : rp = rs * ρ) :
    (s2 * p2 * (s1 - ρ * p1)) * E ^ 2 + (s2 * (p1 * s1 - ρ) + p2 * (1 - ρ * p1 * s1)) * E + (p1 - ρ * s1) = 0 := by
  have d1 : 1 + s1 * s2 * E ≠ 0 := by
    intro h; rw [h, div_zero] at hs; exact hrs hs
  have d2 : 1 + p1 * p2 * E ≠ 0 := by
    intro h; rw [h, div_zero] at hp; exact hrp hp
  rw [eq_div_iff d1] at hs
  rw [eq_div_iff d2] at hp
  have : (p1 + p2 * E) * (1 + s1 * s2 * E) = ρ * ((1 + p1 * p2 * E) * (s1 + s2 * E)) := by
    rw [← hs, ← hp, hρ]; ring
  linear_combination this

/-- Equal phase factors belong to thicknesses that differ by whole periods. -/
theorem phase_inj {x y : ℝ}
    (h : Complex.exp (2 * Real.pi * I * x) = Complex.exp (2 * Real.pi * I * y)) :
    ∃ k : ℤ, x = y + k := by
  rw [Complex.exp_eq_exp_iff_exists_int] at h
  obtain ⟨k, hk⟩ := h
  have hpi : (2 * Real.pi * I : ℂ) ≠ 0 := Complex.two_pi_I_ne_zero
  have e : (x : ℂ) = y + k := by
    apply mul_left_cancel₀ hpi
    linear_combination hk
  exact ⟨k, by exact_mod_cast e⟩

/-- The quadratic equation of `quad_of_airy` is not trivial. -/
theorem quad_nontrivial {p1 p2 s1 s2 ρ : ℂ} (hρ : ρ ≠ 0) (h1 : s1 ≠ 0) (h2 : s1 ^ 2 ≠ p1 ^ 2)
    (h3 : s1 ^ 2 ≠ 1) (h4 : s2 ≠ 0) (hA : s2 * p2 * (s1 - ρ * p1) = 0)
    (hB : s2 * (p1 * s1 - ρ) + p2 * (1 - ρ * p1 * s1) = 0) (hC : p1 - ρ * s1 = 0) : False := by
  have e : p1 = ρ * s1 := by linear_combination hC
  subst e
  have hr : 1 - ρ ^ 2 ≠ 0 := by
    intro h; apply h2; linear_combination s1 ^ 2 * h
  have hp2 : p2 = 0 := by
    have : (s2 * s1 * (1 - ρ ^ 2)) * p2 = 0 := by linear_combination hA
    exact (mul_eq_zero.mp this).resolve_left (mul_ne_zero (mul_ne_zero h4 h1) hr)
  subst hp2
  have : (s2 * ρ) * (s1 ^ 2 - 1) = 0 := by linear_combination hB
  rcases mul_eq_zero.mp this with h | h
  · exact mul_ne_zero h4 hρ h
  · exact h3 (by linear_combination h)

/-- The Fresnel coefficients of the first interface. -/
theorem first_interface {n₀ n θ : ℝ} (h0 : 0 < n₀) (hn : 0 < n) (hne : n₀ ≠ n)
    (hθ : |θ| < Real.pi / 2) (hsin : Real.sin θ ≠ 0) (hs : |n₀ * Real.sin θ| < n) :
    let c₁ := root1m ((n₀ : ℂ) * Complex.sin θ / n)
    let rs := fresnelR .s n₀ n (Complex.cos θ) c₁
    let rp := fresnelR .p n₀ n (Complex.cos θ) c₁
    rs ≠ 0 ∧ rs ^ 2 ≠ rp ^ 2 ∧ rs ^ 2 ≠ 1 := by
  intro c₁ rs rp
  have hcos : 0 < Real.cos θ := Real.cos_pos_of_mem_Ioo (abs_lt.mp hθ)
  have hpos : 0 < n ^ 2 - (n₀ * Real.sin θ) ^ 2 := by
    have := sq_lt_sq' (by linarith [abs_nonneg (n₀ * Real.sin θ)] : -n < |n₀ * Real.sin θ|) hs
    rw [sq_abs] at this
    linarith
  have hq := film_transparent hn hs
  have hQ := Real.sqrt_pos.mpr hpos
  have hQ2 := Real.sq_sqrt hpos.le
  have hc : c₁ = root1m (((n₀ * Real.sin θ : ℝ) : ℂ) / n) := by simp only [c₁]; push_cast; rfl
  rw [← hc] at hq
  set Q := Real.sqrt (n ^ 2 - (n₀ * Real.sin θ) ^ 2)
  have hn' : (n : ℂ) ≠ 0 := Complex.ofReal_ne_zero.mpr hn.ne'
  have hc1 : c₁ = ((Q / n : ℝ) : ℂ) := by
    push_cast; rw [← hq]; field_simp
  set a := n₀ * Real.cos θ with ha
  have ha0 : 0 < a := mul_pos h0 hcos
  have htr : a ^ 2 = n₀ ^ 2 - (n₀ * Real.sin θ) ^ 2 := by
    rw [ha]; linear_combination n₀ ^ 2 * Real.sin_sq_add_cos_sq θ
  have hs0 : n₀ * Real.sin θ ≠ 0 := mul_ne_zero h0.ne' hsin
  set s := n₀ * Real.sin θ with hsd
  have hrs : rs = (((a - Q) / (a + Q) : ℝ) : ℂ) := by
    simp only [rs, fresnelR]
    rw [hq]; push_cast; simp only [ha]; push_cast; rfl
  have hrp : rp = (((a - Q) * (s ^ 2 - a * Q) / ((a + Q) * (s ^ 2 + a * Q)) : ℝ) : ℂ) := by
    simp only [rp, fresnelR]
    rw [hc1, ← Complex.ofReal_cos]
    norm_cast
    have d1 : 0 < n * Real.cos θ + n₀ * (Q / n) := by positivity
    have d2 : 0 < (a + Q) * (s ^ 2 + a * Q) := by positivity
    rw [div_eq_div_iff d1.ne' d2.ne']
    have e : Real.cos θ = a / n₀ := by rw [ha]; field_simp
    rw [e]
    have hnn : n ^ 2 = Q ^ 2 + s ^ 2 := by linear_combination -hQ2
    have hnn0 : n₀ ^ 2 = a ^ 2 + s ^ 2 := by linear_combination -htr
    field_simp
    rw [hnn, hnn0]
    ring
  have hd : a + Q ≠ 0 := by positivity
  have haQ : a - Q ≠ 0 := by
    intro h
    have e : a ^ 2 = Q ^ 2 := by rw [show a = Q by linarith]
    rw [htr, hQ2] at e
    apply hne
    have : n₀ ^ 2 = n ^ 2 := by linarith
    exact (sq_eq_sq₀ h0.le hn.le).mp this
  refine ⟨?_, ?_, ?_⟩
  · rw [hrs]; exact Complex.ofReal_ne_zero.mpr (div_ne_zero haQ hd)
  · rw [hrs, hrp]
    norm_cast
    intro h
    have d2 : s ^ 2 + a * Q ≠ 0 := by positivity
    rw [div_pow, div_pow, div_eq_div_iff (by positivity) (by positivity)] at h
    have : (a - Q) ^ 2 * (a + Q) ^ 2 * (4 * s ^ 2 * a * Q) = 0 := by linear_combination h
    exact absurd this (by positivity)
  · rw [hrs]
    norm_cast
    intro h
    rw [div_pow, div_eq_one_iff_eq (by positivity)] at h
    have : 4 * a * Q = 0 := by linear_combination -h
    exact absurd this (by positivity)

/-- An interface between different media reflects s light. -/
theorem second_interface {n : ℝ} {nb : ℂ} (hn : 0 < n) (hb : PassiveIndex nb) (hne : nb ≠ n) (s : ℂ)
    (hd : (n : ℂ) * root1m (s / n) + nb * root1m (s / nb) ≠ 0) :
    fresnelR .s n nb (root1m (s / n)) (root1m (s / nb)) ≠ 0 := by
  simp only [fresnelR]
  refine div_ne_zero ?_ hd
  intro h
  have e : ((n : ℂ) * root1m (s / n)) ^ 2 = (nb * root1m (s / nb)) ^ 2 := by
    rw [sub_eq_zero.mp h]
  have hn' : (n : ℂ) ≠ 0 := Complex.ofReal_ne_zero.mpr hn.ne'
  have hb' := hb.ne_zero
  rw [mul_pow, mul_pow, root1m_sq, root1m_sq] at e
  have e2 : (n : ℂ) ^ 2 = nb ^ 2 := by
    field_simp at e
    linear_combination e
  rcases sq_eq_sq_iff_eq_or_eq_neg.mp e2 with h' | h'
  · exact hne h'.symm
  · have := congrArg Complex.re h'
    have hp := hb.1
    simp only [Complex.ofReal_re, Complex.neg_re] at this
    linarith

theorem rad_lt {a : ℝ} (ha : |a| < 90) : |rad a| < Real.pi / 2 := by
  have hpi := Real.pi_pos
  unfold rad
  rw [abs_lt] at ha ⊢
  constructor
  · have := mul_lt_mul_of_pos_right ha.1 hpi
    linarith
  · have := mul_lt_mul_of_pos_right ha.2 hpi
    linarith

/-- The phase of a transparent film is `π d / P`. -/
theorem film_phase {n₀ n θ d wav : ℝ} (hn : 0 < n) (hs : |n₀ * Real.sin θ| < n) (hw : 0 < wav) :
    2 * Real.pi * n * root1m ((n₀ : ℂ) * Complex.sin θ / n) * d / wav =
      ((Real.pi * (d / period n₀ n θ wav) : ℝ) : ℂ) := by
  have hpos : 0 < n ^ 2 - (n₀ * Real.sin θ) ^ 2 := by
    have := sq_lt_sq' (by linarith [abs_nonneg (n₀ * Real.sin θ)] : -n < |n₀ * Real.sin θ|) hs
    rw [sq_abs] at this
    linarith
  have hQ := Real.sqrt_pos.mpr hpos
  have hq := film_transparent hn hs
  have e1 : (n₀ : ℂ) * Complex.sin θ = ((n₀ * Real.sin θ : ℝ) : ℂ) := by push_cast; rfl
  rw [mul_assoc (2 * (Real.pi : ℂ)), e1, hq]
  norm_cast
  unfold period
  field_simp

theorem film_phase_im {n₀ n θ d wav : ℝ} (hn : 0 < n) (hs : |n₀ * Real.sin θ| < n) (hw : 0 < wav) :
    (2 * Real.pi * n * root1m ((n₀ : ℂ) * Complex.sin θ / n) * d / wav : ℂ).im ≤ 35 := by
  rw [film_phase hn hs hw, Complex.ofReal_im]; norm_num

theorem physical_film {n₀ n : ℝ} {nb : ℂ} {θ wav d : ℝ} (h0 : 0 < n₀) (hn : 0 < n) (hb : PassiveIndex nb)
    (hθ : |θ| < Real.pi / 2) (hw : 0 < wav) (hs : |n₀ * Real.sin θ| < n) (hd : 0 ≤ d) :
    Physical (oneFilm n₀ n nb d) n₀ θ wav := by
  have hz : Physical (oneFilm n₀ n nb 0) n₀ θ wav := by
    refine ⟨rfl, h0, hθ, hw, ?_, hb, ?_, ?_⟩
    · simp [oneFilm, PassiveIndex, hn]
    · intro f hf
      simp only [oneFilm, List.mem_cons, List.not_mem_nil, or_false] at hf
      subst hf
      simp only [oneFilm]
      rw [← Complex.ofReal_sin, ← Complex.ofReal_mul, ← Complex.ofReal_pow, ← Complex.ofReal_pow, Ne,
        Complex.ofReal_inj]
      intro h
      have := sq_lt_sq' (by linarith [abs_nonneg (n₀ * Real.sin θ)] : -n < |n₀ * Real.sin θ|) hs
      rw [sq_abs] at this
      linarith
    · intro f hf m hm
      simp only [oneFilm, List.mem_cons, List.not_mem_nil, or_false] at hf
      subst hf
      obtain ⟨-, -, h3⟩ := hm
      rw [h3]
      simp
  exact Physical.thicken (pre := []) (post := []) hz hs hd

/-- What a measured pair says about the phase factor of the film. -/
theorem film_equation {n₀ n : ℝ} {nb : ℂ} {a wav off d ψ Δ : ℝ} (h0 : 0 < n₀) (hn : 0 < n)
    (hb : PassiveIndex nb) (ha : |rad a| < Real.pi / 2) (hw : 0 < wav) (hs : |n₀ * Real.sin (rad a)| < n)
    {rows : List Row} (hr : RowsOf rows (oneFilm n₀ n nb d)) {zs : List Layer → ℝ → ℝ → Bool}
    (h : (deltaPsiTMM zs [a] rows wav off false).1 = .ok [(some ψ, some Δ)]) :
    let c₁ := root1m ((n₀ : ℂ) * Complex.sin (rad a) / n)
    let c₂ := root1m ((n₀ : ℂ) * Complex.sin (rad a) / nb)
    let s1 := fresnelR .s n₀ n (Complex.cos (rad a)) c₁
    let p1 := fresnelR .p n₀ n (Complex.cos (rad a)) c₁
    let s2 := fresnelR .s n nb c₁ c₂
    let p2 := fresnelR .p n nb c₁ c₂
    let ρ := (Real.tan (rad ψ) : ℂ) * Complex.exp (-(I * (rad (Δ - off) : ℝ)))
    let E := Complex.exp (2 * Real.pi * I * (d / period n₀ n (rad a) wav : ℝ))
    ρ ≠ 0 ∧
    (s2 * p2 * (s1 - ρ * p1)) * E ^ 2 + (s2 * (p1 * s1 - ρ) + p2 * (1 - ρ * p1 * s1)) * E + (p1 - ρ * s1) = 0 := by
  intro c₁ c₂ s1 p1 s2 p2 ρ E
  have h0' : (n₀ : ℂ) ≠ 0 := Complex.ofReal_ne_zero.mpr h0.ne'
  have hn' : (n : ℂ) ≠ 0 := Complex.ofReal_ne_zero.mpr hn.ne'
  have hnz : (oneFilm n₀ n nb d).NZ := ⟨h0', by simpa [oneFilm] using hn', hb.ne_zero⟩
  obtain ⟨am, rs, ts, rp, tp, hc, es, ep, e, -⟩ := C14_encode_ratio hr hnz hw.ne' h
  obtain ⟨am', rs', ts', rp', tp', hc', es', ep', hrs, hrp⟩ :=
    (C14_finite_iff hr hnz hw.ne' zs false).mp ⟨ψ, Δ, h⟩
  rw [hc'] at hc
  simp only [Except.ok.injEq, List.cons.injEq, and_true] at hc
  subst hc
  rw [es'] at es; rw [ep'] at ep
  simp only [Option.some.injEq, Prod.mk.injEq] at es ep
  obtain ⟨rfl, rfl⟩ := es
  obtain ⟨rfl, rfl⟩ := ep
  have hδ := film_phase (d := d) hn hs hw
  have as := airy_code h0' hn' hb.ne_zero ha.le hw.ne' hc' es' (film_phase_im hn hs hw)
  have ap := airy_code h0' hn' hb.ne_zero ha.le hw.ne' hc' ep' (film_phase_im hn hs hw)
  have hE : Complex.exp (2 * I * (2 * Real.pi * n * c₁ * d / wav)) = E := by
    rw [hδ]; simp only [E]; congr 1; push_cast; ring
  have hρ : rp' = rs' * ρ := by rw [e]; simp only [ρ]; ring
  refine ⟨?_, ?_⟩
  · intro hz; rw [hz, mul_zero] at hρ; exact hrp hρ
  · refine quad_of_airy (rs := rs') (rp := rp') ?_ ?_ hrs hrp hρ
    · rw [← hE]; exact as
    · rw [← hE]; exact ap

theorem ratio_turn (Δ off : ℝ) (m : ℤ) :
    Complex.exp (-(I * (rad (Δ + 360 * m - off) : ℝ))) = Complex.exp (-(I * (rad (Δ - off) : ℝ))) := by
  rw [Complex.exp_eq_exp_iff_exists_int]
  refine ⟨-m, ?_⟩
  unfold rad
  push_cast
  ring

/-- C131: at oblique incidence one measured pair (psi, delta), delta up to whole turns, leaves at most two thicknesses
of a transparent film, up to whole interference periods `λ / (2 n cos θ')`. The film must differ from both of its
neighbours; the substrate may absorb. -/
theorem C131_two_candidates {n₀ n : ℝ} {nb : ℂ} {a wav off : ℝ} (h0 : 0 < n₀) (hn : 0 < n) (hne : n₀ ≠ n)
    (hb : PassiveIndex nb) (hnb : nb ≠ n) (ha : |a| < 90) (ha0 : a ≠ 0) (hw : 0 < wav)
    (hs : |n₀ * Real.sin (rad a)| < n) (zs : List Layer → ℝ → ℝ → Bool) (ψ Δ : ℝ) :
    ∃ d₁ d₂ : ℝ, ∀ d rows (m : ℤ), RowsOf rows (oneFilm n₀ n nb d) →
      (deltaPsiTMM zs [a] rows wav off false).1 = .ok [(some ψ, some (Δ + 360 * m))] →
      ∃ k : ℤ, d = d₁ + k * period n₀ n (rad a) wav ∨ d = d₂ + k * period n₀ n (rad a) wav := by
  classical
  have hpi := Real.pi_pos
  have hθ := rad_lt ha
  have hθ0 : rad a ≠ 0 := by
    unfold rad; positivity
  have hsin : Real.sin (rad a) ≠ 0 := by
    rw [abs_lt] at hθ
    intro h
    exact hθ0 ((Real.sin_eq_zero_iff_of_lt_of_lt (by linarith) (by linarith)).mp h)
  have hpos : 0 < n ^ 2 - (n₀ * Real.sin (rad a)) ^ 2 := by
    have := sq_lt_sq' (by linarith [abs_nonneg (n₀ * Real.sin (rad a))] :
      -n < |n₀ * Real.sin (rad a)|) hs
    rw [sq_abs] at this
    linarith
  have hQ := Real.sqrt_pos.mpr hpos
  have hP : 0 < period n₀ n (rad a) wav := by unfold period; positivity
  set P := period n₀ n (rad a) wav with hPd
  -- candidates
  let Ok : ℝ → Prop := fun d => ∃ (rows : _) (m : ℤ), RowsOf rows (oneFilm n₀ n nb d) ∧
    (deltaPsiTMM zs [a] rows wav off false).1 = .ok [(some ψ, some (Δ + 360 * m))]
  let E : ℝ → ℂ := fun d => Complex.exp (2 * Real.pi * I * (d / P : ℝ))
  have hinj : ∀ x y, E x = E y → ∃ k : ℤ, x = y + k * P := by
    intro x y h
    obtain ⟨k, hk⟩ := phase_inj h
    refine ⟨k, ?_⟩
    field_simp at hk
    linarith
  have three : ∀ x y z, Ok x → Ok y → Ok z → E x = E y ∨ E x = E z ∨ E y = E z := by
    rintro x y z ⟨rx, mx, hrx, hx⟩ ⟨ry, my, hry, hy⟩ ⟨rz, mz, hrz, hz⟩
    by_contra hc
    simp only [not_or] at hc
    obtain ⟨hρ, ex⟩ := film_equation h0 hn hb hθ hw hs hrx hx
    obtain ⟨-, ey⟩ := film_equation h0 hn hb hθ hw hs hry hy
    obtain ⟨-, ez⟩ := film_equation h0 hn hb hθ hw hs hrz hz
    rw [ratio_turn] at hρ ex ey ez
    obtain ⟨hA, hB, hC⟩ := quad_roots ex ey ez hc.1 hc.2.1 hc.2.2
    obtain ⟨f1, f2, f3⟩ := first_interface h0 hn hne hθ hsin hs
    refine quad_nontrivial hρ f1 f2 f3 ?_ hA hB hC
    refine second_interface hn hb hnb _ ?_
    have e : (n₀ : ℂ) * Complex.sin (rad a) = ((n₀ * Real.sin (rad a) : ℝ) : ℂ) := by push_cast; rfl
    rw [e, film_transparent hn hs]
    have hre := (qOf_fwd hb (n₀ * Real.sin (rad a))).re_nonneg
    intro hz
    have := congrArg Complex.re hz
    simp only [Complex.add_re, Complex.ofReal_re, Complex.zero_re] at this
    have hre' : 0 ≤ (nb * root1m (((n₀ * Real.sin (rad a) : ℝ) : ℂ) / nb)).re := hre
    linarith
  by_cases h1 : ∃ d₁, Ok d₁
  · obtain ⟨d₁, o1⟩ := h1
    by_cases h2 : ∃ d₂, Ok d₂ ∧ E d₂ ≠ E d₁
    · obtain ⟨d₂, o2, n2⟩ := h2
      refine ⟨d₁, d₂, fun d rows m hr h => ?_⟩
      rcases three d d₁ d₂ ⟨rows, m, hr, h⟩ o1 o2 with e | e | e
      · obtain ⟨k, hk⟩ := hinj _ _ e; exact ⟨k, .inl hk⟩
      · obtain ⟨k, hk⟩ := hinj _ _ e; exact ⟨k, .inr hk⟩
      · exact absurd e.symm n2
    · refine ⟨d₁, d₁, fun d rows m hr h => ?_⟩
      have e : E d = E d₁ := by
        by_contra hc
        exact h2 ⟨d, ⟨rows, m, hr, h⟩, hc⟩
      obtain ⟨k, hk⟩ := hinj _ _ e
      exact ⟨k, .inl hk⟩
  · exact ⟨0, 0, fun d rows m hr h => absurd ⟨d, rows, m, hr, h⟩ h1⟩

/-- C131 with delta folded onto `[0, 180]` (`reflect_delta`): at most four thicknesses up to whole periods. -/
theorem C131_four_candidates {n₀ n : ℝ} {nb : ℂ} {a wav off : ℝ} (h0 : 0 < n₀) (hn : 0 < n) (hne : n₀ ≠ n)
    (hb : PassiveIndex nb) (hnb : nb ≠ n) (ha : |a| < 90) (ha0 : a ≠ 0) (hw : 0 < wav)
    (hs : |n₀ * Real.sin (rad a)| < n) (zs : List Layer → ℝ → ℝ → Bool) (ψ Δ : ℝ) :
    ∃ ds : List ℝ, ds.length = 4 ∧ ∀ d rows (m : ℤ), RowsOf rows (oneFilm n₀ n nb d) →
      (deltaPsiTMM zs [a] rows wav off true).1 = .ok [(some ψ, some (Δ + 360 * m))] →
      ∃ d' ∈ ds, ∃ k : ℤ, d = d' + k * period n₀ n (rad a) wav := by
  obtain ⟨d₁, d₂, h12⟩ := C131_two_candidates (off := off) h0 hn hne hb hnb ha ha0 hw hs zs ψ Δ
  obtain ⟨d₃, d₄, h34⟩ := C131_two_candidates (off := off) h0 hn hne hb hnb ha ha0 hw hs zs ψ
    (360 - (Δ - off) + off)
  refine ⟨[d₁, d₂, d₃, d₄], rfl, fun d rows m hr h => ?_⟩
  have h0' : (n₀ : ℂ) ≠ 0 := Complex.ofReal_ne_zero.mpr h0.ne'
  have hn' : (n : ℂ) ≠ 0 := Complex.ofReal_ne_zero.mpr hn.ne'
  have hnz : (oneFilm n₀ n nb d).NZ := ⟨h0', by simpa [oneFilm] using hn', hb.ne_zero⟩
  obtain ⟨ψ', Δ', h'⟩ := (C14_finite_iff (off := off) hr hnz hw.ne' zs false).mpr
    ((C14_finite_iff hr hnz hw.ne' zs true).mp ⟨ψ, _, h⟩)
  have h2 := (C15_reflect h').1
  rw [h] at h2
  injection h2 with h2
  simp only [List.map_cons, List.map_nil, Option.map_some, List.cons.injEq, Prod.mk.injEq, Option.some.injEq, and_true] at h2
  obtain ⟨rfl, e⟩ := h2
  rcases min_choice (Δ' - off) (360 - (Δ' - off)) with hm | hm
  · have : Δ' = Δ + 360 * m := by rw [e, hm]; ring
    rw [this] at h'
    obtain ⟨k, hk | hk⟩ := h12 d rows m hr h'
    · exact ⟨d₁, by simp, k, hk⟩
    · exact ⟨d₂, by simp, k, hk⟩
  · have : Δ' = 360 - (Δ - off) + off + 360 * ((-m : ℤ) : ℝ) := by
      rw [hm] at e
      push_cast
      linarith
    rw [this] at h'
    obtain ⟨k, hk | hk⟩ := h34 d rows (-m) hr h'
    · exact ⟨d₃, by simp, k, hk⟩
    · exact ⟨d₄, by simp, k, hk⟩

/-- Conjugate amplitudes give the same psi and the same folded delta. -/
theorem psiDelta_conj (σ σ' : Bool) (off : ℝ) {rs rp ts tp ts' tp' : ℂ} :
    psiDelta σ true off ⟨some (conj rs, ts), some (conj rp, tp)⟩ =
      psiDelta σ' true off ⟨some (rs, ts'), some (rp, tp')⟩ := by
  have hpi := Real.pi_pos
  have ang : ∀ z : ℂ, reflectRad true (npAngle σ (conj z) + Real.pi) = reflectRad true (npAngle σ' z + Real.pi) := by
    intro z
    by_cases hz : z.im = 0 ∧ z.re < 0
    · have hz' : (conj z).im = 0 ∧ (conj z).re < 0 := by simpa using hz
      unfold npAngle
      rw [if_pos hz, if_pos hz']
      have key : ∀ τ : Bool, reflectRad true ((if τ then Real.pi else -Real.pi) + Real.pi) = 0 := by
        intro τ
        cases τ
        · simp [reflectRad, hpi.le]
        · simp [reflectRad, hpi]; ring
      rw [key, key]
    · have hz' : ¬ ((conj z).im = 0 ∧ (conj z).re < 0) := by simpa using hz
      unfold npAngle
      rw [if_neg hz, if_neg hz', Complex.arg_conj]
      have : z.arg ≠ Real.pi := by
        intro h
        rw [Complex.arg_eq_pi_iff] at h
        exact hz ⟨h.2, h.1⟩
      rw [if_neg this]
      simp only [reflectRad, if_true]
      split_ifs with h1 h2 h2 <;> linarith
  simp only [psiDelta, Prod.mk.injEq]
  constructor
  · congr 1
    unfold psiRad
    simp only [map_eq_zero, ← map_div₀, RCLike.norm_conj]
  · by_cases h1 : rs = 0
    · subst h1; simp [deltaRad, cdiv]
    · by_cases h2 : rp = 0
      · subst h2
        have c1 : conj rs ≠ 0 := by simpa using h1
        simp [deltaRad, cdiv, if_neg h1]
      · have c1 : conj rs ≠ 0 := by simpa using h1
        have c2 : -rp / rs ≠ 0 := div_ne_zero (neg_ne_zero.mpr h2) h1
        have c3 : -conj rp / conj rs ≠ 0 := div_ne_zero (neg_ne_zero.mpr (by simpa using h2)) c1
        have e : (1 : ℂ) / (-conj rp / conj rs) = conj (1 / (-rp / rs)) := by simp
        simp only [deltaRad, cdiv_of_ne h1, cdiv_of_ne c1, cdiv_of_ne c2, cdiv_of_ne c3, Option.bind_eq_bind,
          Option.bind_some, Option.map_some, e, ang]

/-- Real Fresnel coefficients. -/
theorem fresnelR_ofReal (pol : Pol) (n n' c c' : ℝ) :
    ∃ x : ℝ, fresnelR pol n n' c c' = (x : ℂ) := by
  cases pol
  · exact ⟨(n * c - n' * c') / (n * c + n' * c'), by simp [fresnelR]⟩
  · exact ⟨(n' * c - n * c') / (n' * c + n * c'), by simp [fresnelR]⟩

theorem root1m_real {n s : ℝ} (hn : 0 < n) (hs : |s| < n) : ∃ x : ℝ, root1m ((s : ℂ) / n) = x := by
  refine ⟨Real.sqrt (1 - (s / n) ^ 2), ?_⟩
  rw [← Complex.ofReal_div, root1m_ofReal_le]
  rw [abs_div, abs_of_pos hn]
  exact (div_le_one hn).mpr hs.le

/-- C131: folding costs information. For a transparent film on a transparent substrate the thicknesses `d` and
`P - d` (`P` the period) give the same psi, and the same delta under `reflect_delta`. -/
theorem C131_folded_alias {n₀ n nb : ℝ} {a wav off d : ℝ} (h0 : 0 < n₀) (hn : 0 < n) (hnb : 0 < nb)
    (ha : |a| < 90) (hw : 0 < wav) (hs : |n₀ * Real.sin (rad a)| < n) (hsb : |n₀ * Real.sin (rad a)| < nb)
    (hd : 0 ≤ d) (hd' : d ≤ period n₀ n (rad a) wav) {rows rows' : List Row}
    (hr : RowsOf rows (oneFilm n₀ n nb d))
    (hr' : RowsOf rows' (oneFilm n₀ n nb (period n₀ n (rad a) wav - d)))
    (zs : List Layer → ℝ → ℝ → Bool) :
    (deltaPsiTMM zs [a] rows wav off true).1 = (deltaPsiTMM zs [a] rows' wav off true).1 := by
  have hθ := rad_lt ha
  have hb : PassiveIndex (nb : ℂ) := ⟨by simpa using hnb, by simp⟩
  have ph := physical_film h0 hn hb hθ hw hs hd
  have ph' := physical_film h0 hn hb hθ hw hs (sub_nonneg.mpr hd')
  rw [deltaPsi_rows hr ph.nz hw.ne', deltaPsi_rows hr' ph'.nz hw.ne']
  simp only [List.map_cons, List.map_nil]
  obtain ⟨rs, ts, h1⟩ := ph.solved .s
  obtain ⟨rp, tp, h2⟩ := ph.solved .p
  obtain ⟨rs', ts', h1'⟩ := ph'.solved .s
  obtain ⟨rp', tp', h2'⟩ := ph'.solved .p
  have key : ∀ (pol : Pol) (r t r' t' : ℂ), solveSt pol (oneFilm n₀ n nb d) (rad a) wav = some (r, t) →
      solveSt pol (oneFilm n₀ n nb (period n₀ n (rad a) wav - d)) (rad a) wav = some (r', t') → r = conj r' := by
    intro pol r t r' t' e e'
    have h0' : (n₀ : ℂ) ≠ 0 := Complex.ofReal_ne_zero.mpr h0.ne'
    have hn' : (n : ℂ) ≠ 0 := Complex.ofReal_ne_zero.mpr hn.ne'
    have hb' : (nb : ℂ) ≠ 0 := Complex.ofReal_ne_zero.mpr hnb.ne'
    have a1 := airy_code h0' hn' hb' hθ.le hw.ne' (coh_real ph.front ph.nz hw.ne' .inf .inf)
      (pol := pol) (by cases pol <;> exact e) (film_phase_im hn hs hw)
    have a2 := airy_code h0' hn' hb' hθ.le hw.ne' (coh_real ph'.front ph'.nz hw.ne' .inf .inf)
      (pol := pol) (by cases pol <;> exact e') (film_phase_im hn hs hw)
    simp only at a1 a2
    rw [film_phase hn hs hw] at a1 a2
    have e1 : (n₀ : ℂ) * Complex.sin (rad a) = ((n₀ * Real.sin (rad a) : ℝ) : ℂ) := by push_cast; rfl
    obtain ⟨c₁, hc₁⟩ := root1m_real hn hs
    obtain ⟨c₂, hc₂⟩ := root1m_real hnb hsb
    rw [e1, hc₁, hc₂, ← Complex.ofReal_cos] at a1 a2
    obtain ⟨x, hx⟩ := fresnelR_ofReal pol n₀ n (Real.cos (rad a)) c₁
    obtain ⟨y, hy⟩ := fresnelR_ofReal pol n nb c₁ c₂
    rw [hx, hy] at a1 a2
    have hP : period n₀ n (rad a) wav ≠ 0 := by
      have hpos : 0 < n ^ 2 - (n₀ * Real.sin (rad a)) ^ 2 := by
        have := sq_lt_sq' (by linarith [abs_nonneg (n₀ * Real.sin (rad a))] :
          -n < |n₀ * Real.sin (rad a)|) hs
        rw [sq_abs] at this
        linarith
      have hQ := Real.sqrt_pos.mpr hpos
      unfold period; positivity
    have hE : Complex.exp (2 * I * ((Real.pi * ((period n₀ n (rad a) wav - d) / period n₀ n (rad a) wav) : ℝ) : ℂ)) =
        conj (Complex.exp (2 * I * ((Real.pi * (d / period n₀ n (rad a) wav) : ℝ) : ℂ))) := by
      rw [← Complex.exp_conj, map_mul, map_mul, Complex.conj_I, Complex.conj_ofReal, sub_div, div_self hP]
      refine Eq.trans ?_ (Complex.exp_periodic _)
      congr 1
      simp only [map_ofNat]
      push_cast
      ring
    rw [hE] at a2
    rw [a1, a2]
    simp only [map_div₀, map_add, map_mul, map_one, Complex.conj_ofReal, Complex.conj_conj]
  rw [h1, h2, h1', h2', key .s _ _ _ _ h1 h1', key .p _ _ _ _ h2 h2']
  exact congrArg (fun x => Except.ok [x]) (psiDelta_conj _ _ off)

/-- C131, why the film must differ from the medium before it: otherwise psi and delta do not depend on the
thickness at all. -/
theorem C131_matched_film {n₀ : ℝ} {nb : ℂ} {a wav off d d' : ℝ} (h0 : 0 < n₀) (hb : PassiveIndex nb)
    (ha : |a| < 90) (hw : 0 < wav) (hd : 0 ≤ d) (hd' : 0 ≤ d') {rows rows' : List Row}
    (hr : RowsOf rows (oneFilm n₀ n₀ nb d)) (hr' : RowsOf rows' (oneFilm n₀ n₀ nb d'))
    (zs : List Layer → ℝ → ℝ → Bool) (refl : Bool) :
    ∃ x y, (deltaPsiTMM zs [a] rows wav off refl).1 = .ok [x] ∧
      (deltaPsiTMM zs [a] rows' wav off refl).1 = .ok [y] ∧ SamePD x y := by
  have hθ := rad_lt ha
  have hcos : 0 < Real.cos (rad a) := Real.cos_pos_of_mem_Ioo (abs_lt.mp hθ)
  have hs : |n₀ * Real.sin (rad a)| < n₀ := by
    rw [abs_mul, abs_of_pos h0]
    have : |Real.sin (rad a)| < 1 := by
      rw [← sq_lt_one_iff_abs_lt_one]
      have := Real.sin_sq_add_cos_sq (rad a)
      nlinarith
    nlinarith
  have ph := physical_film h0 h0 hb hθ hw hs hd
  have ph' := physical_film h0 h0 hb hθ hw hs hd'
  have hP : Complex.exp (2 * I * ((Real.pi * (d' / period n₀ n₀ (rad a) wav) : ℝ) : ℂ)) ≠ 0 := Complex.exp_ne_zero _
  refine samePD_of_scale hr hr' ph ph' zs refl
    (k := Complex.exp (2 * I * ((Real.pi * (d / period n₀ n₀ (rad a) wav) : ℝ) : ℂ)) /
    Complex.exp (2 * I * ((Real.pi * (d' / period n₀ n₀ (rad a) wav) : ℝ) : ℂ)))
    (div_ne_zero (Complex.exp_ne_zero _) (Complex.exp_ne_zero _)) ?_
  intro pol r t r' t' e e'
  have h0' : (n₀ : ℂ) ≠ 0 := Complex.ofReal_ne_zero.mpr h0.ne'
  have a1 := airy_code h0' h0' hb.ne_zero hθ.le hw.ne' (coh_real ph.front ph.nz hw.ne' .inf .inf)
    (pol := pol) (by cases pol <;> exact e) (film_phase_im h0 hs hw)
  have a2 := airy_code h0' h0' hb.ne_zero hθ.le hw.ne' (coh_real ph'.front ph'.nz hw.ne' .inf .inf)
    (pol := pol) (by cases pol <;> exact e') (film_phase_im h0 hs hw)
  simp only at a1 a2
  rw [film_phase h0 hs hw] at a1 a2
  have hc : root1m ((n₀ : ℂ) * Complex.sin (rad a) / n₀) = Complex.cos (rad a) := by
    rw [mul_div_cancel_left₀ _ h0', root1m_sin hθ.le]
  have hf : fresnelR pol n₀ n₀ (Complex.cos (rad a)) (Complex.cos (rad a)) = 0 := by
    cases pol <;> simp [fresnelR]
  rw [hc, hf] at a1 a2
  rw [a1, a2]
  simp only [zero_add, zero_mul, add_zero, div_one]
  field_simp

/-- Non-vacuity of C131: a measured pair of a film of index 1.56 in vacuum on a substrate of index 15/7. -/
example (zs : List Layer → ℝ → ℝ → Bool) : ∃ ψ Δ : ℝ,
    (deltaPsiTMM zs [filmAoi] filmRows 480 0 false).1 = .ok [(some ψ, some Δ)] ∧
    RowsOf filmRows (oneFilm 1 (39 / 25) ((15 / 7 : ℝ) : ℂ) 125) ∧ |filmAoi| < 90 ∧ filmAoi ≠ 0 ∧
    |1 * Real.sin (rad filmAoi)| < 39 / 25 ∧ |1 * Real.sin (rad filmAoi)| < 15 / 7 := by
  obtain ⟨ψ, Δ, -, -, h⟩ := film_delta zs
  have hpi := Real.pi_pos
  have h1 := Real.arcsin_lt_pi_div_two.mpr (by norm_num : (3 / 5 : ℝ) < 1)
  have h2 := Real.arcsin_pos.mpr (by norm_num : (0 : ℝ) < 3 / 5)
  have h3 : 0 < filmAoi := by unfold filmAoi; positivity
  have hsin : Real.sin (rad filmAoi) = 3 / 5 := by
    rw [film_rad, Real.sin_arcsin] <;> norm_num
  refine ⟨ψ, Δ + 0, (h 0).1, filmRows_of, ?_, h3.ne', ?_, ?_⟩
  · rw [abs_of_pos h3]
    unfold filmAoi
    rw [← lt_div_iff₀ (by positivity)]
    calc Real.arcsin (3 / 5) < Real.pi / 2 := h1
      _ = 90 / (180 / Real.pi) := by field_simp; norm_num
  · rw [hsin, abs_of_pos] <;> norm_num
  · rw [hsin, abs_of_pos] <;> norm_num

end Verif.TMM
