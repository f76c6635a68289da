import Verif.TMM.PropsThickness
import Verif.TMM.PropsBare

/-! # C164: films that do not reflect -/

namespace Verif.TMM

open Complex (I)

/-- Spec: normal component of the wave number, in units of that in vacuum, in a transparent medium of index `n`. -/
noncomputable def normalQ (n₀ θ n : ℝ) : ℝ := Real.sqrt (n ^ 2 - (n₀ * Real.sin θ) ^ 2)

/-- Spec: tilted optical admittance of a transparent medium. -/
noncomputable def tilted (pol : Pol) (n₀ θ n : ℝ) : ℝ :=
  match pol with
  | .s => normalQ n₀ θ n
  | .p => normalQ n₀ θ n / n ^ 2

/-- Spec: the film between the half spaces is matched: nothing changes at the interfaces, or the two half spaces are
the same and the film is a whole number of half waves thick, or its admittance is the geometric mean of theirs and it is
an odd number of quarter waves thick (`P`, the interference period, is half a wave). -/
def Matched (Y₀ Y₁ Yb d P : ℝ) : Prop :=
  (Y₀ = Y₁ ∧ Y₁ = Yb) ∨ (Y₀ = Yb ∧ ∃ k : ℤ, d = k * P) ∨ (Y₁ ^ 2 = Y₀ * Yb ∧ ∃ k : ℤ, d = (k + 1 / 2) * P)

theorem airy_zero {Y₀ Y₁ Yb : ℝ} (h0 : 0 < Y₀) (h1 : 0 < Y₁) (hb : 0 < Yb) {d P : ℝ} (hP : 0 < P) :
    (((Y₀ - Y₁) / (Y₀ + Y₁) : ℝ) + ((Y₁ - Yb) / (Y₁ + Yb) : ℝ) * Complex.exp (2 * I * ((Real.pi * (d / P) : ℝ) : ℂ))) /
      (1 + ((Y₀ - Y₁) / (Y₀ + Y₁) : ℝ) * ((Y₁ - Yb) / (Y₁ + Yb) : ℝ) *
        Complex.exp (2 * I * ((Real.pi * (d / P) : ℝ) : ℂ))) = (0 : ℂ) ↔ Matched Y₀ Y₁ Yb d P := by
  have hpi := Real.pi_pos
  obtain ⟨x, hx⟩ : ∃ x, x = (Y₀ - Y₁) / (Y₀ + Y₁) := ⟨_, rfl⟩
  obtain ⟨y, hy⟩ : ∃ y, y = (Y₁ - Yb) / (Y₁ + Yb) := ⟨_, rfl⟩
  obtain ⟨φ, hφ⟩ : ∃ φ, φ = 2 * (Real.pi * (d / P)) := ⟨_, rfl⟩
  have hx1 : |x| < 1 := by
    rw [hx, abs_div, abs_of_pos (by positivity : 0 < Y₀ + Y₁), div_lt_one (by positivity), abs_lt]
    constructor <;> linarith
  have hy1 : |y| < 1 := by
    rw [hy, abs_div, abs_of_pos (by positivity : 0 < Y₁ + Yb), div_lt_one (by positivity), abs_lt]
    constructor <;> linarith
  have e : (2 : ℂ) * I * ((Real.pi * (d / P) : ℝ) : ℂ) = (φ : ℂ) * I := by rw [hφ]; push_cast; ring
  rw [e, ← hx, ← hy]
  have hE : Complex.exp ((φ : ℂ) * I) = (Real.cos φ : ℂ) + (Real.sin φ : ℂ) * I := by
    rw [Complex.exp_mul_I, Complex.ofReal_cos, Complex.ofReal_sin]
  have hden : (1 : ℂ) + x * y * Complex.exp ((φ : ℂ) * I) ≠ 0 := by
    intro h
    have := congrArg norm (eq_neg_of_add_eq_zero_right h)
    rw [norm_neg, norm_one, norm_mul, norm_mul, Complex.norm_exp_ofReal_mul_I, mul_one, Complex.norm_real,
      Complex.norm_real, Real.norm_eq_abs, Real.norm_eq_abs] at this
    nlinarith [abs_nonneg x, abs_nonneg y]
  rw [div_eq_zero_iff, or_iff_left hden]
  have e2 : (x : ℂ) + y * Complex.exp ((φ : ℂ) * I) = 0 ↔ x + y * Real.cos φ = 0 ∧ y * Real.sin φ = 0 := by
    rw [hE]
    constructor
    · intro h
      have h1 := congrArg Complex.re h
      have h2 := congrArg Complex.im h
      simp [-Complex.ofReal_cos, -Complex.ofReal_sin] at h1 h2
      exact ⟨h1, by rcases h2 with h2 | h2 <;> simp [h2]⟩
    · rintro ⟨h1, h2⟩
      have h1' : (x : ℂ) + y * (Real.cos φ : ℂ) = 0 := by exact_mod_cast h1
      have h2' : (y : ℂ) * (Real.sin φ : ℂ) = 0 := by exact_mod_cast h2
      linear_combination h1' + I * h2'
  rw [e2]
  -- the three cases
  have hx0 : x = 0 ↔ Y₀ = Y₁ := by
    rw [hx, div_eq_zero_iff, or_iff_left (by positivity), sub_eq_zero]
  have hy0 : y = 0 ↔ Y₁ = Yb := by
    rw [hy, div_eq_zero_iff, or_iff_left (by positivity), sub_eq_zero]
  have hsum : x + y = 0 ↔ Y₀ = Yb := by
    rw [hx, hy, div_add_div _ _ (by positivity) (by positivity), div_eq_zero_iff, or_iff_left (by positivity)]
    have : (Y₀ - Y₁) * (Y₁ + Yb) + (Y₀ + Y₁) * (Y₁ - Yb) = 2 * Y₁ * (Y₀ - Yb) := by ring
    rw [this, mul_eq_zero, or_iff_right (by positivity), sub_eq_zero]
  have hdiff : x - y = 0 ↔ Y₁ ^ 2 = Y₀ * Yb := by
    rw [hx, hy, div_sub_div _ _ (by positivity) (by positivity), div_eq_zero_iff, or_iff_left (by positivity)]
    have : (Y₀ - Y₁) * (Y₁ + Yb) - (Y₀ + Y₁) * (Y₁ - Yb) = 2 * (Y₀ * Yb - Y₁ ^ 2) := by ring
    rw [this, mul_eq_zero, or_iff_right two_ne_zero, sub_eq_zero, eq_comm]
  have hwhole : Real.cos φ = 1 ↔ ∃ k : ℤ, d = k * P := by
    rw [Real.cos_eq_one_iff]
    refine exists_congr fun k => ?_
    rw [hφ, show (k : ℝ) * (2 * Real.pi) = 2 * (Real.pi * k) by ring]
    rw [mul_right_inj' two_ne_zero, mul_right_inj' hpi.ne', eq_div_iff hP.ne', eq_comm]
  have hhalf : Real.cos φ = -1 ↔ ∃ k : ℤ, d = (k + 1 / 2) * P := by
    rw [Real.cos_eq_neg_one_iff]
    refine exists_congr fun k => ?_
    rw [hφ, show Real.pi + (k : ℝ) * (2 * Real.pi) = 2 * (Real.pi * (k + 1 / 2)) by ring]
    rw [mul_right_inj' two_ne_zero, mul_right_inj' hpi.ne', eq_div_iff hP.ne', eq_comm]
  unfold Matched
  rw [← hx0, ← hy0, ← hsum, ← hdiff, ← hwhole, ← hhalf]
  constructor
  · rintro ⟨h1, h2⟩
    rcases mul_eq_zero.mp h2 with h2 | h2
    · left
      rw [h2] at h1
      exact ⟨by linarith, h2⟩
    · rcases Real.sin_eq_zero_iff_cos_eq.mp h2 with h3 | h3
      · right; left
        rw [h3] at h1
        exact ⟨by linarith, h3⟩
      · right; right
        rw [h3] at h1
        exact ⟨by linarith, h3⟩
  · rintro (⟨h1, h2⟩ | ⟨h1, h2⟩ | ⟨h1, h2⟩)
    · rw [h1, h2]; simp
    · have h3 : Real.sin φ = 0 := Real.sin_eq_zero_iff_cos_eq.mpr (.inl h2)
      rw [h2, h3]
      exact ⟨by linarith, by ring⟩
    · have h3 : Real.sin φ = 0 := Real.sin_eq_zero_iff_cos_eq.mpr (.inr h2)
      rw [h2, h3]
      exact ⟨by linarith, by ring⟩

section
variable {n₀ n nb θ lam d : ℝ}

theorem normalQ_pos (hn : 0 < n) (hs : |n₀ * Real.sin θ| < n) : 0 < normalQ n₀ θ n := by
  apply Real.sqrt_pos.mpr
  have := sq_lt_sq' (by linarith [abs_nonneg (n₀ * Real.sin θ)] : -n < |n₀ * Real.sin θ|) hs
  rw [sq_abs] at this
  linarith

theorem tilted_pos (hn : 0 < n) (hs : |n₀ * Real.sin θ| < n) (pol : Pol) : 0 < tilted pol n₀ θ n := by
  have := normalQ_pos hn hs
  cases pol <;> simp only [tilted] <;> positivity

theorem root_normalQ (hn : 0 < n) (hs : |n₀ * Real.sin θ| < n) :
    root1m (n₀ * Complex.sin θ / n) = ((normalQ n₀ θ n / n : ℝ) : ℂ) := by
  rw [← Complex.ofReal_sin, ← Complex.ofReal_mul, ← Complex.ofReal_div, root1m_ofReal_le]
  · congr 1
    rw [normalQ, eq_div_iff hn.ne']
    rw [show Real.sqrt (1 - (n₀ * Real.sin θ / n) ^ 2) * n = Real.sqrt (1 - (n₀ * Real.sin θ / n) ^ 2) * Real.sqrt (n ^ 2) by
      rw [Real.sqrt_sq hn.le], ← Real.sqrt_mul' _ (sq_nonneg n)]
    congr 1
    field_simp
  · rw [abs_div, abs_of_pos hn]
    exact (div_le_one hn).mpr hs.le

theorem cos_normalQ (h0 : 0 < n₀) (hθ : |θ| < Real.pi / 2) :
    Complex.cos θ = ((normalQ n₀ θ n₀ / n₀ : ℝ) : ℂ) := by
  have hc : 0 < Real.cos θ := Real.cos_pos_of_mem_Ioo (abs_lt.mp hθ)
  rw [← Complex.ofReal_cos]
  congr 1
  rw [normalQ, eq_div_iff h0.ne', show n₀ ^ 2 - (n₀ * Real.sin θ) ^ 2 = (Real.cos θ * n₀) ^ 2 by
    rw [mul_pow, mul_pow, Real.cos_sq']; ring, Real.sqrt_sq (by positivity)]

theorem fresnelR_tilted (pol : Pol) {m m' : ℝ} (h0 : 0 < m) (hn : 0 < m') (hq : 0 < normalQ n₀ θ m)
    (hq' : 0 < normalQ n₀ θ m') :
    fresnelR pol m m' ((normalQ n₀ θ m / m : ℝ) : ℂ) ((normalQ n₀ θ m' / m' : ℝ) : ℂ) =
      (((tilted pol n₀ θ m - tilted pol n₀ θ m') / (tilted pol n₀ θ m + tilted pol n₀ θ m') : ℝ) : ℂ) := by
  cases pol
  · simp only [fresnelR, tilted, ← Complex.ofReal_mul, ← Complex.ofReal_sub, ← Complex.ofReal_add, ← Complex.ofReal_div]
    congr 1
    field_simp
  · simp only [fresnelR, tilted, ← Complex.ofReal_mul, ← Complex.ofReal_sub, ← Complex.ofReal_add, ← Complex.ofReal_div]
    congr 1
    field_simp

theorem front_below (h0 : 0 < n₀) (hθ : |θ| < Real.pi / 2) : |n₀ * Real.sin θ| < n₀ := by
  have hc : 0 < Real.cos θ := Real.cos_pos_of_mem_Ioo (abs_lt.mp hθ)
  rw [abs_mul, abs_of_pos h0]
  have : |Real.sin θ| < 1 := by
    rw [← sq_lt_one_iff_abs_lt_one]
    have := Real.sin_sq_add_cos_sq θ
    nlinarith
  nlinarith

theorem solve_zero (h0 : 0 < n₀) (hn : 0 < n) (hb : 0 < nb) (hθ : |θ| < Real.pi / 2) (hl : 0 < lam)
    (hs : |n₀ * Real.sin θ| < n) (hsb : |n₀ * Real.sin θ| < nb) {pol : Pol} {r t : ℂ}
    (hr : solveSt pol (oneFilm n₀ n nb d) θ lam = some (r, t)) :
    r = 0 ↔ Matched (tilted pol n₀ θ n₀) (tilted pol n₀ θ n) (tilted pol n₀ θ nb) d (period n₀ n θ lam) := by
  have h0' : (n₀ : ℂ) ≠ 0 := Complex.ofReal_ne_zero.mpr h0.ne'
  have hn' : (n : ℂ) ≠ 0 := Complex.ofReal_ne_zero.mpr hn.ne'
  have hb' : (nb : ℂ) ≠ 0 := Complex.ofReal_ne_zero.mpr hb.ne'
  have hs0 := front_below h0 hθ
  have hnz : (oneFilm n₀ n nb d).NZ := ⟨h0', by simpa [oneFilm] using hn', hb'⟩
  have a1 := airy_code h0' hn' hb' hθ.le hl.ne' (coh_real (st := oneFilm n₀ n nb d) rfl hnz hl.ne' .inf .inf)
    (pol := pol) (r := r) (t := t) (by cases pol <;> exact hr) (film_phase_im hn hs hl)
  have hP : 0 < period n₀ n θ lam := by
    have := normalQ_pos hn hs
    unfold normalQ at this
    unfold period
    positivity
  simp only at a1
  rw [film_phase hn hs hl, root_normalQ hn hs, root_normalQ hb hsb, cos_normalQ h0 hθ,
    fresnelR_tilted pol h0 hn (normalQ_pos h0 hs0) (normalQ_pos hn hs),
    fresnelR_tilted pol hn hb (normalQ_pos hn hs) (normalQ_pos hb hsb)] at a1
  rw [a1]
  exact airy_zero (tilted_pos h0 hs0 pol) (tilted_pos hn hs pol) (tilted_pos hb hsb pol) hP

/-- C164: a transparent film between transparent media, below the critical angles, reflects nothing of one
polarisation exactly if it is matched. -/
theorem C164_amplitude (h0 : 0 < n₀) (hn : 0 < n) (hb : 0 < nb) (hθ : |θ| < Real.pi / 2) (hl : 0 < lam)
    (hs : |n₀ * Real.sin θ| < n) (hsb : |n₀ * Real.sin θ| < nb) (hd : 0 ≤ d) (pol : Pol) (d0 db : Thick) :
    ∃ a r t, cohTmm ((oneFilm n₀ n nb d).layers d0 db) [((θ : ℂ), lam)] = .ok [a] ∧ a.of pol = some (r, t) ∧
      (r = 0 ↔ Matched (tilted pol n₀ θ n₀) (tilted pol n₀ θ n) (tilted pol n₀ θ nb) d (period n₀ n θ lam)) := by
  have ph := physical_film (nb := (nb : ℂ)) h0 hn ⟨by simpa using hb, by simp⟩ hθ hl hs hd
  obtain ⟨r, t, hr⟩ := ph.solved pol
  exact ⟨_, r, t, coh_real ph.front ph.nz hl.ne' d0 db, by cases pol <;> exact hr, solve_zero h0 hn hb hθ hl hs hsb hr⟩

/-- C164 at normal incidence: psi and delta are `nan` exactly for an antireflection coating (an odd number of quarter
waves of the index `√(n₀ nb)`), for a film of whole half waves between equal media, and if there is no interface. In all
other cases they are 45 and 180 degrees. -/
theorem C164_normal (h0 : 0 < n₀) (hn : 0 < n) (hb : 0 < nb) (hl : 0 < lam) (hd : 0 ≤ d) {rows : List Row}
    (hr : RowsOf rows (oneFilm n₀ n nb d)) (zs : List Layer → ℝ → ℝ → Bool) (off : ℝ) (refl : Bool) :
    (((n₀ = n ∧ n = nb) ∨ (n₀ = nb ∧ ∃ k : ℤ, d = k * (lam / (2 * n))) ∨
        (n ^ 2 = n₀ * nb ∧ ∃ k : ℤ, d = (2 * k + 1) * (lam / (4 * n)))) →
      (deltaPsiTMM zs [0] rows lam off refl).1 = .ok [(none, none)]) ∧
    (¬ ((n₀ = n ∧ n = nb) ∨ (n₀ = nb ∧ ∃ k : ℤ, d = k * (lam / (2 * n))) ∨
        (n ^ 2 = n₀ * nb ∧ ∃ k : ℤ, d = (2 * k + 1) * (lam / (4 * n)))) →
      (deltaPsiTMM zs [0] rows lam off refl).1 = .ok [(some 45, some (180 + off))]) := by
  have hpi := Real.pi_pos
  have e0 : rad 0 = 0 := by simp [rad]
  have hθ : |rad 0| < Real.pi / 2 := by rw [e0, abs_zero]; positivity
  have hz : ∀ {m : ℝ}, 0 < m → |n₀ * Real.sin (rad 0)| < m := by intro m hm; simpa [e0] using hm
  have ph := physical_film (nb := (nb : ℂ)) h0 hn ⟨by simpa using hb, by simp⟩ hθ hl (hz hn) hd
  obtain ⟨a, r, t, c1, c2, -, c4, c5⟩ := C111_normal hr ph zs off refl
  have hs : solveSt .s (oneFilm n₀ n nb d) (rad 0) lam = some (r, t) := by
    have := coh_real_of ph.front ph.nz hl.ne' c1 .s
    rw [← this]; exact c2
  have hz' := solve_zero h0 hn hb hθ hl (hz hn) (hz hb) hs
  have hq : ∀ {m : ℝ}, 0 < m → tilted .s n₀ (rad 0) m = m := by
    intro m hm
    simp [tilted, normalQ, e0, Real.sqrt_sq hm.le]
  have hP : period n₀ n (rad 0) lam = lam / (2 * n) := by
    simp [period, e0, Real.sqrt_sq hn.le]
  rw [hq h0, hq hn, hq hb, hP, Matched] at hz'
  have hodd : (∃ k : ℤ, d = (k + 1 / 2) * (lam / (2 * n))) ↔ ∃ k : ℤ, d = (2 * k + 1) * (lam / (4 * n)) := by
    refine exists_congr fun k => ?_
    rw [show ((k : ℝ) + 1 / 2) * (lam / (2 * n)) = (2 * k + 1) * (lam / (4 * n)) by field_simp; ring]
  rw [hodd] at hz'
  exact ⟨fun h => c5 (hz'.mpr h), fun h => c4 fun h' => h (hz'.mp h')⟩

/-- C164 at oblique incidence: psi is `nan` only if the film does not show at all, that is, if it lies between equal
media and has their index or a thickness of whole half waves. No antireflection coating works for both polarisations. -/
theorem C164_oblique (h0 : 0 < n₀) (hn : 0 < n) (hb : 0 < nb) {a : ℝ} (ha : |a| < 90) (ha0 : a ≠ 0) (hl : 0 < lam)
    (hs : |n₀ * Real.sin (rad a)| < n) (hsb : |n₀ * Real.sin (rad a)| < nb) (hd : 0 ≤ d) {rows : List Row}
    (hr : RowsOf rows (oneFilm n₀ n nb d)) (zs : List Layer → ℝ → ℝ → Bool) (off : ℝ) (refl : Bool) :
    ∃ x, (deltaPsiTMM zs [a] rows lam off refl).1 = .ok [x] ∧
      (x.1 = none ↔ n₀ = nb ∧ (n = n₀ ∨ ∃ k : ℤ, d = k * period n₀ n (rad a) lam)) := by
  have hpi := Real.pi_pos
  have hθ := rad_lt ha
  have hsin : Real.sin (rad a) ≠ 0 := by
    have hθ0 : rad a ≠ 0 := by unfold rad; positivity
    rw [abs_lt] at hθ
    intro h
    exact hθ0 ((Real.sin_eq_zero_iff_of_lt_of_lt (by linarith) (by linarith)).mp h)
  have ph := physical_film (nb := (nb : ℂ)) h0 hn ⟨by simpa using hb, by simp⟩ hθ hl hs hd
  obtain ⟨am, c, c1, c2, c3, -⟩ := C14_psi (off := off) hr ph.nz hl.ne' zs refl
  obtain ⟨rs, ts, e1⟩ := ph.solved .s
  obtain ⟨rp, tp, e2⟩ := ph.solved .p
  have e1' : am.of .s = some (rs, ts) := by rw [coh_real_of ph.front ph.nz hl.ne' c1]; exact e1
  have e2' : am.of .p = some (rp, tp) := by rw [coh_real_of ph.front ph.nz hl.ne' c1]; exact e2
  have hnone : c.1 = none ↔ rs = 0 ∧ rp = 0 := by
    rw [← not_iff_not, ← ne_eq, Option.ne_none_iff_exists']
    refine c3.trans ⟨?_, fun h => ⟨rs, ts, rp, tp, e1', e2', ?_⟩⟩
    · rintro ⟨rs', ts', rp', tp', f1, f2, f3⟩
      rw [e1'] at f1
      rw [e2'] at f2
      obtain ⟨rfl, rfl⟩ := Prod.mk.inj (Option.some.inj f1)
      obtain ⟨rfl, rfl⟩ := Prod.mk.inj (Option.some.inj f2)
      tauto
    · tauto
  refine ⟨c, c2, ?_⟩
  rw [hnone, solve_zero h0 hn hb hθ hl hs hsb e1, solve_zero h0 hn hb hθ hl hs hsb e2]
  have hs0 := front_below h0 hθ
  have q0 := normalQ_pos h0 hs0
  have q1 := normalQ_pos hn hs
  have qb := normalQ_pos hb hsb
  have sq : ∀ {m : ℝ}, 0 < m → |n₀ * Real.sin (rad a)| < m →
      normalQ n₀ (rad a) m ^ 2 = m ^ 2 - (n₀ * Real.sin (rad a)) ^ 2 := by
    intro m hm hs
    unfold normalQ
    rw [Real.sq_sqrt]
    have := sq_lt_sq' (by linarith [abs_nonneg (n₀ * Real.sin (rad a))] : -m < |n₀ * Real.sin (rad a)|) hs
    rw [sq_abs] at this
    linarith
  have inj : ∀ {m m' : ℝ}, 0 < m → 0 < m' → |n₀ * Real.sin (rad a)| < m → |n₀ * Real.sin (rad a)| < m' →
      normalQ n₀ (rad a) m = normalQ n₀ (rad a) m' → m = m' := by
    intro m m' hm hm' h h' e
    have := sq hm h
    rw [e, sq hm' h'] at this
    exact (pow_left_inj₀ hm.le hm'.le two_ne_zero).mp (by linarith)
  have hP : 0 < period n₀ n (rad a) lam := by
    unfold normalQ at q1
    unfold period
    positivity
  have s2 : 0 < (n₀ * Real.sin (rad a)) ^ 2 := by positivity
  constructor
  · rintro ⟨h1, h2⟩
    rcases h1 with ⟨f1, f2⟩ | ⟨f1, k, f2⟩ | ⟨f1, k, f2⟩
    · have g1 := inj h0 hn hs0 hs f1
      have g2 := inj hn hb hs hsb f2
      exact ⟨g1.trans g2, .inl g1.symm⟩
    · exact ⟨inj h0 hb hs0 hsb f1, .inr ⟨k, f2⟩⟩
    · rcases h2 with ⟨g1, g2⟩ | ⟨g1, l, g2⟩ | ⟨g1, -⟩
      · -- matched in p, quarter wave in s
        simp only [tilted] at f1 g1 g2
        have k1 : n₀ ^ 2 * normalQ n₀ (rad a) n = n ^ 2 * normalQ n₀ (rad a) n₀ := by
          field_simp at g1; linarith
        have k2 : n ^ 2 * normalQ n₀ (rad a) nb = nb ^ 2 * normalQ n₀ (rad a) n := by
          field_simp at g2; linarith
        have k3 : normalQ n₀ (rad a) n ^ 2 * (n₀ ^ 2 * nb ^ 2) = n ^ 4 * (normalQ n₀ (rad a) n₀ * normalQ n₀ (rad a) nb) := by
          linear_combination nb ^ 2 * normalQ n₀ (rad a) n * k1 - n ^ 2 * normalQ n₀ (rad a) n₀ * k2
        rw [f1] at k3
        have k4 : n₀ ^ 2 * nb ^ 2 = n ^ 4 := by
          have hpos : 0 < normalQ n₀ (rad a) n₀ * normalQ n₀ (rad a) nb := mul_pos q0 qb
          have := mul_left_cancel₀ hpos.ne' (by linarith : (normalQ n₀ (rad a) n₀ * normalQ n₀ (rad a) nb) * (n₀ ^ 2 * nb ^ 2) =
            (normalQ n₀ (rad a) n₀ * normalQ n₀ (rad a) nb) * n ^ 4)
          exact this
        have k5 : n ^ 2 = n₀ * nb := by
          have : (n ^ 2) ^ 2 = (n₀ * nb) ^ 2 := by rw [mul_pow, k4]; ring
          exact (pow_left_inj₀ (by positivity) (by positivity) two_ne_zero).mp this
        have k6 : (n ^ 2 - (n₀ * Real.sin (rad a)) ^ 2) ^ 2 =
            (n₀ ^ 2 - (n₀ * Real.sin (rad a)) ^ 2) * (nb ^ 2 - (n₀ * Real.sin (rad a)) ^ 2) := by
          rw [← sq hn hs, ← sq h0 hs0, ← sq hb hsb, f1]; ring
        have k7 : (n₀ - nb) ^ 2 * (n₀ * Real.sin (rad a)) ^ 2 = 0 := by
          rw [k5] at k6
          linear_combination k6
        have k8 : n₀ = nb := by
          rcases mul_eq_zero.mp k7 with h | h
          · exact sub_eq_zero.mp (pow_eq_zero_iff two_ne_zero |>.mp h)
          · exact absurd h s2.ne'
        refine ⟨k8, .inl ?_⟩
        rw [← k8] at k5
        exact (pow_left_inj₀ hn.le h0.le two_ne_zero).mp (by rw [k5]; ring)
      · -- whole and half periods at once
        exfalso
        rw [f2] at g2
        have := mul_right_cancel₀ hP.ne' g2
        have h2 : (2 * k + 1 : ℤ) = 2 * l := by
          have : (2 * (k : ℝ) + 1) = 2 * l := by linarith
          exact_mod_cast this
        omega
      · simp only [tilted] at f1 g1
        have k4 : n₀ ^ 2 * nb ^ 2 = n ^ 4 := by
          have e : (normalQ n₀ (rad a) n / n ^ 2) ^ 2 = normalQ n₀ (rad a) n ^ 2 / n ^ 4 := by
            rw [div_pow]; ring
          rw [e, f1, div_mul_div_comm, div_eq_div_iff (by positivity) (by positivity)] at g1
          exact mul_left_cancel₀ (mul_pos q0 qb).ne' g1
        have k5 : n ^ 2 = n₀ * nb := by
          have : (n ^ 2) ^ 2 = (n₀ * nb) ^ 2 := by rw [mul_pow, k4]; ring
          exact (pow_left_inj₀ (by positivity) (by positivity) two_ne_zero).mp this
        have k6 : (n ^ 2 - (n₀ * Real.sin (rad a)) ^ 2) ^ 2 =
            (n₀ ^ 2 - (n₀ * Real.sin (rad a)) ^ 2) * (nb ^ 2 - (n₀ * Real.sin (rad a)) ^ 2) := by
          rw [← sq hn hs, ← sq h0 hs0, ← sq hb hsb, f1]; ring
        have k7 : (n₀ - nb) ^ 2 * (n₀ * Real.sin (rad a)) ^ 2 = 0 := by
          rw [k5] at k6
          linear_combination k6
        have k8 : n₀ = nb := by
          rcases mul_eq_zero.mp k7 with h | h
          · exact sub_eq_zero.mp (pow_eq_zero_iff two_ne_zero |>.mp h)
          · exact absurd h s2.ne'
        refine ⟨k8, .inl ?_⟩
        rw [← k8] at k5
        exact (pow_left_inj₀ hn.le h0.le two_ne_zero).mp (by rw [k5]; ring)
  · rintro ⟨rfl, rfl | ⟨k, hk⟩⟩
    · exact ⟨.inl ⟨rfl, rfl⟩, .inl ⟨rfl, rfl⟩⟩
    · exact ⟨.inr (.inl ⟨rfl, k, hk⟩), .inr (.inl ⟨rfl, k, hk⟩)⟩

end

/-- Non-vacuity: a quarter wave of index 2 on a substrate of index 4; one nanometre more and the sample reflects. -/
example (zs : List Layer → ℝ → ℝ → Bool) {rows rows' : List Row} (hr : RowsOf rows (oneFilm 1 2 ((4 : ℝ) : ℂ) 75))
    (hr' : RowsOf rows' (oneFilm 1 2 ((4 : ℝ) : ℂ) 76)) :
    (deltaPsiTMM zs [0] rows 600 0 false).1 = .ok [(none, none)] ∧
    (deltaPsiTMM zs [0] rows' 600 0 false).1 = .ok [(some 45, some (180 + 0))] := by
  constructor
  · refine (C164_normal one_pos two_pos (by norm_num) (by norm_num) (by norm_num) hr zs 0 false).1 ?_
    exact .inr (.inr ⟨by norm_num, 0, by norm_num⟩)
  · refine (C164_normal one_pos two_pos (by norm_num) (by norm_num) (by norm_num) hr' zs 0 false).2 ?_
    rintro (⟨h, -⟩ | ⟨h, -⟩ | ⟨-, k, h⟩)
    · norm_num at h
    · norm_num at h
    · have : (76 : ℤ) = (2 * k + 1) * 75 := by
        have : (76 : ℝ) = (2 * k + 1) * 75 := by rw [h]; norm_num
        exact_mod_cast this
      omega

/-- Non-vacuity at 30 degrees: a film of index 3/2 in vacuum has no psi at zero thickness, and a film on a substrate of
another index always has one. -/
example (zs : List Layer → ℝ → ℝ → Bool) {rows rows' : List Row}
    (hr : RowsOf rows (oneFilm 1 ((3 / 2 : ℝ)) ((1 : ℝ) : ℂ) 0))
    (hr' : RowsOf rows' (oneFilm 1 ((3 / 2 : ℝ)) ((9 / 4 : ℝ) : ℂ) 100)) :
    (∃ x, (deltaPsiTMM zs [30] rows 600 0 false).1 = .ok [x] ∧ x.1 = none) ∧
    (∃ x, (deltaPsiTMM zs [30] rows' 600 0 false).1 = .ok [x] ∧ x.1 ≠ none) := by
  have e : rad 30 = Real.pi / 6 := by unfold rad; ring
  have hlt : ∀ {m : ℝ}, 1 / 2 < m → |(1 : ℝ) * Real.sin (rad 30)| < m := by
    intro m hm
    rw [e, Real.sin_pi_div_six]
    norm_num [abs_of_pos]
    linarith
  have h30 : |(30 : ℝ)| < 90 := by norm_num [abs_of_pos]
  constructor
  · obtain ⟨x, h1, h2⟩ := C164_oblique (lam := 600) one_pos (by norm_num) one_pos h30 (by norm_num) (by norm_num)
      (hlt (by norm_num)) (hlt (by norm_num)) le_rfl hr zs 0 false
    exact ⟨x, h1, h2.mpr ⟨rfl, .inr ⟨0, by simp⟩⟩⟩
  · obtain ⟨x, h1, h2⟩ := C164_oblique (lam := 600) one_pos (by norm_num) (by norm_num) h30 (by norm_num) (by norm_num)
      (hlt (by norm_num)) (hlt (by norm_num)) (by norm_num) hr' zs 0 false
    exact ⟨x, h1, fun h => by have := (h2.mp h).1; norm_num at this⟩

end Verif.TMM
