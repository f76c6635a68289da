import Verif.TMM.PropsThickness
import Mathlib.NumberTheory.Real.Irrational

/-! # C163: what several measured pairs say about a film thickness -/

namespace Verif.TMM

open Complex (I)

/-- A measurement of a film between two media: indices of the medium in front, the film and the substrate at the
wavelength `wav`, angle of incidence, offset of delta, and the measured pair. -/
structure Shot where
  n₀ : ℝ
  n : ℝ
  nb : ℂ
  a : ℝ
  wav : ℝ
  off : ℝ
  ψ : ℝ
  Δ : ℝ

/-- Oblique incidence on a transparent film below its critical angle that differs from its neighbours. -/
structure Shot.Sound (s : Shot) : Prop where
  front : 0 < s.n₀
  film : 0 < s.n
  ne_front : s.n₀ ≠ s.n
  back : PassiveIndex s.nb
  ne_back : s.nb ≠ s.n
  angle : |s.a| < 90
  oblique : s.a ≠ 0
  wav_pos : 0 < s.wav
  below : |s.n₀ * Real.sin (rad s.a)| < s.n

/-- The interference period of the film in this measurement. -/
noncomputable def Shot.period (s : Shot) : ℝ := TMM.period s.n₀ s.n (rad s.a) s.wav

/-- The code gives the measured pair for a film of thickness `d`, delta up to whole turns. -/
def Shot.Fits (zs : List Layer → ℝ → ℝ → Bool) (refl : Bool) (s : Shot) (d : ℝ) : Prop :=
  ∃ (rows : List Row) (m : ℤ), RowsOf rows (oneFilm s.n₀ s.n s.nb d) ∧
    (deltaPsiTMM zs [s.a] rows s.wav s.off refl).1 = .ok [(some s.ψ, some (s.Δ + 360 * m))]

/-- Number of thicknesses that one pair leaves within a period. -/
def candidates (refl : Bool) : ℕ := if refl then 4 else 2

theorem Shot.Sound.period_pos {s : Shot} (h : s.Sound) : 0 < s.period := by
  unfold Shot.period TMM.period
  have h1 := h.wav_pos
  have h2 : 0 < s.n ^ 2 - (s.n₀ * Real.sin (rad s.a)) ^ 2 := by
    have := sq_lt_sq' (by linarith [h.film, abs_nonneg (s.n₀ * Real.sin (rad s.a))] :
      -s.n < |s.n₀ * Real.sin (rad s.a)|) h.below
    rw [sq_abs] at this
    linarith
  have := Real.sqrt_pos.mpr h2
  positivity

theorem shot_candidates (zs : List Layer → ℝ → ℝ → Bool) (refl : Bool) {s : Shot} (h : s.Sound) :
    ∃ ds : List ℝ, ds.length = candidates refl ∧ ∀ d, s.Fits zs refl d → ∃ d' ∈ ds, ∃ k : ℤ, d = d' + k * s.period := by
  cases refl with
  | false =>
    obtain ⟨d₁, d₂, h12⟩ := C131_two_candidates (off := s.off) h.front h.film h.ne_front h.back h.ne_back h.angle
      h.oblique h.wav_pos h.below zs s.ψ s.Δ
    refine ⟨[d₁, d₂], rfl, fun d ⟨rows, m, hr, hd⟩ => ?_⟩
    obtain ⟨k, hk | hk⟩ := h12 d rows m hr hd
    · exact ⟨d₁, by simp, k, hk⟩
    · exact ⟨d₂, by simp, k, hk⟩
  | true =>
    obtain ⟨ds, h4, hds⟩ := C131_four_candidates (off := s.off) h.front h.film h.ne_front h.back h.ne_back h.angle
      h.oblique h.wav_pos h.below zs s.ψ s.Δ
    exact ⟨ds, h4, fun d ⟨rows, m, hr, hd⟩ => hds d rows m hr hd⟩

/-- C163: `M` measured pairs leave at most `2^M` thicknesses (`4^M` if delta is folded) of a transparent film, up to
lengths that are whole numbers of periods in every one of the measurements. -/
theorem C163_finitely_many (zs : List Layer → ℝ → ℝ → Bool) (refl : Bool) {shots : List Shot}
    (h : ∀ s ∈ shots, s.Sound) :
    ∃ ds : List ℝ, ds.length = candidates refl ^ shots.length ∧
      ∀ d, (∀ s ∈ shots, s.Fits zs refl d) → ∃ d' ∈ ds, ∀ s ∈ shots, ∃ k : ℤ, d = d' + k * s.period := by
  classical
  induction shots with
  | nil => exact ⟨[0], by simp, fun d _ => ⟨0, by simp⟩⟩
  | cons s shots ih =>
    obtain ⟨ds, hl, hds⟩ := ih fun s hs => h s (List.mem_cons_of_mem _ hs)
    obtain ⟨es, hm, hes⟩ := shot_candidates zs refl (h s List.mem_cons_self)
    -- a common representative of two classes, if there is one
    let C : ℝ → ℝ → ℝ → Prop := fun d' e d =>
      (∀ s ∈ shots, ∃ k : ℤ, d = d' + k * s.period) ∧ ∃ k : ℤ, d = e + k * s.period
    let rep : ℝ → ℝ → ℝ := fun d' e => if hc : ∃ d, C d' e d then hc.choose else 0
    refine ⟨ds.flatMap fun d' => es.map (rep d'), ?_, fun d hd => ?_⟩
    · rw [List.length_flatMap]
      simp only [List.length_map, List.map_const', List.sum_replicate, smul_eq_mul, hl, hm, List.length_cons, pow_succ]
    · obtain ⟨d', hd', h1⟩ := hds d fun s hs => hd s (List.mem_cons_of_mem _ hs)
      obtain ⟨e, he, k, hk⟩ := hes d (hd s List.mem_cons_self)
      have hc : ∃ d, C d' e d := ⟨d, h1, k, hk⟩
      have hrep : rep d' e = hc.choose := dif_pos hc
      obtain ⟨c1, k', hk'⟩ := hc.choose_spec
      rw [← hrep] at c1 hk'
      refine ⟨rep d' e, List.mem_flatMap.mpr ⟨d', hd', List.mem_map.mpr ⟨e, he, rfl⟩⟩, fun t ht => ?_⟩
      rcases List.mem_cons.mp ht with rfl | ht
      · exact ⟨k - k', by push_cast; linarith⟩
      · obtain ⟨l, hl⟩ := h1 t ht
        obtain ⟨l', hl'⟩ := c1 t ht
        exact ⟨l - l', by push_cast; linarith⟩

/-- C163: if two of the measurements have incommensurate periods, finitely many thicknesses are left altogether. -/
theorem C163_incommensurate (zs : List Layer → ℝ → ℝ → Bool) (refl : Bool) {shots : List Shot}
    (h : ∀ s ∈ shots, s.Sound) {s t : Shot} (hs : s ∈ shots) (ht : t ∈ shots) (hirr : Irrational (s.period / t.period)) :
    ∃ ds : List ℝ, ds.length = candidates refl ^ shots.length ∧ ∀ d, (∀ s ∈ shots, s.Fits zs refl d) → d ∈ ds := by
  obtain ⟨ds, hl, hds⟩ := C163_finitely_many zs refl h
  refine ⟨ds, hl, fun d hd => ?_⟩
  obtain ⟨d', hd', hk⟩ := hds d hd
  obtain ⟨k, h1⟩ := hk s hs
  obtain ⟨l, h2⟩ := hk t ht
  have hP := (h s hs).period_pos
  have hQ := (h t ht).period_pos
  have h3 : (k : ℝ) * s.period = l * t.period := by linarith
  by_cases hk0 : k = 0
  · rw [h1, hk0]; simpa using hd'
  · exfalso
    refine hirr ⟨l / k, ?_⟩
    have : (k : ℝ) ≠ 0 := Int.cast_ne_zero.mpr hk0
    push_cast
    rw [div_eq_div_iff this hQ.ne']
    linarith

/-- C163, converse: if a length is a whole number of periods in every measurement, thicknesses that differ by it give
the same psi and delta in all of them, so that the measurements cannot tell the thickness. -/
theorem C163_commensurate (zs : List Layer → ℝ → ℝ → Bool) (refl : Bool) {shots : List Shot}
    (h : ∀ s ∈ shots, s.Sound) {L : ℝ} (hL : ∀ s ∈ shots, ∃ k : ℕ, L = k * s.period) {d : ℝ} (hd : 0 ≤ d) (m : ℕ) :
    ∀ s ∈ shots, ∀ rows rows', RowsOf rows (oneFilm s.n₀ s.n s.nb d) → RowsOf rows' (oneFilm s.n₀ s.n s.nb (d + m * L)) →
      ∃ x y, (deltaPsiTMM zs [s.a] rows s.wav s.off refl).1 = .ok [x] ∧
        (deltaPsiTMM zs [s.a] rows' s.wav s.off refl).1 = .ok [y] ∧ SamePD x y := by
  intro s hs rows rows' hr hr'
  have hh := h s hs
  obtain ⟨k, rfl⟩ := hL s hs
  have ph := physical_film hh.front hh.film hh.back (rad_lt hh.angle) hh.wav_pos hh.below hd
  refine C114_psi_delta (pre := []) (post := []) ph hh.below (m * k) hr ?_ zs s.off refl
  have e : d + m * (k * s.period) = d + ((m * k : ℕ) : ℝ) *
      (s.wav / (2 * Real.sqrt (s.n ^ 2 - (s.n₀ * Real.sin (rad s.a)) ^ 2))) := by
    rw [Shot.period, TMM.period]; push_cast; ring
  rw [e] at hr'
  exact hr'

/-- C163 for one angle and a film without dispersion: the periods are as the wavelengths. -/
theorem C163_wavelengths {s t : Shot} (hs : s.Sound) (h0 : t.n₀ = s.n₀) (hn : t.n = s.n) (ha : t.a = s.a)
    (ht : 0 < t.wav) : s.period / t.period = s.wav / t.wav := by
  have := hs.period_pos
  unfold Shot.period TMM.period at this ⊢
  rw [h0, hn, ha]
  set q := Real.sqrt (s.n ^ 2 - (s.n₀ * Real.sin (rad s.a)) ^ 2)
  have hq : q ≠ 0 := by
    intro hq
    rw [hq] at this
    simp at this
  field_simp

/-! ### Non-vacuity: the film of `ExFilm` at 480 nm and at `480 √2` nm -/

/-- A film whose two interfaces reflect differently reflects something, whatever its thickness. -/
theorem film_reflects {n₀ n nb θ lam d : ℝ} (h0 : 0 < n₀) (hn : 0 < n) (hb : 0 < nb) (hθ : |θ| < Real.pi / 2)
    (hl : 0 < lam) (hs : |n₀ * Real.sin θ| < n) (pol : Pol)
    (hne : ‖fresnelR pol n₀ n (Complex.cos θ) (root1m (n₀ * Complex.sin θ / n))‖ ≠
      ‖fresnelR pol n nb (root1m (n₀ * Complex.sin θ / n)) (root1m (n₀ * Complex.sin θ / nb))‖)
    (h1 : ‖fresnelR pol n₀ n (Complex.cos θ) (root1m (n₀ * Complex.sin θ / n))‖ *
      ‖fresnelR pol n nb (root1m (n₀ * Complex.sin θ / n)) (root1m (n₀ * Complex.sin θ / nb))‖ ≠ 1)
    {r t : ℂ} (hr : solveSt pol (oneFilm n₀ n nb d) θ lam = some (r, t)) : r ≠ 0 := by
  have h0' : (n₀ : ℂ) ≠ 0 := Complex.ofReal_ne_zero.mpr h0.ne'
  have hn' : (n : ℂ) ≠ 0 := Complex.ofReal_ne_zero.mpr hn.ne'
  have hb' : (nb : ℂ) ≠ 0 := Complex.ofReal_ne_zero.mpr hb.ne'
  have hnz : (oneFilm n₀ n nb d).NZ := ⟨h0', by simpa [oneFilm] using hn', hb'⟩
  have a1 := airy_code h0' hn' hb' hθ.le hl.ne' (coh_real (st := oneFilm n₀ n nb d) rfl hnz hl.ne' .inf .inf)
    (pol := pol) (r := r) (t := t) (by cases pol <;> exact hr) (film_phase_im hn hs hl)
  rintro rfl
  rw [eq_comm, div_eq_zero_iff] at a1
  have hE : ‖Complex.exp (2 * I * (2 * Real.pi * n * root1m (n₀ * Complex.sin θ / n) * d / lam))‖ = 1 := by
    rw [film_phase hn hs hl]
    rw [show (2 : ℂ) * I * ((Real.pi * (d / period n₀ n θ lam) : ℝ) : ℂ) =
      ((2 * (Real.pi * (d / period n₀ n θ lam)) : ℝ) : ℂ) * I by push_cast; ring]
    exact Complex.norm_exp_ofReal_mul_I _
  rcases a1 with a1 | a1
  · apply hne
    rw [eq_neg_of_add_eq_zero_left a1, norm_neg, norm_mul, hE, mul_one]
  · apply h1
    have := congrArg norm (eq_neg_of_add_eq_zero_right a1)
    rwa [norm_neg, norm_one, norm_mul, norm_mul, hE, mul_one] at this

theorem shot_roots : root1m (((1 : ℝ) : ℂ) * Complex.sin (rad filmAoi : ℝ) / ((39 / 25 : ℝ) : ℂ)) = ((12 / 13 : ℝ) : ℂ) ∧
    root1m (((1 : ℝ) : ℂ) * Complex.sin (rad filmAoi : ℝ) / ((15 / 7 : ℝ) : ℂ)) = ((24 / 25 : ℝ) : ℂ) ∧
    Complex.cos (rad filmAoi : ℝ) = ((4 / 5 : ℝ) : ℂ) := by
  have hsin : Real.sin (rad filmAoi) = 3 / 5 := by
    rw [film_rad, Real.sin_arcsin] <;> norm_num
  have hcos : Real.cos (rad filmAoi) = 4 / 5 := by
    rw [film_rad, Real.cos_arcsin, show (1 - (3 / 5 : ℝ) ^ 2) = (4 / 5) ^ 2 by norm_num, Real.sqrt_sq (by norm_num)]
  refine ⟨?_, ?_, by rw [← Complex.ofReal_cos, hcos]⟩
  · rw [← Complex.ofReal_sin, hsin, ← Complex.ofReal_mul, ← Complex.ofReal_div, root1m_ofReal_le,
      show (1 - ((1 * (3 / 5) / (39 / 25) : ℝ)) ^ 2) = (12 / 13) ^ 2 by norm_num, Real.sqrt_sq (by norm_num)]
    rw [abs_of_pos] <;> norm_num
  · rw [← Complex.ofReal_sin, hsin, ← Complex.ofReal_mul, ← Complex.ofReal_div, root1m_ofReal_le,
      show (1 - ((1 * (3 / 5) / (15 / 7) : ℝ)) ^ 2) = (24 / 25) ^ 2 by norm_num, Real.sqrt_sq (by norm_num)]
    rw [abs_of_pos] <;> norm_num

/-- The film of `ExFilm` reflects at every wavelength, whatever its thickness. -/
theorem shot_finite_at (zs : List Layer → ℝ → ℝ → Bool) {lam : ℝ} (hl : 0 < lam) {d : ℝ} (hd : 0 ≤ d) {rows : List Row}
    (hr : RowsOf rows (oneFilm 1 (39 / 25) ((15 / 7 : ℝ) : ℂ) d)) :
    ∃ ψ Δ, (deltaPsiTMM zs [filmAoi] rows lam 0 false).1 = .ok [(some ψ, some Δ)] := by
  have hpi := Real.pi_pos
  have h3 : |filmAoi| < 90 := by
    have h1 := Real.arcsin_lt_pi_div_two.mpr (by norm_num : (3 / 5 : ℝ) < 1)
    have h2 := Real.arcsin_pos.mpr (by norm_num : (0 : ℝ) < 3 / 5)
    have h3 : 0 < filmAoi := by unfold filmAoi; positivity
    rw [abs_of_pos h3]
    unfold filmAoi
    rw [← lt_div_iff₀ (by positivity)]
    calc Real.arcsin (3 / 5) < Real.pi / 2 := h1
      _ = 90 / (180 / Real.pi) := by field_simp; norm_num
  have hsin : Real.sin (rad filmAoi) = 3 / 5 := by
    rw [film_rad, Real.sin_arcsin] <;> norm_num
  have hs : |1 * Real.sin (rad filmAoi)| < 39 / 25 := by rw [hsin, abs_of_pos] <;> norm_num
  have hb : PassiveIndex ((15 / 7 : ℝ) : ℂ) := ⟨by norm_num, by simp⟩
  have ph := physical_film (n := 39 / 25) one_pos (by norm_num) hb (rad_lt h3) hl hs hd
  obtain ⟨rs, ts, e1⟩ := ph.solved .s
  obtain ⟨rp, tp, e2⟩ := ph.solved .p
  refine (C14_finite_iff (rows := rows) (st := oneFilm 1 (39 / 25) ((15 / 7 : ℝ) : ℂ) d) hr ph.nz hl.ne'
    zs false).mpr ⟨_, rs, ts, rp, tp, coh_real ph.front ph.nz hl.ne' .inf .inf, e1, e2, ?_, ?_⟩
  · refine film_reflects one_pos (by norm_num) (by norm_num) (rad_lt h3) hl hs .s ?_ ?_ e1 <;>
      · rw [shot_roots.1, shot_roots.2.1, shot_roots.2.2]
        simp only [fresnelR, ← Complex.ofReal_mul, ← Complex.ofReal_sub, ← Complex.ofReal_add, ← Complex.ofReal_div,
          Complex.norm_real]
        norm_num
  · refine film_reflects one_pos (by norm_num) (by norm_num) (rad_lt h3) hl hs .p ?_ ?_ e2 <;>
      · rw [shot_roots.1, shot_roots.2.1, shot_roots.2.2]
        simp only [fresnelR, ← Complex.ofReal_mul, ← Complex.ofReal_sub, ← Complex.ofReal_add, ← Complex.ofReal_div,
          Complex.norm_real]
        norm_num

theorem shot_finite (zs : List Layer → ℝ → ℝ → Bool) {lam : ℝ} (hl : 0 < lam) :
    ∃ ψ Δ, (deltaPsiTMM zs [filmAoi] filmRows lam 0 false).1 = .ok [(some ψ, some Δ)] :=
  shot_finite_at zs hl (by norm_num : (0 : ℝ) ≤ 125) filmRows_of

/-- Two measurements of that film, at wavelengths whose ratio is irrational; at most four thicknesses fit both, and 125
nm is one of them. -/
example (zs : List Layer → ℝ → ℝ → Bool) : ∃ s t : Shot, s.Sound ∧ t.Sound ∧ Irrational (s.period / t.period) ∧
    s.Fits zs false 125 ∧ t.Fits zs false 125 ∧
    ∃ ds : List ℝ, ds.length = 4 ∧ ∀ d, s.Fits zs false d → t.Fits zs false d → d ∈ ds := by
  have hpi := Real.pi_pos
  have hsin : Real.sin (rad filmAoi) = 3 / 5 := by
    rw [film_rad, Real.sin_arcsin] <;> norm_num
  have h1 := Real.arcsin_lt_pi_div_two.mpr (by norm_num : (3 / 5 : ℝ) < 1)
  have h2 := Real.arcsin_pos.mpr (by norm_num : (0 : ℝ) < 3 / 5)
  have h3 : 0 < filmAoi := by unfold filmAoi; positivity
  have h4 : |filmAoi| < 90 := by
    rw [abs_of_pos h3]
    unfold filmAoi
    rw [← lt_div_iff₀ (by positivity)]
    calc Real.arcsin (3 / 5) < Real.pi / 2 := h1
      _ = 90 / (180 / Real.pi) := by field_simp; norm_num
  have hq := Real.sqrt_pos.mpr (by norm_num : (0 : ℝ) < 2)
  have sound : ∀ {lam ψ Δ : ℝ}, 0 < lam → Shot.Sound ⟨1, 39 / 25, ((15 / 7 : ℝ) : ℂ), filmAoi, lam, 0, ψ, Δ⟩ := by
    intro lam ψ Δ hl
    refine ⟨one_pos, by norm_num, by norm_num, ⟨by norm_num, by simp⟩, ?_, h4, h3.ne', hl, ?_⟩
    · intro h
      have := Complex.ofReal_injective h
      norm_num at this
    · simp only
      rw [hsin, abs_of_pos] <;> norm_num
  obtain ⟨ψ, Δ, f1⟩ := shot_finite zs (lam := 480 * Real.sqrt 2) (by positivity)
  obtain ⟨ψ', Δ', f2⟩ := shot_finite zs (lam := 480) (by norm_num)
  let s : Shot := ⟨1, 39 / 25, ((15 / 7 : ℝ) : ℂ), filmAoi, 480 * Real.sqrt 2, 0, ψ, Δ⟩
  let t : Shot := ⟨1, 39 / 25, ((15 / 7 : ℝ) : ℂ), filmAoi, 480, 0, ψ', Δ'⟩
  have hs : s.Sound := sound (by positivity)
  have ht : t.Sound := sound (by norm_num)
  have hirr : Irrational (s.period / t.period) := by
    rw [C163_wavelengths (t := t) hs rfl rfl rfl ht.wav_pos]
    have : s.wav / t.wav = Real.sqrt 2 := by
      simp only [s, t]
      field_simp
    rw [this]
    exact irrational_sqrt_two
  have hall : ∀ x ∈ [s, t], x.Sound := by simp [hs, ht]
  obtain ⟨ds, hl, hds⟩ := C163_incommensurate zs false hall (s := s) (t := t) (by simp) (by simp) hirr
  exact ⟨s, t, hs, ht, hirr, ⟨filmRows, 0, filmRows_of, by simpa [s] using f1⟩,
    ⟨filmRows, 0, filmRows_of, by simpa [t] using f2⟩, ds, hl,
    fun d h1 h2 => hds d (by simp [h1, h2])⟩

end Verif.TMM
