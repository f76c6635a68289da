import Verif.TMM.PropsObs

/-!
# Interference (C114), scaling of all indices (C115)
-/

namespace Verif.TMM

open Complex (I)

/-! ### C114: a transparent film repeats -/

/-- Replacing a film by one whose phase factor is `k` times the old and `k² = 1`. -/
theorem fields_phase {pol : Pol} {a b : Medium} (hn : a.n = b.n) (hc : a.c = b.c) {k : ℂ}
    (h1 : Complex.exp (I * b.δ) = k * Complex.exp (I * a.δ))
    (h2 : Complex.exp (-(I * b.δ)) = k * Complex.exp (-(I * a.δ)))
    {L : List Medium} (hL : L ≠ []) {t : ℂ} (m : Medium) (v w : ℂ) :
    Fields pol m v w (a :: L) t → Fields pol m v w (b :: L) (k * t) := by
  rw [fields_cons hL, fields_cons hL]
  rintro ⟨v', w', ht, hf⟩
  refine ⟨v', w', (tangential_congr_right hn hc).mp ht, ?_⟩
  have := (fields_congr_left hn hc).mp (fields_scale k hf)
  rw [h1, h2, mul_left_comm, mul_left_comm w']
  exact this

/-- The normal component of the wavevector in a transparent film below its critical angle. -/
theorem film_transparent {n₀ θ n : ℝ} (hn : 0 < n) (hs : |n₀ * Real.sin θ| < n) :
    (n : ℂ) * root1m (((n₀ * Real.sin θ : ℝ) : ℂ) / n) =
      (Real.sqrt (n ^ 2 - (n₀ * Real.sin θ) ^ 2) : ℂ) := qOf_transparent_below hn hs.le

theorem codeMed_period {s : ℂ} {n₀ θ n lam : ℝ} (hse : s = ((n₀ * Real.sin θ : ℝ) : ℂ)) (hn : 0 < n)
    (hs : |n₀ * Real.sin θ| < n) (hl : lam ≠ 0) (d : ℝ) (k : ℕ) :
    (codeMed s lam ((n : ℂ), d + k * (lam / (2 * Real.sqrt (n ^ 2 - (n₀ * Real.sin θ) ^ 2))))).δ =
      (codeMed s lam ((n : ℂ), d)).δ + k * Real.pi := by
  have hpos : 0 < n ^ 2 - (n₀ * Real.sin θ) ^ 2 := by
    have := sq_lt_sq' (by linarith [neg_abs_le (n₀ * Real.sin θ), abs_nonneg (n₀ * Real.sin θ)] :
      -n < |n₀ * Real.sin θ|) hs
    rw [sq_abs] at this
    linarith
  have hq := film_transparent hn hs
  rw [← hse] at hq
  have hQ := Real.sqrt_pos.mpr hpos
  set Q := Real.sqrt (n ^ 2 - (n₀ * Real.sin θ) ^ 2)
  have raw : ∀ x : ℝ, (codeMed s lam ((n : ℂ), x)).δ = ((2 * Real.pi * Q / lam * x : ℝ) : ℂ) := by
    intro x
    have e : rawPhase s lam n x = ((2 * Real.pi * Q / lam * x : ℝ) : ℂ) := by
      unfold rawPhase
      rw [mul_assoc (2 * (Real.pi : ℂ)), hq]; push_cast; ring
    rw [codeMed_raw (by rw [e, Complex.ofReal_im]; norm_num), e]
  rw [raw, raw]
  have : 2 * Real.pi * Q / lam * (d + k * (lam / (2 * Q))) = 2 * Real.pi * Q / lam * d + k * Real.pi := by
    field_simp
  rw [this]
  push_cast
  ring

theorem Physical.thicken {n₀' nb : ℂ} {n d d' : ℝ} {pre post : List (ℂ × ℝ)} {n₀ θ lam : ℝ}
    (h : Physical ⟨n₀', pre ++ ((n : ℂ), d) :: post, nb⟩ n₀ θ lam) (hs : |n₀ * Real.sin θ| < n)
    (hd : 0 ≤ d') : Physical ⟨n₀', pre ++ ((n : ℂ), d') :: post, nb⟩ n₀ θ lam := by
  have hn := h.films ((n : ℂ), d) (by simp)
  have hcr := h.offCritical ((n : ℂ), d) (by simp)
  have hn0 : 0 < n := by simpa using hn.1.1
  refine ⟨h.front, h.n₀_pos, h.angle, h.lam_pos, fun f hf => ?_, h.back, fun f hf => ?_,
    fun f hf m hm => ?_⟩ <;> simp only [List.mem_append, List.mem_cons] at hf <;>
    rcases hf with h' | rfl | h'
  · exact h.films f (by simp [h'])
  · exact ⟨hn.1, hd⟩
  · exact h.films f (by simp [h'])
  · exact h.offCritical f (by simp [h'])
  · exact hcr
  · exact h.offCritical f (by simp [h'])
  · exact h.mild f (by simp [h']) m hm
  · -- a real phase
    obtain ⟨-, h2, h3⟩ := hm
    have hsr := h.sreal
    simp only at h2 h3 hsr
    rw [hsr, ← Complex.ofReal_div, ← Complex.ofReal_pow, ← Complex.ofReal_one, ← Complex.ofReal_sub] at h2
    have hx : 0 ≤ 1 - (n₀ * Real.sin θ / n) ^ 2 := by
      have : |n₀ * Real.sin θ / n| ≤ 1 := by
        rw [abs_div, abs_of_pos hn0]; exact (div_le_one hn0).mpr hs.le
      nlinarith [sq_abs (n₀ * Real.sin θ / n), abs_nonneg (n₀ * Real.sin θ / n)]
    have him : m.c.im = 0 := by
      have e1 := congrArg Complex.re h2
      have e2 := congrArg Complex.im h2
      rw [sq, Complex.mul_re, Complex.ofReal_re] at e1
      rw [sq, Complex.mul_im, Complex.ofReal_im] at e2
      have : m.c.re * m.c.im = 0 := by linarith
      rcases mul_eq_zero.mp this with e | e
      · rw [e] at e1
        have : m.c.im * m.c.im ≤ 0 := by linarith
        nlinarith [mul_self_nonneg m.c.im]
      · exact e
    have hm : m.δ = ((2 * Real.pi * n * d' / lam : ℝ) : ℂ) * m.c := by rw [h3]; push_cast; ring
    rw [hm, Complex.im_ofReal_mul, him, mul_zero]
    exact (Real.sinh_nonneg_iff.mpr (by norm_num))
  · exact h.mild f (by simp [h']) m hm

theorem exp_period (δ : ℂ) (k : ℕ) :
    Complex.exp (I * (δ + k * Real.pi)) = (-1) ^ k * Complex.exp (I * δ) ∧
    Complex.exp (-(I * (δ + k * Real.pi))) = (-1) ^ k * Complex.exp (-(I * δ)) := by
  have e1 : Complex.exp (k * (Real.pi * I)) = (-1) ^ k := by
    rw [Complex.exp_nat_mul, Complex.exp_pi_mul_I]
  have e2 : Complex.exp (-(k * (Real.pi * I))) = (-1) ^ k := by
    rw [Complex.exp_neg, e1, ← inv_pow, inv_neg, inv_one]
  constructor
  · rw [show I * (δ + k * Real.pi) = k * (Real.pi * I) + I * δ by ring, Complex.exp_add, e1]
  · rw [show -(I * (δ + k * Real.pi)) = -(k * (Real.pi * I)) + -(I * δ) by ring, Complex.exp_add, e2]

theorem solveSt_period {pol : Pol} {n₀' nb : ℂ} {n d : ℝ} {pre post : List (ℂ × ℝ)} {n₀ θ lam : ℝ}
    (h0 : n₀' = n₀) (hn : 0 < n) (hs : |n₀ * Real.sin θ| < n) (hl : lam ≠ 0) (k : ℕ) {r t r' t' : ℂ}
    (h : solveSt pol ⟨n₀', pre ++ ((n : ℂ), d) :: post, nb⟩ θ lam = some (r, t))
    (h' : solveSt pol ⟨n₀', pre ++ ((n : ℂ), d +
        k * (lam / (2 * Real.sqrt (n ^ 2 - (n₀ * Real.sin θ) ^ 2)))) :: post, nb⟩ θ lam = some (r', t')) :
    r = r' ∧ (-1) ^ k * t = t' := by
  have hse : n₀' * Complex.sin θ = ((n₀ * Real.sin θ : ℝ) : ℂ) := by rw [h0]; push_cast; rfl
  have hp := codeMed_period hse hn hs hl d k
  obtain ⟨e1, e2⟩ := exp_period (codeMed (n₀' * Complex.sin θ) lam ((n : ℂ), d)).δ k
  rw [← hp] at e1 e2
  rw [solveSt_eq] at h h'
  simp only [filmsM, frontM, backM, List.map_append, List.map_cons, List.append_assoc,
    List.cons_append] at h h'
  refine solveL_agree h h' fun hf => ?_
  refine fields_context (by simp) (by simp) ?_ _ _ _ _ hf
  refine fields_phase ?_ ?_ e1 e2 (by simp)
  · rfl
  · rfl

/-- C114: reflection from a stack is periodic in the thickness of a transparent film: adding a
multiple of `λ / (2 n cos θ')` changes no reflection amplitude and at most the sign of the transmission
amplitude (`n cos θ' = √(n² - (n₀ sin θ)²)`). -/
theorem C114_amplitudes {n₀' nb : ℂ} {n d : ℝ} {pre post : List (ℂ × ℝ)} {n₀ θ lam : ℝ}
    (h : Physical ⟨n₀', pre ++ ((n : ℂ), d) :: post, nb⟩ n₀ θ lam) (hs : |n₀ * Real.sin θ| < n) (k : ℕ)
    (d0 db d0' db' : Thick) :
    ∃ a a', cohTmm (Stack.layers ⟨n₀', pre ++ ((n : ℂ), d) :: post, nb⟩ d0 db) [((θ : ℂ), lam)] = .ok [a] ∧
      cohTmm (Stack.layers ⟨n₀', pre ++ ((n : ℂ), d +
        k * (lam / (2 * Real.sqrt (n ^ 2 - (n₀ * Real.sin θ) ^ 2)))) :: post, nb⟩ d0' db') [((θ : ℂ), lam)] =
          .ok [a'] ∧
      ∀ pol, ∃ r t, a.of pol = some (r, t) ∧ a'.of pol = some (r, (-1) ^ k * t) := by
  have hn : 0 < n := by simpa using (h.films ((n : ℂ), d) (by simp)).1.1
  have hd : 0 ≤ d := (h.films ((n : ℂ), d) (by simp)).2
  have h' := h.thicken (d' := d + k * (lam / (2 * Real.sqrt (n ^ 2 - (n₀ * Real.sin θ) ^ 2)))) hs
    (by have := h.lam_pos; positivity)
  refine ⟨_, _, coh_real h.front h.nz h.lam_pos.ne' _ _, coh_real h'.front h'.nz h'.lam_pos.ne' _ _, ?_⟩
  intro pol
  obtain ⟨r, t, h1⟩ := h.solved pol
  obtain ⟨r', t', h2⟩ := h'.solved pol
  obtain ⟨rfl, rfl⟩ := solveSt_period h.front hn hs h.lam_pos.ne' k h1 h2
  exact ⟨r, t, by cases pol <;> exact h1, by cases pol <;> exact h2⟩

/-- C114 for the observables: psi and delta are periodic in the thickness of a transparent film. -/
theorem C114_psi_delta {n₀' nb : ℂ} {n d : ℝ} {pre post : List (ℂ × ℝ)} {n₀ a wav : ℝ}
    (h : Physical ⟨n₀', pre ++ ((n : ℂ), d) :: post, nb⟩ n₀ (rad a) wav) (hs : |n₀ * Real.sin (rad a)| < n)
    (k : ℕ) {rows rows' : List Row}
    (hr : RowsOf rows ⟨n₀', pre ++ ((n : ℂ), d) :: post, nb⟩)
    (hr' : RowsOf rows' ⟨n₀', pre ++ ((n : ℂ), d +
        k * (wav / (2 * Real.sqrt (n ^ 2 - (n₀ * Real.sin (rad a)) ^ 2)))) :: post, nb⟩)
    (zs : List Layer → ℝ → ℝ → Bool) (off : ℝ) (refl : Bool) :
    ∃ x y, (deltaPsiTMM zs [a] rows wav off refl).1 = .ok [x] ∧
      (deltaPsiTMM zs [a] rows' wav off refl).1 = .ok [y] ∧ SamePD x y := by
  have hn : 0 < n := by simpa using (h.films ((n : ℂ), d) (by simp)).1.1
  have hd : 0 ≤ d := (h.films ((n : ℂ), d) (by simp)).2
  have h' := h.thicken (d' := d + k * (wav / (2 * Real.sqrt (n ^ 2 - (n₀ * Real.sin (rad a)) ^ 2)))) hs
    (by have := h.lam_pos; positivity)
  refine samePD_of_scale hr hr' h h' zs refl one_ne_zero ?_
  intro pol r t r' t' e1 e2
  rw [one_mul]
  exact (solveSt_period h.front hn hs h.lam_pos.ne' k e1 e2).1

/-- Non-vacuity: a film of index 3 on a substrate at normal incidence, under an absorbing film. -/
example : Physical ⟨((1 : ℝ) : ℂ), [(2 + I, 10)] ++ (((3 : ℝ) : ℂ), 10) :: [], 3⟩ 1 (rad 0) 500 ∧
    |(1 : ℝ) * Real.sin (rad 0)| < 3 :=
  ⟨exPhysical _ (by simp), by simp [rad]⟩

/-! ### C115: only ratios of indices matter -/

/-- All indices of a stack multiplied by `c`. -/
def Stack.scale (c : ℝ) (st : Stack) : Stack :=
  ⟨c * st.front, st.films.map fun f => (c * f.1, f.2), c * st.back⟩

theorem fields_nscale {pol : Pol} {c : ℂ} {t : ℂ} : ∀ {L : List Medium} {m : Medium} {v w : ℂ},
    Fields pol m v w L t →
      Fields pol ⟨c * m.n, m.c, m.δ⟩ v w (L.map fun m => ⟨c * m.n, m.c, m.δ⟩) t := by
  have tang : ∀ {m m' : Medium} {v w v' w' : ℂ}, Tangential pol m m' v w v' w' →
      Tangential pol ⟨c * m.n, m.c, m.δ⟩ ⟨c * m'.n, m'.c, m'.δ⟩ v w v' w' := by
    intro m m' v w v' w' h
    cases pol
    · exact ⟨h.1, by linear_combination c * h.2⟩
    · exact ⟨by linear_combination c * h.1, h.2⟩
  intro L
  induction L with
  | nil => intro m v w h; exact h
  | cons b L ih =>
    intro m v w h
    cases L with
    | nil => exact tang h
    | cons b' L =>
      rw [fields_cons (by simp)] at h
      rw [List.map_cons, fields_cons (by simp)]
      obtain ⟨v', w', h1, h2⟩ := h
      exact ⟨v', w', tang h1, ih h2⟩

theorem solveSt_nscale {pol : Pol} {st : Stack} {θ : ℂ} {lam c : ℝ} (hc : c ≠ 0) {r t r' t' : ℂ}
    (h : solveSt pol st θ lam = some (r, t))
    (h' : solveSt pol (st.scale c) θ (c * lam) = some (r', t')) : r = r' ∧ t = t' := by
  have hc' : (c : ℂ) ≠ 0 := Complex.ofReal_ne_zero.mpr hc
  rw [solveSt_eq] at h h'
  have e : filmsM (st.scale c) θ (c * lam) ++ [backM (st.scale c) θ] =
      (filmsM st θ lam ++ [backM st θ]).map fun m => ⟨c * m.n, m.c, m.δ⟩ := by
    simp only [filmsM, backM, Stack.scale, List.map_append, List.map_map, List.map_cons, List.map_nil]
    congr 1
    · apply List.map_congr_left
      intro f _
      have e1 : c * st.front * Complex.sin θ / (c * f.1) = st.front * Complex.sin θ / f.1 := by
        rw [mul_assoc, mul_div_mul_left _ _ hc']
      simp only [Function.comp, codeMed, e1, Medium.mk.injEq, true_and]
      congr 1
      rw [show (2 * Real.pi * (c * f.1) * root1m (st.front * Complex.sin θ / f.1) : ℂ) =
        c * (2 * Real.pi * f.1 * root1m (st.front * Complex.sin θ / f.1)) by ring, Complex.ofReal_mul,
        mul_div_mul_left _ _ hc']
    · rw [mul_assoc, mul_div_mul_left _ _ hc']
  rw [e] at h'
  have := (solveL_spec h').2 _ _ _ (fields_nscale (c := c) (solveL_spec h).1)
  simpa using this

theorem Physical.scale {st : Stack} {n₀ θ lam c : ℝ} (h : Physical st n₀ θ lam) (hc : 0 < c) :
    Physical (st.scale c) (c * n₀) θ (c * lam) := by
  have hc' : (c : ℂ) ≠ 0 := Complex.ofReal_ne_zero.mpr hc.ne'
  have pas : ∀ n : ℂ, PassiveIndex n → PassiveIndex (c * n) := by
    intro n hn
    exact ⟨by rw [Complex.re_ofReal_mul]; exact mul_pos hc hn.1,
      by rw [Complex.im_ofReal_mul]; exact mul_nonneg hc.le hn.2⟩
  refine ⟨by simp [Stack.scale, h.front], mul_pos hc h.n₀_pos, h.angle, mul_pos hc h.lam_pos, ?_,
    pas _ h.back, ?_, ?_⟩
  · intro f hf
    obtain ⟨g, hg, rfl⟩ := List.mem_map.mp hf
    exact ⟨pas _ (h.films g hg).1, (h.films g hg).2⟩
  · intro f hf
    obtain ⟨g, hg, rfl⟩ := List.mem_map.mp hf
    intro e
    apply h.offCritical g hg
    simp only [Stack.scale] at e
    have : (c : ℂ) ^ 2 * g.1 ^ 2 = (c : ℂ) ^ 2 * (st.front * Complex.sin θ) ^ 2 := by linear_combination e
    exact mul_left_cancel₀ (pow_ne_zero 2 hc') this
  · intro f hf m hm
    obtain ⟨g, hg, rfl⟩ := List.mem_map.mp hf
    obtain ⟨h1, h2, h3⟩ := hm
    have e1 : (st.scale c).front * Complex.sin θ / (c * g.1) = st.front * Complex.sin θ / g.1 := by
      simp only [Stack.scale]
      rw [mul_assoc, mul_div_mul_left _ _ hc']
    refine h.mild g hg ⟨g.1, m.c, m.δ⟩ ⟨rfl, by rw [← e1]; exact h2, ?_⟩
    simp only at h3 ⊢
    rw [h3, show (2 * Real.pi * (c * g.1) * m.c * g.2 : ℂ) = c * (2 * Real.pi * g.1 * m.c * g.2) by ring,
      Complex.ofReal_mul, mul_div_mul_left _ _ hc']

/-- C115: multiplying all refractive indices and the wavelength by the same factor changes no amplitude. -/
theorem C115_amplitudes {st : Stack} {n₀ θ lam c : ℝ} (h : Physical st n₀ θ lam) (hc : 0 < c)
    (d0 db d0' db' : Thick) :
    ∃ a, cohTmm (st.layers d0 db) [((θ : ℂ), lam)] = .ok [a] ∧
      cohTmm ((st.scale c).layers d0' db') [((θ : ℂ), c * lam)] = .ok [a] ∧
      ∀ pol, ∃ r t, a.of pol = some (r, t) := by
  have h' := h.scale hc
  have key : ∀ pol, solveSt pol st θ lam = solveSt pol (st.scale c) θ (c * lam) := by
    intro pol
    obtain ⟨r, t, h1⟩ := h.solved pol
    obtain ⟨r', t', h2⟩ := h'.solved pol
    obtain ⟨rfl, rfl⟩ := solveSt_nscale hc.ne' h1 h2
    rw [h1, h2]
  refine ⟨_, coh_real h.front h.nz h.lam_pos.ne' _ _, ?_, ?_⟩
  · rw [coh_real h'.front h'.nz h'.lam_pos.ne', key, key]
  · intro pol
    obtain ⟨r, t, h1⟩ := h.solved pol
    exact ⟨r, t, by cases pol <;> exact h1⟩

/-- C115 for the observables: psi and delta depend on the ratios of the indices only, if the wavelength is
scaled along; so a stack in a fronting medium of index `n₀` looks like one with all indices divided by `n₀` in
vacuum at wavelength `λ / n₀`. -/
theorem C115_psi_delta {st : Stack} {n₀ a wav c : ℝ} (h : Physical st n₀ (rad a) wav) (hc : 0 < c)
    {rows rows' : List Row} (hr : RowsOf rows st) (hr' : RowsOf rows' (st.scale c))
    (zs : List Layer → ℝ → ℝ → Bool) (off : ℝ) (refl : Bool) :
    ∃ x y, (deltaPsiTMM zs [a] rows wav off refl).1 = .ok [x] ∧
      (deltaPsiTMM zs [a] rows' (c * wav) off refl).1 = .ok [y] ∧ SamePD x y := by
  have h' := h.scale hc
  rw [deltaPsi_rows hr h.nz h.lam_pos.ne', deltaPsi_rows hr' h'.nz h'.lam_pos.ne']
  obtain ⟨rs, ts, h1⟩ := h.solved .s
  obtain ⟨rp, tp, h2⟩ := h.solved .p
  obtain ⟨rs', ts', h1'⟩ := h'.solved .s
  obtain ⟨rp', tp', h2'⟩ := h'.solved .p
  obtain ⟨rfl, rfl⟩ := solveSt_nscale hc.ne' h1 h1'
  obtain ⟨rfl, rfl⟩ := solveSt_nscale hc.ne' h2 h2'
  refine ⟨_, _, rfl, rfl, ?_⟩
  simp only [h1, h2, h1', h2']
  exact psiDelta_same

/-- Non-vacuity: an absorbing film on a substrate, all indices doubled. -/
example : Physical ⟨((1 : ℝ) : ℂ), [(2 + I, 10)], 3⟩ 1 (rad 0) 500 ∧ (0 : ℝ) < 2 ∧
    Stack.scale 2 ⟨1, [(2 + I, 10)], 3⟩ = ⟨2, [(4 + 2 * I, 10)], 6⟩ :=
  ⟨exPhysical _ (by simp), by norm_num, by simp only [Stack.scale, List.map_cons, List.map_nil]; norm_num; ring⟩

end Verif.TMM
