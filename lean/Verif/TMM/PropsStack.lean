import Verif.TMM.DPLemmas

/-!
# C04, C05, C06, C07: layers that cannot be seen
-/

namespace Verif.TMM

open Complex (I)

/-- A stack with fewer films is still physical. -/
theorem Physical.mono {st : Stack} {n₀ θ lam : ℝ} (h : Physical st n₀ θ lam)
    {fs : List (ℂ × ℝ)} (hs : ∀ f ∈ fs, f ∈ st.films) :
    Physical ⟨st.front, fs, st.back⟩ n₀ θ lam :=
  ⟨h.front, h.n₀_pos, h.angle, h.lam_pos, fun f hf => h.films f (hs f hf), h.back,
    fun f hf => h.offCritical f (hs f hf), fun f hf => h.mild f (hs f hf)⟩

theorem codeMed_zero (s : ℂ) (lam : ℝ) (n : ℂ) : (codeMed s lam (n, 0)).δ = 0 := by
  simp only [codeMed, Complex.ofReal_zero, mul_zero]
  exact clip35_of_le (by simp)

/-! ### C04: a layer of zero thickness -/

theorem solveSt_zero_thickness {pol : Pol} {n₀ nb n : ℂ} {pre post : List (ℂ × ℝ)} {θ : ℂ}
    {lam : ℝ} {r t r' t' : ℂ}
    (h : solveSt pol ⟨n₀, pre ++ (n, 0) :: post, nb⟩ θ lam = some (r, t))
    (h' : solveSt pol ⟨n₀, pre ++ post, nb⟩ θ lam = some (r', t')) : r = r' ∧ t = t' := by
  rw [solveSt_eq] at h h'
  simp only [filmsM, frontM, backM, List.map_append, List.map_cons, List.append_assoc,
    List.cons_append] at h h'
  refine solveL_agree h h' fun hf => ?_
  exact fields_context (by simp) (by simp)
    (fields_remove_zero (codeMed_zero _ _ _) (by simp)) _ _ _ _ hf

/-- C04, any complex indices: inserting a layer of zero thickness anywhere changes neither
amplitude (whenever both calculations are finite). -/
theorem C04_zero_thickness {n₀ nb n : ℂ} {pre post : List (ℂ × ℝ)} {θ : ℂ} {lam : ℝ}
    (hnz : Stack.NZ ⟨n₀, pre ++ (n, 0) :: post, nb⟩) (hl : lam ≠ 0) {d0 db d0' db' : Thick}
    {a a' : Amps}
    (ha : cohTmm (Stack.layers ⟨n₀, pre ++ (n, 0) :: post, nb⟩ d0 db) [(θ, lam)] = .ok [a])
    (ha' : cohTmm (Stack.layers ⟨n₀, pre ++ post, nb⟩ d0' db') [(θ, lam)] = .ok [a'])
    {pol : Pol} {x y : ℂ × ℂ} (hx : a.of pol = some x) (hy : a'.of pol = some y) : x = y := by
  have hnz' : Stack.NZ ⟨n₀, pre ++ post, nb⟩ := by
    refine ⟨hnz.1, fun f hf => hnz.2.1 f ?_, hnz.2.2⟩
    rcases List.mem_append.mp hf with h | h
    · exact List.mem_append.mpr (.inl h)
    · exact List.mem_append.mpr (.inr (List.mem_cons_of_mem _ h))
  rw [coh_of hnz hl ha] at hx
  rw [coh_of hnz' hl ha'] at hy
  have := solveSt_zero_thickness (r := x.1) (t := x.2) (r' := y.1) (t' := y.2) hx hy
  exact Prod.ext this.1 this.2

theorem Physical.drop_zero {n₀' nb n : ℂ} {pre post : List (ℂ × ℝ)} {d : ℝ} {n₀ θ lam : ℝ}
    (h : Physical ⟨n₀', pre ++ (n, d) :: post, nb⟩ n₀ θ lam) :
    Physical ⟨n₀', pre ++ post, nb⟩ n₀ θ lam :=
  h.mono fun f hf => by
    rcases List.mem_append.mp hf with h | h
    · exact List.mem_append.mpr (.inl h)
    · exact List.mem_append.mpr (.inr (List.mem_cons_of_mem _ h))

/-- C04 for physical stacks: both calculations succeed and give the same amplitudes. -/
theorem C04_zero_thickness_physical {n₀' nb n : ℂ} {pre post : List (ℂ × ℝ)} {n₀ θ lam : ℝ}
    (h : Physical ⟨n₀', pre ++ (n, 0) :: post, nb⟩ n₀ θ lam) (d0 db d0' db' : Thick) :
    ∃ a, cohTmm (Stack.layers ⟨n₀', pre ++ (n, 0) :: post, nb⟩ d0 db) [((θ : ℂ), lam)] = .ok [a] ∧
      cohTmm (Stack.layers ⟨n₀', pre ++ post, nb⟩ d0' db') [((θ : ℂ), lam)] = .ok [a] ∧
      ∀ pol, ∃ r t, a.of pol = some (r, t) := by
  obtain ⟨a, ha, hf⟩ := C10_coh_tmm_finite h d0 db
  obtain ⟨a', ha', hf'⟩ := C10_coh_tmm_finite h.drop_zero d0' db'
  have key : ∀ pol, a.of pol = a'.of pol := by
    intro pol
    obtain ⟨r, t, hr⟩ := hf pol
    obtain ⟨r', t', hr'⟩ := hf' pol
    rw [hr, hr', C04_zero_thickness h.nz h.lam_pos.ne' ha ha' hr hr']
  have : a = a' := by
    cases a; cases a'
    have h1 := key .s
    have h2 := key .p
    simp only [Amps.of] at h1 h2
    rw [h1, h2]
  subst this
  exact ⟨a, ha, ha', hf⟩

/-- The (psi, delta) of two arrays whose amplitudes differ by a common factor. -/
theorem samePD_of_scale {rows rows' : List Row} {st st' : Stack} (hr : RowsOf rows st)
    (hr' : RowsOf rows' st') {n₀ n₀' wav a off : ℝ} (h : Physical st n₀ (rad a) wav)
    (h' : Physical st' n₀' (rad a) wav) (zs : List Layer → ℝ → ℝ → Bool) (refl : Bool)
    {k : ℂ} (hk : k ≠ 0)
    (he : ∀ pol r t r' t', solveSt pol st (rad a) wav = some (r, t) →
      solveSt pol st' (rad a) wav = some (r', t') → r = k * r') :
    ∃ x y, (deltaPsiTMM zs [a] rows wav off refl).1 = .ok [x] ∧
      (deltaPsiTMM zs [a] rows' wav off refl).1 = .ok [y] ∧ SamePD x y := by
  rw [deltaPsi_rows hr h.nz h.lam_pos.ne', deltaPsi_rows hr' h'.nz h'.lam_pos.ne']
  obtain ⟨rs, ts, h1⟩ := h.solved .s
  obtain ⟨rp, tp, h2⟩ := h.solved .p
  obtain ⟨rs', ts', h1'⟩ := h'.solved .s
  obtain ⟨rp', tp', h2'⟩ := h'.solved .p
  have e1 := he _ _ _ _ _ h1 h1'
  have e2 := he _ _ _ _ _ h2 h2'
  refine ⟨_, _, rfl, rfl, ?_⟩
  simp only [h1, h2, h1', h2', e1, e2]
  exact psiDelta_scale hk

/-- C04 at the level of the observables: a layer of zero thickness does not change (psi, delta). -/
theorem C04_psi_delta {n₀' nb n : ℂ} {pre post : List (ℂ × ℝ)} {n₀ a wav : ℝ}
    (h : Physical ⟨n₀', pre ++ (n, 0) :: post, nb⟩ n₀ (rad a) wav) {rows rows' : List Row}
    (hr : RowsOf rows ⟨n₀', pre ++ (n, 0) :: post, nb⟩)
    (hr' : RowsOf rows' ⟨n₀', pre ++ post, nb⟩) (zs : List Layer → ℝ → ℝ → Bool) (off : ℝ)
    (refl : Bool) :
    ∃ x y, (deltaPsiTMM zs [a] rows wav off refl).1 = .ok [x] ∧
      (deltaPsiTMM zs [a] rows' wav off refl).1 = .ok [y] ∧ SamePD x y := by
  refine samePD_of_scale hr hr' h h.drop_zero zs refl one_ne_zero ?_
  intro pol r t r' t' h1 h2
  rw [one_mul]
  exact (solveSt_zero_thickness h1 h2).1

/-! ### C05: splitting a layer -/

/-- The phase of a film, before the clip. -/
noncomputable def rawPhase (s : ℂ) (lam : ℝ) (n : ℂ) (d : ℝ) : ℂ :=
  2 * Real.pi * n * root1m (s / n) / lam * d

theorem rawPhase_isFilm (s : ℂ) (lam : ℝ) (n : ℂ) (d : ℝ) :
    IsFilm s lam (n, d) ⟨n, root1m (s / n), rawPhase s lam n d⟩ :=
  ⟨rfl, root1m_sq _, by simp only [rawPhase]; ring⟩

theorem codeMed_raw {s : ℂ} {lam : ℝ} {n : ℂ} {d : ℝ} (h : (rawPhase s lam n d).im ≤ 35) :
    (codeMed s lam (n, d)).δ = rawPhase s lam n d := by
  simp only [codeMed]
  exact clip35_of_le h

theorem solveSt_split {pol : Pol} {n₀ nb n : ℂ} {d₁ d₂ : ℝ} {pre post : List (ℂ × ℝ)} {θ : ℂ}
    {lam : ℝ} (hn : n ≠ 0) (hcrit : n ^ 2 ≠ (n₀ * Complex.sin θ) ^ 2)
    (hc : ∀ d ∈ [d₁, d₂, d₁ + d₂], (rawPhase (n₀ * Complex.sin θ) lam n d).im ≤ 35)
    {r t r' t' : ℂ}
    (h : solveSt pol ⟨n₀, pre ++ (n, d₁) :: (n, d₂) :: post, nb⟩ θ lam = some (r, t))
    (h' : solveSt pol ⟨n₀, pre ++ (n, d₁ + d₂) :: post, nb⟩ θ lam = some (r', t')) :
    r = r' ∧ t = t' := by
  rw [solveSt_eq] at h h'
  simp only [filmsM, frontM, backM, List.map_append, List.map_cons, List.append_assoc,
    List.cons_append] at h h'
  refine solveL_agree h h' fun hf => ?_
  refine fields_context (by simp) (by simp) ?_ _ _ _ _ hf
  refine fields_merge (a := codeMed (n₀ * Complex.sin θ) lam (n, d₁))
    (b := codeMed (n₀ * Complex.sin θ) lam (n, d₂))
    (c := codeMed (n₀ * Complex.sin θ) lam (n, d₁ + d₂)) rfl rfl rfl rfl ?_ ?_ ?_
  · rw [codeMed_raw (hc _ (by simp)), codeMed_raw (hc _ (by simp)), codeMed_raw (hc _ (by simp))]
    simp only [rawPhase]; push_cast; ring
  · simp only [codeMed]
    intro h0
    have h1 : (n * root1m (n₀ * Complex.sin θ / n)) ^ 2 = n ^ 2 - (n₀ * Complex.sin θ) ^ 2 := by
      rw [mul_pow, root1m_sq]; field_simp
    rw [h0] at h1
    apply hcrit
    have : n ^ 2 - (n₀ * Complex.sin θ) ^ 2 = 0 := by rw [← h1]; simp
    exact sub_eq_zero.mp this
  · simp

/-- C05 (partial): replacing a layer by two layers of the same index whose thicknesses add up
changes neither amplitude, provided no attenuation exponent reaches the clip at 35.
Missing: attenuation exponents above 35, where the claim is false (`C05_clip_breaks_split`). -/
theorem C05_split_partial {n₀ nb n : ℂ} {d₁ d₂ : ℝ} {pre post : List (ℂ × ℝ)} {θ : ℂ} {lam : ℝ}
    (hnz : Stack.NZ ⟨n₀, pre ++ (n, d₁ + d₂) :: post, nb⟩) (hl : lam ≠ 0)
    (hcrit : n ^ 2 ≠ (n₀ * Complex.sin θ) ^ 2)
    (hc : ∀ d ∈ [d₁, d₂, d₁ + d₂], ∀ m, IsFilm (n₀ * Complex.sin θ) lam (n, d) m → m.δ.im ≤ 35)
    {d0 db d0' db' : Thick} {a a' : Amps}
    (ha : cohTmm (Stack.layers ⟨n₀, pre ++ (n, d₁) :: (n, d₂) :: post, nb⟩ d0 db) [(θ, lam)]
      = .ok [a])
    (ha' : cohTmm (Stack.layers ⟨n₀, pre ++ (n, d₁ + d₂) :: post, nb⟩ d0' db') [(θ, lam)]
      = .ok [a'])
    {pol : Pol} {x y : ℂ × ℂ} (hx : a.of pol = some x) (hy : a'.of pol = some y) : x = y := by
  have hnz' : Stack.NZ ⟨n₀, pre ++ (n, d₁) :: (n, d₂) :: post, nb⟩ := by
    refine ⟨hnz.1, fun f hf => ?_, hnz.2.2⟩
    have hn := hnz.2.1 (n, d₁ + d₂) (by simp)
    simp only [List.mem_append, List.mem_cons] at hf
    rcases hf with h | rfl | rfl | h
    · exact hnz.2.1 f (by simp [h])
    · exact hn
    · exact hn
    · exact hnz.2.1 f (by simp [h])
  rw [coh_of hnz' hl ha] at hx
  rw [coh_of hnz hl ha'] at hy
  have := solveSt_split (r := x.1) (t := x.2) (r' := y.1) (t' := y.2)
    (hnz.2.1 (n, d₁ + d₂) (by simp)) hcrit
    (fun d hd => hc d hd _ (rawPhase_isFilm _ _ _ _)) hx hy
  exact Prod.ext this.1 this.2

theorem Physical.split {n₀' nb n : ℂ} {d₁ d₂ : ℝ} {pre post : List (ℂ × ℝ)} {n₀ θ lam : ℝ}
    (h : Physical ⟨n₀', pre ++ (n, d₁ + d₂) :: post, nb⟩ n₀ θ lam)
    (h₁ : 0 ≤ d₁) (h₂ : 0 ≤ d₂)
    (hc : ∀ d ∈ [d₁, d₂, d₁ + d₂], ∀ m, IsFilm (n₀' * Complex.sin θ) lam (n, d) m → m.δ.im ≤ 35) :
    Physical ⟨n₀', pre ++ (n, d₁) :: (n, d₂) :: post, nb⟩ n₀ θ lam := by
  have hn := h.films (n, d₁ + d₂) (by simp)
  have hcr := h.offCritical (n, d₁ + d₂) (by simp)
  have h35 : (35 : ℝ) ≤ Real.sinh 35 := Real.self_le_sinh_iff.mpr (by norm_num)
  refine ⟨h.front, h.n₀_pos, h.angle, h.lam_pos, fun f hf => ?_, h.back, fun f hf => ?_,
    fun f hf m hm => ?_⟩ <;> simp only [List.mem_append, List.mem_cons] at hf <;>
    rcases hf with h' | rfl | rfl | h'
  · exact h.films f (by simp [h'])
  · exact ⟨hn.1, h₁⟩
  · exact ⟨hn.1, h₂⟩
  · exact h.films f (by simp [h'])
  · exact h.offCritical f (by simp [h'])
  · exact hcr
  · exact hcr
  · exact h.offCritical f (by simp [h'])
  · exact h.mild f (by simp [h']) m hm
  · exact (hc _ (by simp) m hm).trans h35
  · exact (hc _ (by simp) m hm).trans h35
  · exact h.mild f (by simp [h']) m hm

/-- C05 (partial) for the observables: splitting does not change (psi, delta); same restriction. -/
theorem C05_psi_delta_partial {n₀' nb n : ℂ} {d₁ d₂ : ℝ} {pre post : List (ℂ × ℝ)} {n₀ a wav : ℝ}
    (h : Physical ⟨n₀', pre ++ (n, d₁ + d₂) :: post, nb⟩ n₀ (rad a) wav)
    (h₁ : 0 ≤ d₁) (h₂ : 0 ≤ d₂)
    (hc : ∀ d ∈ [d₁, d₂, d₁ + d₂], ∀ m, IsFilm (n₀' * Complex.sin (rad a)) wav (n, d) m →
      m.δ.im ≤ 35) {rows rows' : List Row}
    (hr : RowsOf rows ⟨n₀', pre ++ (n, d₁) :: (n, d₂) :: post, nb⟩)
    (hr' : RowsOf rows' ⟨n₀', pre ++ (n, d₁ + d₂) :: post, nb⟩) (zs : List Layer → ℝ → ℝ → Bool)
    (off : ℝ) (refl : Bool) :
    ∃ x y, (deltaPsiTMM zs [a] rows wav off refl).1 = .ok [x] ∧
      (deltaPsiTMM zs [a] rows' wav off refl).1 = .ok [y] ∧ SamePD x y := by
  refine samePD_of_scale hr hr' (h.split h₁ h₂ hc) h zs refl one_ne_zero ?_
  intro pol r t r' t' e1 e2
  rw [one_mul]
  exact (solveSt_split (h.films (n, d₁ + d₂) (by simp)).1.ne_zero
    (h.offCritical (n, d₁ + d₂) (by simp))
    (fun d hd => hc d hd _ (rawPhase_isFilm _ _ _ _)) e1 e2).1

/-! ### C06: a last layer equal to the backing -/

theorem solveSt_match_back {pol : Pol} {n₀ nb : ℂ} {d : ℝ} {pre : List (ℂ × ℝ)} {θ : ℂ}
    {lam : ℝ} (hn : nb ≠ 0) (hcrit : nb ^ 2 ≠ (n₀ * Complex.sin θ) ^ 2) {r t r' t' : ℂ}
    (h : solveSt pol ⟨n₀, pre ++ [(nb, d)], nb⟩ θ lam = some (r, t))
    (h' : solveSt pol ⟨n₀, pre, nb⟩ θ lam = some (r', t')) : r = r' := by
  rw [solveSt_eq] at h h'
  simp only [filmsM, frontM, backM, List.map_append, List.map_cons, List.append_assoc,
    List.cons_append, List.map_nil, List.nil_append] at h h'
  refine (solveL_agree h h' (T := t * Complex.exp (-(I * (codeMed (n₀ * Complex.sin θ) lam
    (nb, d)).δ))) fun hf => ?_).1
  refine fields_context (by simp) (by simp) ?_ _ _ _ _ hf
  refine fields_match_back rfl rfl ?_
  simp only [codeMed]
  intro h0
  have h1 : (nb * root1m (n₀ * Complex.sin θ / nb)) ^ 2 = nb ^ 2 - (n₀ * Complex.sin θ) ^ 2 := by
    rw [mul_pow, root1m_sq]; field_simp
  rw [h0] at h1
  apply hcrit
  have : nb ^ 2 - (n₀ * Complex.sin θ) ^ 2 = 0 := by rw [← h1]; simp
  exact sub_eq_zero.mp this

/-- C06: a last layer with the index of the backing medium, of any thickness, does not change the
reflection amplitudes. -/
theorem C06_match_backing {n₀ nb : ℂ} {d : ℝ} {pre : List (ℂ × ℝ)} {θ : ℂ} {lam : ℝ}
    (hnz : Stack.NZ ⟨n₀, pre, nb⟩) (hl : lam ≠ 0) (hcrit : nb ^ 2 ≠ (n₀ * Complex.sin θ) ^ 2)
    {d0 db d0' db' : Thick} {a a' : Amps}
    (ha : cohTmm (Stack.layers ⟨n₀, pre ++ [(nb, d)], nb⟩ d0 db) [(θ, lam)] = .ok [a])
    (ha' : cohTmm (Stack.layers ⟨n₀, pre, nb⟩ d0' db') [(θ, lam)] = .ok [a'])
    {pol : Pol} {r t r' t' : ℂ} (hx : a.of pol = some (r, t)) (hy : a'.of pol = some (r', t')) :
    r = r' := by
  have hnz' : Stack.NZ ⟨n₀, pre ++ [(nb, d)], nb⟩ := by
    refine ⟨hnz.1, fun f hf => ?_, hnz.2.2⟩
    rcases List.mem_append.mp hf with h | h
    · exact hnz.2.1 f h
    · simp only [List.mem_singleton] at h
      subst h; exact hnz.2.2
  rw [coh_of hnz' hl ha] at hx
  rw [coh_of hnz hl ha'] at hy
  exact solveSt_match_back hnz.2.2 hcrit hx hy

/-- C06 for the observables: such a layer does not change (psi, delta). -/
theorem C06_psi_delta {n₀' nb : ℂ} {d : ℝ} {pre : List (ℂ × ℝ)} {n₀ a wav : ℝ}
    (h : Physical ⟨n₀', pre ++ [(nb, d)], nb⟩ n₀ (rad a) wav) {rows rows' : List Row}
    (hr : RowsOf rows ⟨n₀', pre ++ [(nb, d)], nb⟩)
    (hr' : RowsOf rows' ⟨n₀', pre, nb⟩) (zs : List Layer → ℝ → ℝ → Bool) (off : ℝ) (refl : Bool) :
    ∃ x y, (deltaPsiTMM zs [a] rows wav off refl).1 = .ok [x] ∧
      (deltaPsiTMM zs [a] rows' wav off refl).1 = .ok [y] ∧ SamePD x y := by
  refine samePD_of_scale hr hr' h (h.mono (fs := pre) (fun f hf => by simp [hf])) zs refl
    one_ne_zero ?_
  intro pol r t r' t' h1 h2
  rw [one_mul]
  exact solveSt_match_back h.back.ne_zero (h.offCritical (nb, d) (by simp)) h1 h2

/-! ### C07: a first layer equal to the fronting medium -/

theorem solveSt_match_front {pol : Pol} {n₀ nb : ℂ} {d : ℝ} {post : List (ℂ × ℝ)} {θ : ℝ}
    {lam : ℝ} (hn : n₀ ≠ 0) (hθ : |θ| < Real.pi / 2) {r t r' t' : ℂ}
    (h : solveSt pol ⟨n₀, (n₀, d) :: post, nb⟩ θ lam = some (r, t))
    (h' : solveSt pol ⟨n₀, post, nb⟩ θ lam = some (r', t')) :
    r = Complex.exp (2 * (I * (codeMed (n₀ * Complex.sin θ) lam (n₀, d)).δ)) * r' := by
  rw [solveSt_eq] at h h'
  simp only [filmsM, frontM, backM, List.map_cons, List.cons_append] at h h'
  have hc : root1m (n₀ * Complex.sin θ / n₀) = root1m (Complex.sin θ) := by
    rw [mul_div_cancel_left₀ _ hn]
  have h0 : n₀ * root1m (Complex.sin θ) ≠ 0 := by
    rw [root1m_sin hθ.le]
    refine mul_ne_zero hn ?_
    rw [← Complex.ofReal_cos]
    exact Complex.ofReal_ne_zero.mpr (Real.cos_pos_of_mem_Ioo ⟨by linarith [(abs_lt.mp hθ).1],
      (abs_lt.mp hθ).2⟩).ne'
  have hf := fields_match_front (m := ⟨n₀, root1m (Complex.sin θ), 0⟩)
    (f := codeMed (n₀ * Complex.sin θ) lam (n₀, d)) rfl hc.symm h0 (by simp) (solveL_spec h).1
  have := ((solveL_spec h').2 _ _ _ hf).1
  rw [one_mul] at this
  rw [← this, mul_comm, mul_assoc, ← Complex.exp_add]
  simp

/-- C07: a first layer with the index of the fronting medium multiplies both reflection amplitudes
by the same non-zero factor (so their ratio is unchanged). -/
theorem C07_match_fronting {n₀ nb : ℂ} {d : ℝ} {post : List (ℂ × ℝ)} {θ lam : ℝ}
    (hnz : Stack.NZ ⟨n₀, post, nb⟩) (hl : lam ≠ 0) (hθ : |θ| < Real.pi / 2) :
    ∃ k : ℂ, k ≠ 0 ∧ ∀ {d0 db d0' db' : Thick} {a a' : Amps},
      cohTmm (Stack.layers ⟨n₀, (n₀, d) :: post, nb⟩ d0 db) [((θ : ℂ), lam)] = .ok [a] →
      cohTmm (Stack.layers ⟨n₀, post, nb⟩ d0' db') [((θ : ℂ), lam)] = .ok [a'] →
      ∀ {pol : Pol} {r t r' t' : ℂ}, a.of pol = some (r, t) → a'.of pol = some (r', t') →
        r = k * r' := by
  refine ⟨Complex.exp (2 * (I * (codeMed (n₀ * Complex.sin θ) lam (n₀, d)).δ)),
    Complex.exp_ne_zero _, ?_⟩
  intro d0 db d0' db' a a' ha ha' pol r t r' t' hx hy
  have hnz' : Stack.NZ ⟨n₀, (n₀, d) :: post, nb⟩ := by
    refine ⟨hnz.1, fun f hf => ?_, hnz.2.2⟩
    rcases List.mem_cons.mp hf with rfl | h
    · exact hnz.1
    · exact hnz.2.1 f h
  rw [coh_of hnz' hl ha] at hx
  rw [coh_of hnz hl ha'] at hy
  exact solveSt_match_front hnz.1 hθ hx hy

/-- C07 for the observables: such a layer does not change (psi, delta). -/
theorem C07_psi_delta {n₀' nb : ℂ} {d : ℝ} {post : List (ℂ × ℝ)} {n₀ a wav : ℝ}
    (h : Physical ⟨n₀', (n₀', d) :: post, nb⟩ n₀ (rad a) wav) {rows rows' : List Row}
    (hr : RowsOf rows ⟨n₀', (n₀', d) :: post, nb⟩)
    (hr' : RowsOf rows' ⟨n₀', post, nb⟩) (zs : List Layer → ℝ → ℝ → Bool) (off : ℝ) (refl : Bool) :
    ∃ x y, (deltaPsiTMM zs [a] rows wav off refl).1 = .ok [x] ∧
      (deltaPsiTMM zs [a] rows' wav off refl).1 = .ok [y] ∧ SamePD x y := by
  refine samePD_of_scale hr hr' h (h.mono (fs := post) (fun f hf => by simp [hf])) zs refl
    (k := Complex.exp (2 * (I * (codeMed (n₀' * Complex.sin (rad a)) wav (n₀', d)).δ)))
    (Complex.exp_ne_zero _) ?_
  intro pol r t r' t' h1 h2
  exact solveSt_match_front h.nz.1 h.angle h1 h2

/-! ### C05 is false when the clip acts -/

/-- At normal incidence the film phase is `2π n d / λ`. -/
theorem codeMed_normal {n₀ : ℂ} {lam : ℝ} {n : ℂ} {d : ℝ} :
    codeMed (n₀ * Complex.sin ((0 : ℝ) : ℂ)) lam (n, d) =
      ⟨n, 1, clip35 (2 * Real.pi * n / lam * d)⟩ := by
  have h : root1m 0 = 1 := by
    have := root1m_ofReal_le (x := 0) (by simp)
    simpa using this
  simp [codeMed, h]

/-- Sufficient conditions for a physical situation at normal incidence. -/
theorem physical_normal {n₀ lam : ℝ} {films : List (ℂ × ℝ)} {nb : ℂ} (h0 : 0 < n₀) (hl : 0 < lam)
    (hf : ∀ f ∈ films, PassiveIndex f.1 ∧ 0 ≤ f.2 ∧ 2 * Real.pi * f.2 / lam * f.1.im ≤ 50)
    (hb : PassiveIndex nb) : Physical ⟨n₀, films, nb⟩ n₀ 0 lam := by
  have h35 : (50 : ℝ) ≤ Real.sinh 35 := by
    rw [Real.sinh_eq]
    have h1 : (35 : ℝ) ^ 2 / 2 ≤ Real.exp 35 := by
      have := Real.quadratic_le_exp_of_nonneg (x := 35) (by norm_num)
      norm_num at this ⊢
      linarith
    have h2 : Real.exp (-35) ≤ 1 := Real.exp_le_one_iff.mpr (by norm_num)
    norm_num at h1
    linarith
  have hpi := Real.pi_pos
  refine ⟨rfl, h0, by simpa using hpi, hl, fun f h => ⟨(hf f h).1, (hf f h).2.1⟩, hb, ?_, ?_⟩
  · intro f h
    simpa using (hf f h).1.ne_zero
  · intro f h m hm
    obtain ⟨_, h2, h3⟩ := hm
    simp only [Complex.ofReal_zero, Complex.sin_zero, mul_zero, zero_div, ne_eq,
      OfNat.ofNat_ne_zero, not_false_eq_true, zero_pow, sub_zero, sq_eq_one_iff] at h2
    obtain ⟨hp, hd, hle⟩ := hf f h
    have e : m.δ = ((2 * Real.pi * f.2 / lam : ℝ) : ℂ) * (f.1 * m.c) := by
      rw [h3]; push_cast; ring
    rw [e, Complex.im_ofReal_mul]
    have hx : 0 ≤ 2 * Real.pi * f.2 / lam := by positivity
    rcases h2 with h2 | h2
    · rw [h2, mul_one]; linarith
    · rw [h2, mul_neg_one, Complex.neg_im]
      nlinarith [mul_nonneg hx hp.2]

/-- Two films with the same index and the same reflection have the same round trip factor. -/
theorem round_trip_unique {pol : Pol} {m0 b : Medium} {n c δ δ' r t t' : ℂ}
    (h : Fields pol m0 1 r [⟨n, c, δ⟩, b] t) (h' : Fields pol m0 1 r [⟨n, c, δ'⟩, b] t')
    (hm : m0.n ≠ 0) (hm' : m0.c ≠ 0) (hn : n ≠ 0) (hc : c ≠ 0) (hcb : b.c = c) (hnb : b.n ≠ n)
    (hs : n + b.n ≠ 0) :
    Complex.exp (2 * (I * δ)) = Complex.exp (2 * (I * δ')) := by
  obtain ⟨v, w, ht, hf⟩ := h
  obtain ⟨v', w', ht', hf'⟩ := h'
  -- the amplitudes at the top of the film are the same
  have key : v + w = v' + w' ∧ v - w = v' - w' := by
    cases pol
    · obtain ⟨a1, a2⟩ := ht
      obtain ⟨b1, b2⟩ := ht'
      refine ⟨a1.symm.trans b1, mul_left_cancel₀ (mul_ne_zero hn hc) ?_⟩
      exact a2.symm.trans b2
    · obtain ⟨a1, a2⟩ := ht
      obtain ⟨b1, b2⟩ := ht'
      exact ⟨mul_left_cancel₀ hn (a1.symm.trans b1), mul_left_cancel₀ hc (a2.symm.trans b2)⟩
  have hv : v = v' := by linear_combination (1 / 2) * key.1 + (1 / 2) * key.2
  have hw : w = w' := by linear_combination (1 / 2) * key.1 - (1 / 2) * key.2
  subst hv hw
  -- reflection at the bottom
  have bot : ∀ {δ t : ℂ}, Tangential pol ⟨n, c, δ⟩ b (v * Complex.exp (I * δ))
      (w * Complex.exp (-(I * δ))) t 0 → v * (n - b.n) * Complex.exp (2 * (I * δ)) =
        (if pol = .s then 1 else -1) * w * (n + b.n) := by
    intro δ t hb
    have e1 : Complex.exp (2 * (I * δ)) = Complex.exp (I * δ) * Complex.exp (I * δ) := by
      rw [← Complex.exp_add]; ring_nf
    have e2 : Complex.exp (I * δ) * Complex.exp (-(I * δ)) = 1 := by
      rw [← Complex.exp_add]; simp
    cases pol
    · obtain ⟨a1, a2⟩ := hb
      simp only [hcb] at a1 a2
      have a3 : n * (v * Complex.exp (I * δ) - w * Complex.exp (-(I * δ))) = b.n *
          (v * Complex.exp (I * δ) + w * Complex.exp (-(I * δ))) := by
        apply mul_left_cancel₀ hc
        linear_combination a2 - c * b.n * a1
      simp only [if_true, one_mul, e1]
      linear_combination Complex.exp (I * δ) * a3 + (w * (n + b.n)) * e2
    · obtain ⟨a1, a2⟩ := hb
      simp only [hcb] at a1 a2
      have a3 : b.n * (v * Complex.exp (I * δ) - w * Complex.exp (-(I * δ))) = n *
          (v * Complex.exp (I * δ) + w * Complex.exp (-(I * δ))) := by
        apply mul_left_cancel₀ hc
        linear_combination b.n * a2 - c * a1
      simp only [reduceCtorEq, if_false, e1]
      linear_combination -Complex.exp (I * δ) * a3 - (w * (n + b.n)) * e2
  have h1 := bot hf
  have h2 := bot hf'
  have h3 : v * (n - b.n) * (Complex.exp (2 * (I * δ)) - Complex.exp (2 * (I * δ'))) = 0 := by
    linear_combination h1 - h2
  rcases mul_eq_zero.mp h3 with h4 | h4
  · rcases mul_eq_zero.mp h4 with h5 | h5
    · exfalso
      subst h5
      -- then w = 0 too, contradicting the incident amplitude 1
      have hw0 : w = 0 := by
        have a : (if pol = .s then (1 : ℂ) else -1) * w * (n + b.n) = 0 := by
          rw [← h1]; simp
        rcases mul_eq_zero.mp a with a | a
        · rcases mul_eq_zero.mp a with a | a
          · split_ifs at a <;> norm_num at a
          · exact a
        · exact absurd a hs
      subst hw0
      cases pol
      · obtain ⟨a1, a2⟩ := ht
        simp only [add_zero, sub_zero, mul_zero, mul_eq_zero, hm, hm', false_or] at a1 a2
        have : (2 : ℂ) = 0 := by linear_combination a1 + a2
        norm_num at this
      · obtain ⟨a1, a2⟩ := ht
        simp only [add_zero, sub_zero, mul_zero, mul_eq_zero, hm, hm', false_or] at a1 a2
        have : (2 : ℂ) = 0 := by linear_combination a1 + a2
        norm_num at this
    · exact absurd (sub_eq_zero.mp h5).symm hnb
  · exact sub_eq_zero.mp h4

theorem clip_values : clip35 (2 * Real.pi * (1 + I) / (2 * Real.pi : ℝ) * (40 : ℝ)) = 40 + 35 * I ∧
    clip35 (2 * Real.pi * (1 + I) / (2 * Real.pi : ℝ) * (20 : ℝ)) = 20 + 20 * I := by
  have hpi : ((2 * Real.pi : ℝ) : ℂ) ≠ 0 :=
    Complex.ofReal_ne_zero.mpr (mul_pos two_pos Real.pi_pos).ne'
  have e : ∀ d : ℝ, 2 * Real.pi * (1 + I) / (2 * Real.pi : ℝ) * (d : ℂ) = d + d * I := by
    intro d
    have : (2 * Real.pi * (1 + I) : ℂ) = ((2 * Real.pi : ℝ) : ℂ) * (1 + I) := by push_cast; ring
    rw [this, mul_div_cancel_left₀ _ hpi]; ring
  rw [e, e]
  constructor
  · apply Complex.ext <;> simp [clip35]
    norm_num
  · rw [clip35_of_le] <;> simp
    norm_num

/-- C05 fails as soon as the clip acts: a film of index `1+i` and attenuation exponent 40 does
not give the reflection of the same film cut in two halves of exponent 20. -/
theorem C05_clip_breaks_split : ∃ a a' : Amps,
    cohTmm (Stack.layers ⟨1, [(1 + I, 20), (1 + I, 20)], 2⟩ .inf .inf)
      [((0 : ℝ), 2 * Real.pi)] = .ok [a] ∧
    cohTmm (Stack.layers ⟨1, [(1 + I, 20 + 20)], 2⟩ .inf .inf)
      [((0 : ℝ), 2 * Real.pi)] = .ok [a'] ∧
    ∀ pol, ∃ r t r' t', a.of pol = some (r, t) ∧ a'.of pol = some (r', t') ∧ r ≠ r' := by
  have hpi := Real.pi_pos
  have hlam : (0 : ℝ) < 2 * Real.pi := by positivity
  have hP : PassiveIndex (1 + I) := by simp [PassiveIndex]
  have hP2 : PassiveIndex 2 := by simp [PassiveIndex]
  have hphys : Physical ⟨((1 : ℝ) : ℂ), [(1 + I, 20), (1 + I, 20)], 2⟩ 1 0 (2 * Real.pi) := by
    refine physical_normal one_pos hlam ?_ hP2
    intro f hf
    simp only [List.mem_cons, List.not_mem_nil, or_false, or_self] at hf
    subst hf
    refine ⟨hP, by norm_num, ?_⟩
    rw [mul_comm (2 * Real.pi) _, mul_div_assoc, div_self hlam.ne']; simp; norm_num
  have hphys' : Physical ⟨((1 : ℝ) : ℂ), [(1 + I, 20 + 20)], 2⟩ 1 0 (2 * Real.pi) := by
    refine physical_normal one_pos hlam ?_ hP2
    intro f hf
    simp only [List.mem_cons, List.not_mem_nil, or_false] at hf
    subst hf
    refine ⟨hP, by norm_num, ?_⟩
    rw [mul_comm (2 * Real.pi) _, mul_div_assoc, div_self hlam.ne']; simp; norm_num
  obtain ⟨a, ha, hfin⟩ := C10_coh_tmm_finite hphys .inf .inf
  obtain ⟨a', ha', hfin'⟩ := C10_coh_tmm_finite hphys' .inf .inf
  refine ⟨a, a', by simpa using ha, by simpa using ha', fun pol => ?_⟩
  obtain ⟨r, t, hr⟩ := hfin pol
  obtain ⟨r', t', hr'⟩ := hfin' pol
  refine ⟨r, t, r', t', hr, hr', ?_⟩
  rintro rfl
  rw [coh_of hphys.nz hlam.ne' ha, solveSt_eq] at hr
  rw [coh_of hphys'.nz hlam.ne' ha', solveSt_eq] at hr'
  have hroot : root1m 0 = 1 := by
    have := root1m_ofReal_le (x := 0) (by simp)
    simpa using this
  simp only [filmsM, frontM, backM, List.map_cons, List.map_nil, codeMed_normal] at hr hr'
  simp only [Complex.ofReal_zero, Complex.sin_zero, mul_zero, zero_div, hroot, List.cons_append,
    List.nil_append] at hr hr'
  rw [clip_values.2] at hr
  have h40 : ((20 : ℝ) + 20 : ℝ) = 40 := by norm_num
  rw [h40, clip_values.1] at hr'
  have hI : (1 : ℂ) + I ≠ 0 := hP.ne_zero
  have hf := fields_merge (a := ⟨1 + I, 1, 20 + 20 * I⟩) (b := ⟨1 + I, 1, 20 + 20 * I⟩)
    (c := ⟨1 + I, 1, 40 + 40 * I⟩) rfl rfl rfl rfl (by ring) (by simpa using hI)
    (L := [⟨2, 1, 0⟩]) (by simp) _ _ _ (solveL_spec hr).1
  have hu := round_trip_unique hf (solveL_spec hr').1 (by simp) (by simp) hI one_ne_zero rfl
    (by
      intro h
      have := congrArg Complex.im h
      simp at this)
    (by
      intro h
      have := congrArg Complex.im h
      simp at this)
  have h1 := congrArg norm hu
  rw [Complex.norm_exp, Complex.norm_exp, Real.exp_eq_exp] at h1
  norm_num at h1

/-! ### Non-vacuity -/

/-- A film of index 2+i, 10 nm, on a substrate of index 3: the hypotheses of C04 (with an extra
layer of zero thickness), C05 (two halves), C06 and C07 can all be met. -/
theorem exPhysical (films : List (ℂ × ℝ))
    (h : ∀ f ∈ films, (f.1 = 1 ∨ f.1 = 2 + I ∨ f.1 = 3) ∧ 0 ≤ f.2 ∧ f.2 ≤ 10) :
    Physical ⟨((1 : ℝ) : ℂ), films, 3⟩ 1 (rad 0) 500 := by
  have hpi := Real.pi_pos
  rw [rad, zero_mul]
  refine physical_normal one_pos (by norm_num) ?_ (by simp [PassiveIndex])
  intro f hf
  obtain ⟨h1, h2, h3⟩ := h f hf
  refine ⟨by rcases h1 with h1 | h1 | h1 <;> rw [h1] <;> simp [PassiveIndex], h2, ?_⟩
  have : f.1.im ≤ 1 := by rcases h1 with h1 | h1 | h1 <;> rw [h1] <;> simp
  have h0 : 0 ≤ f.1.im := by rcases h1 with h1 | h1 | h1 <;> rw [h1] <;> simp
  calc 2 * Real.pi * f.2 / 500 * f.1.im ≤ 2 * 4 * 10 / 500 * 1 := by
        gcongr
        exact Real.pi_le_four
    _ ≤ 50 := by norm_num

/-- An array of slabs for a list of films. -/
noncomputable def exRows (films : List (ℂ × ℝ)) : List Row :=
  ⟨0, some 1, 0, 0⟩ :: (films.map fun f => ⟨10 * f.2, some f.1, 0, 0⟩) ++ [⟨0, some 3, 0, 0⟩]

theorem exRows_of (films : List (ℂ × ℝ)) : RowsOf (exRows films) ⟨((1 : ℝ) : ℂ), films, 3⟩ := by
  refine ⟨_, _, _, 1, rfl, rfl, by simp, ?_, rfl⟩
  rw [List.forall₂_map_left_iff]
  exact List.forall₂_same.mpr fun f _ => ⟨rfl, rfl⟩

example (zs : List Layer → ℝ → ℝ → Bool) :
    ∃ x y, (deltaPsiTMM zs [0] (exRows [(2 + I, 10), (3, 0)]) 500 0 false).1 = .ok [x] ∧
      (deltaPsiTMM zs [0] (exRows [(2 + I, 10)]) 500 0 false).1 = .ok [y] ∧ SamePD x y :=
  C04_psi_delta (pre := [(2 + I, 10)]) (post := []) (exPhysical _ (by simp)) (exRows_of _)
    (exRows_of _) zs 0 false

example (zs : List Layer → ℝ → ℝ → Bool) :
    ∃ x y, (deltaPsiTMM zs [0] (exRows [(2 + I, 4), (2 + I, 6)]) 500 0 false).1 = .ok [x] ∧
      (deltaPsiTMM zs [0] (exRows [(2 + I, 4 + 6)]) 500 0 false).1 = .ok [y] ∧ SamePD x y := by
  refine C05_psi_delta_partial (pre := []) (post := []) (exPhysical _ ?_) (by norm_num)
    (by norm_num) ?_ (exRows_of _) (exRows_of _) zs 0 false
  · simp; norm_num
  · intro d hd m hm
    have hd' : 0 ≤ d ∧ d ≤ 10 := by
      simp only [List.mem_cons, List.not_mem_nil, or_false] at hd
      rcases hd with rfl | rfl | rfl <;> norm_num
    have hne : (2 : ℂ) + I ≠ 0 := by
      intro h; have := congrArg Complex.im h; simp at this
    have h1 := hm.norm_le hne (by norm_num) hd'.1
    have h2 : ‖(2 : ℂ) + I‖ ≤ 3 := by
      calc ‖(2 : ℂ) + I‖ ≤ ‖(2 : ℂ)‖ + ‖I‖ := norm_add_le _ _
          _ = 3 := by simp; norm_num
    have h3 := (le_abs_self m.δ.im).trans (Complex.abs_im_le_norm m.δ)
    simp only [rad, zero_mul, Complex.ofReal_zero, Complex.sin_zero, mul_zero, norm_zero,
      add_zero] at h1
    have hpi := Real.pi_pos
    have h4 : 2 * Real.pi * d / 500 * ‖(2 : ℂ) + I‖ ≤ 2 * 4 * 10 / 500 * 3 := by
      gcongr
      · exact hd'.1
      · exact Real.pi_le_four
      · exact hd'.2
    norm_num at h4
    linarith

example (zs : List Layer → ℝ → ℝ → Bool) :
    ∃ x y, (deltaPsiTMM zs [0] (exRows [(2 + I, 10), (3, 7)]) 500 0 false).1 = .ok [x] ∧
      (deltaPsiTMM zs [0] (exRows [(2 + I, 10)]) 500 0 false).1 = .ok [y] ∧ SamePD x y :=
  C06_psi_delta (pre := [(2 + I, 10)]) (exPhysical _ (by simp; norm_num)) (exRows_of _)
    (exRows_of _) zs 0 false

example (zs : List Layer → ℝ → ℝ → Bool) :
    ∃ x y, (deltaPsiTMM zs [0] (exRows [(((1 : ℝ) : ℂ), 7), (2 + I, 10)]) 500 0 false).1 = .ok [x] ∧
      (deltaPsiTMM zs [0] (exRows [(2 + I, 10)]) 500 0 false).1 = .ok [y] ∧ SamePD x y :=
  C07_psi_delta (post := [(2 + I, 10)]) (exPhysical _ (by simp; norm_num)) (exRows_of _)
    (exRows_of _) zs 0 false

end Verif.TMM
