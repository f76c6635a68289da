import Verif.TMM.Passive

/-! Physical stacks satisfy the hypotheses of the passivity lemmas. -/

namespace Verif.TMM

open Complex (I)
open scoped ComplexConjugate

theorem Physical.nz {st : Stack} {n₀ θ lam : ℝ} (h : Physical st n₀ θ lam) : st.NZ :=
  ⟨by rw [h.front]; exact Complex.ofReal_ne_zero.mpr h.n₀_pos.ne',
   fun f hf => (h.films f hf).1.ne_zero, h.back.ne_zero⟩

theorem s_real {st : Stack} {n₀ θ : ℝ} (h : st.front = n₀) :
    st.front * Complex.sin θ = ((n₀ * Real.sin θ : ℝ) : ℂ) := by
  rw [h]; push_cast; rfl

theorem assertOk_real (n₀ θ : ℝ) : assertOk (some (n₀ : ℂ)) (θ : ℂ) := by
  refine ⟨n₀, rfl, ?_⟩
  have : (n₀ : ℂ) * Complex.sin θ = ((n₀ * Real.sin θ : ℝ) : ℂ) := by push_cast; rfl
  rw [this]
  simp only [Complex.ofReal_im, abs_zero, assertTol]
  positivity

/-- For real index and angle the input test passes, and the result is `solveSt`. -/
theorem coh_real {st : Stack} {n₀ θ lam : ℝ} (hf : st.front = n₀) (hnz : st.NZ) (hl : lam ≠ 0)
    (d0 db : Thick) :
    cohTmm (st.layers d0 db) [((θ : ℂ), lam)] =
      .ok [⟨solveSt .s st θ lam, solveSt .p st θ lam⟩] := by
  rw [cohTmm_stack st hnz d0 db]
  · rfl
  · simpa using hl
  · intro pt hpt
    simp only [List.mem_singleton] at hpt
    subst hpt
    rw [hf]; exact assertOk_real n₀ θ

theorem coh_real_of {st : Stack} {n₀ θ lam : ℝ} (hf : st.front = n₀) (hnz : st.NZ) (hl : lam ≠ 0)
    {d0 db : Thick} {a : Amps} (h : cohTmm (st.layers d0 db) [((θ : ℂ), lam)] = .ok [a])
    (pol : Pol) : a.of pol = solveSt pol st θ lam := by
  rw [coh_real hf hnz hl] at h
  simp only [Except.ok.injEq, List.cons.injEq, and_true] at h
  subst h
  cases pol <;> rfl

/-- The input test of the code is implied by a result. -/
theorem assertOk_of_ok {l0 l1 : Layer} {rest : List Layer} {pts : List (ℂ × ℝ)} {l : List Amps}
    (h : cohTmm (l0 :: l1 :: rest) pts = .ok l) : ∀ pt ∈ pts, assertOk l0.n pt.1 := by
  classical
  rw [cohTmm_eq] at h
  split_ifs at h with hc
  exact hc

theorem layers_cons (st : Stack) (d0 db : Thick) :
    ∃ l1 rest, st.layers d0 db = ⟨some st.front, d0⟩ :: l1 :: rest := by
  unfold Stack.layers
  cases hf : st.films with
  | nil => exact ⟨_, _, rfl⟩
  | cons f l => exact ⟨_, _, rfl⟩

theorem coh_of {st : Stack} {θ : ℂ} {lam : ℝ} (hnz : st.NZ) (hl : lam ≠ 0)
    {d0 db : Thick} {a : Amps} (h : cohTmm (st.layers d0 db) [(θ, lam)] = .ok [a])
    (pol : Pol) : a.of pol = solveSt pol st θ lam := by
  have ha : ∀ pt ∈ [(θ, lam)], assertOk (some st.front) pt.1 := by
    obtain ⟨l1, rest, hr⟩ := layers_cons st d0 db
    rw [hr] at h
    exact assertOk_of_ok h
  rw [cohTmm_stack st hnz d0 db _ (by simpa using hl) ha] at h
  simp only [List.map_cons, List.map_nil, Except.ok.injEq, List.cons.injEq, and_true] at h
  subst h
  cases pol <;> rfl

/-- The media of the code for a stack. -/
noncomputable def frontM (st : Stack) (θ : ℂ) : Medium := ⟨st.front, root1m (Complex.sin θ), 0⟩
noncomputable def backM (st : Stack) (θ : ℂ) : Medium :=
  ⟨st.back, root1m (st.front * Complex.sin θ / st.back), 0⟩
noncomputable def filmsM (st : Stack) (θ : ℂ) (lam : ℝ) : List Medium :=
  st.films.map (codeMed (st.front * Complex.sin θ) lam)

theorem solveSt_eq (pol : Pol) (st : Stack) (θ : ℂ) (lam : ℝ) :
    solveSt pol st θ lam = solveL pol (frontM st θ) (filmsM st θ lam ++ [backM st θ]) := rfl

section
variable {st : Stack} {n₀ θ lam : ℝ} (h : Physical st n₀ θ lam)
include h

theorem Physical.sreal : st.front * Complex.sin θ = ((n₀ * Real.sin θ : ℝ) : ℂ) := s_real h.front

theorem Physical.front_dir : CodeDir (n₀ * Real.sin θ) (frontM st θ) := by
  refine ⟨by simp [frontM, h.front, PassiveIndex, h.n₀_pos], ?_⟩
  simp only [frontM]
  congr 1
  rw [← h.sreal]
  have := h.nz.1
  field_simp

theorem Physical.cos_pos : 0 < Real.cos θ :=
  Real.cos_pos_of_mem_Ioo ⟨by linarith [(abs_lt.mp h.angle).1], (abs_lt.mp h.angle).2⟩

theorem Physical.front_c : (frontM st θ).c = ((Real.cos θ : ℝ) : ℂ) := by
  simp only [frontM]
  rw [root1m_sin h.angle.le]; push_cast; rfl

theorem Physical.front_q : (frontM st θ).n * (frontM st θ).c ≠ 0 := by
  rw [h.front_c]
  simp only [frontM, h.front]
  rw [← Complex.ofReal_mul]
  exact Complex.ofReal_ne_zero.mpr (mul_pos h.n₀_pos h.cos_pos).ne'

theorem Physical.front_kap (pol : Pol) :
    kap pol (frontM st θ) = ((n₀ * Real.cos θ : ℝ) : ℂ) := by
  cases pol <;> simp only [kap] <;> rw [h.front_c] <;>
    simp [frontM, h.front, -Complex.ofReal_cos]

theorem Physical.back_dir : CodeDir (n₀ * Real.sin θ) (backM st θ) :=
  ⟨h.back, by simp only [backM]; rw [h.sreal]⟩

theorem Physical.film_dir : ∀ m ∈ filmsM st θ lam,
    CodeDir (n₀ * Real.sin θ) m ∧ m.n * m.c ≠ 0 := by
  intro m hm
  obtain ⟨f, hf, rfl⟩ := List.mem_map.mp hm
  have hd : CodeDir (n₀ * Real.sin θ) (codeMed (st.front * Complex.sin θ) lam f) :=
    ⟨(h.films f hf).1, by simp only [codeMed]; rw [h.sreal]⟩
  refine ⟨hd, ?_⟩
  rw [hd.q]
  intro h0
  have h1 := qOf_sq (n₀ * Real.sin θ) (h.films f hf).1.ne_zero
  have h2 : (codeMed (st.front * Complex.sin θ) lam f).n = f.1 := rfl
  rw [h2] at h0
  rw [h0] at h1
  apply h.offCritical f hf
  rw [h.sreal]
  have : f.1 ^ 2 - ((n₀ * Real.sin θ : ℝ) : ℂ) ^ 2 = 0 := by rw [← h1]; simp
  exact sub_eq_zero.mp this

omit h in
theorem codeMed_isFilm (s : ℂ) (lam : ℝ) (f : ℂ × ℝ) :
    IsFilm s lam f ⟨f.1, root1m (s / f.1), 2 * Real.pi * f.1 * root1m (s / f.1) * f.2 / lam⟩ :=
  ⟨rfl, root1m_sq _, rfl⟩

theorem Physical.film_phase {f : ℂ × ℝ} (hf : f ∈ st.films) :
    (codeMed (st.front * Complex.sin θ) lam f).δ =
      clip35 (((2 * Real.pi * f.2 / lam : ℝ) : ℂ) * qOf (n₀ * Real.sin θ) f.1) ∧
    (2 * Real.pi * f.2 / lam) * (qOf (n₀ * Real.sin θ) f.1).im ≤ Real.sinh 35 := by
  have e : 2 * Real.pi * f.1 * root1m (st.front * Complex.sin θ / f.1) / lam * f.2 =
      ((2 * Real.pi * f.2 / lam : ℝ) : ℂ) * qOf (n₀ * Real.sin θ) f.1 := by
    rw [qOf, ← h.sreal]; push_cast; ring
  constructor
  · simp only [codeMed]
    rw [e]
  · have := h.mild f hf _ (codeMed_isFilm (st.front * Complex.sin θ) lam f)
    have e2 : 2 * Real.pi * f.1 * root1m (st.front * Complex.sin θ / f.1) * f.2 / lam =
      ((2 * Real.pi * f.2 / lam : ℝ) : ℂ) * qOf (n₀ * Real.sin θ) f.1 := by
      rw [← e]; ring
    simp only [e2] at this
    rwa [Complex.im_ofReal_mul] at this

theorem Physical.film_damps (pol : Pol) : ∀ m ∈ filmsM st θ lam, Damps pol m := by
  intro m hm
  have hd := (h.film_dir m hm).1
  obtain ⟨f, hf, rfl⟩ := List.mem_map.mp hm
  have hp := h.film_phase hf
  refine damps_of_film hd (x := 2 * Real.pi * f.2 / lam) ?_ hp.1 hp.2 pol
  have := (h.films f hf).2
  have := h.lam_pos
  positivity

theorem Physical.solved (pol : Pol) : ∃ r t, solveSt pol st θ lam = some (r, t) := by
  rw [solveSt_eq]
  refine solveL_passive h.front_dir ?_ h.front_q h.film_dir (h.film_damps pol) h.back_dir
  rw [h.front_kap]
  rw [Complex.ofReal_re]
  exact mul_pos h.n₀_pos h.cos_pos

/-- Power balance. -/
theorem Physical.power {pol : Pol} {r t : ℂ} (hs : solveSt pol st θ lam = some (r, t)) :
    (kap pol (backM st θ)).re * ‖t‖ ^ 2 ≤ n₀ * Real.cos θ * (1 - ‖r‖ ^ 2) := by
  rw [solveSt_eq] at hs
  have h1 := fields_flux_le (h.film_damps pol) (solveL_spec hs).1
  rw [flux_forward, flux_expand, h.front_kap, Complex.ofReal_re, Complex.ofReal_im] at h1
  simpa [Complex.normSq_eq_norm_sq] using h1

theorem Physical.film_conserves (hl : ∀ f ∈ st.films, f.1.im = 0) (pol : Pol) :
    ∀ m ∈ filmsM st θ lam, Conserves pol m := by
  intro m hm
  have hd := (h.film_dir m hm).1
  have hne := (h.film_dir m hm).2
  obtain ⟨f, hf, rfl⟩ := List.mem_map.mp hm
  have hp := (h.film_phase hf).1
  obtain ⟨A, hA, hre, him⟩ := kap_bound hd pol
  have hn : (codeMed (st.front * Complex.sin θ) lam f).n = f.1 := rfl
  rw [hn] at hre him
  rw [hd.q, hn] at hne
  have hP := (h.films f hf).1
  unfold Conserves
  rw [hp, clip35]
  have key : (qOf (n₀ * Real.sin θ) f.1).im = 0 ∨ (qOf (n₀ * Real.sin θ) f.1).re = 0 := by
    rcases le_or_gt (|n₀ * Real.sin θ|) f.1.re with hle | hgt
    · left
      rw [ofReal_of_im_zero (hl f hf), qOf_transparent_below hP.1 hle]
      simp
    · right
      rcases lt_abs.mp hgt with h' | h'
      · rw [ofReal_of_im_zero (hl f hf), qOf_transparent_above hP.1 h']; simp
      · rw [ofReal_of_im_zero (hl f hf), qOf_transparent_below_neg hP.1 (by linarith)]; simp
  rcases key with hk | hk
  · left
    constructor
    · rw [hk] at him; simpa using him
    · simp [hk]
  · right
    constructor
    · rw [hre, hk]; simp
    · simp [hk]

theorem Physical.power_eq (hl : ∀ f ∈ st.films, f.1.im = 0)
    {pol : Pol} {r t : ℂ} (hs : solveSt pol st θ lam = some (r, t)) :
    (kap pol (backM st θ)).re * ‖t‖ ^ 2 = n₀ * Real.cos θ * (1 - ‖r‖ ^ 2) := by
  rw [solveSt_eq] at hs
  have h1 := fields_flux_eq (h.film_conserves hl pol) (solveL_spec hs).1
  rw [flux_forward, flux_expand, h.front_kap, Complex.ofReal_re, Complex.ofReal_im] at h1
  simpa [Complex.normSq_eq_norm_sq] using h1

/-- The transmitted power expressed with any admissible direction cosine. -/
theorem Physical.trans_eq {cb : ℂ} (hcb : cb ^ 2 = 1 - (st.front * Complex.sin θ / st.back) ^ 2)
    (hre : 0 ≤ (st.back * cb).re) (pol : Pol) (t : ℂ) :
    transmittance pol n₀ θ st.back cb t =
      (kap pol (backM st θ)).re * ‖t‖ ^ 2 / (n₀ * Real.cos θ) := by
  have hd := h.back_dir
  have hc : cb ^ 2 = (backM st θ).c ^ 2 := by
    rw [hcb, hd.2, root1m_sq]; rw [← h.sreal]; rfl
  have hkap : transmittance pol n₀ θ st.back cb t =
      (kap pol ⟨st.back, cb, 0⟩).re * ‖t‖ ^ 2 / (n₀ * Real.cos θ) := by
    cases pol
    · simp only [transmittance, kap, Complex.conj_re]; ring
    · simp only [transmittance, kap]; ring
  rw [hkap]
  congr 2
  rcases sq_eq_sq_iff_eq_or_eq_neg.mp hc with e | e
  · rw [e]; cases pol <;> rfl
  · -- opposite direction: both sides vanish
    have hq := hd.q
    have hf := qOf_fwd h.back (n₀ * Real.sin θ)
    have hn : (backM st θ).n = st.back := rfl
    rw [hn] at hq
    have e2 : st.back * cb = -(qOf (n₀ * Real.sin θ) st.back) := by rw [e, ← hq]; ring
    rw [e2] at hre
    simp only [Complex.neg_re, Left.nonneg_neg_iff] at hre
    have hre0 : (qOf (n₀ * Real.sin θ) st.back).re = 0 := le_antisymm hre hf.re_nonneg
    obtain ⟨A, hA, h1, h2⟩ := kap_bound hd pol
    rw [hn, hre0, zero_mul] at h1
    rw [h1]
    have : kap pol ⟨st.back, cb, 0⟩ = -(kap pol (backM st θ)) := by
      cases pol <;> simp only [kap] <;> rw [e] <;> simp [hn]
    rw [this]; simp [h1]

end

end Verif.TMM
