import Verif.TMM.PropsObs

/-!
# C13 (sign of the angle of incidence) and C93 (reciprocity)
-/

namespace Verif.TMM

open Complex (I)
open scoped ComplexConjugate

/-! ### C13 -/

theorem root1m_neg {z : ℂ} (h : ¬ (z.im = 0 ∧ 1 < |z.re|)) : root1m (-z) = root1m z := by
  unfold root1m
  rw [if_neg, if_neg]
  · simp
  · rintro ⟨h1, h2⟩; exact h ⟨h1, h2.trans_le (le_abs_self _)⟩
  · rintro ⟨h1, h2⟩
    simp only [Complex.neg_im, neg_eq_zero, Complex.neg_re] at h1 h2
    exact h ⟨h1, h2.trans_le (neg_le_abs _)⟩

theorem IsFilm.neg_iff {s : ℂ} {lam : ℝ} {f : ℂ × ℝ} {m : Medium} :
    IsFilm (-s) lam f m ↔ IsFilm s lam f m := by
  simp [IsFilm, neg_div]

theorem Physical.neg {st : Stack} {n₀ θ lam : ℝ} (h : Physical st n₀ θ lam) :
    Physical st n₀ (-θ) lam := by
  have e : st.front * Complex.sin ((-θ : ℝ) : ℂ) = -(st.front * Complex.sin θ) := by
    push_cast; rw [Complex.sin_neg]; ring
  refine ⟨h.front, h.n₀_pos, by rw [abs_neg]; exact h.angle, h.lam_pos, h.films, h.back, ?_, ?_⟩
  · intro f hf
    rw [e, neg_sq]; exact h.offCritical f hf
  · intro f hf m hm
    rw [e] at hm
    exact h.mild f hf m (IsFilm.neg_iff.mp hm)

/-- The ratio `s/n` lies on the cut of the square root only for a transparent medium beyond its
critical angle. -/
theorem off_cut {n : ℂ} (hn : PassiveIndex n) {s : ℝ} (h : ¬ (n.im = 0 ∧ n.re < |s|)) :
    ¬ (((s : ℂ) / n).im = 0 ∧ 1 < |((s : ℂ) / n).re|) := by
  rintro ⟨h1, h2⟩
  have hne := hn.ne_zero
  have hsq : 0 < Complex.normSq n := Complex.normSq_pos.mpr hne
  have him : ((s : ℂ) / n).im = -(s * n.im / Complex.normSq n) := by
    rw [Complex.div_im]; simp
  have hre : ((s : ℂ) / n).re = s * n.re / Complex.normSq n := by
    rw [Complex.div_re]; simp
  have hs : s ≠ 0 := by
    rintro rfl; simp at h2
    linarith
  have hni : n.im = 0 := by
    rw [him, neg_eq_zero, div_eq_zero_iff, mul_eq_zero] at h1
    rcases h1 with (h1 | h1) | h1
    · exact absurd h1 hs
    · exact h1
    · exact absurd h1 hsq.ne'
  apply h
  refine ⟨hni, ?_⟩
  have hns : Complex.normSq n = n.re * n.re := by rw [Complex.normSq_apply, hni]; ring
  rw [hre, hns, mul_div_mul_right _ _ hn.1.ne', abs_div, abs_of_pos hn.1,
    one_lt_div hn.1] at h2
  exact h2

/-- The same amplitudes at `θ` and `-θ`. -/
theorem solveSt_neg {st : Stack} {n₀ θ lam : ℝ} (h : Physical st n₀ θ lam)
    (hb : ¬ (st.back.im = 0 ∧ st.back.re < |n₀ * Real.sin θ|))
    (hf : ∀ f ∈ st.films, f.1.im = 0 → f.1.re < |n₀ * Real.sin θ| →
      ∀ m, IsFilm (st.front * Complex.sin θ) lam f m → m.δ.im ≤ 35) (pol : Pol) :
    solveSt pol st ((-θ : ℝ) : ℂ) lam = solveSt pol st θ lam := by
  have e : st.front * Complex.sin ((-θ : ℝ) : ℂ) = -(st.front * Complex.sin θ) := by
    push_cast; rw [Complex.sin_neg]; ring
  obtain ⟨r, t, h1⟩ := h.solved pol
  obtain ⟨r', t', h2⟩ := h.neg.solved pol
  rw [h1, h2]
  rw [solveSt_eq] at h1 h2
  have hfront : frontM st ((-θ : ℝ) : ℂ) = frontM st θ := by
    simp only [frontM, Medium.mk.injEq, true_and, and_true]
    push_cast
    rw [Complex.sin_neg]
    apply root1m_neg
    rw [← Complex.ofReal_sin, Complex.ofReal_re]
    rintro ⟨_, h'⟩
    exact absurd h' (not_lt.mpr (Real.abs_sin_le_one θ))
  have hback : backM st ((-θ : ℝ) : ℂ) = backM st θ := by
    simp only [backM, Medium.mk.injEq, true_and, and_true]
    rw [e, neg_div]
    apply root1m_neg
    rw [h.sreal]
    exact off_cut h.back hb
  rw [hfront, hback] at h2
  have hflip : List.Forall₂ (fun m m' => m' = m ∨ m' = m.flip) (filmsM st ((-θ : ℝ) : ℂ) lam)
      (filmsM st θ lam) := by
    simp only [filmsM, List.forall₂_map_left_iff, List.forall₂_map_right_iff]
    refine List.forall₂_same.mpr fun f hfm => ?_
    rw [e]
    by_cases hc : f.1.im = 0 ∧ f.1.re < |n₀ * Real.sin θ|
    · -- beyond the critical angle: not clipped in either direction
      have hle := hf f hfm hc.1 hc.2
      have hi : IsFilm (st.front * Complex.sin θ) lam f
          ⟨f.1, root1m (st.front * Complex.sin θ / f.1),
            rawPhase (st.front * Complex.sin θ) lam f.1 f.2⟩ := rawPhase_isFilm _ _ _ _
      have hi' : IsFilm (st.front * Complex.sin θ) lam f
          ⟨f.1, -root1m (st.front * Complex.sin θ / f.1),
            -rawPhase (st.front * Complex.sin θ) lam f.1 f.2⟩ := by
        refine ⟨rfl, by rw [neg_sq]; exact root1m_sq _, ?_⟩
        simp only [rawPhase]; ring
      have h3 := hle _ hi
      have h4 := hle _ hi'
      simp only [Complex.neg_im] at h4
      have habs : |(rawPhase (st.front * Complex.sin θ) lam f.1 f.2).im| ≤ 35 :=
        abs_le.mpr ⟨by linarith, h3⟩
      have hmed : codeMed (st.front * Complex.sin θ) lam f =
          ⟨f.1, root1m (st.front * Complex.sin θ / f.1),
            rawPhase (st.front * Complex.sin θ) lam f.1 f.2⟩ := by
        simp only [codeMed, Medium.mk.injEq, true_and]
        exact clip35_of_le h3
      rw [hmed]
      exact film_eq_or_flip (IsFilm.neg_iff.mpr hi) habs
    · left
      have := root1m_neg (off_cut (h.films f hfm).1 hc)
      rw [← h.sreal] at this
      simp only [codeMed, neg_div]
      rw [this]
  have := (fields_flip_films (t := t') hflip _ _ _).mp (solveL_spec h2).1
  have hu := (solveL_spec h1).2 _ _ _ this
  rw [one_mul, one_mul] at hu
  rw [hu.1, hu.2]

/-- C13 (partial): the sign of the angle of incidence does not matter, if the backing medium is
not beyond its critical angle and films beyond theirs attenuate by less than e^-35.
Missing: total internal reflection at the backing, and films that attenuate more; there the claim is false
(`C13_fails_total_reflection`, `C13_fails_clip`). -/
theorem C13_angle_sign_partial {rows : List Row} {st : Stack} (hr : RowsOf rows st)
    {n₀ a wav : ℝ} (h : Physical st n₀ (rad a) wav)
    (hb : ¬ (st.back.im = 0 ∧ st.back.re < |n₀ * Real.sin (rad a)|))
    (hf : ∀ f ∈ st.films, f.1.im = 0 → f.1.re < |n₀ * Real.sin (rad a)| →
      ∀ m, IsFilm (st.front * Complex.sin (rad a)) wav f m → m.δ.im ≤ 35)
    (zs : List Layer → ℝ → ℝ → Bool) (off : ℝ) (refl : Bool) :
    ∃ x y, (deltaPsiTMM zs [a] rows wav off refl).1 = .ok [x] ∧
      (deltaPsiTMM zs [-a] rows wav off refl).1 = .ok [y] ∧ SamePD x y := by
  rw [deltaPsi_rows hr h.nz h.lam_pos.ne', deltaPsi_rows hr h.nz h.lam_pos.ne']
  refine ⟨_, _, rfl, rfl, ?_⟩
  have e : rad (-a) = -rad a := by simp [rad]
  simp only [e, solveSt_neg h hb hf]
  exact psiDelta_oracle _ _ _ _ _

/-- Equal (psi, delta) mean equal amplitude ratio. -/
theorem ratio_of_samePD {σ σ' : Bool} {off : ℝ} {rs rp ts tp rs' rp' ts' tp' : ℂ}
    {ψ Δ ψ' Δ' : ℝ} (hs : rs ≠ 0) (hs' : rs' ≠ 0)
    (h : psiDelta σ false off ⟨some (rs, ts), some (rp, tp)⟩ = (some ψ, some Δ))
    (h' : psiDelta σ' false off ⟨some (rs', ts'), some (rp', tp')⟩ = (some ψ', some Δ'))
    (hpd : SamePD (some ψ, some Δ) (some ψ', some Δ')) : rp / rs = rp' / rs' := by
  obtain ⟨e, _⟩ := psiDelta_encodes h
  obtain ⟨e', _⟩ := psiDelta_encodes h'
  obtain ⟨h1, h2⟩ := hpd
  simp only [Option.some.injEq] at h1
  subst h1
  have key : Complex.exp (-(I * (rad (Δ - off) : ℝ))) =
      Complex.exp (-(I * (rad (Δ' - off) : ℝ))) := by
    rcases h2 with h2 | ⟨x, y, hx, hy, h2⟩
    · simp only [Option.some.injEq] at h2
      rw [h2]
    · simp only [Option.some.injEq] at hx hy
      subst hx hy
      have hper : ∀ z w : ℝ, z - w = 360 → Complex.exp (-(I * (rad (z - off) : ℝ))) =
          Complex.exp (-(I * (rad (w - off) : ℝ))) := by
        intro z w hzw
        have : rad (z - off) = rad (w - off) + 2 * Real.pi := by
          rw [rad, rad]
          have : z = w + 360 := by linarith
          rw [this]; ring
        rw [this, Complex.exp_eq_exp_iff_exists_int]
        refine ⟨-1, ?_⟩
        push_cast; ring
      rcases abs_eq (by norm_num : (0 : ℝ) ≤ 360) |>.mp h2 with h3 | h3
      · exact hper _ _ h3
      · exact (hper _ _ (by linarith)).symm
  rw [e, e', key]
  field_simp

/-- Slabs of index 2 and 1. -/
noncomputable def tirRows : List Row := [⟨0, some 2, 0, 0⟩, ⟨0, some 1, 0, 0⟩]

theorem tirRows_of : RowsOf tirRows tirStack :=
  ⟨_, [], _, 2, rfl, rfl, by simp [tirStack], .nil, by simp [tirStack]⟩

/-- C13 fails under total internal reflection: from index 2 to index 1, the results at +45 and
-45 degrees differ (the latter is the physical one). -/
theorem C13_fails_total_reflection (zs : List Layer → ℝ → ℝ → Bool) :
    ∃ x y, (deltaPsiTMM zs [45] tirRows 500 0 false).1 = .ok [x] ∧
      (deltaPsiTMM zs [-45] tirRows 500 0 false).1 = .ok [y] ∧ ¬ SamePD x y := by
  have hp := tirStack_physical
  have h45 : rad 45 = Real.pi / 4 := by rw [rad]; ring
  have hm45 : rad (-45) = -(Real.pi / 4) := by rw [rad]; ring
  have hsin : Real.sin (Real.pi / 4) = Real.sqrt 2 / 2 := Real.sin_pi_div_four
  have hcos : Complex.cos ((Real.pi / 4 : ℝ) : ℂ) = ((Real.sqrt 2 / 2 : ℝ) : ℂ) := by
    rw [← Complex.ofReal_cos, Real.cos_pi_div_four]
  have h2 : (Real.sqrt 2 : ℝ) ^ 2 = 2 := Real.sq_sqrt (by norm_num)
  have h2c : ((Real.sqrt 2 : ℝ) : ℂ) ^ 2 = 2 := by exact_mod_cast congrArg Complex.ofReal h2
  have hgt : 1 < Real.sqrt 2 := by rw [Real.lt_sqrt] <;> norm_num
  have hone : Real.sqrt (Real.sqrt 2 ^ 2 - 1) = 1 := by rw [h2]; norm_num
  -- direction cosines in the backing
  have hcb : (backM tirStack ((Real.pi / 4 : ℝ) : ℂ)).c = -I := by
    simp only [backM]
    rw [hp.sreal, hsin]
    have : ((2 * (Real.sqrt 2 / 2) : ℝ) : ℂ) / tirStack.back = ((Real.sqrt 2 : ℝ) : ℂ) := by
      simp [tirStack]; ring
    rw [this, root1m_ofReal_gt hgt, hone]; simp
  have hcb' : (backM tirStack ((-(Real.pi / 4) : ℝ) : ℂ)).c = I := by
    simp only [backM]
    rw [hp.neg.sreal, Real.sin_neg, hsin]
    have : ((2 * -(Real.sqrt 2 / 2) : ℝ) : ℂ) / tirStack.back = ((-Real.sqrt 2 : ℝ) : ℂ) := by
      simp [tirStack]; ring
    rw [this, root1m_ofReal_lt (by linarith), neg_sq, hone]; simp
  have hc0 := hp.front_c
  have hc0' := hp.neg.front_c
  rw [Real.cos_neg] at hc0'
  rw [Real.cos_pi_div_four] at hc0 hc0'
  obtain ⟨rs, ts, h1⟩ := hp.solved .s
  obtain ⟨rp, tp, h3⟩ := hp.solved .p
  obtain ⟨rs', ts', h1'⟩ := hp.neg.solved .s
  obtain ⟨rp', tp', h3'⟩ := hp.neg.solved .p
  set q : ℂ := ((Real.sqrt 2 : ℝ) : ℂ) with hq
  have hqq : q ^ 2 = 2 := h2c
  have fs := (solveL_spec (by rw [← solveSt_eq]; exact h1)).1
  have fp := (solveL_spec (by rw [← solveSt_eq]; exact h3)).1
  have fs' := (solveL_spec (by rw [← solveSt_eq]; exact h1')).1
  have fp' := (solveL_spec (by rw [← solveSt_eq]; exact h3')).1
  simp only [filmsM, tirStack, List.map_nil, List.nil_append, Fields, Tangential, add_zero,
    sub_zero] at fs fp fs' fp'
  have g1 : (frontM tirStack ((Real.pi / 4 : ℝ) : ℂ)).n = 2 := by simp [frontM, tirStack]
  have g1' : (frontM tirStack ((-(Real.pi / 4) : ℝ) : ℂ)).n = 2 := by simp [frontM, tirStack]
  have g2 : (backM tirStack ((Real.pi / 4 : ℝ) : ℂ)).n = 1 := by simp [backM, tirStack]
  have g2' : (backM tirStack ((-(Real.pi / 4) : ℝ) : ℂ)).n = 1 := by simp [backM, tirStack]
  simp only [tirStack] at hc0 hc0' hcb hcb' g1 g1' g2 g2'
  rw [hc0, hcb, g1, g2] at fs fp
  rw [hc0', hcb', g1', g2'] at fs' fp'
  rw [Complex.ofReal_div, ← hq] at fs fp fs' fp'
  push_cast at fs fp fs' fp'
  obtain ⟨s1, s2⟩ := fs
  obtain ⟨p1, p2⟩ := fp
  obtain ⟨s1', s2'⟩ := fs'
  obtain ⟨p1', p2'⟩ := fp'
  have hI := Complex.I_sq
  have d1 : q - I ≠ 0 := by
    intro h; have := congrArg Complex.im h; simp [hq] at this
  have d2 : q + I ≠ 0 := by
    intro h; have := congrArg Complex.im h; simp [hq] at this
  have d3 : q - 4 * I ≠ 0 := by
    intro h; have := congrArg Complex.im h; simp [hq] at this
  have d4 : q + 4 * I ≠ 0 := by
    intro h; have := congrArg Complex.im h; simp [hq] at this
  have ers : rs = (q + I) / (q - I) := by
    rw [eq_div_iff d1]; linear_combination -s2 - I * s1
  have erp : rp = (q + 4 * I) / (q - 4 * I) := by
    rw [eq_div_iff d3]; linear_combination -2 * p2 - 2 * I * p1
  have ers' : rs' = (q - I) / (q + I) := by
    rw [eq_div_iff d2]; linear_combination -s2' + I * s1'
  have erp' : rp' = (q - 4 * I) / (q + 4 * I) := by
    rw [eq_div_iff d4]; linear_combination -2 * p2' + 2 * I * p1'
  have hrs : rs ≠ 0 := by rw [ers]; exact div_ne_zero d2 d1
  have hrs' : rs' ≠ 0 := by rw [ers']; exact div_ne_zero d1 d2
  have hrp : rp ≠ 0 := by rw [erp]; exact div_ne_zero d4 d3
  have hrp' : rp' ≠ 0 := by rw [erp']; exact div_ne_zero d3 d4
  -- finite (psi, delta) at both angles
  have fin : ∀ (σ : Bool) {rs rp ts tp : ℂ}, rs ≠ 0 → rp ≠ 0 → ∃ ψ Δ,
      psiDelta σ false 0 ⟨some (rs, ts), some (rp, tp)⟩ = (some ψ, some Δ) := by
    intro σ rs rp ts tp hs hp
    have hq : -rp / rs ≠ 0 := div_ne_zero (neg_ne_zero.mpr hp) hs
    simp only [psiDelta, psiRad, if_neg hs, deltaRad, cdiv_of_ne hs, cdiv_of_ne hq,
      Option.bind_eq_bind, Option.bind_some, Option.map_some]
    exact ⟨_, _, rfl⟩
  rw [deltaPsi_rows tirRows_of hp.nz (by norm_num), deltaPsi_rows tirRows_of hp.nz (by norm_num)]
  simp only [List.map_cons, List.map_nil, h45, hm45, h1, h3, h1', h3']
  obtain ⟨ψ, Δ, e1⟩ := fin (zs (tirStack.layers .inf .inf) 45 500) (ts := ts) (tp := tp) hrs hrp
  obtain ⟨ψ', Δ', e2⟩ := fin (zs (tirStack.layers .inf .inf) (-45) 500) (ts := ts') (tp := tp')
    hrs' hrp'
  refine ⟨_, _, rfl, rfl, ?_⟩
  rw [e1, e2]
  intro hpd
  have hρ := ratio_of_samePD hrs hrs' e1 e2 hpd
  rw [ers, erp, ers', erp'] at hρ
  -- cross multiply
  have h5 : ((q + 4 * I) * (q - I)) ^ 2 = ((q - 4 * I) * (q + I)) ^ 2 := by
    field_simp at hρ
    linear_combination hρ
  have h6 : q * I = 0 := by
    have e3 : ((q + 4 * I) * (q - I)) ^ 2 - ((q - 4 * I) * (q + I)) ^ 2 =
      12 * q * I * (q ^ 2 - 4 * I ^ 2) := by ring
    have : 12 * q * I * (q ^ 2 - 4 * I ^ 2) = 0 := by rw [← e3, h5]; ring
    rw [hqq, hI] at this
    linear_combination (1 / 72) * this
  have hq0 : q ≠ 0 := by
    intro h; rw [h] at hqq; norm_num at hqq
  exact mul_ne_zero hq0 Complex.I_ne_zero h6

/-- Non-vacuity of C13: `exStack` (absorbing film and substrate) at 30 degrees. -/
example : ¬ (exStack.back.im = 0 ∧ exStack.back.re < |1 * Real.sin (Real.pi / 6)|) ∧
    ∀ f ∈ exStack.films, f.1.im = 0 → f.1.re < |1 * Real.sin (Real.pi / 6)| → False := by
  have hs : |1 * Real.sin (Real.pi / 6)| = 1 / 2 := by
    rw [Real.sin_pi_div_six]; norm_num
  rw [hs]
  constructor
  · simp [exStack]
  · intro f hf h1 h2
    simp only [exStack, List.mem_cons, List.not_mem_nil, or_false] at hf
    rcases hf with rfl | rfl
    · simp at h1
    · simp at h2; linarith

/-! ### C93 -/

/-- Fields through a list of media, with arbitrary waves in the last one. -/
def Through (pol : Pol) : Medium → ℂ → ℂ → List Medium → Medium → ℂ → ℂ → Prop
  | m, v, w, [], b, v', w' => Tangential pol m b v w v' w'
  | m, v, w, f :: fs, b, v', w' => ∃ x y, Tangential pol m f v w x y ∧
      Through pol f (x * Complex.exp (I * f.δ)) (y * Complex.exp (-(I * f.δ))) fs b v' w'

theorem fields_through {pol : Pol} {fs : List Medium} {b : Medium} {t : ℂ} :
    ∀ {m : Medium} {v w : ℂ}, Fields pol m v w (fs ++ [b]) t ↔ Through pol m v w fs b t 0 := by
  induction fs with
  | nil => intro m v w; rfl
  | cons f fs ih =>
    intro m v w
    rw [List.cons_append, fields_cons (by simp)]
    simp only [Through, ih]

theorem tangential_symm {pol : Pol} {m m' : Medium} {v w v' w' : ℂ}
    (h : Tangential pol m m' v w v' w') : Tangential pol m' m w' v' w v := by
  cases pol <;> obtain ⟨h1, h2⟩ := h <;> constructor <;>
    first | linear_combination -h1 | linear_combination h2

theorem through_snoc {pol : Pol} {fs : List Medium} {f b : Medium} {v' w' : ℂ} :
    ∀ {m : Medium} {v w x y : ℂ}, Through pol m v w fs f x y →
      Tangential pol f b (x * Complex.exp (I * f.δ)) (y * Complex.exp (-(I * f.δ))) v' w' →
      Through pol m v w (fs ++ [f]) b v' w' := by
  induction fs with
  | nil => intro m v w x y h1 h2; exact ⟨x, y, h1, h2⟩
  | cons g fs ih =>
    rintro m v w x y ⟨a, c, h1, h2⟩ h3
    exact ⟨a, c, h1, ih h2 h3⟩

/-- Reading a field backwards. -/
theorem through_reverse {pol : Pol} {fs : List Medium} {b : Medium} {v' w' : ℂ} :
    ∀ {m : Medium} {v w : ℂ}, Through pol m v w fs b v' w' →
      Through pol b w' v' fs.reverse m w v := by
  induction fs with
  | nil => intro m v w h; exact tangential_symm h
  | cons f fs ih =>
    rintro m v w ⟨x, y, h1, h2⟩
    rw [List.reverse_cons]
    refine through_snoc (ih h2) ?_
    have e : ∀ z : ℂ, z * Complex.exp (-(I * f.δ)) * Complex.exp (I * f.δ) = z := by
      intro z; rw [mul_assoc, ← Complex.exp_add]; simp
    have e' : ∀ z : ℂ, z * Complex.exp (I * f.δ) * Complex.exp (-(I * f.δ)) = z := by
      intro z; rw [mul_assoc, ← Complex.exp_add]; simp
    rw [e, e']
    exact tangential_symm h1

theorem tangential_wronskian {pol : Pol} {m m' : Medium} {v w v' w' x y x' y' : ℂ}
    (h : Tangential pol m m' v w v' w') (g : Tangential pol m m' x y x' y') :
    m.n * m.c * (v * y - x * w) = m'.n * m'.c * (v' * y' - x' * w') := by
  cases pol <;> obtain ⟨h1, h2⟩ := h <;> obtain ⟨g1, g2⟩ := g
  · have a : (v + w) * (m.n * m.c * (x - y)) = (v' + w') * (m'.n * m'.c * (x' - y')) := by
      rw [h1, g2]
    have b : (x + y) * (m.n * m.c * (v - w)) = (x' + y') * (m'.n * m'.c * (v' - w')) := by
      rw [g1, h2]
    linear_combination (-1 / 2) * a + (1 / 2) * b
  · have a : (m.n * (v + w)) * (m.c * (x - y)) = (m'.n * (v' + w')) * (m'.c * (x' - y')) := by
      rw [h1, g2]
    have b : (m.n * (x + y)) * (m.c * (v - w)) = (m'.n * (x' + y')) * (m'.c * (v' - w')) := by
      rw [g1, h2]
    linear_combination (-1 / 2) * a + (1 / 2) * b

/-- The Wronskian of two fields in the same stack is conserved. -/
theorem through_wronskian {pol : Pol} {fs : List Medium} {b : Medium} {v' w' x' y' : ℂ} :
    ∀ {m : Medium} {v w x y : ℂ}, Through pol m v w fs b v' w' → Through pol m x y fs b x' y' →
      m.n * m.c * (v * y - x * w) = b.n * b.c * (v' * y' - x' * w') := by
  induction fs with
  | nil => intro m v w x y h g; exact tangential_wronskian h g
  | cons f fs ih =>
    rintro m v w x y ⟨p, q, h1, h2⟩ ⟨p', q', g1, g2⟩
    rw [tangential_wronskian h1 g1, ← ih h2 g2]
    have e : Complex.exp (I * f.δ) * Complex.exp (-(I * f.δ)) = 1 := by
      rw [← Complex.exp_add]; simp
    linear_combination (-f.n * f.c * (p * q' - p' * q)) * e

/-- C93: amplitudes transmitted through a stack and through the reversed stack, at angles related
by Snell's law, for any complex indices: `n₀ cos θ t' = n_b cos θ' t`. -/
theorem C93_reciprocity {n₀ nb : ℂ} {films : List (ℂ × ℝ)} {θ θ' lam : ℝ}
    (hnz : Stack.NZ ⟨n₀, films, nb⟩) (hl : lam ≠ 0) (hθ : |θ| ≤ Real.pi / 2)
    (hθ' : |θ'| ≤ Real.pi / 2) (hsnell : n₀ * Complex.sin θ = nb * Complex.sin θ')
    {d0 db d0' db' : Thick} {a a' : Amps}
    (ha : cohTmm (Stack.layers ⟨n₀, films, nb⟩ d0 db) [((θ : ℂ), lam)] = .ok [a])
    (ha' : cohTmm (Stack.layers ⟨nb, films.reverse, n₀⟩ d0' db') [((θ' : ℂ), lam)] = .ok [a'])
    {pol : Pol} {r t r' t' : ℂ} (hr : a.of pol = some (r, t)) (hr' : a'.of pol = some (r', t')) :
    n₀ * Complex.cos θ * t' = nb * Complex.cos θ' * t := by
  have hnz' : Stack.NZ ⟨nb, films.reverse, n₀⟩ :=
    ⟨hnz.2.2, fun f hf => hnz.2.1 f (by simpa using hf), hnz.1⟩
  rw [coh_of hnz hl ha, solveSt_eq] at hr
  rw [coh_of hnz' hl ha', solveSt_eq] at hr'
  have f1 := fields_through.mp (solveL_spec hr).1
  have f2 := through_reverse (fields_through.mp (solveL_spec hr').1)
  simp only [filmsM, frontM, backM, ← hsnell, List.map_reverse, List.reverse_reverse] at f1 f2
  have h0 : root1m (n₀ * Complex.sin θ / n₀) = Complex.cos θ := by
    rw [mul_div_cancel_left₀ _ hnz.1, root1m_sin hθ]
  have hb : root1m (n₀ * Complex.sin θ / nb) = Complex.cos θ' := by
    rw [hsnell, mul_div_cancel_left₀ _ hnz.2.2, root1m_sin hθ']
  rw [root1m_sin hθ, hb] at f1
  rw [root1m_sin hθ', h0] at f2
  have := through_wronskian f1 f2
  simpa using this

/-- C93 for transparent outer media: the transmitted fraction of power is the same both ways. -/
theorem C93_transmittance {n₀ nb : ℝ} {films : List (ℂ × ℝ)} {θ θ' lam : ℝ} (h0 : 0 < n₀)
    (hb : 0 < nb) (hfilms : ∀ f ∈ films, f.1 ≠ 0) (hl : lam ≠ 0) (hθ : |θ| < Real.pi / 2)
    (hθ' : |θ'| < Real.pi / 2) (hsnell : n₀ * Real.sin θ = nb * Real.sin θ')
    {d0 db d0' db' : Thick} {a a' : Amps}
    (ha : cohTmm (Stack.layers ⟨n₀, films, nb⟩ d0 db) [((θ : ℂ), lam)] = .ok [a])
    (ha' : cohTmm (Stack.layers ⟨nb, films.reverse, n₀⟩ d0' db') [((θ' : ℂ), lam)] = .ok [a'])
    {pol : Pol} {r t r' t' : ℂ} (hr : a.of pol = some (r, t)) (hr' : a'.of pol = some (r', t')) :
    transmittance pol n₀ θ nb (Complex.cos θ') t = transmittance pol nb θ' n₀ (Complex.cos θ) t' := by
  have hnz : Stack.NZ ⟨n₀, films, nb⟩ :=
    ⟨Complex.ofReal_ne_zero.mpr h0.ne', hfilms, Complex.ofReal_ne_zero.mpr hb.ne'⟩
  have hsn : (n₀ : ℂ) * Complex.sin θ = nb * Complex.sin θ' := by
    rw [← Complex.ofReal_sin, ← Complex.ofReal_sin, ← Complex.ofReal_mul, ← Complex.ofReal_mul,
      hsnell]
  have key := C93_reciprocity hnz hl hθ.le hθ'.le hsn ha ha' hr hr'
  rw [← Complex.ofReal_cos, ← Complex.ofReal_cos, ← Complex.ofReal_mul, ← Complex.ofReal_mul] at key
  have hc : 0 < Real.cos θ :=
    Real.cos_pos_of_mem_Ioo ⟨by linarith [(abs_lt.mp hθ).1], (abs_lt.mp hθ).2⟩
  have hc' : 0 < Real.cos θ' :=
    Real.cos_pos_of_mem_Ioo ⟨by linarith [(abs_lt.mp hθ').1], (abs_lt.mp hθ').2⟩
  have hA : 0 < n₀ * Real.cos θ := mul_pos h0 hc
  have hB : 0 < nb * Real.cos θ' := mul_pos hb hc'
  have hn := congrArg norm key
  rw [norm_mul, norm_mul, Complex.norm_real, Complex.norm_real, Real.norm_of_nonneg hA.le,
    Real.norm_of_nonneg hB.le] at hn
  have hre1 : ((nb : ℂ) * Complex.cos θ').re = nb * Real.cos θ' := by
    rw [← Complex.ofReal_cos, ← Complex.ofReal_mul, Complex.ofReal_re]
  have hre2 : ((nb : ℂ) * conj (Complex.cos θ')).re = nb * Real.cos θ' := by
    rw [← Complex.ofReal_cos, Complex.conj_ofReal, ← Complex.ofReal_mul, Complex.ofReal_re]
  have hre3 : ((n₀ : ℂ) * Complex.cos θ).re = n₀ * Real.cos θ := by
    rw [← Complex.ofReal_cos, ← Complex.ofReal_mul, Complex.ofReal_re]
  have hre4 : ((n₀ : ℂ) * conj (Complex.cos θ)).re = n₀ * Real.cos θ := by
    rw [← Complex.ofReal_cos, Complex.conj_ofReal, ← Complex.ofReal_mul, Complex.ofReal_re]
  have fin : ‖t‖ ^ 2 * (nb * Real.cos θ') / (n₀ * Real.cos θ) =
      ‖t'‖ ^ 2 * (n₀ * Real.cos θ) / (nb * Real.cos θ') := by
    generalize n₀ * Real.cos θ = A at *
    generalize nb * Real.cos θ' = B at *
    have : ‖t'‖ = B * ‖t‖ / A := by field_simp; linarith
    rw [this]
    field_simp
  cases pol
  · simp only [transmittance, hre1, hre3]; exact fin
  · simp only [transmittance, hre2, hre4]; exact fin

/-- Non-vacuity of C93: vacuum, absorbing film, glass at normal incidence: both directions give
finite amplitudes. -/
example : (∃ a, cohTmm (Stack.layers ⟨((1 : ℝ) : ℂ), [(2 + I, 10)], ((3 : ℝ) : ℂ)⟩ .inf .inf)
      [((0 : ℝ), 500)] = .ok [a] ∧ ∀ pol, ∃ r t, a.of pol = some (r, t)) ∧
    ∃ a, cohTmm (Stack.layers ⟨((3 : ℝ) : ℂ), [(2 + I, 10)].reverse, ((1 : ℝ) : ℂ)⟩ .inf .inf)
      [((0 : ℝ), 500)] = .ok [a] ∧ ∀ pol, ∃ r t, a.of pol = some (r, t) := by
  have hpi := Real.pi_pos
  have hf : ∀ f ∈ [((2 : ℂ) + I, (10 : ℝ))], PassiveIndex f.1 ∧ 0 ≤ f.2 ∧
      2 * Real.pi * f.2 / 500 * f.1.im ≤ 50 := by
    intro f hf
    simp only [List.mem_singleton] at hf
    subst hf
    refine ⟨by simp [PassiveIndex], by norm_num, ?_⟩
    have : 2 * Real.pi * 10 / 500 * 1 ≤ 2 * 4 * 10 / 500 * 1 := by gcongr; exact Real.pi_le_four
    simp only [Complex.add_im, Complex.im_ofNat, Complex.I_im, zero_add]
    linarith
  exact ⟨C10_coh_tmm_finite (physical_normal one_pos (by norm_num) hf (by simp [PassiveIndex])) _ _,
    C10_coh_tmm_finite (physical_normal three_pos (by norm_num) (by simpa using hf)
      (by simp [PassiveIndex])) _ _⟩

end Verif.TMM
