import Verif.TMM.PropsScreen
import Verif.TMM.PropsMaxwell
import Verif.TMM.Graded

/-! # The limit on the attenuation does not show (C162) -/

namespace Verif.TMM

open Complex (I)

/-! ### Films without the limit -/

theorem isFilm_full {s : ℂ} {lam : ℝ} {f : ℂ × ℝ} {m : Medium} (h : IsFilm s lam f m) :
    m = fullMed s lam f ∨ m = (fullMed s lam f).flip := by
  obtain ⟨n, c, δ⟩ := m
  obtain ⟨h1, h2, h3⟩ := h
  simp only at h1 h2 h3
  subst h1
  have hsq : c ^ 2 = root1m (s / f.1) ^ 2 := by rw [h2, root1m_sq]
  rcases sq_eq_sq_iff_eq_or_eq_neg.mp hsq with rfl | rfl
  · left
    rw [h3, fullMed]
    congr 1
    ring
  · right
    rw [h3, fullMed, Medium.flip]
    congr 1
    ring

theorem films_full {s : ℂ} {lam : ℝ} {fs : List (ℂ × ℝ)} {ms : List Medium}
    (h : List.Forall₂ (IsFilm s lam) fs ms) :
    List.Forall₂ (fun m m' => m' = m ∨ m' = m.flip) (fs.map (fullMed s lam)) ms := by
  induction h with
  | nil => exact .nil
  | cons hf _ ih => exact .cons (isFilm_full hf) ih

/-- A film damps the power that goes through it, without the limit on the attenuation too. -/
theorem damps_full {s : ℝ} {m : Medium} (h : CodeDir s m) {x : ℝ} (hx : 0 ≤ x)
    (hδ : m.δ = x * qOf s m.n) (pol : Pol) : Damps pol m := by
  obtain ⟨A, hA, hre, him⟩ := kap_bound h pol
  have ha : m.δ.re = x * (qOf s m.n).re := by rw [hδ]; simp
  have hb : m.δ.im = x * (qOf s m.n).im := by rw [hδ]; simp
  unfold Damps
  rw [hre, ha, hb]
  set q := qOf s m.n
  have hr := (qOf_fwd h.1 s).re_nonneg
  rcases hr.lt_or_eq with hr | hr
  · have hi : 0 ≤ q.im := by
      rcases qOf_cases h.1 s with h' | ⟨_, _, h'⟩ | ⟨_, _, h'⟩ | ⟨_, _, h', _⟩ | ⟨_, _, h', _⟩
      · exact h'.2
      all_goals (exfalso; rw [h'] at hr; simp at hr)
    rw [abs_of_nonneg hi] at him
    have h1 : |Real.sin (x * q.re)| ≤ x * q.re := by
      have := Real.abs_sin_le_abs (x := x * q.re)
      rwa [abs_of_nonneg (mul_nonneg hx hr.le)] at this
    have h2 : x * q.im ≤ Real.sinh (x * q.im) := Real.self_le_sinh_iff.mpr (mul_nonneg hx hi)
    calc |(kap pol m).im| * |Real.sin (x * q.re)| ≤ (q.im * A) * (x * q.re) :=
          mul_le_mul him h1 (abs_nonneg _) (mul_nonneg hi hA)
      _ = q.re * A * (x * q.im) := by ring
      _ ≤ _ := mul_le_mul_of_nonneg_left h2 (mul_nonneg hr.le hA)
  · rw [← hr]
    simp

theorem through_congr {pol : Pol} {f f' : Medium} (hn : f.n = f'.n) (hc : f.c = f'.c) {v' w' : ℂ} :
    ∀ {ms : List Medium} {m : Medium} {v w : ℂ}, Through pol m v w ms f v' w' → Through pol m v w ms f' v' w'
  | [], m, v, w, h => by
    cases pol <;> simpa only [Through, Tangential, hn, hc] using h
  | a :: ms, m, v, w, ⟨x, y, h1, h2⟩ => ⟨x, y, h1, through_congr hn hc h2⟩

section
variable {st : Stack} {n₀ θ lam : ℝ}

theorem full_phase (h : Physical st n₀ θ lam) (f : ℂ × ℝ) : (fullMed (st.front * Complex.sin θ) lam f).δ =
    ((2 * Real.pi * f.2 / lam : ℝ) : ℂ) * qOf (n₀ * Real.sin θ) f.1 := by
  rw [fullMed, qOf, ← h.sreal]; push_cast; ring

theorem full_dir (h : Physical st n₀ θ lam) {f : ℂ × ℝ} (hf : f ∈ st.films) :
    CodeDir (n₀ * Real.sin θ) (fullMed (st.front * Complex.sin θ) lam f) ∧
      (fullMed (st.front * Complex.sin θ) lam f).n * (fullMed (st.front * Complex.sin θ) lam f).c ≠ 0 :=
  ⟨⟨(h.films f hf).1, by simp only [fullMed]; rw [h.sreal]⟩,
    (fullMed_ok (h.films f hf).1.ne_zero (h.offCritical f hf)).2.2⟩

theorem full_damps (h : Physical st n₀ θ lam) {f : ℂ × ℝ} (hf : f ∈ st.films) (pol : Pol) :
    Damps pol (fullMed (st.front * Complex.sin θ) lam f) := by
  have h1 := (h.films f hf).2
  have h2 := h.lam_pos
  exact damps_full (full_dir h hf).1 (x := 2 * Real.pi * f.2 / lam) (by positivity) (full_phase h f) pol

/-- The media of a stack without the limit. -/
noncomputable def fullM (st : Stack) (θ : ℂ) (lam : ℝ) : List Medium :=
  st.films.map (fullMed (st.front * Complex.sin θ) lam)

theorem full_solved (h : Physical st n₀ θ lam) (pol : Pol) :
    ∃ R T, solveL pol (frontM st θ) (fullM st θ lam ++ [backM st θ]) = some (R, T) := by
  refine solveL_passive h.front_dir ?_ h.front_q ?_ ?_ h.back_dir
  · rw [h.front_kap, Complex.ofReal_re]
    exact mul_pos h.n₀_pos h.cos_pos
  · intro m hm
    obtain ⟨f, hf, rfl⟩ := List.mem_map.mp hm
    exact full_dir h hf
  · intro m hm
    obtain ⟨f, hf, rfl⟩ := List.mem_map.mp hm
    exact full_damps h hf pol

/-- One stack cut at a film that damps well. -/
theorem split_core {pol : Pol} {m₀ b f : Medium} {pre post : List Medium} {g : ℝ} (hk : 0 < (kap pol f).re)
    (hi : |(kap pol f).im| ≤ g * (kap pol f).re) (hd : ∀ m ∈ post, Damps pol m) (hb : 0 ≤ (kap pol b).re) {r t : ℂ}
    (hs : Fields pol m₀ 1 r (pre ++ f :: (post ++ [b])) t) :
    ∃ v w, Through pol m₀ 1 r pre f v w ∧ ‖w‖ ≤ maxBack g * Real.exp (-(2 * f.δ.im)) * ‖v‖ := by
  obtain ⟨v, w, h1, h2⟩ := fields_split (by simp) hs
  refine ⟨v, w, h1, back_le_front hk hi ?_⟩
  have hfl := fields_flux_le hd h2
  rw [flux_forward] at hfl
  exact (mul_nonneg hb (Complex.normSq_nonneg _)).trans hfl

/-- The list has a first element with the property, or none has it. -/
theorem first_or_none {α : Type*} (p : α → Prop) : ∀ l : List α, (∀ a ∈ l, ¬ p a) ∨
    ∃ pre a post, l = pre ++ a :: post ∧ p a ∧ ∀ b ∈ pre, ¬ p b
  | [] => .inl (by simp)
  | a :: l => by
    by_cases h : p a
    · exact .inr ⟨[], a, l, rfl, h, by simp⟩
    · rcases first_or_none p l with h1 | ⟨pre, x, post, rfl, h1, h2⟩
      · exact .inl (by simpa [h] using h1)
      · exact .inr ⟨a :: pre, x, post, rfl, h1, by simpa [h] using h2⟩

theorem code_eq_full (h : Physical st n₀ θ lam) {f : ℂ × ℝ}
    (hf : ¬ 35 < 2 * Real.pi * f.2 / lam * (qOf (n₀ * Real.sin θ) f.1).im) :
    codeMed (st.front * Complex.sin θ) lam f = fullMed (st.front * Complex.sin θ) lam f := by
  have e := full_phase h f
  simp only [fullMed] at e
  unfold codeMed fullMed
  rw [e]
  congr 1
  apply Complex.ext
  · simp [clip35]
  · simp only [clip35, Complex.im_ofReal_mul]
    exact min_eq_left (not_lt.mp hf)

theorem exp70 : Real.exp (-70) ≤ 1 / 10 ^ 30 := by
  have h : (2.7 : ℝ) ^ 70 ≤ Real.exp 70 := by
    rw [show (70 : ℝ) = ((70 : ℕ) : ℝ) * 1 by norm_num, Real.exp_nat_mul]
    exact pow_le_pow_left₀ (by norm_num) (by linarith [Real.exp_one_gt_d9]) 70
  rw [Real.exp_neg, ← one_div]
  exact one_div_le_one_div_of_le (by norm_num) (le_trans (by norm_num) h)

theorem clip_small {g σ : ℝ} (h0 : 0 ≤ g) (hg : g ≤ 10 ^ 6) (hσ : σ = maxBack g * Real.exp (-70)) :
    0 ≤ σ ∧ σ ^ 2 + 2 * g * σ < 1 ∧ 2 * σ * Real.sqrt (1 + g ^ 2) / (1 - σ ^ 2 - 2 * g * σ) ≤ 1 / 10 ^ 17 := by
  have hr : Real.sqrt (1 + g ^ 2) ≤ 1 + g := by
    rw [Real.sqrt_le_left (by linarith)]
    nlinarith
  have hr0 := Real.sqrt_nonneg (1 + g ^ 2)
  have hm : maxBack g ≤ 1 + 2 * 10 ^ 6 := by unfold maxBack; linarith
  have hm0 := (maxBack_pos h0).le
  have hs0 : 0 ≤ σ := by rw [hσ]; positivity
  have hs : σ ≤ 3 / 10 ^ 24 := by
    rw [hσ]
    calc maxBack g * Real.exp (-70) ≤ (1 + 2 * 10 ^ 6) * (1 / 10 ^ 30) :=
          mul_le_mul hm exp70 (Real.exp_nonneg _) (by norm_num)
      _ ≤ _ := by norm_num
  have h1 : 2 * g * σ ≤ 2 * 10 ^ 6 * (3 / 10 ^ 24) := mul_le_mul (by linarith) hs hs0 (by norm_num)
  have h2 : σ ^ 2 ≤ (3 / 10 ^ 24) ^ 2 := pow_le_pow_left₀ hs0 hs 2
  have h3 : 2 * σ * Real.sqrt (1 + g ^ 2) ≤ 2 * (3 / 10 ^ 24) * (1 + 10 ^ 6) :=
    mul_le_mul (by linarith) (by linarith) hr0 (by norm_num)
  norm_num at h1 h2 h3 ⊢
  refine ⟨hs0, by linarith, ?_⟩
  rw [div_le_iff₀ (by linarith)]
  linarith

theorem clip_core (h : Physical st n₀ θ lam) (hθ : 0 ≤ θ)
    (hg : ∀ f ∈ st.films, f.1.im ≠ 0 → ∀ q : ℂ, q ^ 2 = f.1 ^ 2 - ((n₀ : ℂ) * Complex.sin θ) ^ 2 →
      |q.im| ≤ 10 ^ 6 * |q.re|)
    {pol : Pol} {r t R T : ℂ} (hr : solveSt pol st θ lam = some (r, t))
    (hR : solveL pol (frontM st θ) (fullM st θ lam ++ [backM st θ]) = some (R, T)) : ‖r - R‖ ≤ 1 / 10 ^ 17 := by
  rw [solveSt_eq] at hr
  rcases first_or_none (fun f : ℂ × ℝ => 35 < 2 * Real.pi * f.2 / lam * (qOf (n₀ * Real.sin θ) f.1).im) st.films with
    hn | ⟨pre, f, post, hL, hf, hpre⟩
  · have e : filmsM st θ lam = fullM st θ lam := List.map_congr_left fun f hf => code_eq_full h (hn f hf)
    rw [e, hR] at hr
    obtain ⟨rfl, -⟩ := Prod.mk.inj (Option.some.inj hr)
    simp
  · have hmem : f ∈ st.films := by rw [hL]; simp
    have hpas := (h.films f hmem).1
    have hx : 0 ≤ 2 * Real.pi * f.2 / lam := by
      have h1 := (h.films f hmem).2
      have h2 := h.lam_pos
      positivity
    -- the film absorbs
    have hs0 : 0 ≤ n₀ * Real.sin θ :=
      mul_nonneg h.n₀_pos.le (Real.sin_nonneg_of_nonneg_of_le_pi hθ (by linarith [(abs_lt.mp h.angle).2, Real.pi_pos]))
    have himq : 0 < (qOf (n₀ * Real.sin θ) f.1).im := by
      by_contra hc
      have := mul_nonpos_of_nonneg_of_nonpos hx (not_lt.mp hc)
      linarith
    have him : 0 < f.1.im := by
      refine lt_of_le_of_ne hpas.2 fun h0 => ?_
      rcases qOf_cases hpas (n₀ * Real.sin θ) with h' | ⟨_, _, h'⟩ | ⟨_, _, h'⟩ | ⟨_, _, _, h'⟩ | ⟨_, h', _⟩
      · -- a transparent film below its critical angle has a real wave number
        have h2 := qOf_sq (n₀ * Real.sin θ) hpas.ne_zero
        have h3 := congrArg Complex.im h2
        simp only [sq, Complex.mul_im, Complex.sub_im, ← Complex.ofReal_mul, Complex.ofReal_im, ← h0] at h3
        nlinarith [mul_pos h'.1 himq]
      · rw [h'] at himq; simp at himq
      · rw [h'] at himq; simp at himq
      · linarith
      · linarith [hpas.1]
    obtain ⟨hq1, -⟩ := qOf_absorbing hpas.1 him (n₀ * Real.sin θ)
    set q := qOf (n₀ * Real.sin θ) f.1 with hq
    have hgq := hg f hmem him.ne' q (by rw [hq, qOf_sq _ hpas.ne_zero]; push_cast; rfl)
    rw [abs_of_pos hq1] at hgq
    obtain ⟨g, hgd⟩ : ∃ g, g = |q.im| / q.re := ⟨_, rfl⟩
    have hg0 : 0 ≤ g := by rw [hgd]; positivity
    have hg6 : g ≤ 10 ^ 6 := by rw [hgd, div_le_iff₀ hq1]; exact hgq
    have hfm : codeMed (st.front * Complex.sin θ) lam f ∈ filmsM st θ lam := List.mem_map.mpr ⟨f, hmem, rfl⟩
    -- bounds on the wave impedance of the film
    have kb : ∀ {m : Medium}, CodeDir (n₀ * Real.sin θ) m → m.n * m.c ≠ 0 → m.n = f.1 →
        0 < (kap pol m).re ∧ |(kap pol m).im| ≤ g * (kap pol m).re := by
      intro m hdir hne hmn
      obtain ⟨A, hA, hAre, hAim⟩ := kap_bound hdir pol
      rw [hmn, ← hq] at hAre hAim
      have hk : 0 < (kap pol m).re := by
        rcases hA.lt_or_eq with hA | hA
        · rw [hAre]; positivity
        · have h0 : kap pol m = 0 := by
            apply Complex.ext
            · rw [hAre, ← hA, mul_zero]; rfl
            · rw [← hA, mul_zero] at hAim
              exact abs_eq_zero.mp (le_antisymm hAim (abs_nonneg _))
          have := norm_kap pol m
          rw [h0, norm_zero, eq_comm, norm_eq_zero] at this
          exact absurd this hne
      refine ⟨hk, ?_⟩
      rw [hAre, hgd]
      calc _ ≤ |q.im| * A := hAim
        _ = _ := by field_simp
    obtain ⟨k1, i1⟩ := kb (h.film_dir _ hfm).1 (h.film_dir _ hfm).2 rfl
    obtain ⟨k2, i2⟩ := kb (full_dir h hmem).1 (full_dir h hmem).2 rfl
    have epre : pre.map (codeMed (st.front * Complex.sin θ) lam) = pre.map (fullMed (st.front * Complex.sin θ) lam) :=
      List.map_congr_left fun f hf => code_eq_full h (hpre f hf)
    have e1 : filmsM st θ lam ++ [backM st θ] = pre.map (fullMed (st.front * Complex.sin θ) lam) ++
        codeMed (st.front * Complex.sin θ) lam f :: (post.map (codeMed (st.front * Complex.sin θ) lam) ++ [backM st θ]) := by
      rw [filmsM, hL, List.map_append, epre]; simp
    have e2 : fullM st θ lam ++ [backM st θ] = pre.map (fullMed (st.front * Complex.sin θ) lam) ++
        fullMed (st.front * Complex.sin θ) lam f :: (post.map (fullMed (st.front * Complex.sin θ) lam) ++ [backM st θ]) := by
      rw [fullM, hL]; simp
    have d1 : ∀ m ∈ post.map (codeMed (st.front * Complex.sin θ) lam), Damps pol m := fun m hm =>
      h.film_damps pol m (by rw [filmsM, hL, List.map_append, List.map_cons]; simp only [List.mem_append, List.mem_cons]; exact .inr (.inr hm))
    have d2 : ∀ m ∈ post.map (fullMed (st.front * Complex.sin θ) lam), Damps pol m := fun m hm => by
      obtain ⟨f', hf', rfl⟩ := List.mem_map.mp hm
      exact full_damps h (by rw [hL]; simp [hf']) pol
    have d3 : ∀ m ∈ pre.map (fullMed (st.front * Complex.sin θ) lam), Damps pol m := fun m hm => by
      obtain ⟨f', hf', rfl⟩ := List.mem_map.mp hm
      exact full_damps h (by rw [hL]; simp [hf']) pol
    have hb := kap_re_nonneg h.back_dir pol
    have s1 := (solveL_spec hr).1
    have s2 := (solveL_spec hR).1
    rw [e1] at s1
    rw [e2] at s2
    obtain ⟨v, w, t1, b1⟩ := split_core k1 i1 d1 hb s1
    obtain ⟨v', w', t2, b2⟩ := split_core k2 i2 d2 hb s2
    have δ1 : (codeMed (st.front * Complex.sin θ) lam f).δ.im = 35 := by
      rw [(h.film_phase hmem).1, clip35]
      simp only [Complex.im_ofReal_mul]
      exact min_eq_right hf.le
    have δ2 : 35 ≤ (fullMed (st.front * Complex.sin θ) lam f).δ.im := by
      rw [full_phase h f, Complex.im_ofReal_mul]
      exact hf.le
    obtain ⟨σ, hσ⟩ : ∃ σ, σ = maxBack g * Real.exp (-70) := ⟨_, rfl⟩
    obtain ⟨c1, c2, c3⟩ := clip_small hg0 hg6 hσ
    have b1' : ‖w‖ ≤ σ * ‖v‖ := by
      rw [δ1] at b1
      norm_num at b1
      rwa [hσ]
    have b2' : ‖w'‖ ≤ σ * ‖v'‖ := by
      refine b2.trans (mul_le_mul_of_nonneg_right ?_ (norm_nonneg _))
      rw [hσ]
      refine mul_le_mul_of_nonneg_left (Real.exp_le_exp.mpr ?_) (maxBack_pos hg0).le
      linarith
    have t1' : Through pol (frontM st θ) 1 r (pre.map (fullMed (st.front * Complex.sin θ) lam))
        (fullMed (st.front * Complex.sin θ) lam f) v w :=
      through_congr (f := codeMed (st.front * Complex.sin θ) lam f) (f' := fullMed (st.front * Complex.sin θ) lam f)
        rfl rfl t1
    have hq₀ : 0 < n₀ * Real.cos θ := mul_pos h.n₀_pos h.cos_pos
    refine (screen_core hq₀ (h.front_kap pol) ?_ hg0 k2 i2 d3 c1 c2 t1' t2 b1' b2').trans c3
    rw [h.front_c]
    simp only [frontM]
    rw [h.front]
    push_cast
    rfl

/-- C162. `coh_tmm` limits the attenuation of a film to 35 nepers; Maxwell's equations do not.  The boundary value
problem without the limit has exactly one solution, and the reflected amplitude that the code returns is within
`10⁻¹⁷` of it, if in the absorbing films the imaginary part of the normal wave number is at most a million times the
real part. -/
theorem C162_amplitudes (h : Physical st n₀ θ lam) (hθ : 0 ≤ θ)
    (hg : ∀ f ∈ st.films, f.1.im ≠ 0 → ∀ q : ℂ, q ^ 2 = f.1 ^ 2 - ((n₀ : ℂ) * Complex.sin θ) ^ 2 →
      |q.im| ≤ 10 ^ 6 * |q.re|) :
    ∃ cb : ℂ, cb ^ 2 = 1 - (st.front * Complex.sin θ / st.back) ^ 2 ∧
      (¬ (st.back.im = 0 ∧ st.back.re < n₀ * Real.sin θ) →
        ∀ c, c ^ 2 = 1 - (st.front * Complex.sin θ / st.back) ^ 2 → Outgoing st.back c → c = cb) ∧
      ∀ pol, ∃ R T : ℂ, (∀ ms, List.Forall₂ (IsFilm (st.front * Complex.sin θ) lam) st.films ms →
          ∀ r t, Solves pol st θ ms cb r t ↔ r = R ∧ t = T) ∧
        ∀ d0 db, ∃ a r t, cohTmm (st.layers d0 db) [((θ : ℂ), lam)] = .ok [a] ∧ a.of pol = some (r, t) ∧
          ‖r - R‖ ≤ 1 / 10 ^ 17 := by
  refine ⟨root1m (st.front * Complex.sin θ / st.back), root1m_sq _, fun htir c hc ho => ?_, fun pol => ?_⟩
  · rw [h.sreal] at hc ⊢
    exact outgoing_unique h.back htir hc ho
  · obtain ⟨R, T, hR⟩ := full_solved h pol
    obtain ⟨r, t, hr⟩ := h.solved pol
    refine ⟨R, T, fun ms hms r' t' => ?_, fun d0 db => ⟨_, r, t, coh_real h.front h.nz h.lam_pos.ne' d0 db, ?_,
      clip_core h hθ hg hr hR⟩⟩
    · have hfl := fields_flip_films (pol := pol) (t := t')
        (b := ⟨st.back, root1m (st.front * Complex.sin θ / st.back), 0⟩) (films_full hms)
      obtain ⟨s1, s2⟩ := solveL_spec hR
      have hfr : frontM st θ = ⟨st.front, Complex.cos θ, 0⟩ := by
        rw [frontM, root1m_sin h.angle.le]
      rw [hfr] at s1 s2
      constructor
      · intro hs
        have := s2 1 r' t' ((hfl _ _ _).mpr hs)
        simpa using this
      · rintro ⟨rfl, rfl⟩
        exact (hfl _ _ _).mp s1
    · rw [← hr]; cases pol <;> rfl

end

/-- C162 for psi and delta: they differ from those of the sample without the limit (`R_p = R_s tan(psi) exp(-i delta)`)
by no more than `2·10⁻¹⁷` in the sine, weighted with the size of the amplitudes. -/
theorem C162_psi_delta {st : Stack} {n₀ a wav : ℝ} (h : Physical st n₀ (rad a) wav) (ha : 0 ≤ a)
    (hg : ∀ f ∈ st.films, f.1.im ≠ 0 → ∀ q : ℂ, q ^ 2 = f.1 ^ 2 - ((n₀ : ℂ) * Complex.sin (rad a : ℝ)) ^ 2 →
      |q.im| ≤ 10 ^ 6 * |q.re|)
    (htir : ¬ (st.back.im = 0 ∧ st.back.re < n₀ * Real.sin (rad a)))
    {rows : List Row} (hr : RowsOf rows st) {zs : List Layer → ℝ → ℝ → Bool} {off ψ Δ : ℝ}
    (hx : (deltaPsiTMM zs [a] rows wav off false).1 = .ok [(some ψ, some Δ)])
    {cb : ℂ} (hcb : cb ^ 2 = 1 - (st.front * Complex.sin (rad a : ℝ) / st.back) ^ 2) (hout : Outgoing st.back cb)
    {ms : List Medium} (hms : List.Forall₂ (IsFilm (st.front * Complex.sin (rad a : ℝ)) wav) st.films ms)
    {Rs Ts Rp Tp : ℂ} (hs : Solves .s st (rad a) ms cb Rs Ts) (hp : Solves .p st (rad a) ms cb Rp Tp)
    {ψ' Δ' : ℝ} (h0 : 0 < ψ') (h90 : ψ' < 90) (hRs : Rs ≠ 0)
    (hR : Rp = Rs * (Real.tan (rad ψ') : ℝ) * Complex.exp (-(I * (rad Δ' : ℝ)))) :
    |Real.sin (rad (ψ - ψ'))| * Real.sqrt (‖Rs‖ ^ 2 + ‖Rp‖ ^ 2) ≤ 2 / 10 ^ 17 ∧
    |Real.sin (rad (Δ - off - Δ') / 2)| * (‖Rs‖ * ‖Rp‖) ≤ 2 / 10 ^ 17 := by
  obtain ⟨a1, rs1, ts1, rp1, tp1, c1, s1, p1, e1, l1, u1, -⟩ := C14_encode_ratio hr h.nz h.lam_pos.ne' hx
  obtain ⟨a1', rs1', ts1', rp1', tp1', c1', s1', p1', n1, n1'⟩ :=
    (C14_finite_iff hr h.nz h.lam_pos.ne' zs false).mp ⟨ψ, Δ, hx⟩
  have q1 : rs1 ≠ 0 := by
    rw [c1] at c1'
    obtain rfl := List.head_eq_of_cons_eq (Except.ok.inj c1')
    rw [s1] at s1'
    rwa [(Prod.mk.inj (Option.some.inj s1')).1]
  obtain ⟨cb', -, hcu, hall⟩ := C162_amplitudes h (by unfold rad; have := Real.pi_pos; positivity) hg
  obtain rfl := hcu htir cb hcb hout
  have close : ∀ {pol : Pol} {r t R T : ℂ}, a1.of pol = some (r, t) → Solves pol st (rad a) ms cb R T →
      ‖r - R‖ ≤ 1 / 10 ^ 17 := by
    intro pol r t R T h1 h2
    obtain ⟨R', T', hu, hb⟩ := hall pol
    obtain ⟨rfl, rfl⟩ := (hu ms hms R T).mp h2
    obtain ⟨a2, r2, t2, d1, d2, d3⟩ := hb .inf .inf
    rw [c1] at d1
    obtain rfl := List.head_eq_of_cons_eq (Except.ok.inj d1)
    rw [h1] at d2
    rwa [(Prod.mk.inj (Option.some.inj d2)).1]
  have ds := close s1 hs
  have dp := close p1 hp
  have hpi := Real.pi_pos
  have cosPos : ∀ {x : ℝ}, 0 < x → x < 90 → 0 < Real.cos (rad x) ∧ 0 < Real.tan (rad x) := by
    intro x hx0 hx1
    have b0 : 0 < rad x := by unfold rad; positivity
    have b1 : rad x < Real.pi / 2 := by
      unfold rad
      calc x * (Real.pi / 180) < 90 * (Real.pi / 180) := by gcongr
        _ = _ := by ring
    exact ⟨Real.cos_pos_of_mem_Ioo ⟨by linarith, b1⟩, Real.tan_pos_of_pos_of_lt_pi_div_two b0 b1⟩
  have norms : ∀ {rs rp : ℂ} {x y : ℝ}, 0 < x → x < 90 →
      rp = rs * (Real.tan (rad x) : ℝ) * Complex.exp (-(I * (y : ℝ))) →
      ‖rp‖ * Real.cos (rad x) = ‖rs‖ * Real.sin (rad x) := by
    intro rs rp x y hx0 hx1 e
    obtain ⟨b1, b2⟩ := cosPos hx0 hx1
    rw [e, norm_mul, norm_mul, Complex.norm_real, Real.norm_of_nonneg b2.le, Complex.norm_exp]
    have : (-(I * (y : ℂ))).re = 0 := by simp
    rw [this, Real.exp_zero, mul_one, mul_assoc, Real.tan_mul_cos b1.ne']
  constructor
  · have := psi_close ds dp (norms l1 u1 e1) (norms h0 h90 hR)
    rw [show rad ψ - rad ψ' = rad (ψ - ψ') by unfold rad; ring] at this
    linarith
  · have le1 : ‖rs1‖ ≤ 1 := by
      have hs1 := s1
      rw [coh_real_of h.front h.nz h.lam_pos.ne' c1] at hs1
      have hp := h.power hs1
      have hk := mul_nonneg (kap_re_nonneg h.back_dir .s) (sq_nonneg ‖ts1‖)
      have hpos : 0 < n₀ * Real.cos (rad a) := mul_pos h.n₀_pos h.cos_pos
      have : 0 ≤ 1 - ‖rs1‖ ^ 2 := nonneg_of_mul_nonneg_right (hk.trans hp) hpos
      exact (sq_le_one_iff₀ (norm_nonneg _)).mp (by linarith)
    have le2 : ‖Rp‖ ≤ 1 := by
      obtain ⟨R', T', hu, -⟩ := hall .p
      obtain ⟨rfl, rfl⟩ := (hu ms hms Rp Tp).mp hp
      obtain ⟨R, T, hRT⟩ := full_solved h .p
      have h3 := (solveL_spec hRT).1
      have h4 := (fields_flip_films (pol := .p) (t := T) (b := backM st (rad a)) (films_full hms) _ _ _).mp h3
      rw [show frontM st (rad a : ℝ) = ⟨st.front, Complex.cos (rad a : ℝ), 0⟩ by rw [frontM, root1m_sin h.angle.le]] at h4
      have hcb2 : backM st (rad a : ℝ) = ⟨st.back, cb, 0⟩ := by
        have hroot := outgoing_unique (s := n₀ * Real.sin (rad a)) h.back htir (by rw [hcb, h.sreal]) hout
        rw [hroot, backM, h.sreal]
      rw [hcb2] at h4
      obtain ⟨rfl, rfl⟩ := (hu ms hms R T).mp h4
      have h1 := fields_flux_le (m := frontM st (rad a : ℝ)) (b := backM st (rad a)) (fun m hm => ?_) h3
      · rw [flux_forward, flux_expand, h.front_kap, Complex.ofReal_re, Complex.ofReal_im] at h1
        have hk := mul_nonneg (kap_re_nonneg h.back_dir .p) (Complex.normSq_nonneg T)
        have hpos : 0 < n₀ * Real.cos (rad a) := mul_pos h.n₀_pos h.cos_pos
        simp only [Complex.normSq_eq_norm_sq, norm_one, one_pow, zero_mul, mul_zero, add_zero] at h1 hk
        have : 0 ≤ 1 - ‖R‖ ^ 2 := nonneg_of_mul_nonneg_right (hk.trans h1) hpos
        exact (sq_le_one_iff₀ (norm_nonneg _)).mp (by linarith)
      · obtain ⟨f, hf, rfl⟩ := List.mem_map.mp hm
        exact full_damps h hf .p
    have := delta_close ds dp le1 le2 q1 hRs (cosPos l1 u1).2 (cosPos h0 h90).2 e1 hR
    rw [show rad (Δ - off) - rad Δ' = rad (Δ - off - Δ') by unfold rad; ring] at this
    linarith

/-! ### Non-vacuity: five micrometres of metal under twenty nanometres of glass -/

/-- Air, glass, metal, glass. -/
noncomputable def clipMetal : Stack := ⟨1, [(3 / 2, 20), (metal, 5000)], 3 / 2⟩

theorem clipMetal_physical : Physical clipMetal 1 (rad 30) 500 := by
  have ha : rad 30 = Real.pi / 6 := by unfold rad; ring
  rw [ha]
  have hs : (1 : ℂ) * Complex.sin ((Real.pi / 6 : ℝ) : ℂ) = ((1 / 2 : ℝ) : ℂ) := by
    rw [← Complex.ofReal_sin, Real.sin_pi_div_six, one_mul]
  have hpi := Real.pi_pos
  have hpi4 := Real.pi_le_four
  have hsinh : (1000 : ℝ) ≤ Real.sinh 35 := by
    rw [Real.sinh_eq]
    have h1 : (2.7 : ℝ) ^ 35 ≤ Real.exp 35 := by
      rw [show (35 : ℝ) = ((35 : ℕ) : ℝ) * 1 by norm_num, Real.exp_nat_mul]
      exact pow_le_pow_left₀ (by norm_num) (by linarith [Real.exp_one_gt_d9]) 35
    have h2 : Real.exp (-35) ≤ 1 := Real.exp_le_one_iff.mpr (by norm_num)
    have h3 : (2001 : ℝ) ≤ 2.7 ^ 35 := by norm_num
    linarith
  have hmem : ∀ f ∈ clipMetal.films, f = (3 / 2, 20) ∨ f = (metal, 5000) := by
    intro f hf
    simpa [clipMetal] using hf
  refine ⟨by simp [clipMetal], one_pos, ?_, by norm_num, ?_, by norm_num [clipMetal, PassiveIndex], ?_, ?_⟩
  · rw [abs_of_pos (by positivity)]; linarith
  · intro f hf
    rcases hmem f hf with rfl | rfl <;> constructor <;> norm_num [PassiveIndex, metal]
  · intro f hf
    rw [show clipMetal.front = 1 from rfl, hs]
    rcases hmem f hf with rfl | rfl
    · intro h
      have := congrArg Complex.re h
      simp [sq] at this
      norm_num at this
    · intro h
      have := congrArg Complex.im h
      simp [sq, metal] at this
      norm_num at this
  · intro f hf m hm
    rw [show clipMetal.front = 1 from rfl, hs] at hm
    have hb : f.1 ≠ 0 ∧ 0 ≤ f.2 ∧ f.2 ≤ 5000 ∧ ‖f.1‖ ≤ 3 := by
      rcases hmem f hf with rfl | rfl
      · refine ⟨by norm_num, by norm_num, by norm_num, ?_⟩
        simp
      · refine ⟨?_, by norm_num, by norm_num, ?_⟩
        · intro h; have := congrArg Complex.im h; simp [metal] at this
        · calc ‖metal‖ ≤ ‖(21 / 40 : ℂ)‖ + ‖(19 / 20 : ℂ) * I‖ := norm_add_le _ _
            _ ≤ 3 := by simp; norm_num
    obtain ⟨h1, h2, h3, h4⟩ := hb
    have := hm.norm_le h1 (by norm_num) h2
    have h5 : ‖((1 / 2 : ℝ) : ℂ)‖ = 1 / 2 := by rw [Complex.norm_real]; norm_num
    rw [h5] at this
    have h6 : 2 * Real.pi * f.2 / 500 * (‖f.1‖ + 1 / 2) ≤ 2 * 4 * 5000 / 500 * (3 + 1 / 2) := by
      gcongr
    have h7 := (Complex.abs_im_le_norm m.δ)
    have h8 := le_abs_self m.δ.im
    norm_num at h6
    linarith

/-- The normal wave number of the metal. -/
theorem clipMetal_q {q : ℂ} (hq : q ^ 2 = metal ^ 2 - (((1 : ℝ) : ℂ) * Complex.sin ((rad 30 : ℝ) : ℂ)) ^ 2) :
    q = 19 / 40 + 21 / 20 * I ∨ q = -(19 / 40 + 21 / 20 * I) := by
  have ha : rad 30 = Real.pi / 6 := by unfold rad; ring
  refine sq_eq_sq_iff_eq_or_eq_neg.mp (hq.trans ?_)
  rw [ha, ← Complex.ofReal_sin, Real.sin_pi_div_six, metal]
  push_cast
  linear_combination (-1 / 5 : ℂ) * Complex.I_sq

theorem clipMetal_mild : ∀ f ∈ clipMetal.films, f.1.im ≠ 0 → ∀ q : ℂ,
    q ^ 2 = f.1 ^ 2 - (((1 : ℝ) : ℂ) * Complex.sin ((rad 30 : ℝ) : ℂ)) ^ 2 → |q.im| ≤ 10 ^ 6 * |q.re| := by
  intro f hf hi q hq
  have hm : f = (3 / 2, 20) ∨ f = (metal, 5000) := by simpa [clipMetal] using hf
  rcases hm with rfl | rfl
  · exact absurd (by norm_num) hi
  · rcases clipMetal_q hq with rfl | rfl <;> norm_num [abs_of_pos, abs_of_neg]

/-- The limit does act: without it the metal would take 65 nepers from a wave. -/
example {m : Medium} (hm : IsFilm (clipMetal.front * Complex.sin ((rad 30 : ℝ) : ℂ)) 500 (metal, 5000) m) :
    35 < |m.δ.im| := by
  obtain ⟨h1, h2, h3⟩ := hm
  have hne : metal ≠ 0 := by intro h; have := congrArg Complex.im h; simp [metal] at this
  have hq : (m.n * m.c) ^ 2 = metal ^ 2 - (((1 : ℝ) : ℂ) * Complex.sin ((rad 30 : ℝ) : ℂ)) ^ 2 := by
    rw [mul_pow, h1, h2, clipMetal]
    push_cast
    field_simp
  have h4 : m.δ = ((2 * Real.pi * 5000 / 500 : ℝ) : ℂ) * (m.n * m.c) := by
    rw [h3, h1]; push_cast; ring
  have := Real.pi_gt_three
  rcases clipMetal_q hq with h | h <;> rw [h4, h, Complex.im_ofReal_mul]
  · rw [abs_of_pos] <;> norm_num <;> linarith
  · rw [abs_of_neg] <;> norm_num <;> linarith

example : ∃ cb : ℂ, cb ^ 2 = 1 - (clipMetal.front * Complex.sin (rad 30 : ℝ) / clipMetal.back) ^ 2 ∧
    ∀ pol, ∃ R T : ℂ, (∀ ms, List.Forall₂ (IsFilm (clipMetal.front * Complex.sin (rad 30 : ℝ)) 500) clipMetal.films ms →
          ∀ r t, Solves pol clipMetal (rad 30) ms cb r t ↔ r = R ∧ t = T) ∧
        ∃ a r t, cohTmm (clipMetal.layers .inf .inf) [((rad 30 : ℝ), 500)] = .ok [a] ∧ a.of pol = some (r, t) ∧
          ‖r - R‖ ≤ 1 / 10 ^ 17 := by
  obtain ⟨cb, h1, -, h2⟩ := C162_amplitudes clipMetal_physical (by unfold rad; positivity) clipMetal_mild
  exact ⟨cb, h1, fun pol => (h2 pol).imp fun R h => h.imp fun T h => ⟨h.1, h.2 _ _⟩⟩

end Verif.TMM
