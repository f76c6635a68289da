import Verif.TMM.Range
import Verif.TMM.PhysLemmas
import Verif.TMM.PropsSign
import Mathlib.Analysis.Complex.ExponentialBounds

/-!
# Range of the numbers calculated (C142)
-/

namespace Verif.TMM

open Complex (I)

/-! ### Specification -/

/-- How much an interface may enlarge the amplitudes: `n`, `n'` are the indices and `c`, `c'` the
direction cosines on its two sides. -/
noncomputable def contrast (pol : Pol) (n n' c c' : ℂ) : ℝ :=
  match pol with
  | .s => 1 + ‖n' * c'‖ / ‖n * c‖
  | .p => ‖n'‖ / ‖n‖ + ‖c'‖ / ‖c‖

/-- Attenuation by the film in nepers, `2π d |Im(n cos θ)| / λ`; of an absorbing film at most
35. -/
noncomputable def attenuation (s : ℂ) (lam : ℝ) (f : ℂ × ℝ) : ℝ :=
  open Classical in
  if f.1.im = 0 then 2 * Real.pi * f.2 / lam * |(f.1 * Complex.sqrt (1 - (s / f.1) ^ 2)).im|
  else min 35 (2 * Real.pi * f.2 / lam * |(f.1 * Complex.sqrt (1 - (s / f.1) ^ 2)).im|)

/-! ### The bound -/

theorem contrast_le {pol : Pol} {m m' : Medium} {r t : ℂ} {G : ℝ}
    (hr : rC pol m m' = some r) (ht : tC pol m m' = some t) (hq : m.n * m.c ≠ 0)
    (hG : contrast pol m.n m'.n m.c m'.c ≤ G) : 1 + ‖r‖ ≤ G * ‖t‖ := by
  have hd : den pol m m' ≠ 0 := by
    intro h0
    simp [rC, h0, cdiv_zero] at hr
  rw [rC, cdiv_of_ne hd] at hr
  rw [tC, cdiv_of_ne hd] at ht
  simp only [Option.some.injEq] at hr ht
  subst hr ht
  have hn : 0 < ‖m.n‖ := norm_pos_iff.mpr (left_ne_zero_of_mul hq)
  have hc : 0 < ‖m.c‖ := norm_pos_iff.mpr (right_ne_zero_of_mul hq)
  have hdp : 0 < ‖den pol m m'‖ := norm_pos_iff.mpr hd
  rw [norm_div, norm_div, ← mul_div_assoc, le_div_iff₀ hdp, add_mul,
    div_mul_cancel₀ _ hdp.ne', one_mul, norm_mul, norm_mul, Complex.norm_two]
  refine le_trans ?_ (mul_le_mul_of_nonneg_right hG (by positivity))
  cases pol
  · simp only [den, num, contrast, norm_mul]
    have h1 := norm_add_le (m.n * m.c) (m'.n * m'.c)
    have h2 := norm_sub_le (m.n * m.c) (m'.n * m'.c)
    rw [norm_mul, norm_mul] at h1 h2
    have e : (1 + ‖m'.n‖ * ‖m'.c‖ / (‖m.n‖ * ‖m.c‖)) * (2 * ‖m.n‖ * ‖m.c‖) =
        2 * (‖m.n‖ * ‖m.c‖ + ‖m'.n‖ * ‖m'.c‖) := by field_simp
    rw [e]; linarith
  · simp only [den, num, contrast]
    have h1 := norm_add_le (m'.n * m.c) (m.n * m'.c)
    have h2 := norm_sub_le (m'.n * m.c) (m.n * m'.c)
    rw [norm_mul, norm_mul] at h1 h2
    have e : (‖m'.n‖ / ‖m.n‖ + ‖m'.c‖ / ‖m.c‖) * (2 * ‖m.n‖ * ‖m.c‖) =
        2 * (‖m'.n‖ * ‖m.c‖ + ‖m.n‖ * ‖m'.c‖) := by field_simp
    rw [e]; linarith

theorem mem_dropLast_of_zip {α : Type*} {x y : α} : ∀ {l : List α},
    (x, y) ∈ l.zip l.tail → x ∈ l.dropLast := by
  intro l
  induction l with
  | nil => simp
  | cons a l ih =>
    cases l with
    | nil => simp
    | cons b l =>
      intro h
      rw [List.tail_cons, List.zip_cons_cons] at h
      rw [List.dropLast_cons_of_ne_nil (by simp)]
      rcases List.mem_cons.mp h with h | h
      · simp only [Prod.mk.injEq] at h; rw [h.1]; exact List.mem_cons_self
      · exact List.mem_cons_of_mem _ (ih h)

section
variable {st : Stack} {n₀ θ lam : ℝ} (h : Physical st n₀ θ lam)
include h

theorem Physical.attenuation_le {f : ℂ × ℝ} (hf : f ∈ st.films) :
    |(codeMed (st.front * Complex.sin θ) lam f).δ.im| ≤
      attenuation (st.front * Complex.sin θ) lam f := by
  have hk : 0 ≤ 2 * Real.pi * f.2 / lam := by
    have := (h.films f hf).2
    have := h.lam_pos
    positivity
  have hsq : |(f.1 * Complex.sqrt (1 - (st.front * Complex.sin θ / f.1) ^ 2)).im| =
      |(qOf (n₀ * Real.sin θ) f.1).im| := by
    have e : (f.1 * Complex.sqrt (1 - (st.front * Complex.sin θ / f.1) ^ 2)) ^ 2 =
        (qOf (n₀ * Real.sin θ) f.1) ^ 2 := by
      rw [qOf, mul_pow, mul_pow, root1m_sq, h.sreal, csqrt_sq]
    rcases sq_eq_sq_iff_eq_or_eq_neg.mp e with e | e <;> rw [e]
    simp
  rw [(h.film_phase hf).1, attenuation, hsq]
  have him : (clip35 (((2 * Real.pi * f.2 / lam : ℝ) : ℂ) * qOf (n₀ * Real.sin θ) f.1)).im =
      min (2 * Real.pi * f.2 / lam * (qOf (n₀ * Real.sin θ) f.1).im) 35 := by
    simp only [clip35]
    rw [Complex.im_ofReal_mul]
  rw [him]
  split_ifs with h0
  · rw [← abs_of_nonneg hk, ← abs_mul, abs_of_nonneg hk]
    rcases le_total (2 * Real.pi * f.2 / lam * (qOf (n₀ * Real.sin θ) f.1).im) 35 with h1 | h1
    · rw [min_eq_left h1]
    · rw [min_eq_right h1, abs_of_pos (by norm_num)]
      exact h1.trans (le_abs_self _)
  · have hp := (h.films f hf).1
    have hq := (qOf_absorbing hp.1 (lt_of_le_of_ne hp.2 (Ne.symm h0)) (n₀ * Real.sin θ)).2
    rw [abs_of_pos hq, abs_of_nonneg (le_min (mul_nonneg hk hq.le) (by norm_num)), min_comm]

/-- C142: every number that `coh_tmm` calculates from the phases on (`beta`, `beta_inv`,
`M_list`, `Mtilde` after every pass, and the terms of the sums) is at most `G^(N+1)` times the
exponential of the total attenuation by the `N` films, where `G` bounds the contrast of the
interfaces. -/
theorem C142_bound {G : ℝ} (hG : 1 ≤ G) {pol : Pol}
    (hi : ∀ n n', (n, n') ∈ st.indices.zip st.indices.tail → ∀ c c',
      c ^ 2 = 1 - (st.front * Complex.sin θ / n) ^ 2 →
      c' ^ 2 = 1 - (st.front * Complex.sin θ / n') ^ 2 → contrast pol n n' c c' ≤ G)
    {d0 db : Thick} {z : ℂ} (hz : st.Stores d0 db θ lam pol z) :
    ‖z‖ ≤ G ^ (st.films.length + 1) *
      Real.exp (st.films.map (attenuation (st.front * Complex.sin θ) lam)).sum := by
  rw [Stack.Stores, deltas_stack st h.nz d0 db θ h.lam_pos.ne'] at hz
  have hb := stored_le hG (fun r t hrt => ?_) hz
  · refine hb.trans ?_
    rw [List.length_map]
    apply mul_le_mul_of_nonneg_left _ (by positivity)
    apply Real.exp_le_exp.mpr
    simp only [nepers, List.map_map]
    apply List.sum_le_sum
    intro f hf
    exact h.attenuation_le hf
  · obtain ⟨n, n', hn, hr, ht⟩ := coef_stack h.nz hrt
    refine contrast_le hr ht ?_ (hi n n' hn _ _ (root1m_sq _) (root1m_sq _))
    have hm := mem_dropLast_of_zip hn
    have hm' : n ∈ st.front :: st.films.map (·.1) := by
      rw [Stack.indices, List.dropLast_concat] at hm
      exact hm
    rcases List.mem_cons.mp hm' with rfl | hm'
    · have := h.front_q
      simp only [frontM] at this
      have e : st.front * Complex.sin θ / st.front = Complex.sin θ := by
        have := h.nz.1
        field_simp
      rw [e]
      exact this
    · obtain ⟨f, hf, rfl⟩ := List.mem_map.mp hm'
      exact (h.film_dir _ (List.mem_map_of_mem hf)).2

/-- C142 (partial): no number that `coh_tmm` calculates from the phases on overflows, if the
interfaces and the attenuation of the films permit.
Missing: thick films beyond their critical angle and many opaque films, where the clip of `delta`
does not prevent the overflow (`C142_fails_gap`, `C142_fails_films`). -/
theorem C142_range_partial {G : ℝ} (hG : 1 ≤ G) {pol : Pol}
    (hi : ∀ n n', (n, n') ∈ st.indices.zip st.indices.tail → ∀ c c',
      c ^ 2 = 1 - (st.front * Complex.sin θ / n) ^ 2 →
      c' ^ 2 = 1 - (st.front * Complex.sin θ / n') ^ 2 → contrast pol n n' c c' ≤ G)
    (hm : (st.films.length + 1) * Real.log G +
      (st.films.map (attenuation (st.front * Complex.sin θ) lam)).sum ≤ 709)
    {d0 db : Thick} {z : ℂ} (hz : st.Stores d0 db θ lam pol z) : ‖z‖ ≤ maxDouble := by
  refine (C142_bound h hG hi hz).trans ?_
  have hG0 : 0 < G := by linarith
  have e : G ^ (st.films.length + 1) = Real.exp ((st.films.length + 1) * Real.log G) := by
    have := Real.exp_nat_mul (Real.log G) (st.films.length + 1)
    rw [Real.exp_log hG0] at this
    rw [← this]; push_cast; rfl
  rw [e, ← Real.exp_add]
  refine (Real.exp_le_exp.mpr hm).trans ?_
  have h2 : Real.exp 709 ≤ 2 ^ 1023 := by
    have hl := Real.log_two_gt_d9
    have : Real.exp (((1023 : ℕ) : ℝ) * Real.log 2) = 2 ^ 1023 := by
      rw [Real.exp_nat_mul, Real.exp_log two_pos]
    rw [← this]
    apply Real.exp_le_exp.mpr
    push_cast
    nlinarith
  refine h2.trans ?_
  have hp : (0 : ℝ) < 2 ^ 1023 := by positivity
  have hq : (1 : ℝ) ≤ 2 - (2 : ℝ)⁻¹ ^ 52 := by
    have : ((2 : ℝ)⁻¹) ^ 52 ≤ 1 := pow_le_one₀ (by norm_num) (by norm_num)
    linarith
  rw [maxDouble]
  exact le_mul_of_one_le_left hp.le hq

end

/-! ### Failures -/

theorem maxDouble_lt {x : ℝ} (h : 2 ^ 1024 ≤ x) : maxDouble < x := by
  have hp : (0 : ℝ) < 2 ^ 1023 := by positivity
  have hq : 2 - (2 : ℝ)⁻¹ ^ 52 < 2 := by
    have : 0 < ((2 : ℝ)⁻¹) ^ 52 := by positivity
    linarith
  have := mul_lt_mul_of_pos_right hq hp
  rw [maxDouble]
  refine this.trans_le (le_trans (le_of_eq ?_) h)
  rw [← pow_succ']

theorem exp_large {x : ℝ} (h : 735 ≤ x) : maxDouble < Real.exp x := by
  apply maxDouble_lt
  refine le_trans ?_ (Real.exp_le_exp.mpr h)
  have h2 : Real.log 2 < 0.6931471808 := Real.log_two_lt_d9
  have : Real.exp (((1024 : ℕ) : ℝ) * Real.log 2) = 2 ^ 1024 := by
    rw [Real.exp_nat_mul, Real.exp_log two_pos]
  rw [← this]
  apply Real.exp_le_exp.mpr
  push_cast
  nlinarith

theorem sinh_large : (750 : ℝ) ≤ Real.sinh 35 := by
  have h1 : (6 : ℝ) ≤ Real.exp 5 := by have := Real.add_one_le_exp (5 : ℝ); linarith
  have h3 : Real.exp 35 = Real.exp 5 ^ 7 := by rw [← Real.exp_nat_mul]; norm_num
  have h4 : (6 : ℝ) ^ 7 ≤ Real.exp 5 ^ 7 := pow_le_pow_left₀ (by norm_num) h1 7
  have h5 : Real.exp (-35) ≤ 1 := Real.exp_le_one_iff.mpr (by norm_num)
  rw [Real.sinh_eq, h3]; norm_num at h4 ⊢; linarith

/-- A gap of 75 micrometres of index 1 between media of index 2. -/
noncomputable def wideGap : Stack := ⟨(2 : ℝ), [(1, 75000)], (2 : ℝ)⟩

theorem wideGap_s : wideGap.front * Complex.sin ((Real.pi / 4 : ℝ) : ℂ) = ((Real.sqrt 2 : ℝ) : ℂ) :=
  gap_s

theorem wideGap_physical : Physical wideGap 2 (Real.pi / 4) (200 * Real.pi) := by
  have hpi := Real.pi_pos
  obtain ⟨h2, _, _⟩ := sqrt2_facts
  have h2c : ((Real.sqrt 2 : ℝ) : ℂ) ^ 2 = 2 := by exact_mod_cast congrArg Complex.ofReal h2
  refine ⟨rfl, two_pos, ?_, by positivity, by simp [wideGap, PassiveIndex],
    by simp [wideGap, PassiveIndex], ?_, ?_⟩
  · rw [abs_of_pos (by positivity)]; linarith
  · intro f hf
    simp only [wideGap, List.mem_singleton] at hf
    subst hf
    rw [wideGap_s, h2c]; norm_num
  · intro f hf m hm
    simp only [wideGap, List.mem_singleton] at hf
    subst hf
    obtain ⟨hn, hc, hδ⟩ := hm
    rw [wideGap_s] at hc
    simp only [div_one, h2c] at hc
    have hcI : m.c = I ∨ m.c = -I := by
      have : (m.c - I) * (m.c + I) = 0 := by
        linear_combination hc - Complex.I_sq
      rcases mul_eq_zero.mp this with h | h
      · left; linear_combination h
      · right; linear_combination h
    have h750 := sinh_large
    have e : m.δ = m.c * 750 := by
      rw [hδ]
      have : (Real.pi : ℂ) ≠ 0 := Complex.ofReal_ne_zero.mpr hpi.ne'
      push_cast
      field_simp
      ring
    rw [e]
    rcases hcI with h | h <;> rw [h] <;> simp <;> linarith

/-- C142 fails for a film far beyond its critical angle: light of 628 nm at 45 degrees before a gap
of 75 micrometres.  Exactly calculated the amplitudes are finite, but `beta` is larger than the
largest double, because the clip treats `delta` with a negative imaginary part as not opaque. -/
theorem C142_fails_gap (d0 db : Thick) :
    (∃ a, cohTmm (wideGap.layers d0 db) [(((Real.pi / 4 : ℝ) : ℂ), 200 * Real.pi)] = .ok [a] ∧
      ∀ pol, ∃ r t, a.of pol = some (r, t)) ∧
    ∀ pol, ∃ z, wideGap.Stores d0 db (Real.pi / 4) (200 * Real.pi) pol z ∧ maxDouble < ‖z‖ := by
  have hp := wideGap_physical
  refine ⟨C10_coh_tmm_finite hp d0 db, fun pol => ?_⟩
  have hpi : (Real.pi : ℂ) ≠ 0 := Complex.ofReal_ne_zero.mpr Real.pi_pos.ne'
  obtain ⟨h2, hgt, hone⟩ := sqrt2_facts
  have hr : root1m (((Real.sqrt 2 : ℝ) : ℂ) / 1) = -I := by
    rw [div_one, root1m_ofReal_gt hgt, hone]; simp
  have hd : 2 * (Real.pi : ℂ) * 1 * (-I) / ((200 * Real.pi : ℝ) : ℂ) * ((75000 : ℝ) : ℂ) =
      -(750 * I) := by
    push_cast; field_simp; norm_num
  have hδ : (codeMed (wideGap.front * Complex.sin ((Real.pi / 4 : ℝ) : ℂ)) (200 * Real.pi)
      (1, 75000)).δ = -(750 * I) := by
    rw [wideGap_s, codeMed, hr, hd, clip35_of_le (by simp; norm_num)]
  refine ⟨_, Stored.beta (δ := -(750 * I)) ?_, ?_⟩
  · rw [deltas_stack wideGap hp.nz d0 db _ hp.lam_pos.ne', ← hδ]
    simp [wideGap]
  · rw [norm_exp_I]
    apply exp_large
    simp; norm_num

/-- `N` films of 4 micrometres and a backing, all of index `1 + i`, in vacuum. -/
noncomputable def thickMetal (N : ℕ) : Stack := ⟨(1 : ℝ), List.replicate N (1 + I, 4000), 1 + I⟩

theorem thickMetal_s (N : ℕ) : (thickMetal N).front * Complex.sin ((0 : ℝ) : ℂ) = 0 := by simp

theorem one_add_I_ne : (1 + I : ℂ) ≠ 0 := by
  intro h
  have := congrArg Complex.re h
  simp at this

theorem thickMetal_physical (N : ℕ) : Physical (thickMetal N) 1 0 (200 * Real.pi) := by
  have hpi := Real.pi_pos
  have hpic : (Real.pi : ℂ) ≠ 0 := Complex.ofReal_ne_zero.mpr hpi.ne'
  have hs0 := thickMetal_s N
  have hn0 := one_add_I_ne
  refine ⟨rfl, one_pos, ?_, by positivity, ?_, by simp [thickMetal, PassiveIndex], ?_, ?_⟩
  · rw [abs_zero]; positivity
  · intro f hf
    rw [thickMetal] at hf
    rw [(List.mem_replicate.mp hf).2]
    simp [PassiveIndex]
  · intro f hf
    rw [thickMetal] at hf
    rw [(List.mem_replicate.mp hf).2, hs0]
    simpa using hn0
  · intro f hf m hm
    rw [thickMetal] at hf
    rw [(List.mem_replicate.mp hf).2] at hm
    obtain ⟨hn, hc, hδ⟩ := hm
    rw [hs0] at hc
    simp only [zero_div, ne_eq, OfNat.ofNat_ne_zero, not_false_eq_true, zero_pow,
      sub_zero] at hc
    have h40 : (40 : ℝ) ≤ Real.sinh 35 := sinh_large.trans' (by norm_num)
    have e : m.δ = m.c * (40 + 40 * I) := by
      rw [hδ]
      push_cast
      field_simp
      ring
    rw [e]
    rcases sq_eq_sq_iff_eq_or_eq_neg.mp (hc.trans (one_pow 2).symm) with h | h <;> rw [h] <;> simp <;> linarith

theorem foldl_diag (m : Mat) (g b : ℂ) (N : ℕ) :
    (List.replicate N (⟨g, 0, 0, b⟩ : Mat)).foldl step m =
      ⟨m.a * g ^ N, m.b * b ^ N, m.c * g ^ N, m.d * b ^ N⟩ := by
  induction N generalizing m with
  | zero => simp
  | succ N ih =>
    rw [List.replicate_succ, List.foldl_cons, ih]
    simp only [step, Mat.mk.injEq, mul_zero, add_zero, zero_add]
    refine ⟨?_, ?_, ?_, ?_⟩ <;> ring

theorem mapM_replicate {α : Type*} (N : ℕ) (x : α) :
    (List.replicate N (some x)).mapM id = some (List.replicate N x) := by
  induction N with
  | zero => rfl
  | succ N ih => simp [List.replicate_succ, ih]

theorem coefList_replicate (f : ℂ → ℂ → ℂ → ℂ → Option ℂ) (x y : ℂ × ℂ) (N : ℕ) :
    coefList f (some x :: List.replicate (N + 1) (some y)) =
      f x.1 y.1 x.2 y.2 :: List.replicate N (f y.1 y.1 y.2 y.2) := by
  have hz : ∀ N, List.zip (List.replicate (N + 1) (some y)) (List.replicate N (some y)) =
      List.replicate N (some y, some y) := by
    intro N
    induction N with
    | zero => simp
    | succ N ih =>
      rw [List.replicate_succ (n := N + 1), List.replicate_succ (n := N) (a := some y),
        List.replicate_succ (n := N) (a := (some y, some y)), List.zip_cons_cons,
        ← List.replicate_succ, ih]
  simp only [coefList, pairs, List.tail_cons]
  rw [List.replicate_succ, List.zip_cons_cons, ← List.replicate_succ, hz]
  simp

/-- C142 fails for many opaque films: with 21 or more of them, each clipped to an attenuation of 35
nepers, the product of the matrices is larger than the largest double, at normal incidence. -/
theorem C142_fails_films {N : ℕ} (hN : 21 ≤ N) (d0 db : Thick) :
    Physical (thickMetal N) 1 0 (200 * Real.pi) ∧
    ∀ pol, ∃ z, (thickMetal N).Stores d0 db 0 (200 * Real.pi) pol z ∧ maxDouble < ‖z‖ := by
  have hpi := Real.pi_pos
  have hpic : (Real.pi : ℂ) ≠ 0 := Complex.ofReal_ne_zero.mpr hpi.ne'
  have hs0 := thickMetal_s N
  have hn0 := one_add_I_ne
  have hp := thickMetal_physical N
  refine ⟨hp, fun pol => ?_⟩
  obtain ⟨th, hth, hcos⟩ : ∃ th, th = npArcsin 0 ∧ Complex.cos th = 1 :=
    ⟨_, rfl, by rw [cos_npArcsin, root1m]; simp⟩
  have hang : angles (thickMetal N).front ((0 : ℝ) : ℂ) ((thickMetal N).layers d0 db) =
      some (1, th) :: List.replicate (N + 1) (some (1 + I, th)) := by
    rw [angles_stack _ hp.nz, hs0, hth]
    simp [Stack.indices, thickMetal, List.replicate_succ']
  have hδ : (codeMed ((thickMetal N).front * Complex.sin ((0 : ℝ) : ℂ)) (200 * Real.pi)
      (1 + I, 4000)).δ = 40 + 35 * I := by
    have hd : 2 * (Real.pi : ℂ) * (1 + I) * 1 / ((200 * Real.pi : ℝ) : ℂ) * ((4000 : ℝ) : ℂ) =
        40 + 40 * I := by
      push_cast; field_simp; ring
    have hr : root1m 0 = 1 := by rw [root1m]; simp
    rw [hs0, codeMed, zero_div, hr, hd]
    apply Complex.ext <;> simp [clip35]
    norm_num
  have hdel : (deltas (kzs (200 * Real.pi) (angles (thickMetal N).front ((0 : ℝ) : ℂ)
      ((thickMetal N).layers d0 db))) ((thickMetal N).layers d0 db)).map (Option.map clip35) =
      List.replicate N (some (40 + 35 * I)) := by
    rw [deltas_stack _ hp.nz d0 db _ hp.lam_pos.ne', ← hδ]
    simp [thickMetal]
  have hn2 : (1 + I + (1 + I) : ℂ) ≠ 0 := by
    rw [← two_mul]; exact mul_ne_zero two_ne_zero hn0
  have hn1 : (1 + (1 + I) : ℂ) ≠ 0 := by
    intro h
    have := congrArg Complex.im h
    simp at this
  have hn1' : (1 + I + 1 : ℂ) ≠ 0 := by rwa [add_comm]
  have e2 : (1 + (1 + I) : ℂ) = 2 + I := by ring
  have e2' : (1 + I + 1 : ℂ) = 2 + I := by ring
  have h2I : (2 + I : ℂ) ≠ 0 := by rwa [← e2]
  obtain ⟨r0, hr0⟩ : ∃ r0, interfaceR pol 1 (1 + I) th th = some r0 := by
    cases pol
    · simp only [interfaceR, interfaceRs, hcos, mul_one]
      exact ⟨_, cdiv_of_ne hn1⟩
    · simp only [interfaceR, interfaceRp, hcos, mul_one]
      exact ⟨_, cdiv_of_ne hn1'⟩
  have ht0 : interfaceT pol 1 (1 + I) th th = some (2 / (2 + I)) := by
    cases pol
    · simp only [interfaceT, interfaceTs, hcos, mul_one]
      rw [cdiv_of_ne hn1, e2]
    · simp only [interfaceT, interfaceTp, hcos, mul_one]
      rw [cdiv_of_ne hn1', e2']
  have hr1 : interfaceR pol (1 + I) (1 + I) th th = some 0 := by
    cases pol <;> simp [interfaceR, interfaceRs, interfaceRp, hcos, cdiv_of_ne hn2]
  have ht1 : interfaceT pol (1 + I) (1 + I) th th = some 1 := by
    cases pol <;> simp only [interfaceT, interfaceTs, interfaceTp, hcos, mul_one] <;>
      rw [cdiv_of_ne hn2, ← two_mul, div_self (mul_ne_zero two_ne_zero hn0)]
  have hlm : layerMat (40 + 35 * I) 0 1 = some
      ⟨1 / Complex.exp (I * (40 + 35 * I)), 0, 0, Complex.exp (I * (40 + 35 * I))⟩ := by
    simp [layerMat, cdiv_of_ne, Complex.exp_ne_zero]
  have hm0 : initMat r0 (2 / (2 + I)) = some ⟨1 / (2 / (2 + I)), r0 / (2 / (2 + I)),
      r0 / (2 / (2 + I)), 1 / (2 / (2 + I))⟩ := by
    simp [initMat, cdiv_of_ne (div_ne_zero two_ne_zero h2I)]
  obtain ⟨γ, hγ⟩ : ∃ γ, γ = 1 / Complex.exp (I * (40 + 35 * I)) := ⟨_, rfl⟩
  refine ⟨1 / (2 / (2 + I)) * γ ^ N, ?_, ?_⟩
  · rw [Stack.Stores, hdel, hang]
    refine Stored.tilde (r0 := r0) (t0 := 2 / (2 + I)) (ms := List.replicate N
      ⟨1 / Complex.exp (I * (40 + 35 * I)), 0, 0, Complex.exp (I * (40 + 35 * I))⟩) N ?_ ?_ hm0 ?_
      (Or.inl (by rw [List.take_of_length_le (by simp), foldl_diag, hγ]))
    · rw [coefList_replicate]; simp [hr0]
    · rw [coefList_replicate]; simp [ht0]
    · rw [coefList_replicate, coefList_replicate]
      simp only [hr1, ht1, matList, List.tail_cons]
      rw [List.zip_replicate', List.zipWith_replicate']
      simp only [Option.bind_eq_bind, Option.bind_some, hlm]
      exact mapM_replicate _ _
  · have hγn : ‖γ‖ = Real.exp 35 := by
      rw [hγ, norm_div, norm_one, norm_exp_I, one_div, ← Real.exp_neg]
      simp
    have h1 : 1 ≤ ‖(1 : ℂ) / (2 / (2 + I))‖ := by
      have : (1 : ℂ) / (2 / (2 + I)) = 1 + I / 2 := by field_simp
      rw [this]
      have := Complex.abs_re_le_norm (1 + I / 2)
      simpa using this
    rw [norm_mul, norm_pow, hγn, ← Real.exp_nat_mul]
    have hN' : (21 : ℝ) ≤ N := by exact_mod_cast hN
    refine (exp_large (x := N * 35) (by linarith)).trans_le ?_
    exact le_mul_of_one_le_left (Real.exp_pos _).le h1

/-- The premises of `C142_range_partial` are met by up to 19 of the opaque films. -/
example {N : ℕ} (hN : N ≤ 19) {pol : Pol} {z : ℂ}
    (hz : (thickMetal N).Stores .inf .inf 0 (200 * Real.pi) pol z) : ‖z‖ ≤ maxDouble := by
  have hn : ‖(1 + I : ℂ)‖ ≤ 2 := (norm_add_le _ _).trans (by simp; norm_num)
  have hn' : 0 < ‖(1 + I : ℂ)‖ := norm_pos_iff.mpr one_add_I_ne
  have hone : ∀ {c : ℂ}, c ^ 2 = 1 → ‖c‖ = 1 := by
    intro c hc
    rcases sq_eq_sq_iff_eq_or_eq_neg.mp (hc.trans (one_pow 2).symm) with h | h <;> rw [h] <;> simp
  refine C142_range_partial (thickMetal_physical N) (G := 3) (by norm_num) ?_ ?_ hz
  · intro n n' hm c c' hc hc'
    rw [thickMetal_s, zero_div] at hc hc'
    have hc := hone (by simpa using hc)
    have hc' := hone (by simpa using hc')
    have hidx : (thickMetal N).indices = 1 :: List.replicate (N + 1) (1 + I) := by
      simp [Stack.indices, thickMetal, List.replicate_succ']
    rw [hidx, List.tail_cons] at hm
    have h1 := (List.of_mem_zip hm).1
    have h2 := (List.mem_replicate.mp (List.of_mem_zip hm).2).2
    subst h2
    rcases List.mem_cons.mp h1 with rfl | h1
    · cases pol <;> simp [contrast, hc, hc'] <;> linarith
    · rw [(List.mem_replicate.mp h1).2]
      cases pol <;> simp only [contrast, norm_mul, hc, hc', mul_one, div_self hn'.ne', div_one] <;>
        norm_num
  · have hatt : attenuation ((thickMetal N).front * Complex.sin ((0 : ℝ) : ℂ)) (200 * Real.pi)
        (1 + I, 4000) ≤ 35 := by
      rw [attenuation, if_neg (by simp)]
      exact min_le_left _ _
    have hlog : Real.log 3 ≤ 2 := by
      have := Real.log_le_sub_one_of_pos (show (0 : ℝ) < 3 by norm_num)
      linarith
    have hlog0 : 0 ≤ Real.log 3 := Real.log_nonneg (by norm_num)
    have hN' : (N : ℝ) ≤ 19 := by exact_mod_cast hN
    have hN0 : (0 : ℝ) ≤ N := Nat.cast_nonneg N
    have hlen : (thickMetal N).films.length = N := by simp [thickMetal]
    have hsum : ((thickMetal N).films.map (attenuation ((thickMetal N).front *
        Complex.sin ((0 : ℝ) : ℂ)) (200 * Real.pi))).sum ≤ N * 35 := by
      have : (thickMetal N).films = List.replicate N (1 + I, 4000) := rfl
      rw [this, List.map_replicate, List.sum_replicate, nsmul_eq_mul]
      exact mul_le_mul_of_nonneg_left hatt hN0
    rw [hlen]
    nlinarith

end Verif.TMM
