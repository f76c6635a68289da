import Verif.Disp.GaussLemmas

/-! # Properties of Gauss oscillators (C54) and of the reality condition (C96) -/

namespace Verif.Disp

theorem gaussEps_some {osc : List (ℝ × ℝ × ℝ)} {einf e : ℝ} {v : ℂ}
    (h : gaussEps osc einf e = some v) :
    ∃ e1 e2, gaussSum hilbert osc = some e1 ∧ gaussSum id osc = some e2 ∧
      gridInterp (fun j => e1 j + einf) e = some v.re ∧ gridInterp e2 e = some v.im := by
  simp only [gaussEps, Option.bind_eq_bind, Option.bind_eq_some_iff, Option.pure_def,
    Option.some.injEq] at h
  obtain ⟨e1, h1, e2, h2, a, h3, b, h4, rfl⟩ := h
  exact ⟨e1, e2, h1, h2, h3, h4⟩

/-- The summed grid of `e2` is odd. -/
theorem e2_odd {osc : List (ℝ × ℝ × ℝ)} {y : ℕ → ℝ} (h : gaussSum id osc = some y) :
    ∀ j < 2048, y (2047 - j) = -y j := by
  refine gaussSum_induct h (fun y => ∀ j < 2048, y (2047 - j) = -y j) (by simp)
    (fun u v hu hv j hj => by beta_reduce; rw [hu j hj, hv j hj]; ring) fun o _ g hg j hj => ?_
  have h1 := gaussGrid_eq hg hj
  have h2 := gaussGrid_eq hg (j := 2047 - j) (by omega)
  rw [ePad_flip hj, gaussE2_neg h1] at h2
  simpa using h2.symm

/-- The summed grid of `e1` is even. -/
theorem e1_even {osc : List (ℝ × ℝ × ℝ)} {y : ℕ → ℝ} (h : gaussSum hilbert osc = some y) :
    ∀ j < 2048, y (2047 - j) = y j := by
  refine gaussSum_induct h (fun y => ∀ j < 2048, y (2047 - j) = y j) (by simp)
    (fun u v hu hv j hj => by beta_reduce; rw [hu j hj, hv j hj]) fun o _ g hg j hj => ?_
  apply hilbert_flip _ hj
  intro j hj
  have h1 := gaussGrid_eq hg hj
  have h2 := gaussGrid_eq hg (j := 2047 - j) (by omega)
  rw [ePad_flip hj, gaussE2_neg h1] at h2
  simpa using h2.symm

theorem lerp_nonneg {a ya b yb x : ℝ} (hab : a < b) (h1 : a ≤ x) (h2 : x ≤ b) (ha : 0 ≤ ya)
    (hb : 0 ≤ yb) : 0 ≤ lerp a ya b yb x := by
  unfold lerp
  have hd : 0 < b - a := by linarith
  have : ya + (yb - ya) * ((x - a) / (b - a)) = (ya * (b - x) + yb * (x - a)) / (b - a) := by
    field_simp; ring
  rw [this]
  apply div_nonneg _ hd.le
  exact add_nonneg (mul_nonneg ha (by linarith)) (mul_nonneg hb (by linarith))

/-- C54: with non-negative amplitudes and centres, the imaginary part of the dielectric function is
non-negative at every non-negative energy. -/
theorem C54_absorbs {osc : List (ℝ × ℝ × ℝ)} {einf e : ℝ} {v : ℂ}
    (hosc : ∀ o ∈ osc, 0 ≤ o.1 ∧ 0 ≤ o.2.2) (he : 0 ≤ e) (h : gaussEps osc einf e = some v) :
    0 ≤ v.im := by
  obtain ⟨e1, e2, h1, h2, h3, h4⟩ := gaussEps_some h
  have hodd := e2_odd h2
  have hpos : ∀ j < 2048, 1024 ≤ j → 0 ≤ e2 j := by
    refine gaussSum_induct h2 (fun y => ∀ j < 2048, 1024 ≤ j → 0 ≤ y j) (by simp)
      (fun u w hu hw j hj hj' => add_nonneg (hu j hj hj') (hw j hj hj'))
      fun o ho g hg j hj hj' => ?_
    refine gaussE2_nonneg (hosc o ho).1 (hosc o ho).2 ?_ (gaussGrid_eq hg hj)
    have : (1024 : ℝ) ≤ j := by exact_mod_cast hj'
    unfold ePad
    linarith
  rcases grid_cases e with hc | hc | ⟨j, hj, ha, hb⟩
  · linarith
  · rw [gridInterp_high e2 hc, Option.some.injEq] at h4
    rw [← h4]; exact hpos 2047 (by norm_num) (by norm_num)
  · rw [gridInterp_seg e2 hj ha hb, Option.some.injEq] at h4
    rw [← h4]
    have hlt := ePad_mono (Nat.lt_succ_self j)
    have hj1 : 1023 ≤ j := by
      by_contra hlt'
      have : (j : ℝ) + 1 ≤ 1023 := by exact_mod_cast (by omega : j + 1 ≤ 1023)
      unfold ePad at hb
      push_cast at hb
      linarith
    rcases hj1.lt_or_eq with hj1 | hj1
    · exact lerp_nonneg hlt ha hb (hpos j (by omega) (by omega)) (hpos _ (by omega) (by omega))
    · subst hj1
      have hn := hpos 1024 (by norm_num) le_rfl
      have hz := hodd 1024 (by norm_num)
      norm_num at hz
      have ea : ePad 1023 = -(20 / 2047) := by norm_num [ePad]
      have eb : ePad (1023 + 1) = 20 / 2047 := by norm_num [ePad]
      rw [ea, eb, hz]
      simp only [Nat.reduceAdd]
      have : lerp (-(20 / 2047)) (-e2 1024) (20 / 2047) (e2 1024) e = e2 1024 * e / (20 / 2047) := by
        unfold lerp; ring
      rw [this]
      positivity

/-- C54: the contributions of two lists of oscillators add. -/
theorem C54_additive {o1 o2 : List (ℝ × ℝ × ℝ)} {a b e : ℝ} {u v : ℂ}
    (hu : gaussEps o1 a e = some u) (hv : gaussEps o2 b e = some v) :
    gaussEps (o1 ++ o2) (a + b) e = some (u + v) := by
  obtain ⟨p1, p2, h1, h2, h3, h4⟩ := gaussEps_some hu
  obtain ⟨q1, q2, k1, k2, k3, k4⟩ := gaussEps_some hv
  have hadd : ∀ {y z : ℕ → ℝ} {s t : ℝ}, gridInterp y e = some s → gridInterp z e = some t →
      gridInterp (fun j => y j + z j) e = some (s + t) := by
    intro y z s t hy hz
    rcases grid_cases e with hc | hc | ⟨j, hj, ha, hb⟩
    · rw [gridInterp_low _ hc, Option.some.injEq] at *
      rw [← hy, ← hz]
    · rw [gridInterp_high _ hc, Option.some.injEq] at *
      rw [← hy, ← hz]
    · rw [gridInterp_seg _ hj ha hb, Option.some.injEq] at *
      rw [← hy, ← hz]
      unfold lerp; ring
  have e1 := hadd h3 k3
  have e2 := hadd h4 k4
  have e1' : gridInterp (fun j => p1 j + q1 j + (a + b)) e = some (u.re + v.re) := by
    have hf : (fun j => p1 j + q1 j + (a + b)) = fun j => (p1 j + a) + (q1 j + b) := by
      funext j; ring
    rw [hf]; exact e1
  simp only [gaussEps, gaussSum_append h1 k1, gaussSum_append h2 k2, Option.bind_eq_bind,
    Option.bind_some, e1', e2, Option.pure_def, Option.some.injEq]
  apply Complex.ext <;> simp

/-- C54: oscillators with a non-zero broadening give a finite result at every energy. -/
theorem C54_finite {osc : List (ℝ × ℝ × ℝ)} (einf e : ℝ) (hosc : ∀ o ∈ osc, o.2.1 ≠ 0) :
    ∃ v, gaussEps osc einf e = some v := by
  obtain ⟨y1, h1⟩ := gaussSum_isSome (F := hilbert) fun o ho => gaussGrid_of_broad (hosc o ho)
  obtain ⟨y2, h2⟩ := gaussSum_isSome (F := id) fun o ho => gaussGrid_of_broad (hosc o ho)
  have hi : ∀ y, ∃ v, gridInterp y e = some v := by
    intro y
    rcases grid_cases e with hc | hc | ⟨j, hj, ha, hb⟩
    · exact ⟨_, gridInterp_low _ hc⟩
    · exact ⟨_, gridInterp_high _ hc⟩
    · exact ⟨_, gridInterp_seg _ hj ha hb⟩
  obtain ⟨a, ha⟩ := hi fun j => y1 j + einf
  obtain ⟨b, hb⟩ := hi y2
  exact ⟨⟨a, b⟩, by simp [gaussEps, h1, h2, ha, hb]⟩

theorem gridInterp_knot (y : ℕ → ℝ) {j : ℕ} (hj : j < 2048) :
    gridInterp y (ePad j) = some (y j) := by
  by_cases h : j + 1 < 2048
  · rw [gridInterp_seg y h le_rfl (ePad_mono (Nat.lt_succ_self j)).le]
    simp [lerp]
  · obtain rfl : j = 2047 := by omega
    exact gridInterp_high y ePad_last.ge

/-- C54: the real parts at the 2048 grid energies average to `Einf`. -/
theorem C54_mean {osc : List (ℝ × ℝ × ℝ)} {einf : ℝ} {v : ℕ → ℂ}
    (h : ∀ j : ℕ, j < 2048 → gaussEps osc einf (-20 + 40 * j / 2047) = some (v j)) :
    (∑ j ∈ Finset.range 2048, (v j).re) / 2048 = einf := by
  obtain ⟨y, _, hy, -⟩ := gaussEps_some (h 0 (by norm_num))
  have hre : ∀ j ∈ Finset.range 2048, (v j).re = y j + einf := by
    intro j hj
    rw [Finset.mem_range] at hj
    obtain ⟨e1, e2, h1, -, h3, -⟩ := gaussEps_some (h j hj)
    rw [hy, Option.some.injEq] at h1
    subst h1
    have := gridInterp_knot (fun j => y j + einf) hj
    unfold ePad at this
    rw [h3] at this
    simpa using this
  have hsum : ∑ j ∈ Finset.range 2048, y j = 0 := by
    refine gaussSum_induct hy (fun y => ∑ j ∈ Finset.range 2048, y j = 0) (by simp)
      (fun u w hu hw => by rw [Finset.sum_add_distrib, hu, hw, add_zero])
      fun o _ g _ => sum_hilbert g
  rw [Finset.sum_congr rfl hre, Finset.sum_add_distrib, hsum]
  simp

/-- C96: a Gauss dielectric function satisfies the reality condition at every energy. -/
theorem C96_gauss {osc : List (ℝ × ℝ × ℝ)} {einf e : ℝ} {v : ℂ}
    (h : gaussEps osc einf e = some v) :
    gaussEps osc einf (-e) = some (starRingEnd ℂ v) := by
  obtain ⟨y1, y2, h1, h2, h3, h4⟩ := gaussEps_some h
  have he := e1_even h1
  have ho := e2_odd h2
  have key : ∀ (s : ℝ) {y : ℕ → ℝ} {w : ℝ}, (∀ j < 2048, y (2047 - j) = s * y j) →
      gridInterp y e = some w → gridInterp y (-e) = some (s * w) := by
    intro s y w hs hw
    rcases grid_cases e with hc | hc | ⟨j, hj, ha, hb⟩
    · rw [gridInterp_low y hc, Option.some.injEq] at hw
      rw [gridInterp_high y (by linarith), ← hw, ← hs 0 (by norm_num)]
    · rw [gridInterp_high y hc, Option.some.injEq] at hw
      rw [gridInterp_low y (by linarith), ← hw, ← hs 2047 (by norm_num)]
    · rw [gridInterp_seg y hj ha hb, Option.some.injEq] at hw
      have f1 := ePad_flip (j := j) (by omega)
      have f2 := ePad_flip (j := j + 1) hj
      have g1 := hs j (by omega)
      have g2 := hs (j + 1) hj
      have ej : 2047 - (j + 1) + 1 = 2047 - j := by omega
      have hlt := ePad_mono (Nat.lt_succ_self j)
      rw [gridInterp_seg y (j := 2047 - (j + 1)) (by omega) (by rw [f2]; linarith)
        (by rw [ej, f1]; linarith), ej, f1, f2, g1, g2, ← hw]
      have hd : ePad (j + 1) - ePad j ≠ 0 := by linarith
      have hd' : -ePad j - -ePad (j + 1) ≠ 0 := by
        intro h0; apply hd; linarith
      unfold lerp
      have : -ePad j - -ePad (j + 1) = ePad (j + 1) - ePad j := by ring
      rw [this]
      simp only [Option.some.injEq]
      field_simp
      ring
  have k1 := key 1 (y := fun j => y1 j + einf) (by intro j hj; simp [he j hj]) h3
  have k2 := key (-1) (by intro j hj; simp [ho j hj]) h4
  simp only [gaussEps, h1, h2, Option.bind_eq_bind, Option.bind_some, k1, k2, Option.pure_def,
    Option.some.injEq]
  apply Complex.ext <;> simp

/-- C96: so does a Lorentz dielectric function. -/
theorem C96_lorentz {osc : List (ℝ × ℝ × ℝ)} {einf e : ℝ} {v : ℂ}
    (h : lorentzEps osc einf e = some v) :
    lorentzEps osc einf (-e) = some (starRingEnd ℂ v) := by
  have key : ∀ {osc : List (ℝ × ℝ × ℝ)} {u : ℂ}, sumO (osc.map (lorentzTerm e)) = some u →
      sumO (osc.map (lorentzTerm (-e))) = some (starRingEnd ℂ u) := by
    intro osc
    induction osc with
    | nil => intro u hu; simp only [List.map_nil, sumO, Option.some.injEq] at *; simp [← hu]
    | cons o osc ih =>
      intro u hu
      simp only [List.map_cons, sumO, Option.bind_eq_bind, Option.bind_eq_some_iff,
        Option.pure_def, Option.some.injEq] at hu ⊢
      obtain ⟨t, ht, r, hr, rfl⟩ := hu
      refine ⟨starRingEnd ℂ t, ?_, _, ih hr, by simp⟩
      obtain ⟨hne, rfl⟩ := cdiv_eq_some.mp ht
      have hc : ((o.2.2 : ℂ) ^ 2 - ((-e : ℝ) : ℂ) ^ 2 - Complex.I * o.2.1 * ((-e : ℝ) : ℂ))
          = starRingEnd ℂ ((o.2.2 : ℂ) ^ 2 - e ^ 2 - Complex.I * o.2.1 * e) := by
        simp
      unfold lorentzTerm
      rw [hc, cdiv_of_ne ((map_ne_zero _).mpr hne)]
      simp
  simp only [lorentzEps, Option.bind_eq_bind, Option.bind_eq_some_iff, Option.pure_def,
    Option.some.injEq] at h ⊢
  obtain ⟨u, hu, rfl⟩ := h
  exact ⟨_, key hu, by simp⟩

/-- Non-vacuity: two oscillators with everything positive. -/
example : ∃ v, gaussEps [(1, 1, 3), (2, 1 / 2, 5)] 1 (-2) = some v ∧
    ∃ u, gaussEps [(1, 1, 3), (2, 1 / 2, 5)] 1 2 = some u ∧ v = starRingEnd ℂ u ∧ 0 ≤ u.im := by
  obtain ⟨u, hu⟩ := C54_finite (osc := [(1, 1, 3), (2, 1 / 2, 5)]) 1 2 (by simp)
  refine ⟨_, C96_gauss hu, u, hu, rfl, C54_absorbs (by simp) (by norm_num) hu⟩

example : ∀ j : ℕ, j < 2048 → ∃ v, gaussEps [(1, 1, 3)] 2 (-20 + 40 * j / 2047) = some v :=
  fun j _ => C54_finite _ _ (by simp)

end Verif.Disp
