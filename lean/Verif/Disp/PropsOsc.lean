import Verif.Disp.OscLemmas

/-! # C49 - C53, C55, C56: analytic dispersion models -/

namespace Verif.Disp

theorem pick_ne {own w : ℝ} (h : w ≠ 0) : pickWav own (some w) = w := by simp [pickWav, h]

/-! ### C49: Cauchy -/

/-- C49: the index is `A + B/l² + C/l⁴` with `l` the wavelength in micron; no extinction. -/
theorem C49_cauchy (z : SqrtOracle) (wl A B C : ℝ) {w : ℝ} (hw : 0 < w) :
    (Scat.cauchy wl A B C).complex z (some w)
      = some ⟨A + B / (w / 1000) ^ 2 + C / (w / 1000) ^ 4, 0⟩ := by
  have h2 : w ^ 2 ≠ 0 := by positivity
  have h4 : w ^ 4 ≠ 0 := by positivity
  simp only [Scat.complex, Scat.at, Scat.ownWav, pick_ne hw.ne', rdiv_of_ne h2, rdiv_of_ne h4]
  simp only [Option.pure_def, Option.bind_eq_bind, Option.bind_some, Option.some.injEq]
  apply Complex.ext
  · simp only [Complex.ofReal_re]
    field_simp
  · exact Complex.ofReal_im _

/-- C49: normal dispersion for non-negative `B`, `C`. -/
theorem C49_decreasing (z : SqrtOracle) (wl A : ℝ) {B C : ℝ} (hB : 0 ≤ B) (hC : 0 ≤ C) {v w : ℝ}
    (hv : 0 < v) (hvw : v ≤ w) :
    ∃ N M, (Scat.cauchy wl A B C).complex z (some v) = some N ∧
      (Scat.cauchy wl A B C).complex z (some w) = some M ∧ M.re ≤ N.re := by
  refine ⟨_, _, C49_cauchy z wl A B C hv, C49_cauchy z wl A B C (hv.trans_le hvw), ?_⟩
  simp only
  have hv' : 0 < v / 1000 := by positivity
  have hle : v / 1000 ≤ w / 1000 := by linarith
  have h2 : B / (w / 1000) ^ 2 ≤ B / (v / 1000) ^ 2 := by gcongr
  have h4 : C / (w / 1000) ^ 4 ≤ C / (v / 1000) ^ 4 := by gcongr
  linarith

/-! ### C50: Sellmeier -/

/-- C50: with `u` the wavelength in microns and
`ε = einf + Am u² / (u² - En²) - P u²`, the index exists exactly if `ε ≥ 0`, and it is then real,
non-negative, and its square is `ε`.  At the resonance `u = ±En` there is no finite index. -/
theorem C50_square (z : SqrtOracle) (wl Am En P einf : ℝ) {w u ε : ℝ} (hw : w ≠ 0)
    (hu : u = w / 1000) (hε : ε = einf + Am * u ^ 2 / (u ^ 2 - En ^ 2) - P * u ^ 2) :
    (u ^ 2 ≠ En ^ 2 → 0 ≤ ε → ∃ N, (Scat.sellmeier wl Am En P einf).complex z (some w) = some N ∧
      N.im = 0 ∧ 0 ≤ N.re ∧ N ^ 2 = ε) ∧
    (u ^ 2 ≠ En ^ 2 → ε < 0 → (Scat.sellmeier wl Am En P einf).complex z (some w) = none) ∧
    (u ^ 2 = En ^ 2 → (Scat.sellmeier wl Am En P einf).complex z (some w) = none) := by
  have hu' : w * 1e-3 = u := by rw [hu]; norm_num; ring
  have hc : (Scat.sellmeier wl Am En P einf).complex z (some w)
      = (sellmeierReal Am En P einf w).bind fun x => (rsqrt x).bind fun y => some ((y : ℝ) : ℂ) := by
    simp only [Scat.complex, Scat.at, Scat.ownWav, pick_ne hw]
    rfl
  have hv : u ^ 2 ≠ En ^ 2 → sellmeierReal Am En P einf w = some ε := by
    intro h
    simp only [sellmeierReal, hu', rdiv_of_ne (sub_ne_zero.mpr h), hε]
    rfl
  rw [hc]
  refine ⟨fun h hx => ?_, fun h hx => ?_, fun h => ?_⟩
  · refine ⟨(Real.sqrt ε : ℂ), by rw [hv h, Option.bind_some, rsqrt_of_nonneg hx]; rfl, by simp,
      by simp, ?_⟩
    rw [← Complex.ofReal_pow, Real.sq_sqrt hx]
  · rw [hv h, Option.bind_some, rsqrt_neg hx]; rfl
  · simp only [sellmeierReal, hu', sub_eq_zero.mpr h]
    simp [rdiv]

/-- The documented example `Sellmeier(2, 0.1, 0.11)` at 400 nm: `ε` is positive. -/
example : (0.4 : ℝ) ^ 2 ≠ 0.1 ^ 2 ∧
    (0 : ℝ) ≤ 1 + 2 * 0.4 ^ 2 / (0.4 ^ 2 - 0.1 ^ 2) - 0.11 * 0.4 ^ 2 := by norm_num

/-- C50: on either side of the resonance the index decreases with wavelength when `Am, P ≥ 0`. -/
theorem C50_decreasing (z : SqrtOracle) (wl : ℝ) {Am En P einf : ℝ} (hA : 0 ≤ Am) (hP : 0 ≤ P)
    {v w : ℝ} (hv : 0 < v) (hvw : v ≤ w)
    (hside : w / 1000 < |En| ∨ |En| < v / 1000) {N M : ℂ}
    (hN : (Scat.sellmeier wl Am En P einf).complex z (some v) = some N)
    (hM : (Scat.sellmeier wl Am En P einf).complex z (some w) = some M) : M.re ≤ N.re := by
  have hw : 0 < w := hv.trans_le hvw
  have key : ∀ {u : ℝ}, 0 < u → (u / 1000 < |En| ∨ |En| < u / 1000) →
      sellmeierReal Am En P einf u
        = some (einf + Am * (u * 1e-3) ^ 2 / ((u * 1e-3) ^ 2 - En ^ 2) - P * (u * 1e-3) ^ 2) := by
    intro u hu hne
    have : (u * 1e-3) ^ 2 - En ^ 2 ≠ 0 := by
      intro h0
      have h1 : (u * 1e-3) ^ 2 = |En| ^ 2 := by rw [sq_abs]; linarith
      have h2 : u * 1e-3 = |En| :=
        (pow_left_inj₀ (by positivity) (abs_nonneg _) (by norm_num)).mp h1
      have h3 : u / 1000 = u * 1e-3 := by norm_num; ring
      rcases hne with h | h <;> linarith
    simp [sellmeierReal, rdiv_of_ne this]
  have kv := key hv (hside.imp (fun h => lt_of_le_of_lt (by linarith) h) id)
  have kw := key hw (hside.imp id (fun h => lt_of_lt_of_le h (by linarith)))
  simp only [Scat.complex, Scat.at, Scat.ownWav, pick_ne hv.ne', kv] at hN
  simp only [Scat.complex, Scat.at, Scat.ownWav, pick_ne hw.ne', kw] at hM
  simp only [Option.pure_def, Option.bind_eq_bind, Option.bind_some] at hN hM
  set xv := einf + Am * (v * 1e-3) ^ 2 / ((v * 1e-3) ^ 2 - En ^ 2) - P * (v * 1e-3) ^ 2 with hxv
  set xw := einf + Am * (w * 1e-3) ^ 2 / ((w * 1e-3) ^ 2 - En ^ 2) - P * (w * 1e-3) ^ 2 with hxw
  have hle : xw ≤ xv := by
    have hsq : (v * 1e-3) ^ 2 ≤ (w * 1e-3) ^ 2 := by gcongr
    have hterm : Am * (w * 1e-3) ^ 2 / ((w * 1e-3) ^ 2 - En ^ 2)
        ≤ Am * (v * 1e-3) ^ 2 / ((v * 1e-3) ^ 2 - En ^ 2) := by
      set a := (v * 1e-3) ^ 2
      set b := (w * 1e-3) ^ 2
      have hE := sq_nonneg En
      rcases hside with h | h
      · have hb : b < En ^ 2 := by
          have : w * 1e-3 < |En| := by have : w / 1000 = w * 1e-3 := by norm_num; ring
                                       linarith
          have := pow_lt_pow_left₀ this (by positivity) (n := 2) (by norm_num)
          rwa [sq_abs] at this
        have h1 : b - En ^ 2 < 0 := by linarith
        have h2 : a - En ^ 2 < 0 := by linarith
        rw [← neg_div_neg_eq, ← neg_div_neg_eq (Am * a), div_le_div_iff₀ (by linarith) (by linarith)]
        nlinarith [mul_nonneg hA (mul_nonneg hE (sub_nonneg.mpr hsq))]
      · have ha : En ^ 2 < a := by
          have : |En| < v * 1e-3 := by have : v / 1000 = v * 1e-3 := by norm_num; ring
                                       linarith
          have := pow_lt_pow_left₀ this (abs_nonneg _) (n := 2) (by norm_num)
          rwa [sq_abs] at this
        have h1 : 0 < b - En ^ 2 := by linarith
        have h2 : 0 < a - En ^ 2 := by linarith
        rw [div_le_div_iff₀ h1 h2]
        nlinarith [mul_nonneg hA (mul_nonneg hE (sub_nonneg.mpr hsq))]
    have := mul_le_mul_of_nonneg_left hsq hP
    linarith
  have rd : ∀ {x : ℝ} {K : ℂ}, ((rsqrt x).bind fun y => some ((y : ℝ) : ℂ)) = some K →
      K.re = Real.sqrt x := by
    intro x K h
    by_cases hx : 0 ≤ x
    · rw [rsqrt_of_nonneg hx] at h
      simp at h
      rw [← h]; simp
    · rw [rsqrt_neg (not_le.mp hx)] at h
      simp at h
  rw [rd hM, rd hN]
  exact Real.sqrt_le_sqrt hle

/-- The documented example `Sellmeier(2, 0.1, 0.11)` above its resonance at 100 nm. -/
example : |(0.1 : ℝ)| < 400 / 1000 := by norm_num [abs_of_pos]

/-- Across the resonance the index may rise: `Am = 1`, `En = 1/2`, `P = 0`, `einf = 2`, from
400 nm to 1000 nm the square of the index rises from `2/9` to `10/3`. -/
theorem C50_rises_across_resonance (z : SqrtOracle) (wl : ℝ) :
    ∃ (Am En P einf v w : ℝ) (N M : ℂ), 0 ≤ Am ∧ 0 ≤ P ∧ 0 < v ∧ v < w ∧
      (Scat.sellmeier wl Am En P einf).complex z (some v) = some N ∧
      (Scat.sellmeier wl Am En P einf).complex z (some w) = some M ∧ N.re < M.re := by
  obtain ⟨N, hN, hNi, hNr, hNs⟩ := (C50_square z wl 1 (1 / 2) 0 2 (w := 400) (by norm_num) rfl
    rfl).1 (by norm_num) (by norm_num)
  obtain ⟨M, hM, hMi, hMr, hMs⟩ := (C50_square z wl 1 (1 / 2) 0 2 (w := 1000) (by norm_num) rfl
    rfl).1 (by norm_num) (by norm_num)
  refine ⟨1, 1 / 2, 0, 2, 400, 1000, N, M, by norm_num, by norm_num, by norm_num, by norm_num,
    hN, hM, ?_⟩
  have h1 := congrArg Complex.re hNs
  have h2 := congrArg Complex.re hMs
  rw [sq, Complex.mul_re, hNi, Complex.ofReal_re] at h1
  rw [sq, Complex.mul_re, hMi, Complex.ofReal_re] at h2
  norm_num at h1 h2
  nlinarith

/-! ### C51: Lorentz -/

/-- Oscillators `(Am, Br, En)` with non-negative amplitude and broadening. -/
def NonnegOsc (osc : List (ℝ × ℝ × ℝ)) : Prop := ∀ o ∈ osc, 0 ≤ o.1 ∧ 0 ≤ o.2.1

/-- C51: a Lorentz material absorbs: `Im ε ≥ 0` at every non-negative energy. -/
theorem C51_passive {osc : List (ℝ × ℝ × ℝ)} (h : NonnegOsc osc) (einf : ℝ) {e : ℝ} (he : 0 ≤ e)
    {v : ℂ} (hv : lorentzEps osc einf e = some v) : 0 ≤ v.im := by
  unfold lorentzEps at hv
  cases hs : sumO (osc.map (lorentzTerm e)) with
  | none => simp [hs] at hv
  | some u =>
    simp [hs] at hv
    rw [← hv]
    simp only [Complex.add_im, Complex.ofReal_im, add_zero]
    obtain ⟨vs, h1, rfl⟩ := sumO_eq_some.mp hs
    clear hv hs
    induction osc generalizing vs with
    | nil =>
      have : vs = [] := by simpa using h1.symm
      subst this; simp
    | cons o osc ih =>
      cases vs with
      | nil => simp at h1
      | cons x vs =>
        simp only [List.map_cons, List.cons.injEq] at h1
        have := ih (fun o ho => h o (by simp [ho])) vs h1.2
        rw [List.sum_cons, Complex.add_im]
        have hx : 0 ≤ x.im := by
          obtain ⟨hne, hx⟩ := cdiv_eq_some.mp h1.1
          obtain ⟨hA, hB⟩ := h o (by simp)
          rw [hx, Complex.div_im]
          have him : (((o.2.2 : ℂ)) ^ 2 - e ^ 2 - Complex.I * o.2.1 * e).im = -(o.2.1 * e) := by
            simp [sq]
          rw [him]
          simp only [Complex.ofReal_im, Complex.ofReal_re, zero_mul, zero_div, zero_sub]
          rw [← neg_div, mul_neg, neg_neg]
          exact div_nonneg (by positivity) (Complex.normSq_nonneg _)
        linarith

/-- C51: hence the refractive index of a Lorentz material has `n ≥ 0`, `k ≥ 0` at every positive
wavelength.  `hz`: on the negative real axis (possible only without broadening) numpy's imaginary
zero is `+0`, because the real `Einf` is added last. -/
theorem C51_index_passive (z : SqrtOracle) (hz : ∀ s w, z s w = true) {wl : ℝ}
    {osc : List (ℝ × ℝ × ℝ)} (h : NonnegOsc osc) (einf : ℝ) {w : ℝ} (hw : 0 < w) {N : ℂ}
    (hN : (Scat.lorentz wl osc einf).complex z (some w) = some N) : 0 ≤ N.re ∧ 0 ≤ N.im := by
  simp only [Scat.complex, Scat.at, Scat.ownWav, pick_ne hw.ne', nmEV, rdiv_of_ne hw.ne',
    Scat.epsilon, Option.bind_eq_bind, Option.bind_some, Option.pure_def] at hN
  cases hv : lorentzEps osc einf (1239.841984055 / w) with
  | none => simp [hv] at hN
  | some v =>
    simp [hv] at hN
    rw [← hN]
    exact npSqrt_passive (C51_passive h einf (by positivity) hv) (hz _ _)

/-- C51: the order of the oscillators does not matter. -/
theorem C51_permute {osc osc' : List (ℝ × ℝ × ℝ)} (h : osc.Perm osc') (einf e : ℝ) :
    lorentzEps osc einf e = lorentzEps osc' einf e := by
  unfold lorentzEps
  rw [sumO_perm (h.map (lorentzTerm e))]

/-- C51: contributions of oscillators add. -/
theorem C51_additive {osc osc' : List (ℝ × ℝ × ℝ)} {a b e : ℝ} {u v : ℂ}
    (h1 : lorentzEps osc a e = some u) (h2 : lorentzEps osc' b e = some v) :
    lorentzEps (osc ++ osc') (a + b) e = some (u + v) := by
  unfold lorentzEps at *
  cases hs : sumO (osc.map (lorentzTerm e)) with
  | none => simp [hs] at h1
  | some x =>
    cases ht : sumO (osc'.map (lorentzTerm e)) with
    | none => simp [ht] at h2
    | some y =>
      simp [hs] at h1
      simp [ht] at h2
      rw [List.map_append, sumO_append hs ht]
      simp [← h1, ← h2]
      ring

/-- C51: the dielectric function is finite unless an undamped oscillator is hit on resonance. -/
theorem C51_finite {osc : List (ℝ × ℝ × ℝ)} (einf : ℝ) {e : ℝ}
    (h : ∀ o ∈ osc, ¬ (o.2.2 ^ 2 = e ^ 2 ∧ o.2.1 * e = 0)) :
    ∃ v, lorentzEps osc einf e = some v := by
  have : (sumO (osc.map (lorentzTerm e))).isSome := by
    rw [sumO_isSome]
    intro x hx
    obtain ⟨o, ho, rfl⟩ := List.mem_map.mp hx
    unfold lorentzTerm
    rw [cdiv_of_ne]
    · rfl
    · intro h0
      have hre := congrArg Complex.re h0
      have him := congrArg Complex.im h0
      simp [sq] at hre him
      exact h o ho ⟨by linarith, by simpa using him⟩
  obtain ⟨u, hu⟩ := Option.isSome_iff_exists.mp this
  exact ⟨u + einf, by simp [lorentzEps, hu]⟩

/-- The documented example with two oscillators. -/
example : NonnegOsc [(5, 0.25, 2), (10, 0.5, 4)] ∧
    ∃ v, lorentzEps [(5, 0.25, 2), (10, 0.5, 4)] 2 1.88 = some v := by
  refine ⟨by simp [NonnegOsc]; norm_num, C51_finite _ ?_⟩
  simp; norm_num

theorem bind_some {α β : Type} {o : Option α} {f : α → Option β} {v : β}
    (h : (o >>= f) = some v) : ∃ a, o = some a ∧ f a = some v := by
  cases o with
  | none => simp at h
  | some a => exact ⟨a, rfl, h⟩

/-! ### C52, C53: Tauc-Lorentz -/

/-- C52: the imaginary part is 0 up to the gap and non-negative above it. -/
theorem C52_edge {osc : List (ℝ × ℝ × ℝ)} (h : ∀ o ∈ osc, 0 ≤ o.1 ∧ 0 ≤ o.2.1 ∧ 0 ≤ o.2.2)
    (Eg einf : ℝ) {e : ℝ} (he : 0 < e) {v : ℝ} (hv : (tlParts osc Eg einf e).2 = some v) :
    (e ≤ Eg → v = 0) ∧ 0 ≤ v := by
  simp only [tlParts] at hv
  obtain ⟨vs, h1, rfl⟩ := sumO_eq_some.mp hv
  clear hv
  induction osc generalizing vs with
  | nil =>
    have : vs = [] := by simpa using h1.symm
    subst this; simp
  | cons o osc ih =>
    cases vs with
    | nil => simp at h1
    | cons x vs =>
      simp only [List.map_cons, List.cons.injEq] at h1
      obtain ⟨i1, i2⟩ := ih (fun o ho => h o (by simp [ho])) vs h1.2
      obtain ⟨hA, hC, hE⟩ := h o (by simp)
      have hx : (e ≤ Eg → x = 0) ∧ 0 ≤ x := by
        have hx := h1.1
        unfold tlE2 at hx
        cases hq : rdiv (o.1 * o.2.2 * o.2.1 * (e - Eg) ^ 2)
            (e * ((e ^ 2 - o.2.2 ^ 2) ^ 2 + (o.2.1 * e) ^ 2)) with
        | none => simp [hq] at hx
        | some q =>
          simp [hq] at hx
          obtain ⟨-, hq'⟩ := rdiv_eq_some.mp hq
          have hq0 : 0 ≤ q := by
            rw [hq']; positivity
          rw [← hx]
          unfold heaviside
          split_ifs with hc
          · exact ⟨fun h => by linarith, by simpa using hq0⟩
          · simp
      rw [List.sum_cons]
      exact ⟨fun h => by rw [hx.1 h, i1 h]; simp, add_nonneg hx.2 i2⟩

/-- The imaginary part is finite at every positive energy when all broadenings are positive. -/
theorem C52_finite {osc : List (ℝ × ℝ × ℝ)} (h : ∀ o ∈ osc, 0 < o.2.1) (Eg einf : ℝ) {e : ℝ}
    (he : 0 < e) : ∃ v, (tlParts osc Eg einf e).2 = some v := by
  apply Option.isSome_iff_exists.mp
  simp only [tlParts]
  rw [sumO_isSome]
  intro x hx
  obtain ⟨o, ho, rfl⟩ := List.mem_map.mp hx
  have hC := h o ho
  have : e * ((e ^ 2 - o.2.2 ^ 2) ^ 2 + (o.2.1 * e) ^ 2) ≠ 0 := by positivity
  simp [tlE2, rdiv_of_ne this]

theorem sumO_map_eq {l : List (ℝ × ℝ × ℝ)} {f : ℝ × ℝ × ℝ → Option ℝ} {g : ℝ × ℝ × ℝ → ℝ}
    (h : ∀ o ∈ l, ∀ x, f o = some x → x = g o) {v : ℝ} (hv : sumO (l.map f) = some v) : v = (l.map g).sum := by
  obtain ⟨vs, h1, rfl⟩ := sumO_eq_some.mp hv
  clear hv
  induction l generalizing vs with
  | nil =>
    have : vs = [] := by simpa using h1.symm
    subst this; rfl
  | cons o l ih =>
    cases vs with
    | nil => simp at h1
    | cons x vs =>
      simp only [List.map_cons, List.cons.injEq] at h1
      rw [List.map_cons, List.sum_cons, List.sum_cons, h o (by simp) x h1.1,
        ih (fun o ho => h o (by simp [ho])) vs h1.2]

/-- C52: the imaginary part of `epsilon` is 0 up to the gap, and above it the sum of the Tauc-Lorentz terms
`A En C (E - Eg)² / (E ((E² - En²)² + C² E²))`; it is never negative for non-negative parameters. -/
theorem C52_epsilon {osc : List (ℝ × ℝ × ℝ)} {wl Eg einf e : ℝ} {v : ℂ}
    (hv : (Scat.tauc wl osc Eg einf).epsilon e = some v) :
    (e ≤ Eg → v.im = 0) ∧
    (Eg < e → v.im = (osc.map fun o => o.1 * o.2.2 * o.2.1 * (e - Eg) ^ 2 /
      (e * ((e ^ 2 - o.2.2 ^ 2) ^ 2 + o.2.1 ^ 2 * e ^ 2))).sum) ∧
    (0 < e → (∀ o ∈ osc, 0 ≤ o.1 ∧ 0 ≤ o.2.1 ∧ 0 ≤ o.2.2) → 0 ≤ v.im) := by
  have h2 : (tlParts osc Eg einf e).2 = some v.im := by
    simp only [Scat.epsilon, tlEps] at hv
    obtain ⟨a, ha, hv⟩ := bind_some hv
    obtain ⟨b, hb, hv⟩ := bind_some hv
    simp only [Option.pure_def, Option.some.injEq] at hv
    rw [hb, ← hv]
  have hterm : ∀ o ∈ osc, ∀ x, tlE2 o Eg e = some x → x = o.1 * o.2.2 * o.2.1 * (e - Eg) ^ 2 /
      (e * ((e ^ 2 - o.2.2 ^ 2) ^ 2 + (o.2.1 * e) ^ 2)) * heaviside (e - Eg) := by
    intro o _ x hx
    unfold tlE2 at hx
    obtain ⟨q, hq, hx⟩ := bind_some hx
    simp only [Option.pure_def, Option.some.injEq] at hx
    unfold rdiv at hq
    split_ifs at hq
    simp only [Option.some.injEq] at hq
    rw [← hx, ← hq]
  have hsum := sumO_map_eq hterm h2
  refine ⟨fun h => ?_, fun h => ?_, fun he h => (C52_edge h Eg einf he h2).2⟩
  · rw [hsum]
    have : heaviside (e - Eg) = 0 := by unfold heaviside; rw [if_neg (by linarith)]
    simp [this]
  · rw [hsum]
    have : heaviside (e - Eg) = 1 := by unfold heaviside; rw [if_pos (by linarith)]
    simp only [this, mul_one, mul_pow]

example : ∀ o ∈ ([(100, 2.5, 3.5)] : List (ℝ × ℝ × ℝ)), 0 ≤ o.1 ∧ 0 < o.2.1 ∧ 0 ≤ o.2.2 := by
  simp; norm_num

/-- C53 (partial): the dielectric function is finite for `0 ≤ Eg`, `0 < En`, every positive energy
except the gap itself, and broadenings up to `√2 En`.  Missing: `√2 En < C < 2 En`
(`C53_fails_broad`) and the gap energy (`C53_fails_gap`). -/
theorem C53_finite_partial {osc : List (ℝ × ℝ × ℝ)} {Eg : ℝ} (hEg : 0 ≤ Eg)
    (h : ∀ o ∈ osc, 0 < o.2.1 ∧ o.2.1 ^ 2 ≤ 2 * o.2.2 ^ 2 ∧ 0 < o.2.2) (einf : ℝ) {e : ℝ}
    (he : 0 < e) (hne : e ≠ Eg) : ∃ v, tlEps osc Eg einf e = some v := by
  obtain ⟨b, hb⟩ := C52_finite (fun o ho => (h o ho).1) Eg einf he
  have ha : ∃ a, (tlParts osc Eg einf e).1 = some a := by
    have : (sumO (osc.map fun o => tlE1 o Eg e)).isSome := by
      rw [sumO_isSome]
      intro x hx
      obtain ⟨o, ho, rfl⟩ := List.mem_map.mp hx
      obtain ⟨hC, hC2, hEi⟩ := h o ho
      set A := o.1
      set C := o.2.1
      set Ei := o.2.2
      have hal0 : 0 < 4 * Ei ^ 2 - C ^ 2 := by nlinarith
      have hga0 : 0 ≤ Ei ^ 2 - C ^ 2 / 2 := by linarith
      set al := Real.sqrt (4 * Ei ^ 2 - C ^ 2) with hal
      have halpos : 0 < al := Real.sqrt_pos.mpr hal0
      have halsq : al ^ 2 = 4 * Ei ^ 2 - C ^ 2 := Real.sq_sqrt hal0.le
      have hallt : al < 2 * Ei := by
        rw [hal, Real.sqrt_lt' (by linarith)]
        nlinarith [sq_pos_of_pos hC]
      set ga := Real.sqrt (Ei ^ 2 - C ^ 2 / 2) with hga
      have hz : 0 < (e ^ 2 - ga ^ 2) ^ 2 + 0.25 * al ^ 2 * C ^ 2 := by positivity
      have hden1 : 0 < Ei ^ 2 + Eg ^ 2 - al * Eg := by
        rcases hEg.lt_or_eq with h | h
        · nlinarith [sq_nonneg (Ei - Eg), mul_pos h (sub_pos.mpr hallt)]
        · rw [← h]; simp; positivity
      have hl1 : 0 < (Ei ^ 2 + Eg ^ 2 + al * Eg) / (Ei ^ 2 + Eg ^ 2 - al * Eg) := by positivity
      have habs : 0 < |e - Eg| := abs_pos.mpr (sub_ne_zero.mpr hne)
      have hsum : 0 < e + Eg := by linarith
      have hroot : 0 < Real.sqrt ((Ei ^ 2 - Eg ^ 2) ^ 2 + Eg ^ 2 * C ^ 2) := by
        apply Real.sqrt_pos.mpr
        rcases hEg.lt_or_eq with h | h
        · positivity
        · rw [← h]; simp; positivity
      have hl4 : 0 < |e - Eg| / (e + Eg) := by positivity
      have hl5 : 0 < |e - Eg| * (e + Eg) /
          Real.sqrt ((Ei ^ 2 - Eg ^ 2) ^ 2 + Eg ^ 2 * C ^ 2) := by positivity
      have n1 : ((e ^ 2 - ga ^ 2) ^ 2 + 0.25 * al ^ 2 * C ^ 2) * al * Ei ≠ 0 := by positivity
      have n2 : ((e ^ 2 - ga ^ 2) ^ 2 + 0.25 * al ^ 2 * C ^ 2) * Ei ≠ 0 := by positivity
      have n3 : ((e ^ 2 - ga ^ 2) ^ 2 + 0.25 * al ^ 2 * C ^ 2) * al ≠ 0 := by positivity
      have n4 : ((e ^ 2 - ga ^ 2) ^ 2 + 0.25 * al ^ 2 * C ^ 2) * e ≠ 0 := by positivity
      have n5 : al * C ≠ 0 := by positivity
      unfold tlE1
      simp only [show o.2.2 = Ei from rfl, show o.2.1 = C from rfl, show o.1 = A from rfl,
        rsqrt_of_nonneg hal0.le, rsqrt_of_nonneg hga0, Option.pure_def,
        Option.bind_eq_bind, Option.bind_some, ← hal, ← hga, rdiv_of_ne hden1.ne',
        rlog_of_pos hl1, rdiv_of_ne n1, rdiv_of_ne n2, rdiv_of_ne n3, rdiv_of_ne n4,
        rdiv_of_ne n5, rdiv_of_ne hC.ne', rdiv_of_ne hsum.ne', rlog_of_pos hl4, rdiv_of_ne hz.ne',
        rdiv_of_ne hroot.ne', rlog_of_pos hl5, Option.isSome_some]
    obtain ⟨u, hu⟩ := Option.isSome_iff_exists.mp this
    exact ⟨u + einf, by simp [tlParts, hu]⟩
  obtain ⟨a, ha⟩ := ha
  exact ⟨⟨a, b⟩, by simp [tlEps, ha, hb]⟩

example : (0 : ℝ) < 2.5 ∧ (2.5 : ℝ) ^ 2 ≤ 2 * 3.5 ^ 2 ∧ (0 : ℝ) < 3.5 ∧ (0 : ℝ) ≤ 1.5 := by norm_num

/-- `C52_epsilon` on a Tauc-Lorentz layer above its gap. -/
example : ∃ v, (Scat.tauc 658 [(100, 2.5, 3.5)] 1.5 1).epsilon 3 = some v ∧ 0 ≤ v.im := by
  obtain ⟨v, hv⟩ := C53_finite_partial (osc := [(100, 2.5, 3.5)]) (Eg := 1.5) (by norm_num)
    (by intro o ho; simp only [List.mem_singleton] at ho; subst ho; norm_num) 1 (e := 3) (by norm_num) (by norm_num)
  refine ⟨v, hv, (C52_epsilon (wl := 658) hv).2.2 (by norm_num) ?_⟩
  intro o ho; simp only [List.mem_singleton] at ho; subst ho; norm_num

theorem tlE1_broad {o : ℝ × ℝ × ℝ} (hC : 2 * o.2.2 ^ 2 < o.2.1 ^ 2) (Eg e : ℝ) : tlE1 o Eg e = none := by
  by_contra hc
  obtain ⟨v, hv⟩ := Option.ne_none_iff_exists'.mp hc
  obtain ⟨_, _, hv⟩ := bind_some hv
  obtain ⟨_, h2, _⟩ := bind_some hv
  rw [rsqrt_neg (by linarith)] at h2
  exact absurd h2 (by simp)

/-- C53 is false of the code in the documented range `C < 2 En`: whenever `√2 En < C` for one
oscillator, the dielectric function is not a number, at every energy. -/
theorem C53_fails_broad {osc : List (ℝ × ℝ × ℝ)} {o : ℝ × ℝ × ℝ} (ho : o ∈ osc)
    (hC : 2 * o.2.2 ^ 2 < o.2.1 ^ 2) (Eg einf e : ℝ) : tlEps osc Eg einf e = none := by
  have hnone := tlE1_broad hC Eg e
  have : sumO (osc.map fun o => tlE1 o Eg e) = none := by
    by_contra hc
    have h1 := sumO_isSome.mp (Option.isSome_iff_ne_none.mpr hc) (tlE1 o Eg e)
      (List.mem_map.mpr ⟨o, ho, rfl⟩)
    rw [hnone] at h1
    simp at h1
  simp [tlEps, tlParts, this]

/-- Such a choice inside the documented domain: `En = 3.5`, `C = 6`, `Eg = 1.5`. -/
example : (0 : ℝ) < 6 ∧ (6 : ℝ) < 2 * 3.5 ∧ (1.5 : ℝ) < 3.5 ∧ 2 * (3.5 : ℝ) ^ 2 < 6 ^ 2 := by
  norm_num

theorem tlE1_gap (o : ℝ × ℝ × ℝ) (Eg : ℝ) : tlE1 o Eg Eg = none := by
  by_contra hc
  obtain ⟨v, hv⟩ := Option.ne_none_iff_exists'.mp hc
  obtain ⟨_, _, hv⟩ := bind_some hv
  obtain ⟨_, _, hv⟩ := bind_some hv
  obtain ⟨_, _, hv⟩ := bind_some hv
  obtain ⟨_, _, hv⟩ := bind_some hv
  obtain ⟨_, _, hv⟩ := bind_some hv
  obtain ⟨_, _, hv⟩ := bind_some hv
  obtain ⟨_, _, hv⟩ := bind_some hv
  obtain ⟨_, _, hv⟩ := bind_some hv
  obtain ⟨_, _, hv⟩ := bind_some hv
  obtain ⟨_, _, hv⟩ := bind_some hv
  obtain ⟨_, _, hv⟩ := bind_some hv
  obtain ⟨d, hd, hv⟩ := bind_some hv
  obtain ⟨l, hl, _⟩ := bind_some hv
  obtain ⟨-, rfl⟩ := rdiv_eq_some.mp hd
  simp [rlog] at hl

/-- C53 is false of the code at the gap energy itself (logarithm of zero). -/
theorem C53_fails_gap {osc : List (ℝ × ℝ × ℝ)} (hne : osc ≠ []) {Eg : ℝ} (einf : ℝ) :
    tlEps osc Eg einf Eg = none := by
  cases osc with
  | nil => exact absurd rfl hne
  | cons o t =>
    simp [tlEps, tlParts, sumO, tlE1_gap]

/-! ### C55: principal root -/

/-- C55: for oscillator materials the squared index is the dielectric function at the converted
energy, `n ≥ 0`, and a non-negative imaginary part of ε gives `k ≥ 0` (`+0` on the negative real
axis as for `C51_index_passive`). -/
theorem C55_principal_root (z : SqrtOracle) (hz : ∀ s w, z s w = true) {s : Scat}
    (hs : (∃ wl osc einf, s = .lorentz wl osc einf) ∨ (∃ wl osc einf, s = .gauss wl osc einf) ∨
      (∃ wl osc Eg einf, s = .tauc wl osc Eg einf)) {w : ℝ} (hw : w ≠ 0) :
    (∀ N, s.complex z (some w) = some N → ∃ e v, nmEV w = some e ∧ s.epsilon e = some v ∧
      N ^ 2 = v ∧ 0 ≤ N.re ∧ (0 ≤ v.im → 0 ≤ N.im)) ∧
    (∀ e v, nmEV w = some e → s.epsilon e = some v → ∃ N, s.complex z (some w) = some N) := by
  have hc : s.complex z (some w) = (nmEV w).bind fun e => (s.epsilon e).bind fun v =>
      some (npSqrt (z s w) v) := by
    rcases hs with ⟨wl, osc, einf, rfl⟩ | ⟨wl, osc, einf, rfl⟩ | ⟨wl, osc, Eg, einf, rfl⟩ <;>
      simp only [Scat.complex, Scat.at, Scat.ownWav, pick_ne hw] <;> rfl
  rw [hc]
  constructor
  · intro N hN
    cases he : nmEV w with
    | none => simp [he] at hN
    | some e =>
      cases hv : s.epsilon e with
      | none => simp [he, hv] at hN
      | some v =>
        simp [he, hv] at hN
        refine ⟨e, v, rfl, hv, ?_, ?_, ?_⟩
        · rw [← hN, npSqrt_sq]
        · rw [← hN]; exact npSqrt_re_nonneg _ _
        · intro him
          rw [← hN]
          exact (npSqrt_passive him (hz _ _)).2
  · intro e v he hv
    exact ⟨npSqrt (z s w) v, by simp [he, hv]⟩

example : ∃ v, (Scat.lorentz 658 [(5, 0.25, 2)] 1).epsilon 1.88 = some v :=
  C51_finite 1 (by simp; norm_num)

/-! ### C56 -/

/-- C56: construction fails, with `ValueError`, exactly when the list lengths differ; otherwise it
pairs the i-th entries. -/
theorem C56_lengths (a b c : List ℝ) :
    (oscillators a b c = .error .valueError ↔ ¬ (a.length = b.length ∧ b.length = c.length)) ∧
    (∀ o, oscillators a b c = .ok o → o.length = a.length ∧ o.length = b.length ∧
      o.length = c.length ∧ o.map (·.1) = a ∧ o.map (·.2.1) = b ∧ o.map (·.2.2) = c) := by
  unfold oscillators
  split_ifs with h
  · refine ⟨by simp [h], ?_⟩
    intro o ho
    simp only [Except.ok.injEq] at ho
    subst ho
    obtain ⟨h1, h2⟩ := h
    have hl : (b.zip c).length = b.length := by simp [h2]
    refine ⟨by simp [h1, h2], by simp [h1, h2], by simp [h1, h2], ?_, ?_, ?_⟩
    · exact List.map_fst_zip (by omega)
    · have : (a.zip (b.zip c)).map (fun x => x.2.1) = ((a.zip (b.zip c)).map Prod.snd).map Prod.fst
        := by simp [List.map_map, Function.comp_def]
      rw [this, List.map_snd_zip (by omega), List.map_fst_zip (by omega)]
    · have : (a.zip (b.zip c)).map (fun x => x.2.2) = ((a.zip (b.zip c)).map Prod.snd).map Prod.snd
        := by simp [List.map_map, Function.comp_def]
      rw [this, List.map_snd_zip (by omega), List.map_snd_zip (by omega)]
  · exact ⟨by simp [h], by simp⟩

example : oscillators [5, 10] [0.25, 0.5] [2] = .error .valueError := by simp [oscillators]

end Verif.Disp
