import Verif.TMM.Graded
import Verif.TMM.PhysLemmas
import Mathlib.Topology.UniformSpace.HeineCantor
import Mathlib.Analysis.Calculus.Deriv.MeanValue

/-! # The limit of finer and finer slices of a graded layer (C155) -/

namespace Verif.TMM

open Complex (I)
open Set Filter Topology
open scoped ComplexConjugate

theorem finer_le {s : ℂ} {ν : ℝ → ℂ} {D η : ℝ} (hη : 0 < η) :
    finer s ν D ≤ 𝓟 {l | Slicing η 0 l D ∧ ∀ p ∈ l, ν p.2 ^ 2 ≠ s ^ 2} :=
  iInf₂_le η hη

theorem eventually_finer {s : ℂ} {ν : ℝ → ℂ} {D η : ℝ} (hη : 0 < η) :
    ∀ᶠ l in finer s ν D, Slicing η 0 l D ∧ ∀ p ∈ l, ν p.2 ^ 2 ≠ s ^ 2 :=
  finer_le hη (mem_principal_self _)

/-! ### Continuity of the coefficients -/

theorem cont_coefs {pol : Pol} {s : ℂ} {ν : ℝ → ℂ} {D : ℝ} (hν : ContinuousOn ν (Icc 0 D))
    (hn : ∀ z ∈ Icc 0 D, ν z ≠ 0) :
    ContinuousOn (fun z => (coefA pol (ν z), coefB pol s (ν z))) (Icc 0 D) := by
  cases pol
  · simp only [coefA, coefB]
    exact continuousOn_const.prodMk ((hν.pow 2).sub continuousOn_const)
  · simp only [coefA, coefB]
    exact (hν.pow 2).prodMk (continuousOn_const.sub ((continuousOn_const.div hν hn).pow 2))

theorem coefs_bound {pol : Pol} {s : ℂ} {ν : ℝ → ℂ} {D : ℝ} (hν : ContinuousOn ν (Icc 0 D))
    (hn : ∀ z ∈ Icc 0 D, ν z ≠ 0) :
    ∃ C : NNReal, ∀ z ∈ Icc 0 D, ‖coefA pol (ν z)‖ ≤ C ∧ ‖coefB pol s (ν z)‖ ≤ C := by
  obtain ⟨C, hC⟩ := isCompact_Icc.exists_bound_of_continuousOn (cont_coefs (pol := pol) (s := s) hν hn)
  refine ⟨C.toNNReal, fun z hz => ?_⟩
  have h := (hC z hz).trans (Real.le_coe_toNNReal C)
  exact ⟨(norm_fst_le _).trans h, (norm_snd_le _).trans h⟩

theorem coefs_modulus {pol : Pol} {s : ℂ} {ν : ℝ → ℂ} {D : ℝ} (hν : ContinuousOn ν (Icc 0 D))
    (hn : ∀ z ∈ Icc 0 D, ν z ≠ 0) {ω : ℝ} (hω : 0 < ω) :
    ∃ η > 0, ∀ z ∈ Icc 0 D, ∀ ξ ∈ Icc 0 D, |z - ξ| ≤ η →
      ‖coefA pol (ν z) - coefA pol (ν ξ)‖ ≤ ω ∧ ‖coefB pol s (ν z) - coefB pol s (ν ξ)‖ ≤ ω := by
  have h := isCompact_Icc.uniformContinuousOn_of_continuous (cont_coefs (pol := pol) (s := s) hν hn)
  rw [Metric.uniformContinuousOn_iff] at h
  obtain ⟨η, hη, h⟩ := h ω hω
  refine ⟨η / 2, by positivity, fun z hz ξ hξ hd => ?_⟩
  have := (h z hz ξ hξ (by rw [Real.dist_eq]; linarith)).le
  rw [dist_eq_norm] at this
  exact ⟨(norm_fst_le _).trans this, (norm_snd_le _).trans this⟩

/-! ### Existence of the fields -/

theorem graded_exists {pol : Pol} {s : ℂ} {lam D : ℝ} {ν : ℝ → ℂ} (hD : 0 ≤ D) (hlam : 0 < lam)
    (hν : ContinuousOn ν (Icc 0 D)) (hn : ∀ z ∈ Icc 0 D, ν z ≠ 0) (u : ℂ × ℂ) :
    ∃ V : ℝ → ℂ × ℂ, V 0 = u ∧
      ∀ τ ∈ Icc 0 D, HasDerivWithinAt V (gen pol s (2 * Real.pi / lam) (ν (D - τ)) (V τ)) (Icc 0 D) τ := by
  obtain ⟨C, hC⟩ := coefs_bound (pol := pol) (s := s) hν hn
  have hk : 0 ≤ 2 * Real.pi / lam := by positivity
  have hmem : ∀ τ ∈ Icc (0 : ℝ) D, D - τ ∈ Icc 0 D := fun τ hτ => ⟨by linarith [hτ.2], by linarith [hτ.1]⟩
  refine ode_exists (f := fun τ => gen pol s (2 * Real.pi / lam) (ν (D - τ))) (K := ⟨_, hk⟩ * C) hD
    (fun τ hτ => gen_lipschitz hk (hC _ (hmem τ hτ)).1 (hC _ (hmem τ hτ)).2) (fun τ _ => by simp [gen]) ?_ u
  intro x
  have hc := (cont_coefs (pol := pol) (s := s) hν hn).comp (t := Icc 0 D) (s := Icc 0 D) (f := fun τ => D - τ)
    (by fun_prop) hmem
  have h1 : ContinuousOn (fun τ => coefA pol (ν (D - τ))) (Icc 0 D) := continuous_fst.comp_continuousOn hc
  have h2 : ContinuousOn (fun τ => coefB pol s (ν (D - τ))) (Icc 0 D) := continuous_snd.comp_continuousOn hc
  unfold gen
  exact (((continuousOn_const.mul h1).mul continuousOn_const).neg).prodMk
    (((continuousOn_const.mul h2).mul continuousOn_const).neg)

/-- The fields of finer and finer slices approach those of the graded layer. -/
theorem slices_tendsto {pol : Pol} {s : ℂ} {lam D : ℝ} {ν : ℝ → ℂ} (hlam : 0 < lam)
    (hν : ContinuousOn ν (Icc 0 D)) (hn : ∀ z ∈ Icc 0 D, ν z ≠ 0) {V : ℝ → ℂ × ℂ}
    (hV : ∀ τ ∈ Icc 0 D, HasDerivWithinAt V (gen pol s (2 * Real.pi / lam) (ν (D - τ)) (V τ)) (Icc 0 D) τ) :
    Tendsto (fun l => acrossAll pol s ((sliceFilms ν l).map (fullMed s lam)) (V 0)) (finer s ν D) (𝓝 (V D)) := by
  obtain ⟨C, hC⟩ := coefs_bound (pol := pol) (s := s) hν hn
  have hVc : ContinuousOn V (Icc 0 D) := fun τ hτ => (hV τ hτ).continuousWithinAt
  obtain ⟨B, hB⟩ := isCompact_Icc.exists_bound_of_continuousOn hVc
  rw [Metric.tendsto_nhds]
  intro ε hε
  -- the bound tends to zero with the modulus
  have hlim : Tendsto (fun ω => gronwallBound 0 (2 * Real.pi / lam * C) (2 * Real.pi / lam * ω * B) D) (𝓝 0) (𝓝 0) := by
    have h1 := (gronwallBound_continuous_ε 0 (2 * Real.pi / lam * C) D).comp
      (show Continuous fun ω : ℝ => 2 * Real.pi / lam * ω * B by fun_prop)
    have := h1.tendsto 0
    simpa [Function.comp_def, gronwallBound_ε0_δ0] using this
  obtain ⟨ω, hω, hωε⟩ : ∃ ω > 0, gronwallBound 0 (2 * Real.pi / lam * C) (2 * Real.pi / lam * ω * B) D < ε := by
    have h1 : ∀ᶠ ω in 𝓝 (0 : ℝ), gronwallBound 0 (2 * Real.pi / lam * C) (2 * Real.pi / lam * ω * B) D < ε :=
      hlim.eventually (gt_mem_nhds hε)
    have h2 : ∀ᶠ ω in 𝓝[>] (0 : ℝ), 0 < ω ∧
        gronwallBound 0 (2 * Real.pi / lam * C) (2 * Real.pi / lam * ω * B) D < ε :=
      (eventually_mem_nhdsWithin.mono fun _ h => h).and (h1.filter_mono nhdsWithin_le_nhds)
    obtain ⟨ω, h⟩ := h2.exists
    exact ⟨ω, h.1, h.2⟩
  obtain ⟨η, hη, hmod⟩ := coefs_modulus (pol := pol) (s := s) hν hn hω
  filter_upwards [eventually_finer hη] with l hl
  have := slices_error hlam hn hC hmod hω.le hV hB le_rfl hl.1 hl.2
  rw [sub_zero] at this
  exact this.trans_lt hωε

/-! ### Power -/

/-- Normal component of the Poynting vector. -/
noncomputable def power (u : ℂ × ℂ) : ℝ := (u.1 * conj u.2).re

theorem power_tan (pol : Pol) (m : Medium) (v w : ℂ) : power (tanField pol m v w) = flux (kap pol m) v w := by
  cases pol
  · simp only [power, tanField, flux, kap, map_mul]
    congr 1; ring
  · simp only [power, tanField, flux, kap, map_mul]
    congr 1; ring

theorem power_through {pol : Pol} {u' : ℂ × ℂ} : ∀ {ms : List Medium}, (∀ m ∈ ms, Damps pol m) →
    ∀ {u : ℂ × ℂ}, Carries pol u ms u' → power u' ≤ power u := by
  intro ms
  induction ms with
  | nil => intro _ u h; rw [show u = u' from h]
  | cons m ms ih =>
    rintro h u ⟨v, w, rfl, h2⟩
    refine (ih (fun m hm => h m (by simp [hm])) h2).trans ?_
    rw [power_tan, power_tan]
    exact flux_prop_le (h m (by simp)) v w

theorem sq_im_nonneg {n : ℂ} (hn : PassiveIndex n) : 0 ≤ (n ^ 2).im := by
  have := mul_nonneg hn.1.le hn.2
  rw [sq, Complex.mul_im]; linarith

theorem coef_im_nonneg {n : ℂ} (hn : PassiveIndex n) (s : ℝ) (pol : Pol) :
    0 ≤ (coefA pol n).im ∧ 0 ≤ (coefB pol s n).im := by
  have h := sq_im_nonneg hn
  cases pol
  · simp only [coefA, coefB]
    refine ⟨by simp, ?_⟩
    rw [Complex.sub_im, ← Complex.ofReal_pow, Complex.ofReal_im]; linarith
  · simp only [coefA, coefB]
    refine ⟨h, ?_⟩
    rw [Complex.sub_im, Complex.one_im, div_pow, ← Complex.ofReal_pow, Complex.div_im]
    simp only [Complex.ofReal_im, Complex.ofReal_re, zero_mul, zero_div, zero_sub, neg_neg]
    have := Complex.normSq_nonneg (n ^ 2)
    positivity

/-- Power does not grow on the way through a graded layer. -/
theorem power_graded {pol : Pol} {s lam D : ℝ} {ν : ℝ → ℂ} (hD : 0 ≤ D) (hlam : 0 < lam)
    (hp : ∀ z ∈ Icc 0 D, PassiveIndex (ν z)) {V : ℝ → ℂ × ℂ}
    (hV : ∀ τ ∈ Icc 0 D, HasDerivWithinAt V (gen pol s (2 * Real.pi / lam) (ν (D - τ)) (V τ)) (Icc 0 D) τ) :
    power (V 0) ≤ power (V D) := by
  have hk : 0 ≤ 2 * Real.pi / lam := by positivity
  have hd : ∀ τ ∈ Icc 0 D, HasDerivWithinAt (fun τ => power (V τ))
      (2 * Real.pi / lam * ((coefA pol (ν (D - τ))).im * Complex.normSq (V τ).2 +
        (coefB pol s (ν (D - τ))).im * Complex.normSq (V τ).1)) (Icc 0 D) τ := by
    intro τ hτ
    have h := hV τ hτ
    have h1 : HasDerivWithinAt (fun τ => (V τ).1) (gen pol s (2 * Real.pi / lam) (ν (D - τ)) (V τ)).1 (Icc 0 D) τ := h.fst
    have h2 : HasDerivWithinAt (fun τ => (V τ).2) (gen pol s (2 * Real.pi / lam) (ν (D - τ)) (V τ)).2 (Icc 0 D) τ := h.snd
    have h2' : HasDerivWithinAt (fun τ => conj (V τ).2)
        (conj (gen pol s (2 * Real.pi / lam) (ν (D - τ)) (V τ)).2) (Icc 0 D) τ :=
      Complex.conjCLE.toContinuousLinearMap.hasFDerivAt.comp_hasDerivWithinAt τ h2
    have h3 := h1.mul h2'
    have h4 := (Complex.reCLM.hasFDerivAt.comp_hasDerivWithinAt τ h3)
    refine h4.congr_deriv ?_
    simp only [gen, Complex.reCLM_apply, Complex.add_re, Complex.mul_re, Complex.neg_re, Complex.neg_im, Complex.mul_im,
      Complex.I_re, Complex.I_im, Complex.ofReal_re, Complex.ofReal_im, Complex.normSq_apply,
      Complex.conj_re, Complex.conj_im, map_neg, map_mul]
    ring
  have hm := monotoneOn_of_hasDerivWithinAt_nonneg (convex_Icc 0 D)
    (fun τ hτ => (hd τ hτ).continuousWithinAt)
    (fun τ hτ => (hd τ (interior_subset hτ)).mono interior_subset) (fun τ hτ => by
      have hτ' := interior_subset hτ
      obtain ⟨i1, i2⟩ := coef_im_nonneg (hp (D - τ) ⟨by linarith [hτ'.2], by linarith [hτ'.1]⟩) s pol
      have := Complex.normSq_nonneg (V τ).1
      have := Complex.normSq_nonneg (V τ).2
      positivity)
  exact hm (left_mem_Icc.mpr hD) (right_mem_Icc.mpr hD) hD

/-! ### Fields do not vanish on the way -/

theorem across_eq_zero {pol : Pol} {s n q δ : ℂ} (hn : n ≠ 0) (hq0 : q ≠ 0) (hq : q ^ 2 = n ^ 2 - s ^ 2) {u : ℂ × ℂ}
    (h : across pol s n q δ u = 0) : u = 0 := by
  have hab := coefAB hn hq pol
  have e : coefA pol n / q * (coefB pol s n / q) = 1 := by
    rw [div_mul_div_comm, hab, ← sq, div_self (pow_ne_zero 2 hq0)]
  have h1 := congrArg Prod.fst h
  have h2 := congrArg Prod.snd h
  simp only [across, Prod.fst_zero, Prod.snd_zero] at h1 h2
  have hcs := Complex.sin_sq_add_cos_sq δ
  generalize coefA pol n / q = a at *
  generalize coefB pol s n / q = b at *
  ext
  · simp only [Prod.fst_zero]
    linear_combination Complex.cos δ * h1 + I * a * Complex.sin δ * h2 - u.1 * hcs
      + Complex.sin δ ^ 2 * u.1 * a * b * Complex.I_sq - Complex.sin δ ^ 2 * u.1 * e
  · simp only [Prod.snd_zero]
    linear_combination Complex.cos δ * h2 + I * b * Complex.sin δ * h1 - u.2 * hcs
      + Complex.sin δ ^ 2 * u.2 * a * b * Complex.I_sq - Complex.sin δ ^ 2 * u.2 * e

theorem acrossAll_eq_zero {pol : Pol} {s : ℂ} {u : ℂ × ℂ} : ∀ {ms : List Medium},
    (∀ m ∈ ms, m.n ≠ 0 ∧ m.c ^ 2 = 1 - (s / m.n) ^ 2 ∧ m.n * m.c ≠ 0) → acrossAll pol s ms u = 0 → u = 0 := by
  intro ms
  induction ms with
  | nil => intro _ h; exact h
  | cons m ms ih =>
    intro h h0
    obtain ⟨hn, hc, hq⟩ := h m (by simp)
    refine ih (fun m hm => h m (by simp [hm])) (across_eq_zero (q := m.n * m.c) (δ := m.δ) (pol := pol) hn hq ?_ h0)
    rw [mul_pow, hc]; field_simp

theorem graded_ne_zero {pol : Pol} {s : ℂ} {lam D : ℝ} {ν : ℝ → ℂ} (hD : 0 ≤ D) (hlam : 0 < lam)
    (hν : ContinuousOn ν (Icc 0 D)) (hn : ∀ z ∈ Icc 0 D, ν z ≠ 0) {V : ℝ → ℂ × ℂ}
    (hV : ∀ τ ∈ Icc 0 D, HasDerivWithinAt V (gen pol s (2 * Real.pi / lam) (ν (D - τ)) (V τ)) (Icc 0 D) τ)
    (h : V D = 0) : V 0 = 0 := by
  obtain ⟨C, hC⟩ := coefs_bound (pol := pol) (s := s) hν hn
  have hk : 0 ≤ 2 * Real.pi / lam := by positivity
  have hmem : ∀ τ ∈ Icc (0 : ℝ) D, D - τ ∈ Icc 0 D := fun τ hτ => ⟨by linarith [hτ.2], by linarith [hτ.1]⟩
  have := ODE_solution_unique_of_mem_Icc_left (v := fun τ => gen pol s (2 * Real.pi / lam) (ν (D - τ)))
    (s := fun _ => univ) (K := ⟨_, hk⟩ * C) (f := V) (g := fun _ => 0) (a := 0) (b := D)
    (fun τ hτ => (gen_lipschitz hk (hC _ (hmem τ (Ioc_subset_Icc_self hτ))).1
      (hC _ (hmem τ (Ioc_subset_Icc_self hτ))).2).lipschitzOnWith)
    (fun τ hτ => (hV τ hτ).continuousWithinAt)
    (fun τ hτ => by
      refine (hV τ (Ioc_subset_Icc_self hτ)).mono_of_mem_nhdsWithin ?_
      filter_upwards [self_mem_nhdsWithin, mem_nhdsWithin_of_mem_nhds (Ioi_mem_nhds hτ.1)] with x hx hx'
      exact ⟨le_of_lt hx', le_trans hx hτ.2⟩)
    (fun _ _ => trivial) continuousOn_const
    (fun τ _ => by simp only [gen, Prod.fst_zero, Prod.snd_zero, mul_zero, neg_zero]; exact hasDerivWithinAt_const τ _ _)
    (fun _ _ => trivial) h
  exact this (left_mem_Icc.mpr hD)

end Verif.TMM
