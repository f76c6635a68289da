import Verif.TMM.LayeredSpec
import Verif.TMM.GradedLimit
import Verif.Chernoff
import Mathlib.Analysis.Normed.Operator.NormedSpace
import Mathlib.Analysis.Normed.Operator.Mul

/-! # Lemmas on films made of many thin layers (C156) -/

namespace Verif.TMM

open Complex (I)
open Set Filter Topology
open scoped ComplexConjugate

/-- Linear maps of the tangential fields. -/
abbrev FieldMap := ℂ × ℂ →L[ℂ] ℂ × ℂ

theorem zeroC_smul (x : FieldMap) : (0 : ℂ) • x = 0 := zero_smul ℂ x
theorem zeroR_smul (x : FieldMap) : (0 : ℝ) • x = 0 := zero_smul ℝ x

/-- `(x, y) ↦ (a y, b x)`. -/
noncomputable def swapMap (a b : ℂ) : FieldMap :=
  (a • ContinuousLinearMap.snd ℂ ℂ ℂ).prod (b • ContinuousLinearMap.fst ℂ ℂ ℂ)

theorem swapMap_apply (a b : ℂ) (u : ℂ × ℂ) : swapMap a b u = (a * u.2, b * u.1) := rfl

theorem swapMap_add (a b a' b' : ℂ) : swapMap a b + swapMap a' b' = swapMap (a + a') (b + b') := by
  apply ContinuousLinearMap.ext; intro u
  simp only [add_apply, swapMap_apply, Prod.mk_add_mk, add_mul]

theorem swapMap_smul (c a b : ℂ) : c • swapMap a b = swapMap (c * a) (c * b) := by
  apply ContinuousLinearMap.ext; intro u
  simp only [smul_apply, swapMap_apply, Prod.smul_mk, smul_eq_mul, mul_assoc]

/-- Right-hand side of Maxwell's equations for a coordinate that grows towards the front. -/
noncomputable def genMap (k : ℝ) (a b : ℂ) : FieldMap := swapMap (-(I * k * a)) (-(I * k * b))

theorem genMap_add (k : ℝ) (a b a' b' : ℂ) : genMap k a b + genMap k a' b' = genMap k (a + a') (b + b') := by
  unfold genMap; rw [swapMap_add]; congr 1 <;> ring

theorem genMap_smul (k : ℝ) (c a b : ℂ) : c • genMap k a b = genMap k (c * a) (c * b) := by
  unfold genMap; rw [swapMap_smul]; congr 1 <;> ring

/-- `across` as a linear map. -/
noncomputable def acrossMap (pol : Pol) (s n q δ : ℂ) : FieldMap :=
  Complex.cos δ • (1 : FieldMap) + Complex.sin δ • swapMap (-(I * (coefA pol n / q))) (-(I * (coefB pol s n / q)))

theorem acrossMap_apply (pol : Pol) (s n q δ : ℂ) (u : ℂ × ℂ) : acrossMap pol s n q δ u = across pol s n q δ u := by
  simp only [acrossMap, across, add_apply, smul_apply,
    one_apply_eq_self, swapMap_apply]
  ext <;> simp <;> ring

/-- `n cos` as the code chooses it. -/
noncomputable def qCode (s n : ℂ) : ℂ := n * root1m (s / n)

/-- One period of thickness `x`. -/
noncomputable def cellMap (pol : Pol) (s : ℂ) (k : ℝ) (cell : List (ℂ × ℝ)) (x : ℝ) : FieldMap :=
  (cell.map fun c => acrossMap pol s c.1 (qCode s c.1) (k * qCode s c.1 * ((c.2 * x : ℝ) : ℂ))).prod

theorem cellMap_cons (pol : Pol) (s : ℂ) (k : ℝ) (c : ℂ × ℝ) (cell : List (ℂ × ℝ)) (x : ℝ) :
    cellMap pol s k (c :: cell) x =
      acrossMap pol s c.1 (qCode s c.1) (k * qCode s c.1 * ((c.2 * x : ℝ) : ℂ)) * cellMap pol s k cell x := by
  simp [cellMap]

theorem cellMap_zero (pol : Pol) (s : ℂ) (k : ℝ) (cell : List (ℂ × ℝ)) : cellMap pol s k cell 0 = 1 := by
  induction cell with
  | nil => simp [cellMap]
  | cons c cell ih => rw [cellMap_cons, ih]; simp [acrossMap, zeroC_smul]

/-- Means of the coefficients. -/
noncomputable def meanA (pol : Pol) (cell : List (ℂ × ℝ)) : ℂ := (cell.map fun c => (c.2 : ℂ) * coefA pol c.1).sum
noncomputable def meanB (pol : Pol) (s : ℂ) (cell : List (ℂ × ℝ)) : ℂ :=
  (cell.map fun c => (c.2 : ℂ) * coefB pol s c.1).sum

theorem acrossMap_deriv {pol : Pol} {s n q : ℂ} {k f : ℝ} (hq : q ≠ 0) :
    HasDerivAt (fun x : ℝ => acrossMap pol s n q (k * q * ((f * x : ℝ) : ℂ)))
      ((f : ℂ) • genMap k (coefA pol n) (coefB pol s n)) 0 := by
  have hδ : HasDerivAt (fun x : ℝ => k * q * ((f * x : ℝ) : ℂ)) (k * q * f) 0 := by
    have h1 : HasDerivAt (fun x : ℝ => f * x) f 0 := by simpa using (hasDerivAt_id (0 : ℝ)).const_mul f
    exact (h1.ofReal_comp).const_mul _
  have hcos := (Complex.hasDerivAt_cos (k * q * ((f * 0 : ℝ) : ℂ))).comp (0 : ℝ) hδ
  have hsin := (Complex.hasDerivAt_sin (k * q * ((f * 0 : ℝ) : ℂ))).comp (0 : ℝ) hδ
  have h := (hcos.smul_const (1 : FieldMap)).add
    (hsin.smul_const (swapMap (-(I * (coefA pol n / q))) (-(I * (coefB pol s n / q)))))
  refine h.congr_deriv ?_
  simp only [mul_zero, Complex.ofReal_zero, Complex.sin_zero, Complex.cos_zero, neg_zero, zero_mul, zeroC_smul,
    zero_add, one_mul]
  rw [swapMap_smul, genMap_smul]
  unfold genMap
  congr 1 <;> field_simp

theorem cellMap_deriv {pol : Pol} {s : ℂ} {k : ℝ} {cell : List (ℂ × ℝ)} (hq : ∀ c ∈ cell, qCode s c.1 ≠ 0) :
    HasDerivAt (cellMap pol s k cell) (genMap k (meanA pol cell) (meanB pol s cell)) 0 := by
  induction cell with
  | nil =>
    have e : genMap k (meanA pol []) (meanB pol s []) = 0 := by
      apply ContinuousLinearMap.ext; intro u
      simp [genMap, swapMap_apply, meanA, meanB]
    rw [e]
    exact hasDerivAt_const 0 (1 : FieldMap)
  | cons c cell ih =>
    have h1 := acrossMap_deriv (pol := pol) (s := s) (n := c.1) (k := k) (f := c.2) (hq c (by simp))
    have h2 := ih fun c hc => hq c (by simp [hc])
    have h3 := h1.mul h2
    rw [cellMap_zero] at h3
    have e : cellMap pol s k (c :: cell) =
        (fun x : ℝ => acrossMap pol s c.1 (qCode s c.1) (k * qCode s c.1 * ((c.2 * x : ℝ) : ℂ))) * cellMap pol s k cell := by
      funext x; rw [cellMap_cons]; rfl
    rw [e]
    refine h3.congr_deriv ?_
    have e1 : acrossMap pol s c.1 (qCode s c.1) (k * qCode s c.1 * ((c.2 * 0 : ℝ) : ℂ)) = 1 := by simp [acrossMap, zeroC_smul]
    rw [e1, mul_one, one_mul, genMap_smul, genMap_add]
    simp [meanA, meanB]

/-- The films of a period. -/
theorem acrossAll_cell (pol : Pol) (s : ℂ) (lam : ℝ) (cell : List (ℂ × ℝ)) (d : ℝ) (u : ℂ × ℂ) :
    acrossAll pol s ((cell.map fun c => (c.1, c.2 * d)).map (fullMed s lam)) u =
      cellMap pol s (2 * Real.pi / lam) cell d u := by
  induction cell with
  | nil => simp [acrossAll, cellMap]
  | cons c cell ih =>
    rw [cellMap_cons, mul_apply_eq_comp, ← ih, acrossMap_apply]
    have : acrossAll pol s (((c :: cell).map fun c => (c.1, c.2 * d)).map (fullMed s lam)) u =
      across pol s c.1 (c.1 * root1m (s / c.1)) (2 * Real.pi * c.1 * root1m (s / c.1) / lam * (c.2 * d : ℝ))
        (acrossAll pol s ((cell.map fun c => (c.1, c.2 * d)).map (fullMed s lam)) u) := rfl
    rw [this]
    unfold qCode
    congr 1
    push_cast; ring

theorem acrossAll_periods (pol : Pol) (s : ℂ) (lam : ℝ) (cell : List (ℂ × ℝ)) (d : ℝ) (N : ℕ) (u : ℂ × ℂ) :
    acrossAll pol s ((periods cell d N).map (fullMed s lam)) u =
      (cellMap pol s (2 * Real.pi / lam) cell d ^ N) u := by
  induction N with
  | zero => simp [periods, acrossAll]
  | succ N ih =>
    rw [pow_succ', mul_apply_eq_comp, ← ih, ← acrossAll_cell, ← acrossAll_append, ← List.map_append]
    rfl

/-- Many thin periods. -/
theorem periods_tendsto {pol : Pol} {s : ℂ} {lam : ℝ} {cell : List (ℂ × ℝ)} (hq : ∀ c ∈ cell, qCode s c.1 ≠ 0) (D : ℝ)
    (u : ℂ × ℂ) :
    Tendsto (fun N : ℕ => acrossAll pol s ((periods cell (D / N) N).map (fullMed s lam)) u) atTop
      (𝓝 (NormedSpace.exp (D • genMap (2 * Real.pi / lam) (meanA pol cell) (meanB pol s cell)) u)) := by
  simp only [acrossAll_periods]
  have h := tendsto_pow_exp (cellMap_zero pol s (2 * Real.pi / lam) cell) (cellMap_deriv hq) D
  exact ((ContinuousLinearMap.apply ℂ (ℂ × ℂ) u).continuous.tendsto _).comp h

/-- Growth of the field towards the front. -/
theorem exp_deriv (G : FieldMap) (u : ℂ × ℂ) (x : ℝ) : HasDerivAt (fun x : ℝ => NormedSpace.exp (x • G) u)
    (G (NormedSpace.exp (x • G) u)) x := by
  have h := hasDerivAt_exp_smul_const' (𝕂 := ℝ) G x
  exact ((ContinuousLinearMap.apply ℂ (ℂ × ℂ) u).restrictScalars ℝ).hasFDerivAt.comp_hasDerivAt x h

/-- It is the only one. -/
theorem exp_unique {G : FieldMap} {D : ℝ} (hD : 0 ≤ D) {V : ℝ → ℂ × ℂ}
    (hV : ∀ τ ∈ Icc 0 D, HasDerivWithinAt V (G (V τ)) (Icc 0 D) τ) : V D = NormedSpace.exp (D • G) (V 0) := by
  have right : ∀ {U : ℝ → ℂ × ℂ} {U' : ℂ × ℂ} {τ : ℝ}, τ ∈ Ico 0 D → HasDerivWithinAt U U' (Icc 0 D) τ →
      HasDerivWithinAt U U' (Ici τ) τ := by
    intro U U' τ hτ hU
    refine hU.mono_of_mem_nhdsWithin ?_
    filter_upwards [self_mem_nhdsWithin, mem_nhdsWithin_of_mem_nhds (Iio_mem_nhds hτ.2)] with x hx hx'
    exact ⟨le_trans hτ.1 hx, le_of_lt hx'⟩
  have hE := fun τ => exp_deriv G (V 0) τ
  have := ODE_solution_unique_of_mem_Icc_right (v := fun _ => G) (s := fun _ => univ) (K := ‖G‖₊) (f := V)
    (g := fun τ => NormedSpace.exp (τ • G) (V 0)) (a := 0) (b := D)
    (fun τ _ => G.lipschitz.lipschitzOnWith) (fun τ hτ => (hV τ hτ).continuousWithinAt)
    (fun τ hτ => right hτ (hV τ (Ico_subset_Icc_self hτ))) (fun _ _ => trivial)
    (fun τ _ => (hE τ).continuousAt.continuousWithinAt) (fun τ _ => (hE τ).hasDerivWithinAt)
    (fun _ _ => trivial) (by simp [zeroR_smul])
  exact this (right_mem_Icc.mpr hD)

/-- A film as an exponential. -/
theorem across_exp {pol : Pol} {s n q : ℂ} {k D : ℝ} (hD : 0 ≤ D) (hn : n ≠ 0) (hq0 : q ≠ 0)
    (hq : q ^ 2 = n ^ 2 - s ^ 2) (u : ℂ × ℂ) :
    across pol s n q (k * q * D) u = NormedSpace.exp (D • genMap k (coefA pol n) (coefB pol s n)) u := by
  have h := exp_unique (G := genMap k (coefA pol n) (coefB pol s n)) hD
    (V := fun x : ℝ => across pol s n q (k * q * x) u) (fun τ _ => by
      refine (across_deriv (pol := pol) (k := k) hn hq0 hq u τ).hasDerivWithinAt.congr_deriv ?_
      simp [genMap, swapMap_apply, gen])
  simpa [across] using h

theorem power_deriv (a b : ℂ) (k : ℝ) (u : ℂ × ℂ) (τ : ℝ) :
    HasDerivAt (fun τ : ℝ => power (NormedSpace.exp (τ • genMap k a b) u))
      (k * (a.im * Complex.normSq (NormedSpace.exp (τ • genMap k a b) u).2 +
        b.im * Complex.normSq (NormedSpace.exp (τ • genMap k a b) u).1)) τ := by
  set V : ℝ → ℂ × ℂ := fun x => NormedSpace.exp (x • genMap k a b) u with hVdef
  have h := exp_deriv (genMap k a b) u τ
  have h1 := (ContinuousLinearMap.fst ℝ ℂ ℂ).hasFDerivAt.comp_hasDerivAt τ h
  have h2 := (ContinuousLinearMap.snd ℝ ℂ ℂ).hasFDerivAt.comp_hasDerivAt τ h
  have h2' := Complex.conjCLE.toContinuousLinearMap.hasFDerivAt.comp_hasDerivAt τ h2
  have h4 := Complex.reCLM.hasFDerivAt.comp_hasDerivAt τ (h1.mul h2')
  refine h4.congr_deriv ?_
  change Complex.reCLM ((genMap k a b (V τ)).1 * conj (V τ).2 + (V τ).1 * conj (genMap k a b (V τ)).2) =
    k * (a.im * Complex.normSq (V τ).2 + b.im * Complex.normSq (V τ).1)
  simp only [genMap, swapMap_apply, Complex.reCLM_apply, Complex.add_re, Complex.mul_re, Complex.neg_re,
    Complex.neg_im, Complex.mul_im, Complex.I_re, Complex.I_im, Complex.ofReal_re, Complex.ofReal_im,
    Complex.normSq_apply, Complex.conj_re, Complex.conj_im, map_neg, map_mul]
  ring

theorem power_mono {a b : ℂ} {k : ℝ} (hk : 0 ≤ k) (ha : 0 ≤ a.im) (hb : 0 ≤ b.im) (u : ℂ × ℂ) :
    Monotone fun τ : ℝ => power (NormedSpace.exp (τ • genMap k a b) u) := by
  refine monotone_of_hasDerivAt_nonneg (power_deriv a b k u) fun τ => ?_
  have := Complex.normSq_nonneg (NormedSpace.exp (τ • genMap k a b) u).1
  have := Complex.normSq_nonneg (NormedSpace.exp (τ • genMap k a b) u).2
  show (0 : ℝ) ≤ _
  positivity

/-- Power does not grow on the way through. -/
theorem power_exp {a b : ℂ} {k D : ℝ} (hD : 0 ≤ D) (hk : 0 ≤ k) (ha : 0 ≤ a.im) (hb : 0 ≤ b.im) (u : ℂ × ℂ) :
    power u ≤ power (NormedSpace.exp (D • genMap k a b) u) := by
  have := power_mono hk ha hb u hD
  simpa [zeroR_smul] using this

theorem exp_eq_zero {G : FieldMap} {u : ℂ × ℂ} (h : NormedSpace.exp G u = 0) : u = 0 := by
  have e : NormedSpace.exp (-G) * NormedSpace.exp G = 1 := by
    let _ : NormedAlgebra ℚ FieldMap := NormedAlgebra.restrictScalars ℚ ℝ FieldMap
    rw [← NormedSpace.exp_add_of_commute ((Commute.refl G).neg_left), neg_add_cancel, NormedSpace.exp_zero]
  have := congrArg (fun T : FieldMap => T u) e
  simp only [mul_apply_eq_comp, h, map_zero, one_apply_eq_self] at this
  exact this.symm

/-- A film that absorbs takes up some power. -/
theorem power_exp_lt {a b : ℂ} {k D : ℝ} (hD : 0 < D) (hk : 0 < k) (ha : 0 ≤ a.im) (hb : 0 ≤ b.im)
    (hab : (0 < a.im ∧ b ≠ 0) ∨ (0 < b.im ∧ a ≠ 0)) {u : ℂ × ℂ} (hu : u ≠ 0) :
    power u < power (NormedSpace.exp (D • genMap k a b) u) := by
  refine lt_of_le_of_ne (power_exp hD.le hk.le ha hb u) fun heq => ?_
  set V : ℝ → ℂ × ℂ := fun x => NormedSpace.exp (x • genMap k a b) u with hVdef
  have hm : Monotone fun τ => power (V τ) := power_mono hk.le ha hb u
  have h0 : V 0 = u := by simp [hVdef, zeroR_smul]
  have hconst : ∀ τ ∈ Ioo 0 D, power (V τ) = power u := by
    intro τ hτ
    have h1 := hm hτ.1.le
    have h2 := hm hτ.2.le
    simp only [h0] at h1
    refine le_antisymm (h2.trans (le_of_eq heq.symm)) h1
  have hz : ∀ τ ∈ Ioo 0 D, a.im * Complex.normSq (V τ).2 + b.im * Complex.normSq (V τ).1 = 0 := by
    intro τ hτ
    have h1 : HasDerivAt (fun τ => power (V τ)) 0 τ := by
      refine (hasDerivAt_const τ (power u)).congr_of_eventuallyEq ?_
      filter_upwards [Ioo_mem_nhds hτ.1 hτ.2] with x hx using hconst x hx
    have h2 := (power_deriv a b k u τ).unique h1
    exact (mul_eq_zero.mp h2).resolve_left hk.ne'
  have hmid : D / 2 ∈ Ioo 0 D := ⟨by linarith, by linarith⟩
  have hV : ∀ x, HasDerivAt V (genMap k a b (V x)) x := fun x => exp_deriv (genMap k a b) u x
  have hIk : I * (k : ℂ) ≠ 0 := mul_ne_zero Complex.I_ne_zero (Complex.ofReal_ne_zero.mpr hk.ne')
  have hzero : V (D / 2) = 0 := by
    rcases hab with ⟨h1, h2⟩ | ⟨h1, h2⟩
    · have hY : ∀ τ ∈ Ioo 0 D, (V τ).2 = 0 := by
        intro τ hτ
        have h3 := hz τ hτ
        have h4 := Complex.normSq_nonneg (V τ).2
        have h5 := mul_nonneg hb (Complex.normSq_nonneg (V τ).1)
        have h6 : a.im * Complex.normSq (V τ).2 = 0 := le_antisymm (by linarith) (by positivity)
        exact Complex.normSq_eq_zero.mp ((mul_eq_zero.mp h6).resolve_left h1.ne')
      have d1 := (ContinuousLinearMap.snd ℝ ℂ ℂ).hasFDerivAt.comp_hasDerivAt (D / 2) (hV (D / 2))
      have d2 : HasDerivAt (fun τ => (V τ).2) 0 (D / 2) := by
        refine (hasDerivAt_const (D / 2) (0 : ℂ)).congr_of_eventuallyEq ?_
        filter_upwards [Ioo_mem_nhds hmid.1 hmid.2] with x hx using hY x hx
      have d3 := d1.unique d2
      simp only [ContinuousLinearMap.coe_snd', genMap, swapMap_apply, neg_mul, neg_eq_zero] at d3
      have d4 := (mul_eq_zero.mp d3).resolve_left (mul_ne_zero hIk h2)
      exact Prod.ext d4 (hY _ hmid)
    · have hX : ∀ τ ∈ Ioo 0 D, (V τ).1 = 0 := by
        intro τ hτ
        have h3 := hz τ hτ
        have h4 := Complex.normSq_nonneg (V τ).1
        have h5 := mul_nonneg ha (Complex.normSq_nonneg (V τ).2)
        have h6 : b.im * Complex.normSq (V τ).1 = 0 := le_antisymm (by linarith) (by positivity)
        exact Complex.normSq_eq_zero.mp ((mul_eq_zero.mp h6).resolve_left h1.ne')
      have d1 := (ContinuousLinearMap.fst ℝ ℂ ℂ).hasFDerivAt.comp_hasDerivAt (D / 2) (hV (D / 2))
      have d2 : HasDerivAt (fun τ => (V τ).1) 0 (D / 2) := by
        refine (hasDerivAt_const (D / 2) (0 : ℂ)).congr_of_eventuallyEq ?_
        filter_upwards [Ioo_mem_nhds hmid.1 hmid.2] with x hx using hX x hx
      have d3 := d1.unique d2
      simp only [ContinuousLinearMap.coe_fst', genMap, swapMap_apply, neg_mul, neg_eq_zero] at d3
      have d4 := (mul_eq_zero.mp d3).resolve_left (mul_ne_zero hIk h2)
      exact Prod.ext (hX _ hmid) d4
  exact hu (exp_eq_zero hzero)

/-- The means are the coefficients of a uniaxial medium. -/
theorem mean_uniaxial {cell : List (ℂ × ℝ)} (hsum : (cell.map fun c => c.2).sum = 1) (s : ℂ) (pol : Pol) :
    meanA pol cell = uniA pol (meanEps cell) ∧
      meanB pol s cell = uniB pol s (meanEps cell) (1 / meanInvEps cell) := by
  have h1 : (cell.map fun c => (c.2 : ℂ)).sum = 1 := by
    have := congrArg (fun x : ℝ => (x : ℂ)) hsum
    simp only [Complex.ofReal_one] at this
    rw [← this]
    clear this hsum
    induction cell with
    | nil => simp
    | cons c cell ih => simp [ih]
  have lin : ∀ (t : ℂ) (g h : ℂ × ℝ → ℂ), (cell.map fun c => g c - t * h c).sum =
      (cell.map g).sum - t * (cell.map h).sum := by
    intro t g h
    clear h1 hsum
    induction cell with
    | nil => simp
    | cons c cell ih => simp only [List.map_cons, List.sum_cons, ih]; ring
  cases pol
  · simp only [meanA, meanB, uniA, uniB, coefA, coefB, mul_one, h1, true_and]
    have e : (fun c : ℂ × ℝ => (c.2 : ℂ) * (c.1 ^ 2 - s ^ 2)) =
      fun c => (c.2 : ℂ) * c.1 ^ 2 - s ^ 2 * (c.2 : ℂ) := by funext c; ring
    rw [e, lin, h1, mul_one]; rfl
  · simp only [meanA, meanB, uniA, uniB, coefA, coefB]
    refine ⟨rfl, ?_⟩
    have e : (fun c : ℂ × ℝ => (c.2 : ℂ) * (1 - (s / c.1) ^ 2)) =
      fun c => (c.2 : ℂ) - s ^ 2 * ((c.2 : ℂ) / c.1 ^ 2) := by funext c; rw [div_pow]; ring
    rw [e, lin, h1]
    unfold meanInvEps
    rw [div_div_eq_mul_div, div_one]

theorem mean_im_nonneg {cell : List (ℂ × ℝ)} (hp : ∀ c ∈ cell, PassiveIndex c.1 ∧ 0 ≤ c.2) (s : ℝ) (pol : Pol) :
    0 ≤ (meanA pol cell).im ∧ 0 ≤ (meanB pol s cell).im := by
  induction cell with
  | nil => simp [meanA, meanB]
  | cons c cell ih =>
    obtain ⟨i1, i2⟩ := ih fun c hc => hp c (by simp [hc])
    obtain ⟨p1, p2⟩ := hp c (by simp)
    obtain ⟨j1, j2⟩ := coef_im_nonneg p1 s pol
    unfold meanA meanB at *
    simp only [List.map_cons, List.sum_cons, Complex.add_im, Complex.im_ofReal_mul]
    exact ⟨by positivity, by positivity⟩

end Verif.TMM
