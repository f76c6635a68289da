import Verif.Obj.PropsPeak

/-! # C176 for any proper priors, with or without `lnsigma`, and data that change from one repetition to the next -/

namespace Verif.Obj
open Verif.Struct Verif.TMM Verif.RModel Verif.Data Filter Topology MeasureTheory

variable {env : Env} {o : Objective}

theorem peak_ratio {X : Type*} [TopologicalSpace X] [T1Space X] [MeasurableSpace X] [OpensMeasurableSpace X]
    {μ : Measure X} {P g L : X → ℝ} {ℓ : ℕ → X → ℝ} {x0 : X} (hP : Integrable P μ) (hP0 : ∀ x, 0 ≤ P x)
    (hℓ : ∀ N, AEMeasurable (ℓ N) μ)
    (hu : ∀ η > 0, ∀ᶠ N : ℕ in atTop, ∀ x, P x ≠ 0 → |ℓ N x - N * L x| ≤ N * η)
    (hsep : ∀ U ∈ 𝓝 x0, ∃ ε > 0, ∀ x ∉ U, P x ≠ 0 → L x ≤ L x0 - ε)
    (hL : ∀ δ > 0, ∀ᶠ x in 𝓝 x0, P x ≠ 0 → L x0 - δ ≤ L x)
    (hmass : ∀ U ∈ 𝓝 x0, 0 < ∫ x in U, P x ∂μ)
    (hg : Integrable (fun x => g x * P x) μ) (hgc : ContinuousAt g x0) :
    Tendsto (fun N => (∫ x, g x * (P x * Real.exp (ℓ N x)) ∂μ) / ∫ x, P x * Real.exp (ℓ N x) ∂μ) atTop (𝓝 (g x0)) := by
  have hmax : ∀ x, P x ≠ 0 → L x ≤ L x0 := by
    intro x hx
    by_cases he : x = x0
    · rw [he]
    · obtain ⟨ε, hε, h⟩ := hsep {x}ᶜ (compl_singleton_mem_nhds (Ne.symm he))
      linarith [h x (by simp) hx]
  rw [Metric.tendsto_nhds]
  intro r hr
  obtain ⟨U, hU, hUo, hxU⟩ := mem_nhds_iff.mp (hgc.eventually (Metric.ball_mem_nhds (g x0) (half_pos hr)))
  obtain ⟨ε, hε, hout⟩ := hsep U (hUo.mem_nhds hxU)
  obtain ⟨V, hV, hVo, hxV⟩ := mem_nhds_iff.mp (hL (ε / 4) (by positivity))
  have hm := hmass V (hVo.mem_nhds hxV)
  set m := ∫ x in V, P x ∂μ
  have hgP : Integrable (fun x => |g x - g x0| * P x) μ := by
    refine (hg.sub (hP.const_mul (g x0))).abs.congr (Eventually.of_forall fun x => ?_)
    simp only [Pi.sub_apply]
    rw [← sub_mul, abs_mul, abs_of_nonneg (hP0 x)]
  set A := ∫ x, |g x - g x0| * P x ∂μ
  have hlim : Tendsto (fun N : ℕ => Real.exp (-(ε / 4) * N) * (A / m)) atTop (𝓝 0) := by
    have h1 : Tendsto (fun N : ℕ => Real.exp (-(ε / 4) * N)) atTop (𝓝 0) :=
      Real.tendsto_exp_atBot.comp (tendsto_natCast_atTop_atTop.const_mul_atTop_of_neg (by linarith))
    simpa using h1.mul_const (A / m)
  filter_upwards [hu (ε / 4) (by positivity), hlim.eventually (gt_mem_nhds (half_pos hr))] with N hN hsmall
  have hlow : ∀ x, P x ≠ 0 → N * L x - N * (ε / 4) ≤ ℓ N x := fun x hx => by linarith [(abs_le.mp (hN x hx)).1]
  have hupp : ∀ x, P x ≠ 0 → ℓ N x ≤ N * L x + N * (ε / 4) := fun x hx => by linarith [(abs_le.mp (hN x hx)).2]
  have hN0 : (0 : ℝ) ≤ N := Nat.cast_nonneg N
  have hE0 : ∀ x, 0 ≤ P x * Real.exp (ℓ N x) := fun x => mul_nonneg (hP0 x) (Real.exp_pos _).le
  have hem : AEStronglyMeasurable (fun x => Real.exp (ℓ N x)) μ :=
    (Real.measurable_exp.comp_aemeasurable (hℓ N)).aestronglyMeasurable
  have hEle : ∀ x, P x * Real.exp (ℓ N x) ≤ Real.exp (N * L x0 + N * (ε / 4)) * P x := by
    intro x
    by_cases hx : P x = 0
    · simp [hx]
    · rw [mul_comm]
      refine mul_le_mul_of_nonneg_right (Real.exp_le_exp.mpr ?_) (hP0 x)
      linarith [hupp x hx, mul_le_mul_of_nonneg_left (hmax x hx) hN0]
  have hE : Integrable (fun x => P x * Real.exp (ℓ N x)) μ := by
    refine (hP.const_mul (Real.exp (N * L x0 + N * (ε / 4)))).mono' (hP.aestronglyMeasurable.mul hem)
      (Eventually.of_forall fun x => ?_)
    rw [Real.norm_of_nonneg (hE0 x)]
    exact hEle x
  have hgE : Integrable (fun x => g x * (P x * Real.exp (ℓ N x))) μ := by
    refine (hg.norm.const_mul (Real.exp (N * L x0 + N * (ε / 4)))).mono'
      ((hg.aestronglyMeasurable.mul hem).congr (Eventually.of_forall fun x => by simp only [Pi.mul_apply]; ring))
      (Eventually.of_forall fun x => ?_)
    rw [norm_mul (g x), norm_mul (g x), Real.norm_of_nonneg (hE0 x), Real.norm_of_nonneg (hP0 x)]
    calc ‖g x‖ * (P x * Real.exp (ℓ N x)) ≤ ‖g x‖ * (Real.exp (N * L x0 + N * (ε / 4)) * P x) :=
          mul_le_mul_of_nonneg_left (hEle x) (norm_nonneg _)
      _ = _ := by ring
  set Z := ∫ x, P x * Real.exp (ℓ N x) ∂μ with hZ
  have hZm : Real.exp (N * L x0 - N * (ε / 2)) * m ≤ Z := by
    calc Real.exp (N * L x0 - N * (ε / 2)) * m = ∫ x in V, Real.exp (N * L x0 - N * (ε / 2)) * P x ∂μ :=
          (integral_const_mul _ _).symm
      _ ≤ ∫ x in V, P x * Real.exp (ℓ N x) ∂μ := by
          refine setIntegral_mono_on (hP.const_mul _).integrableOn hE.integrableOn hVo.measurableSet fun x hx => ?_
          by_cases h0 : P x = 0
          · simp [h0]
          · rw [mul_comm (P x)]
            refine mul_le_mul_of_nonneg_right (Real.exp_le_exp.mpr ?_) (hP0 x)
            have := mul_le_mul_of_nonneg_left (hV hx h0) hN0
            linarith [hlow x h0]
      _ ≤ Z := setIntegral_le_integral hE (Eventually.of_forall hE0)
  have hZ0 : 0 < Z := lt_of_lt_of_le (mul_pos (Real.exp_pos _) hm) hZm
  have hnum : |(∫ x, g x * (P x * Real.exp (ℓ N x)) ∂μ) - g x0 * Z| ≤
      r / 2 * Z + Real.exp (N * L x0 - N * (3 * ε / 4)) * A := by
    have e1 : (∫ x, g x * (P x * Real.exp (ℓ N x)) ∂μ) - g x0 * Z =
        ∫ x, (g x * (P x * Real.exp (ℓ N x)) - g x0 * (P x * Real.exp (ℓ N x))) ∂μ := by
      rw [integral_sub hgE (hE.const_mul _), integral_const_mul]
    rw [e1, ← Real.norm_eq_abs]
    refine (norm_integral_le_integral_norm _).trans ?_
    rw [hZ, ← integral_const_mul, ← integral_const_mul, ← integral_add (hE.const_mul _) (hgP.const_mul _)]
    refine integral_mono (hgE.sub (hE.const_mul _)).norm ((hE.const_mul _).add (hgP.const_mul _)) fun x => ?_
    beta_reduce
    rw [← sub_mul, norm_mul, Real.norm_of_nonneg (hE0 x), Real.norm_eq_abs]
    by_cases hx : x ∈ U
    · have h1 : |g x - g x0| < r / 2 := by simpa [Real.dist_eq] using hU hx
      have h2 := mul_le_mul_of_nonneg_right h1.le (hE0 x)
      have h3 : 0 ≤ Real.exp (N * L x0 - N * (3 * ε / 4)) * (|g x - g x0| * P x) :=
        mul_nonneg (Real.exp_pos _).le (mul_nonneg (abs_nonneg _) (hP0 x))
      linarith
    · by_cases h0 : P x = 0
      · simp [h0]
      · have h1 : P x * Real.exp (ℓ N x) ≤ Real.exp (N * L x0 - N * (3 * ε / 4)) * P x := by
          rw [mul_comm]
          refine mul_le_mul_of_nonneg_right (Real.exp_le_exp.mpr ?_) (hP0 x)
          have := mul_le_mul_of_nonneg_left (hout x hx h0) hN0
          linarith [hupp x h0]
        have h2 := mul_le_mul_of_nonneg_left h1 (abs_nonneg (g x - g x0))
        have h3 : 0 ≤ r / 2 * (P x * Real.exp (ℓ N x)) := mul_nonneg (half_pos hr).le (hE0 x)
        linarith
  have hA0 : 0 ≤ A := integral_nonneg fun x => mul_nonneg (abs_nonneg _) (hP0 x)
  have hfrac : Real.exp (N * L x0 - N * (3 * ε / 4)) * A ≤ Real.exp (-(ε / 4) * N) * (A / m) * Z := by
    have e2 : Real.exp (N * L x0 - N * (3 * ε / 4)) =
        Real.exp (-(ε / 4) * N) * Real.exp (N * L x0 - N * (ε / 2)) := by
      rw [← Real.exp_add]
      congr 1
      ring
    have e3 : Real.exp (N * L x0 - N * (3 * ε / 4)) * A =
        Real.exp (-(ε / 4) * N) * (A / m) * (Real.exp (N * L x0 - N * (ε / 2)) * m) := by
      rw [e2]
      field_simp
    rw [e3]
    exact mul_le_mul_of_nonneg_left hZm (mul_nonneg (Real.exp_pos _).le (div_nonneg hA0 hm.le))
  rw [Real.dist_eq, show (∫ x, g x * (P x * Real.exp (ℓ N x)) ∂μ) / Z - g x0 =
    ((∫ x, g x * (P x * Real.exp (ℓ N x)) ∂μ) - g x0 * Z) / Z by field_simp, abs_div, abs_of_pos hZ0, div_lt_iff₀ hZ0]
  have := mul_lt_mul_of_pos_right hsmall hZ0
  linarith

theorem prior_nonneg (env : Env) (o : Objective) (st : St) {n : ℕ} (x : Fin n → ℝ) : 0 ≤ prior env o st x :=
  Finset.prod_nonneg fun _ _ => priorDensity_nonneg env _ _

theorem prior_integrable {st : St} {n : ℕ} (hn : n = (varying env o st).length)
    (h : ∀ q ∈ varying env o st, Integrable (priorDensity env q)) :
    Integrable (prior env o st : (Fin n → ℝ) → ℝ) := by
  refine Integrable.fintype_prod fun i => h _ ?_
  have hi : (i : ℕ) < (varying env o st).length := hn ▸ i.2
  rw [List.getD_eq_getElem?_getD, List.getElem?_eq_getElem hi, Option.getD_some]
  exact List.getElem_mem hi

theorem densityN_logl {st : St} {H : ℕ → Heap} {D : ℕ → DS} {n : ℕ} (hn : n = (varying env o st).length) {N : ℕ}
    {x : Fin n → ℝ} {l : ℝ} (hl : prior env o st x ≠ 0 →
      (logl env { o with data := D N } (some (List.ofFn x)) { st with heap := H N }).1 = .ok l) :
    densityN env o st H D N x = prior env o st x * Real.exp l := by
  have hlen : (List.ofFn x).length = (varying env { o with data := D N } { st with heap := H N }).length := by
    rw [List.length_ofFn]
    exact hn
  by_cases hk : ∀ i : Fin n, ∃ k, env.logp ((varying env o st).getD i 0) (x i) = some k
  · choose k hk using hk
    have hpr : prior env o st x = Real.exp (∑ i, k i) := by
      rw [prior, Real.exp_sum]
      exact Finset.prod_congr rfl fun i _ => by simp only [priorDensity, hk i]
    have h1 := hl (by rw [hpr]; exact (Real.exp_pos _).ne')
    rw [C83_vector (show setp env { o with data := D N } (some (List.ofFn x)) { st with heap := H N } = (.ok (), _) by
      rw [setp, if_pos hlen])] at h1
    have hlp := (logpost_split (o := { o with data := D N }) (st := { st with heap := H N }) hn x).mpr
      ⟨k, l, hk, by rw [setp, if_pos hlen]; exact h1, rfl⟩
    rw [densityN, density, hlp, hpr, ← Real.exp_add]
  · push Not at hk
    obtain ⟨i, hi⟩ := hk
    have h0 : prior env o st x = 0 := by
      refine Finset.prod_eq_zero (Finset.mem_univ i) ?_
      have : env.logp ((varying env o st).getD i 0) (x i) = none := by
        cases hc' : env.logp ((varying env o st).getD i 0) (x i) with
        | none => rfl
        | some k => exact absurd hc' (hi k)
      simp only [priorDensity, this]
    rw [h0, zero_mul, densityN, density]
    split
    · rename_i u hu
      obtain ⟨k, l, h1, -⟩ := (logpost_split (o := { o with data := D N }) (st := { st with heap := H N }) hn x).mp hu
      exact absurd (h1 i) (hi _)
    · rfl

/-- C176: more and more data, whatever they are: if the log-likelihood divided by their number approaches some function of
the parameters uniformly, and this function has a clear maximum (it stays below it by a margin outside of every
neighbourhood) that the priors do not exclude, then the mean over the posterior of any quantity that has a mean over the
priors approaches its value at the maximum.  The priors need only be proper, and `lnsigma` is allowed. -/
theorem C176_consistent {st : St} {H : ℕ → Heap} {D : ℕ → DS} {n : ℕ} (hn : n = (varying env o st).length)
    (hprop : ∀ q ∈ varying env o st, Integrable (priorDensity env q)) {ℓ : ℕ → (Fin n → ℝ) → ℝ} {L : (Fin n → ℝ) → ℝ}
    (hm : ∀ N, AEMeasurable (ℓ N))
    (hl : ∀ N x, prior env o st x ≠ 0 →
      (logl env { o with data := D N } (some (List.ofFn x)) { st with heap := H N }).1 = .ok (ℓ N x))
    (hu : ∀ η > 0, ∀ᶠ N : ℕ in atTop, ∀ x, prior env o st x ≠ 0 → |ℓ N x - N * L x| ≤ N * η) {x0 : Fin n → ℝ}
    (hsep : ∀ U ∈ 𝓝 x0, ∃ ε > 0, ∀ x ∉ U, prior env o st x ≠ 0 → L x ≤ L x0 - ε)
    (hL : ∀ δ > 0, ∀ᶠ x in 𝓝 x0, prior env o st x ≠ 0 → L x0 - δ ≤ L x)
    (hmass : ∀ U ∈ 𝓝 x0, 0 < ∫ x in U, prior env o st x) {g : (Fin n → ℝ) → ℝ}
    (hg : Integrable fun x => g x * prior env o st x) (hgc : ContinuousAt g x0) :
    Tendsto (fun N => (∫ x, g x * densityN env o st H D N x) / ∫ x : Fin n → ℝ, densityN env o st H D N x) atTop
      (𝓝 (g x0)) := by
  refine (peak_ratio (prior_integrable hn hprop) (prior_nonneg env o st) hm hu hsep hL hmass hg hgc).congr fun N => ?_
  have e : ∀ x, densityN env o st H D N x = prior env o st x * Real.exp (ℓ N x) := fun x => densityN_logl hn (hl N x)
  simp only [e]

/-- C176: in particular if every point is measured `N` times with the same result: with a clear maximum of the likelihood
of the points, with or without `lnsigma`, the posterior concentrates at it, whatever the proper priors. -/
theorem C176_repeated {st : St} {pts : List Pt} (hp : Presents st.heap o.data pts) {H : ℕ → Heap} {D : ℕ → DS}
    (hr : Repeated H D pts) (hw : ∀ N, (D N).weighted = o.data.weighted) {n : ℕ} (hn : n = (varying env o st).length)
    (hprop : ∀ q ∈ varying env o st, Integrable (priorDensity env q)) {L : (Fin n → ℝ) → ℝ} (hm : AEMeasurable L)
    (hl : ∀ x, prior env o st x ≠ 0 → (logl env o (some (List.ofFn x)) st).1 = .ok (L x)) {x0 : Fin n → ℝ}
    (hsep : ∀ U ∈ 𝓝 x0, ∃ ε > 0, ∀ x ∉ U, prior env o st x ≠ 0 → L x ≤ L x0 - ε)
    (hL : ∀ δ > 0, ∀ᶠ x in 𝓝 x0, prior env o st x ≠ 0 → L x0 - δ ≤ L x)
    (hmass : ∀ U ∈ 𝓝 x0, 0 < ∫ x in U, prior env o st x) {g : (Fin n → ℝ) → ℝ}
    (hg : Integrable fun x => g x * prior env o st x) (hgc : ContinuousAt g x0) :
    Tendsto (fun N => (∫ x, g x * densityN env o st H D N x) / ∫ x : Fin n → ℝ, densityN env o st H D N x) atTop
      (𝓝 (g x0)) := by
  refine C176_consistent (ℓ := fun N x => N * L x) hn hprop (fun N => hm.const_mul _) (fun N x hx => ?_)
    (fun η hη => Eventually.of_forall fun N x _ => ?_) hsep hL hmass hg hgc
  · have hset : setp env o (some (List.ofFn x)) st =
        (.ok (), { st with vals := assign (varying env o st) (List.ofFn x) st.vals }) := by
      rw [setp, if_pos (by simpa using hn)]
    have hset' : setp env { o with data := D N } (some (List.ofFn x)) { st with heap := H N } =
        (.ok (), { st with heap := H N, vals := assign (varying env o st) (List.ofFn x) st.vals }) := by
      have hv : varying env { o with data := D N } { st with heap := H N } = varying env o st := rfl
      rw [setp, if_pos (by rw [hv]; simpa using hn), hv]
    have h1 := hl x hx
    rw [C83_vector hset, logl_iff (o := o)
      (st := { st with vals := assign (varying env o st) (List.ofFn x) st.vals }) hp] at h1
    rw [C83_vector hset', logl_iff (o := { o with data := D N })
      (st := { st with heap := H N, vals := assign (varying env o st) (List.ofFn x) st.vals }) (hr N),
      show Objective.weighted { o with data := D N } = Objective.weighted o by simp [Objective.weighted, hw N]]
    clear hset hset' hl hx
    generalize hst : ({ st with vals := assign (varying env o st) (List.ofFn x) st.vals } : St) = st' at h1
    have key : ∀ N : ℕ, ∃ ms, Values env o st' (List.replicate N pts).flatten (cellsOf ms) ∧
        (N * L x : ℝ) = (((List.replicate N pts).flatten.zip ms).map fun y =>
          loglPt o.weighted (o.lnsigma.map st'.vals) y.1 y.2).sum := by
      intro N
      induction N with
      | zero => exact ⟨[], by rw [values_iff]; exact .nil, by simp⟩
      | succ N ih =>
        rw [List.replicate_succ, List.flatten_cons]
        exact sum_append.mpr ⟨_, _, h1, ih, by push_cast; ring⟩
    rw [← hst] at key
    exact key N
  · rw [sub_self, abs_zero]
    positivity

/-- Priors that do not vanish near a vector give every neighbourhood of it a positive probability. -/
theorem mass_of_nhds {st : St} {n : ℕ} (hn : n = (varying env o st).length)
    (hprop : ∀ q ∈ varying env o st, Integrable (priorDensity env q)) {x0 : Fin n → ℝ}
    (h : ∀ᶠ x in 𝓝 x0, prior env o st x ≠ 0) {U : Set (Fin n → ℝ)} (hU : U ∈ 𝓝 x0) :
    0 < ∫ x in U, prior env o st x := by
  rw [setIntegral_pos_iff_support_of_nonneg_ae (Eventually.of_forall fun x => prior_nonneg env o st x)
    (prior_integrable hn hprop).integrableOn]
  exact Measure.measure_pos_of_mem_nhds _ (Filter.inter_mem h hU)

/-- The same delta twice. -/
def samePts : List Pt := [(600, 0, 45, 185), (600, 0, 45, 185)]

/-- Arrays with `N` copies of these points. -/
noncomputable def sameHeap (N : ℕ) : Heap :=
  ⟨fun i => ⟨false, [(List.replicate N samePts).flatten.map (·.1), (List.replicate N samePts).flatten.map (·.2.1),
    (List.replicate N samePts).flatten.map (·.2.2.1), (List.replicate N samePts).flatten.map (·.2.2.2)].getD i []⟩, 4⟩

/-- The dataset with these arrays. -/
noncomputable def sameData (N : ℕ) : DS :=
  { (barObj false 2).data with mask := some ((List.replicate N samePts).flatten.map fun _ => true) }

theorem same_repeated : Repeated sameHeap sameData samePts :=
  fun _ => presents_cols (b := false) rfl rfl rfl rfl rfl

theorem same_presents (v : ℝ) : Presents (barSt v [185, 185]).heap (probObj (some 8)).data samePts :=
  (bar_presents v false 185 185).2

theorem same_logl (ext : Ext) (zs : List Layer → ℝ → ℝ → Bool) {x : Fin 1 → ℝ} (hx' : 0 ≤ x 0 ∧ x 0 ≤ 10) :
    (logl (probEnv ext zs) (probObj (some 8)) (some (List.ofFn x)) (barSt 3 [185, 185])).1 =
      .ok (-((x 0 - 5) ^ 2 / (1 + (180 + x 0) ^ 2))) := by
  have hv := (prob_varying ext zs 3 [185, 185]).2
  rw [show List.ofFn x = [x 0] by simp, C83_vector (prob_set ext zs hv (x 0)),
    C83_formula (o := probObj (some 8)) (bar_presents (x 0) false 185 185).2
      (ms := [(45, 180 + x 0), (45, 180 + x 0)])
      (bar_values (probEnv ext zs) rfl (probObj (some 8)) (x 0) [185, 185] [185, 185])]
  have e1 := prob_dist (a := 185) hx' (by norm_num)
  have e8 : (barSt (x 0) [185, 185]).vals 8 = 0 := by
    simp [barSt, Function.update_of_ne]
  simp only [loglSpec, contrib, probObj, barObj, Objective.weighted, Option.map_some, e8, Option.elim_some,
    List.zip_cons_cons, List.zip_nil_right, List.map_cons, List.map_nil, List.sum_cons, List.sum_nil, e1,
    Bool.false_and, Bool.false_eq_true, if_false, Except.ok.injEq, mul_zero, Real.exp_zero]
  have : (1 : ℝ) + (180 + x 0) ^ 2 ≠ 0 := by positivity
  field_simp
  ring

/-- Non-vacuity of `C176_consistent` and `C176_repeated`: with `lnsigma`, the mean offset approaches 5. -/
example (ext : Ext) (zs : List Layer → ℝ → ℝ → Bool) :
    Tendsto (fun N => (∫ x : Fin 1 → ℝ,
        x 0 * densityN (probEnv ext zs) (probObj (some 8)) (barSt 3 [185, 185]) sameHeap sameData N x) /
      ∫ x : Fin 1 → ℝ, densityN (probEnv ext zs) (probObj (some 8)) (barSt 3 [185, 185]) sameHeap sameData N x) atTop
        (𝓝 5) := by
  have hv := (prob_varying ext zs 3 [185, 185]).2
  have hn : 1 = (varying (probEnv ext zs) (probObj (some 8)) (barSt 3 [185, 185])).length := by rw [hv]; rfl
  have hpd : ∀ q v, priorDensity (probEnv ext zs) q v =
      (Set.Icc (0 : ℝ) 10).indicator (fun _ => Real.exp (-Real.log 10)) v := by
    intro q v
    simp only [priorDensity, probEnv]
    by_cases h : 0 ≤ v ∧ v ≤ 10
    · rw [if_pos h, Set.indicator_of_mem (show v ∈ Set.Icc (0 : ℝ) 10 from h)]
    · rw [if_neg h, Set.indicator_of_notMem (show v ∉ Set.Icc (0 : ℝ) 10 from h)]
  have hpr : ∀ x : Fin 1 → ℝ, prior (probEnv ext zs) (probObj (some 8)) (barSt 3 [185, 185]) x =
      (Set.Icc (0 : ℝ) 10).indicator (fun _ => Real.exp (-Real.log 10)) (x 0) := by
    intro x
    rw [prior, Fin.prod_univ_one, hpd]
  have hprop : ∀ q ∈ varying (probEnv ext zs) (probObj (some 8)) (barSt 3 [185, 185]),
      Integrable (priorDensity (probEnv ext zs) q) := by
    intro q _
    rw [show priorDensity (probEnv ext zs) q = _ from funext (hpd q)]
    exact (integrableOn_const (hs := isCompact_Icc.measure_lt_top.ne)).integrable_indicator measurableSet_Icc
  have hin : ∀ x : Fin 1 → ℝ, prior (probEnv ext zs) (probObj (some 8)) (barSt 3 [185, 185]) x ≠ 0 →
      0 ≤ x 0 ∧ x 0 ≤ 10 := by
    intro x hx
    by_contra h
    exact hx (by rw [hpr, Set.indicator_of_notMem (show x 0 ∉ Set.Icc (0 : ℝ) 10 from h)])
  have hcont : Continuous fun x : Fin 1 → ℝ => -((x 0 - 5) ^ 2 / (1 + (180 + x 0) ^ 2)) :=
    (Continuous.div (((continuous_apply (0 : Fin 1)).sub continuous_const).pow 2)
      (continuous_const.add ((continuous_const.add (continuous_apply (0 : Fin 1))).pow 2)) fun x =>
        (add_pos_of_pos_of_nonneg one_pos (sq_nonneg (180 + x 0))).ne').neg
  refine C176_repeated (L := fun x => -((x 0 - 5) ^ 2 / (1 + (180 + x 0) ^ 2))) (x0 := fun _ => 5) (g := fun x => x 0)
    (o := probObj (some 8)) (st := barSt 3 [185, 185]) (pts := samePts) (same_presents 3)
    same_repeated (fun _ => rfl) hn hprop hcont.measurable.aemeasurable
    (fun x hx => ?_) (fun U hU => ?_) (fun δ hδ => ?_) (fun U hU => mass_of_nhds hn hprop ?_ hU) ?_
    (continuous_apply (0 : Fin 1)).continuousAt
  · exact same_logl ext zs (hin x hx)
  · obtain ⟨r, hr, hb⟩ := Metric.mem_nhds_iff.mp hU
    refine ⟨r ^ 2 / (1 + 190 ^ 2), by positivity, fun x hx hp => ?_⟩
    have hx' := hin x hp
    have h1 : r ≤ |x 0 - 5| := by
      by_contra hlt
      refine hx (hb ?_)
      rw [Metric.mem_ball, dist_pi_lt_iff hr]
      intro i
      rw [Subsingleton.elim i 0, Real.dist_eq]
      linarith
    have h2 : r ^ 2 ≤ (x 0 - 5) ^ 2 := by
      rw [← sq_abs (x 0 - 5)]
      exact pow_le_pow_left₀ hr.le h1 2
    have h3 : r ^ 2 / (1 + 190 ^ 2) ≤ (x 0 - 5) ^ 2 / (1 + (180 + x 0) ^ 2) :=
      div_le_div₀ (sq_nonneg _) h2 (by positivity) (by nlinarith)
    have h4 : ((5 : ℝ) - 5) ^ 2 / (1 + (180 + 5) ^ 2) = 0 := by norm_num
    simp only [h4]
    linarith
  · filter_upwards [hcont.continuousAt.eventually (lt_mem_nhds (sub_lt_self _ hδ))] with x hx _
    exact hx.le
  · have : ∀ᶠ x : Fin 1 → ℝ in 𝓝 (fun _ => 5), x 0 ∈ Set.Ioo (0 : ℝ) 10 :=
      (continuous_apply (0 : Fin 1)).continuousAt.eventually (Ioo_mem_nhds (by norm_num) (by norm_num))
    filter_upwards [this] with x hx
    rw [hpr, Set.indicator_of_mem (Set.Ioo_subset_Icc_self hx)]
    exact (Real.exp_pos _).ne'
  · refine ((prior_integrable hn hprop).const_mul 10).mono'
      ((continuous_apply (0 : Fin 1)).measurable.aestronglyMeasurable.mul (prior_integrable hn hprop).aestronglyMeasurable)
      (Eventually.of_forall fun x => ?_)
    rw [norm_mul, Real.norm_of_nonneg (prior_nonneg _ _ _ x)]
    by_cases h : prior (probEnv ext zs) (probObj (some 8)) (barSt 3 [185, 185]) x = 0
    · rw [h, mul_zero, mul_zero]
    · have := hin x h
      exact mul_le_mul_of_nonneg_right (by rw [Real.norm_of_nonneg this.1]; exact this.2) (prior_nonneg _ _ _ x)

end Verif.Obj
