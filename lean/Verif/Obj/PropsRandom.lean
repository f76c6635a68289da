import Verif.Obj.PropsConsistent
import Verif.Obj.PropsNoise
import Mathlib.Probability.StrongLaw
import Mathlib.Probability.Independence.InfinitePi
import Mathlib.Topology.ContinuousMap.SecondCountableSpace

/-! # C177: random measurements -/

namespace Verif.Obj
open Verif.Struct Verif.TMM Verif.RModel Verif.Data Filter Topology MeasureTheory ProbabilityTheory

variable {env : Env} {o : Objective}

/-- Spec: the results of measuring psi (0 to 90) and delta (0 to 360) once at each of `m` places. -/
abbrev Outcome (m : ℕ) := Fin m → Set.Icc (0 : ℝ) 90 × Set.Icc (0 : ℝ) 360

/-- Spec: the points with these results; a place is a wavelength and an angle of incidence. -/
def readings {m : ℕ} (pl : Fin m → ℝ × ℝ) (y : Outcome m) : List Pt :=
  List.ofFn fun i => ((pl i).1, (pl i).2, ((y i).1 : ℝ), ((y i).2 : ℝ))

/-- Spec: the points of the first `N` of many measurements. -/
def readingsN {m : ℕ} (pl : Fin m → ℝ × ℝ) (y : ℕ → Outcome m) (N : ℕ) : List Pt :=
  (List.range N).flatMap fun k => readings pl (y k)

/-- Spec: `c y` is `objective.chisqr` for the results `y`, on the set `K` of vectors of parameters. -/
def ChiOf {m n : ℕ} (env : Env) (o : Objective) (st : St) (pl : Fin m → ℝ × ℝ) (K : Set (Fin n → ℝ))
    (c : Outcome m → (Fin n → ℝ) → ℝ) : Prop :=
  ∀ y, ∀ x ∈ K, ∀ (H : Heap) (D : DS), Presents H D (readings pl y) →
    (chisqr env { o with data := D } (some (List.ofFn x)) { st with heap := H }).1 = .ok (some (c y x))

/-- The uniform law of large numbers: the strong law in the Banach space of continuous functions. -/
theorem uniform_law {m n : ℕ} {K : Set (Fin n → ℝ)} (hK : IsCompact K) {c : Outcome m → (Fin n → ℝ) → ℝ}
    (hc : ∀ y, ContinuousOn (c y) K) (hy : ∀ y, TendstoUniformlyOn (fun y' => c y') (c y) (𝓝 y) K)
    {Ω : Type*} [MeasurableSpace Ω] {P : Measure Ω} [IsProbabilityMeasure P] {Y : ℕ → Ω → Outcome m}
    (hY : ∀ k, Measurable (Y k)) (hind : Pairwise fun i j => IndepFun (Y i) (Y j) P)
    (hid : ∀ k, IdentDistrib (Y k) (Y 0) P P) :
    ContinuousOn (fun x => ∫ ω, c (Y 0 ω) x ∂P) K ∧
    ∀ᵐ ω ∂P, ∀ η > 0, ∀ᶠ N : ℕ in atTop, ∀ x ∈ K,
      |(∑ k ∈ Finset.range N, c (Y k ω) x) - N * ∫ ω', c (Y 0 ω') x ∂P| ≤ N * η := by
  have : CompactSpace K := isCompact_iff_compactSpace.mp hK
  let _ : MeasurableSpace C(K, ℝ) := borel _
  have : BorelSpace C(K, ℝ) := ⟨rfl⟩
  set F : Outcome m → C(K, ℝ) := fun y => ⟨K.domRestrict (c y), continuousOn_iff_continuous_domRestrict.mp (hc y)⟩ with hF
  have hFc : Continuous F := by
    rw [continuous_iff_continuousAt]
    intro y
    rw [ContinuousAt, ContinuousMap.tendsto_iff_tendstoUniformly]
    exact (tendstoUniformlyOn_iff_tendstoUniformly_comp_coe.mp (hy y))
  obtain ⟨B, hB⟩ := isCompact_univ.exists_bound_of_continuousOn hFc.continuousOn
  have hint : Integrable (fun ω => F (Y 0 ω)) P :=
    Integrable.of_bound (hFc.comp_stronglyMeasurable (hY 0).stronglyMeasurable).aestronglyMeasurable B
      (Eventually.of_forall fun ω => hB _ (Set.mem_univ _))
  have happ : ∀ x : K, (∫ ω, F (Y 0 ω) ∂P) x = ∫ ω, c (Y 0 ω) x ∂P := fun x => ContinuousMap.integral_apply hint x
  constructor
  · rw [continuousOn_iff_continuous_domRestrict]
    exact ((∫ ω, F (Y 0 ω) ∂P).continuous).congr happ
  have hlaw := strong_law_ae (μ := P) (fun k ω => F (Y k ω)) hint
    (fun i j hij => (hind hij).comp hFc.measurable hFc.measurable) fun k => (hid k).comp hFc.measurable
  filter_upwards [hlaw] with ω hω η hη
  filter_upwards [Metric.tendsto_nhds.mp hω η hη, eventually_gt_atTop 0] with N hN hN0 x hx
  have h1 := (ContinuousMap.dist_lt_iff hη).mp hN ⟨x, hx⟩
  rw [happ, ContinuousMap.smul_apply, ContinuousMap.sum_apply, Real.dist_eq, smul_eq_mul] at h1
  have hNp : (0 : ℝ) < N := by exact_mod_cast hN0
  have h2 := mul_le_mul_of_nonneg_left h1.le hNp.le
  rw [← abs_of_pos hNp, ← abs_mul, abs_of_pos hNp, mul_sub, ← mul_assoc, mul_inv_cancel₀ hNp.ne', one_mul] at h2
  exact h2

/-- Arrays with the columns of these points. -/
def colHeap (pts : List Pt) : Heap :=
  ⟨fun i => ⟨false, [pts.map (·.1), pts.map (·.2.1), pts.map (·.2.2.1), pts.map (·.2.2.2)].getD i []⟩, 4⟩

/-- The dataset with these arrays. -/
def colData (pts : List Pt) : DS :=
  { wav := 0, aoi := 1, psi := 2, dlt := 3, mask := some (pts.map fun _ => true), flipped := false, weighted := false }

theorem col_presents (pts : List Pt) : Presents (colHeap pts) (colData pts) pts :=
  presents_cols (b := false) rfl rfl rfl rfl rfl

theorem setp_other {st : St} {n : ℕ} (hn : n = (varying env o st).length) (D : DS) (H : Heap) (x : Fin n → ℝ) :
    setp env { o with data := D } (some (List.ofFn x)) { st with heap := H } =
      (.ok (), { (setp env o (some (List.ofFn x)) st).2 with heap := H }) := by
  have hv : varying env { o with data := D } { st with heap := H } = varying env o st := rfl
  rw [setp, setp, if_pos (by rw [hv]; simpa using hn), if_pos (by simpa using hn), hv]

theorem readings_places {m : ℕ} (pl : Fin m → ℝ × ℝ) (y y' : Outcome m) :
    SamePlaces (readings pl y) (readings pl y') := by
  unfold SamePlaces readings
  rw [List.forall₂_iff_get]
  simp

theorem noise_readings {m : ℕ} (pl : Fin m → ℝ × ℝ) (y y' : Outcome m) :
    noise (readings pl y) (readings pl y') ≤
      ∑ i, ((((y i).1 : ℝ) - (y' i).1) ^ 2 + (((y i).2 : ℝ) - (y' i).2) ^ 2) := by
  have e : (readings pl y).zip (readings pl y') =
      List.ofFn fun i => (((pl i).1, (pl i).2, ((y i).1 : ℝ), ((y i).2 : ℝ)),
        ((pl i).1, (pl i).2, ((y' i).1 : ℝ), ((y' i).2 : ℝ))) := by
    unfold readings
    apply List.ext_get <;> simp
  rw [noise, e, List.map_ofFn, List.sum_ofFn]
  refine Finset.sum_le_sum fun i _ => ?_
  simp only [Function.comp, gap]
  have h1 : circDist 360 ((y i).2 : ℝ) ((y' i).2 : ℝ) ≤ |((y i).2 : ℝ) - (y' i).2| := by
    refine (ciInf_le ⟨0, ?_⟩ 0).trans (by simp)
    rintro _ ⟨k, rfl⟩
    exact abs_nonneg _
  have h2 := pow_le_pow_left₀ (circDist_nonneg 360 ((y i).2 : ℝ) ((y' i).2 : ℝ)) h1 2
  rw [sq_abs] at h2
  linarith

section
variable {st : St} {m n : ℕ} {pl : Fin m → ℝ × ℝ} {y0 : Outcome m} {M : MObj} {s : Structure} {cs : List Comp}
  {K : Set (Fin n → ℝ)} {c0 : (Fin n → ℝ) → ℝ} {c : Outcome m → (Fin n → ℝ) → ℝ}

/-- A search remains one for other results at the same places. -/
theorem Searches.other (hn : n = (varying env o st).length)
    (h : Searches env o (fun p => (setp env o (some (List.ofFn p)) st).2) (readings pl y0) M s cs K c0)
    (hoff : ∀ x ∈ K, ∀ᶠ p in 𝓝 x, |(setp env o (some (List.ofFn p)) st).2.vals M.rm.off| ≤ 180)
    (hc : ChiOf env o st pl K c) (y : Outcome m) :
    Searches env { o with data := colData (readings pl y) }
      (fun p => (setp env { o with data := colData (readings pl y) } (some (List.ofFn p))
        { st with heap := colHeap (readings pl y) }).2) (readings pl y) M s cs K (c y) := by
  have hset : ∀ p : Fin n → ℝ, _ := fun p => setp_other hn (colData (readings pl y)) (colHeap (readings pl y)) p
  refine ⟨fun x hx => ?_, fun x hx => ?_, fun x hx => ?_⟩
  · have hd := h.deforms x hx
    simp only [hset]
    refine ⟨hd.float, hd.model, hd.struct, hd.plain, hd.offset, fun _ => col_presents _, fun pt hpt => ?_⟩
    obtain ⟨i, rfl⟩ := (List.mem_ofFn' _ _).mp hpt
    exact hd.stack ((pl i).1, (pl i).2, ((y0 i).1 : ℝ), ((y0 i).2 : ℝ)) ((List.mem_ofFn' _ _).mpr ⟨i, rfl⟩)
  · filter_upwards [hoff x hx] with p hp pt hpt
    simp only [hset]
    obtain ⟨i, rfl⟩ := (List.mem_ofFn' _ _).mp hpt
    have h1 := (y i).2.2
    have h2 := abs_le.mp hp
    constructor
    · simp only; linarith [h1.1]
    · simp only; linarith [h1.2]
  · have := hc y x hx _ _ (col_presents (readings pl y))
    rwa [chisqr_set (o := { o with data := colData (readings pl y) }) (by rw [List.length_ofFn]; exact hn)] at this

/-- For a search there is such a function. -/
theorem Searches.chiOf (hn : n = (varying env o st).length)
    (h : Searches env o (fun p => (setp env o (some (List.ofFn p)) st).2) (readings pl y0) M s cs K c0) :
    ∃ c, ChiOf env o st pl K c := by
  have key : ∀ (y : Outcome m) (x : Fin n → ℝ), ∃ v, x ∈ K → ∀ (H : Heap) (D : DS), Presents H D (readings pl y) →
      (chisqr env { o with data := D } (some (List.ofFn x)) { st with heap := H }).1 = .ok (some v) := by
    intro y x
    by_cases hx : x ∈ K
    · have h1 := h.value x hx
      have hd := h.deforms x hx
      rw [chisqr_iff (hd.data x)] at h1
      obtain ⟨ms, hv, -⟩ := h1
      refine ⟨(((readings pl y).zip ms).map fun q => sqTerm q.1 q.2).sum, fun _ H D hp => ?_⟩
      · rw [chisqr_set (o := { o with data := D }) (by rw [List.length_ofFn]; exact hn), setp_other hn,
          chisqr_iff (o := { o with data := D }) (st := { (setp env o (some (List.ofFn x)) st).2 with heap := H }) hp]
        refine ⟨ms, ?_, rfl⟩
        unfold Values at hv ⊢
        rw [show (readings pl y).map (fun p => (p.1, p.2.1)) = (readings pl y0).map (fun p => (p.1, p.2.1)) by
          simp [readings, List.map_ofFn, Function.comp_def]]
        exact hv
    · exact ⟨0, fun h => absurd h hx⟩
  choose c hc using key
  exact ⟨c, fun y x hx => hc y x hx⟩

theorem chiOf_nonneg (hn : n = (varying env o st).length) (hc : ChiOf env o st pl K c) (y : Outcome m) {x : Fin n → ℝ}
    (hx : x ∈ K) : 0 ≤ c y x := by
  have h := hc y x hx _ _ (col_presents _)
  rw [chisqr_set (o := { o with data := colData (readings pl y) }) (by rw [List.length_ofFn]; exact hn), setp_other hn,
    chisqr_iff (o := { o with data := colData (readings pl y) })
      (st := { (setp env o (some (List.ofFn x)) st).2 with heap := colHeap (readings pl y) }) (col_presents _)] at h
  obtain ⟨ms, -, e⟩ := h
  rw [e]
  exact sum_sq_nonneg (fun _ => sqTerm_nonneg _ _) _

/-- Chi-squared is a continuous function of the results, uniformly in the parameters. -/
theorem chiOf_uniform (hn : n = (varying env o st).length)
    (h : Searches env o (fun p => (setp env o (some (List.ofFn p)) st).2) (readings pl y0) M s cs K c0) (hK : IsCompact K)
    (hoff : ∀ x ∈ K, ∀ᶠ p in 𝓝 x, |(setp env o (some (List.ofFn p)) st).2.vals M.rm.off| ≤ 180)
    (hc : ChiOf env o st pl K c) (y : Outcome m) : TendstoUniformlyOn (fun y' => c y') (c y) (𝓝 y) K := by
  have hS := fun y => h.other hn hoff hc y
  obtain ⟨B, hB⟩ := hK.exists_bound_of_continuousOn (hS y).continuousOn
  set d : Outcome m → ℝ := fun y' =>
    Real.sqrt (∑ i, ((((y i).1 : ℝ) - (y' i).1) ^ 2 + (((y i).2 : ℝ) - (y' i).2) ^ 2)) with hd
  have hdc : Tendsto d (𝓝 y) (𝓝 0) := by
    have : Continuous d := by
      refine Real.continuous_sqrt.comp (continuous_finsetSum _ fun i _ => ?_)
      have h1 : Continuous fun y' : Outcome m => ((y' i).1 : ℝ) := by fun_prop
      have h2 : Continuous fun y' : Outcome m => ((y' i).2 : ℝ) := by fun_prop
      exact ((continuous_const.sub h1).pow 2).add ((continuous_const.sub h2).pow 2)
    have h0 : d y = 0 := by simp [hd]
    have h1 := this.tendsto y
    rwa [h0] at h1
  have hroot : ∀ y', ∀ x ∈ K, |Real.sqrt (c y' x) - Real.sqrt (c y x)| ≤ d y' := by
    intro y' x hx
    have hr : ∀ pt ∈ readings pl y ++ readings pl y',
        (setp env o (some (List.ofFn x)) st).2.vals M.rm.off - 180 ≤ pt.2.2.2 ∧
        pt.2.2.2 ≤ (setp env o (some (List.ofFn x)) st).2.vals M.rm.off + 540 := by
      have h2 := abs_le.mp (hoff x hx).self_of_nhds
      intro pt hpt
      rcases List.mem_append.mp hpt with hpt | hpt <;> obtain ⟨i, rfl⟩ := (List.mem_ofFn' _ _).mp hpt
      · have h1 := (y i).2.2
        exact ⟨by simp only; linarith [h1.1], by simp only; linarith [h1.2]⟩
      · have h1 := (y' i).2.2
        exact ⟨by simp only; linarith [h1.1], by simp only; linarith [h1.2]⟩
    have e := (hS y).value x hx
    have e' := (hS y').value x hx
    beta_reduce at e e'
    rw [setp_other hn] at e e'
    obtain ⟨v, hv, hle⟩ := C168_misfit (o := { o with data := colData (readings pl y) })
      (o' := { o with data := colData (readings pl y') })
      (st := { (setp env o (some (List.ofFn x)) st).2 with heap := colHeap (readings pl y) })
      (st' := { (setp env o (some (List.ofFn x)) st).2 with heap := colHeap (readings pl y') })
      (h.deforms x hx).float ⟨rfl, rfl, rfl⟩ (col_presents _) (col_presents _) (readings_places pl y y')
      (by rw [show ({ (setp env o (some (List.ofFn x)) st).2 with heap := colHeap (readings pl y) } : St).models
        ({ o with data := colData (readings pl y) } : Objective).model = M from (h.deforms x hx).model x]; exact hr) e
    rw [e'] at hv
    simp only [Except.ok.injEq, Option.some.injEq] at hv
    rw [hv]
    exact hle.trans (Real.sqrt_le_sqrt (noise_readings pl y y'))
  rw [Metric.tendstoUniformlyOn_iff]
  intro ε hε
  have hlim : Tendsto (fun y' => d y' * (2 * Real.sqrt |B| + d y')) (𝓝 y) (𝓝 0) := by
    simpa using hdc.mul (hdc.const_add (2 * Real.sqrt |B|))
  filter_upwards [hlim.eventually (gt_mem_nhds hε)] with y' hy' x hx
  have h0 := chiOf_nonneg hn hc y hx
  have h0' := chiOf_nonneg hn hc y' hx
  have hr := hroot y' x hx
  have hb : Real.sqrt (c y x) ≤ Real.sqrt |B| := Real.sqrt_le_sqrt (by
    have := hB x hx
    rw [Real.norm_of_nonneg h0] at this
    exact this.trans (le_abs_self B))
  have hd0 : 0 ≤ d y' := Real.sqrt_nonneg _
  refine lt_of_le_of_lt ?_ hy'
  rw [Real.dist_eq, abs_sub_comm]
  conv_lhs => rw [← Real.mul_self_sqrt h0, ← Real.mul_self_sqrt h0']
  rw [mul_self_sub_mul_self, abs_mul, mul_comm]
  refine mul_le_mul hr ?_ (abs_nonneg _) hd0
  rw [abs_of_nonneg (by positivity)]
  linarith [(abs_le.mp hr).2]

/-- Chi-squared of many measurements is the sum of those of each. -/
theorem chisqr_readingsN (hn : n = (varying env o st).length) (hc : ChiOf env o st pl K c) (y : ℕ → Outcome m) {N : ℕ}
    {H : Heap} {D : DS} (hD : Presents H D (readingsN pl y N)) {x : Fin n → ℝ} (hx : x ∈ K) :
    (chisqr env { o with data := D } (some (List.ofFn x)) { st with heap := H }).1 =
      .ok (some (∑ k ∈ Finset.range N, c (y k) x)) := by
  have one : ∀ y, ∃ ms, Values env o (setp env o (some (List.ofFn x)) st).2 (readings pl y) (cellsOf ms) ∧
      c y x = (((readings pl y).zip ms).map fun q => sqTerm q.1 q.2).sum := by
    intro y
    have h := hc y x hx _ _ (col_presents _)
    rwa [chisqr_set (o := { o with data := colData (readings pl y) }) (by rw [List.length_ofFn]; exact hn), setp_other hn,
      chisqr_iff (o := { o with data := colData (readings pl y) })
        (st := { (setp env o (some (List.ofFn x)) st).2 with heap := colHeap (readings pl y) }) (col_presents _)] at h
  have key : ∀ N, ∃ ms, Values env o (setp env o (some (List.ofFn x)) st).2 (readingsN pl y N) (cellsOf ms) ∧
      ∑ k ∈ Finset.range N, c (y k) x = (((readingsN pl y N).zip ms).map fun q => sqTerm q.1 q.2).sum := by
    intro N
    induction N with
    | zero => exact ⟨[], by rw [values_iff]; exact .nil, by simp⟩
    | succ N ih =>
      rw [show readingsN pl y (N + 1) = readingsN pl y N ++ readings pl (y N) by
        simp [readingsN, List.range_succ, List.flatMap_append]]
      exact sum_append.mpr ⟨_, _, ih, one (y N), Finset.sum_range_succ _ _⟩
  rw [chisqr_set (o := { o with data := D }) (by rw [List.length_ofFn]; exact hn), setp_other hn,
    chisqr_iff (o := { o with data := D }) (st := { (setp env o (some (List.ofFn x)) st).2 with heap := H }) hD]
  exact key N

theorem readingsN_length (pl : Fin m → ℝ × ℝ) (y : ℕ → Outcome m) (N : ℕ) : (readingsN pl y N).length = N * m := by
  simp [readingsN, readings, List.length_flatMap]

/-- A unique minimum of a continuous function on a compact set is clear. -/
theorem clear_minimum {K : Set (Fin n → ℝ)} (hK : IsCompact K) {E : (Fin n → ℝ) → ℝ} (hE : ContinuousOn E K) {x0 : Fin n → ℝ}
    (hmin : ∀ x ∈ K, x ≠ x0 → E x0 < E x) {U : Set (Fin n → ℝ)} (hU : U ∈ 𝓝 x0) :
    ∃ ε > 0, ∀ x ∈ K, x ∉ U → E x0 + ε ≤ E x := by
  obtain ⟨V, hVU, hVo, hxV⟩ := mem_nhds_iff.mp hU
  by_cases hne : (K \ V).Nonempty
  · obtain ⟨x1, ⟨h1, h1'⟩, hm⟩ := (hK.diff hVo).exists_isMinOn hne (hE.mono Set.sdiff_subset)
    have hlt := hmin x1 h1 fun e => h1' (e ▸ hxV)
    refine ⟨E x1 - E x0, by linarith, fun x hx hxU => ?_⟩
    have : E x1 ≤ E x := hm ⟨hx, fun h => hxU (hVU h)⟩
    linarith
  · rw [Set.not_nonempty_iff_eq_empty, Set.sdiff_eq_empty] at hne
    exact ⟨1, one_pos, fun x hx hxU => absurd (hVU (hne hx)) hxU⟩

variable {Ω : Type*} [MeasurableSpace Ω] {P : Measure Ω} [IsProbabilityMeasure P] {Y : ℕ → Ω → Outcome m}

/-- C177: measurements repeated independently, with random results of any distribution.  If the mean of chi-squared has a
unique minimum within the compact set that is searched, then almost surely all best fits of the first `N` measurements
approach it as `N` grows. -/
theorem C177_fit (hn : n = (varying env o st).length)
    (h : Searches env o (fun p => (setp env o (some (List.ofFn p)) st).2) (readings pl y0) M s cs K c0) (hK : IsCompact K)
    (hoff : ∀ x ∈ K, ∀ᶠ p in 𝓝 x, |(setp env o (some (List.ofFn p)) st).2.vals M.rm.off| ≤ 180)
    (hc : ChiOf env o st pl K c) (hY : ∀ k, Measurable (Y k)) (hind : Pairwise fun i j => IndepFun (Y i) (Y j) P)
    (hid : ∀ k, IdentDistrib (Y k) (Y 0) P P) {x0 : Fin n → ℝ} (hx0 : x0 ∈ K)
    (hmin : ∀ x ∈ K, x ≠ x0 → ∫ ω, c (Y 0 ω) x0 ∂P < ∫ ω, c (Y 0 ω) x ∂P)
    {H : ℕ → Ω → Heap} {D : ℕ → Ω → DS} (hD : ∀ N ω, Presents (H N ω) (D N ω) (readingsN pl (fun k => Y k ω) N)) :
    ∀ᵐ ω ∂P, ∀ b : ℕ → Fin n → ℝ, (∀ N, b N ∈ K) →
      (∀ N, ∀ x ∈ K, ∀ u v : ℝ,
        (chisqr env { o with data := D N ω } (some (List.ofFn (b N))) { st with heap := H N ω }).1 = .ok (some u) →
        (chisqr env { o with data := D N ω } (some (List.ofFn x)) { st with heap := H N ω }).1 = .ok (some v) → u ≤ v) →
      Tendsto b atTop (𝓝 x0) := by
  obtain ⟨hE, hlaw⟩ := uniform_law hK (fun y => (h.other hn hoff hc y).continuousOn)
    (fun y => chiOf_uniform hn h hK hoff hc y) hY hind hid
  filter_upwards [hlaw] with ω hω b hbK hbest
  rw [tendsto_def]
  intro U hU
  obtain ⟨ε, hε, hclear⟩ := clear_minimum hK hE hmin hU
  filter_upwards [hω (ε / 3) (by positivity), eventually_gt_atTop 0] with N hN hN0
  by_contra hbU
  have h1 := hbest N x0 hx0 _ _ (chisqr_readingsN hn hc (fun k => Y k ω) (hD N ω) (hbK N))
    (chisqr_readingsN hn hc (fun k => Y k ω) (hD N ω) hx0)
  have h2 := (abs_le.mp (hN _ (hbK N))).1
  have h3 := (abs_le.mp (hN x0 hx0)).2
  have hNp : (0 : ℝ) < N := by exact_mod_cast hN0
  have h4 := mul_le_mul_of_nonneg_left (hclear _ (hbK N) hbU) hNp.le
  have h5 : 0 < N * ε := mul_pos hNp hε
  linarith

/-- C177: and almost surely the posterior concentrates there: the mean over it of every quantity that has a mean over the
priors, and is continuous there, approaches its value. -/
theorem C177_posterior (hn : n = (varying env o st).length) (hs : o.lnsigma = none)
    (h : Searches env o (fun p => (setp env o (some (List.ofFn p)) st).2) (readings pl y0) M s cs K c0) (hK : IsCompact K)
    (hoff : ∀ x ∈ K, ∀ᶠ p in 𝓝 x, |(setp env o (some (List.ofFn p)) st).2.vals M.rm.off| ≤ 180)
    (hc : ChiOf env o st pl K c) (hY : ∀ k, Measurable (Y k)) (hind : Pairwise fun i j => IndepFun (Y i) (Y j) P)
    (hid : ∀ k, IdentDistrib (Y k) (Y 0) P P) {x0 : Fin n → ℝ} (hx0 : x0 ∈ K)
    (hmin : ∀ x ∈ K, x ≠ x0 → ∫ ω, c (Y 0 ω) x0 ∂P < ∫ ω, c (Y 0 ω) x ∂P)
    {H : ℕ → Ω → Heap} {D : ℕ → Ω → DS} (hD : ∀ N ω, Presents (H N ω) (D N ω) (readingsN pl (fun k => Y k ω) N))
    (hw : ∀ N ω, (D N ω).weighted = o.data.weighted)
    (hprop : ∀ q ∈ varying env o st, Integrable (priorDensity env q)) (hsupp : ∀ x : Fin n → ℝ, prior env o st x ≠ 0 → x ∈ K)
    (hmass : ∀ U ∈ 𝓝 x0, 0 < ∫ x in U, prior env o st x) :
    ∀ᵐ ω ∂P, ∀ g : (Fin n → ℝ) → ℝ, Integrable (fun x => g x * prior env o st x) → ContinuousAt g x0 →
      Tendsto (fun N => (∫ x, g x * densityN env o st (fun N => H N ω) (fun N => D N ω) N x) /
        ∫ x : Fin n → ℝ, densityN env o st (fun N => H N ω) (fun N => D N ω) N x) atTop (𝓝 (g x0)) := by
  have hcont : ∀ y, ContinuousOn (c y) K := fun y => (h.other hn hoff hc y).continuousOn
  obtain ⟨hE, hlaw⟩ := uniform_law hK hcont (fun y => chiOf_uniform hn h hK hoff hc y) hY hind hid
  filter_upwards [hlaw] with ω hω g hg hgc
  refine C176_consistent (ℓ := fun N => K.indicator fun x => -(∑ k ∈ Finset.range N, c (Y k ω) x) / 2 - (N * m : ℕ) * normTerm o)
    (L := fun x => -(∫ ω, c (Y 0 ω) x ∂P) / 2 - m * normTerm o) hn hprop (fun N => ?_) (fun N x hx => ?_)
    (fun η hη => ?_) (fun U hU => ?_) (fun δ hδ => ?_) hmass hg hgc
  · refine (aemeasurable_indicator_iff hK.measurableSet).mpr (ContinuousOn.aemeasurable ?_ hK.measurableSet)
    exact ((continuousOn_finsetSum _ fun k _ => hcont (Y k ω)).neg.div_const 2).sub continuousOn_const
  · have hxK := hsupp x hx
    rw [Set.indicator_of_mem hxK]
    have h1 := chisqr_readingsN hn hc (fun k => Y k ω) (hD N ω) hxK
    rw [chisqr_set (o := { o with data := D N ω }) (by rw [List.length_ofFn]; exact hn), setp_other hn] at h1
    rw [C83_vector (setp_other hn (D N ω) (H N ω) x), logl_chisqr (o := { o with data := D N ω })
      (st := { (setp env o (some (List.ofFn x)) st).2 with heap := H N ω }) (hD N ω) hs]
    refine ⟨_, h1, ?_⟩
    rw [readingsN_length, show normTerm { o with data := D N ω } = normTerm o by
      simp [normTerm, Objective.weighted, hw N ω]]
  · filter_upwards [hω η hη] with N hN x hx
    have h1 := hN x (hsupp x hx)
    rw [Set.indicator_of_mem (hsupp x hx)]
    rw [show -(∑ k ∈ Finset.range N, c (Y k ω) x) / 2 - ((N * m : ℕ) : ℝ) * normTerm o -
        N * (-(∫ ω, c (Y 0 ω) x ∂P) / 2 - m * normTerm o) =
      -(((∑ k ∈ Finset.range N, c (Y k ω) x) - N * ∫ ω, c (Y 0 ω) x ∂P) / 2) by push_cast; ring, abs_neg, abs_div,
      abs_two]
    have h2 := abs_nonneg ((∑ k ∈ Finset.range N, c (Y k ω) x) - N * ∫ ω, c (Y 0 ω) x ∂P)
    linarith
  · obtain ⟨ε, hε, hclear⟩ := clear_minimum hK hE hmin hU
    exact ⟨ε / 2, by positivity, fun x hxU hx => by linarith [hclear x (hsupp x hx) hxU]⟩
  · have h1 := (hE x0 hx0).eventually (gt_mem_nhds (show ∫ ω, c (Y 0 ω) x0 ∂P < ∫ ω, c (Y 0 ω) x0 ∂P + δ by linarith))
    filter_upwards [eventually_nhdsWithin_iff.mp h1] with x hx hp
    linarith [hx (hsupp x hp)]

/-- The mean square deviation from a number is least at the mean. -/
theorem mean_square {Z : Ω → ℝ} (hZ : Measurable Z) {B : ℝ} (hB : ∀ ω, |Z ω| ≤ B) (a : ℝ) :
    Integrable (fun ω => (a - Z ω) ^ 2) P ∧
    ∫ ω, (a - Z ω) ^ 2 ∂P = (a - ∫ ω, Z ω ∂P) ^ 2 + ∫ ω, ((∫ ω, Z ω ∂P) - Z ω) ^ 2 ∂P := by
  have hi : Integrable Z P := Integrable.of_bound hZ.aestronglyMeasurable B (Eventually.of_forall hB)
  have hi2 : Integrable (fun ω => Z ω ^ 2) P :=
    Integrable.of_bound (hZ.pow_const 2).aestronglyMeasurable (B ^ 2) (Eventually.of_forall fun ω => by
      rw [norm_pow]
      exact pow_le_pow_left₀ (norm_nonneg _) (hB ω) 2)
  have e : ∀ a : ℝ, (fun ω => (a - Z ω) ^ 2) = fun ω => a ^ 2 - 2 * a * Z ω + Z ω ^ 2 := fun a => funext fun ω => by ring
  have hi3 : ∀ a : ℝ, Integrable (fun ω => a ^ 2 - 2 * a * Z ω) P := fun a =>
    (integrable_const _).sub (hi.const_mul _)
  have v : ∀ a : ℝ, ∫ ω, (a - Z ω) ^ 2 ∂P = a ^ 2 - 2 * a * (∫ ω, Z ω ∂P) + ∫ ω, Z ω ^ 2 ∂P := by
    intro a
    rw [e a, integral_add (hi3 a) hi2, integral_sub (integrable_const _) (hi.const_mul _), integral_const_mul]
    simp
  refine ⟨by rw [e a]; exact (hi3 a).add hi2, ?_⟩
  rw [v, v]
  ring

/-- Chi-squared from the values of the model. -/
theorem chiOf_value (hn : n = (varying env o st).length) (hc : ChiOf env o st pl K c) {ψ Δ : (Fin n → ℝ) → Fin m → ℝ}
    (hv : ∀ x ∈ K, Values env o (setp env o (some (List.ofFn x)) st).2 (readings pl y0)
      (cellsOf (List.ofFn fun i => (ψ x i, Δ x i)))) (y : Outcome m) {x : Fin n → ℝ} (hx : x ∈ K) :
    c y x = ∑ i, ((ψ x i - (y i).1) ^ 2 + circularDistance (Δ x i) (y i).2 360 ^ 2) := by
  have h := hc y x hx _ _ (col_presents _)
  rw [chisqr_set (o := { o with data := colData (readings pl y) }) (by rw [List.length_ofFn]; exact hn), setp_other hn]
    at h
  have h2 := (chisqr_iff (env := env) (o := { o with data := colData (readings pl y) })
    (st := { (setp env o (some (List.ofFn x)) st).2 with heap := colHeap (readings pl y) }) (col_presents _)).mpr
    ⟨List.ofFn fun i => (ψ x i, Δ x i), by
      have := hv x hx
      unfold Values at this ⊢
      rw [show (readings pl y).map (fun p => (p.1, p.2.1)) = (readings pl y0).map (fun p => (p.1, p.2.1)) by
        simp [readings, List.map_ofFn, Function.comp_def]]
      exact this, rfl⟩
  rw [h] at h2
  simp only [Except.ok.injEq, Option.some.injEq] at h2
  rw [h2, show (readings pl y).zip (List.ofFn fun i => (ψ x i, Δ x i)) =
    List.ofFn fun i => (((pl i).1, (pl i).2, ((y i).1 : ℝ), ((y i).2 : ℝ)), (ψ x i, Δ x i)) by
      unfold readings
      apply List.ext_get <;> simp, List.map_ofFn, List.sum_ofFn]
  rfl

/-- C177: unbiased noise.  If some parameters reproduce the mean results and no others within the set do, then these are the
unique minimum of the mean of chi-squared: fits and posterior approach the truth.  Deltas of the model and of the
measurement are counted without jumps from 360 to 0, in a way that gives the distances on the circle. -/
theorem C177_turns (hn : n = (varying env o st).length) (hc : ChiOf env o st pl K c) (hY : Measurable (Y 0))
    {ψ Δ Δ' : (Fin n → ℝ) → Fin m → ℝ}
    (hv : ∀ x ∈ K, Values env o (setp env o (some (List.ofFn x)) st).2 (readings pl y0)
      (cellsOf (List.ofFn fun i => (ψ x i, Δ x i)))) {x0 : Fin n → ℝ} (hx0 : x0 ∈ K)
    {Z : Fin m → Ω → ℝ} (hZ : ∀ i, Measurable (Z i)) {B : ℝ} (hB : ∀ i ω, |Z i ω| ≤ B)
    (hψ : ∀ i, ∫ ω, ((Y 0 ω i).1 : ℝ) ∂P = ψ x0 i) (hΔ : ∀ i, ∫ ω, Z i ω ∂P = Δ' x0 i)
    (hnear : ∀ x ∈ K, ∀ i, ∀ᵐ ω ∂P, circularDistance (Δ x i) (Y 0 ω i).2 360 = |Δ' x i - Z i ω|)
    (hother : ∀ x ∈ K, x ≠ x0 → ∃ i, ψ x i ≠ ψ x0 i ∨ Δ' x i ≠ Δ' x0 i) :
    ∀ x ∈ K, x ≠ x0 → ∫ ω, c (Y 0 ω) x0 ∂P < ∫ ω, c (Y 0 ω) x ∂P := by
  have hval := fun y x hx => chiOf_value (x := x) hn hc hv y hx
  have m1 : ∀ i, Measurable fun ω => ((Y 0 ω i).1 : ℝ) := fun i =>
    measurable_subtype_coe.comp (measurable_fst.comp ((measurable_pi_apply i).comp hY))
  have b1 : ∀ i ω, |((Y 0 ω i).1 : ℝ)| ≤ 90 := fun i ω => by
    rw [abs_of_nonneg (Y 0 ω i).1.2.1]; exact (Y 0 ω i).1.2.2
  have hint : ∀ x ∈ K, ∫ ω, c (Y 0 ω) x ∂P = ∑ i, ((ψ x i - ψ x0 i) ^ 2 + (Δ' x i - Δ' x0 i) ^ 2) +
      ∑ i, ((∫ ω, (ψ x0 i - (Y 0 ω i).1) ^ 2 ∂P) + ∫ ω, (Δ' x0 i - Z i ω) ^ 2 ∂P) := by
    intro x hx
    have e1 : ∫ ω, c (Y 0 ω) x ∂P = ∫ ω, ∑ i, ((ψ x i - (Y 0 ω i).1) ^ 2 + (Δ' x i - Z i ω) ^ 2) ∂P := by
      refine integral_congr_ae ?_
      filter_upwards [ae_all_iff.mpr (hnear x hx)] with ω hω
      rw [hval _ x hx]
      refine Finset.sum_congr rfl fun i _ => ?_
      rw [hω i, sq_abs]
    have hi : ∀ i ∈ Finset.univ, Integrable (fun ω => (ψ x i - (Y 0 ω i).1) ^ 2 + (Δ' x i - Z i ω) ^ 2) P :=
      fun i _ => (mean_square (m1 i) (b1 i) _).1.add (mean_square (hZ i) (hB i) _).1
    rw [e1, integral_finsetSum _ hi, ← Finset.sum_add_distrib]
    refine Finset.sum_congr rfl fun i _ => ?_
    have i1 := mean_square (P := P) (m1 i) (b1 i) (ψ x i)
    have i2 := mean_square (P := P) (hZ i) (hB i) (Δ' x i)
    rw [hψ i] at i1
    rw [hΔ i] at i2
    rw [integral_add i1.1 i2.1, i1.2, i2.2]
    ring
  intro x hx hne
  rw [hint x0 hx0, hint x hx]
  refine add_lt_add_of_lt_of_le ?_ le_rfl
  simp only [sub_self, ne_eq, OfNat.ofNat_ne_zero, not_false_eq_true, zero_pow, add_zero, Finset.sum_const_zero]
  obtain ⟨i, hi⟩ := hother x hx hne
  refine Finset.sum_pos' (fun i _ => by positivity) ⟨i, Finset.mem_univ i, ?_⟩
  rcases hi with hi | hi
  · have := sq_pos_of_ne_zero (sub_ne_zero.mpr hi)
    positivity
  · have := sq_pos_of_ne_zero (sub_ne_zero.mpr hi)
    positivity

/-- C177: in particular, if some parameters reproduce the mean results, no others within the set do, and no delta is
measured more than half a turn from one of the model, then these parameters are the unique minimum of the mean of
chi-squared: fits and posterior approach the truth. -/
theorem C177_truth (hn : n = (varying env o st).length) (hc : ChiOf env o st pl K c) (hY : Measurable (Y 0))
    {ψ Δ : (Fin n → ℝ) → Fin m → ℝ}
    (hv : ∀ x ∈ K, Values env o (setp env o (some (List.ofFn x)) st).2 (readings pl y0)
      (cellsOf (List.ofFn fun i => (ψ x i, Δ x i)))) {x0 : Fin n → ℝ} (hx0 : x0 ∈ K)
    (hψ : ∀ i, ∫ ω, ((Y 0 ω i).1 : ℝ) ∂P = ψ x0 i) (hΔ : ∀ i, ∫ ω, ((Y 0 ω i).2 : ℝ) ∂P = Δ x0 i)
    (hnear : ∀ x ∈ K, ∀ i, ∀ᵐ ω ∂P, |Δ x i - (Y 0 ω i).2| ≤ 180)
    (hother : ∀ x ∈ K, x ≠ x0 → ∃ i, ψ x i ≠ ψ x0 i ∨ Δ x i ≠ Δ x0 i) :
    ∀ x ∈ K, x ≠ x0 → ∫ ω, c (Y 0 ω) x0 ∂P < ∫ ω, c (Y 0 ω) x ∂P := by
  refine C177_turns (Δ' := Δ) (Z := fun i ω => ((Y 0 ω i).2 : ℝ)) (B := 360) hn hc hY hv hx0
    (fun i => measurable_subtype_coe.comp (measurable_snd.comp ((measurable_pi_apply i).comp hY))) (fun i ω => ?_) hψ hΔ
    (fun x hx i => ?_) hother
  · rw [abs_of_nonneg (Y 0 ω i).2.2.1]
    exact (Y 0 ω i).2.2.2
  · filter_upwards [hnear x hx i] with ω hω
    unfold circularDistance
    rw [min_eq_left (by linarith)]

end

/-- Two places, the same. -/
def randPl : Fin 2 → ℝ × ℝ := fun _ => (600, 0)

/-- One outcome: the deltas 184 and 186. -/
noncomputable def randY : Outcome 2 :=
  ![(⟨45, by norm_num⟩, ⟨184, by norm_num⟩), (⟨45, by norm_num⟩, ⟨186, by norm_num⟩)]

theorem rand_readings : readings randPl randY = [(600, 0, 45, 184), (600, 0, 45, 186)] := by
  simp [readings, randPl, randY, List.ofFn_succ]

/-- The offsets between 0 and 10. -/
def randK (ext : Ext) (zs : List Layer → ℝ → ℝ → Bool) : Set (Fin 1 → ℝ) :=
  {p | Within (probEnv ext zs) (probObj none) (barSt 3 [184, 186]) (fun _ => 0) (fun _ => 10) (List.ofFn p)}

/-- Results that are drawn anew each time. -/
theorem rand_iid {m : ℕ} (ν : Measure (Outcome m)) [IsProbabilityMeasure ν] :
    (∀ k : ℕ, Measurable fun ω : ℕ → Outcome m => ω k) ∧
    (Pairwise fun i j => IndepFun (fun ω : ℕ → Outcome m => ω i) (fun ω => ω j) (Measure.infinitePi fun _ : ℕ => ν)) ∧
    (∀ k, IdentDistrib (fun ω : ℕ → Outcome m => ω k) (fun ω => ω 0) (Measure.infinitePi fun _ : ℕ => ν)
      (Measure.infinitePi fun _ : ℕ => ν)) ∧
    ∀ f : Outcome m → ℝ, Measurable f → ∫ ω : ℕ → Outcome m, f (ω 0) ∂(Measure.infinitePi fun _ : ℕ => ν) = ∫ y, f y ∂ν := by
  have hm : ∀ k : ℕ, Measurable fun ω : ℕ → Outcome m => ω k := fun k => measurable_pi_apply k
  have he := fun k : ℕ => Measure.infinitePi_map_eval (fun _ : ℕ => ν) k
  refine ⟨hm, fun i j hij => ?_, fun k => ⟨(hm k).aemeasurable, (hm 0).aemeasurable, by rw [he, he]⟩, fun f hf => ?_⟩
  · exact (iIndepFun_infinitePi (P := fun _ : ℕ => ν) (X := fun _ y => y) fun _ => measurable_id).indepFun hij
  · rw [← he 0, integral_map (hm 0).aemeasurable hf.aestronglyMeasurable, he 0]

theorem rand_compact (ext : Ext) (zs : List Layer → ℝ → ℝ → Bool) : IsCompact (randK ext zs) := by
  have hv := (prob_varying ext zs 3 [184, 186]).1
  rw [show randK ext zs = Set.Icc _ _ from Set.ext fun p => within_iff (by rw [hv]; rfl)]
  exact isCompact_Icc

theorem rand_off (ext : Ext) (zs : List Layer → ℝ → ℝ → Bool) : ∀ x ∈ randK ext zs, ∀ᶠ p : Fin 1 → ℝ in 𝓝 x,
    |(setp (probEnv ext zs) (probObj none) (some (List.ofFn p)) (barSt 3 [184, 186])).2.vals 7| ≤ 180 := by
  intro x hx
  have hx' := (prob_within ext zs).mp hx
  have hv := (prob_varying ext zs 3 [184, 186]).1
  have : ∀ᶠ p : Fin 1 → ℝ in 𝓝 x, p 0 ∈ Set.Ioo (-1 : ℝ) 11 :=
    (continuous_apply (0 : Fin 1)).continuousAt.eventually (Ioo_mem_nhds (by linarith) (by linarith))
  filter_upwards [this] with p hp
  rw [show List.ofFn p = [p 0] by simp, prob_set ext zs hv]
  simp only [barSt, Function.update_self]
  exact abs_le.mpr ⟨by linarith [hp.1], by linarith [hp.2]⟩

theorem rand_values (ext : Ext) (zs : List Layer → ℝ → ℝ → Bool) (x : Fin 1 → ℝ) :
    Values (probEnv ext zs) (probObj none)
      (setp (probEnv ext zs) (probObj none) (some (List.ofFn x)) (barSt 3 [184, 186])).2 (readings randPl randY)
      (cellsOf (List.ofFn fun _ : Fin 2 => ((45 : ℝ), 180 + x 0))) := by
  have hv := (prob_varying ext zs 3 [184, 186]).1
  rw [show List.ofFn x = [x 0] by simp, prob_set ext zs hv, rand_readings]
  exact prob_values ext zs none (x 0)

theorem rand_minimum (ext : Ext) (zs : List Layer → ℝ → ℝ → Bool) {c : Outcome 2 → (Fin 1 → ℝ) → ℝ}
    (hc : ChiOf (probEnv ext zs) (probObj none) (barSt 3 [184, 186]) randPl (randK ext zs) c) (ν : Measure (Outcome 2))
    [IsProbabilityMeasure ν] (hψ : ∀ i, ∫ y, ((y i).1 : ℝ) ∂ν = 45) (hΔ : ∀ i, ∫ y, ((y i).2 : ℝ) ∂ν = 185)
    (hnear : ∀ i, ∀ᵐ y ∂ν, (10 : ℝ) ≤ (y i).2) : ∀ x ∈ randK ext zs, x ≠ (fun _ => 5) →
      ∫ ω : ℕ → Outcome 2, c (ω 0) (fun _ => 5) ∂(Measure.infinitePi fun _ : ℕ => ν) <
        ∫ ω : ℕ → Outcome 2, c (ω 0) x ∂(Measure.infinitePi fun _ : ℕ => ν) := by
  obtain ⟨hY, -, -, hint⟩ := rand_iid ν
  have hv := (prob_varying ext zs 3 [184, 186]).1
  refine C177_truth (Y := fun k (ω : ℕ → Outcome 2) => ω k) (ψ := fun _ _ => 45) (Δ := fun x _ => 180 + x 0)
    (by rw [hv]; rfl) hc (hY 0) (y0 := randY) (fun x _ => rand_values ext zs x)
    ((prob_within ext zs).mpr (by norm_num)) (fun i => ?_) (fun i => ?_) (fun x hx i => ?_) (fun x _ hne => ?_)
  · rw [hint (fun y => ((y i).1 : ℝ)) (by fun_prop), hψ]
  · rw [hint (fun y => ((y i).2 : ℝ)) (by fun_prop), hΔ]
    norm_num
  · have h1 : ∀ᵐ ω : ℕ → Outcome 2 ∂(Measure.infinitePi fun _ : ℕ => ν), (10 : ℝ) ≤ (ω 0 i).2 :=
      (measurePreserving_eval_infinitePi (fun _ : ℕ => ν) 0).quasiMeasurePreserving.ae (hnear i)
    filter_upwards [h1] with ω hω
    have hx' := (prob_within ext zs).mp hx
    have := (ω 0 i).2.2.2
    exact abs_le.mpr ⟨by linarith, by linarith⟩
  · refine ⟨0, .inr fun h => hne (funext fun i => ?_)⟩
    rw [Subsingleton.elim i 0]
    linarith

theorem rand_prior (ext : Ext) (zs : List Layer → ℝ → ℝ → Bool) (x : Fin 1 → ℝ) :
    prior (probEnv ext zs) (probObj none) (barSt 3 [184, 186]) x =
      (Set.Icc (0 : ℝ) 10).indicator (fun _ => Real.exp (-Real.log 10)) (x 0) := by
  rw [prior, Fin.prod_univ_one]
  simp only [priorDensity, probEnv]
  by_cases h : 0 ≤ x 0 ∧ x 0 ≤ 10
  · rw [if_pos h, Set.indicator_of_mem (show x 0 ∈ Set.Icc (0 : ℝ) 10 from h)]
  · rw [if_neg h, Set.indicator_of_notMem (show x 0 ∉ Set.Icc (0 : ℝ) 10 from h)]

theorem rand_proper (ext : Ext) (zs : List Layer → ℝ → ℝ → Bool) (q : PId) : Integrable (priorDensity (probEnv ext zs) q) := by
  have : priorDensity (probEnv ext zs) q = (Set.Icc (0 : ℝ) 10).indicator (fun _ => Real.exp (-Real.log 10)) := by
    funext v
    simp only [priorDensity, probEnv]
    by_cases h : 0 ≤ v ∧ v ≤ 10
    · rw [if_pos h, Set.indicator_of_mem (show v ∈ Set.Icc (0 : ℝ) 10 from h)]
    · rw [if_neg h, Set.indicator_of_notMem (show v ∉ Set.Icc (0 : ℝ) 10 from h)]
  rw [this]
  exact (integrableOn_const (hs := isCompact_Icc.measure_lt_top.ne)).integrable_indicator measurableSet_Icc

/-- Non-vacuity of `C177_fit`, `C177_posterior`, `C177_turns` and `C177_truth`: deltas of any distribution with the mean 185 (and at least
10, so that none is more than half a turn away).  The best offsets and the mean offset over the posterior approach 5. -/
example (ext : Ext) (zs : List Layer → ℝ → ℝ → Bool) (ν : Measure (Outcome 2)) [IsProbabilityMeasure ν]
    (hψ : ∀ i, ∫ y, ((y i).1 : ℝ) ∂ν = 45) (hΔ : ∀ i, ∫ y, ((y i).2 : ℝ) ∂ν = 185)
    (hnear : ∀ i, ∀ᵐ y ∂ν, (10 : ℝ) ≤ (y i).2) :
    ∀ᵐ ω ∂(Measure.infinitePi fun _ : ℕ => ν),
      (∀ b : ℕ → Fin 1 → ℝ, (∀ N, b N ∈ randK ext zs) →
        (∀ N, ∀ x ∈ randK ext zs, ∀ u v : ℝ,
          (chisqr (probEnv ext zs) { probObj none with data := colData (readingsN randPl ω N) } (some (List.ofFn (b N)))
            { barSt 3 [184, 186] with heap := colHeap (readingsN randPl ω N) }).1 = .ok (some u) →
          (chisqr (probEnv ext zs) { probObj none with data := colData (readingsN randPl ω N) } (some (List.ofFn x))
            { barSt 3 [184, 186] with heap := colHeap (readingsN randPl ω N) }).1 = .ok (some v) → u ≤ v) →
        Tendsto b atTop (𝓝 fun _ => 5)) ∧
      Tendsto (fun N => (∫ x : Fin 1 → ℝ, x 0 * densityN (probEnv ext zs) (probObj none) (barSt 3 [184, 186])
          (fun N => colHeap (readingsN randPl ω N)) (fun N => colData (readingsN randPl ω N)) N x) /
        ∫ x : Fin 1 → ℝ, densityN (probEnv ext zs) (probObj none) (barSt 3 [184, 186])
          (fun N => colHeap (readingsN randPl ω N)) (fun N => colData (readingsN randPl ω N)) N x) atTop (𝓝 5) := by
  have hn : 1 = (varying (probEnv ext zs) (probObj none) (barSt 3 [184, 186])).length := by
    rw [(prob_varying ext zs 3 [184, 186]).1]; rfl
  have hS := prob_searches ext zs
  rw [← rand_readings] at hS
  obtain ⟨c, hc⟩ := Searches.chiOf hn hS
  obtain ⟨hY, hind, hid, -⟩ := rand_iid ν
  have hmin := rand_minimum ext zs hc ν hψ hΔ hnear
  have hx0 : (fun _ => 5 : Fin 1 → ℝ) ∈ randK ext zs := (prob_within ext zs).mpr (by norm_num)
  have hin : ∀ x : Fin 1 → ℝ, prior (probEnv ext zs) (probObj none) (barSt 3 [184, 186]) x ≠ 0 → x ∈ randK ext zs := by
    intro x hx
    refine (prob_within ext zs).mpr ?_
    by_contra h
    exact hx (by rw [rand_prior, Set.indicator_of_notMem (show x 0 ∉ Set.Icc (0 : ℝ) 10 from h)])
  have h1 := C177_fit (Y := fun k (ω : ℕ → Outcome 2) => ω k) hn hS (rand_compact ext zs) (rand_off ext zs) hc hY hind hid
    hx0 hmin (H := fun N ω => colHeap (readingsN randPl ω N)) (D := fun N ω => colData (readingsN randPl ω N))
    fun N ω => col_presents _
  have h2 := C177_posterior (Y := fun k (ω : ℕ → Outcome 2) => ω k) hn rfl hS (rand_compact ext zs) (rand_off ext zs) hc hY
    hind hid hx0 hmin (H := fun N ω => colHeap (readingsN randPl ω N)) (D := fun N ω => colData (readingsN randPl ω N))
    (fun N ω => col_presents _) (fun _ _ => rfl) (fun q _ => rand_proper ext zs q) hin
    (fun U hU => mass_of_nhds hn (fun q _ => rand_proper ext zs q) (by
      have : ∀ᶠ x : Fin 1 → ℝ in 𝓝 (fun _ => 5), x 0 ∈ Set.Ioo (0 : ℝ) 10 :=
        (continuous_apply (0 : Fin 1)).continuousAt.eventually (Ioo_mem_nhds (by norm_num) (by norm_num))
      filter_upwards [this] with x hx
      rw [rand_prior, Set.indicator_of_mem (Set.Ioo_subset_Icc_self hx)]
      exact (Real.exp_pos _).ne') hU)
  filter_upwards [h1, h2] with ω h1 h2
  refine ⟨h1, h2 (fun x => x 0) ?_ (continuous_apply (0 : Fin 1)).continuousAt⟩
  have hp := prior_integrable hn fun q _ => rand_proper ext zs q
  refine (hp.const_mul 10).mono' ((continuous_apply (0 : Fin 1)).measurable.aestronglyMeasurable.mul hp.aestronglyMeasurable)
    (Eventually.of_forall fun x => ?_)
  rw [norm_mul, Real.norm_of_nonneg (prior_nonneg _ _ _ x)]
  by_cases h : prior (probEnv ext zs) (probObj none) (barSt 3 [184, 186]) x = 0
  · rw [h, mul_zero, mul_zero]
  · have := (prob_within ext zs).mp (hin x h)
    exact mul_le_mul_of_nonneg_right (by rw [Real.norm_of_nonneg this.1]; exact this.2) (prior_nonneg _ _ _ x)

/-- The results 0 and 360, the latter somewhat more often. -/
noncomputable def wrapLaw : Measure (Outcome 2) :=
  ENNReal.ofReal (175 / 360) • Measure.dirac (fun _ => (⟨45, by norm_num⟩, ⟨0, by norm_num⟩)) +
    ENNReal.ofReal (185 / 360) • Measure.dirac (fun _ => (⟨45, by norm_num⟩, ⟨360, by norm_num⟩))

instance : IsProbabilityMeasure wrapLaw :=
  ⟨by
    simp only [wrapLaw, Measure.add_apply, Measure.smul_apply, measure_univ, smul_eq_mul, mul_one]
    rw [← ENNReal.ofReal_add (by norm_num) (by norm_num)]
    norm_num⟩

theorem wrap_integral {f : Outcome 2 → ℝ} (hf : Measurable f) : ∫ y, f y ∂wrapLaw =
    175 / 360 * f (fun _ => (⟨45, by norm_num⟩, ⟨0, by norm_num⟩)) +
      185 / 360 * f (fun _ => (⟨45, by norm_num⟩, ⟨360, by norm_num⟩)) := by
  have hi : ∀ (r : ℝ) (y : Outcome 2), Integrable f (ENNReal.ofReal r • Measure.dirac y) := fun r y =>
    (integrable_dirac' hf.stronglyMeasurable enorm_lt_top).smul_measure ENNReal.ofReal_ne_top
  rw [wrapLaw, integral_add_measure (hi _ _) (hi _ _), integral_smul_measure, integral_smul_measure,
    integral_dirac' _ _ hf.stronglyMeasurable, integral_dirac' _ _ hf.stronglyMeasurable,
    ENNReal.toReal_ofReal (by norm_num), ENNReal.toReal_ofReal (by norm_num), smul_eq_mul, smul_eq_mul]

/-- C177 needs deltas counted without jumps from 360 to 0: with jumps, their mean is 185, the value of the model for the offset 5, but
the mean of chi-squared is less for the offset 10. -/
theorem C177_needs_turns (ext : Ext) (zs : List Layer → ℝ → ℝ → Bool) {c : Outcome 2 → (Fin 1 → ℝ) → ℝ}
    (hc : ChiOf (probEnv ext zs) (probObj none) (barSt 3 [184, 186]) randPl (randK ext zs) c) :
    (∀ i, ∫ y, ((y i).1 : ℝ) ∂wrapLaw = 45) ∧ (∀ i, ∫ y, ((y i).2 : ℝ) ∂wrapLaw = 185) ∧
    Values (probEnv ext zs) (probObj none)
      (setp (probEnv ext zs) (probObj none) (some [5]) (barSt 3 [184, 186])).2 (readings randPl randY)
      (cellsOf [(45, 185), (45, 185)]) ∧
    (fun _ => 5) ∈ randK ext zs ∧ (fun _ => 10) ∈ randK ext zs ∧
    ∫ y, c y (fun _ => 10) ∂wrapLaw < ∫ y, c y (fun _ => 5) ∂wrapLaw := by
  have hv := (prob_varying ext zs 3 [184, 186]).1
  have hn : 1 = (varying (probEnv ext zs) (probObj none) (barSt 3 [184, 186])).length := by rw [hv]; rfl
  have h5 : (fun _ => 5 : Fin 1 → ℝ) ∈ randK ext zs := (prob_within ext zs).mpr (by norm_num)
  have h10 : (fun _ => 10 : Fin 1 → ℝ) ∈ randK ext zs := (prob_within ext zs).mpr (by norm_num)
  have hval := fun y x hx => chiOf_value (ψ := fun _ _ => 45) (Δ := fun x _ => 180 + x 0) (x := x) hn hc
    (fun x _ => rand_values ext zs x) y hx
  refine ⟨fun i => ?_, fun i => ?_, ?_, h5, h10, ?_⟩
  · rw [wrap_integral (f := fun y => ((y i).1 : ℝ)) (by fun_prop)]
    norm_num
  · rw [wrap_integral (f := fun y => ((y i).2 : ℝ)) (by fun_prop)]
    norm_num
  · have := rand_values ext zs (fun _ => 5)
    norm_num at this
    exact this
  · have hm : ∀ v : ℝ, Measurable fun y : Outcome 2 =>
        ∑ i, (((45 : ℝ) - (y i).1) ^ 2 + circularDistance (180 + v) (y i).2 360 ^ 2) := by
      intro v
      unfold circularDistance
      fun_prop
    have e : ∀ x ∈ randK ext zs, ∫ y, c y x ∂wrapLaw = ∫ y,
        ∑ i, (((45 : ℝ) - (y i).1) ^ 2 + circularDistance (180 + x 0) (y i).2 360 ^ 2) ∂wrapLaw := fun x hx =>
      integral_congr_ae (Eventually.of_forall fun y => hval y x hx)
    rw [e _ h5, e _ h10, wrap_integral (hm _), wrap_integral (hm _)]
    simp only [circularDistance, Fin.sum_univ_two]
    norm_num [abs_of_pos, abs_of_neg, min_def]

/-- Non-vacuity of `C177_needs_turns`: there is such a function. -/
example (ext : Ext) (zs : List Layer → ℝ → ℝ → Bool) :
    ∃ c, ChiOf (probEnv ext zs) (probObj none) (barSt 3 [184, 186]) randPl (randK ext zs) c := by
  have hS := prob_searches ext zs
  rw [← rand_readings] at hS
  exact Searches.chiOf (by rw [(prob_varying ext zs 3 [184, 186]).1]; rfl) hS

end Verif.Obj
