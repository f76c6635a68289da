import Verif.Obj.PropsRecover
import Verif.TMM.PropsAbsorb

/-! # C181: the dispersion of absorbing substrates from noisy measurements -/

namespace Verif.Obj
open Verif.Struct Verif.TMM Verif.RModel Verif.Data Verif.Disp Filter Topology MeasureTheory ProbabilityTheory

/-- The objective fits parameters of a bare substrate which absorbs at all parameters in `K`: at the parameters `x` its
index is `N x w` at the wavelength `w`, that of the medium in front is `n₀ w`.  It is measured at these places, obliquely,
with no offset of delta. -/
structure MeasuresAbsorber {m n : ℕ} (env : Env) (o : Objective) (st : St) (cs : List Comp) (n₀ : ℝ → ℝ)
    (N : (Fin n → ℝ) → ℝ → ℂ) (pl : Fin m → ℝ × ℝ) (K : Set (Fin n → ℝ)) : Prop where
  float : env.dt = .float
  size : n = (varying env o st).length
  fixed : (st.models o.model).rm.off ∉ varying env o st
  zero : st.vals (st.models o.model).rm.off = 0
  plain : Plain (st.structs (st.models o.model).str) cs
  places : ∀ i, 0 < (pl i).1 ∧ 0 < n₀ (pl i).1 ∧ 0 < (pl i).2 ∧ (pl i).2 < 90
  index : ∀ i, ∀ x ∈ K, ContinuousAt (fun x => N x (pl i).1) x
  absorbs : ∀ i, ∀ x ∈ K, 0 < (N x (pl i).1).re ∧ 0 < (N x (pl i).1).im
  sees : ∀ i x, 0 < (N x (pl i).1).re → 0 < (N x (pl i).1).im → Sees env.ext.zs (valsAt env o st (List.ofFn x))
    (st.structs (st.models o.model).str) cs (pl i).1 ⟨(n₀ (pl i).1 : ℂ), [], N x (pl i).1⟩

section
variable {env : Env} {o : Objective} {st : St} {m n : ℕ} {cs : List Comp} {n₀ : ℝ → ℝ} {N : (Fin n → ℝ) → ℝ → ℂ}
  {pl : Fin m → ℝ × ℝ} {K : Set (Fin n → ℝ)}

theorem MeasuresAbsorber.off_zero (h : MeasuresAbsorber env o st cs n₀ N pl K) (x : Fin n → ℝ) :
    valsAt env o st (List.ofFn x) (st.models o.model).rm.off = 0 :=
  (assign_not_mem _ _ _ h.fixed).trans h.zero

theorem MeasuresAbsorber.angle (h : MeasuresAbsorber env o st cs n₀ N pl K) (i : Fin m) :
    0 < rad (pl i).2 ∧ rad (pl i).2 < Real.pi / 2 := by
  obtain ⟨-, -, h1, h2⟩ := h.places i
  have := Real.pi_pos
  unfold rad
  constructor
  · positivity
  · have : (pl i).2 * (Real.pi / 180) < 90 * (Real.pi / 180) := mul_lt_mul_of_pos_right h2 (by positivity)
    linarith

theorem MeasuresAbsorber.sin_ne (h : MeasuresAbsorber env o st cs n₀ N pl K) (i : Fin m) :
    Real.sin (rad (pl i).2) ≠ 0 :=
  (Real.sin_pos_of_pos_of_lt_pi (h.angle i).1 (by linarith [(h.angle i).2, Real.pi_pos])).ne'

theorem MeasuresAbsorber.physical (h : MeasuresAbsorber env o st cs n₀ N pl K) (i : Fin m) {x : Fin n → ℝ}
    (hx : 0 < (N x (pl i).1).re ∧ 0 < (N x (pl i).1).im) :
    Physical ⟨(n₀ (pl i).1 : ℂ), [], N x (pl i).1⟩ (n₀ (pl i).1) (rad (pl i).2) (pl i).1 := by
  obtain ⟨h1, h2⟩ := h.angle i
  exact physical_bare ⟨hx.1, hx.2.le⟩ (h.places i).2.1 (by rw [abs_of_pos h1]; exact h2) (h.places i).1

/-- The values of psi and delta, from which the index follows. -/
theorem MeasuresAbsorber.cells (h : MeasuresAbsorber env o st cs n₀ N pl K) : ∃ ψ Δ : (Fin n → ℝ) → Fin m → ℝ,
    (∀ x ∈ K, ∀ pts : List Pt, pts.map (fun p => (p.1, p.2.1)) = List.ofFn pl →
      Values env o (setp env o (some (List.ofFn x)) st).2 pts (cellsOf (List.ofFn fun i => (ψ x i, Δ x i)))) ∧
    (∀ x ∈ K, ∀ y ∈ K, ∀ i, ψ x i = ψ y i → Δ x i = Δ y i → N x (pl i).1 = N y (pl i).1) ∧
    ∀ x ∈ K, ∀ i, (0 ≤ ψ x i ∧ ψ x i ≤ 45) ∧ 0 < Δ x i ∧ Δ x i < 180 := by
  have hex : ∀ (x : Fin n → ℝ) (i : Fin m), ∃ p d : ℝ, x ∈ K → ∃ rows,
      (slabs env.ext (valsAt env o st (List.ofFn x))
        { st.structs (st.models o.model).str with wavelength := some (pl i).1 } none).1 = .ok (some rows) ∧
      RowsOf rows ⟨(n₀ (pl i).1 : ℂ), [], N x (pl i).1⟩ ∧ (0 ≤ p ∧ p ≤ 45) ∧ (0 < d ∧ d < 180) ∧
      (deltaPsiTMM env.zs [(pl i).2] rows (pl i).1 0 (st.models o.model).rm.flip).1 = .ok [(some p, some d)] := by
    intro x i
    by_cases hx : x ∈ K
    · obtain ⟨rows, h1, h2⟩ := C117_slabs h.plain (h.places i).1.ne' (h.sees i x (h.absorbs i x hx).1 (h.absorbs i x hx).2)
      obtain ⟨p, d, h3, h4, h5, h6, h7⟩ := C181_half h2 (h.physical i (h.absorbs i x hx)) (h.absorbs i x hx).2 (h.sin_ne i)
        env.zs 0
      rw [sub_zero] at h5 h6
      exact ⟨p, d, fun _ => ⟨rows, h1, h2, ⟨h3.le, h4⟩, ⟨h5, h6⟩, h7 _⟩⟩
    · exact ⟨0, 0, fun h => absurd h hx⟩
  choose ψ Δ hψ using hex
  refine ⟨ψ, Δ, fun x hx pts hpts => ?_, fun x hx y hy i he he' => ?_, fun x hx i => ?_⟩
  · rw [setp_valsAt h.size]
    unfold Values
    rw [model_ok, hpts, cellsOf, List.map_ofFn]
    refine forall₂_ofFn fun i => ?_
    obtain ⟨rows, h1, -, -, -, h3⟩ := hψ x i hx
    refine ⟨rows, (some (ψ x i), some (Δ x i)), h1, ?_, by rw [h.float]; rfl⟩
    simp only [h.off_zero x]
    exact h3
  · obtain ⟨rows, -, h2, -, -, h3⟩ := hψ x i hx
    obtain ⟨rows', -, h2', -, -, h3'⟩ := hψ y i hy
    rw [he, he'] at h3
    exact C112_unique h2 h2' (h.physical i (h.absorbs i x hx)) (h.physical i (h.absorbs i y hy)) (h.sin_ne i) h3 h3'
      ⟨rfl, .inl rfl⟩
  · obtain ⟨rows, -, -, h3, h4, -⟩ := hψ x i hx
    exact ⟨h3, h4⟩

/-- There is noise without bias: delta is too small or too large by its distance to 0 or to 180, whichever
is smaller. -/
theorem MeasuresAbsorber.noise (h : MeasuresAbsorber env o st cs n₀ N pl K) (i0 : Fin m) {x0 : Fin n → ℝ} (hx0 : x0 ∈ K) :
    ∃ ν : Measure (Outcome m), IsProbabilityMeasure ν ∧ (∀ y, ν {y} ≠ 1) ∧
      (∀ i, ∀ᵐ y ∂ν, ((y i).2 : ℝ) ≤ 180) ∧ Unbiased env o st ν pl id x0 := by
  obtain ⟨ψ, Δ, hv, -, hb⟩ := h.cells
  have ht : ∀ i, 0 < min (Δ x0 i) (180 - Δ x0 i) := fun i => lt_min (hb x0 hx0 i).2.1 (sub_pos.mpr (hb x0 hx0 i).2.2)
  have hd : ∀ (s : Bool) i, 0 ≤ Δ x0 i + (if s then 1 else -1) * min (Δ x0 i) (180 - Δ x0 i) ∧
      Δ x0 i + (if s then 1 else -1) * min (Δ x0 i) (180 - Δ x0 i) ≤ 180 := by
    intro s i
    have k1 := min_le_left (Δ x0 i) (180 - Δ x0 i)
    have k2 := min_le_right (Δ x0 i) (180 - Δ x0 i)
    have k3 := ht i
    cases s <;> simp only [Bool.false_eq_true, if_true, if_false] <;> constructor <;> linarith
  let y : Bool → Outcome m := fun s i =>
    (⟨ψ x0 i, (hb x0 hx0 i).1.1, (hb x0 hx0 i).1.2.trans (by norm_num)⟩, ⟨_, (hd s i).1, (hd s i).2.trans (by norm_num)⟩)
  have hhalf : ENNReal.ofReal (1 / 2) + ENNReal.ofReal (1 / 2) = 1 := by
    rw [← ENNReal.ofReal_add (by norm_num) (by norm_num)]
    norm_num
  let ν : Measure (Outcome m) :=
    ENNReal.ofReal (1 / 2) • Measure.dirac (y false) + ENNReal.ofReal (1 / 2) • Measure.dirac (y true)
  have hp : IsProbabilityMeasure ν := ⟨by
    simp only [ν, Measure.add_apply, Measure.smul_apply, measure_univ, smul_eq_mul, mul_one]
    exact hhalf⟩
  have hint : ∀ f : Outcome m → ℝ, Measurable f → ∫ z, f z ∂ν = (f (y false) + f (y true)) / 2 := by
    intro f hf
    have hi : ∀ z : Outcome m, Integrable f (ENNReal.ofReal (1 / 2) • Measure.dirac z) := fun z =>
      (integrable_dirac' hf.stronglyMeasurable enorm_lt_top).smul_measure ENNReal.ofReal_ne_top
    rw [integral_add_measure (hi _) (hi _), integral_smul_measure, integral_smul_measure,
      integral_dirac' _ _ hf.stronglyMeasurable, integral_dirac' _ _ hf.stronglyMeasurable,
      ENNReal.toReal_ofReal (by norm_num)]
    simp only [smul_eq_mul]
    ring
  have hmean : meanReadings ν pl id = List.ofFn fun i => ((pl i).1, (pl i).2, ψ x0 i, Δ x0 i) := by
    unfold meanReadings
    congr 1
    funext i
    have k1 := hint (fun z => ((z i).1 : ℝ)) (by fun_prop)
    have k2 := hint (fun z => ((z i).2 : ℝ)) (by fun_prop)
    simp only [id]
    rw [k1, k2]
    simp only [y, Bool.false_eq_true, if_true, if_false]
    ring_nf
  refine ⟨ν, hp, fun z hz => ?_, fun i => ?_, fun H D hD => ?_⟩
  · have hne : y false ≠ y true := fun hy => by
      have := congrArg (fun z : Outcome m => ((z i0).2 : ℝ)) hy
      simp only [y, Bool.false_eq_true, if_true, if_false] at this
      linarith [ht i0]
    have h12 : ν {y false} ≠ 0 ∧ ν {y true} ≠ 0 := by
      simp [ν, hne, hne.symm]
    have hz' : ν {z}ᶜ = 0 := by
      rw [prob_compl_eq_one_sub (measurableSet_singleton z), hz, tsub_self]
    have : y false ∉ ({z}ᶜ : Set (Outcome m)) := fun h =>
      h12.1 (measure_mono_null (Set.singleton_subset_iff.mpr h) hz')
    have : y true ∉ ({z}ᶜ : Set (Outcome m)) := fun h =>
      h12.2 (measure_mono_null (Set.singleton_subset_iff.mpr h) hz')
    simp_all
  · have hm : MeasurableSet {z : Outcome m | ((z i).2 : ℝ) ≤ 180} := measurableSet_le (by fun_prop) measurable_const
    rw [ae_add_measure_iff]
    exact ⟨Measure.ae_smul_measure ((ae_dirac_iff hm).mpr (hd false i).2) _,
      Measure.ae_smul_measure ((ae_dirac_iff hm).mpr (hd true i).2) _⟩
  · rw [hmean] at hD
    rw [chisqr_set (o := { o with data := D }) (by rw [List.length_ofFn]; exact h.size), setp_other h.size,
      chisqr_iff (o := { o with data := D })
        (st := { (setp env o (some (List.ofFn x0)) st).2 with heap := H }) hD]
    refine ⟨_, hv x0 hx0 _ (by simp [List.map_ofFn, Function.comp_def]), ?_⟩
    rw [show ((List.ofFn fun i => ((pl i).1, (pl i).2, ψ x0 i, Δ x0 i)).zip
      (List.ofFn fun i => (ψ x0 i, Δ x0 i))) = List.ofFn fun i =>
        (((pl i).1, (pl i).2, ψ x0 i, Δ x0 i), (ψ x0 i, Δ x0 i)) by apply List.ext_get <;> simp,
      List.map_ofFn, List.sum_ofFn]
    simp [sqTerm, circularDistance]

/-- The fit is a search in the sense of C167. -/
theorem MeasuresAbsorber.searches (h : MeasuresAbsorber env o st cs n₀ N pl K) (y : Outcome m) : ∃ c0,
    Searches env { o with data := colData (readings pl y) }
      (fun p => (setp env { o with data := colData (readings pl y) } (some (List.ofFn p))
        { st with heap := colHeap (readings pl y) }).2) (readings pl y) (st.models o.model)
      (st.structs (st.models o.model).str) cs K c0 := by
  obtain ⟨ψ, Δ, hv, -⟩ := h.cells
  have hset : ∀ p : Fin n → ℝ, _ := fun p => setp_other h.size (colData (readings pl y)) (colHeap (readings pl y)) p
  refine ⟨fun x => (((readings pl y).zip (List.ofFn fun i => (ψ x i, Δ x i))).map fun q => sqTerm q.1 q.2).sum,
    fun x hx => ?_, fun x hx => Eventually.of_forall fun p pt hpt => ?_, fun x hx => ?_⟩
  · simp only [hset, setp_valsAt h.size]
    refine ⟨h.float, fun _ => rfl, fun _ => rfl, h.plain, ?_, fun _ => col_presents _, fun pt hpt => ?_⟩
    · simp only [h.off_zero]
      exact continuousAt_const
    · obtain ⟨i, rfl⟩ := (List.mem_ofFn' _ _).mp hpt
      have hpos := h.absorbs i x hx
      have ev : ∀ᶠ p in 𝓝 x, 0 < (N p (pl i).1).re ∧ 0 < (N p (pl i).1).im :=
        ((Complex.continuous_re.continuousAt.comp (h.index i x hx)).eventually (Ioi_mem_nhds hpos.1)).and
          ((Complex.continuous_im.continuousAt.comp (h.index i x hx)).eventually (Ioi_mem_nhds hpos.2))
      refine ⟨fun _ => n₀ (pl i).1, [], fun p => N p (pl i).1, ⟨continuousAt_const, continuousAt_const,
        continuousAt_const, by simp, h.index i x hx, ?_, by simp, .inl (.inl hpos.2.ne')⟩, ?_⟩
      · filter_upwards [ev] with p hp using h.physical i hp
      · filter_upwards [ev] with p hp using h.sees i p hp.1 hp.2
  · simp only [hset, setp_valsAt h.size]
    obtain ⟨i, rfl⟩ := (List.mem_ofFn' _ _).mp hpt
    simp only [h.off_zero]
    constructor <;> linarith [(y i).2.2.1, (y i).2.2.2]
  · rw [chisqr_iff (by simp only [hset]; exact col_presents _)]
    simp only [hset]
    exact ⟨_, hv x hx _ (readings_map y), rfl⟩

variable {Ω : Type*} [MeasurableSpace Ω] {P : Measure Ω} [IsProbabilityMeasure P] {Y : ℕ → Ω → Outcome m}

/-- The truth is the only minimum of the mean of chi-squared. -/
theorem MeasuresAbsorber.minimum (h : MeasuresAbsorber env o st cs n₀ N pl K) {c : Outcome m → (Fin n → ℝ) → ℝ}
    (hc : ChiOf env o st pl K c) (hid : ∀ x ∈ K, ∀ y ∈ K, (∀ i, N x (pl i).1 = N y (pl i).1) → x = y)
    (hY : Measurable (Y 0)) (hhalf : ∀ i, ∀ᵐ ω ∂P, ((Y 0 ω i).2 : ℝ) ≤ 180) {x0 : Fin n → ℝ} (hx0 : x0 ∈ K)
    (hu : Unbiased env o st P pl (Y 0) x0) :
    ∀ x ∈ K, x ≠ x0 → ∫ ω, c (Y 0 ω) x0 ∂P < ∫ ω, c (Y 0 ω) x ∂P := by
  obtain ⟨ψ, Δ, hv, hinj, hrange⟩ := h.cells
  have hmean := hu _ _ (col_presents _)
  rw [chisqr_set (o := { o with data := colData _ }) (by rw [List.length_ofFn]; exact h.size), setp_other h.size,
    chisqr_iff (o := { o with data := colData _ })
      (st := { (setp env o (some (List.ofFn x0)) st).2 with heap := colHeap _ }) (col_presents _)] at hmean
  obtain ⟨ms, h1, h2⟩ := hmean
  have h3 := hv x0 hx0 (meanReadings P pl (Y 0)) (by simp [meanReadings, List.map_ofFn, Function.comp_def])
  have hms : ms = List.ofFn fun i => (ψ x0 i, Δ x0 i) := by
    have h4 : cellsOf ms = cellsOf (List.ofFn fun i => (ψ x0 i, Δ x0 i)) := by
      have := h1.symm.trans h3
      simpa using this
    refine List.map_injective_iff.mpr (fun a b hab => ?_) h4
    simpa [Prod.ext_iff] using hab
  subst hms
  rw [show (meanReadings P pl (Y 0)).zip (List.ofFn fun i => (ψ x0 i, Δ x0 i)) = List.ofFn fun i =>
    (((pl i).1, (pl i).2, ∫ ω, ((Y 0 ω i).1 : ℝ) ∂P, ∫ ω, ((Y 0 ω i).2 : ℝ) ∂P), (ψ x0 i, Δ x0 i)) by
      unfold meanReadings
      apply List.ext_get <;> simp, List.map_ofFn, List.sum_ofFn] at h2
  have h5 := (Finset.sum_eq_zero_iff_of_nonneg (fun i _ => by simp only [Function.comp, sqTerm]; positivity)).mp h2.symm
  have h6 : ∀ i, ∫ ω, ((Y 0 ω i).1 : ℝ) ∂P = ψ x0 i ∧ ∫ ω, ((Y 0 ω i).2 : ℝ) ∂P = Δ x0 i := by
    intro i
    have := h5 i (Finset.mem_univ i)
    simp only [Function.comp, sqTerm] at this
    obtain ⟨e1, e2⟩ := (add_eq_zero_iff_of_nonneg (sq_nonneg _) (sq_nonneg _)).mp this
    have e1' := pow_eq_zero_iff two_ne_zero |>.mp e1
    have e2' := pow_eq_zero_iff two_ne_zero |>.mp e2
    refine ⟨by linarith, ?_⟩
    obtain ⟨l, u⟩ : 0 ≤ ∫ ω, ((Y 0 ω i).2 : ℝ) ∂P ∧ ∫ ω, ((Y 0 ω i).2 : ℝ) ∂P ≤ 180 := by
      have hb : ∀ᵐ ω ∂P, ‖((Y 0 ω i).2 : ℝ)‖ ≤ 180 := by
        filter_upwards [hhalf i] with ω hω
        rw [Real.norm_of_nonneg (Y 0 ω i).2.2.1]
        exact hω
      have := norm_integral_le_of_norm_le_const (μ := P) hb
      have hn := integral_nonneg (μ := P) (f := fun ω => ((Y 0 ω i).2 : ℝ)) fun ω => (Y 0 ω i).2.2.1
      rw [Real.norm_of_nonneg hn] at this
      exact ⟨hn, by simpa using this⟩
    obtain ⟨-, d0, d1⟩ := hrange x0 hx0 i
    unfold circularDistance at e2'
    have hle : |Δ x0 i - ∫ ω, ((Y 0 ω i).2 : ℝ) ∂P| ≤ 180 := abs_le.mpr ⟨by linarith, by linarith⟩
    rw [min_eq_left (by linarith)] at e2'
    linarith [abs_eq_zero.mp e2']
  refine C177_truth (y0 := zeros) (ψ := ψ) (Δ := Δ) h.size hc hY
    (fun x hx => hv x hx _ (readings_map _)) hx0 (fun i => (h6 i).1) (fun i => (h6 i).2)
    (fun x hx i => ?_) (fun x hx hne => ?_)
  · filter_upwards [hhalf i] with ω hω
    obtain ⟨-, d0, d1⟩ := hrange x hx i
    exact abs_le.mpr ⟨by linarith, by linarith [(Y 0 ω i).2.2.1]⟩
  · by_contra hcon
    push Not at hcon
    exact hne (hid x hx x0 hx0 fun i => hinj x hx x0 hx0 i (hcon i).1 (hcon i).2)

/-- C181: an absorbing substrate of any dispersion law that is known when its values at the measured wavelengths are
known.  If the noise has no bias and no delta above 180 is measured, then almost surely all best fits of the first `k`
measurements approach the true parameters. -/
theorem C181_fit (h : MeasuresAbsorber env o st cs n₀ N pl K) (hK : IsCompact K)
    (hid : ∀ x ∈ K, ∀ y ∈ K, (∀ i, N x (pl i).1 = N y (pl i).1) → x = y)
    (hY : ∀ k, Measurable (Y k)) (hind : Pairwise fun i j => IndepFun (Y i) (Y j) P)
    (hdist : ∀ k, IdentDistrib (Y k) (Y 0) P P) (hhalf : ∀ i, ∀ᵐ ω ∂P, ((Y 0 ω i).2 : ℝ) ≤ 180)
    {x0 : Fin n → ℝ} (hx0 : x0 ∈ K)
    (hu : Unbiased env o st P pl (Y 0) x0) {H : ℕ → Ω → Data.Heap} {D : ℕ → Ω → DS}
    (hD : ∀ k ω, Presents (H k ω) (D k ω) (readingsN pl (fun k => Y k ω) k)) :
    ∀ᵐ ω ∂P, ∀ b : ℕ → Fin n → ℝ, (∀ k, b k ∈ K) →
      (∀ k, ∀ x ∈ K, ∀ u v : ℝ,
        (chisqr env { o with data := D k ω } (some (List.ofFn (b k))) { st with heap := H k ω }).1 = .ok (some u) →
        (chisqr env { o with data := D k ω } (some (List.ofFn x)) { st with heap := H k ω }).1 = .ok (some v) → u ≤ v) →
      Tendsto b atTop (𝓝 x0) := by
  obtain ⟨c0, hS⟩ := h.searches zeros
  obtain ⟨c, hc⟩ := Searches.chiOf (o := { o with data := colData (readings pl zeros) })
    (st := { st with heap := colHeap (readings pl zeros) }) h.size hS
  refine C177_fit (o := { o with data := colData (readings pl zeros) })
    (st := { st with heap := colHeap (readings pl zeros) }) h.size hS hK (fun x _ => ?_) hc hY hind hdist
    hx0 (h.minimum hc hid (hY 0) hhalf hx0 hu) hD
  refine Eventually.of_forall fun p => ?_
  rw [setp_other h.size, setp_valsAt h.size]
  simp only [h.off_zero]
  norm_num

/-- C181: and so does the posterior, for all proper priors within the set that do not exclude the truth. -/
theorem C181_posterior (h : MeasuresAbsorber env o st cs n₀ N pl K) (hK : IsCompact K) (hs : o.lnsigma = none)
    (hid : ∀ x ∈ K, ∀ y ∈ K, (∀ i, N x (pl i).1 = N y (pl i).1) → x = y)
    (hY : ∀ k, Measurable (Y k)) (hind : Pairwise fun i j => IndepFun (Y i) (Y j) P)
    (hdist : ∀ k, IdentDistrib (Y k) (Y 0) P P) (hhalf : ∀ i, ∀ᵐ ω ∂P, ((Y 0 ω i).2 : ℝ) ≤ 180)
    {x0 : Fin n → ℝ} (hx0 : x0 ∈ K)
    (hu : Unbiased env o st P pl (Y 0) x0) {H : ℕ → Ω → Data.Heap} {D : ℕ → Ω → DS}
    (hD : ∀ k ω, Presents (H k ω) (D k ω) (readingsN pl (fun k => Y k ω) k)) (hw : ∀ k ω, (D k ω).weighted = false)
    (hprop : ∀ q ∈ varying env o st, Integrable (priorDensity env q)) (hsupp : ∀ x : Fin n → ℝ, prior env o st x ≠ 0 → x ∈ K)
    (hmass : ∀ U ∈ 𝓝 x0, 0 < ∫ x in U, prior env o st x) :
    ∀ᵐ ω ∂P, ∀ g : (Fin n → ℝ) → ℝ, Integrable (fun x => g x * prior env o st x) → ContinuousAt g x0 →
      Tendsto (fun k => (∫ x, g x * densityN env o st (fun k => H k ω) (fun k => D k ω) k x) /
        ∫ x : Fin n → ℝ, densityN env o st (fun k => H k ω) (fun k => D k ω) k x) atTop (𝓝 (g x0)) := by
  obtain ⟨c0, hS⟩ := h.searches zeros
  obtain ⟨c, hc⟩ := Searches.chiOf (o := { o with data := colData (readings pl zeros) })
    (st := { st with heap := colHeap (readings pl zeros) }) h.size hS
  refine C177_posterior (o := { o with data := colData (readings pl zeros) })
    (st := { st with heap := colHeap (readings pl zeros) }) h.size hs hS hK (fun x _ => ?_) hc hY hind
    hdist hx0 (h.minimum hc hid (hY 0) hhalf hx0 hu) hD hw hprop hsupp hmass
  refine Eventually.of_forall fun p => ?_
  rw [setp_other h.size, setp_valsAt h.size]
  simp only [h.off_zero]
  norm_num

end

end Verif.Obj
