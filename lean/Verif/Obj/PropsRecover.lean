import Verif.Obj.PropsRandom
import Verif.Obj.PropsSubstrate

/-! # C180: the dispersion of glass from noisy measurements -/

namespace Verif.Obj
open Verif.Struct Verif.TMM Verif.RModel Verif.Data Verif.Disp Filter Topology MeasureTheory ProbabilityTheory

/-- The objective fits parameters of a bare transparent substrate: at the parameters `x` its index is `N x w` at the
wavelength `w`, that of the medium in front is `n₀ w`.  It is measured at these places, obliquely and below the Brewster
angle for all parameters in `K`, with no offset of delta. -/
structure MeasuresGlass {m n : ℕ} (env : Env) (o : Objective) (st : St) (cs : List Comp) (n₀ : ℝ → ℝ)
    (N : (Fin n → ℝ) → ℝ → ℝ) (pl : Fin m → ℝ × ℝ) (K : Set (Fin n → ℝ)) : Prop where
  float : env.dt = .float
  size : n = (varying env o st).length
  fixed : (st.models o.model).rm.off ∉ varying env o st
  zero : st.vals (st.models o.model).rm.off = 0
  plain : Plain (st.structs (st.models o.model).str) cs
  places : ∀ i, 0 < (pl i).1 ∧ 0 < n₀ (pl i).1 ∧ 0 < (pl i).2 ∧ (pl i).2 < 90
  index : ∀ i, ∀ x ∈ K, ContinuousAt (fun x => N x (pl i).1) x
  below : ∀ i, ∀ x ∈ K, N x (pl i).1 ≠ n₀ (pl i).1 ∧ Real.tan (rad (pl i).2) < N x (pl i).1 / n₀ (pl i).1
  sees : ∀ i x, 0 < N x (pl i).1 → Sees env.ext.zs (valsAt env o st (List.ofFn x)) (st.structs (st.models o.model).str) cs
    (pl i).1 ⟨(n₀ (pl i).1 : ℂ), [], (N x (pl i).1 : ℂ)⟩

/-- Results that are all 0. -/
def zeros {m : ℕ} : Outcome m := fun _ => (⟨0, by norm_num⟩, ⟨0, by norm_num⟩)

/-- Spec: the points with the mean results. -/
noncomputable def meanReadings {m : ℕ} {Ω : Type*} [MeasurableSpace Ω] (P : Measure Ω) (pl : Fin m → ℝ × ℝ)
    (Y : Ω → Outcome m) : List Pt :=
  List.ofFn fun i => ((pl i).1, (pl i).2, ∫ ω, ((Y ω i).1 : ℝ) ∂P, ∫ ω, ((Y ω i).2 : ℝ) ∂P)

/-- Spec: noise without bias.  The model at the parameters `x0` reproduces the mean results: chi-squared of these is 0. -/
def Unbiased {m n : ℕ} (env : Env) (o : Objective) (st : St) {Ω : Type*} [MeasurableSpace Ω] (P : Measure Ω)
    (pl : Fin m → ℝ × ℝ) (Y : Ω → Outcome m) (x0 : Fin n → ℝ) : Prop :=
  ∀ (H : Data.Heap) (D : DS), Presents H D (meanReadings P pl Y) →
    (chisqr env { o with data := D } (some (List.ofFn x0)) { st with heap := H }).1 = .ok (some 0)

section
variable {env : Env} {o : Objective} {st : St} {m n : ℕ} {cs : List Comp} {n₀ : ℝ → ℝ} {N : (Fin n → ℝ) → ℝ → ℝ}
  {pl : Fin m → ℝ × ℝ} {K : Set (Fin n → ℝ)}

theorem setp_valsAt (hn : n = (varying env o st).length) (x : Fin n → ℝ) :
    (setp env o (some (List.ofFn x)) st).2 = { st with vals := valsAt env o st (List.ofFn x) } := by
  rw [setp, if_pos (by simpa using hn)]
  rfl

theorem forall₂_ofFn {α β : Type*} {R : α → β → Prop} {f : Fin m → α} {g : Fin m → β} (h : ∀ i, R (f i) (g i)) :
    List.Forall₂ R (List.ofFn f) (List.ofFn g) := by
  rw [List.forall₂_iff_get]
  simp [h]

theorem MeasuresGlass.off_zero (h : MeasuresGlass env o st cs n₀ N pl K) (x : Fin n → ℝ) :
    valsAt env o st (List.ofFn x) (st.models o.model).rm.off = 0 :=
  (assign_not_mem _ _ _ h.fixed).trans h.zero

theorem MeasuresGlass.angle (h : MeasuresGlass env o st cs n₀ N pl K) (i : Fin m) :
    0 < rad (pl i).2 ∧ rad (pl i).2 < Real.pi / 2 := by
  obtain ⟨-, -, h1, h2⟩ := h.places i
  have := Real.pi_pos
  unfold rad
  constructor
  · positivity
  · have : (pl i).2 * (Real.pi / 180) < 90 * (Real.pi / 180) := mul_lt_mul_of_pos_right h2 (by positivity)
    linarith

theorem MeasuresGlass.dense (h : MeasuresGlass env o st cs n₀ N pl K) (i : Fin m) {x : Fin n → ℝ} (hx : x ∈ K) :
    0 < N x (pl i).1 ∧ n₀ (pl i).1 * Real.sin (rad (pl i).2) < N x (pl i).1 := by
  obtain ⟨-, h0, -⟩ := h.places i
  obtain ⟨h1, h2⟩ := h.angle i
  obtain ⟨-, h3⟩ := h.below i x hx
  have ht := Real.tan_pos_of_pos_of_lt_pi_div_two h1 h2
  rw [lt_div_iff₀ h0] at h3
  have hs : Real.sin (rad (pl i).2) ≤ Real.tan (rad (pl i).2) := by
    rw [Real.tan_eq_sin_div_cos, le_div_iff₀ (Real.cos_pos_of_mem_Ioo ⟨by linarith [Real.pi_pos], h2⟩)]
    exact mul_le_of_le_one_right (Real.sin_nonneg_of_nonneg_of_le_pi h1.le (by linarith [Real.pi_pos])) (Real.cos_le_one _)
  exact ⟨(mul_pos ht h0).trans h3, lt_of_le_of_lt (by nlinarith) h3⟩

theorem MeasuresGlass.physical (h : MeasuresGlass env o st cs n₀ N pl K) (i : Fin m) {x : Fin n → ℝ}
    (hx : 0 < N x (pl i).1) :
    Physical ⟨(n₀ (pl i).1 : ℂ), [], (N x (pl i).1 : ℂ)⟩ (n₀ (pl i).1) (rad (pl i).2) (pl i).1 := by
  obtain ⟨h1, h2⟩ := h.angle i
  exact physical_bare ⟨by simpa using hx, by simp⟩ (h.places i).2.1 (by rw [abs_of_pos h1]; exact h2) (h.places i).1

/-- What the model computes at a place. -/
theorem MeasuresGlass.value (h : MeasuresGlass env o st cs n₀ N pl K) (i : Fin m) {x : Fin n → ℝ} (hx : x ∈ K) :
    ∃ ψ rows, (slabs env.ext (valsAt env o st (List.ofFn x))
        { st.structs (st.models o.model).str with wavelength := some (pl i).1 } none).1 = .ok (some rows) ∧
      RowsOf rows ⟨(n₀ (pl i).1 : ℂ), [], (N x (pl i).1 : ℂ)⟩ ∧
      (deltaPsiTMM env.zs [(pl i).2] rows (pl i).1 0 (st.models o.model).rm.flip).1 = .ok [(some ψ, some 180)] := by
  obtain ⟨hN, hcrit⟩ := h.dense i hx
  obtain ⟨hw, -, ha, -⟩ := h.places i
  obtain ⟨rows, h1, h2⟩ := C117_slabs h.plain hw.ne' (h.sees i x hN)
  obtain ⟨ψ, -, hψ⟩ := (C113_brewster h2 (h.physical i hN) ha.le hcrit.le (h.below i x hx).1 env.zs 0
    (st.models o.model).rm.flip).1 (h.below i x hx).2
  exact ⟨ψ, rows, h1, h2, by rw [hψ, add_zero]⟩

/-- The values of psi, from which the index follows. -/
theorem MeasuresGlass.psi (h : MeasuresGlass env o st cs n₀ N pl K) : ∃ ψ : (Fin n → ℝ) → Fin m → ℝ,
    (∀ x ∈ K, ∀ pts : List Pt, pts.map (fun p => (p.1, p.2.1)) = List.ofFn pl →
      Values env o (setp env o (some (List.ofFn x)) st).2 pts (cellsOf (List.ofFn fun i => (ψ x i, 180)))) ∧
    (∀ x ∈ K, ∀ y ∈ K, ∀ i, ψ x i = ψ y i → N x (pl i).1 = N y (pl i).1) ∧ ∀ x ∈ K, ∀ i, 0 ≤ ψ x i ∧ ψ x i ≤ 45 := by
  have hex : ∀ (x : Fin n → ℝ) (i : Fin m), ∃ p : ℝ, x ∈ K → ∃ rows,
      (slabs env.ext (valsAt env o st (List.ofFn x))
        { st.structs (st.models o.model).str with wavelength := some (pl i).1 } none).1 = .ok (some rows) ∧
      RowsOf rows ⟨(n₀ (pl i).1 : ℂ), [], (N x (pl i).1 : ℂ)⟩ ∧
      (deltaPsiTMM env.zs [(pl i).2] rows (pl i).1 0 (st.models o.model).rm.flip).1 = .ok [(some p, some 180)] := by
    intro x i
    by_cases hx : x ∈ K
    · obtain ⟨p, hp⟩ := h.value i hx
      exact ⟨p, fun _ => hp⟩
    · exact ⟨0, fun h => absurd h hx⟩
  choose ψ hψ using hex
  refine ⟨ψ, fun x hx pts hpts => ?_, fun x hx y hy i he => ?_, fun x hx i => ?_⟩
  · rw [setp_valsAt h.size]
    unfold Values
    rw [model_ok, hpts, cellsOf, List.map_ofFn]
    refine forall₂_ofFn fun i => ?_
    obtain ⟨rows, h1, -, h3⟩ := hψ x i hx
    refine ⟨rows, (some (ψ x i), some 180), h1, ?_, by rw [h.float]; rfl⟩
    simp only [h.off_zero x]
    exact h3
  · obtain ⟨rows, -, h2, h3⟩ := hψ x i hx
    obtain ⟨rows', -, h2', h3'⟩ := hψ y i hy
    rw [he] at h3
    have hs : Real.sin (rad (pl i).2) ≠ 0 :=
      (Real.sin_pos_of_pos_of_lt_pi (h.angle i).1 (by linarith [(h.angle i).2, Real.pi_pos])).ne'
    have := C112_unique h2 h2' (h.physical i (h.dense i hx).1) (h.physical i (h.dense i hy).1) hs h3 h3'
      ⟨rfl, .inl rfl⟩
    exact_mod_cast this
  · obtain ⟨rows, -, h2, h3⟩ := hψ x i hx
    exact C113_psi_le h2 (h.physical i (h.dense i hx).1) h3

theorem readings_map (y : Outcome m) : (readings pl y).map (fun p => (p.1, p.2.1)) = List.ofFn pl := by
  simp [readings, List.map_ofFn, Function.comp_def]

/-- The fit is a search in the sense of C167. -/
theorem MeasuresGlass.searches (h : MeasuresGlass env o st cs n₀ N pl K) (y : Outcome m) : ∃ c0,
    Searches env { o with data := colData (readings pl y) }
      (fun p => (setp env { o with data := colData (readings pl y) } (some (List.ofFn p))
        { st with heap := colHeap (readings pl y) }).2) (readings pl y) (st.models o.model)
      (st.structs (st.models o.model).str) cs K c0 := by
  obtain ⟨ψ, hv, -⟩ := h.psi
  have hset : ∀ p : Fin n → ℝ, _ := fun p => setp_other h.size (colData (readings pl y)) (colHeap (readings pl y)) p
  refine ⟨fun x => (((readings pl y).zip (List.ofFn fun i => (ψ x i, 180))).map fun q => sqTerm q.1 q.2).sum,
    fun x hx => ?_, fun x hx => Eventually.of_forall fun p pt hpt => ?_, fun x hx => ?_⟩
  · simp only [hset, setp_valsAt h.size]
    refine ⟨h.float, fun _ => rfl, fun _ => rfl, h.plain, ?_, fun _ => col_presents _, fun pt hpt => ?_⟩
    · simp only [h.off_zero]
      exact continuousAt_const
    · obtain ⟨i, rfl⟩ := (List.mem_ofFn' _ _).mp hpt
      have hpos := h.dense i hx
      have ev : ∀ᶠ p in 𝓝 x, 0 < N p (pl i).1 := (h.index i x hx).eventually (Ioi_mem_nhds hpos.1)
      refine ⟨fun _ => n₀ (pl i).1, [], fun p => (N p (pl i).1 : ℂ), ⟨continuousAt_const, continuousAt_const,
        continuousAt_const, by simp, ?_, ?_, by simp, .inl (.inr (.inl ?_))⟩, ?_⟩
      · exact Complex.continuous_ofReal.continuousAt.comp (h.index i x hx)
      · filter_upwards [ev] with p hp using h.physical i hp
      · have h0 : 0 ≤ n₀ (pl i).1 * Real.sin (rad (pl i).2) :=
          mul_nonneg (h.places i).2.1.le (Real.sin_nonneg_of_nonneg_of_le_pi (h.angle i).1.le
            (by linarith [(h.angle i).2, Real.pi_pos]))
        rw [abs_of_nonneg h0, Complex.ofReal_re]
        exact hpos.2
      · filter_upwards [ev] with p hp using h.sees i p hp
  · simp only [hset, setp_valsAt h.size]
    obtain ⟨i, rfl⟩ := (List.mem_ofFn' _ _).mp hpt
    simp only [h.off_zero]
    constructor <;> linarith [(y i).2.2.1, (y i).2.2.2]
  · rw [chisqr_iff (by simp only [hset]; exact col_presents _)]
    simp only [hset]
    exact ⟨_, hv x hx _ (readings_map y), rfl⟩

variable {Ω : Type*} [MeasurableSpace Ω] {P : Measure Ω} [IsProbabilityMeasure P] {Y : ℕ → Ω → Outcome m}

/-- C180: the truth is the only minimum of the mean of chi-squared. -/
theorem MeasuresGlass.minimum (h : MeasuresGlass env o st cs n₀ N pl K) {c : Outcome m → (Fin n → ℝ) → ℝ}
    (hc : ChiOf env o st pl K c) (hid : ∀ x ∈ K, ∀ y ∈ K, (∀ i, N x (pl i).1 = N y (pl i).1) → x = y)
    (hY : Measurable (Y 0)) {x0 : Fin n → ℝ} (hx0 : x0 ∈ K) (hu : Unbiased env o st P pl (Y 0) x0) :
    ∀ x ∈ K, x ≠ x0 → ∫ ω, c (Y 0 ω) x0 ∂P < ∫ ω, c (Y 0 ω) x ∂P := by
  obtain ⟨ψ, hv, hinj, -⟩ := h.psi
  have hmean := hu _ _ (col_presents _)
  rw [chisqr_set (o := { o with data := colData _ }) (by rw [List.length_ofFn]; exact h.size), setp_other h.size,
    chisqr_iff (o := { o with data := colData _ })
      (st := { (setp env o (some (List.ofFn x0)) st).2 with heap := colHeap _ }) (col_presents _)] at hmean
  obtain ⟨ms, h1, h2⟩ := hmean
  have h3 := hv x0 hx0 (meanReadings P pl (Y 0)) (by simp [meanReadings, List.map_ofFn, Function.comp_def])
  have hms : ms = List.ofFn fun i => (ψ x0 i, 180) := by
    have h4 : cellsOf ms = cellsOf (List.ofFn fun i => (ψ x0 i, 180)) := by
      have := h1.symm.trans h3
      simpa using this
    refine List.map_injective_iff.mpr (fun a b hab => ?_) h4
    simpa [Prod.ext_iff] using hab
  subst hms
  rw [show (meanReadings P pl (Y 0)).zip (List.ofFn fun i => (ψ x0 i, (180 : ℝ))) = List.ofFn fun i =>
    (((pl i).1, (pl i).2, ∫ ω, ((Y 0 ω i).1 : ℝ) ∂P, ∫ ω, ((Y 0 ω i).2 : ℝ) ∂P), (ψ x0 i, (180 : ℝ))) by
      unfold meanReadings
      apply List.ext_get <;> simp, List.map_ofFn, List.sum_ofFn] at h2
  have h5 := (Finset.sum_eq_zero_iff_of_nonneg (fun i _ => by simp only [Function.comp, sqTerm]; positivity)).mp h2.symm
  have h6 : ∀ i, ∫ ω, ((Y 0 ω i).1 : ℝ) ∂P = ψ x0 i ∧ ∫ ω, ((Y 0 ω i).2 : ℝ) ∂P = 180 := by
    intro i
    have := h5 i (Finset.mem_univ i)
    simp only [Function.comp, sqTerm] at this
    obtain ⟨e1, e2⟩ := (add_eq_zero_iff_of_nonneg (sq_nonneg _) (sq_nonneg _)).mp this
    have e1' := pow_eq_zero_iff two_ne_zero |>.mp e1
    have e2' := pow_eq_zero_iff two_ne_zero |>.mp e2
    refine ⟨by linarith, ?_⟩
    obtain ⟨l, u⟩ : 0 ≤ ∫ ω, ((Y 0 ω i).2 : ℝ) ∂P ∧ ∫ ω, ((Y 0 ω i).2 : ℝ) ∂P ≤ 360 := by
      have hb : ∀ ω, ‖((Y 0 ω i).2 : ℝ)‖ ≤ 360 := fun ω => by
        rw [Real.norm_of_nonneg (Y 0 ω i).2.2.1]; exact (Y 0 ω i).2.2.2
      have := norm_integral_le_of_norm_le_const (μ := P) (Eventually.of_forall hb)
      have hn := integral_nonneg (μ := P) (f := fun ω => ((Y 0 ω i).2 : ℝ)) fun ω => (Y 0 ω i).2.2.1
      rw [Real.norm_of_nonneg hn] at this
      exact ⟨hn, by simpa using this⟩
    unfold circularDistance at e2'
    have hle : |180 - ∫ ω, ((Y 0 ω i).2 : ℝ) ∂P| ≤ 180 := abs_le.mpr ⟨by linarith, by linarith⟩
    rw [min_eq_left (by linarith)] at e2'
    linarith [abs_eq_zero.mp e2']
  refine C177_truth (y0 := zeros) (ψ := ψ) (Δ := fun _ _ => 180) h.size hc hY
    (fun x hx => hv x hx _ (readings_map _)) hx0 (fun i => (h6 i).1) (fun i => (h6 i).2)
    (fun x _ i => Eventually.of_forall fun ω => ?_) (fun x hx hne => ?_)
  · exact abs_le.mpr ⟨by linarith [(Y 0 ω i).2.2.2], by linarith [(Y 0 ω i).2.2.1]⟩
  · by_contra hcon
    push Not at hcon
    exact hne (hid x hx x0 hx0 fun i => hinj x hx x0 hx0 i (hcon i).1)

/-- C180: glass of any dispersion law that is known when its values at the measured wavelengths are known.  If the noise
has no bias, then almost surely all best fits of the first `k` measurements approach the true parameters. -/
theorem C180_fit (h : MeasuresGlass env o st cs n₀ N pl K) (hK : IsCompact K)
    (hid : ∀ x ∈ K, ∀ y ∈ K, (∀ i, N x (pl i).1 = N y (pl i).1) → x = y)
    (hY : ∀ k, Measurable (Y k)) (hind : Pairwise fun i j => IndepFun (Y i) (Y j) P)
    (hdist : ∀ k, IdentDistrib (Y k) (Y 0) P P) {x0 : Fin n → ℝ} (hx0 : x0 ∈ K)
    (hu : Unbiased env o st P pl (Y 0) x0) {H : ℕ → Ω → Data.Heap} {D : ℕ → Ω → DS}
    (hD : ∀ k ω, Presents (H k ω) (D k ω) (readingsN pl (fun k => Y k ω) k)) :
    ∀ᵐ ω ∂P, ∀ b : ℕ → Fin n → ℝ, (∀ k, b k ∈ K) →
      (∀ k, ∀ x ∈ K, ∀ u v : ℝ,
        (chisqr env { o with data := D k ω } (some (List.ofFn (b k))) { st with heap := H k ω }).1 = .ok (some u) →
        (chisqr env { o with data := D k ω } (some (List.ofFn x)) { st with heap := H k ω }).1 = .ok (some v) → u ≤ v) →
      Tendsto b atTop (𝓝 x0) := by
  obtain ⟨c0, hS⟩ := h.searches zeros
  obtain ⟨c, hc⟩ := Searches.chiOf (o := { o with data := colData (readings pl zeros) })
    (st := { st with heap := colHeap (readings pl zeros) }) h.size hS
  refine C177_fit (o := { o with data := colData (readings pl zeros) })
    (st := { st with heap := colHeap (readings pl zeros) }) h.size hS hK (fun x _ => ?_) hc hY hind hdist
    hx0 (h.minimum hc hid (hY 0) hx0 hu) hD
  refine Eventually.of_forall fun p => ?_
  rw [setp_other h.size, setp_valsAt h.size]
  simp only [h.off_zero]
  norm_num

/-- C180: and so does the posterior, for all proper priors within the set that do not exclude the truth. -/
theorem C180_posterior (h : MeasuresGlass env o st cs n₀ N pl K) (hK : IsCompact K) (hs : o.lnsigma = none)
    (hid : ∀ x ∈ K, ∀ y ∈ K, (∀ i, N x (pl i).1 = N y (pl i).1) → x = y)
    (hY : ∀ k, Measurable (Y k)) (hind : Pairwise fun i j => IndepFun (Y i) (Y j) P)
    (hdist : ∀ k, IdentDistrib (Y k) (Y 0) P P) {x0 : Fin n → ℝ} (hx0 : x0 ∈ K)
    (hu : Unbiased env o st P pl (Y 0) x0) {H : ℕ → Ω → Data.Heap} {D : ℕ → Ω → DS}
    (hD : ∀ k ω, Presents (H k ω) (D k ω) (readingsN pl (fun k => Y k ω) k)) (hw : ∀ k ω, (D k ω).weighted = false)
    (hprop : ∀ q ∈ varying env o st, Integrable (priorDensity env q)) (hsupp : ∀ x : Fin n → ℝ, prior env o st x ≠ 0 → x ∈ K)
    (hmass : ∀ U ∈ 𝓝 x0, 0 < ∫ x in U, prior env o st x) :
    ∀ᵐ ω ∂P, ∀ g : (Fin n → ℝ) → ℝ, Integrable (fun x => g x * prior env o st x) → ContinuousAt g x0 →
      Tendsto (fun k => (∫ x, g x * densityN env o st (fun k => H k ω) (fun k => D k ω) k x) /
        ∫ x : Fin n → ℝ, densityN env o st (fun k => H k ω) (fun k => D k ω) k x) atTop (𝓝 (g x0)) := by
  obtain ⟨c0, hS⟩ := h.searches zeros
  obtain ⟨c, hc⟩ := Searches.chiOf (o := { o with data := colData (readings pl zeros) })
    (st := { st with heap := colHeap (readings pl zeros) }) h.size hS
  refine C177_posterior (o := { o with data := colData (readings pl zeros) })
    (st := { st with heap := colHeap (readings pl zeros) }) h.size hs hS hK (fun x _ => ?_) hc hY hind
    hdist hx0 (h.minimum hc hid (hY 0) hx0 hu) hD hw hprop hsupp hmass
  refine Eventually.of_forall fun p => ?_
  rw [setp_other h.size, setp_valsAt h.size]
  simp only [h.off_zero]
  norm_num

/-- There is noise without bias: delta is 10 degrees too small or too large. -/
theorem MeasuresGlass.noise (h : MeasuresGlass env o st cs n₀ N pl K) (i0 : Fin m) {x0 : Fin n → ℝ} (hx0 : x0 ∈ K) :
    ∃ ν : Measure (Outcome m), IsProbabilityMeasure ν ∧ (∀ y, ν {y} ≠ 1) ∧ Unbiased env o st ν pl id x0 := by
  obtain ⟨ψ, hv, -, hb⟩ := h.psi
  let y : Set.Icc (0 : ℝ) 360 → Outcome m := fun d i =>
    (⟨ψ x0 i, (hb x0 hx0 i).1, (hb x0 hx0 i).2.trans (by norm_num)⟩, d)
  let d1 : Set.Icc (0 : ℝ) 360 := ⟨170, by norm_num⟩
  let d2 : Set.Icc (0 : ℝ) 360 := ⟨190, by norm_num⟩
  have hhalf : ENNReal.ofReal (1 / 2) + ENNReal.ofReal (1 / 2) = 1 := by
    rw [← ENNReal.ofReal_add (by norm_num) (by norm_num)]
    norm_num
  let ν : Measure (Outcome m) :=
    ENNReal.ofReal (1 / 2) • Measure.dirac (y d1) + ENNReal.ofReal (1 / 2) • Measure.dirac (y d2)
  have hp : IsProbabilityMeasure ν := ⟨by
    simp only [ν, Measure.add_apply, Measure.smul_apply, measure_univ, smul_eq_mul, mul_one]
    exact hhalf⟩
  have hint : ∀ f : Outcome m → ℝ, Measurable f → ∫ z, f z ∂ν = (f (y d1) + f (y d2)) / 2 := by
    intro f hf
    have hi : ∀ z : Outcome m, Integrable f (ENNReal.ofReal (1 / 2) • Measure.dirac z) := fun z =>
      (integrable_dirac' hf.stronglyMeasurable enorm_lt_top).smul_measure ENNReal.ofReal_ne_top
    rw [integral_add_measure (hi _) (hi _), integral_smul_measure, integral_smul_measure,
      integral_dirac' _ _ hf.stronglyMeasurable, integral_dirac' _ _ hf.stronglyMeasurable,
      ENNReal.toReal_ofReal (by norm_num)]
    simp only [smul_eq_mul]
    ring
  have hmean : meanReadings ν pl id = List.ofFn fun i => ((pl i).1, (pl i).2, ψ x0 i, 180) := by
    unfold meanReadings
    congr 1
    funext i
    have k1 := hint (fun z => ((z i).1 : ℝ)) (by fun_prop)
    have k2 := hint (fun z => ((z i).2 : ℝ)) (by fun_prop)
    simp only [id]
    rw [k1, k2]
    simp only [y, d1, d2]
    norm_num
  refine ⟨ν, hp, fun z hz => ?_, fun H D hD => ?_⟩
  · have hne : y d1 ≠ y d2 := fun hy => by
      have := congrArg (fun z : Outcome m => ((z i0).2 : ℝ)) hy
      norm_num [y, d1, d2] at this
    have h12 : ν {y d1} ≠ 0 ∧ ν {y d2} ≠ 0 := by
      simp [ν, hne, hne.symm]
    have hz' : ν {z}ᶜ = 0 := by
      rw [prob_compl_eq_one_sub (measurableSet_singleton z), hz, tsub_self]
    have : y d1 ∉ ({z}ᶜ : Set (Outcome m)) := fun h =>
      h12.1 (measure_mono_null (Set.singleton_subset_iff.mpr h) hz')
    have : y d2 ∉ ({z}ᶜ : Set (Outcome m)) := fun h =>
      h12.2 (measure_mono_null (Set.singleton_subset_iff.mpr h) hz')
    simp_all
  · rw [hmean] at hD
    rw [chisqr_set (o := { o with data := D }) (by rw [List.length_ofFn]; exact h.size), setp_other h.size,
      chisqr_iff (o := { o with data := D })
        (st := { (setp env o (some (List.ofFn x0)) st).2 with heap := H }) hD]
    refine ⟨_, hv x0 hx0 _ (by simp [List.map_ofFn, Function.comp_def]), ?_⟩
    rw [show ((List.ofFn fun i => ((pl i).1, (pl i).2, ψ x0 i, (180 : ℝ))).zip
      (List.ofFn fun i => (ψ x0 i, (180 : ℝ)))) = List.ofFn fun i =>
        (((pl i).1, (pl i).2, ψ x0 i, (180 : ℝ)), (ψ x0 i, (180 : ℝ))) by apply List.ext_get <;> simp,
      List.map_ofFn, List.sum_ofFn]
    simp [sqTerm, circularDistance]

/-- Independent repetitions of noise without bias. -/
theorem Unbiased.repeated {ν : Measure (Outcome m)} [IsProbabilityMeasure ν] {x0 : Fin n → ℝ}
    (hu : Unbiased env o st ν pl id x0) :
    Unbiased env o st (Measure.infinitePi fun _ : ℕ => ν) pl (fun ω : ℕ → Outcome m => ω 0) x0 := by
  obtain ⟨-, -, -, hint⟩ := rand_iid ν
  have e : meanReadings (Measure.infinitePi fun _ : ℕ => ν) pl (fun ω : ℕ → Outcome m => ω 0) =
      meanReadings ν pl id := by
    unfold meanReadings
    congr 1
    funext i
    rw [hint (fun y => ((y i).1 : ℝ)) (by fun_prop), hint (fun y => ((y i).2 : ℝ)) (by fun_prop)]
    rfl
  unfold Unbiased
  rw [e]
  exact hu

/-- Fitted parameters are the entries of the vector, the others keep their values. -/
theorem continuous_valsAt (hn : n = (varying env o st).length) (p : PId) :
    Continuous fun x : Fin n → ℝ => valsAt env o st (List.ofFn x) p := by
  by_cases hp : p ∈ varying env o st
  · obtain ⟨j, hj, rfl⟩ := List.getElem_of_mem hp
    have e : ∀ x : Fin n → ℝ, valsAt env o st (List.ofFn x) (varying env o st)[j] = x ⟨j, hn ▸ hj⟩ := fun x =>
      assign_get _ _ _ (Consistent.of_nodup (varying_nodup env o st) _) j _ _ (List.getElem?_eq_getElem hj)
        (by rw [List.getElem?_ofFn]; simp [hn, hj])
    simp only [e]
    exact continuous_apply _
  · have e : ∀ x : Fin n → ℝ, valsAt env o st (List.ofFn x) p = st.vals p := fun x => assign_not_mem _ _ _ hp
    simp only [e]
    exact continuous_const

/-- Vectors that give all fitted parameters the same values are the same. -/
theorem valsAt_inj (hn : n = (varying env o st).length) {x y : Fin n → ℝ}
    (h : ∀ p ∈ varying env o st, valsAt env o st (List.ofFn x) p = valsAt env o st (List.ofFn y) p) : x = y := by
  have hr : ∀ x : Fin n → ℝ, (varying env o st).map (valsAt env o st (List.ofFn x)) = List.ofFn x := fun x =>
    assign_read (Consistent.of_nodup (varying_nodup env o st) _) (by simpa using hn) _
  refine List.ofFn_injective ?_
  rw [← hr x, ← hr y]
  exact List.map_congr_left h

/-- The index of a Cauchy law with these parameters. -/
noncomputable def cauchyN (a b c : PId) (v : Vals) (w : ℝ) : ℝ := v a + v b / (w / 1000) ^ 2 + v c / (w / 1000) ^ 4

/-- A bare substrate with the Cauchy parameters `a`, `b`, `c`, of which some or all are fitted, at three or more
wavelengths. -/
structure MeasuresCauchy (env : Env) (o : Objective) (st : St) (cs : List Comp) (n₀ : ℝ → ℝ) (wl : ℝ) (a b c : PId)
    (pl : Fin m → ℝ × ℝ) (K : Set (Fin n → ℝ)) : Prop where
  float : env.dt = .float
  size : n = (varying env o st).length
  fits : ∀ p ∈ varying env o st, p = a ∨ p = b ∨ p = c
  offset : (st.models o.model).rm.off ∉ [a, b, c] ∧ st.vals (st.models o.model).rm.off = 0
  plain : Plain (st.structs (st.models o.model).str) cs
  bare : ∀ i v nb, MaterialAt env.ext.zs (pl i).1 (.cauchy wl (v a) (v b) (v c)) nb →
    Sees env.ext.zs v (st.structs (st.models o.model).str) cs (pl i).1 ⟨(n₀ (pl i).1 : ℂ), [], nb⟩
  places : ∀ i, 0 < (pl i).1 ∧ 0 < n₀ (pl i).1 ∧ 0 < (pl i).2 ∧ (pl i).2 < 90
  three : 3 ≤ (wavs (readings pl zeros)).card
  below : ∀ i, ∀ x ∈ K, cauchyN a b c (valsAt env o st (List.ofFn x)) (pl i).1 ≠ n₀ (pl i).1 ∧
    Real.tan (rad (pl i).2) < cauchyN a b c (valsAt env o st (List.ofFn x)) (pl i).1 / n₀ (pl i).1

theorem cauchyN_at (z : SqrtOracle) {a b c : PId} {v : Vals} {wl w : ℝ} (hw : 0 < w) :
    (Scat.cauchy wl (v a) (v b) (v c)).at z w = some (cauchyN a b c v w : ℂ) := by
  have h1 := C49_cauchy z wl (v a) (v b) (v c) hw
  simp only [Scat.complex, Scat.ownWav, pick_ne hw.ne'] at h1
  rw [h1]
  rfl

variable {wl : ℝ} {a b c : PId}

theorem MeasuresCauchy.glass (h : MeasuresCauchy env o st cs n₀ wl a b c pl K) :
    MeasuresGlass env o st cs n₀ (fun x => cauchyN a b c (valsAt env o st (List.ofFn x))) pl K where
  float := h.float
  size := h.size
  fixed := fun hp => h.offset.1 (by simpa using h.fits _ hp)
  zero := h.offset.2
  plain := h.plain
  places := h.places
  index := fun i x _ => by
    unfold cauchyN
    have ca := continuous_valsAt (env := env) (o := o) (st := st) h.size a
    have cb := continuous_valsAt (env := env) (o := o) (st := st) h.size b
    have cc := continuous_valsAt (env := env) (o := o) (st := st) h.size c
    exact ((ca.add (cb.div_const _)).add (cc.div_const _)).continuousAt
  below := h.below
  sees := fun i x hx => h.bare i _ _ ⟨⟨wl, rfl⟩, cauchyN_at _ (h.places i).1, by simpa using hx, by simp⟩

theorem MeasuresCauchy.known (h : MeasuresCauchy env o st cs n₀ wl a b c pl K) : ∀ x ∈ K, ∀ y ∈ K,
    (∀ i, cauchyN a b c (valsAt env o st (List.ofFn x)) (pl i).1 = cauchyN a b c (valsAt env o st (List.ofFn y)) (pl i).1) →
    x = y := by
  intro x _ y _ he
  have hw : ∀ w ∈ wavs (readings pl (zeros : Outcome m)), ∃ i, w = (pl i).1 := by
    intro w hw
    classical
    rw [wavs, List.mem_toFinset, List.mem_map] at hw
    obtain ⟨pt, hpt, rfl⟩ := hw
    obtain ⟨i, rfl⟩ := (List.mem_ofFn' _ _).mp hpt
    exact ⟨i, rfl⟩
  obtain ⟨e1, e2, e3⟩ := C171_cauchy (wl := wl) (wl' := wl) env.ext.zs env.ext.zs h.three
    (fun w hw' => by obtain ⟨i, rfl⟩ := hw w hw'; exact (h.places i).1)
    (A := valsAt env o st (List.ofFn x) a) (B := valsAt env o st (List.ofFn x) b) (C := valsAt env o st (List.ofFn x) c)
    (A' := valsAt env o st (List.ofFn y) a) (B' := valsAt env o st (List.ofFn y) b) (C' := valsAt env o st (List.ofFn y) c)
    (fun w hw' => by
      obtain ⟨i, rfl⟩ := hw w hw'
      simp only [Scat.complex, Scat.ownWav, pick_ne (h.places i).1.ne']
      rw [cauchyN_at _ (h.places i).1, cauchyN_at _ (h.places i).1, he i])
  refine valsAt_inj h.size fun p hp => ?_
  rcases h.fits p hp with rfl | rfl | rfl
  · exact e1
  · exact e2
  · exact e3

/-- C180: a Cauchy substrate.  Almost surely all best fits of the first `k` measurements approach the true parameters. -/
theorem C180_cauchy (h : MeasuresCauchy env o st cs n₀ wl a b c pl K) (hK : IsCompact K)
    (hY : ∀ k, Measurable (Y k)) (hind : Pairwise fun i j => IndepFun (Y i) (Y j) P)
    (hdist : ∀ k, IdentDistrib (Y k) (Y 0) P P) {x0 : Fin n → ℝ} (hx0 : x0 ∈ K)
    (hu : Unbiased env o st P pl (Y 0) x0) {H : ℕ → Ω → Data.Heap} {D : ℕ → Ω → DS}
    (hD : ∀ k ω, Presents (H k ω) (D k ω) (readingsN pl (fun k => Y k ω) k)) :
    ∀ᵐ ω ∂P, ∀ b : ℕ → Fin n → ℝ, (∀ k, b k ∈ K) →
      (∀ k, ∀ x ∈ K, ∀ u v : ℝ,
        (chisqr env { o with data := D k ω } (some (List.ofFn (b k))) { st with heap := H k ω }).1 = .ok (some u) →
        (chisqr env { o with data := D k ω } (some (List.ofFn x)) { st with heap := H k ω }).1 = .ok (some v) → u ≤ v) →
      Tendsto b atTop (𝓝 x0) :=
  C180_fit h.glass hK h.known hY hind hdist hx0 hu hD

end

/-! ### A Cauchy substrate at three wavelengths -/

/-- Three wavelengths. -/
noncomputable def glassPl : Fin 3 → ℝ × ℝ := ![(400, filmAoi), (500, filmAoi), (600, filmAoi)]

/-- The parameters that are searched: `A` from 6/5 to 2, `B` and `C` from 0 to 1/10. -/
def glassK : Set (Fin 3 → ℝ) := Set.Icc ![6 / 5, 0, 0] ![2, 1 / 10, 1 / 10]

theorem glass_mem {x : Fin 3 → ℝ} : x ∈ glassK ↔ (6 / 5 ≤ x 0 ∧ 0 ≤ x 1 ∧ 0 ≤ x 2) ∧ x 0 ≤ 2 ∧ x 1 ≤ 1 / 10 ∧ x 2 ≤ 1 / 10 := by
  simp [glassK, Set.mem_Icc, Pi.le_def, Fin.forall_fin_succ]

theorem glass_cauchy (env : Env) (hdt : env.dt = .float) (hpars : env.pars (subComps.map .comp) none = [1, 2, 4, 5, 6]) :
    MeasuresCauchy env subObj (subSt 0 0 0) subComps (fun _ => 1) 658 4 5 6 glassPl glassK := by
  have hvar := sub_varying env hpars 0 0 0
  have hpi := Real.pi_pos
  have hgt := Real.arcsin_pos.mpr (by norm_num : (0 : ℝ) < 3 / 5)
  have hlt := Real.arcsin_lt_pi_div_two.mpr (by norm_num : (3 / 5 : ℝ) < 1)
  have haoi : 0 < filmAoi ∧ filmAoi < 90 := by
    constructor
    · unfold filmAoi; positivity
    · have h1 := film_rad
      unfold rad at h1
      by_contra h2
      push Not at h2
      have : 90 * (Real.pi / 180) ≤ filmAoi * (Real.pi / 180) := mul_le_mul_of_nonneg_right h2 (by positivity)
      linarith
  have htan : Real.tan (rad filmAoi) < 1 := by
    rw [film_rad, Real.tan_arcsin]
    rw [show (1 : ℝ) - (3 / 5) ^ 2 = (4 / 5) ^ 2 by norm_num, Real.sqrt_sq (by norm_num)]
    norm_num
  have hpl : ∀ i, 0 < (glassPl i).1 ∧ (glassPl i).2 = filmAoi := by
    intro i
    fin_cases i <;> simp [glassPl]
  have hcau : ∀ i, ∀ x ∈ glassK, 1 < cauchyN 4 5 6 (valsAt env subObj (subSt 0 0 0) (List.ofFn x)) (glassPl i).1 := by
    intro i x hx
    obtain ⟨⟨h1, h2, h3⟩, -⟩ := glass_mem.mp hx
    have e : valsAt env subObj (subSt 0 0 0) (List.ofFn x) 4 = x 0 ∧ valsAt env subObj (subSt 0 0 0) (List.ofFn x) 5 = x 1 ∧
        valsAt env subObj (subSt 0 0 0) (List.ofFn x) 6 = x 2 := by
      rw [valsAt, hvar, show List.ofFn x = [x 0, x 1, x 2] by simp [List.ofFn_succ]]
      simp [assign]
    rw [cauchyN, e.1, e.2.1, e.2.2]
    have hw := (hpl i).1
    have k1 : 0 ≤ x 1 / ((glassPl i).1 / 1000) ^ 2 := by positivity
    have k2 : 0 ≤ x 2 / ((glassPl i).1 / 1000) ^ 4 := by positivity
    linarith
  refine ⟨hdt, by rw [hvar]; rfl, by rw [hvar]; simp, ⟨by simp [subSt], by simp [subSt]⟩, plain_of rfl (by simp [subComps])
      (by simp [subComps, dry, Comp.isSlab, Comp.dflt]) le_rfl (.inl rfl), fun i v nb hm => ?_, fun i => ?_, ?_, fun i x hx => ?_⟩
  · exact ⟨_, [], _, ⟨1, 0⟩, _, rfl, .slab (const_material _ _ one_pos), by simp, .slab hm, rfl, .nil⟩
  · rw [(hpl i).2]
    exact ⟨(hpl i).1, one_pos, haoi⟩
  · classical
    have : wavs (readings glassPl zeros) = {400, 500, 600} := by
      ext w; simp [wavs, readings, glassPl, List.ofFn_succ]
    rw [this, Finset.card_insert_of_notMem (by norm_num), Finset.card_insert_of_notMem (by norm_num)]
    simp
  · rw [(hpl i).2, div_one]
    exact ⟨(hcau i x hx).ne', htan.trans (hcau i x hx)⟩

/-- Non-vacuity of `C180_cauchy` and `C180_fit`: for all true parameters in the box there is noise without bias (delta is 10
degrees too small or too large), and the best fits approach the truth for every such noise. -/
example (env : Env) (hdt : env.dt = .float) (hpars : env.pars (subComps.map .comp) none = [1, 2, 4, 5, 6])
    (x0 : Fin 3 → ℝ) (hx0 : x0 ∈ glassK) :
    (∃ ν : Measure (Outcome 3), IsProbabilityMeasure ν ∧ (∀ y, ν {y} ≠ 1) ∧
      Unbiased env subObj (subSt 0 0 0) ν glassPl id x0) ∧
    ∀ ν : Measure (Outcome 3), IsProbabilityMeasure ν → Unbiased env subObj (subSt 0 0 0) ν glassPl id x0 →
    ∀ᵐ ω ∂(Measure.infinitePi fun _ : ℕ => ν), ∀ b : ℕ → Fin 3 → ℝ, (∀ k, b k ∈ glassK) →
      (∀ k, ∀ x ∈ glassK, ∀ u v : ℝ,
        (chisqr env { subObj with data := colData (readingsN glassPl ω k) } (some (List.ofFn (b k)))
          { subSt 0 0 0 with heap := colHeap (readingsN glassPl ω k) }).1 = .ok (some u) →
        (chisqr env { subObj with data := colData (readingsN glassPl ω k) } (some (List.ofFn x))
          { subSt 0 0 0 with heap := colHeap (readingsN glassPl ω k) }).1 = .ok (some v) → u ≤ v) →
      Tendsto b atTop (𝓝 x0) := by
  have hM := glass_cauchy env hdt hpars
  constructor
  · exact hM.glass.noise 0 hx0
  · intro ν hν hu
    obtain ⟨hY, hind, hid, -⟩ := rand_iid ν
    exact C180_cauchy (Y := fun k (ω : ℕ → Outcome 3) => ω k) hM isCompact_Icc hY hind hid hx0 hu.repeated
      (H := fun k ω => colHeap (readingsN glassPl ω k)) (D := fun k ω => colData (readingsN glassPl ω k))
      fun k ω => col_presents _

/-- Non-vacuity of `C180_posterior`: uniform priors over the box, and truth inside it.  The means of the parameters over the
posterior approach the truth. -/
example (env : Env) (hdt : env.dt = .float) (hpars : env.pars (subComps.map .comp) none = [1, 2, 4, 5, 6])
    (hprior : ∀ v : ℝ, env.logp 4 v = (open Classical in if 6 / 5 ≤ v ∧ v ≤ 2 then some (Real.log (5 / 4)) else none) ∧
      env.logp 5 v = (open Classical in if 0 ≤ v ∧ v ≤ 1 / 10 then some (Real.log 10) else none) ∧
      env.logp 6 v = (open Classical in if 0 ≤ v ∧ v ≤ 1 / 10 then some (Real.log 10) else none))
    (x0 : Fin 3 → ℝ) (hx0 : x0 ∈ interior glassK) (ν : Measure (Outcome 3)) (hν : IsProbabilityMeasure ν)
    (hu : Unbiased env subObj (subSt 0 0 0) (Measure.infinitePi fun _ : ℕ => ν) glassPl
      (fun ω : ℕ → Outcome 3 => ω 0) x0) :
    ∀ᵐ ω ∂(Measure.infinitePi fun _ : ℕ => ν), ∀ i : Fin 3,
      Tendsto (fun k => (∫ x : Fin 3 → ℝ, x i * densityN env subObj (subSt 0 0 0)
          (fun k => colHeap (readingsN glassPl ω k)) (fun k => colData (readingsN glassPl ω k)) k x) /
        ∫ x : Fin 3 → ℝ, densityN env subObj (subSt 0 0 0)
          (fun k => colHeap (readingsN glassPl ω k)) (fun k => colData (readingsN glassPl ω k)) k x) atTop (𝓝 (x0 i)) := by
  have hM := glass_cauchy env hdt hpars
  have hvar := sub_varying env hpars 0 0 0
  obtain ⟨hY, hind, hid, -⟩ := rand_iid ν
  have hden : ∀ v : ℝ, priorDensity env 4 v = (Set.Icc (6 / 5) 2).indicator (fun _ => 5 / 4) v ∧
      priorDensity env 5 v = (Set.Icc 0 (1 / 10)).indicator (fun _ => 10) v ∧
      priorDensity env 6 v = (Set.Icc 0 (1 / 10)).indicator (fun _ => 10) v := by
    intro v
    obtain ⟨h4, h5, h6⟩ := hprior v
    have e1 : Real.exp (Real.log (5 / 4)) = 5 / 4 := Real.exp_log (by norm_num)
    have e2 : Real.exp (Real.log 10) = 10 := Real.exp_log (by norm_num)
    simp only [priorDensity, h4, h5, h6, Set.indicator_apply, Set.mem_Icc]
    refine ⟨?_, ?_, ?_⟩
    · by_cases h : 6 / 5 ≤ v ∧ v ≤ 2
      · rw [if_pos h, if_pos h]; exact e1
      · rw [if_neg h, if_neg h]
    all_goals
      by_cases h : 0 ≤ v ∧ v ≤ 1 / 10
      · rw [if_pos h, if_pos h]; exact e2
      · rw [if_neg h, if_neg h]
  have hpr : ∀ x : Fin 3 → ℝ, prior env subObj (subSt 0 0 0) x ≠ 0 ↔ x ∈ glassK := by
    intro x
    rw [prior, hvar, glass_mem, Fin.prod_univ_three]
    change priorDensity env 4 (x 0) * priorDensity env 5 (x 1) * priorDensity env 6 (x 2) ≠ 0 ↔ _
    rw [(hden _).1, (hden _).2.1, (hden _).2.2]
    simp only [Set.indicator_apply, Set.mem_Icc, ne_eq, mul_eq_zero, ite_eq_right_iff, not_or]
    norm_num
    tauto
  have hproper : ∀ q ∈ varying env subObj (subSt 0 0 0), Integrable (priorDensity env q) := by
    rw [hvar]
    intro q hq
    simp only [List.mem_cons, List.not_mem_nil, or_false] at hq
    rcases hq with rfl | rfl | rfl
    · rw [funext fun v => (hden v).1]
      exact (integrableOn_const (hs := isCompact_Icc.measure_lt_top.ne)).integrable_indicator measurableSet_Icc
    · rw [funext fun v => (hden v).2.1]
      exact (integrableOn_const (hs := isCompact_Icc.measure_lt_top.ne)).integrable_indicator measurableSet_Icc
    · rw [funext fun v => (hden v).2.2]
      exact (integrableOn_const (hs := isCompact_Icc.measure_lt_top.ne)).integrable_indicator measurableSet_Icc
  have hp := prior_integrable hM.size hproper
  have hpost := C180_posterior (Y := fun k (ω : ℕ → Outcome 3) => ω k) hM.glass isCompact_Icc rfl hM.known hY hind hid
    (interior_subset hx0) hu
    (H := fun k ω => colHeap (readingsN glassPl ω k)) (D := fun k ω => colData (readingsN glassPl ω k))
    (fun k ω => col_presents _) (fun _ _ => rfl) hproper (fun x => (hpr x).mp)
    (fun U hU => mass_of_nhds hM.size hproper (by
      filter_upwards [isOpen_interior.mem_nhds hx0] with x hx using (hpr x).mpr (interior_subset hx)) hU)
  filter_upwards [hpost] with ω hω i
  refine hω (fun x => x i) ?_ (continuous_apply i).continuousAt
  refine (hp.const_mul 2).mono' ((continuous_apply i).measurable.aestronglyMeasurable.mul hp.aestronglyMeasurable)
    (Eventually.of_forall fun x => ?_)
  rw [norm_mul, Real.norm_of_nonneg (prior_nonneg _ _ _ x)]
  by_cases h : prior env subObj (subSt 0 0 0) x = 0
  · rw [h, mul_zero, mul_zero]
  · refine mul_le_mul_of_nonneg_right ?_ (prior_nonneg _ _ _ x)
    obtain ⟨⟨h1, h2, h3⟩, h4, h5, h6⟩ := glass_mem.mp ((hpr x).mp h)
    rw [Real.norm_eq_abs, abs_le]
    fin_cases i
    · exact ⟨by simp only [Fin.zero_eta]; linarith, h4⟩
    · exact ⟨by simp only [Fin.mk_one]; linarith, by simp only [Fin.mk_one]; linarith⟩
    · exact ⟨by simp only [Fin.reduceFinMk]; linarith, by simp only [Fin.reduceFinMk]; linarith⟩

end Verif.Obj
