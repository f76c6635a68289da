import Verif.Obj.PropsProperPrior
import Mathlib.MeasureTheory.Integral.PeakFunction

/-! # C176: repeating the measurement concentrates the posterior -/

namespace Verif.Obj
open Verif.Struct Verif.TMM Verif.RModel Verif.Data Filter Topology MeasureTheory

variable {env : Env} {o : Objective}

/-- Spec: datasets that contain each of the points `N` times. -/
def Repeated (H : ℕ → Heap) (D : ℕ → DS) (pts : List Pt) : Prop :=
  ∀ N, Presents (H N) (D N) (List.replicate N pts).flatten

/-- Spec: priors with a density that is continuous between the bounds and vanishes outside of them. -/
def Supported (env : Env) (o : Objective) (st : St) (lo hi : PId → ℝ) : Prop :=
  ∀ q ∈ varying env o st, (∀ x, ¬ (lo q ≤ x ∧ x ≤ hi q) → env.logp q x = none) ∧
    ContinuousOn (priorDensity env q) (Set.Icc (lo q) (hi q))

/-- The density of the posterior when every point was measured `N` times. -/
noncomputable def densityN (env : Env) (o : Objective) (st : St) (H : ℕ → Heap) (D : ℕ → DS) (N : ℕ) {n : ℕ}
    (x : Fin n → ℝ) : ℝ :=
  density env { o with data := D N } { st with heap := H N } x

/-- The density of the priors. -/
noncomputable def prior (env : Env) (o : Objective) (st : St) {n : ℕ} (x : Fin n → ℝ) : ℝ :=
  ∏ i : Fin n, priorDensity env ((varying env o st).getD i 0) (x i)

theorem Flat.supported {st : St} {lo hi : PId → ℝ} (h : Flat env o st lo hi) : Supported env o st lo hi := by
  intro q hq
  obtain ⟨k, hk⟩ := h q hq
  refine ⟨fun x => (hk x).2, ?_⟩
  refine continuousOn_const.congr (f := fun _ => Real.exp k) fun x hx => ?_
  simp only [priorDensity, (hk x).1 hx]

theorem values_repeat {st : St} {pts : List Pt} {a : ℝ}
    (h : ∃ ms, Values env o st pts (cellsOf ms) ∧ a = ((pts.zip ms).map fun y => sqTerm y.1 y.2).sum) (N : ℕ) :
    ∃ ms, Values env o st (List.replicate N pts).flatten (cellsOf ms) ∧
      (N * a : ℝ) = (((List.replicate N pts).flatten.zip ms).map fun y => sqTerm y.1 y.2).sum := by
  induction N with
  | zero => exact ⟨[], by rw [values_iff]; exact .nil, by simp⟩
  | succ N ih =>
    rw [List.replicate_succ, List.flatten_cons]
    exact sum_append.mpr ⟨_, _, h, ih, by push_cast; ring⟩

theorem chisqr_repeat {st : St} {pts : List Pt} (hp : Presents st.heap o.data pts) {H : ℕ → Heap} {D : ℕ → DS}
    (hr : Repeated H D pts) {a : ℝ} (ha : (chisqr env o none st).1 = .ok (some a)) (N : ℕ) :
    (chisqr env { o with data := D N } none { st with heap := H N }).1 = .ok (some (N * a)) := by
  rw [chisqr_iff hp] at ha
  rw [chisqr_iff (o := { o with data := D N }) (st := { st with heap := H N }) (hr N)]
  exact values_repeat ha N

theorem densityN_eq {st : St} {pts : List Pt} (hp : Presents st.heap o.data pts) (hs : o.lnsigma = none) {H : ℕ → Heap}
    {D : ℕ → DS} (hr : Repeated H D pts) {n : ℕ} (hn : n = (varying env o st).length) (N : ℕ) : ∃ κ : ℝ, 0 < κ ∧
      ∀ (x : Fin n → ℝ) (a : ℝ), (chisqr env o (some (List.ofFn x)) st).1 = .ok (some a) →
        densityN env o st H D N x = κ * (Real.exp (-a / 2) ^ N * prior env o st x) := by
  refine ⟨Real.exp (-((List.replicate N pts).flatten.length * normTerm { o with data := D N })), Real.exp_pos _,
    fun x a ha => ?_⟩
  have hl : (List.ofFn x).length = (varying env o st).length := by simpa using hn
  have hv : varying env { o with data := D N } { st with heap := H N } = varying env o st := rfl
  have hset : setp env o (some (List.ofFn x)) st =
      (.ok (), { st with vals := assign (varying env o st) (List.ofFn x) st.vals }) := by
    rw [setp, if_pos hl]
  have hset' : setp env { o with data := D N } (some (List.ofFn x)) { st with heap := H N } =
      (.ok (), { st with heap := H N, vals := assign (varying env o st) (List.ofFn x) st.vals }) := by
    rw [setp, if_pos (by rw [hv]; exact hl), hv]
  rw [chisqr_set hl, hset] at ha
  have hc := chisqr_repeat (st := { st with vals := assign (varying env o st) (List.ofFn x) st.vals }) hp hr ha N
  have hlogl : (logl env { o with data := D N } none
      (setp env { o with data := D N } (some (List.ofFn x)) { st with heap := H N }).2).1 =
      .ok (-(N * a) / 2 - (List.replicate N pts).flatten.length * normTerm { o with data := D N }) := by
    rw [hset']
    exact (logl_chisqr (o := { o with data := D N })
      (st := { st with heap := H N, vals := assign (varying env o st) (List.ofFn x) st.vals }) (hr N) hs).mpr ⟨_, hc, rfl⟩
  by_cases hk : ∀ i : Fin n, ∃ k, env.logp ((varying env o st).getD i 0) (x i) = some k
  · choose k hk using hk
    have hlp := (logpost_split (o := { o with data := D N }) (st := { st with heap := H N }) hn x).mpr ⟨k, _, hk, hlogl, rfl⟩
    have hpr : prior env o st x = Real.exp (∑ i, k i) := by
      rw [prior, Real.exp_sum]
      exact Finset.prod_congr rfl fun i _ => by simp only [priorDensity, hk i]
    rw [densityN, density, hlp, hpr, ← Real.exp_nat_mul, ← Real.exp_add, ← Real.exp_add]
    simp only
    congr 1
    ring
  · push Not at hk
    obtain ⟨i, hi⟩ := hk
    have h0 : prior env o st x = 0 := by
      refine Finset.prod_eq_zero (Finset.mem_univ i) ?_
      have : env.logp ((varying env o st).getD i 0) (x i) = none := by
        cases hc' : env.logp ((varying env o st).getD i 0) (x i) with
        | none => rfl
        | some k => exact absurd hc' (hi k)
      simp only [priorDensity, this]
    rw [h0, mul_zero, mul_zero, densityN, density]
    split
    · rename_i u hu
      obtain ⟨k, l, h1, -⟩ := (logpost_split (o := { o with data := D N }) (st := { st with heap := H N }) hn x).mp hu
      exact absurd (h1 i) (hi _)
    · rfl

theorem densityN_outside {st : St} {H : ℕ → Heap} {D : ℕ → DS} {lo hi : PId → ℝ} (hsup : Supported env o st lo hi) {n : ℕ}
    (hn : n = (varying env o st).length) (N : ℕ) {x : Fin n → ℝ} (hx : ¬ Within env o st lo hi (List.ofFn x)) :
    densityN env o st H D N x = 0 := by
  rw [densityN, density]
  split
  · rename_i u hu
    obtain ⟨k, l, h1, -⟩ := (logpost_split (o := { o with data := D N }) (st := { st with heap := H N }) hn x).mp hu
    refine absurd ((within_iff hn).mpr ⟨fun i => ?_, fun i => ?_⟩) hx <;>
    · have hi : (i : ℕ) < (varying env o st).length := hn ▸ i.2
      have hq : (varying env o st).getD i 0 ∈ varying env o st := by
        rw [List.getD_eq_getElem?_getD, List.getElem?_eq_getElem hi, Option.getD_some]
        exact List.getElem_mem hi
      by_contra hlt
      have h2 : env.logp ((varying env o st).getD i 0) (x i) = some (k i) := h1 i
      rw [(hsup _ hq).1 (x i) (fun h => by first | exact hlt h.1 | exact hlt h.2)] at h2
      simp at h2
  · rfl

theorem prior_continuousOn {st : St} {lo hi : PId → ℝ} (hsup : Supported env o st lo hi) {n : ℕ}
    (hn : n = (varying env o st).length) : ContinuousOn (prior env o st : (Fin n → ℝ) → ℝ)
      {p : Fin n → ℝ | Within env o st lo hi (List.ofFn p)} := by
  unfold prior
  refine continuousOn_finsetProd _ fun i _ => ?_
  have hi : (i : ℕ) < (varying env o st).length := hn ▸ i.2
  have hq : (varying env o st).getD i 0 ∈ varying env o st := by
    rw [List.getD_eq_getElem?_getD, List.getElem?_eq_getElem hi, Option.getD_some]
    exact List.getElem_mem hi
  refine (hsup _ hq).2.comp (continuous_apply i).continuousOn fun p hp => ?_
  have := (within_iff hn).mp hp
  exact ⟨this.1 i, this.2 i⟩

/-- C176: a unique best fit of the points, between the bounds, where the priors do not vanish (no `lnsigma`): as every point
is measured again and again, the mean of any quantity over the posterior approaches its value at the best fit, whatever the
priors.  `C176_consistent` is about `lnsigma`, priors without bounds, and repetitions with other results. -/
theorem C176_mean {st : St} {pts pts' : List Pt} (hp : Presents st.heap o.data pts) (hs : o.lnsigma = none)
    {H : ℕ → Heap} {D : ℕ → DS} (hr : Repeated H D pts)
    {lo hi : PId → ℝ} (hsup : Supported env o st lo hi) (hlt : ∀ q ∈ varying env o st, lo q < hi q) {M : MObj}
    {s : Structure} {cs : List Comp} {n : ℕ} (hn : n = (varying env o st).length) {c : (Fin n → ℝ) → ℝ}
    (h : Searches env o (fun p => (setp env o (some (List.ofFn p)) st).2) pts' M s cs
      {p | Within env o st lo hi (List.ofFn p)} c)
    {x0 : Fin n → ℝ} (hx0 : Within env o st lo hi (List.ofFn x0)) (hpos : 0 < prior env o st x0)
    (hmin : ∀ x, Within env o st lo hi (List.ofFn x) → x ≠ x0 → c x0 < c x) {g : (Fin n → ℝ) → ℝ}
    (hg : IntegrableOn g {p | Within env o st lo hi (List.ofFn p)}) (hgc : ContinuousAt g x0) :
    Tendsto (fun N => (∫ x, g x * densityN env o st H D N x) / ∫ x : Fin n → ℝ, densityN env o st H D N x) atTop
      (𝓝 (g x0)) := by
  set K : Set (Fin n → ℝ) := {p | Within env o st lo hi (List.ofFn p)} with hK
  have hset : K = Set.pi Set.univ fun i : Fin n =>
      Set.Icc (lo ((varying env o st).getD i 0)) (hi ((varying env o st).getD i 0)) := by
    rw [Set.pi_univ_Icc]
    exact Set.ext fun p => within_iff hn
  have hKc : IsCompact K := by
    rw [hset]; exact isCompact_univ_pi fun _ => isCompact_Icc
  have hcl : x0 ∈ closure (interior K) := by
    have : closure (interior K) = K := by
      rw [hset, interior_pi_set Set.finite_univ, closure_pi_set]
      congr 1
      funext i
      have hi : (i : ℕ) < (varying env o st).length := hn ▸ i.2
      have hq : (varying env o st).getD i 0 ∈ varying env o st := by
        rw [List.getD_eq_getElem?_getD, List.getElem?_eq_getElem hi, Option.getD_some]
        exact List.getElem_mem hi
      rw [interior_Icc, closure_Ioo (hlt _ hq).ne]
    rw [this]
    exact hx0
  have hval : ∀ x ∈ K, (chisqr env o (some (List.ofFn x)) st).1 = .ok (some (c x)) := by
    intro x hx
    rw [chisqr_set (by simpa using hn)]
    exact h.value x hx
  have hce : ContinuousOn (fun x => Real.exp (-c x / 2)) K :=
    Real.continuous_exp.comp_continuousOn ((h.continuousOn.neg).div_const 2)
  have hpc := prior_continuousOn (o := o) hsup hn
  have peak : ∀ f : (Fin n → ℝ) → ℝ, IntegrableOn f K → ContinuousWithinAt f K x0 →
      Tendsto (fun N : ℕ => (∫ x in K, Real.exp (-c x / 2) ^ N)⁻¹ • ∫ x in K, Real.exp (-c x / 2) ^ N • f x) atTop
        (𝓝 (f x0)) := fun f h1 h2 =>
    tendsto_setIntegral_pow_smul_of_unique_maximum_of_isCompact_of_integrableOn hKc hce
      (fun y hy hne => Real.exp_lt_exp.mpr (by linarith [hmin y hy hne])) (fun x _ => (Real.exp_pos _).le) (Real.exp_pos _)
      hcl h1 h2
  have t1 := peak (fun x => g x * prior env o st x) (hg.mul_continuousOn hpc hKc)
    (hgc.continuousWithinAt.mul (hpc x0 hx0))
  have t2 := peak (prior env o st) (hpc.integrableOn_compact hKc) (hpc x0 hx0)
  have t3 := t1.div t2 hpos.ne'
  rw [mul_div_cancel_right₀ _ hpos.ne'] at t3
  refine t3.congr' ?_
  filter_upwards [t2.eventually_ne hpos.ne'] with N hN
  obtain ⟨κ, hκ, hden⟩ := densityN_eq hp hs hr hn N
  have hint : ∀ f : (Fin n → ℝ) → ℝ, ∫ x, f x * densityN env o st H D N x =
      κ * ∫ x in K, Real.exp (-c x / 2) ^ N • (f x * prior env o st x) := by
    intro f
    rw [← integral_const_mul, ← integral_indicator hKc.measurableSet]
    refine integral_congr_ae (Eventually.of_forall fun x => ?_)
    beta_reduce
    by_cases hx : x ∈ K
    · rw [Set.indicator_of_mem hx, hden x _ (hval x hx), smul_eq_mul]
      ring
    · rw [Set.indicator_of_notMem hx, densityN_outside hsup hn N hx, mul_zero]
  have h1 := hint g
  have h2 := hint fun _ => 1
  simp only [one_mul] at h2
  rw [h1, h2, mul_div_mul_left _ _ hκ.ne']
  simp only [smul_eq_mul] at hN ⊢
  have hI : (∫ x in K, Real.exp (-c x / 2) ^ N) ≠ 0 := by
    intro hz
    rw [hz, inv_zero, zero_mul] at hN
    exact hN rfl
  rw [Pi.div_apply, mul_div_mul_left _ _ (inv_ne_zero hI)]

/-- C176: and the probability of any neighbourhood of the best fit approaches 1. -/
theorem C176_mass {st : St} {pts pts' : List Pt} (hp : Presents st.heap o.data pts) (hs : o.lnsigma = none)
    {H : ℕ → Heap} {D : ℕ → DS} (hr : Repeated H D pts)
    {lo hi : PId → ℝ} (hsup : Supported env o st lo hi) (hlt : ∀ q ∈ varying env o st, lo q < hi q) {M : MObj}
    {s : Structure} {cs : List Comp} {n : ℕ} (hn : n = (varying env o st).length) {c : (Fin n → ℝ) → ℝ}
    (h : Searches env o (fun p => (setp env o (some (List.ofFn p)) st).2) pts' M s cs
      {p | Within env o st lo hi (List.ofFn p)} c)
    {x0 : Fin n → ℝ} (hx0 : Within env o st lo hi (List.ofFn x0)) (hpos : 0 < prior env o st x0)
    (hmin : ∀ x, Within env o st lo hi (List.ofFn x) → x ≠ x0 → c x0 < c x) {U : Set (Fin n → ℝ)} (hU : U ∈ 𝓝 x0)
    (hm : MeasurableSet U) :
    Tendsto (fun N => (∫ x in U, densityN env o st H D N x) / ∫ x : Fin n → ℝ, densityN env o st H D N x) atTop (𝓝 1) := by
  have hKc : IsCompact {p : Fin n → ℝ | Within env o st lo hi (List.ofFn p)} := by
    rw [show {p : Fin n → ℝ | Within env o st lo hi (List.ofFn p)} = Set.Icc _ _ from Set.ext fun p => within_iff hn]
    exact isCompact_Icc
  have hc : ContinuousAt (Set.indicator U fun _ => (1 : ℝ)) x0 :=
    (continuousAt_const (y := (1 : ℝ))).congr (by
      filter_upwards [hU] with x hx
      rw [Set.indicator_of_mem hx])
  have key := C176_mean hp hs hr hsup hlt hn h hx0 hpos hmin (g := Set.indicator U fun _ => 1)
    (((integrableOn_const (hs := hKc.measure_lt_top.ne)).indicator hm)) hc
  rw [Set.indicator_of_mem (mem_of_mem_nhds hU)] at key
  refine key.congr fun N => ?_
  congr 1
  rw [← integral_indicator hm]
  refine integral_congr_ae (Eventually.of_forall fun x => ?_)
  by_cases hx : x ∈ U
  · simp [Set.indicator_of_mem hx]
  · simp [Set.indicator_of_notMem hx]

/-- The two points of `barSt 3 [184, 186]`. -/
def peakPts : List Pt := [(600, 0, 45, 184), (600, 0, 45, 186)]

/-- Arrays with `N` copies of these points, and the dataset with them. -/
noncomputable def peakHeap (N : ℕ) : Heap :=
  ⟨fun i => ⟨false, [(List.replicate N peakPts).flatten.map (·.1), (List.replicate N peakPts).flatten.map (·.2.1),
    (List.replicate N peakPts).flatten.map (·.2.2.1), (List.replicate N peakPts).flatten.map (·.2.2.2)].getD i []⟩, 4⟩

/-- The dataset with these arrays. -/
noncomputable def peakData (N : ℕ) : DS :=
  { (barObj false 2).data with mask := some ((List.replicate N peakPts).flatten.map fun _ => true) }

theorem peak_repeated : Repeated peakHeap peakData peakPts :=
  fun _ => presents_cols (b := false) rfl rfl rfl rfl rfl

/-- Non-vacuity of `C176_mean` and `C176_mass`: as the two points are measured again and again, the mean
offset over the posterior approaches 5, and offsets that are not within `r` of it become improbable. -/
example (ext : Ext) (zs : List Layer → ℝ → ℝ → Bool) (r : ℝ) (hr : 0 < r) :
    Tendsto (fun N => (∫ x : Fin 1 → ℝ,
        x 0 * densityN (probEnv ext zs) (probObj none) (barSt 3 [184, 186]) peakHeap peakData N x) /
      ∫ x : Fin 1 → ℝ, densityN (probEnv ext zs) (probObj none) (barSt 3 [184, 186]) peakHeap peakData N x) atTop (𝓝 5) ∧
    Tendsto (fun N => (∫ x in Metric.ball (fun _ : Fin 1 => (5 : ℝ)) r,
        densityN (probEnv ext zs) (probObj none) (barSt 3 [184, 186]) peakHeap peakData N x) /
      ∫ x : Fin 1 → ℝ, densityN (probEnv ext zs) (probObj none) (barSt 3 [184, 186]) peakHeap peakData N x) atTop
        (𝓝 1) := by
  have hv := (prob_varying ext zs 3 [184, 186]).1
  have hpos : 0 < prior (probEnv ext zs) (probObj none) (barSt 3 [184, 186]) (fun _ : Fin 1 => 5) := by
    refine Finset.prod_pos fun i _ => ?_
    simp only [priorDensity, probEnv]
    rw [if_pos (by norm_num)]
    exact Real.exp_pos _
  have hmin : ∀ x : Fin 1 → ℝ, Within (probEnv ext zs) (probObj none) (barSt 3 [184, 186]) (fun _ => 0) (fun _ => 10)
      (List.ofFn x) → x ≠ (fun _ => 5) → ((5 : ℝ) - 4) ^ 2 + (5 - 6) ^ 2 < (x 0 - 4) ^ 2 + (x 0 - 6) ^ 2 := by
    intro x _ hne
    have : x 0 - 5 ≠ 0 := fun h => hne (funext fun i => by rw [Subsingleton.elim i 0]; linarith)
    nlinarith [sq_pos_of_ne_zero this]
  have hp : Presents (barSt 3 [184, 186]).heap (probObj none).data peakPts := (bar_presents 3 false 184 186).2
  have hK : IsCompact {p : Fin 1 → ℝ | Within (probEnv ext zs) (probObj none) (barSt 3 [184, 186]) (fun _ => 0)
      (fun _ => 10) (List.ofFn p)} := by
    rw [show {p : Fin 1 → ℝ | Within (probEnv ext zs) (probObj none) (barSt 3 [184, 186]) (fun _ => 0)
      (fun _ => 10) (List.ofFn p)} = Set.Icc _ _ from Set.ext fun p => within_iff (by rw [hv]; rfl)]
    exact isCompact_Icc
  exact ⟨C176_mean (g := fun x => x 0) hp rfl peak_repeated (prob_flat ext zs none 3 _).supported
      (fun _ _ => by norm_num) (by rw [hv]; rfl) (prob_searches ext zs) ((prob_within ext zs).mpr (by norm_num)) hpos hmin
      ((continuous_apply (0 : Fin 1)).continuousOn.integrableOn_compact hK) (continuous_apply (0 : Fin 1)).continuousAt,
    C176_mass hp rfl peak_repeated (prob_flat ext zs none 3 _).supported
      (fun _ _ => by norm_num) (by rw [hv]; rfl) (prob_searches ext zs) ((prob_within ext zs).mpr (by norm_num)) hpos hmin
      (Metric.ball_mem_nhds _ hr) measurableSet_ball⟩

end Verif.Obj
