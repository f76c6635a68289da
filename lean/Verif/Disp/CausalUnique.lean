import Verif.Disp.CausalSpec
import Mathlib.Analysis.Complex.AbsMax
import Mathlib.Analysis.Complex.OpenMapping
import Mathlib.Analysis.SpecialFunctions.ExpDeriv
import Mathlib.Topology.ExtendFrom
import Mathlib.Topology.Algebra.Module.Cardinality
import Mathlib.Analysis.Complex.Convex
import Mathlib.Tactic.Linarith

/-! # A causal function is determined by its imaginary part on the real axis -/

namespace Verif.Disp
open Complex Filter Topology Set

theorem closure_upper : closure upper = {z : ℂ | 0 ≤ z.im} := by
  unfold upper
  exact Complex.closure_setOfPred_lt_im 0

/-- A function that is holomorphic above the real axis, continuous up to it, real on it and vanishing at
infinity is zero: first, its imaginary part is not positive. -/
theorem im_le_zero {H : ℂ → ℂ} (hd : DifferentiableOn ℂ H upper) (hc : ContinuousOn H (closure upper))
    (hr : ∀ x : ℝ, (H x).im = 0) (hi : Tendsto H (cocompact ℂ ⊓ 𝓟 upper) (𝓝 0)) :
    ∀ z ∈ upper, (H z).im ≤ 0 := by
  intro z hz
  refine le_of_forall_pos_le_add fun ε hε => ?_
  -- outside a large disk the function is small
  have hev : ∀ᶠ w in cocompact ℂ ⊓ 𝓟 upper, ‖H w‖ < ε := by
    have := hi.eventually (Metric.ball_mem_nhds (0 : ℂ) hε)
    simpa [Metric.ball, dist_zero_right] using this
  rw [eventually_inf_principal] at hev
  rw [← Metric.cobounded_eq_cocompact] at hev
  obtain ⟨R, -, hR⟩ := hasBasis_cobounded_norm.eventually_iff.mp hev
  set R' := max R ‖z‖ + 1
  have hR' : R < R' := (le_max_left R ‖z‖).trans_lt (lt_add_one _)
  have hzR : ‖z‖ < R' := (le_max_right R ‖z‖).trans_lt (lt_add_one _)
  set U := upper ∩ Metric.ball (0 : ℂ) R' with hU
  have hUb : Bornology.IsBounded U := Metric.isBounded_ball.subset inter_subset_right
  have hUo : IsOpen U := (isOpen_lt continuous_const Complex.continuous_im).inter Metric.isOpen_ball
  have hcl : closure U ⊆ closure upper := closure_mono inter_subset_left
  have hf : DiffContOnCl ℂ (fun w => Complex.exp (-I * H w)) U := by
    refine ⟨fun w hw => ?_, ?_⟩
    · have h1 : DifferentiableWithinAt ℂ H U w := (hd w hw.1).mono inter_subset_left
      exact (h1.const_mul (-I)).cexp
    · exact Complex.continuous_exp.comp_continuousOn ((hc.mono hcl).const_mul _ |>.congr fun _ _ => rfl)
  have hnorm : ∀ w, ‖Complex.exp (-I * H w)‖ = Real.exp (H w).im := by
    intro w; rw [Complex.norm_exp]; simp
  have hb : ∀ w ∈ frontier U, ‖Complex.exp (-I * H w)‖ ≤ Real.exp ε := by
    intro w hw
    rw [hnorm]
    apply Real.exp_le_exp.mpr
    have hwc : w ∈ closure upper := hcl (frontier_subset_closure hw)
    have hwim : 0 ≤ w.im := by rw [closure_upper] at hwc; exact hwc
    rcases hwim.lt_or_eq with him | him
    · -- on the circle
      have hout : R ≤ ‖w‖ := by
        by_contra hle
        push Not at hle
        have : w ∈ U := ⟨him, by simpa using hle.trans hR'⟩
        rw [hUo.frontier_eq] at hw
        exact hw.2 this
      have := hR hout him
      exact ((le_abs_self _).trans (Complex.abs_im_le_norm _)).trans this.le
    · have : w = ((w.re : ℝ) : ℂ) := by apply Complex.ext <;> simp [← him]
      rw [this, hr]; exact hε.le
  have := Complex.norm_le_of_forall_mem_frontier_norm_le hUb hf hb
    (subset_closure (show z ∈ U from ⟨hz, by simpa using hzR⟩))
  rw [hnorm] at this
  simpa using Real.exp_le_exp.mp this

theorem eq_zero_of_real {H : ℂ → ℂ} (hd : DifferentiableOn ℂ H upper)
    (hc : ContinuousOn H (closure upper)) (hr : ∀ x : ℝ, (H x).im = 0)
    (hi : Tendsto H (cocompact ℂ ⊓ 𝓟 upper) (𝓝 0)) : ∀ z ∈ upper, H z = 0 := by
  have h1 := im_le_zero hd hc hr hi
  have h2 := im_le_zero (H := fun z => -H z) hd.neg hc.neg (fun x => by simp [hr]) (by simpa using hi.neg)
  have hopen : IsOpen upper := isOpen_lt continuous_const Complex.continuous_im
  have hconv : Convex ℝ upper := convex_halfSpace_im_gt 0
  have him : ∀ z ∈ upper, (H z).im = 0 := fun z hz =>
    le_antisymm (h1 z hz) (by simpa using h2 z hz)
  obtain ⟨c, hcst⟩ := (hd.analyticOnNhd hopen).eq_const_of_im_eq_const (c₀ := 0) (fun z hz => him z hz)
    hopen (hconv.isConnected ⟨I, by simp [upper]⟩)
  -- the constant is the limit along the imaginary axis
  have hray : Tendsto (fun t : ℝ => H (t * I)) atTop (𝓝 0) := by
    refine hi.comp (tendsto_inf.mpr ⟨?_, ?_⟩)
    · rw [← Metric.cobounded_eq_cocompact, ← comap_norm_atTop, tendsto_comap_iff]
      refine tendsto_atTop_mono (f := fun t : ℝ => t) (fun t => ?_) tendsto_id
      simp [le_abs_self]
    · rw [tendsto_principal]
      filter_upwards [eventually_gt_atTop (0 : ℝ)] with t ht
      simpa [upper] using ht
  have hconst : Tendsto (fun t : ℝ => H (t * I)) atTop (𝓝 c) := by
    refine tendsto_const_nhds.congr' ?_
    filter_upwards [eventually_gt_atTop (0 : ℝ)] with t ht
    exact (hcst (t * I) (by simpa [upper] using ht)).symm
  have := tendsto_nhds_unique hconst hray
  intro z hz
  rw [hcst z hz, this]

theorem boundary_unique {F : ℂ → ℂ} {x : ℝ} {v w : ℂ} (h1 : Boundary F x v) (h2 : Boundary F x w) : v = w := by
  have : (x : ℂ) ∈ closure upper := by rw [closure_upper]; simp
  have := mem_closure_iff_nhdsWithin_neBot.mp this
  exact tendsto_nhds_unique h1 h2

/-- Boundary values at negative energies. -/
theorem Causal.boundary_neg {F : ℂ → ℂ} {c : ℝ} (hF : Causal F c) {x : ℝ} {v : ℂ} (h : Boundary F x v) :
    Boundary F (-x : ℝ) ((starRingEnd ℂ) v) := by
  have h1 : Tendsto (fun w : ℂ => -(starRingEnd ℂ) w) (𝓝[upper] ((-x : ℝ) : ℂ)) (𝓝[upper] (x : ℂ)) := by
    refine tendsto_nhdsWithin_iff.mpr ⟨?_, ?_⟩
    · have hc : Continuous fun w : ℂ => -(starRingEnd ℂ) w := Complex.continuous_conj.neg
      have := (hc.tendsto ((-x : ℝ) : ℂ)).mono_left (nhdsWithin_le_nhds (s := upper))
      simpa using this
    · filter_upwards [self_mem_nhdsWithin] with w hw
      simpa [upper] using hw
  have h2 := (Complex.continuous_conj.tendsto v).comp (h.comp h1)
  refine h2.congr' ?_
  filter_upwards [self_mem_nhdsWithin] with w hw
  have := hF.real w hw
  simp only [Function.comp_apply]
  rw [this]; simp

/-- Two causal functions with the same limit at infinity and boundary values everywhere, whose imaginary
parts agree on a dense set of positive energies, are equal. -/
theorem causal_unique {F G : ℂ → ℂ} {c : ℝ} (hF : Causal F c) (hG : Causal G c) {f g : ℝ → ℂ}
    (bF : ∀ x, Boundary F x (f x)) (bG : ∀ x, Boundary G x (g x)) {S : Set ℝ} (hS : S.Finite)
    (him : ∀ x, 0 < x → x ∉ S → (f x).im = (g x).im) : f = g ∧ ∀ z ∈ upper, F z = G z := by
  have hopen : IsOpen upper := isOpen_lt continuous_const Complex.continuous_im
  set D := fun z => F z - G z with hD
  have hDd : DifferentiableOn ℂ D upper := hF.holo.sub hG.holo
  have hreal : ∀ x : ℝ, (x : ℂ) ∈ closure upper := by
    intro x; rw [closure_upper]; simp
  have hDb : ∀ x : ℝ, Tendsto D (𝓝[upper] (x : ℂ)) (𝓝 (f x - g x)) := fun x => (bF x).sub (bG x)
  have hlim : ∀ z ∈ closure upper, ∃ y, Tendsto D (𝓝[upper] z) (𝓝 y) := by
    intro z hz
    rw [closure_upper] at hz
    rcases (show (0 : ℝ) ≤ z.im from hz).lt_or_eq with h | h
    · exact ⟨_, (hDd.continuousOn z h)⟩
    · have : z = ((z.re : ℝ) : ℂ) := by apply Complex.ext <;> simp [← h]
      exact ⟨_, by rw [this]; exact hDb z.re⟩
  set H := extendFrom upper D with hH
  have hHc : ContinuousOn H (closure upper) := continuousOn_extendFrom le_rfl hlim
  have hHe : ∀ z ∈ upper, H z = D z := fun z hz =>
    extendFrom_eq (subset_closure hz) (hDd.continuousOn z hz)
  have hHr : ∀ x : ℝ, H x = f x - g x := fun x => extendFrom_eq (hreal x) (hDb x)
  have hfn : ∀ x, f (-x) = (starRingEnd ℂ) (f x) := fun x => boundary_unique (bF (-x)) (hF.boundary_neg (bF x))
  have hgn : ∀ x, g (-x) = (starRingEnd ℂ) (g x) := fun x => boundary_unique (bG (-x)) (hG.boundary_neg (bG x))
  -- the imaginary part vanishes on the real axis
  have hcont : Continuous fun x : ℝ => (H x).im := by
    refine Complex.continuous_im.comp ?_
    rw [← continuousOn_univ]
    exact hHc.comp Complex.continuous_ofReal.continuousOn fun x _ => hreal x
  have hzero : ∀ x : ℝ, (H x).im = 0 := by
    have hT : (S ∪ (fun x => -x) '' S).Finite := hS.union (hS.image _)
    have hdense := hT.countable.dense_compl ℝ
    have := Continuous.ext_on hdense hcont (continuous_const (y := (0 : ℝ))) (fun x hx => by
      have hx1 : x ∉ S := fun h => hx (.inl h)
      have hx2 : -x ∉ S := fun h => hx (.inr ⟨-x, h, by simp⟩)
      change (H x).im = 0
      rw [hHr]
      rcases lt_trichotomy x 0 with h | h | h
      · have e := him (-x) (by linarith) hx2
        rw [hfn, hgn, Complex.conj_im, Complex.conj_im] at e
        rw [Complex.sub_im]; linarith
      · subst h
        have e1 := congrArg Complex.im (hfn 0)
        have e2 := congrArg Complex.im (hgn 0)
        rw [neg_zero, Complex.conj_im] at e1 e2
        rw [Complex.sub_im]; linarith
      · rw [Complex.sub_im, him x h hx1, sub_self])
    exact fun x => congrFun this x
  have hinf : Tendsto H (cocompact ℂ ⊓ 𝓟 upper) (𝓝 0) := by
    have := hF.atInf.sub hG.atInf
    rw [sub_self] at this
    refine this.congr' ?_
    have : ∀ᶠ z in cocompact ℂ ⊓ 𝓟 upper, z ∈ upper := mem_inf_of_right (mem_principal_self _)
    filter_upwards [this] with z hz
    exact (hHe z hz).symm
  have hHd : DifferentiableOn ℂ H upper := hDd.congr hHe
  have hres := eq_zero_of_real hHd hHc hzero hinf
  have hFG : ∀ z ∈ upper, F z = G z := fun z hz => by
    have := hres z hz
    rw [hHe z hz] at this
    exact sub_eq_zero.mp this
  refine ⟨funext fun x => boundary_unique (bF x) ((bG x).congr' ?_), hFG⟩
  filter_upwards [self_mem_nhdsWithin] with z hz
  exact (hFG z hz).symm

end Verif.Disp
