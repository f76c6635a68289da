import Verif.Near
import Verif.TMM.Rounded
import Verif.TMM.Smooth
import Mathlib.Analysis.SpecialFunctions.Complex.LogDeriv
import Mathlib.Analysis.SpecialFunctions.Trigonometric.ArctanDeriv

/-! # Errors of the order of the rounding (for C148) -/

namespace Verif.TMM

open Complex (I)
open Filter Topology Asymptotics

/-- Where `arcsin` is smooth: not on the real axis at or beyond 1. -/
def OffCut (z : ℂ) : Prop := z.im ≠ 0 ∨ |z.re| < 1

/-- Spec: the standard model of floating point arithmetic with unit roundoff `u`: the relative error of
every operation is at most `u` (of complex results, in absolute value), and numbers without imaginary part
have products, quotients and sines without imaginary part.  The slab array itself is off by `u`, too, but
media that do not absorb do not absorb in it.  `angle` may take either value on its cut. -/
structure Arith.Within (A : Arith) (u : ℝ) : Prop where
  nonneg : 0 ≤ u
  add : ∀ x y, ‖A.add x y - (x + y)‖ ≤ u * ‖x + y‖
  sub : ∀ x y, ‖A.sub x y - (x - y)‖ ≤ u * ‖x - y‖
  mul : ∀ x y, ‖A.mul x y - x * y‖ ≤ u * ‖x * y‖
  div : ∀ x y, y ≠ 0 → ‖A.div x y - x / y‖ ≤ u * ‖x / y‖
  sin : ∀ x, ‖A.sin x - Complex.sin x‖ ≤ u * ‖Complex.sin x‖
  cos : ∀ x, ‖A.cos x - Complex.cos x‖ ≤ u * ‖Complex.cos x‖
  exp : ∀ x, ‖A.exp x - Complex.exp x‖ ≤ u * ‖Complex.exp x‖
  mul_real : ∀ x y : ℝ, (A.mul x y).im = 0
  div_real : ∀ x y : ℝ, (A.div x y).im = 0
  sin_real : ∀ x : ℝ, (A.sin x).im = 0
  arcsin : ∀ x, ‖A.arcsin x - npArcsin x‖ ≤ u * ‖npArcsin x‖
  abs : ∀ x, |A.abs x - ‖x‖| ≤ u * ‖x‖
  angle : ∀ x, x ≠ 0 → ∃ σ, |A.angle x - npAngle σ x| ≤ u * |npAngle σ x|
  arctan : ∀ x, |A.arctan x - Real.arctan x| ≤ u * |Real.arctan x|
  radd : ∀ x y, |A.radd x y - (x + y)| ≤ u * |x + y|
  rsub : ∀ x y, |A.rsub x y - (x - y)| ≤ u * |x - y|
  rmul : ∀ x y, |A.rmul x y - x * y| ≤ u * |x * y|
  rdiv : ∀ x y, y ≠ 0 → |A.rdiv x y - x / y| ≤ u * |x / y|
  pi : |A.pi - Real.pi| ≤ u * Real.pi
  front : ∀ n, |A.front n - n| ≤ u * |n|
  index : ∀ i n, ‖A.index i n - n‖ ≤ u * ‖n‖
  index_real : ∀ i (n : ℝ), (A.index i n).im = 0
  thick : ∀ i d, |A.thick i d - d| ≤ u * |d|
  back : ∀ n, ‖A.back n - n‖ ≤ u * ‖n‖
  back_real : ∀ n : ℝ, (A.back n).im = 0

instance : Roundoff Arith where
  Within := Arith.Within
  nonneg := Arith.Within.nonneg

/-- Arithmetics with a roundoff that tends to zero. -/
abbrev small : Filter (Arith × ℝ) := tiny Arith

theorem small_within : ∀ᶠ p in small, p.1.Within p.2 := tiny_within

theorem small_tendsto : Tendsto (fun p : Arith × ℝ => p.2) small (𝓝 0) := tiny_tendsto

theorem small_iff {Q : Arith × ℝ → Prop} (h : ∀ᶠ p in small, Q p) :
    ∃ u₀ > 0, ∀ (A : Arith) (u : ℝ), A.Within u → u ≤ u₀ → Q (A, u) := tiny_iff h

/-! ### The operations -/

section
variable {F G : Arith × ℝ → ℂ} {z w : ℂ}

theorem _root_.Verif.Near.aadd (h : Near F z) (h' : Near G w) : Near (fun p : Arith × ℝ => p.1.add (F p) (G p)) (z + w) :=
  (h.add h').round (small_within.mono fun _ hp => hp.add _ _)

theorem _root_.Verif.Near.asub (h : Near F z) (h' : Near G w) : Near (fun p : Arith × ℝ => p.1.sub (F p) (G p)) (z - w) :=
  (h.sub h').round (small_within.mono fun _ hp => hp.sub _ _)

theorem _root_.Verif.Near.amul (h : Near F z) (h' : Near G w) : Near (fun p : Arith × ℝ => p.1.mul (F p) (G p)) (z * w) :=
  (h.mul h').round (small_within.mono fun _ hp => hp.mul _ _)

theorem _root_.Verif.Near.adiv (h : Near F z) (h' : Near G w) (hw : w ≠ 0) :
    Near (fun p : Arith × ℝ => p.1.div (F p) (G p)) (z / w) := by
  refine (h.div h' hw).round ?_
  filter_upwards [small_within, h'.ne hw] with p hp h1
  exact hp.div _ _ h1

theorem _root_.Verif.Near.asin (h : Near F z) : Near (fun p : Arith × ℝ => p.1.sin (F p)) (Complex.sin z) :=
  (h.diff ((Complex.differentiable_sin z).restrictScalars ℝ)).round (small_within.mono fun _ hp => hp.sin _)

theorem _root_.Verif.Near.acos (h : Near F z) : Near (fun p : Arith × ℝ => p.1.cos (F p)) (Complex.cos z) :=
  (h.diff ((Complex.differentiable_cos z).restrictScalars ℝ)).round (small_within.mono fun _ hp => hp.cos _)

theorem _root_.Verif.Near.aexp (h : Near F z) : Near (fun p : Arith × ℝ => p.1.exp (F p)) (Complex.exp z) :=
  (h.diff ((Complex.differentiable_exp (𝕜 := ℂ) z).restrictScalars ℝ)).round (small_within.mono fun _ hp => hp.exp _)

theorem offCut_open : IsOpen {z : ℂ | OffCut z} := by
  apply IsOpen.union
  · exact isOpen_ne_fun Complex.continuous_im continuous_const
  · exact isOpen_lt (Complex.continuous_re.abs) continuous_const

theorem root1m_re_nonneg (z : ℂ) : 0 ≤ (root1m z).re := by
  unfold root1m
  split_ifs
  · simp
  · obtain ⟨w, hw⟩ : ∃ w : ℂ, w = 1 - z ^ 2 := ⟨_, rfl⟩
    rw [← hw]
    unfold Complex.sqrt
    by_cases h0 : w = 0
    · rw [h0, Complex.zero_cpow (by norm_num)]
      rfl
    · rw [Complex.cpow_def_of_ne_zero h0, Complex.exp_re]
      refine mul_nonneg (Real.exp_pos _).le (Real.cos_nonneg_of_neg_pi_div_two_le_of_le ?_ ?_)
      · have := Complex.neg_pi_lt_arg w
        simp [Complex.log_im]
        linarith
      · have := Complex.arg_le_pi w
        simp [Complex.log_im]
        linarith

theorem npArcsin_slit (z : ℂ) : I * z + root1m z ∈ Complex.slitPlane := by
  rw [Complex.mem_slitPlane_iff_not_le_zero]
  intro hle
  obtain ⟨h1, h2⟩ := Complex.le_def.mp hle
  simp only [Complex.zero_re, Complex.zero_im] at h1 h2
  obtain ⟨t, ht⟩ : ∃ t : ℝ, t = (I * z + root1m z).re := ⟨_, rfl⟩
  have e : I * z + root1m z = t := Complex.ext (by simp [ht]) (by simpa using h2)
  have hsq := root1m_sq z
  have hprod : (I * z + root1m z) * (root1m z - I * z) = 1 := by
    have : (I * z + root1m z) * (root1m z - I * z) = root1m z ^ 2 - I ^ 2 * z ^ 2 := by ring
    rw [this, hsq, Complex.I_sq]; ring
  have ht0 : t ≠ 0 := by
    rintro rfl
    rw [e] at hprod
    simp at hprod
  have ht' : (t : ℂ) ≠ 0 := Complex.ofReal_ne_zero.mpr ht0
  have e2 : root1m z - I * z = ((1 / t : ℝ) : ℂ) := by
    rw [e] at hprod
    push_cast
    field_simp
    rw [mul_comm]; exact hprod
  have e3 : 2 * root1m z = ((t + 1 / t : ℝ) : ℂ) := by
    push_cast
    rw [← e]
    push_cast at e2
    rw [e] 
    linear_combination e + e2
  have e4 := congrArg Complex.re e3
  simp only [Complex.mul_re, Complex.re_ofNat, Complex.im_ofNat, zero_mul, sub_zero,
    Complex.ofReal_re] at e4
  have h3 := root1m_re_nonneg z
  have htn : t < 0 := lt_of_le_of_ne (by rw [ht]; exact h1) ht0
  have : 1 / t < 0 := by rw [one_div]; exact inv_lt_zero.mpr htn
  linarith

theorem npArcsin_diff {z : ℂ} (h : OffCut z) : DifferentiableAt ℝ npArcsin z := by
  have h1 : DifferentiableAt ℝ root1m z := (contDiffAt_root1m (N := 1) h).differentiableAt (by simp)
  have h2 : DifferentiableAt ℝ (fun z => I * z + root1m z) z :=
    (differentiableAt_id.const_mul I).add h1
  have h3 : DifferentiableAt ℝ (fun z => Complex.log (I * z + root1m z)) z :=
    DifferentiableAt.comp z (g := Complex.log)
      ((Complex.differentiableAt_log (npArcsin_slit z)).restrictScalars ℝ) h2
  exact h3.const_mul (-I)

theorem _root_.Verif.Near.aarcsin (h : Near F z) (hz : OffCut z) : Near (fun p : Arith × ℝ => p.1.arcsin (F p)) (npArcsin z) := by
  exact (h.diff (npArcsin_diff hz)).round (small_within.mono fun _ hp => hp.arcsin _)

/-- On the real axis `arcsin` is smooth but for 1 and -1. -/
theorem npArcsin_real {x : ℝ} (hx : |x| ≠ 1) : DifferentiableAt ℝ (fun t : ℝ => npArcsin (t : ℂ)) x := by
  have hc : DifferentiableAt ℝ (fun t : ℝ => (t : ℂ)) x := Complex.ofRealCLM.differentiableAt
  rcases lt_or_gt_of_ne hx with h | h
  · exact DifferentiableAt.comp x (g := npArcsin) (npArcsin_diff (Or.inr (by simpa using h))) hc
  · have hroot : DifferentiableAt ℝ (fun t : ℝ => root1m (t : ℂ)) x := by
      have hs : DifferentiableAt ℝ (fun t : ℝ => ((Real.sqrt (t ^ 2 - 1) : ℝ) : ℂ)) x := by
        have h1 : DifferentiableAt ℝ (fun t : ℝ => Real.sqrt (t ^ 2 - 1)) x := by
          refine ((differentiableAt_id.pow 2).sub_const 1).sqrt ?_
          have := (one_lt_sq_iff_one_lt_abs x).mpr h
          exact ne_of_gt (sub_pos.mpr this)
        exact DifferentiableAt.comp x (g := fun t : ℝ => (t : ℂ)) Complex.ofRealCLM.differentiableAt h1
      rcases lt_abs.mp h with h1 | h1
      · refine (hs.const_mul (-I)).congr_of_eventuallyEq ?_
        filter_upwards [eventually_gt_nhds h1] with t ht
        exact root1m_ofReal_gt ht
      · refine (hs.const_mul I).congr_of_eventuallyEq ?_
        filter_upwards [eventually_lt_nhds (show x < -1 by linarith)] with t ht
        exact root1m_ofReal_lt ht
    have h2 : DifferentiableAt ℝ (fun t : ℝ => I * (t : ℂ) + root1m (t : ℂ)) x :=
      (hc.const_mul I).add hroot
    have h3 : DifferentiableAt ℝ (fun t : ℝ => Complex.log (I * (t : ℂ) + root1m (t : ℂ))) x :=
      DifferentiableAt.comp x (g := Complex.log)
        ((Complex.differentiableAt_log (npArcsin_slit x)).restrictScalars ℝ) h2
    exact h3.const_mul (-I)

/-- A real computed in complex arithmetic. -/
theorem _root_.Verif.Near.aarcsin_real {x : ℝ} (h : Near F (x : ℂ)) (hr : ∀ᶠ p in small, (F p).im = 0)
    (hx : |x| ≠ 1) : Near (fun p : Arith × ℝ => p.1.arcsin (F p)) (npArcsin (x : ℂ)) := by
  have h1 : Near (fun p => (F p).re) x :=
    h.diff (g := fun z : ℂ => z.re) Complex.reCLM.differentiableAt
  have h2 := h1.diff (g := fun t : ℝ => npArcsin (t : ℂ)) (npArcsin_real hx)
  refine h2.round ?_
  filter_upwards [small_within, hr] with p hp h0
  have e : ((F p).re : ℂ) = F p := Complex.ext (by simp) (by simp [h0])
  simp only [e]
  exact hp.arcsin _

/-- The refraction angle: `s` real, and either an absorbing medium or one away from its critical angle. -/
theorem near_refract {S N : Arith × ℝ → ℂ} {s : ℝ} {n : ℂ} (hS : Near S (s : ℂ))
    (hr : ∀ᶠ p in small, (S p).im = 0) (hN : Near N n) (hNr : n.im = 0 → ∀ᶠ p in small, (N p).im = 0)
    (hn : n ≠ 0) (hc : n.im ≠ 0 ∨ |s| ≠ |n.re|) :
    Near (fun p : Arith × ℝ => p.1.arcsin (p.1.div (S p) (N p))) (npArcsin (s / n)) := by
  have h := hS.adiv hN hn
  by_cases hni : n.im = 0
  · have hne := hc.resolve_left (not_not.mpr hni)
    have hNr' := hNr hni
    obtain ⟨m, rfl⟩ : ∃ m : ℝ, n = m := ⟨n.re, Complex.ext (by simp) (by simpa using hni)⟩
    have hm : m ≠ 0 := by simpa using hn
    rw [← Complex.ofReal_div] at h ⊢
    refine h.aarcsin_real ?_ ?_
    · filter_upwards [small_within, hr, hNr'] with p hp h0 h1
      have e : S p = ((S p).re : ℂ) := Complex.ext (by simp) (by simp [h0])
      have e' : N p = ((N p).re : ℂ) := Complex.ext (by simp) (by simp [h1])
      rw [e, e']
      exact hp.div_real _ _
    · rw [abs_div, ne_eq, div_eq_one_iff_eq (abs_ne_zero.mpr hm)]
      simpa using hne
  · refine h.aarcsin ?_
    by_cases hs : s = 0
    · right; simp [hs]
    · left
      have : ((s : ℂ) / n).im = -(s * n.im / Complex.normSq n) := by
        rw [Complex.div_im]; simp
      rw [this]
      have h2 : Complex.normSq n ≠ 0 := by simpa using hn
      simp [hs, hni, h2]

theorem _root_.Verif.Near.aabs (h : Near F z) : Near (fun p : Arith × ℝ => p.1.abs (F p)) ‖z‖ := by
  have h1 : Near (fun p => ‖F p‖) ‖z‖ := h.lip (g := fun w : ℂ => ‖w‖) (by
    refine IsBigO.of_bound 1 (Eventually.of_forall fun w => ?_)
    rw [one_mul]
    exact abs_norm_sub_norm_le w z)
  refine h1.round (small_within.mono fun p hp => ?_)
  simpa using hp.abs (F p)

theorem _root_.Verif.Near.clip (h : Near F z) : Near (fun p : Arith × ℝ => clip35 (F p)) (clip35 z) := by
  refine h.lip (IsBigO.of_bound 1 (Eventually.of_forall fun w => ?_))
  rw [one_mul]
  have e : clip35 w - clip35 z = ⟨(w - z).re, min w.im 35 - min z.im 35⟩ := by
    apply Complex.ext <;> simp [clip35]
  rw [e, Complex.norm_eq_sqrt_sq_add_sq, Complex.norm_eq_sqrt_sq_add_sq]
  refine Real.sqrt_le_sqrt (add_le_add le_rfl (sq_le_sq.mpr ?_))
  have := abs_min_sub_min_le_max w.im 35 z.im 35
  simpa using this

end

section
variable {F G : Arith × ℝ → ℝ} {z w : ℝ}

theorem _root_.Verif.Near.aradd (h : Near F z) (h' : Near G w) : Near (fun p : Arith × ℝ => p.1.radd (F p) (G p)) (z + w) :=
  (h.add h').round (small_within.mono fun _ hp => hp.radd _ _)

theorem _root_.Verif.Near.arsub (h : Near F z) (h' : Near G w) : Near (fun p : Arith × ℝ => p.1.rsub (F p) (G p)) (z - w) :=
  (h.sub h').round (small_within.mono fun _ hp => hp.rsub _ _)

theorem _root_.Verif.Near.armul (h : Near F z) (h' : Near G w) : Near (fun p : Arith × ℝ => p.1.rmul (F p) (G p)) (z * w) :=
  (h.mul h').round (small_within.mono fun _ hp => hp.rmul _ _)

theorem _root_.Verif.Near.ardiv (h : Near F z) (h' : Near G w) (hw : w ≠ 0) :
    Near (fun p : Arith × ℝ => p.1.rdiv (F p) (G p)) (z / w) := by
  refine (h.rdiv h' hw).round ?_
  filter_upwards [small_within, h'.rne hw] with p hp h1
  exact hp.rdiv _ _ h1

theorem _root_.Verif.Near.aarctan (h : Near F z) : Near (fun p : Arith × ℝ => p.1.arctan (F p)) (Real.arctan z) :=
  (h.diff (Real.differentiableAt_arctan z)).round (small_within.mono fun _ hp => hp.arctan _)

theorem near_pi : Near (fun p : Arith × ℝ => p.1.pi) Real.pi := by
  refine (near_const Real.pi).round (small_within.mono fun p hp => ?_)
  have := hp.pi
  rwa [Real.norm_eq_abs, Real.norm_eq_abs, abs_of_pos Real.pi_pos]

end

/-! ### Angles -/

theorem npAngle_arg (σ : Bool) (w : ℂ) : ∃ k : ℤ, npAngle σ w = Complex.arg w + 2 * Real.pi * k := by
  unfold npAngle
  by_cases h : w.im = 0 ∧ w.re < 0
  · rw [if_pos h]
    have : Complex.arg w = Real.pi := Complex.arg_eq_pi_iff.mpr ⟨h.2, h.1⟩
    rw [this]
    cases σ
    · exact ⟨-1, by push_cast; simp; ring⟩
    · exact ⟨0, by simp⟩
  · rw [if_neg h]
    exact ⟨0, by simp⟩

theorem npAngle_abs_le (σ : Bool) (w : ℂ) : |npAngle σ w| ≤ Real.pi := by
  unfold npAngle
  split_ifs
  · rw [abs_of_pos Real.pi_pos]
  · rw [abs_neg, abs_of_pos Real.pi_pos]
  · exact Complex.abs_arg_le_pi w

theorem npAngle_diff (σ σ' : Bool) {w y : ℂ} (hw : w ≠ 0) (hy : y ≠ 0) :
    ∃ k : ℤ, npAngle σ' w + 2 * Real.pi * k = npAngle σ y + Complex.arg (w / y) := by
  obtain ⟨k1, h1⟩ := npAngle_arg σ' w
  obtain ⟨k2, h2⟩ := npAngle_arg σ y
  have h3 : (Complex.arg (w / y * y) : Real.Angle) = Complex.arg (w / y) + Complex.arg y :=
    Complex.arg_mul_coe_angle (div_ne_zero hw hy) hy
  rw [div_mul_cancel₀ w hy, ← Real.Angle.coe_add, Real.Angle.angle_eq_iff_two_pi_dvd_sub] at h3
  obtain ⟨k3, h3⟩ := h3
  refine ⟨k2 - k1 - k3, ?_⟩
  rw [h1, h2]
  push_cast
  linarith

/-- Near up to whole periods. -/
def NearC (T : ℝ) (F : Arith × ℝ → ℝ) (z : ℝ) : Prop :=
  (∃ K : Arith × ℝ → ℤ, Near (fun p => F p + T * K p) z) ∧ F =O[small] fun _ => (1 : ℝ)

theorem NearC.perturb {T : ℝ} {H F : Arith × ℝ → ℝ} {z : ℝ} (hF : NearC T F z)
    (h : (fun p => H p - F p) =O[small] fun p => p.2) : NearC T H z := by
  obtain ⟨⟨K, hK⟩, hb⟩ := hF
  refine ⟨⟨K, ?_⟩, ?_⟩
  · refine (h.add hK).congr_left fun p => ?_
    ring
  · have := (h.trans (small_tendsto.isBigO_one ℝ)).add hb
    refine this.congr_left fun p => ?_
    ring

theorem round_bigO {H F : Arith × ℝ → ℝ} (hb : F =O[small] fun _ => (1 : ℝ))
    (h : ∀ᶠ p in small, |H p - F p| ≤ p.2 * |F p|) : (fun p => H p - F p) =O[small] fun p => p.2 := by
  have h1 : (fun p => H p - F p) =O[small] fun p => p.2 * |F p| := by
    refine IsBigO.of_bound 1 ?_
    filter_upwards [h] with p hp
    rw [one_mul]
    exact hp.trans (le_abs_self _)
  have h2 := (isBigO_refl (fun p : Arith × ℝ => p.2) small).mul hb.norm_left
  exact h1.trans (by simpa using h2)

theorem NearC.round {T : ℝ} {H F : Arith × ℝ → ℝ} {z : ℝ} (hF : NearC T F z)
    (h : ∀ᶠ p in small, |H p - F p| ≤ p.2 * |F p|) : NearC T H z :=
  hF.perturb (round_bigO hF.2 h)

theorem NearC.add {T : ℝ} {F G : Arith × ℝ → ℝ} {z w : ℝ} (hF : NearC T F z) (hG : Near G w) :
    NearC T (fun p => F p + G p) (z + w) := by
  obtain ⟨⟨K, hK⟩, hb⟩ := hF
  exact ⟨⟨K, (hK.add hG).congr (Eventually.of_forall fun p => by ring)⟩, hb.add hG.bounded⟩

theorem NearC.mul {T : ℝ} {F G : Arith × ℝ → ℝ} {z w : ℝ} (hF : NearC T F z) (hG : Near G w) :
    NearC (T * w) (fun p => F p * G p) (z * w) := by
  obtain ⟨⟨K, hK⟩, hb⟩ := hF
  refine ⟨⟨K, ?_⟩, by simpa using hb.mul hG.bounded⟩
  have h1 : (fun p => F p * (G p - w)) =O[small] fun p => p.2 := by simpa using hb.mul hG
  have h2 : (fun p => (F p + T * K p - z) * w) =O[small] fun p => p.2 := by
    have := IsBigO.const_mul_left hK w
    exact this.congr_left fun p => mul_comm _ _
  refine (h1.add h2).congr_left fun p => ?_
  ring

/-- The computed phase. -/
theorem near_angle (σ : Bool) {Y : Arith × ℝ → ℂ} {y : ℂ} (h : Near Y y) (hy : y ≠ 0) :
    NearC (2 * Real.pi) (fun p => p.1.angle (Y p)) (npAngle σ y) ∧
      ∀ᶠ p in small, |p.1.angle (Y p)| ≤ Real.pi + p.2 * Real.pi := by
  have hb : ∀ᶠ p in small, |p.1.angle (Y p)| ≤ Real.pi + p.2 * Real.pi := by
    filter_upwards [small_within, h.ne hy] with p hp h0
    obtain ⟨σ', h1⟩ := hp.angle _ h0
    have h2 := npAngle_abs_le σ' (Y p)
    have h3 := mul_le_mul_of_nonneg_left h2 hp.nonneg
    have := abs_sub_abs_le_abs_sub (p.1.angle (Y p)) (npAngle σ' (Y p))
    linarith
  refine ⟨⟨?_, ?_⟩, hb⟩
  · have hex : ∀ p : Arith × ℝ, ∃ k : ℤ, (p.1.Within p.2 ∧ Y p ≠ 0) →
        |p.1.angle (Y p) + 2 * Real.pi * k - (npAngle σ y + Complex.arg (Y p / y))| ≤ Real.pi * p.2 := by
      intro p
      by_cases hp : p.1.Within p.2 ∧ Y p ≠ 0
      · obtain ⟨σ', h1⟩ := hp.1.angle _ hp.2
        obtain ⟨k, hk⟩ := npAngle_diff σ σ' hp.2 hy
        refine ⟨k, fun _ => ?_⟩
        rw [← hk]
        have e : p.1.angle (Y p) + 2 * Real.pi * k - (npAngle σ' (Y p) + 2 * Real.pi * k) =
            p.1.angle (Y p) - npAngle σ' (Y p) := by ring
        rw [e]
        have h2 := mul_le_mul_of_nonneg_left (npAngle_abs_le σ' (Y p)) hp.1.nonneg
        linarith
      · exact ⟨0, fun h => absurd h hp⟩
    choose K hK using hex
    refine ⟨K, ?_⟩
    have h1 : Near (fun p => Y p / y) 1 := by
      have := h.div (near_const y) hy
      rwa [div_self hy] at this
    have h2 : Near (fun p => Complex.arg (Y p / y)) 0 := by
      have hd : DifferentiableAt ℝ Complex.arg 1 := by
        have h3 : DifferentiableAt ℝ Complex.log (1 : ℂ) :=
          (Complex.differentiableAt_log Complex.one_mem_slitPlane).restrictScalars ℝ
        have h4 : DifferentiableAt ℝ (fun z => (Complex.log z).im) 1 :=
          DifferentiableAt.comp (1 : ℂ) (g := fun z : ℂ => z.im) Complex.imCLM.differentiableAt h3
        simpa only [Complex.log_im] using h4
      have := h1.diff hd
      rwa [Complex.arg_one] at this
    have h3 := (near_const (npAngle σ y)).add h2
    rw [add_zero] at h3
    refine h3.perturb Real.pi ?_
    filter_upwards [small_within, h.ne hy] with p hp h0
    exact hK p ⟨hp, h0⟩
  · refine IsBigO.of_bound (2 * Real.pi) ?_
    filter_upwards [hb, small_tendsto.eventually (eventually_lt_nhds one_pos)] with p h1 h2
    simp only [norm_one, mul_one, Real.norm_eq_abs]
    nlinarith [Real.pi_pos]

/-! ### Folding delta -/

theorem fold_close {x d e : ℝ} {k : ℤ} (h0 : 0 ≤ x) (h1 : x ≤ 2 * Real.pi) (hd0 : -e ≤ d)
    (hd1 : d ≤ 2 * Real.pi + e) (hk : |d + 2 * Real.pi * k - x| ≤ e) (he : e < 1) :
    |min d (2 * Real.pi - d) - min x (2 * Real.pi - x)| ≤ 3 * e := by
  have hpi := Real.two_le_pi
  obtain ⟨hk1, hk2⟩ := abs_le.mp hk
  have hlt : k < 2 := by
    by_contra hc
    have : (2 : ℝ) ≤ k := by exact_mod_cast not_lt.mp hc
    nlinarith
  have hgt : -2 < k := by
    by_contra hc
    have : (k : ℝ) ≤ -2 := by exact_mod_cast not_lt.mp hc
    nlinarith
  have : k = -1 ∨ k = 0 ∨ k = 1 := by omega
  rw [abs_le]
  rcases this with rfl | rfl | rfl <;> push_cast at hk1 hk2 <;>
    rcases min_cases d (2 * Real.pi - d) with ⟨e1, h3⟩ | ⟨e1, h3⟩ <;>
    rcases min_cases x (2 * Real.pi - x) with ⟨e2, h4⟩ | ⟨e2, h4⟩ <;>
    rw [e1, e2] <;> constructor <;> linarith

/-! ### The slab array -/

theorem near_front (n : ℝ) : Near (fun p : Arith × ℝ => p.1.front n) n :=
  (near_const n).round (small_within.mono fun _ hp => hp.front _)

theorem near_index (i : ℕ) (n : ℂ) : Near (fun p : Arith × ℝ => p.1.index i n) n :=
  (near_const n).round (small_within.mono fun _ hp => hp.index _ _)

theorem near_thick (i : ℕ) (d : ℝ) : Near (fun p : Arith × ℝ => p.1.thick i d) d :=
  (near_const d).round (small_within.mono fun _ hp => hp.thick _ _)

theorem near_back (n : ℂ) : Near (fun p : Arith × ℝ => p.1.back n) n :=
  (near_const n).round (small_within.mono fun _ hp => hp.back _)

theorem index_im (i : ℕ) {n : ℂ} (h : n.im = 0) : ∀ᶠ p in small, (p.1.index i n).im = 0 := by
  obtain ⟨m, rfl⟩ : ∃ m : ℝ, n = m := ⟨n.re, Complex.ext (by simp) (by simpa using h)⟩
  exact small_within.mono fun _ hp => hp.index_real _ _

theorem back_im {n : ℂ} (h : n.im = 0) : ∀ᶠ p in small, (p.1.back n).im = 0 := by
  obtain ⟨m, rfl⟩ : ∃ m : ℝ, n = m := ⟨n.re, Complex.ext (by simp) (by simpa using h)⟩
  exact small_within.mono fun _ hp => hp.back_real _

/-! ### Results that may not be finite -/

/-- A computed quantity is finite and near the exact one. -/
def NearO (F : Arith × ℝ → Option ℂ) (z : ℂ) : Prop :=
  ∃ G, Near G z ∧ ∀ᶠ p in small, F p = some (G p)

theorem _root_.Verif.Near.acdiv {F G : Arith × ℝ → ℂ} {z w : ℂ} (h : Near F z) (h' : Near G w) (hw : w ≠ 0) :
    NearO (fun p => p.1.cdiv (F p) (G p)) (z / w) :=
  ⟨_, h.adiv h' hw, (h'.ne hw).mono fun _ hp => if_neg hp⟩

theorem near_exact {σ : Bool} {F G : Arith × ℝ → ℂ} {z w q : ℂ} (h : Near F z) (h' : Near G w)
    (hq : (Arith.exact σ).cdiv z w = some q) : NearO (fun p => p.1.cdiv (F p) (G p)) q := by
  rw [exact_cdiv, cdiv_eq_some] at hq
  rw [hq.2]
  exact h.acdiv h' hq.1

end Verif.TMM
