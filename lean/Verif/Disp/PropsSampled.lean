import Verif.Disp.PropsTable
import Verif.Disp.PropsOsc
import Verif.Disp.SampledSpec
import Mathlib.Analysis.Convex.Deriv
import Mathlib.Analysis.Calculus.MeanValue
import Mathlib.Analysis.Calculus.Deriv.Inv
import Mathlib.Analysis.Calculus.Deriv.Pow

/-! # C158: how well a table stands for the curve it was sampled from -/

namespace Verif.Disp

open Filter Topology

/-- A function with increasing slope lies below its chords. -/
theorem below_chord {f f' : ℝ → ℝ} {a b x : ℝ} (hab : a < b)
    (hd : ∀ x ∈ Set.Icc a b, HasDerivWithinAt f (f' x) (Set.Icc a b) x)
    (hm : ∀ x ∈ Set.Icc a b, ∀ y ∈ Set.Icc a b, x ≤ y → f' x ≤ f' y) (hx : x ∈ Set.Icc a b) :
    f x ≤ lerp a (f a) b (f b) x := by
  have hat : ∀ y ∈ interior (Set.Icc a b), HasDerivAt f (f' y) y := fun y hy =>
    (hd y (interior_subset hy)).hasDerivAt (mem_interior_iff_mem_nhds.mp hy)
  have hc : ConvexOn ℝ (Set.Icc a b) f := by
    refine MonotoneOn.convexOn_of_deriv (convex_Icc a b) (fun y hy => (hd y hy).continuousWithinAt)
      (fun y hy => (hat y hy).differentiableAt.differentiableWithinAt) ?_
    intro y hy z hz hyz
    rw [(hat y hy).deriv, (hat z hz).deriv]
    exact hm y (interior_subset hy) z (interior_subset hz) hyz
  have hpos : 0 < b - a := sub_pos.mpr hab
  have h := @hc.2 a (Set.left_mem_Icc.mpr hab.le) b (Set.right_mem_Icc.mpr hab.le) ((b - x) / (b - a))
    ((x - a) / (b - a)) (div_nonneg (by linarith [hx.2]) hpos.le) (div_nonneg (by linarith [hx.1]) hpos.le)
    (by field_simp; ring)
  have e : ((b - x) / (b - a)) • a + ((x - a) / (b - a)) • b = x := by
    simp only [smul_eq_mul]; field_simp; ring
  rw [e] at h
  refine h.trans_eq ?_
  unfold lerp
  simp only [smul_eq_mul]
  field_simp
  ring

/-- The chord of a curve that bends by at most `M`. -/
theorem chord_error {M a b x : ℝ} {f : ℝ → ℝ} (hab : a < b) (hf : BendsAtMost M f a b) (hx : x ∈ Set.Icc a b) :
    |lerp a (f a) b (f b) x - f x| ≤ M / 2 * ((x - a) * (b - x)) := by
  obtain ⟨f', hd, hl⟩ := hf
  have hne : b - a ≠ 0 := by linarith
  have hq : ∀ y, HasDerivWithinAt (fun y : ℝ => M / 2 * y ^ 2) (M * y) (Set.Icc a b) y := fun y => by
    have := ((hasDerivAt_id y).pow 2).const_mul (M / 2)
    refine (this.congr_deriv ?_).hasDerivWithinAt
    simp; ring
  have h1 := below_chord (f := fun y => f y + M / 2 * y ^ 2) (f' := fun y => f' y + M * y) hab
    (fun y hy => (hd y hy).add (hq y)) (fun y hy z hz hyz => by
      have := hl y hy z hz
      rw [abs_le, abs_of_nonpos (sub_nonpos.mpr hyz)] at this
      linarith [this.2]) hx
  have h2 := below_chord (f := fun y => M / 2 * y ^ 2 - f y) (f' := fun y => M * y - f' y) hab
    (fun y hy => (hq y).sub (hd y hy)) (fun y hy z hz hyz => by
      have := hl y hy z hz
      rw [abs_le, abs_of_nonpos (sub_nonpos.mpr hyz)] at this
      linarith [this.1]) hx
  have e1 : lerp a (f a + M / 2 * a ^ 2) b (f b + M / 2 * b ^ 2) x =
      lerp a (f a) b (f b) x + (M / 2 * x ^ 2 + M / 2 * ((x - a) * (b - x))) := by
    unfold lerp; field_simp; ring
  have e2 : lerp a (M / 2 * a ^ 2 - f a) b (M / 2 * b ^ 2 - f b) x =
      -lerp a (f a) b (f b) x + (M / 2 * x ^ 2 + M / 2 * ((x - a) * (b - x))) := by
    unfold lerp; field_simp; ring
  simp only [e1] at h1
  simp only [e2] at h2
  rw [abs_le]
  constructor <;> linarith

theorem neighbours_lt {tab : List (ℝ × ℝ × ℝ)} (hinc : Increasing tab) {a b : ℝ × ℝ × ℝ} (hab : Neighbours tab a b) :
    a.1 < b.1 := by
  obtain ⟨pre, post, rfl⟩ := hab
  have h := (List.pairwise_append.mp hinc).2.1
  exact (List.pairwise_cons.mp h).1 b (by simp)

theorem Neighbours.mem {tab : List (ℝ × ℝ × ℝ)} {a b : ℝ × ℝ × ℝ} (hab : Neighbours tab a b) : a ∈ tab ∧ b ∈ tab := by
  obtain ⟨pre, post, rfl⟩ := hab
  simp

/-- The index a sampled table gives between two rows. -/
theorem sampled_complex (z : SqrtOracle) (wl : ℝ) {tab : List (ℝ × ℝ × ℝ)} (hinc : Increasing tab) {f : ℝ → ℂ}
    (hs : Samples tab f) {a b : ℝ × ℝ × ℝ} (hab : Neighbours tab a b) {w : ℝ} (hw : w ≠ 0) (h1 : a.1 ≤ w)
    (h2 : w ≤ b.1) :
    (Scat.table wl tab).complex z (some w) =
      some ⟨lerp a.1 (f a.1).re b.1 (f b.1).re w, lerp a.1 (f a.1).im b.1 (f b.1).im w⟩ := by
  rw [C46_interpolates z wl hinc hab hw h1 h2]
  have e1 := hs a hab.mem.1
  have e2 := hs b hab.mem.2
  rw [← e1, ← e2]
  rfl

/-- C158: between two neighbouring rows the index differs from the curve by at most half the curvature times the
product of the distances to the two rows, in `n` and in `k`. -/
theorem C158_error (z : SqrtOracle) (wl : ℝ) {tab : List (ℝ × ℝ × ℝ)} (hinc : Increasing tab) {f : ℝ → ℂ}
    (hs : Samples tab f) {a b : ℝ × ℝ × ℝ} (hab : Neighbours tab a b) {w : ℝ} (hw : w ≠ 0) (h1 : a.1 ≤ w)
    (h2 : w ≤ b.1) {M K : ℝ} (hM : BendsAtMost M (fun x => (f x).re) a.1 b.1)
    (hK : BendsAtMost K (fun x => (f x).im) a.1 b.1) :
    ∃ N, (Scat.table wl tab).complex z (some w) = some N ∧
      |N.re - (f w).re| ≤ M / 2 * ((w - a.1) * (b.1 - w)) ∧ |N.im - (f w).im| ≤ K / 2 * ((w - a.1) * (b.1 - w)) := by
  refine ⟨_, sampled_complex z wl hinc hs hab hw h1 h2, ?_, ?_⟩
  · exact chord_error (neighbours_lt hinc hab) hM ⟨h1, h2⟩
  · exact chord_error (neighbours_lt hinc hab) hK ⟨h1, h2⟩

theorem bends_nonneg {M a b : ℝ} {f : ℝ → ℝ} (hab : a < b) (h : BendsAtMost M f a b) : 0 ≤ M := by
  obtain ⟨f', -, hl⟩ := h
  have := (abs_nonneg _).trans (hl a (Set.left_mem_Icc.mpr hab.le) b (Set.right_mem_Icc.mpr hab.le))
  have h2 : 0 < |a - b| := abs_pos.mpr (by linarith)
  exact le_of_mul_le_mul_right (by simpa using this) h2

/-- C158: with rows at most `h` apart, the index is within `M h² / 8` of a curve whose second derivative is at most
`M`: halving the spacing of the table divides its error by four. -/
theorem C158_spacing (z : SqrtOracle) (wl : ℝ) {tab : List (ℝ × ℝ × ℝ)} (hinc : Increasing tab) {f : ℝ → ℂ}
    (hs : Samples tab f) {w h : ℝ} (hw : w ≠ 0) (hwh : Within tab w h) {M K lo hi : ℝ}
    (hlo : ∀ r ∈ tab, lo ≤ r.1 ∧ r.1 ≤ hi) (hM : BendsAtMost M (fun x => (f x).re) lo hi)
    (hK : BendsAtMost K (fun x => (f x).im) lo hi) :
    ∃ N, (Scat.table wl tab).complex z (some w) = some N ∧
      |N.re - (f w).re| ≤ M * h ^ 2 / 8 ∧ |N.im - (f w).im| ≤ K * h ^ 2 / 8 := by
  obtain ⟨a, b, hab, h1, h2, h3⟩ := hwh
  have hlt := neighbours_lt hinc hab
  have ha := hlo a hab.mem.1
  have hb := hlo b hab.mem.2
  have hsub : Set.Icc a.1 b.1 ⊆ Set.Icc lo hi := Set.Icc_subset_Icc ha.1 hb.2
  have restrict : ∀ {M : ℝ} {g : ℝ → ℝ}, BendsAtMost M g lo hi → BendsAtMost M g a.1 b.1 := by
    rintro M g ⟨g', hd, hl⟩
    exact ⟨g', fun x hx => (hd x (hsub hx)).mono hsub, fun x hx y hy => hl x (hsub hx) y (hsub hy)⟩
  obtain ⟨N, hN, e1, e2⟩ := C158_error z wl hinc hs hab hw h1 h2 (restrict hM) (restrict hK)
  have hq : (w - a.1) * (b.1 - w) ≤ h ^ 2 / 4 := by
    nlinarith [sq_nonneg ((w - a.1) - (b.1 - w)), mul_nonneg (sub_nonneg.mpr hlt.le) (sub_nonneg.mpr h3)]
  have key : ∀ {M : ℝ}, 0 ≤ M → M / 2 * ((w - a.1) * (b.1 - w)) ≤ M * h ^ 2 / 8 := fun {M} hM => by
    nlinarith [mul_le_mul_of_nonneg_left hq hM]
  exact ⟨N, hN, e1.trans (key (bends_nonneg hlt (restrict hM))), e2.trans (key (bends_nonneg hlt (restrict hK)))⟩

/-- C158: the estimate cannot be improved: for samples of a parabola the error half way between two rows is
`M h² / 8`. -/
theorem C158_sharp (z : SqrtOracle) (wl : ℝ) {tab : List (ℝ × ℝ × ℝ)} (hinc : Increasing tab) (n₀ s M : ℝ)
    (hs : Samples tab fun x => ((n₀ + s * x + M / 2 * x ^ 2 : ℝ) : ℂ)) {a b : ℝ × ℝ × ℝ} (hab : Neighbours tab a b)
    {w : ℝ} (hw : w ≠ 0) (hmid : w = (a.1 + b.1) / 2) :
    (Scat.table wl tab).complex z (some w) =
      some (((n₀ + s * w + M / 2 * w ^ 2 + M * (b.1 - a.1) ^ 2 / 8 : ℝ)) : ℂ) := by
  have hlt := neighbours_lt hinc hab
  rw [sampled_complex z wl hinc hs hab hw (by linarith) (by linarith)]
  have hne : b.1 - a.1 ≠ 0 := by linarith
  congr 1
  apply Complex.ext
  · simp only [Complex.ofReal_re, lerp, hmid]
    field_simp
    ring
  · simp only [Complex.ofReal_im, lerp]
    ring

/-- A second derivative bounds the bending. -/
theorem bends_of_deriv {M a b : ℝ} {f f' f'' : ℝ → ℝ} (h1 : ∀ x ∈ Set.Icc a b, HasDerivAt f (f' x) x)
    (h2 : ∀ x ∈ Set.Icc a b, HasDerivAt f' (f'' x) x) (hM : ∀ x ∈ Set.Icc a b, |f'' x| ≤ M) : BendsAtMost M f a b := by
  refine ⟨f', fun x hx => (h1 x hx).hasDerivWithinAt, fun x hx y hy => ?_⟩
  have := (convex_Icc a b).norm_image_sub_le_of_norm_hasDerivWithin_le (fun u hu => (h2 u hu).hasDerivWithinAt)
    (fun u hu => by rw [Real.norm_eq_abs]; exact hM u hu) hy hx
  simpa only [Real.norm_eq_abs] using this

/-- C158: a table of a Cauchy material without absorption (`B, C ≥ 0`) never gives an index below that of the material,
and exceeds it by at most `(6 B / a⁴ + 20 C / a⁶) (b - a)² / 8` between rows at `a` and `b` (wavelengths in nm, hence
the powers of 1000). -/
theorem C158_cauchy (z : SqrtOracle) (wl wl' A : ℝ) {B C : ℝ} (hB : 0 ≤ B) (hC : 0 ≤ C) {tab : List (ℝ × ℝ × ℝ)}
    (hinc : Increasing tab)
    (hs : ∀ r ∈ tab, 0 < r.1 ∧ (Scat.cauchy wl' A B C).complex z (some r.1) = some (rowRI r))
    {a b : ℝ × ℝ × ℝ} (hab : Neighbours tab a b) {w : ℝ} (h1 : a.1 ≤ w) (h2 : w ≤ b.1) :
    ∃ n m : ℝ, (Scat.table wl tab).complex z (some w) = some (n : ℂ) ∧
      (Scat.cauchy wl' A B C).complex z (some w) = some (m : ℂ) ∧ m ≤ n ∧
      n ≤ m + (6 * (B * 1000 ^ 2) / a.1 ^ 4 + 20 * (C * 1000 ^ 4) / a.1 ^ 6) * (b.1 - a.1) ^ 2 / 8 := by
  have hlt := neighbours_lt hinc hab
  have ha0 : 0 < a.1 := (hs a hab.mem.1).1
  have hw : 0 < w := ha0.trans_le h1
  obtain ⟨β, hβ⟩ : ∃ β, β = B * 1000 ^ 2 := ⟨_, rfl⟩
  obtain ⟨γ, hγ⟩ : ∃ γ, γ = C * 1000 ^ 4 := ⟨_, rfl⟩
  have hβ0 : 0 ≤ β := by rw [hβ]; positivity
  have hγ0 : 0 ≤ γ := by rw [hγ]; positivity
  set f : ℝ → ℝ := fun x => A + β * (x ^ 2)⁻¹ + γ * (x ^ 4)⁻¹ with hf
  set f' : ℝ → ℝ := fun x => -(2 * β * (x ^ 3)⁻¹) - 4 * γ * (x ^ 5)⁻¹ with hf'
  set f'' : ℝ → ℝ := fun x => 6 * β * (x ^ 4)⁻¹ + 20 * γ * (x ^ 6)⁻¹ with hf''
  have hc : ∀ x : ℝ, 0 < x → (Scat.cauchy wl' A B C).complex z (some x) = some ((f x : ℝ) : ℂ) := by
    intro x hx
    rw [C49_cauchy z wl' A B C hx]
    congr 2
    simp only [hf, hβ, hγ]
    field_simp
  have hS : Samples tab fun x => ((f x : ℝ) : ℂ) := by
    intro r hr
    have := (hs r hr).2
    rw [hc r.1 (hs r hr).1] at this
    exact (Option.some.inj this).symm
  have hinv : ∀ (k : ℕ) {x : ℝ}, 0 < x → HasDerivAt (fun x : ℝ => (x ^ (k + 1))⁻¹) (-((k + 1) * (x ^ (k + 2))⁻¹)) x := by
    intro k x hx
    have := (hasDerivAt_pow (k + 1) x).inv (pow_ne_zero _ hx.ne')
    refine this.congr_deriv ?_
    push_cast
    field_simp
    ring
  have d1 : ∀ x ∈ Set.Icc a.1 b.1, HasDerivAt f (f' x) x := fun x hx => by
    have hx0 : 0 < x := ha0.trans_le hx.1
    refine (((hasDerivAt_const x A).add ((hinv 1 hx0).const_mul β)).add ((hinv 3 hx0).const_mul γ)).congr_deriv ?_
    simp only [hf']; push_cast; ring
  have d2 : ∀ x ∈ Set.Icc a.1 b.1, HasDerivAt f' (f'' x) x := fun x hx => by
    have hx0 : 0 < x := ha0.trans_le hx.1
    refine ((((hinv 2 hx0).const_mul (2 * β)).neg).sub ((hinv 4 hx0).const_mul (4 * γ))).congr_deriv ?_
    simp only [hf'']; push_cast; ring
  set M := 6 * β / a.1 ^ 4 + 20 * γ / a.1 ^ 6 with hM
  have hb2 : ∀ x ∈ Set.Icc a.1 b.1, |f'' x| ≤ M := fun x hx => by
    have hx0 : 0 < x := ha0.trans_le hx.1
    rw [abs_of_nonneg (by simp only [hf'']; positivity)]
    simp only [hf'', hM, div_eq_mul_inv]
    have i4 : (x ^ 4)⁻¹ ≤ (a.1 ^ 4)⁻¹ := inv_anti₀ (by positivity) (pow_le_pow_left₀ ha0.le hx.1 4)
    have i6 : (x ^ 6)⁻¹ ≤ (a.1 ^ 6)⁻¹ := inv_anti₀ (by positivity) (pow_le_pow_left₀ ha0.le hx.1 6)
    exact add_le_add (mul_le_mul_of_nonneg_left i4 (by positivity)) (mul_le_mul_of_nonneg_left i6 (by positivity))
  have hbend := bends_of_deriv d1 d2 hb2
  have herr := chord_error hlt hbend ⟨h1, h2⟩
  have hlow := below_chord hlt (fun x hx => (d1 x hx).hasDerivWithinAt) (fun x hx y hy hxy => by
    have hx0 : 0 < x := ha0.trans_le hx.1
    have i3 : (y ^ 3)⁻¹ ≤ (x ^ 3)⁻¹ := inv_anti₀ (by positivity) (pow_le_pow_left₀ hx0.le hxy 3)
    have i5 : (y ^ 5)⁻¹ ≤ (x ^ 5)⁻¹ := inv_anti₀ (by positivity) (pow_le_pow_left₀ hx0.le hxy 5)
    simp only [hf']
    nlinarith [mul_le_mul_of_nonneg_left i3 hβ0, mul_le_mul_of_nonneg_left i5 hγ0]) (x := w) ⟨h1, h2⟩
  refine ⟨_, _, ?_, hc w hw, hlow, ?_⟩
  · rw [sampled_complex z wl hinc hS hab hw.ne' h1 h2]
    congr 1
    apply Complex.ext
    · simp only [Complex.ofReal_re]
    · simp only [Complex.ofReal_im, lerp]; ring
  · rw [abs_le] at herr
    have hq : (w - a.1) * (b.1 - w) ≤ (b.1 - a.1) ^ 2 / 4 := by nlinarith [sq_nonneg ((w - a.1) - (b.1 - w))]
    have hM0 : 0 ≤ M := by positivity
    rw [← hβ, ← hγ, ← hM]
    nlinarith [mul_le_mul_of_nonneg_left hq hM0, herr.2]

/-- Two rows of the Cauchy curve `1.5 + 0.01 / λ²` 100 nm apart meet the hypotheses. -/
example (z : SqrtOracle) : Increasing [((400 : ℝ), 1.5625, 0), (500, 1.54, 0)] ∧
    (∀ r ∈ [((400 : ℝ), (1.5625 : ℝ), (0 : ℝ)), (500, 1.54, 0)],
      0 < r.1 ∧ (Scat.cauchy 658 1.5 0.01 0).complex z (some r.1) = some (rowRI r)) ∧
    Neighbours [((400 : ℝ), (1.5625 : ℝ), (0 : ℝ)), (500, 1.54, 0)] (400, 1.5625, 0) (500, 1.54, 0) := by
  refine ⟨by simp [Increasing]; norm_num, ?_, [], [], rfl⟩
  intro r hr
  simp only [List.mem_cons, List.not_mem_nil, or_false] at hr
  rcases hr with rfl | rfl <;> refine ⟨by norm_num, ?_⟩ <;> rw [C49_cauchy z _ _ _ _ (by norm_num)] <;>
    · congr 1
      apply Complex.ext
      · simp only [rowRI]; norm_num
      · simp [rowRI]

/-- An absorbing curve with a second derivative, sampled at three places, one of them between two rows. -/
example : Samples [((1 : ℝ), 1, 1), (2, 4, 2), (4, 16, 4)] (fun x => ⟨x ^ 2, x⟩) ∧
    Within [((1 : ℝ), (1 : ℝ), (1 : ℝ)), (2, 4, 2), (4, 16, 4)] 3 2 ∧
    BendsAtMost 2 (fun x => ((⟨x ^ 2, x⟩ : ℂ)).re) 1 4 ∧ BendsAtMost 0 (fun x => ((⟨x ^ 2, x⟩ : ℂ)).im) 1 4 := by
  refine ⟨?_, ⟨(2, 4, 2), (4, 16, 4), ⟨[(1, 1, 1)], [], rfl⟩, by norm_num, by norm_num, by norm_num⟩,
    bends_of_deriv (f' := fun x => 2 * x) (f'' := fun _ => 2) (fun x _ => ?_) (fun x _ => ?_) (by norm_num),
    bends_of_deriv (f' := fun _ => 1) (f'' := fun _ => 0) (fun x _ => hasDerivAt_id x) (fun x _ => hasDerivAt_const x _)
      (by simp)⟩
  · intro r hr
    simp only [List.mem_cons, List.not_mem_nil, or_false] at hr
    rcases hr with rfl | rfl | rfl <;> simp [rowRI] <;> norm_num
  · simpa using hasDerivAt_pow 2 x
  · simpa using (hasDerivAt_id x).const_mul 2

/-- The tables converge: a sequence of tables of a continuous curve, whose rows around the wavelength draw together,
gives indices that tend to the curve. -/
theorem C158_converges (z : SqrtOracle) (wl : ℕ → ℝ) {tab : ℕ → List (ℝ × ℝ × ℝ)} (hinc : ∀ N, Increasing (tab N))
    {f : ℝ → ℂ} (hs : ∀ N, Samples (tab N) f) {w : ℝ} (hw : w ≠ 0) (hf : ContinuousAt f w) {h : ℕ → ℝ}
    (hwh : ∀ N, Within (tab N) w (h N)) (hh : Tendsto h atTop (𝓝 0)) :
    ∃ n : ℕ → ℂ, (∀ N, (Scat.table (wl N) (tab N)).complex z (some w) = some (n N)) ∧ Tendsto n atTop (𝓝 (f w)) := by
  choose a b hab h1 h2 h3 using hwh
  refine ⟨_, fun N => sampled_complex z (wl N) (hinc N) (hs N) (hab N) hw (h1 N) (h2 N), ?_⟩
  have hlt := fun N => neighbours_lt (hinc N) (hab N)
  have ta : Tendsto (fun N => (a N).1) atTop (𝓝 w) := by
    refine tendsto_of_tendsto_of_tendsto_of_le_of_le (g := fun N => w - h N) (h := fun _ => w) ?_ tendsto_const_nhds
      (fun N => ?_) h1
    · simpa using tendsto_const_nhds.sub hh
    · have := h2 N; have := h3 N; simp only; linarith
  have tb : Tendsto (fun N => (b N).1) atTop (𝓝 w) := by
    refine tendsto_of_tendsto_of_tendsto_of_le_of_le (g := fun _ => w) (h := fun N => w + h N) tendsto_const_nhds ?_
      h2 (fun N => ?_)
    · simpa using tendsto_const_nhds.add hh
    · have := h1 N; have := h3 N; simp only; linarith
  have key : ∀ g : ℝ → ℝ, ContinuousAt g w →
      Tendsto (fun N => lerp (a N).1 (g (a N).1) (b N).1 (g (b N).1) w) atTop (𝓝 (g w)) := by
    intro g hg
    have ga := hg.tendsto.comp ta
    have gb := hg.tendsto.comp tb
    have hd : Tendsto (fun N => |g (a N).1 - g w| + |g (b N).1 - g (a N).1|) atTop (𝓝 0) := by
      have := ((ga.sub_const (g w)).abs).add ((gb.sub ga).abs)
      simpa using this
    rw [tendsto_iff_norm_sub_tendsto_zero]
    refine squeeze_zero (fun _ => norm_nonneg _) (fun N => ?_) hd
    have hp : 0 < (b N).1 - (a N).1 := by linarith [hlt N]
    have ht0 : 0 ≤ (w - (a N).1) / ((b N).1 - (a N).1) := div_nonneg (by linarith [h1 N]) hp.le
    have ht1 : (w - (a N).1) / ((b N).1 - (a N).1) ≤ 1 := by rw [div_le_one hp]; linarith [h2 N]
    unfold lerp
    rw [Real.norm_eq_abs, add_sub_right_comm]
    refine (abs_add_le _ _).trans (add_le_add le_rfl ?_)
    rw [abs_mul, abs_of_nonneg ht0]
    exact mul_le_of_le_one_right (abs_nonneg _) ht1
  have hre := key (fun x => (f x).re) (Complex.continuous_re.continuousAt.comp hf)
  have him := key (fun x => (f x).im) (Complex.continuous_im.continuousAt.comp hf)
  have := ((Complex.continuous_ofReal.tendsto _).comp hre).add
    (((Complex.continuous_ofReal.tendsto _).comp him).mul_const Complex.I)
  refine (this.congr fun N => ?_).trans_eq ?_
  · simp only [Function.comp_apply]
    exact (Complex.mk_eq_add_mul_I _ _).symm
  · rw [Complex.re_add_im]

end Verif.Disp
