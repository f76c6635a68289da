import Verif.TMM.PropsGraded
import Verif.TMM.ObsError

/-! # C174: slabs with the index of their middle -/

namespace Verif.TMM

open Complex (I)
open Set Filter Topology

/-- Spec: the index of each slab is taken in its middle; the first slab starts at depth `z`. -/
def Middle : ℝ → List (ℝ × ℝ) → Prop
  | _, [] => True
  | z, p :: rest => p.2 = z + p.1 / 2 ∧ Middle (z + p.1) rest

/-- Spec: the index has a slope `ν'` that changes by at most `L` per nm. -/
structure Bends (ν ν' : ℝ → ℂ) (D L : ℝ) : Prop where
  nonneg : 0 ≤ L
  deriv : ∀ z ∈ Icc 0 D, HasDerivWithinAt ν (ν' z) (Icc 0 D) z
  slope : ∀ z ∈ Icc 0 D, ∀ w ∈ Icc 0 D, ‖ν' z - ν' w‖ ≤ L * |z - w|

section
variable {pre post : List (ℂ × ℝ)} {ν ν' : ℝ → ℂ} {D L : ℝ} {nb : ℂ} {n₀ θ lam : ℝ}

theorem Bends.taylor (h : Bends ν ν' D L) {z w : ℝ} (hz : z ∈ Icc 0 D) (hw : w ∈ Icc 0 D) :
    ‖ν z - ν w - (z - w : ℝ) * ν' w‖ ≤ L * |z - w| ^ 2 := by
  have hsub : uIcc w z ⊆ Icc 0 D := (convex_Icc 0 D).ordConnected.uIcc_subset hw hz
  have hd : ∀ x ∈ uIcc w z, HasDerivWithinAt (fun x => ν x - (x - w : ℝ) * ν' w) (ν' x - ν' w) (uIcc w z) x := by
    intro x hx
    have h1 := (h.deriv x (hsub hx)).mono hsub
    have h2 : HasDerivAt (fun x : ℝ => ((x - w : ℝ) : ℂ) * ν' w) (ν' w) x := by
      have := (((hasDerivAt_id x).sub_const w).ofReal_comp).mul_const (ν' w)
      simpa using this
    exact h1.sub h2.hasDerivWithinAt
  have hb : ∀ x ∈ uIcc w z, ‖ν' x - ν' w‖ ≤ L * |z - w| := by
    intro x hx
    refine (h.slope x (hsub hx) w hw).trans (mul_le_mul_of_nonneg_left ?_ h.nonneg)
    exact abs_sub_left_of_mem_uIcc hx
  have := (convex_uIcc w z).norm_image_sub_le_of_norm_hasDerivWithin_le hd hb left_mem_uIcc right_mem_uIcc
  simp only [sub_self, Complex.ofReal_zero, zero_mul, sub_zero, Real.norm_eq_abs] at this
  calc ‖ν z - ν w - (z - w : ℝ) * ν' w‖ = ‖ν z - (z - w : ℝ) * ν' w - ν w‖ := by congr 1; ring
    _ ≤ L * |z - w| * |z - w| := this
    _ = _ := by ring

/-- The coefficients of Maxwell's equations have slopes too. -/
theorem coefs_second {pol : Pol} {s : ℂ} (h : Bends ν ν' D L) (hn : ∀ z ∈ Icc 0 D, ν z ≠ 0) :
    ∃ (K : ℝ) (A B : ℝ → ℂ), 0 ≤ K ∧ ∀ w ∈ Icc 0 D, ‖A w‖ ≤ K ∧ ‖B w‖ ≤ K ∧ ∀ z ∈ Icc 0 D,
      ‖coefA pol (ν z) - coefA pol (ν w) - (z - w : ℝ) * A w‖ ≤ K * |z - w| ^ 2 ∧
      ‖coefB pol s (ν z) - coefB pol s (ν w) - (z - w : ℝ) * B w‖ ≤ K * |z - w| ^ 2 := by
  have hν : ContinuousOn ν (Icc 0 D) := fun z hz => (h.deriv z hz).continuousWithinAt
  have hν' : ContinuousOn ν' (Icc 0 D) := by
    refine (LipschitzOnWith.of_dist_le_mul (K := ⟨L, h.nonneg⟩) fun z hz w hw => ?_).continuousOn
    rw [dist_eq_norm, Real.dist_eq]
    exact h.slope z hz w hw
  obtain ⟨M, hM⟩ := isCompact_Icc.exists_bound_of_continuousOn hν
  obtain ⟨M', hM'⟩ := isCompact_Icc.exists_bound_of_continuousOn (hν.inv₀ hn)
  obtain ⟨M'', hM''⟩ := isCompact_Icc.exists_bound_of_continuousOn hν'
  set b := max M 0
  set c := max M' 0
  set e := max M'' 0
  have hb : ∀ z ∈ Icc 0 D, ‖ν z‖ ≤ b := fun z hz => (hM z hz).trans (le_max_left _ _)
  have hc : ∀ z ∈ Icc 0 D, ‖(ν z)⁻¹‖ ≤ c := fun z hz => (hM' z hz).trans (le_max_left _ _)
  have he : ∀ z ∈ Icc 0 D, ‖ν' z‖ ≤ e := fun z hz => (hM'' z hz).trans (le_max_left _ _)
  have b0 : 0 ≤ b := le_max_right _ _
  have c0 : 0 ≤ c := le_max_right _ _
  have e0 : 0 ≤ e := le_max_right _ _
  have hL0 := h.nonneg
  have hlip : ∀ z ∈ Icc 0 D, ∀ w ∈ Icc 0 D, ‖ν z - ν w‖ ≤ e * |z - w| := by
    intro z hz w hw
    have := (convex_Icc 0 D).norm_image_sub_le_of_norm_hasDerivWithin_le h.deriv he hw hz
    rwa [Real.norm_eq_abs] at this
  -- the square of the index
  have hsq1 : ∀ z ∈ Icc 0 D, ∀ w ∈ Icc 0 D, ‖ν z ^ 2 - ν w ^ 2‖ ≤ 2 * b * e * |z - w| := by
    intro z hz w hw
    rw [show ν z ^ 2 - ν w ^ 2 = (ν z + ν w) * (ν z - ν w) by ring, norm_mul]
    calc ‖ν z + ν w‖ * ‖ν z - ν w‖ ≤ (b + b) * (e * |z - w|) :=
          mul_le_mul ((norm_add_le _ _).trans (add_le_add (hb z hz) (hb w hw))) (hlip z hz w hw) (norm_nonneg _)
            (by positivity)
      _ = 2 * b * e * |z - w| := by ring
  have hsq2 : ∀ z ∈ Icc 0 D, ∀ w ∈ Icc 0 D,
      ‖ν z ^ 2 - ν w ^ 2 - (z - w : ℝ) * (2 * ν w * ν' w)‖ ≤ (e ^ 2 + 2 * b * L) * |z - w| ^ 2 := by
    intro z hz w hw
    rw [show ν z ^ 2 - ν w ^ 2 - (z - w : ℝ) * (2 * ν w * ν' w) =
      (ν z - ν w) ^ 2 + 2 * ν w * (ν z - ν w - (z - w : ℝ) * ν' w) by ring]
    refine (norm_add_le _ _).trans ?_
    rw [norm_pow, norm_mul, norm_mul, Complex.norm_ofNat]
    have h1 := pow_le_pow_left₀ (norm_nonneg _) (hlip z hz w hw) 2
    have h2 : 2 * ‖ν w‖ * ‖ν z - ν w - (z - w : ℝ) * ν' w‖ ≤ 2 * b * (L * |z - w| ^ 2) :=
      mul_le_mul (by linarith [hb w hw]) (h.taylor hz hw) (norm_nonneg _) (by positivity)
    calc _ ≤ (e * |z - w|) ^ 2 + 2 * b * (L * |z - w| ^ 2) := add_le_add h1 h2
      _ = _ := by ring
  -- its inverse
  have hinv : ∀ z ∈ Icc 0 D, ∀ w ∈ Icc 0 D,
      ‖(1 - (s / ν z) ^ 2) - (1 - (s / ν w) ^ 2) - (z - w : ℝ) * (s ^ 2 * (ν w)⁻¹ ^ 4 * (2 * ν w * ν' w))‖ ≤
        ‖s‖ ^ 2 * (c ^ 4 * (e ^ 2 + 2 * b * L) + c ^ 6 * (2 * b * e) ^ 2) * |z - w| ^ 2 := by
    intro z hz w hw
    have h1 := hn z hz
    have h2 := hn w hw
    rw [show (1 - (s / ν z) ^ 2) - (1 - (s / ν w) ^ 2) - (z - w : ℝ) * (s ^ 2 * (ν w)⁻¹ ^ 4 * (2 * ν w * ν' w)) =
      s ^ 2 * ((ν w)⁻¹ ^ 4 * (ν z ^ 2 - ν w ^ 2 - (z - w : ℝ) * (2 * ν w * ν' w)) -
        (ν w)⁻¹ ^ 4 * (ν z)⁻¹ ^ 2 * (ν z ^ 2 - ν w ^ 2) ^ 2) by field_simp; ring, norm_mul, norm_pow, mul_assoc (‖s‖ ^ 2)]
    refine mul_le_mul_of_nonneg_left ((norm_sub_le _ _).trans ?_) (by positivity)
    rw [norm_mul, norm_mul, norm_mul, norm_pow, norm_pow, norm_pow]
    have k1 := pow_le_pow_left₀ (norm_nonneg _) (hc w hw) 4
    have k2 := pow_le_pow_left₀ (norm_nonneg _) (hc z hz) 2
    have k3 := pow_le_pow_left₀ (norm_nonneg _) (hsq1 z hz w hw) 2
    have k4 := hsq2 z hz w hw
    calc _ ≤ c ^ 4 * ((e ^ 2 + 2 * b * L) * |z - w| ^ 2) + c ^ 4 * c ^ 2 * (2 * b * e * |z - w|) ^ 2 := by gcongr
      _ = _ := by ring
  have hA : ∀ w ∈ Icc 0 D, ‖2 * ν w * ν' w‖ ≤ 2 * b * e := by
    intro w hw
    rw [norm_mul, norm_mul, Complex.norm_ofNat]
    have := hb w hw
    have := he w hw
    gcongr
  have hB : ∀ w ∈ Icc 0 D, ‖s ^ 2 * (ν w)⁻¹ ^ 4 * (2 * ν w * ν' w)‖ ≤ ‖s‖ ^ 2 * c ^ 4 * (2 * b * e) := by
    intro w hw
    rw [norm_mul, norm_mul, norm_pow, norm_pow]
    have k1 := pow_le_pow_left₀ (norm_nonneg _) (hc w hw) 4
    have k2 := hA w hw
    gcongr
  set K1 := e ^ 2 + 2 * b * L with hK1
  set K2 := ‖s‖ ^ 2 * (c ^ 4 * (e ^ 2 + 2 * b * L) + c ^ 6 * (2 * b * e) ^ 2) with hK2
  set K3 := 2 * b * e with hK3
  set K4 := ‖s‖ ^ 2 * c ^ 4 * (2 * b * e) with hK4
  have p1 : 0 ≤ K1 := by positivity
  have p2 : 0 ≤ K2 := by positivity
  have p3 : 0 ≤ K3 := by positivity
  have p4 : 0 ≤ K4 := by positivity
  have l1 : K1 ≤ K1 + K2 + K3 + K4 := by linarith
  have l2 : K2 ≤ K1 + K2 + K3 + K4 := by linarith
  have l3 : K3 ≤ K1 + K2 + K3 + K4 := by linarith
  have l4 : K4 ≤ K1 + K2 + K3 + K4 := by linarith
  have up : ∀ {x K y : ℝ}, x ≤ K * y → 0 ≤ y → K ≤ K1 + K2 + K3 + K4 → x ≤ (K1 + K2 + K3 + K4) * y :=
    fun h1 h2 h3 => h1.trans (mul_le_mul_of_nonneg_right h3 h2)
  cases pol with
  | s =>
    refine ⟨K1 + K2 + K3 + K4, fun _ => 0, fun w => 2 * ν w * ν' w, by positivity, fun w hw =>
      ⟨by simp only [norm_zero]; positivity, (hA w hw).trans l3, fun z hz => ⟨?_, ?_⟩⟩⟩
    · simp only [coefA, sub_self, mul_zero, norm_zero]
      positivity
    · simp only [coefB, sub_sub_sub_cancel_right]
      exact up (hsq2 z hz w hw) (by positivity) l1
  | p =>
    refine ⟨K1 + K2 + K3 + K4, fun w => 2 * ν w * ν' w, fun w => s ^ 2 * (ν w)⁻¹ ^ 4 * (2 * ν w * ν' w), by positivity,
      fun w hw => ⟨(hA w hw).trans l3, (hB w hw).trans l4, fun z hz => ⟨?_, ?_⟩⟩⟩
    · simp only [coefA]
      exact up (hsq2 z hz w hw) (by positivity) l1
    · simp only [coefB]
      exact up (hinv z hz w hw) (by positivity) l2

/-- The fields in a slab, corrected by terms that vanish at both of its ends, so that they obey the equations for the
index of the middle up to second order. -/
noncomputable def mended (k : ℝ) (A₁ B₁ : ℂ) (m e : ℝ) (V : ℝ → ℂ × ℂ) (τ : ℝ) : ℂ × ℂ :=
  ((V τ).1 - I * k * (A₁ * (((τ - m) ^ 2 - e ^ 2) / 2 : ℝ) * (V τ).2),
    (V τ).2 - I * k * (B₁ * (((τ - m) ^ 2 - e ^ 2) / 2 : ℝ) * (V τ).1))

theorem mended_end {k : ℝ} {A₁ B₁ : ℂ} {m e τ : ℝ} {V : ℝ → ℂ × ℂ} (h : (τ - m) ^ 2 = e ^ 2) :
    mended k A₁ B₁ m e V τ = V τ := by
  simp [mended, h]

theorem mended_deriv {k : ℝ} {A₁ B₁ : ℂ} {m e τ : ℝ} {V : ℝ → ℂ × ℂ} {v : ℂ × ℂ} {S : Set ℝ}
    (h : HasDerivWithinAt V v S τ) : HasDerivWithinAt (mended k A₁ B₁ m e V)
      (v.1 - I * k * (A₁ * (τ - m : ℝ) * (V τ).2 + A₁ * (((τ - m) ^ 2 - e ^ 2) / 2 : ℝ) * v.2),
        v.2 - I * k * (B₁ * (τ - m : ℝ) * (V τ).1 + B₁ * (((τ - m) ^ 2 - e ^ 2) / 2 : ℝ) * v.1)) S τ := by
  have h1 : HasDerivWithinAt (fun τ => (V τ).1) v.1 S τ :=
    (hasFDerivAt_fst (𝕜 := ℝ) (p := V τ)).comp_hasDerivWithinAt τ h
  have h2 : HasDerivWithinAt (fun τ => (V τ).2) v.2 S τ :=
    (hasFDerivAt_snd (𝕜 := ℝ) (p := V τ)).comp_hasDerivWithinAt τ h
  have hp : HasDerivAt (fun τ : ℝ => (((τ - m) ^ 2 - e ^ 2) / 2 : ℝ)) (τ - m) τ := by
    have := (((((hasDerivAt_id τ).sub_const m).pow 2).sub_const (e ^ 2)).div_const 2)
    refine this.congr_deriv ?_
    simp
  have hq := hp.ofReal_comp.hasDerivWithinAt (s := S)
  exact (h1.sub (((hq.const_mul A₁).mul h2).const_mul (I * k))).prodMk
    (h2.sub (((hq.const_mul B₁).mul h1).const_mul (I * k)))

theorem mended_half {k K C η B x e : ℝ} {a a₀ a₁ b b₁ v w : ℂ} (hk : 0 ≤ k) (hK : 0 ≤ K)
    (hx : |x| ≤ e) (he : e ≤ η) (ha : ‖a - a₀ - (-x : ℝ) * a₁‖ ≤ K * |-x| ^ 2) (ha₁ : ‖a₁‖ ≤ K) (hb₁ : ‖b₁‖ ≤ K)
    (ha₀ : ‖a₀‖ ≤ C) (hb : ‖b‖ ≤ C) (hv : ‖v‖ ≤ B) (hw : ‖w‖ ≤ B) :
    ‖(-(I * k * a * w) - I * k * (a₁ * (x : ℝ) * w + a₁ * ((x ^ 2 - e ^ 2) / 2 : ℝ) * -(I * k * b * v))) -
      -(I * k * a₀ * (w - I * k * (b₁ * ((x ^ 2 - e ^ 2) / 2 : ℝ) * v)))‖ ≤ (k * K + 2 * k ^ 2 * K * C) * B * η ^ 2 := by
  have hC : 0 ≤ C := (norm_nonneg _).trans hb
  have hB : 0 ≤ B := (norm_nonneg _).trans hv
  have hx2 : |x| ^ 2 ≤ η ^ 2 := pow_le_pow_left₀ (abs_nonneg _) (hx.trans he) 2
  have he0 : 0 ≤ e := (abs_nonneg x).trans hx
  have he2 : e ^ 2 ≤ η ^ 2 := pow_le_pow_left₀ he0 he 2
  have hq : ‖(((x ^ 2 - e ^ 2) / 2 : ℝ) : ℂ)‖ ≤ η ^ 2 := by
    rw [Complex.norm_real, Real.norm_eq_abs, abs_le]
    rw [sq_abs] at hx2
    constructor <;> nlinarith [sq_nonneg x, sq_nonneg e]
  set q : ℂ := (((x ^ 2 - e ^ 2) / 2 : ℝ) : ℂ)
  rw [show (-(I * k * a * w) - I * k * (a₁ * (x : ℝ) * w + a₁ * q * -(I * k * b * v))) -
      -(I * k * a₀ * (w - I * k * (b₁ * q * v))) =
      -(I * k * (a - a₀ - (-x : ℝ) * a₁) * w) + (I * k * (I * k) * (a₁ * q * b * v) - I * k * (I * k) * (a₀ * b₁ * q * v)) by
    push_cast; ring]
  have nk : ‖I * (k : ℂ)‖ = k := by rw [norm_mul, Complex.norm_I, one_mul, Complex.norm_real, Real.norm_eq_abs, abs_of_nonneg hk]
  refine (norm_add_le _ _).trans ((add_le_add le_rfl (norm_sub_le _ _)).trans ?_)
  rw [abs_neg] at ha
  have hE : ‖a - a₀ - (-x : ℝ) * a₁‖ ≤ K * η ^ 2 := ha.trans (mul_le_mul_of_nonneg_left hx2 hK)
  rw [norm_neg]
  have t1 : ‖I * k * (a - a₀ - (-x : ℝ) * a₁) * w‖ ≤ k * (K * η ^ 2) * B := by
    rw [norm_mul, norm_mul, nk]; gcongr
  have t2 : ‖I * k * (I * k) * (a₁ * q * b * v)‖ ≤ k * k * (K * η ^ 2 * C * B) := by
    rw [norm_mul, norm_mul (I * (k : ℂ)), nk, norm_mul, norm_mul, norm_mul]; gcongr
  have t3 : ‖I * k * (I * k) * (a₀ * b₁ * q * v)‖ ≤ k * k * (C * K * η ^ 2 * B) := by
    rw [norm_mul, norm_mul (I * (k : ℂ)), nk, norm_mul, norm_mul, norm_mul]; gcongr
  calc _ ≤ k * (K * η ^ 2) * B + (k * k * (K * η ^ 2 * C * B) + k * k * (C * K * η ^ 2 * B)) :=
        add_le_add t1 (add_le_add t2 t3)
    _ = _ := by ring

/-- The error of the fields is of the order of the square of the thickness of the slabs. -/
theorem slices_error_middle {pol : Pol} {s : ℂ} {lam D η K B : ℝ} {C : NNReal} {ν A₁ B₁ : ℝ → ℂ} {V : ℝ → ℂ × ℂ}
    (hlam : 0 < lam) (hn : ∀ z ∈ Icc 0 D, ν z ≠ 0)
    (hC : ∀ z ∈ Icc 0 D, ‖coefA pol (ν z)‖ ≤ C ∧ ‖coefB pol s (ν z)‖ ≤ C) (hK0 : 0 ≤ K)
    (hK : ∀ w ∈ Icc 0 D, ‖A₁ w‖ ≤ K ∧ ‖B₁ w‖ ≤ K ∧ ∀ z ∈ Icc 0 D,
      ‖coefA pol (ν z) - coefA pol (ν w) - (z - w : ℝ) * A₁ w‖ ≤ K * |z - w| ^ 2 ∧
      ‖coefB pol s (ν z) - coefB pol s (ν w) - (z - w : ℝ) * B₁ w‖ ≤ K * |z - w| ^ 2)
    (hV : ∀ τ ∈ Icc 0 D, HasDerivWithinAt V (gen pol s (2 * Real.pi / lam) (ν (D - τ)) (V τ)) (Icc 0 D) τ)
    (hB : ∀ τ ∈ Icc 0 D, ‖V τ‖ ≤ B) : ∀ {l : List (ℝ × ℝ)} {z : ℝ}, 0 ≤ z → Slicing η z l D → Middle z l →
    (∀ p ∈ l, ν p.2 ^ 2 ≠ s ^ 2) →
    dist (acrossAll pol s ((sliceFilms ν l).map (fullMed s lam)) (V 0)) (V (D - z)) ≤
      gronwallBound 0 (2 * Real.pi / lam * C)
        ((2 * Real.pi / lam * K + 2 * (2 * Real.pi / lam) ^ 2 * K * C) * B * η ^ 2) (D - z) := by
  have hk : 0 ≤ 2 * Real.pi / lam := by positivity
  set k := 2 * Real.pi / lam with hkdef
  set ε := (k * K + 2 * k ^ 2 * K * C) * B * η ^ 2 with hε
  intro l
  induction l with
  | nil =>
    intro z _ h _ _
    have : z = D := h
    subst this
    simp [sliceFilms, acrossAll, gronwallBound_x0]
  | cons p l ih =>
    intro z hz h hm hcrit
    obtain ⟨d, ξ⟩ := p
    obtain ⟨h1, h2, h3, h4⟩ := h
    obtain ⟨hmid, hm'⟩ := hm
    simp only at h1 h2 h3 h4 hmid hm'
    have hle := slicing_le h4
    have i := ih (by linarith) h4 hm' (fun p hp => hcrit p (by simp [hp]))
    have hξ : ξ ∈ Icc 0 D := ⟨by linarith [h3.1], by linarith [h3.2]⟩
    have hn0 := hn ξ hξ
    obtain ⟨-, o2, o3⟩ := fullMed_ok (lam := lam) (f := (ν ξ, d)) hn0 (hcrit (d, ξ) (by simp))
    set W := acrossAll pol s ((sliceFilms ν l).map (fullMed s lam)) (V 0) with hW
    set q := ν ξ * root1m (s / ν ξ) with hq
    have hq2 : q ^ 2 = ν ξ ^ 2 - s ^ 2 := by rw [hq, mul_pow, root1m_sq]; field_simp
    set a := D - (z + d) with ha
    have ha0 : 0 ≤ a := by rw [ha]; linarith
    have had : a + d = D - z := by rw [ha]; ring
    have hsub : Icc a (a + d) ⊆ Icc 0 D := Icc_subset_Icc ha0 (by rw [had]; linarith)
    set Z := mended k (A₁ ξ) (B₁ ξ) (D - ξ) (d / 2) V with hZ
    have hZa : Z a = V a := mended_end (by rw [ha, hmid]; ring)
    have hZb : Z (a + d) = V (a + d) := mended_end (by rw [ha, hmid]; ring)
    have hf : ∀ τ, HasDerivAt (fun τ : ℝ => across pol s (ν ξ) q ((k : ℝ) * q * ((τ - a : ℝ) : ℂ)) W)
        (gen pol s k (ν ξ) (across pol s (ν ξ) q ((k : ℝ) * q * ((τ - a : ℝ) : ℂ)) W)) τ := by
      intro τ
      have := (across_deriv (pol := pol) (k := k) hn0 (q := q) o3 hq2 W (τ - a)).scomp τ
        ((hasDerivAt_id τ).sub_const a)
      simpa [Function.comp_def] using this
    have hZd : ∀ τ ∈ Icc a (a + d), HasDerivWithinAt Z _ (Icc 0 D) τ := fun τ hτ =>
      mended_deriv (k := k) (A₁ := A₁ ξ) (B₁ := B₁ ξ) (m := D - ξ) (e := d / 2) (hV τ (hsub hτ))
    have hZc : ContinuousOn Z (Icc a (a + d)) := fun τ hτ => ((hZd τ hτ).continuousWithinAt).mono hsub
    have key := dist_le_of_approx_trajectories_ODE (v := fun _ => gen pol s k (ν ξ))
      (K := ⟨k, hk⟩ * C)
      (f := fun τ : ℝ => across pol s (ν ξ) q ((k : ℝ) * q * ((τ - a : ℝ) : ℂ)) W)
      (g := Z) (a := a) (b := a + d) (εf := 0) (εg := ε)
      (f' := fun τ => gen pol s k (ν ξ) (across pol s (ν ξ) q ((k : ℝ) * q * ((τ - a : ℝ) : ℂ)) W))
      (δ := gronwallBound 0 (k * C) ε a)
      (fun _ => gen_lipschitz hk (hC ξ hξ).1 (hC ξ hξ).2)
      (fun τ _ => (hf τ).continuousAt.continuousWithinAt) (fun τ _ => (hf τ).hasDerivWithinAt)
      (fun τ _ => by simp) hZc
      (fun τ hτ => by
        have hτ' : τ ∈ Icc a (a + d) := Ico_subset_Icc_self hτ
        refine (hZd τ hτ').mono_of_mem_nhdsWithin ?_
        have hτD : τ < D := by have := hτ.2; rw [had] at this; linarith
        filter_upwards [self_mem_nhdsWithin, mem_nhdsWithin_of_mem_nhds (Iio_mem_nhds hτD)] with x hx hx'
        exact ⟨(hsub hτ').1.trans hx, le_of_lt hx'⟩)
      (fun τ hτ => by
        have hτ' : τ ∈ Icc a (a + d) := Ico_subset_Icc_self hτ
        have hz' : D - τ ∈ Icc z (z + d) := by
          constructor
          · have := hτ'.2; rw [had] at this; linarith
          · have := hτ'.1; rw [ha] at this; linarith
        have hzD : D - τ ∈ Icc 0 D := ⟨by linarith [hz'.1], by linarith [hz'.2]⟩
        have habs : |τ - (D - ξ)| ≤ d / 2 := by
          rw [abs_le, hmid]
          constructor
          · linarith [hz'.2]
          · linarith [hz'.1]
        have hdη : d / 2 ≤ η := by linarith
        obtain ⟨k1, k2, k3⟩ := hK ξ hξ
        obtain ⟨k4, k5⟩ := k3 (D - τ) hzD
        rw [show D - τ - ξ = -(τ - (D - ξ)) by ring] at k4 k5
        have b1 := (norm_fst_le (V τ)).trans (hB τ (hsub hτ'))
        have b2 := (norm_snd_le (V τ)).trans (hB τ (hsub hτ'))
        rw [dist_eq_norm, Prod.norm_def, max_le_iff]
        exact ⟨mended_half hk hK0 habs hdη k4 k1 k2 (hC ξ hξ).1 (hC _ hzD).2 b1 b2,
          mended_half hk hK0 habs hdη k5 k2 k1 (hC ξ hξ).2 (hC _ hzD).1 b2 b1⟩)
      (by rw [hZa]; simpa [across] using i) (a + d) ⟨by linarith, le_rfl⟩
    have e1 : acrossAll pol s ((sliceFilms ν ((d, ξ) :: l)).map (fullMed s lam)) (V 0) =
        across pol s (ν ξ) q ((k : ℝ) * q * ((a + d - a : ℝ) : ℂ)) W := by
      have : acrossAll pol s ((sliceFilms ν ((d, ξ) :: l)).map (fullMed s lam)) (V 0) =
        across pol s (ν ξ) (ν ξ * root1m (s / ν ξ)) (2 * Real.pi * ν ξ * root1m (s / ν ξ) / lam * d) W := rfl
      rw [this, ← hq]
      congr 1
      rw [hq, hkdef]; push_cast; ring
    rw [hZb] at key
    rw [e1, ← had]
    refine key.trans (le_of_eq ?_)
    rw [zero_add]
    have : (((⟨k, hk⟩ * C : NNReal)) : ℝ) = k * C := rfl
    rw [this, gronwallBound_add]
    congr 1
    ring

theorem Graded.rate_middle (h : Graded pre post ν D nb n₀ θ lam) (hb : Bends ν ν' D L) (pol : Pol) :
    ∃ C η₀ : ℝ, 0 < η₀ ∧
    ∀ η, 0 < η → η ≤ η₀ → ∀ l, Slicing η 0 l D → Middle 0 l → (∀ p ∈ l, ν p.2 ^ 2 ≠ (n₀ * Complex.sin θ) ^ 2) →
      ∃ r t, solveSt pol (sliced pre post ν nb n₀ l) θ lam = some (r, t) ∧
      ∀ mpre mpost, List.Forall₂ (IsFilm ((n₀ : ℂ) * Complex.sin θ) lam) pre mpre →
        List.Forall₂ (IsFilm ((n₀ : ℂ) * Complex.sin θ) lam) post mpost → (∀ m ∈ mpre ++ mpost, |m.δ.im| ≤ 35) →
        ∀ R T, GradedSolves pol n₀ θ lam D ν mpre mpost nb (root1m (n₀ * Complex.sin θ / nb)) R T →
          ‖r - R‖ ≤ C * η ^ 2 ∧ ‖t - T‖ ≤ C * η ^ 2 := by
  have hn : ∀ z ∈ Icc 0 D, ν z ≠ 0 := fun z hz => (h.passive z hz).ne_zero
  obtain ⟨K, A₁, B₁, hK0, hK⟩ := coefs_second (pol := pol) (s := n₀ * Complex.sin θ) hb hn
  obtain ⟨C, hC⟩ := coefs_bound (pol := pol) (s := n₀ * Complex.sin θ) h.cont hn
  refine h.rate_of pol two_ne_zero fun V hV => ?_
  have hVc : ContinuousOn V (Icc 0 D) := fun τ hτ => (hV τ hτ).continuousWithinAt
  obtain ⟨B, hB⟩ := isCompact_Icc.exists_bound_of_continuousOn hVc
  refine ⟨(2 * Real.pi / lam * K + 2 * (2 * Real.pi / lam) ^ 2 * K * C) * B *
    gronwallBound 0 (2 * Real.pi / lam * C) 1 D, fun η hη l hl hm hcr => ?_⟩
  have := slices_error_middle h.stack.lam_pos hn hC hK0 hK hV hB le_rfl hl hm hcr
  rw [sub_zero, gronwall_linear] at this
  refine this.trans (le_of_eq ?_)
  ring

/-- C174 (partial): if the index has a slope that changes by at most `L` per nm and the index of each slab is taken in
its middle, the error of the amplitudes is at most proportional to the square of the thickness of the slabs.  Missing,
as in C155: films (not slabs) that attenuate by more than 35 nepers, slabs of exactly critical index. -/
theorem C174_rate_partial (h : Graded pre post ν D nb n₀ θ lam) (hb : Bends ν ν' D L) :
    ∃ cb : ℂ, cb ^ 2 = 1 - ((n₀ : ℂ) * Complex.sin θ / nb) ^ 2 ∧
      (¬ (nb.im = 0 ∧ nb.re < n₀ * Real.sin θ) →
        ∀ c, c ^ 2 = 1 - ((n₀ : ℂ) * Complex.sin θ / nb) ^ 2 → Outgoing nb c → c = cb) ∧
      ∃ C η₀ : ℝ, 0 < η₀ ∧ ∀ η, 0 < η → η ≤ η₀ → ∀ l, Slicing η 0 l D → Middle 0 l →
        (∀ p ∈ l, ν p.2 ^ 2 ≠ (n₀ * Complex.sin θ) ^ 2) → ∀ d0 db, ∃ a,
        cohTmm ((sliced pre post ν nb n₀ l).layers d0 db) [((θ : ℂ), lam)] = .ok [a] ∧ ∀ pol, ∃ r t,
          a.of pol = some (r, t) ∧ ∀ mpre mpost, List.Forall₂ (IsFilm ((n₀ : ℂ) * Complex.sin θ) lam) pre mpre →
            List.Forall₂ (IsFilm ((n₀ : ℂ) * Complex.sin θ) lam) post mpost →
            (∀ m ∈ mpre ++ mpost, |m.δ.im| ≤ 35) →
            ∀ R T, GradedSolves pol n₀ θ lam D ν mpre mpost nb cb R T →
              ‖r - R‖ ≤ C * η ^ 2 ∧ ‖t - T‖ ≤ C * η ^ 2 := by
  refine ⟨root1m (n₀ * Complex.sin θ / nb), root1m_sq _, fun htir c hc ho => ?_, ?_⟩
  · have e : (n₀ : ℂ) * Complex.sin θ = ((n₀ * Real.sin θ : ℝ) : ℂ) := by push_cast; rfl
    rw [e] at hc ⊢
    exact outgoing_unique h.stack.back htir hc ho
  · obtain ⟨C1, η1, h1, H1⟩ := h.rate_middle hb .s
    obtain ⟨C2, η2, h2, H2⟩ := h.rate_middle hb .p
    obtain ⟨η3, h3, hthin⟩ := h.thin
    refine ⟨max C1 C2, min η3 (min η1 η2), lt_min h3 (lt_min h1 h2), fun η hη hle l hl hm hcr d0 db => ?_⟩
    have hP := h.physical (hthin l (hl.mono (hle.trans (min_le_left _ _)))) hcr
    refine ⟨_, coh_real hP.front hP.nz hP.lam_pos.ne' d0 db, fun pol => ?_⟩
    have i1 := hle.trans ((min_le_right _ _).trans (min_le_left _ _))
    have i2 := hle.trans ((min_le_right _ _).trans (min_le_right _ _))
    have m1 : C1 * η ^ 2 ≤ max C1 C2 * η ^ 2 := mul_le_mul_of_nonneg_right (le_max_left _ _) (by positivity)
    have m2 : C2 * η ^ 2 ≤ max C1 C2 * η ^ 2 := mul_le_mul_of_nonneg_right (le_max_right _ _) (by positivity)
    cases pol
    · obtain ⟨r, t, e, H⟩ := H1 η hη i1 l hl hm hcr
      exact ⟨r, t, e, fun mpre mpost a b c R T hRT => ((H mpre mpost a b c R T hRT).imp (·.trans m1) (·.trans m1))⟩
    · obtain ⟨r, t, e, H⟩ := H2 η hη i2 l hl hm hcr
      exact ⟨r, t, e, fun mpre mpost a b c R T hRT => ((H mpre mpost a b c R T hRT).imp (·.trans m2) (·.trans m2))⟩

theorem middle_equal (d : ℝ) (N : ℕ) :
    ∀ k : ℕ, Middle (k * d) ((List.range' k N).map fun j : ℕ => (d, ((j : ℝ) + 1 / 2) * d)) := by
  induction N with
  | zero => intro k; simp [Middle]
  | succ N ih =>
    intro k
    rw [List.range'_succ]
    refine ⟨by show ((k : ℝ) + 1 / 2) * d = k * d + d / 2; ring, ?_⟩
    convert ih (k + 1) using 1
    push_cast; ring

/-- `N` equal slabs are slabs of thickness `D / N`, with the index in the middle. -/
theorem C174_equal (hD : 0 ≤ D) {N : ℕ} (hN : 0 < N) :
    Slicing (D / N) 0 (equalSlices D N) D ∧ Middle 0 (equalSlices D N) := by
  have hN0 : (0 : ℝ) < N := by exact_mod_cast hN
  have hd : 0 ≤ D / N := by positivity
  have h1 := slicing_equal hd (fun j => (j + 1 / 2) * (D / N)) N 0 (fun j _ _ => ⟨by nlinarith, by nlinarith⟩)
  have h2 := middle_equal (D / N) N 0
  rw [Nat.cast_zero, zero_mul, zero_add, mul_div_cancel₀ _ hN0.ne', ← List.range_eq_range'] at h1
  rw [Nat.cast_zero, zero_mul, ← List.range_eq_range'] at h2
  exact ⟨h1, h2⟩

/-- C174 (partial) for the observables, same restrictions: psi and delta (as an angle) are off by at most a multiple of
the square of the thickness of the slabs. -/
theorem C174_psi_delta_partial {a : ℝ} (h : Graded pre post ν D nb n₀ (rad a) lam) (hb : Bends ν ν' D L)
    {mpre mpost : List Medium} (hpre : List.Forall₂ (IsFilm ((n₀ : ℂ) * Complex.sin (rad a)) lam) pre mpre)
    (hpost : List.Forall₂ (IsFilm ((n₀ : ℂ) * Complex.sin (rad a)) lam) post mpost)
    (h35 : ∀ m ∈ mpre ++ mpost, |m.δ.im| ≤ 35) (htir : ¬ (nb.im = 0 ∧ nb.re < n₀ * Real.sin (rad a))) {cb : ℂ}
    (hcb : cb ^ 2 = 1 - ((n₀ : ℂ) * Complex.sin (rad a) / nb) ^ 2) (hout : Outgoing nb cb) {Rs Ts Rp Tp : ℂ}
    (hs : GradedSolves .s n₀ (rad a) lam D ν mpre mpost nb cb Rs Ts)
    (hp : GradedSolves .p n₀ (rad a) lam D ν mpre mpost nb cb Rp Tp) (hRs : Rs ≠ 0) (hRp : Rp ≠ 0) :
    ∃ C η₀ : ℝ, 0 < η₀ ∧ ∀ η, 0 < η → η ≤ η₀ → ∀ l, Slicing η 0 l D → Middle 0 l →
      (∀ p ∈ l, ν p.2 ^ 2 ≠ (n₀ * Complex.sin (rad a)) ^ 2) → ∀ rows, RowsOf rows (sliced pre post ν nb n₀ l) →
      ∀ (zs : List Layer → ℝ → ℝ → Bool) (off : ℝ) (refl : Bool), ∃ ψ Δ,
        (deltaPsiTMM zs [a] rows lam off refl).1 = .ok [(some ψ, some Δ)] ∧
        |ψ - Real.arctan (‖Rp‖ / ‖Rs‖) * 180 / Real.pi| ≤ C * η ^ 2 ∧
        |Real.cos (rad (Δ - off)) - Real.cos (Rs / Rp).arg| ≤ C * η ^ 2 ∧
        (refl = false → |Real.sin (rad (Δ - off)) - Real.sin (Rs / Rp).arg| ≤ C * η ^ 2) := by
  have hpi := Real.pi_pos
  have hcode : cb = root1m (n₀ * Complex.sin (rad a) / nb) := by
    have e : (n₀ : ℂ) * Complex.sin (rad a) = ((n₀ * Real.sin (rad a) : ℝ) : ℂ) := by push_cast; rfl
    rw [e] at hcb ⊢
    exact outgoing_unique h.stack.back htir hcb hout
  subst hcode
  obtain ⟨C1, η1, h1, H1⟩ := h.rate_middle hb .s
  obtain ⟨C2, η2, h2, H2⟩ := h.rate_middle hb .p
  obtain ⟨η3, h3, hthin⟩ := h.thin
  obtain ⟨E, ε, hE, hε, HE⟩ := obs_error hRs hRp
  set c := max |C1| |C2| + 1 with hc
  have hc0 : 0 < c := by rw [hc]; positivity
  refine ⟨E * c, min (min η3 (min η1 η2)) (min 1 (ε / c)),
    lt_min (lt_min h3 (lt_min h1 h2)) (lt_min one_pos (by positivity)),
    fun η hη hle l hl hmid hcr rows hr zs off refl => ?_⟩
  have i3 := hle.trans ((min_le_left _ _).trans (min_le_left _ _))
  have i1 := hle.trans ((min_le_left _ _).trans ((min_le_right _ _).trans (min_le_left _ _)))
  have i2 := hle.trans ((min_le_left _ _).trans ((min_le_right _ _).trans (min_le_right _ _)))
  have i4 := hle.trans ((min_le_right _ _).trans (min_le_left _ _))
  have i5 := hle.trans ((min_le_right _ _).trans (min_le_right _ _))
  have hη2 : 0 < η ^ 2 := by positivity
  obtain ⟨rs, ts, es, Hs⟩ := H1 η hη i1 l hl hmid hcr
  obtain ⟨rp, tp, ep, Hp⟩ := H2 η hη i2 l hl hmid hcr
  have d1 : ‖rs - Rs‖ ≤ c * η ^ 2 := (Hs mpre mpost hpre hpost h35 Rs Ts hs).1.trans
    (mul_le_mul_of_nonneg_right (by linarith [le_abs_self C1, le_max_left |C1| |C2|]) hη2.le)
  have d2 : ‖rp - Rp‖ ≤ c * η ^ 2 := (Hp mpre mpost hpre hpost h35 Rp Tp hp).1.trans
    (mul_le_mul_of_nonneg_right (by linarith [le_abs_self C2, le_max_right |C1| |C2|]) hη2.le)
  have hx : c * η ^ 2 ≤ ε := by
    have k1 : η ^ 2 ≤ η := pow_le_of_le_one hη.le i4 two_ne_zero
    have k2 : η ^ 2 ≤ ε / c := k1.trans i5
    rw [le_div_iff₀ hc0] at k2
    linarith
  have hP := h.physical (hthin l (hl.mono i3)) hcr
  obtain ⟨ψ, Δ, e1, e2⟩ := HE d1 d2 hx (zs ((sliced pre post ν nb n₀ l).layers .inf .inf) a lam) off refl
  refine ⟨ψ, Δ, ?_, by simpa only [mul_assoc] using e2⟩
  rw [deltaPsi_rows hr hP.nz hP.lam_pos.ne']
  simp only [List.map_cons, List.map_nil, es, ep]
  rw [← e1]

end

/-! ### Non-vacuity -/

/-- C174, the gradient with the film: slabs in equal number. -/
example : ∃ cb m, ∃ C : ℝ, ∃ N₀ : ℕ, IsFilm (((1 : ℝ) : ℂ) * Complex.sin (rad 60)) 500 (1.46, 10) m ∧
    ∀ N, N₀ ≤ N → ∃ a,
      cohTmm ((sliced [(1.46, 10)] [] (fun z => ((1.5 + z / 200 : ℝ) : ℂ)) (4 + I) 1 (equalSlices 100 N)).layers .inf .inf)
        [((rad 60 : ℝ), 500)] = .ok [a] ∧ ∀ pol, ∃ r t, a.of pol = some (r, t) ∧ ∀ R T,
        GradedSolves pol 1 (rad 60) 500 100 (fun z => ((1.5 + z / 200 : ℝ) : ℂ)) [m] [] (4 + I) cb R T →
        ‖r - R‖ ≤ C * (100 / N) ^ 2 ∧ ‖t - T‖ ≤ C * (100 / N) ^ 2 := by
  have hbend : Bends (fun z => ((1.5 + z / 200 : ℝ) : ℂ)) (fun _ => ((1 / 200 : ℝ) : ℂ)) 100 0 := by
    refine ⟨le_rfl, fun z _ => ?_, fun z _ w _ => by simp⟩
    have : HasDerivAt (fun z : ℝ => 1.5 + z / 200) (1 / 200) z := ((hasDerivAt_id z).div_const 200).const_add 1.5
    exact this.ofReal_comp.hasDerivWithinAt
  obtain ⟨cb, -, -, C, η₀, h0, H⟩ := C174_rate_partial graded_example hbend
  have hf := codeMed_isFilm (((1 : ℝ) : ℂ) * Complex.sin (rad 60)) 500 (1.46, 10)
  obtain ⟨M, hM⟩ := exists_nat_gt (100 / η₀)
  refine ⟨cb, _, C, M + 1, hf, fun N hN => ?_⟩
  have hN0 : (0 : ℝ) < N := by exact_mod_cast (by omega : 0 < N)
  have hMN : (M : ℝ) ≤ N := by exact_mod_cast (by omega : M ≤ N)
  obtain ⟨hl, hm⟩ := C174_equal (D := 100) (by norm_num) (by omega : 0 < N)
  have hle : 100 / (N : ℝ) ≤ η₀ := by
    rw [div_lt_iff₀ h0] at hM
    rw [div_le_iff₀ hN0]
    nlinarith
  obtain ⟨a, ha, hp⟩ := H (100 / N) (by positivity) hle _ hl hm
    (fun p hp => graded_example_critical _ (slicing_mem hl le_rfl p hp).1) .inf .inf
  refine ⟨a, ha, fun pol => ?_⟩
  obtain ⟨r, t, hrt, K⟩ := hp pol
  refine ⟨r, t, hrt, K _ [] (.cons hf .nil) .nil fun m hm => ?_⟩
  simp only [List.append_nil, List.mem_singleton] at hm
  have h60 : rad 60 = Real.pi / 3 := by unfold rad; ring
  rw [← hm] at hf
  rw [graded_example_film (by rw [← h60]; exact hf)]
  norm_num

theorem exactGradient_bends : ∃ ν' L, Bends (fun z => Complex.sqrt (((2 - z : ℝ) : ℂ) ^ 2 + I)) ν' 1 L := by
  set ν : ℝ → ℂ := fun z => Complex.sqrt (((2 - z : ℝ) : ℂ) ^ 2 + I) with hν
  have hsq : ∀ z, ν z ^ 2 = ((2 - z : ℝ) : ℂ) ^ 2 + I := fun z => csqrt_sq _
  have hn : ∀ z, ν z ≠ 0 := fun z => (exactGradient_index z).2.2.ne_zero
  have d0 : ∀ z : ℝ, HasDerivAt (fun z : ℝ => ((2 - z : ℝ) : ℂ)) (-1) z := fun z => by
    have := ((hasDerivAt_id z).const_sub 2).ofReal_comp
    simpa using this
  have d1 : ∀ z : ℝ, HasDerivAt ν (-((2 - z : ℝ) : ℂ) / ν z) z := by
    intro z
    have hs : (((2 - z : ℝ) : ℂ) ^ 2 + I) ∈ Complex.slitPlane :=
      Or.inr (by rw [(exactGradient_index z).2.1]; norm_num)
    have h1 : HasDerivAt (fun z : ℝ => ((2 - z : ℝ) : ℂ) ^ 2 + I) (-2 * ((2 - z : ℝ) : ℂ)) z := by
      refine (((d0 z).pow 2).add_const I).congr_deriv ?_
      push_cast; ring
    have h2 : DifferentiableAt ℝ ν z := by
      have h6 : HasDerivAt (fun x : ℂ => x ^ (2⁻¹ : ℂ)) _ (((2 - z : ℝ) : ℂ) ^ 2 + I) :=
        (hasDerivAt_id _).cpow_const (c := 2⁻¹) hs
      exact (h6.scomp_of_eq z h1 rfl).differentiableAt
    have h3 := (h2.hasDerivAt.pow 2)
    have h4 : HasDerivAt (fun z => ν z ^ 2) (-2 * ((2 - z : ℝ) : ℂ)) z := by
      simpa only [hsq] using h1
    have h5 := h3.unique h4
    refine h2.hasDerivAt.congr_deriv ?_
    rw [eq_div_iff (hn z)]
    simp only [Nat.cast_ofNat, Nat.add_one_sub_one, pow_one] at h5
    linear_combination h5 / 2
  have d2 : ∀ z : ℝ, HasDerivAt (fun z => -((2 - z : ℝ) : ℂ) / ν z)
      ((1 * ν z - -((2 - z : ℝ) : ℂ) * (-((2 - z : ℝ) : ℂ) / ν z)) / ν z ^ 2) z := by
    intro z
    refine ((d0 z).neg.div (d1 z) (hn z)).congr_deriv ?_
    simp
  have hc : Continuous ν := continuous_iff_continuousAt.mpr fun z => (d1 z).continuousAt
  have hc2 : Continuous fun z : ℝ => (1 * ν z - -((2 - z : ℝ) : ℂ) * (-((2 - z : ℝ) : ℂ) / ν z)) / ν z ^ 2 := by
    refine Continuous.div ?_ (hc.pow 2) fun z => pow_ne_zero 2 (hn z)
    refine (continuous_const.mul hc).sub (Continuous.mul (by fun_prop) (Continuous.div (by fun_prop) hc hn))
  obtain ⟨M, hM⟩ := (isCompact_Icc (a := (0 : ℝ)) (b := 1)).exists_bound_of_continuousOn hc2.continuousOn
  refine ⟨_, max M 0, le_max_right _ _, fun z _ => (d1 z).hasDerivWithinAt, fun z hz w hw => ?_⟩
  have := (convex_Icc (0 : ℝ) 1).norm_image_sub_le_of_norm_hasDerivWithin_le
    (fun x _ => (d2 x).hasDerivWithinAt) (fun x hx => (hM x hx).trans (le_max_left M 0)) hw hz
  rwa [Real.norm_eq_abs] at this

/-- C174: for the gradient with a closed solution psi is 45 degrees up to a multiple of `1 / N²`. -/
example : ∃ C : ℝ, ∃ N₀ : ℕ, ∀ N, N₀ ≤ N → ∀ rows,
    RowsOf rows (sliced [] [] (fun z => Complex.sqrt (((2 - z : ℝ) : ℂ) ^ 2 + I)) 1 1 (equalSlices 1 N)) →
    ∀ zs off refl, ∃ ψ Δ, (deltaPsiTMM zs [0] rows (2 * Real.pi) off refl).1 = .ok [(some ψ, some Δ)] ∧
      |ψ - 45| ≤ C * (1 / N) ^ 2 ∧ |Real.cos (rad (Δ - off)) - -1| ≤ C * (1 / N) ^ 2 := by
  obtain ⟨ν', L, hbend⟩ := exactGradient_bends
  have hs0 : ((1 : ℝ) : ℂ) * Complex.sin ((rad 0 : ℝ) : ℂ) = 0 := by simp [rad]
  obtain ⟨C, η₀, h0, H⟩ := C174_psi_delta_partial exactGradient_graded hbend (mpre := []) (mpost := []) .nil .nil
    (by simp) (by simp [rad]) (cb := 1) (by rw [hs0]; simp) (.inr ⟨by simp, by simp⟩)
    (exactGradient_solves .s) (exactGradient_solves .p) (by norm_num) (by norm_num)
  obtain ⟨M, hM⟩ := exists_nat_gt (1 / η₀)
  refine ⟨C, M + 1, fun N hN rows hr zs off refl => ?_⟩
  have hN0 : (0 : ℝ) < N := by exact_mod_cast (by omega : 0 < N)
  have hMN : (M : ℝ) ≤ N := by exact_mod_cast (by omega : M ≤ N)
  obtain ⟨hl, hm⟩ := C174_equal (D := 1) zero_le_one (by omega : 0 < N)
  have hle : 1 / (N : ℝ) ≤ η₀ := by
    rw [div_lt_iff₀ h0] at hM
    rw [div_le_iff₀ hN0]
    nlinarith
  obtain ⟨ψ, Δ, e1, e2, e3, -⟩ := H (1 / N) (by positivity) hle _ hl hm (fun p _ h0 => by
      rw [hs0, csqrt_sq] at h0
      have := congrArg Complex.im h0
      rw [(exactGradient_index p.2).2.1] at this
      norm_num at this) rows hr zs off refl
  refine ⟨ψ, Δ, e1, ?_, ?_⟩
  · have e : Real.arctan (‖(1 / 3 : ℂ)‖ / ‖(-1 / 3 : ℂ)‖) * 180 / Real.pi = 45 := by
      rw [neg_div, norm_neg, div_self (by norm_num), Real.arctan_one]
      have := Real.pi_pos
      field_simp; norm_num
    rw [e] at e2
    exact e2
  · have e : Real.cos (((-1 / 3 : ℂ) / (1 / 3 : ℂ)).arg) = -1 := by
      rw [show ((-1 / 3 : ℂ) / (1 / 3 : ℂ)) = -1 by norm_num, Complex.arg_neg_one, Real.cos_pi]
    rw [e] at e3
    exact e3

end Verif.TMM
