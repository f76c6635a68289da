import Verif.TMM.BlochSpec
import Verif.TMM.LayeredLimit
import Mathlib.Analysis.Complex.Polynomial.Basic

/-! # Lemmas on Bloch waves (C157) -/

namespace Verif.TMM

open Complex (I)
open Set Filter Topology
open scoped ComplexConjugate

/-- Wronskian of two fields. -/
def wron (u v : ℂ × ℂ) : ℂ := u.1 * v.2 - u.2 * v.1

theorem wron_across {pol : Pol} {s n q δ : ℂ} (hn : n ≠ 0) (hq0 : q ≠ 0) (hq : q ^ 2 = n ^ 2 - s ^ 2) (u v : ℂ × ℂ) :
    wron (across pol s n q δ u) (across pol s n q δ v) = wron u v := by
  have hab := coefAB hn hq pol
  have e : coefA pol n / q * (coefB pol s n / q) = 1 := by
    rw [div_mul_div_comm, hab, ← sq, div_self (pow_ne_zero 2 hq0)]
  have hcs := Complex.cos_sq_add_sin_sq δ
  unfold wron across
  simp only
  generalize coefA pol n / q = α at *
  generalize coefB pol s n / q = β at *
  have hI := Complex.I_sq
  linear_combination (u.1 * v.2 - u.2 * v.1) * hcs + (Complex.sin δ) ^ 2 * (u.1 * v.2 - u.2 * v.1) * e +
    (-(α * β * Complex.sin δ ^ 2 * (u.1 * v.2 - u.2 * v.1))) * hI

theorem wron_acrossAll {pol : Pol} {s : ℂ} {ms : List Medium}
    (h : ∀ m ∈ ms, m.n ≠ 0 ∧ m.c ^ 2 = 1 - (s / m.n) ^ 2 ∧ m.n * m.c ≠ 0) (u v : ℂ × ℂ) :
    wron (acrossAll pol s ms u) (acrossAll pol s ms v) = wron u v := by
  induction ms with
  | nil => rfl
  | cons m ms ih =>
    obtain ⟨hn, hc, hq⟩ := h m (by simp)
    have e : ∀ x, acrossAll pol s (m :: ms) x = across pol s m.n (m.n * m.c) m.δ (acrossAll pol s ms x) := fun _ => rfl
    rw [e, e, wron_across hn hq (by rw [mul_pow, hc]; field_simp), ih fun m hm => h m (by simp [hm])]

/-- Linear maps of fields that keep the Wronskian. -/
def Unimod (M : FieldMap) : Prop := ∀ u v, wron (M u) (M v) = wron u v

theorem Unimod.coords {M : FieldMap} (h : Unimod M) : ∃ a b c d : ℂ, a * d - b * c = 1 ∧
    ∀ v, M v = (a * v.1 + b * v.2, c * v.1 + d * v.2) := by
  refine ⟨(M (1, 0)).1, (M (0, 1)).1, (M (1, 0)).2, (M (0, 1)).2, ?_, fun v => ?_⟩
  · have := h (1, 0) (0, 1)
    simp only [wron, mul_one, mul_zero, sub_zero] at this
    linear_combination this
  · have e : v = v.1 • ((1, 0) : ℂ × ℂ) + v.2 • ((0, 1) : ℂ × ℂ) := by ext <;> simp
    conv_lhs => rw [e, map_add, map_smul, map_smul]
    ext <;> simp <;> ring

/-- Bloch wave of a linear map: decomposition of all fields. -/
theorem Unimod.split {M : FieldMap} (h : Unimod M) {κ : ℂ} (hκ : κ ≠ 0) {u : ℂ × ℂ} (hu : u ≠ 0)
    (hM : M u = κ⁻¹ • u) (v : ℂ × ℂ) :
    M (M v - κ • v) = κ⁻¹ • (M v - κ • v) ∧ M (M v - κ⁻¹ • v) = κ • (M v - κ⁻¹ • v) := by
  obtain ⟨a, b, c, d, hdet, hM'⟩ := h.coords
  have htr : a + d = κ + κ⁻¹ := by
    rw [hM'] at hM
    have h1 := congrArg Prod.fst hM
    have h2 := congrArg Prod.snd hM
    simp only [Prod.smul_fst, Prod.smul_snd, smul_eq_mul] at h1 h2
    have k1 : ((a - κ⁻¹) * (d - κ⁻¹) - b * c) * u.1 = 0 := by linear_combination (d - κ⁻¹) * h1 - b * h2
    have k2 : ((a - κ⁻¹) * (d - κ⁻¹) - b * c) * u.2 = 0 := by linear_combination (a - κ⁻¹) * h2 - c * h1
    have k3 : (a - κ⁻¹) * (d - κ⁻¹) - b * c = 0 := by
      by_contra hne
      exact hu (Prod.ext ((mul_eq_zero.mp k1).resolve_left hne) ((mul_eq_zero.mp k2).resolve_left hne))
    have hk : κ * κ⁻¹ = 1 := mul_inv_cancel₀ hκ
    linear_combination -κ * k3 + κ * hdet + (κ⁻¹ - (a + d)) * hk
  have hk : κ * κ⁻¹ = 1 := mul_inv_cancel₀ hκ
  simp only [hM']
  constructor
  · ext
    · simp only [Prod.fst_sub, Prod.snd_sub, Prod.smul_fst, Prod.smul_snd, smul_eq_mul]
      linear_combination (a * v.1 + b * v.2) * htr - v.1 * hdet + v.1 * hk
    · simp only [Prod.fst_sub, Prod.snd_sub, Prod.smul_fst, Prod.smul_snd, smul_eq_mul]
      linear_combination (c * v.1 + d * v.2) * htr - v.2 * hdet + v.2 * hk
  · ext
    · simp only [Prod.fst_sub, Prod.snd_sub, Prod.smul_fst, Prod.smul_snd, smul_eq_mul]
      linear_combination (a * v.1 + b * v.2) * htr - v.1 * hdet + v.1 * hk
    · simp only [Prod.fst_sub, Prod.snd_sub, Prod.smul_fst, Prod.smul_snd, smul_eq_mul]
      linear_combination (c * v.1 + d * v.2) * htr - v.2 * hdet + v.2 * hk

theorem pow_eigen {M : FieldMap} {μ : ℂ} {w : ℂ × ℂ} (h : M w = μ • w) (N : ℕ) : (M ^ N) w = μ ^ N • w := by
  induction N with
  | zero => simp
  | succ N ih => rw [pow_succ', mul_apply_eq_comp, ih, map_smul, h, smul_smul, ← pow_succ]

/-- Powers of a map with a Bloch wave. -/
theorem Unimod.pow {M : FieldMap} (h : Unimod M) {κ : ℂ} (hκ : κ ≠ 0) (hκ2 : κ ^ 2 ≠ 1) {u : ℂ × ℂ} (hu : u ≠ 0)
    (hM : M u = κ⁻¹ • u) (v : ℂ × ℂ) (N : ℕ) :
    (M ^ N) v = (κ⁻¹ - κ)⁻¹ • (κ⁻¹ ^ N • (M v - κ • v) - κ ^ N • (M v - κ⁻¹ • v)) := by
  obtain ⟨h1, h2⟩ := h.split hκ hu hM v
  have hd : κ⁻¹ - κ ≠ 0 := by
    intro h0
    apply hκ2
    have hk : κ * κ⁻¹ = 1 := mul_inv_cancel₀ hκ
    linear_combination (-κ) * h0 + hk
  rw [← pow_eigen h1, ← pow_eigen h2, ← map_sub, ← map_smul]
  congr 1
  have : (M v - κ • v) - (M v - κ⁻¹ • v) = (κ⁻¹ - κ) • v := by rw [sub_smul]; abel
  rw [this, smul_smul, inv_mul_cancel₀ hd, one_smul]

/-- Waves with the same factor are multiples of each other. -/
theorem wron_same {M : FieldMap} (h : Unimod M) {μ : ℂ} (hμ : μ ^ 2 ≠ 1) {u w : ℂ × ℂ}
    (hu : M u = μ • u) (hw : M w = μ • w) : wron u w = 0 := by
  have := h u w
  rw [hu, hw] at this
  simp only [wron, Prod.smul_fst, Prod.smul_snd, smul_eq_mul] at this ⊢
  have h2 : (μ ^ 2 - 1) * (u.1 * w.2 - u.2 * w.1) = 0 := by linear_combination this
  exact (mul_eq_zero.mp h2).resolve_left (sub_ne_zero.mpr hμ)

/-- There is always a wave for a root of the characteristic equation. -/
theorem Unimod.exists {M : FieldMap} (h : Unimod M) {a d κ : ℂ} (ha : (M (1, 0)).1 = a) (hd : (M (0, 1)).2 = d)
    (hκ : κ ^ 2 - (a + d) * κ + 1 = 0) : κ ≠ 0 ∧ ∃ u : ℂ × ℂ, u ≠ 0 ∧ M u = κ⁻¹ • u := by
  have hκ0 : κ ≠ 0 := by rintro rfl; simp at hκ
  have hk : κ * κ⁻¹ = 1 := mul_inv_cancel₀ hκ0
  refine ⟨hκ0, ?_⟩
  obtain ⟨a', b, c, d', hdet, hM⟩ := h.coords
  have ea : a = a' := by rw [← ha, hM]; simp
  have ed : d = d' := by rw [← hd, hM]; simp
  subst ea ed
  have htr : a + d = κ + κ⁻¹ := by
    apply mul_right_cancel₀ hκ0
    linear_combination -hκ - hk
  have key : ∀ v, M (M v - κ • v) = κ⁻¹ • (M v - κ • v) := by
    intro v
    simp only [hM]
    ext
    · simp only [Prod.fst_sub, Prod.snd_sub, Prod.smul_fst, Prod.smul_snd, smul_eq_mul]
      linear_combination (a * v.1 + b * v.2) * htr - v.1 * hdet + v.1 * hk
    · simp only [Prod.fst_sub, Prod.snd_sub, Prod.smul_fst, Prod.smul_snd, smul_eq_mul]
      linear_combination (c * v.1 + d * v.2) * htr - v.2 * hdet + v.2 * hk
  by_cases h1 : M (1, 0) - κ • ((1, 0) : ℂ × ℂ) = 0
  · by_cases h2 : M (0, 1) - κ • ((0, 1) : ℂ × ℂ) = 0
    · -- scalar
      have e1 := congrArg Prod.fst h1
      have e2 := congrArg Prod.snd h2
      rw [hM] at e1 e2
      simp at e1 e2
      have e3 : κ⁻¹ = κ := by linear_combination -htr + e1 + e2
      refine ⟨(1, 0), by simp, ?_⟩
      rw [e3]; exact sub_eq_zero.mp h1
    · exact ⟨_, h2, key _⟩
  · exact ⟨_, h1, key _⟩

theorem quad_root (τ : ℂ) : ∃ κ : ℂ, κ ^ 2 - τ * κ + 1 = 0 ∧ ‖κ‖ ≤ 1 := by
  obtain ⟨z, hz⟩ : ∃ z : ℂ, z ^ 2 = τ ^ 2 - 4 := IsAlgClosed.exists_pow_nat_eq _ (by norm_num)
  have hprod : (τ + z) / 2 * ((τ - z) / 2) = 1 := by linear_combination -hz / 4
  by_cases h : ‖(τ + z) / 2‖ ≤ 1
  · exact ⟨_, by linear_combination hz / 4, h⟩
  · push Not at h
    refine ⟨(τ - z) / 2, by linear_combination hz / 4, ?_⟩
    have := congrArg norm hprod
    rw [norm_mul, norm_one] at this
    nlinarith [norm_nonneg ((τ - z) / 2)]

/-- Every map has a wave that does not grow. -/
theorem Unimod.exists_le {M : FieldMap} (h : Unimod M) :
    ∃ κ : ℂ, κ ≠ 0 ∧ ‖κ‖ ≤ 1 ∧ ∃ u : ℂ × ℂ, u ≠ 0 ∧ M u = κ⁻¹ • u := by
  obtain ⟨κ, h1, h2⟩ := quad_root ((M (1, 0)).1 + (M (0, 1)).2)
  obtain ⟨h3, h4⟩ := h.exists rfl rfl h1
  exact ⟨κ, h3, h2, h4⟩

/-- Size of the roots of `κ² - 2 x κ + 1`. -/
theorem root_lt_one_iff {τ κ : ℂ} (hκ : κ ^ 2 - 2 * τ * κ + 1 = 0) : ‖κ‖ = 1 ↔ ∃ x : ℝ, |x| ≤ 1 ∧ τ = x := by
  have hκ0 : κ ≠ 0 := by rintro rfl; simp at hκ
  constructor
  · intro h1
    refine ⟨κ.re, (Complex.abs_re_le_norm κ).trans h1.le, ?_⟩
    have hn : κ * conj κ = 1 := by rw [Complex.mul_conj, Complex.normSq_eq_norm_sq, h1]; simp
    have h2 : 2 * τ = κ + conj κ := by
      apply mul_left_cancel₀ hκ0
      linear_combination -hκ - hn
    rw [Complex.add_conj] at h2
    have := mul_left_cancel₀ (two_ne_zero (α := ℂ)) (h2.trans (by push_cast; ring : _ = 2 * (κ.re : ℂ)))
    exact this
  · rintro ⟨x, hx, rfl⟩
    have h1 := congrArg Complex.re hκ
    have h2 := congrArg Complex.im hκ
    simp only [sq, Complex.add_re, Complex.sub_re, Complex.mul_re, Complex.mul_im, Complex.ofReal_re, Complex.ofReal_im,
      Complex.one_re, Complex.zero_re, Complex.add_im, Complex.sub_im, Complex.one_im, Complex.zero_im,
      Complex.re_ofNat, Complex.im_ofNat] at h1 h2
    have h3 : κ.im * (κ.re - x) = 0 := by linarith
    have hx' := abs_le.mp hx
    have hN : κ.re * κ.re + κ.im * κ.im = 1 := by
      rcases mul_eq_zero.mp h3 with h4 | h4
      · rw [h4] at h1 ⊢
        have h5 : (κ.re - x) ^ 2 = x ^ 2 - 1 := by linarith
        have h6 : x ^ 2 ≤ 1 := by nlinarith
        have h7 : κ.re - x = 0 := by
          have : (κ.re - x) ^ 2 = 0 := le_antisymm (by linarith) (sq_nonneg _)
          exact pow_eq_zero_iff two_ne_zero |>.mp this
        have h8 : κ.re = x := by linarith
        rw [h8] at h5 ⊢
        nlinarith
      · have h8 : κ.re = x := by linarith
        rw [h8] at h1 ⊢
        nlinarith
    have : ‖κ‖ ^ 2 = 1 := by rw [← Complex.normSq_eq_norm_sq, Complex.normSq_apply]; exact hN
    exact (pow_eq_one_iff_of_nonneg (norm_nonneg κ) two_ne_zero).mp this

end Verif.TMM
