import Mathlib.Analysis.SpecialFunctions.Complex.Arg
import Mathlib.Analysis.RCLike.Sqrt

/-!
# Shared conventions

Floats are modelled by exact real/complex numbers, non-finite results by
`none`, Python exceptions by values of `PyErr`.
-/

namespace Verif

/-- The exception classes raised by refellips code (and by numpy on its behalf). -/
inductive PyErr
  | valueError
  | runtimeError
  | assertionError
  | indexError
  | keyError
  | typeError
  | attributeError
  | linAlgError
  | external
  deriving DecidableEq, Repr

/-- Complex division as numpy does it, where a zero divisor gives a non-finite
result (`inf`/`nan`), represented by `none`. -/
noncomputable def cdiv (a b : ℂ) : Option ℂ :=
  open Classical in if b = 0 then none else some (a / b)

/-- Real division with a zero divisor giving a non-finite result, `none`. -/
noncomputable def rdiv (a b : ℝ) : Option ℝ :=
  open Classical in if b = 0 then none else some (a / b)

/-- `np.sqrt` of a complex number: the principal square root.  On the negative
real axis the IEEE sign of the zero imaginary part selects the branch; that sign
is not visible in an exact complex number, so it is an argument (`true`: `+0`). -/
noncomputable def npSqrt (σ : Bool) (z : ℂ) : ℂ :=
  open Classical in
  if z.im = 0 ∧ z.re < 0 then
    (if σ then Complex.I else -Complex.I) * (Real.sqrt (-z.re) : ℂ)
  else Complex.sqrt z

/-- One row of the slab array: columns thickness (Å), complex refractive index
`n + ik` (columns 1 and 2; `none` when the entry is `nan`), roughness, volume
fraction of solvent.  /repo/refellips/structureSE.py:535-560 (layout). -/
structure Row where
  thick : ℝ
  ri : Option ℂ
  rough : ℝ
  vf : ℝ

theorem cdiv_eq_some {a b c : ℂ} : cdiv a b = some c ↔ b ≠ 0 ∧ c = a / b := by
  unfold cdiv
  split_ifs with h
  · simp [h]
  · simp [h, eq_comm]

theorem cdiv_of_ne {a b : ℂ} (h : b ≠ 0) : cdiv a b = some (a / b) := by
  simp [cdiv, h]

theorem cdiv_zero (a : ℂ) : cdiv a 0 = none := by simp [cdiv]

theorem rdiv_eq_some {a b c : ℝ} : rdiv a b = some c ↔ b ≠ 0 ∧ c = a / b := by
  unfold rdiv
  split_ifs with h
  · simp [h]
  · simp [h, eq_comm]

theorem rdiv_of_ne {a b : ℝ} (h : b ≠ 0) : rdiv a b = some (a / b) := by
  simp [rdiv, h]

/-! ### Square roots -/

theorem csqrt_sq (z : ℂ) : Complex.sqrt z ^ 2 = z := by
  unfold Complex.sqrt
  simp

theorem csqrt_mul_self (z : ℂ) : Complex.sqrt z * Complex.sqrt z = z := by
  rw [← sq, csqrt_sq]

theorem csqrt_re_nonneg (z : ℂ) : 0 ≤ (Complex.sqrt z).re := by
  rw [Complex.sqrt_eq_real_add_ite]
  split_ifs <;> simp <;> positivity

theorem csqrt_im_nonneg {z : ℂ} (h : 0 ≤ z.im) : 0 ≤ (Complex.sqrt z).im := by
  rw [Complex.sqrt_eq_real_add_ite]
  simp [h]; positivity

theorem csqrt_im_nonpos {z : ℂ} (h : z.im < 0) : (Complex.sqrt z).im ≤ 0 := by
  rw [Complex.sqrt_eq_real_add_ite]
  simp [not_le.mpr h]; positivity

/-- A number in the open right half plane is the principal root of its square. -/
theorem csqrt_of_sq_re_pos {w : ℂ} (h : 0 < w.re) : Complex.sqrt (w ^ 2) = w := by
  have h1 : (Complex.sqrt (w ^ 2) - w) * (Complex.sqrt (w ^ 2) + w) = 0 := by
    have := csqrt_sq (w ^ 2)
    linear_combination this
  rcases mul_eq_zero.mp h1 with h2 | h2
  · exact sub_eq_zero.mp h2
  · exfalso
    have h3 := csqrt_re_nonneg (w ^ 2)
    have h4 : Complex.sqrt (w ^ 2) = -w := eq_neg_of_add_eq_zero_left h2
    rw [h4] at h3
    simp at h3
    linarith

theorem csqrt_ofReal_nonneg {x : ℝ} (h : 0 ≤ x) :
    Complex.sqrt (x : ℂ) = (Real.sqrt x : ℂ) := by
  apply Complex.ext
  · rw [Complex.re_sqrt_ofReal]; simp
  · rw [Complex.sqrt_eq_real_add_ite]
    simp [abs_of_nonneg h]

theorem csqrt_ofReal_neg {x : ℝ} (h : x < 0) :
    Complex.sqrt (x : ℂ) = Complex.I * (Real.sqrt (-x) : ℂ) := by
  rw [Complex.sqrt_eq_real_add_ite]
  simp only [Complex.norm_real, Real.norm_eq_abs, abs_of_neg h, Complex.ofReal_re,
    Complex.ofReal_im, le_refl, if_true]
  have : (-x + x) / 2 = 0 := by ring
  rw [this]
  have : (-x - x) / 2 = -x := by ring
  rw [this]; simp [mul_comm]

theorem npSqrt_sq (σ : Bool) (z : ℂ) : npSqrt σ z ^ 2 = z := by
  unfold npSqrt
  split_ifs with h hs
  · have : ((Real.sqrt (-z.re) : ℝ) : ℂ) ^ 2 = -z := by
      rw [← Complex.ofReal_pow, Real.sq_sqrt (by linarith [h.2])]
      apply Complex.ext <;> simp [h.1]
    rw [mul_pow, this]; simp
  · have : ((Real.sqrt (-z.re) : ℝ) : ℂ) ^ 2 = -z := by
      rw [← Complex.ofReal_pow, Real.sq_sqrt (by linarith [h.2])]
      apply Complex.ext <;> simp [h.1]
    rw [mul_pow, this]; simp
  · exact csqrt_sq z

theorem npSqrt_re_nonneg (σ : Bool) (z : ℂ) : 0 ≤ (npSqrt σ z).re := by
  unfold npSqrt
  split_ifs
  · simp
  · simp
  · exact csqrt_re_nonneg z

theorem npSqrt_of_sq_re_pos (σ : Bool) {w : ℂ} (h : 0 < w.re) : npSqrt σ (w ^ 2) = w := by
  unfold npSqrt
  rw [if_neg]
  · exact csqrt_of_sq_re_pos h
  · rintro ⟨h1, h2⟩
    simp [sq] at h1 h2
    have : w.im = 0 := by
      have : 2 * (w.re * w.im) = 0 := by linarith
      rcases mul_eq_zero.mp (mul_eq_zero.mp this |>.resolve_left (by norm_num)) with h | h
      · linarith
      · exact h
    rw [this] at h2
    nlinarith

end Verif
