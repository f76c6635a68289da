import Verif.TMM.FieldLemmas
import Mathlib.Analysis.SpecialFunctions.Trigonometric.DerivHyp

/-! Power flow through a stack. -/

namespace Verif.TMM

open Complex (I)
open scoped ComplexConjugate

/-- Flux coefficient of a medium: the power flow is `Re (κ (v+w) conj(v-w))`. -/
noncomputable def kap (pol : Pol) (m : Medium) : ℂ :=
  match pol with
  | .s => conj (m.n * m.c)
  | .p => m.n * conj m.c

/-- Normal component of the Poynting vector (up to a common factor). -/
noncomputable def flux (κ v w : ℂ) : ℝ := (κ * ((v + w) * conj (v - w))).re

theorem flux_tangential {pol : Pol} {m m' : Medium} {v w v' w' : ℂ}
    (h : Tangential pol m m' v w v' w') : flux (kap pol m) v w = flux (kap pol m') v' w' := by
  cases pol
  · obtain ⟨h1, h2⟩ := h
    have h2' := congrArg conj h2
    simp only [map_mul] at h2'
    unfold flux kap
    congr 1
    simp only [map_mul]
    calc conj m.n * conj m.c * ((v + w) * conj (v - w))
        = (v + w) * (conj m.n * conj m.c * conj (v - w)) := by ring
      _ = (v' + w') * (conj m'.n * conj m'.c * conj (v' - w')) := by rw [h1, h2']
      _ = _ := by ring
  · obtain ⟨h1, h2⟩ := h
    have h2' := congrArg conj h2
    simp only [map_mul] at h2'
    unfold flux kap
    congr 1
    calc m.n * conj m.c * ((v + w) * conj (v - w))
        = (m.n * (v + w)) * (conj m.c * conj (v - w)) := by ring
      _ = (m'.n * (v' + w')) * (conj m'.c * conj (v' - w')) := by rw [h1, h2']
      _ = _ := by ring

theorem flux_expand (κ v w : ℂ) :
    flux κ v w = κ.re * (Complex.normSq v - Complex.normSq w) + 2 * κ.im * (v * conj w).im := by
  simp only [flux, Complex.normSq_apply, Complex.mul_re, Complex.mul_im, Complex.add_re,
    Complex.add_im, Complex.conj_re, Complex.conj_im, Complex.sub_re, Complex.sub_im]
  ring

theorem flux_forward (κ t : ℂ) : flux κ t 0 = κ.re * Complex.normSq t := by
  rw [flux_expand]; simp

theorem normSq_exp (z : ℂ) : Complex.normSq (Complex.exp z) = Real.exp (2 * z.re) := by
  rw [Complex.normSq_eq_norm_sq, Complex.norm_exp, ← Real.exp_nat_mul]; simp

theorem phase_factor (δ : ℂ) :
    Complex.exp (I * δ) * conj (Complex.exp (-(I * δ))) = Complex.exp ((2 * δ.re : ℝ) * I) := by
  rw [← Complex.exp_conj, ← Complex.exp_add]
  congr 1
  apply Complex.ext
  · simp
  · simp; ring

theorem one_sub_exp_bound (X : ℂ) (a : ℝ) :
    |X.im - (X * Complex.exp ((2 * a : ℝ) * I)).im| ≤ 2 * (‖X‖ * |Real.sin a|) := by
  have h1 : X.im - (X * Complex.exp ((2 * a : ℝ) * I)).im
      = (X * (1 - Complex.exp ((2 * a : ℝ) * I))).im := by
    rw [mul_sub, mul_one, Complex.sub_im]
  rw [h1]
  refine (Complex.abs_im_le_norm _).trans ?_
  rw [norm_mul]
  have h2 : 1 - Complex.exp ((2 * a : ℝ) * I)
      = -2 * I * Complex.sin a * Complex.exp (a * I) := by
    have e : Complex.exp ((2 * a : ℝ) * I) = Complex.exp (a * I) * Complex.exp (a * I) := by
      rw [← Complex.exp_add]; congr 1; push_cast; ring
    rw [e]
    have hs : 2 * I * Complex.sin a = Complex.exp (a * I) - Complex.exp (-(a * I)) := by
      rw [Complex.sin]
      have : -(a : ℂ) * I = -(a * I) := by ring
      rw [this]
      linear_combination (Complex.exp (-(a * I)) - Complex.exp (a * I)) * Complex.I_sq
    have h1 : Complex.exp (-((a : ℂ) * I)) * Complex.exp (a * I) = 1 := by
      rw [← Complex.exp_add]; simp
    linear_combination Complex.exp (a * I) * hs - h1
  rw [h2]
  have h3 : ‖-2 * I * Complex.sin a * Complex.exp (a * I)‖ = 2 * |Real.sin a| := by
    rw [norm_mul, norm_mul, norm_mul, Complex.norm_exp_ofReal_mul_I, ← Complex.ofReal_sin,
      Complex.norm_real]
    simp
  rw [h3]
  apply le_of_eq; ring

theorem flux_prop_expand (κ δ v w : ℂ) :
    flux κ (v * Complex.exp (I * δ)) (w * Complex.exp (-(I * δ))) =
      κ.re * (Complex.normSq v * Real.exp (-(2 * δ.im)) - Complex.normSq w * Real.exp (2 * δ.im))
      + 2 * κ.im * (v * conj w * Complex.exp ((2 * δ.re : ℝ) * I)).im := by
  rw [flux_expand, Complex.normSq_mul, Complex.normSq_mul, normSq_exp, normSq_exp]
  have h : v * Complex.exp (I * δ) * conj (w * Complex.exp (-(I * δ))) =
      v * conj w * Complex.exp ((2 * δ.re : ℝ) * I) := by
    rw [map_mul, ← phase_factor]; ring
  rw [h]
  simp

/-- Power never increases across a layer satisfying the stated bound. -/
theorem flux_prop_le {κ δ : ℂ}
    (h : |κ.im| * |Real.sin δ.re| ≤ κ.re * Real.sinh δ.im) (v w : ℂ) :
    flux κ (v * Complex.exp (I * δ)) (w * Complex.exp (-(I * δ))) ≤ flux κ v w := by
  rw [flux_prop_expand, flux_expand]
  set b := δ.im
  set X := v * conj w with hX
  have hXn : ‖X‖ = ‖v‖ * ‖w‖ := by rw [hX, norm_mul, RCLike.norm_conj]
  have hb := one_sub_exp_bound X δ.re
  set Y := (X * Complex.exp ((2 * δ.re : ℝ) * I)).im
  rw [hXn] at hb
  have hv : Complex.normSq v = ‖v‖ ^ 2 := Complex.normSq_eq_norm_sq v
  have hw : Complex.normSq w = ‖w‖ ^ 2 := Complex.normSq_eq_norm_sq w
  rw [hv, hw]
  have he1 : 1 - Real.exp (-(2 * b)) = 2 * Real.exp (-b) * Real.sinh b := by
    rw [Real.sinh_eq]
    have h1 : Real.exp (-b) * Real.exp b = 1 := by rw [← Real.exp_add]; simp
    have h2 : Real.exp (-(2 * b)) = Real.exp (-b) * Real.exp (-b) := by
      rw [← Real.exp_add]; ring_nf
    rw [h2]; linear_combination -h1
  have he2 : Real.exp (2 * b) - 1 = 2 * Real.exp b * Real.sinh b := by
    rw [Real.sinh_eq]
    have h1 : Real.exp (-b) * Real.exp b = 1 := by rw [← Real.exp_add]; simp
    have h2 : Real.exp (2 * b) = Real.exp b * Real.exp b := by
      rw [← Real.exp_add]; ring_nf
    rw [h2]; linear_combination h1
  have hamgm : 2 * (‖v‖ * ‖w‖) ≤ ‖v‖ ^ 2 * Real.exp (-b) + ‖w‖ ^ 2 * Real.exp b := by
    have h1 : Real.exp (-b) = Real.exp (-b / 2) ^ 2 := by
      rw [← Real.exp_nat_mul]; congr 1; push_cast; ring
    have h2 : Real.exp b = Real.exp (b / 2) ^ 2 := by
      rw [← Real.exp_nat_mul]; congr 1; push_cast; ring
    have h3 : Real.exp (-b / 2) * Real.exp (b / 2) = 1 := by
      rw [← Real.exp_add, ← Real.exp_zero]; congr 1; ring
    rw [h1, h2]
    have h4 := sq_nonneg (‖v‖ * Real.exp (-b / 2) - ‖w‖ * Real.exp (b / 2))
    have h5 : 2 * (‖v‖ * ‖w‖) = 2 * (‖v‖ * ‖w‖) * (Real.exp (-b / 2) * Real.exp (b / 2)) := by
      rw [h3, mul_one]
    rw [h5]
    nlinarith
  have hS : 0 ≤ κ.re * Real.sinh b := le_trans (by positivity) h
  have hcross : -(4 * (κ.re * Real.sinh b) * (‖v‖ * ‖w‖)) ≤ 2 * κ.im * (X.im - Y) := by
    have h1 : |2 * κ.im * (X.im - Y)| ≤ 4 * (κ.re * Real.sinh b) * (‖v‖ * ‖w‖) := by
      rw [abs_mul, abs_mul, abs_two]
      calc 2 * |κ.im| * |X.im - Y| ≤ 2 * |κ.im| * (2 * (‖v‖ * ‖w‖ * |Real.sin δ.re|)) := by
            apply mul_le_mul_of_nonneg_left hb; positivity
        _ = 4 * (|κ.im| * |Real.sin δ.re|) * (‖v‖ * ‖w‖) := by ring
        _ ≤ 4 * (κ.re * Real.sinh b) * (‖v‖ * ‖w‖) := by
            apply mul_le_mul_of_nonneg_right _ (by positivity)
            linarith
    exact (abs_le.mp h1).1
  have hmain : 4 * (κ.re * Real.sinh b) * (‖v‖ * ‖w‖) ≤
      κ.re * (‖v‖ ^ 2 * (1 - Real.exp (-(2 * b))) + ‖w‖ ^ 2 * (Real.exp (2 * b) - 1)) := by
    rw [he1, he2]
    have := mul_le_mul_of_nonneg_left hamgm hS
    nlinarith
  nlinarith

/-- Power is conserved across a non-absorbing layer. -/
theorem flux_prop_eq {κ δ : ℂ} (h : (κ.im = 0 ∧ δ.im = 0) ∨ (κ.re = 0 ∧ δ.re = 0)) (v w : ℂ) :
    flux κ (v * Complex.exp (I * δ)) (w * Complex.exp (-(I * δ))) = flux κ v w := by
  rw [flux_prop_expand, flux_expand]
  rcases h with ⟨h1, h2⟩ | ⟨h1, h2⟩
  · rw [h1, h2]; simp
  · rw [h1, h2]; simp

/-- The condition on a film under which power does not grow. -/
def Damps (pol : Pol) (m : Medium) : Prop :=
  |(kap pol m).im| * |Real.sin m.δ.re| ≤ (kap pol m).re * Real.sinh m.δ.im

/-- The condition on a film under which power is conserved. -/
def Conserves (pol : Pol) (m : Medium) : Prop :=
  ((kap pol m).im = 0 ∧ m.δ.im = 0) ∨ ((kap pol m).re = 0 ∧ m.δ.re = 0)

theorem fields_flux_le {pol : Pol} {ms : List Medium} {b : Medium} {t : ℂ}
    (h : ∀ m ∈ ms, Damps pol m) : ∀ {m : Medium} {v w : ℂ},
    Fields pol m v w (ms ++ [b]) t → flux (kap pol b) t 0 ≤ flux (kap pol m) v w := by
  induction ms with
  | nil => intro m v w hf; exact (flux_tangential hf).symm.le
  | cons a ms ih =>
    intro m v w hf
    rw [List.cons_append, fields_cons (by simp)] at hf
    obtain ⟨v', w', ht, hf⟩ := hf
    have h1 := ih (fun m hm => h m (List.mem_cons_of_mem _ hm)) hf
    have h2 := h a List.mem_cons_self
    rw [flux_tangential ht]
    exact h1.trans (flux_prop_le h2 _ _)

theorem fields_flux_eq {pol : Pol} {ms : List Medium} {b : Medium} {t : ℂ}
    (h : ∀ m ∈ ms, Conserves pol m) : ∀ {m : Medium} {v w : ℂ},
    Fields pol m v w (ms ++ [b]) t → flux (kap pol b) t 0 = flux (kap pol m) v w := by
  induction ms with
  | nil => intro m v w hf; exact (flux_tangential hf).symm
  | cons a ms ih =>
    intro m v w hf
    rw [List.cons_append, fields_cons (by simp)] at hf
    obtain ⟨v', w', ht, hf⟩ := hf
    have h1 := ih (fun m hm => h m (List.mem_cons_of_mem _ hm)) hf
    rw [flux_tangential ht, h1]
    exact flux_prop_eq (h a List.mem_cons_self) _ _

end Verif.TMM
