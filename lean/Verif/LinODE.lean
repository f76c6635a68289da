import Mathlib.Analysis.ODE.ExistUnique
import Mathlib.Analysis.ODE.Gronwall

/-! # Linear differential equations on an interval have solutions

Used for the fields in a graded layer (C155).
-/

namespace Verif

open Set Metric

variable {E : Type*} [NormedAddCommGroup E] [NormedSpace ℝ E]

/-- Two solutions that meet can be joined. -/
theorem ode_glue {f : ℝ → E → E} {y z : ℝ → E} {a b c : ℝ} (hab : a ≤ b) (hbc : b ≤ c)
    (hy : ∀ t ∈ Icc a b, HasDerivWithinAt y (f t (y t)) (Icc a b) t)
    (hz : ∀ t ∈ Icc b c, HasDerivWithinAt z (f t (z t)) (Icc b c) t) (h : z b = y b) :
    ∃ w : ℝ → E, w a = y a ∧ ∀ t ∈ Icc a c, HasDerivWithinAt w (f t (w t)) (Icc a c) t := by
  refine ⟨fun t => if t ≤ b then y t else z t, by simp [hab], ?_⟩
  have e1 : ∀ t ∈ Icc a b, (if t ≤ b then y t else z t) = y t := fun t ht => if_pos ht.2
  have e2 : ∀ t ∈ Icc b c, (if t ≤ b then y t else z t) = z t := by
    intro t ht
    split_ifs with h1
    · rw [le_antisymm h1 ht.1, h]
    · rfl
  have d1 : ∀ t ∈ Icc a b, HasDerivWithinAt (fun t => if t ≤ b then y t else z t)
      (f t (if t ≤ b then y t else z t)) (Icc a b) t := by
    intro t ht
    rw [e1 t ht]
    exact (hy t ht).congr e1 (e1 t ht)
  have d2 : ∀ t ∈ Icc b c, HasDerivWithinAt (fun t => if t ≤ b then y t else z t)
      (f t (if t ≤ b then y t else z t)) (Icc b c) t := by
    intro t ht
    rw [e2 t ht]
    exact (hz t ht).congr e2 (e2 t ht)
  have hu : Icc a c = Icc a b ∪ Icc b c := (Icc_union_Icc_eq_Icc hab hbc).symm
  intro t ht
  rcases lt_trichotomy t b with h1 | h1 | h1
  · refine (d1 t ⟨ht.1, h1.le⟩).mono_of_mem_nhdsWithin ?_
    filter_upwards [self_mem_nhdsWithin, mem_nhdsWithin_of_mem_nhds (Iio_mem_nhds h1)] with x hx hx'
    exact ⟨hx.1, le_of_lt hx'⟩
  · rw [hu]
    exact (d1 t ⟨ht.1, h1.le⟩).union (d2 t ⟨h1.ge, ht.2⟩)
  · refine (d2 t ⟨h1.le, ht.2⟩).mono_of_mem_nhdsWithin ?_
    filter_upwards [self_mem_nhdsWithin, mem_nhdsWithin_of_mem_nhds (Ioi_mem_nhds h1)] with x hx hx'
    exact ⟨le_of_lt hx', hx.2⟩

variable [CompleteSpace E]

/-- A solution exists on a short interval, of a length that does not depend on where it starts. -/
theorem ode_short {f : ℝ → E → E} {K : NNReal} {a b : ℝ} (hab : a ≤ b)
    (hl : ∀ t ∈ Icc a b, LipschitzWith K (f t)) (h0 : ∀ t ∈ Icc a b, f t 0 = 0)
    (hc : ∀ x, ContinuousOn (f · x) (Icc a b)) (hs : 2 * K * (b - a) ≤ 1) (x₀ : E) :
    ∃ y : ℝ → E, y a = x₀ ∧ ∀ t ∈ Icc a b, HasDerivWithinAt y (f t (y t)) (Icc a b) t := by
  have hpl : IsPicardLindelof f (tmin := a) (tmax := b) ⟨a, left_mem_Icc.mpr hab⟩ x₀ (‖x₀‖₊ + 1) 0
      (K * (2 * ‖x₀‖₊ + 1)) K := by
    refine ⟨fun t ht => (hl t ht).lipschitzOnWith, fun x _ => hc x, ?_, ?_⟩
    · intro t ht x hx
      have h1 : ‖f t x‖ ≤ K * ‖x‖ := by
        have := (hl t ht).dist_le_mul x 0
        simpa [dist_eq_norm, h0 t ht] using this
      have h2 : ‖x‖ ≤ 2 * ‖x₀‖ + 1 := by
        have : ‖x - x₀‖ ≤ ‖x₀‖ + 1 := by simpa [dist_eq_norm] using hx
        have := norm_le_insert' x x₀
        linarith
      calc ‖f t x‖ ≤ K * ‖x‖ := h1
        _ ≤ K * (2 * ‖x₀‖ + 1) := mul_le_mul_of_nonneg_left h2 K.2
        _ = _ := by push_cast; rfl
    · have hm : max (b - a) (a - a) = b - a := by rw [sub_self]; exact max_eq_left (by linarith)
      simp only [hm]
      push_cast
      have h1 := norm_nonneg x₀
      have h2 := mul_le_mul_of_nonneg_left hs (by linarith : (0 : ℝ) ≤ ‖x₀‖ + 1)
      have h3 : 0 ≤ K * (b - a) := mul_nonneg K.2 (by linarith)
      nlinarith
  exact hpl.exists_eq_forall_mem_Icc_hasDerivWithinAt₀

/-- A linear differential equation with continuous coefficients has a solution on the whole interval. -/
theorem ode_exists {f : ℝ → E → E} {K : NNReal} {a b : ℝ} (hab : a ≤ b)
    (hl : ∀ t ∈ Icc a b, LipschitzWith K (f t)) (h0 : ∀ t ∈ Icc a b, f t 0 = 0)
    (hc : ∀ x, ContinuousOn (f · x) (Icc a b)) (x₀ : E) :
    ∃ y : ℝ → E, y a = x₀ ∧ ∀ t ∈ Icc a b, HasDerivWithinAt y (f t (y t)) (Icc a b) t := by
  obtain ⟨N, hN⟩ := exists_nat_ge (2 * K * (b - a))
  have hN1 : (0 : ℝ) < N + 1 := by positivity
  set τ := (b - a) / (N + 1) with hτ
  have hτ0 : 0 ≤ τ := div_nonneg (by linarith) hN1.le
  have hτs : 2 * K * τ ≤ 1 := by
    rw [hτ, ← mul_div_assoc, div_le_one hN1]
    linarith
  have main : ∀ j : ℕ, j ≤ N + 1 → ∃ y : ℝ → E, y a = x₀ ∧
      ∀ t ∈ Icc a (a + j * τ), HasDerivWithinAt y (f t (y t)) (Icc a (a + j * τ)) t := by
    intro j
    induction j with
    | zero =>
      intro _
      obtain ⟨y, h1, h2⟩ := ode_short (a := a) (b := a) le_rfl
        (fun t ht => hl t ⟨ht.1, ht.2.trans hab⟩) (fun t ht => h0 t ⟨ht.1, ht.2.trans hab⟩)
        (fun x => (hc x).mono (Icc_subset_Icc_right hab)) (by simp) x₀
      exact ⟨y, h1, by simpa using h2⟩
    | succ j ih =>
      intro hj
      obtain ⟨y, h1, h2⟩ := ih (by omega)
      have hlast : a + (j + 1) * τ ≤ b := by
        have : ((j + 1 : ℕ) : ℝ) ≤ ((N + 1 : ℕ) : ℝ) := by exact_mod_cast hj
        push_cast at this
        have h3 : (N + 1) * τ = b - a := by rw [hτ]; field_simp
        have := mul_le_mul_of_nonneg_right this hτ0
        linarith
      have hj0 : 0 ≤ (j : ℝ) * τ := by positivity
      have hstep : a + j * τ ≤ a + (j + 1) * τ := by linarith [add_mul (j : ℝ) 1 τ]
      have hsub : Icc (a + j * τ) (a + (j + 1) * τ) ⊆ Icc a b := Icc_subset_Icc (by linarith) hlast
      obtain ⟨z, h3, h4⟩ := ode_short hstep (fun t ht => hl t (hsub ht)) (fun t ht => h0 t (hsub ht))
        (fun x => (hc x).mono hsub) (by
          rw [show a + (j + 1) * τ - (a + j * τ) = τ by ring]; exact hτs) (y (a + j * τ))
      obtain ⟨w, h5, h6⟩ := ode_glue (by linarith) hstep h2 h4 h3
      exact ⟨w, h5.trans h1, by push_cast; exact h6⟩
  obtain ⟨y, h1, h2⟩ := main (N + 1) le_rfl
  have : a + ((N + 1 : ℕ) : ℝ) * τ = b := by push_cast; rw [hτ]; field_simp; ring
  rw [this] at h2
  exact ⟨y, h1, h2⟩

end Verif
