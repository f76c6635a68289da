import Verif.Disp.Model
import Mathlib.Tactic.Linarith
import Mathlib.Tactic.FieldSimp
import Mathlib.Tactic.Positivity
import Mathlib.Algebra.BigOperators.Group.List.Basic

/-! # Lemmas about sums of oscillators and square roots -/

namespace Verif.Disp

theorem sumO_eq_some {α : Type} [AddCommMonoid α] {l : List (Option α)} {v : α} :
    sumO l = some v ↔ ∃ vs : List α, l = vs.map some ∧ v = vs.sum := by
  induction l generalizing v with
  | nil =>
    constructor
    · intro h
      exact ⟨[], rfl, by simpa [sumO, eq_comm] using h⟩
    · rintro ⟨vs, h1, h2⟩
      have : vs = [] := by simpa using h1.symm
      subst this; simp [sumO, h2]
  | cons a l ih =>
    cases a with
    | none =>
      constructor
      · intro h; simp [sumO] at h
      · rintro ⟨vs, h1, -⟩
        cases vs <;> simp at h1
    | some x =>
      constructor
      · intro h
        cases hs : sumO l with
        | none => simp [sumO, hs] at h
        | some y =>
          obtain ⟨vs, h1, h2⟩ := ih.mp hs
          refine ⟨x :: vs, by simp [h1], ?_⟩
          simp [sumO, hs] at h
          rw [← h, h2]; simp
      · rintro ⟨vs, h1, h2⟩
        cases vs with
        | nil => simp at h1
        | cons y vs =>
          simp only [List.map_cons, List.cons.injEq, Option.some.injEq] at h1
          have := ih.mpr ⟨vs, h1.2, rfl⟩
          simp [sumO, this, h2, h1.1]

theorem sumO_append {α : Type} [AddCommMonoid α] {l m : List (Option α)} {v w : α}
    (h1 : sumO l = some v) (h2 : sumO m = some w) : sumO (l ++ m) = some (v + w) := by
  obtain ⟨vs, rfl, rfl⟩ := sumO_eq_some.mp h1
  obtain ⟨ws, rfl, rfl⟩ := sumO_eq_some.mp h2
  exact sumO_eq_some.mpr ⟨vs ++ ws, by simp, by simp⟩

theorem sumO_perm {α : Type} [AddCommMonoid α] {l m : List (Option α)} (h : l.Perm m) :
    sumO l = sumO m := by
  have key : ∀ {l m : List (Option α)}, l.Perm m → ∀ v, sumO l = some v → sumO m = some v := by
    intro l m h v hv
    obtain ⟨vs, rfl, rfl⟩ := sumO_eq_some.mp hv
    obtain ⟨ws, hw, rfl⟩ : ∃ ws, vs.Perm ws ∧ ws.map some = m := by
      refine ⟨m.filterMap id, ?_, ?_⟩
      · have := h.filterMap id
        simpa [List.filterMap_map] using this
      · have hall : ∀ x ∈ m, ∃ y, x = some y := by
          intro x hx
          have := h.mem_iff.mpr hx
          simp at this
          obtain ⟨y, -, rfl⟩ := this
          exact ⟨y, rfl⟩
        clear h hv
        induction m with
        | nil => rfl
        | cons a m ih =>
          obtain ⟨y, rfl⟩ := hall a (by simp)
          simp only [List.filterMap_cons, id, List.map_cons, List.cons.injEq, true_and]
          exact ih fun x hx => hall x (by simp [hx])
    exact sumO_eq_some.mpr ⟨ws, rfl, hw.sum_eq⟩
  cases hl : sumO l with
  | some v => exact (key h v hl).symm
  | none =>
    cases hm : sumO m with
    | none => rfl
    | some v => rw [key h.symm v hm] at hl; exact absurd hl (by simp)

theorem sumO_isSome {α : Type} [AddCommMonoid α] {l : List (Option α)} :
    (sumO l).isSome ↔ ∀ x ∈ l, x.isSome := by
  induction l with
  | nil => simp [sumO]
  | cons a l ih =>
    cases a with
    | none => simp [sumO]
    | some x =>
      simp only [List.mem_cons, forall_eq_or_imp, Option.isSome_some, true_and, ← ih]
      cases h : sumO l <;> simp [sumO, h]

/-- Properties of `np.sqrt` of a number with non-negative imaginary part. -/
theorem npSqrt_passive {σ : Bool} {z : ℂ} (h : 0 ≤ z.im) (hσ : σ = true) :
    0 ≤ (npSqrt σ z).re ∧ 0 ≤ (npSqrt σ z).im := by
  refine ⟨npSqrt_re_nonneg _ _, ?_⟩
  subst hσ
  unfold npSqrt
  split_ifs with h1
  · rw [Complex.mul_im]
    simp
  · simp_all
  · exact csqrt_im_nonneg h

theorem rlog_of_pos {x : ℝ} (h : 0 < x) : rlog x = some (Real.log x) := by simp [rlog, h]

theorem rsqrt_of_nonneg {x : ℝ} (h : 0 ≤ x) : rsqrt x = some (Real.sqrt x) := by
  simp [rsqrt, not_lt.mpr h]

theorem rsqrt_neg {x : ℝ} (h : x < 0) : rsqrt x = none := by simp [rsqrt, h]

end Verif.Disp
