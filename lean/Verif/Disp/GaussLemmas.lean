import Verif.Disp.InterpLemmas
import Verif.Disp.OscLemmas
import Mathlib.RingTheory.RootsOfUnity.Complex
import Mathlib.Algebra.Field.GeomSum
import Mathlib.Analysis.SpecialFunctions.Trigonometric.Deriv

/-! # Lemmas about the grid and the Hilbert transform of `Gauss.epsilon` -/

namespace Verif.Disp

/-! ### The grid -/

theorem ePad_mono {i j : ℕ} (h : i < j) : ePad i < ePad j := by
  unfold ePad
  have : (i : ℝ) < j := by exact_mod_cast h
  have := mul_lt_mul_of_pos_left this (by norm_num : (0 : ℝ) < 40)
  have := div_lt_div_of_pos_right this (by norm_num : (0 : ℝ) < 2047)
  linarith

theorem ePad_flip {j : ℕ} (h : j < 2048) : ePad (2047 - j) = -ePad j := by
  unfold ePad
  rw [Nat.cast_sub (by omega)]
  push_cast
  ring

theorem ePad_zero : ePad 0 = -20 := by norm_num [ePad]
theorem ePad_last : ePad 2047 = 20 := by norm_num [ePad]

noncomputable def gridTab (y : ℕ → ℝ) : List (ℝ × ℝ) := (List.range gaussN).map fun j => (ePad j, y j)

theorem gridTab_sorted (y : ℕ → ℝ) : (gridTab y).Pairwise fun p q => p.1 < q.1 := by
  unfold gridTab
  rw [List.pairwise_map]
  exact List.pairwise_lt_range.imp fun h => ePad_mono h

theorem range_split {j n : ℕ} (h : j + 1 < n) :
    ∃ pre post, List.range n = pre ++ j :: (j + 1) :: post := by
  have hl : (List.range n).length = n := List.length_range
  refine ⟨(List.range n).take j, (List.range n).drop (j + 2), ?_⟩
  conv_lhs => rw [← List.take_append_drop j (List.range n)]
  rw [List.drop_eq_getElem_cons (by omega), List.drop_eq_getElem_cons (by omega)]
  simp

theorem gridInterp_seg (y : ℕ → ℝ) {j : ℕ} (hj : j + 1 < 2048) {e : ℝ} (h1 : ePad j ≤ e)
    (h2 : e ≤ ePad (j + 1)) :
    gridInterp y e = some (lerp (ePad j) (y j) (ePad (j + 1)) (y (j + 1)) e) := by
  obtain ⟨pre, post, hr⟩ := range_split (n := gaussN) hj
  have : interp (gridTab y) e = .ok _ := interp_seg_closed (gridTab_sorted y)
    (pre := pre.map fun j => (ePad j, y j)) (post := post.map fun j => (ePad j, y j))
    (a := (ePad j, y j)) (b := (ePad (j + 1), y (j + 1))) (by simp [gridTab, hr]) h1 h2
  unfold gridInterp
  change (interp (gridTab y) e).toOption = _
  rw [this]; rfl

theorem gridInterp_low (y : ℕ → ℝ) {e : ℝ} (h : e ≤ -20) : gridInterp y e = some (y 0) := by
  have hc : gridTab y = (ePad 0, y 0) :: ((List.range' 1 2047).map fun j => (ePad j, y j)) := by
    unfold gridTab gaussN
    rw [List.range_eq_range']
    rfl
  have hs := gridTab_sorted y
  have : interp (gridTab y) e = .ok (y 0) := by
    rw [hc] at hs ⊢
    exact interp_first hs (by simpa [ePad_zero] using h)
  unfold gridInterp
  change (interp (gridTab y) e).toOption = _
  rw [this]; rfl

theorem gridInterp_high (y : ℕ → ℝ) {e : ℝ} (h : 20 ≤ e) : gridInterp y e = some (y 2047) := by
  have hc : gridTab y = ((List.range 2047).map fun j => (ePad j, y j)) ++ [(ePad 2047, y 2047)] := by
    unfold gridTab gaussN
    rw [show (2048 : ℕ) = 2047 + 1 by norm_num, List.range_succ, List.map_append]
    rfl
  have : interp (gridTab y) e = .ok (y 2047) :=
    interp_last (gridTab_sorted y) hc (by simpa [ePad_last] using h)
  unfold gridInterp
  change (interp (gridTab y) e).toOption = _
  rw [this]; rfl

/-- Every energy is below the grid, above it, or in one of its intervals. -/
theorem grid_cases (e : ℝ) :
    e ≤ -20 ∨ 20 ≤ e ∨ ∃ j, j + 1 < 2048 ∧ ePad j ≤ e ∧ e ≤ ePad (j + 1) := by
  by_cases h1 : e ≤ -20
  · exact .inl h1
  by_cases h2 : 20 ≤ e
  · exact .inr (.inl h2)
  right; right
  push Not at h1 h2
  set t := (e + 20) * 2047 / 40 with ht
  have ht0 : 0 ≤ t := by
    have : 0 ≤ e + 20 := by linarith
    positivity
  have ht1 : t < 2047 := by rw [ht]; linarith
  refine ⟨⌊t⌋₊, ?_, ?_, ?_⟩
  · have : ⌊t⌋₊ < 2047 := by
      rw [Nat.floor_lt ht0]; exact_mod_cast ht1
    omega
  · have := Nat.floor_le ht0
    unfold ePad
    linarith
  · have := (Nat.lt_floor_add_one t).le
    unfold ePad
    push_cast
    linarith

/-! ### The Hilbert transform -/

theorem hilbertKernel_neg (k : ℤ) : hilbertKernel (-k) = -hilbertKernel k := by
  unfold hilbertKernel
  rw [← mul_neg, ← Finset.sum_neg_distrib]
  congr 1
  apply Finset.sum_congr rfl
  intro j _
  rw [← Real.sin_neg]
  congr 1
  push_cast
  ring

theorem sum_sin_period {j : ℕ} (h1 : 1 ≤ j) (h2 : j < 1024) (m : ℤ) :
    ∑ n ∈ Finset.range 2048, Real.sin (2 * Real.pi * j * (((n : ℤ) - m : ℤ)) / 2048) = 0 := by
  set ζ : ℂ := Complex.exp (2 * Real.pi * Complex.I / (2048 : ℕ)) with hζ
  have hprim : IsPrimitiveRoot ζ 2048 := Complex.isPrimitiveRoot_exp 2048 (by norm_num)
  have hne : ζ ^ j ≠ 1 := hprim.pow_ne_one_of_pos_of_lt (by omega) (by omega)
  have hgeo : ∑ n ∈ Finset.range 2048, (ζ ^ j) ^ n = 0 := by
    rw [geom_sum_eq hne, ← pow_mul, mul_comm, pow_mul, hprim.pow_eq_one, one_pow, sub_self,
      zero_div]
  have hexp : ∀ n : ℕ, Real.sin (2 * Real.pi * j * (((n : ℤ) - m : ℤ)) / 2048)
      = ((ζ ^ j) ^ n * Complex.exp (-(2 * Real.pi * j * m / 2048 : ℝ) * Complex.I)).im := by
    intro n
    rw [← pow_mul, hζ, ← Complex.exp_nat_mul, ← Complex.exp_add]
    have : (((j * n : ℕ) : ℂ) * (2 * Real.pi * Complex.I / (2048 : ℕ))
        + -(2 * Real.pi * j * m / 2048 : ℝ) * Complex.I)
        = ((2 * Real.pi * j * (((n : ℤ) - m : ℤ)) / 2048 : ℝ) : ℂ) * Complex.I := by
      push_cast; ring
    rw [this, Complex.exp_ofReal_mul_I_im]
  rw [Finset.sum_congr rfl fun n _ => hexp n]
  rw [← Complex.im_sum, ← Finset.sum_mul, hgeo]
  simp

theorem sum_kernel (m : ℤ) : ∑ n ∈ Finset.range gaussN, hilbertKernel ((n : ℤ) - m) = 0 := by
  unfold hilbertKernel
  rw [← Finset.mul_sum, Finset.sum_comm]
  have : ∑ j ∈ Finset.Ico 1 (gaussN / 2), ∑ n ∈ Finset.range gaussN,
      Real.sin (2 * Real.pi * j * (((n : ℤ) - m : ℤ)) / gaussN) = 0 := by
    apply Finset.sum_eq_zero
    intro j hj
    rw [Finset.mem_Ico] at hj
    exact_mod_cast sum_sin_period hj.1 (by simpa [gaussN] using hj.2) m
  rw [this, mul_zero]

theorem sum_hilbert (x : ℕ → ℝ) : ∑ n ∈ Finset.range gaussN, hilbert x n = 0 := by
  unfold hilbert
  rw [Finset.sum_comm]
  apply Finset.sum_eq_zero
  intro m _
  rw [← Finset.mul_sum, sum_kernel, mul_zero]

/-- The Hilbert transform of an odd function is even. -/
theorem hilbert_flip {x : ℕ → ℝ} (hx : ∀ j < 2048, x (2047 - j) = -x j) {n : ℕ} (hn : n < 2048) :
    hilbert x (2047 - n) = hilbert x n := by
  unfold hilbert
  rw [← Finset.sum_range_reflect]
  apply Finset.sum_congr rfl
  intro m hm
  rw [Finset.mem_range] at hm
  have hm' : m < 2048 := hm
  have e1 : gaussN - 1 - m = 2047 - m := rfl
  rw [e1, hx m hm']
  have e2 : ((2047 - n : ℕ) : ℤ) - ((2047 - m : ℕ) : ℤ) = -((n : ℤ) - m) := by omega
  rw [e2, hilbertKernel_neg]
  ring

/-! ### Sums over oscillators -/

theorem gaussGrid_eq {o : ℝ × ℝ × ℝ} {g : ℕ → ℝ} (h : gaussGrid o = some g) {j : ℕ}
    (hj : j < 2048) : gaussE2 o (ePad j) = some (g j) := by
  unfold gaussGrid at h
  split_ifs at h with hc
  simp only [Option.some.injEq] at h
  subst h
  obtain ⟨v, hv⟩ := Option.isSome_iff_exists.mp (hc j hj)
  simp [hv]

theorem gaussSum_induct {F : (ℕ → ℝ) → ℕ → ℝ} {osc : List (ℝ × ℝ × ℝ)} {y : ℕ → ℝ}
    (h : gaussSum F osc = some y) (P : (ℕ → ℝ) → Prop) (h0 : P fun _ => 0)
    (hadd : ∀ u v, P u → P v → P fun j => u j + v j)
    (hosc : ∀ o ∈ osc, ∀ g, gaussGrid o = some g → P (F g)) : P y := by
  induction osc generalizing y with
  | nil =>
    simp only [gaussSum, Option.some.injEq] at h
    subst h; exact h0
  | cons o osc ih =>
    simp only [gaussSum, Option.bind_eq_bind, Option.bind_eq_some_iff] at h
    obtain ⟨g, hg, r, hr, hy⟩ := h
    simp only [Option.pure_def, Option.some.injEq] at hy
    subst hy
    exact hadd _ _ (hosc o (by simp) g hg)
      (ih hr fun o ho g hg => hosc o (by simp [ho]) g hg)

theorem gaussSum_isSome {F : (ℕ → ℝ) → ℕ → ℝ} {osc : List (ℝ × ℝ × ℝ)}
    (h : ∀ o ∈ osc, (gaussGrid o).isSome) : ∃ y, gaussSum F osc = some y := by
  induction osc with
  | nil => exact ⟨_, rfl⟩
  | cons o osc ih =>
    obtain ⟨r, hr⟩ := ih fun o ho => h o (by simp [ho])
    obtain ⟨g, hg⟩ := Option.isSome_iff_exists.mp (h o (by simp))
    exact ⟨_, by simp [gaussSum, hg, hr]; rfl⟩

theorem gaussSum_append {F : (ℕ → ℝ) → ℕ → ℝ} {o1 o2 : List (ℝ × ℝ × ℝ)} {y1 y2 : ℕ → ℝ}
    (h1 : gaussSum F o1 = some y1) (h2 : gaussSum F o2 = some y2) :
    gaussSum F (o1 ++ o2) = some fun j => y1 j + y2 j := by
  induction o1 generalizing y1 with
  | nil =>
    simp only [gaussSum, Option.some.injEq] at h1
    subst h1; simp [h2]
  | cons o o1 ih =>
    simp only [gaussSum, Option.bind_eq_bind, Option.bind_eq_some_iff] at h1
    obtain ⟨g, hg, r, hr, hy⟩ := h1
    simp only [Option.pure_def, Option.some.injEq] at hy
    subst hy
    simp only [List.cons_append, gaussSum, hg, ih hr, Option.pure_def, Option.bind_eq_bind,
      Option.bind_some, Option.some.injEq]
    funext j; ring

theorem gaussGrid_of_broad {o : ℝ × ℝ × ℝ} (h : o.2.1 ≠ 0) : (gaussGrid o).isSome := by
  have hs : o.2.1 / 2 / Real.sqrt (Real.log 2) ≠ 0 := by
    have : 0 < Real.sqrt (Real.log 2) := Real.sqrt_pos.mpr (Real.log_pos (by norm_num))
    exact div_ne_zero (div_ne_zero h (by norm_num)) this.ne'
  unfold gaussGrid
  rw [if_pos]
  · rfl
  · intro j _
    simp [gaussE2, gaussExp, hs]

/-- `e2` of one oscillator is odd. -/
theorem gaussE2_neg {o : ℝ × ℝ × ℝ} {x v : ℝ} (h : gaussE2 o x = some v) :
    gaussE2 o (-x) = some (-v) := by
  unfold gaussE2 at *
  set s := o.2.1 / 2 / Real.sqrt (Real.log 2)
  have hsym : ∀ y, gaussExp (-y) s = gaussExp y s := by
    intro y
    unfold gaussExp
    split_ifs <;> simp_all [neg_div]
  have e1 : gaussExp (-x - o.2.2) s = gaussExp (x + o.2.2) s := by
    rw [← hsym]; congr 1; ring
  have e2 : gaussExp (-x + o.2.2) s = gaussExp (x - o.2.2) s := by
    rw [← hsym]; congr 1; ring
  change (do
    let a ← gaussExp (-x - o.2.2) s
    let b ← gaussExp (-x + o.2.2) s
    pure (o.1 * a - o.1 * b)) = _
  rw [e1, e2]
  cases h1 : gaussExp (x - o.2.2) s with
  | none => simp [h1] at h
  | some a =>
    cases h2 : gaussExp (x + o.2.2) s with
    | none => simp [h1, h2] at h
    | some b =>
      simp [h1, h2] at h
      simp [← h]

/-- `e2` of one oscillator is non-negative at non-negative energies. -/
theorem gaussE2_nonneg {o : ℝ × ℝ × ℝ} (hA : 0 ≤ o.1) (hE : 0 ≤ o.2.2) {x : ℝ} (hx : 0 ≤ x)
    {v : ℝ} (h : gaussE2 o x = some v) : 0 ≤ v := by
  unfold gaussE2 at h
  set s := o.2.1 / 2 / Real.sqrt (Real.log 2)
  cases h1 : gaussExp (x - o.2.2) s with
  | none => simp [h1] at h
  | some a =>
    cases h2 : gaussExp (x + o.2.2) s with
    | none => simp [h1, h2] at h
    | some b =>
      simp [h1, h2] at h
      have hab : b ≤ a := by
        unfold gaussExp at h1 h2
        split_ifs at h1 h2 with h3
        · simp at h1 h2; linarith
        · simp only [Option.some.injEq] at h1 h2
          rw [← h1, ← h2]
          apply Real.exp_le_exp.mpr
          rw [neg_le_neg_iff, div_pow _ s, div_pow _ s]
          apply div_le_div_of_nonneg_right _ (sq_nonneg s)
          nlinarith [mul_nonneg hx hE]
      rw [← h]
      have := mul_le_mul_of_nonneg_left hab hA
      linarith

end Verif.Disp
