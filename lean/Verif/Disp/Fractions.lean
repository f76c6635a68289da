import Verif.Disp.OscLemmas
import Mathlib.Algebra.Polynomial.Roots
import Mathlib.Algebra.Polynomial.BigOperators
import Mathlib.Algebra.BigOperators.Field
import Mathlib.Algebra.Polynomial.Eval.Degree
import Mathlib.Tactic.ComputeDegree
import Mathlib.Tactic.Ring
import Mathlib.Tactic.LinearCombination

/-! # Sums of fractions are determined by finitely many of their values -/

namespace Verif.Disp

open Polynomial

/-- A polynomial plus fractions with polynomial numerators that vanishes at many points: each numerator vanishes at
the roots that belong to its denominator only, and the polynomial is zero if the numerators are. -/
theorem fractions_zero {K ι : Type} [Field K] [DecidableEq ι] {s : Finset ι} {q c : ι → K[X]} {P : K[X]} {a d : ℕ}
    (hq : ∀ i ∈ s, (q i).natDegree ≤ d) (hc : ∀ i ∈ s, (c i).natDegree ≤ d) (hP : P.natDegree ≤ a) {Z : Finset K}
    (hZ : a + d * s.card < Z.card) (hne : ∀ x ∈ Z, ∀ i ∈ s, (q i).eval x ≠ 0)
    (h : ∀ x ∈ Z, P.eval x + ∑ i ∈ s, (c i).eval x / (q i).eval x = 0) :
    (∀ i ∈ s, ∀ r, (q i).eval r = 0 → (∀ j ∈ s, j ≠ i → (q j).eval r ≠ 0) → (c i).eval r = 0) ∧
    ((∀ i ∈ s, c i = 0) → P = 0) := by
  set F : K[X] := P * ∏ i ∈ s, q i + ∑ i ∈ s, c i * ∏ j ∈ s.erase i, q j with hF
  have hprod : ∀ t : Finset ι, t ⊆ s → (∏ i ∈ t, q i).natDegree ≤ d * t.card := by
    intro t ht
    refine (natDegree_prod_le t q).trans ?_
    rw [mul_comm]
    exact Finset.sum_le_card_nsmul t _ d fun i hi => hq i (ht hi)
  have hdeg : F.natDegree ≤ a + d * s.card := by
    refine natDegree_add_le_of_degree_le ?_ ?_
    · exact natDegree_mul_le_of_le hP (hprod s subset_rfl)
    · refine natDegree_sum_le_of_forall_le _ _ fun i hi => ?_
      have h1 := natDegree_mul_le_of_le (hc i hi) (hprod (s.erase i) (Finset.erase_subset _ _))
      rw [Finset.card_erase_of_mem hi] at h1
      have h2 : 1 ≤ s.card := Finset.card_pos.mpr ⟨i, hi⟩
      have h3 : d + d * (s.card - 1) = d * s.card := by
        obtain ⟨n, hn⟩ := Nat.exists_eq_add_of_le h2
        rw [hn]; simp; ring
      omega
  have heval : ∀ x ∈ Z, F.eval x = 0 := by
    intro x hx
    have h1 : F.eval x = (P.eval x + ∑ i ∈ s, (c i).eval x / (q i).eval x) * ∏ i ∈ s, (q i).eval x := by
      rw [hF, eval_add, eval_mul, eval_prod, eval_finsetSum, add_mul, Finset.sum_mul]
      congr 1
      refine Finset.sum_congr rfl fun i hi => ?_
      rw [eval_mul, eval_prod, ← Finset.mul_prod_erase s _ hi]
      have := hne x hx i hi
      field_simp
    rw [h1, h x hx, zero_mul]
  have hF0 : F = 0 := eq_zero_of_natDegree_lt_card_of_eval_eq_zero' F Z heval (lt_of_le_of_lt hdeg hZ)
  refine ⟨fun i hi r hr hj => ?_, fun h0 => ?_⟩
  · have h1 : F.eval r = (c i).eval r * ∏ j ∈ s.erase i, (q j).eval r := by
      rw [hF, eval_add, eval_mul, eval_prod, eval_finsetSum, Finset.prod_eq_zero hi hr, mul_zero, zero_add,
        Finset.sum_eq_single i]
      · rw [eval_mul, eval_prod]
      · intro j _ hji
        rw [eval_mul, eval_prod, Finset.prod_eq_zero (Finset.mem_erase.mpr ⟨hji.symm, hi⟩) hr, mul_zero]
      · exact fun h => absurd hi h
    rw [hF0, eval_zero] at h1
    rcases mul_eq_zero.mp h1.symm with h2 | h2
    · exact h2
    · obtain ⟨j, hj1, hj2⟩ := Finset.prod_eq_zero_iff.mp h2
      exact absurd hj2 (hj j (Finset.mem_of_mem_erase hj1) (Finset.ne_of_mem_erase hj1))
  · have hsum : ∑ i ∈ s, c i * ∏ j ∈ s.erase i, q j = 0 :=
      Finset.sum_eq_zero fun i hi => by rw [h0 i hi, zero_mul]
    rw [hF, hsum, add_zero] at hF0
    rcases mul_eq_zero.mp hF0 with h1 | h1
    · exact h1
    · obtain ⟨j, hj1, hj2⟩ := Finset.prod_eq_zero_iff.mp h1
      obtain ⟨x, hx⟩ := Finset.card_pos.mp (lt_of_le_of_lt (Nat.zero_le _) hZ)
      exact absurd (by rw [hj2, eval_zero]) (hne x hx j hj1)

end Verif.Disp
