import Verif.Parse.Model
import Verif.Parse.LemmasEP4

/-!
# Lemmas on reading numbers from lines
-/

namespace Verif.Parse
open Verif.Data (Line Codec)

/-- Field `i` of the line is the number `x`. -/
def FieldIs (c : Codec) (fs : List Line) (i : ℕ) (x : ℝ) : Prop := ∃ f, fs[i]? = some f ∧ c.pf f = some x

theorem num_ok (c : Codec) (fs : List Line) (i : ℕ) (x : ℝ) : num c fs i = .ok x ↔ FieldIs c fs i x := by
  unfold num FieldIs
  cases fs[i]? with
  | none => simp
  | some f =>
    simp only [Option.some.injEq, exists_eq_left']
    cases c.pf f <;> simp

theorem nums_ok (c : Codec) (fs : List Line) : ∀ (is : List ℕ) (xs : List ℝ),
    List.Forall₂ (FieldIs c fs) is xs → nums c fs is = .ok xs
  | [], _, h => by cases h; rfl
  | i :: is, _, h => by
    cases h with
    | cons h1 h2 =>
      rw [nums, (num_ok c fs i _).2 h1, nums_ok c fs is _ h2]
      rfl

theorem getElem?_everyNth {α : Type} (m : ℕ) (hm : 0 < m) (l : List α) (j : ℕ) :
    (everyNth m l)[j]? = l[m * j]? := by
  have key : ∀ (n : ℕ) (l : List α), l.length = n → ∀ k j, k < m →
      ((List.range' 0 n).filterMap fun i => if (i + k) % m = 0 then l[i]? else none)[j]? =
        l[m * j + (m - k) % m]? := by
    intro n
    induction n with
    | zero =>
      intro l hl k j _
      simp [List.length_eq_zero_iff.1 hl]
    | succ n ih =>
      intro l hl k j hk
      obtain ⟨a, t, rfl⟩ := List.exists_cons_of_length_eq_add_one hl
      have hstep : ((List.range' 1 n).filterMap fun i => if (i + k) % m = 0 then (a :: t)[i]? else none) =
          (List.range' 0 n).filterMap fun i => if (i + (k + 1) % m) % m = 0 then t[i]? else none := by
        rw [List.range'_eq_map_range, List.range'_eq_map_range, List.filterMap_map, List.filterMap_map]
        congr 1
        funext i
        simp only [Function.comp, Nat.zero_add, Nat.add_comm 1 i, List.getElem?_cons_succ]
        rw [Nat.add_mod_mod, Nat.add_assoc, Nat.add_comm 1 k]
      rw [List.range'_succ, List.filterMap_cons]
      have hk1 : (k + 1) % m < m := Nat.mod_lt _ hm
      have hih := ih t (by simpa using hl) ((k + 1) % m)
      by_cases h0 : k = 0
      · subst h0
        simp only [Nat.zero_add, Nat.add_zero, Nat.zero_mod, if_true, List.getElem?_cons_zero, Nat.sub_zero,
          Nat.mod_self]
        have hs := hstep
        simp only [Nat.add_zero] at hs
        rw [hs]
        cases j with
        | zero => simp
        | succ j =>
          rw [List.getElem?_cons_succ, hih j hk1]
          rcases Nat.lt_or_ge 1 m with h1 | h1
          · rw [Nat.mod_eq_of_lt (by omega : 0 + 1 < m), Nat.mod_eq_of_lt (by omega : m - (0 + 1) < m)]
            have : m * (j + 1) = m * j + (m - (0 + 1)) + 1 := by rw [Nat.mul_succ]; omega
            rw [this, List.getElem?_cons_succ]
          · have : m = 1 := by omega
            subst this
            simp
      · have hkm : (0 + k) % m ≠ 0 := by rw [Nat.zero_add, Nat.mod_eq_of_lt hk]; exact h0
        rw [if_neg hkm]
        simp only [Nat.zero_add]
        rw [hstep, hih j hk1]
        rcases Nat.lt_or_ge (k + 1) m with h1 | h1
        · rw [Nat.mod_eq_of_lt h1, Nat.mod_eq_of_lt (by omega : m - (k + 1) < m),
            Nat.mod_eq_of_lt (by omega : m - k < m)]
          have : m * j + (m - k) = m * j + (m - (k + 1)) + 1 := by omega
          rw [this, List.getElem?_cons_succ]
        · have : k + 1 = m := by omega
          rw [this, Nat.mod_self, Nat.sub_zero, Nat.mod_self, Nat.mod_eq_of_lt (by omega : m - k < m)]
          have : m - k = 1 := by omega
          rw [this, Nat.add_zero, List.getElem?_cons_succ]
  have := key l.length l rfl 0 j hm
  unfold everyNth
  rw [List.range_eq_range']
  simpa using this

end Verif.Parse
