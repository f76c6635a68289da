import Verif.Struct.PropsSlabs

/-! # Alignment of index profiles (C45) -/

namespace Verif.Struct
open Verif.Disp

/-- Depth of interface `i` below the first interface: the thickness of the first `i` layers between
the two outer media. -/
noncomputable def depth (rows : List Row) (i : ℕ) : ℝ := ((rows.tail.map Row.thick).take i).sum

/-- Thicknesses with both outer media zeroed. -/
noncomputable def inner (rows : List Row) : List ℝ :=
  ((rows.map Row.thick).set 0 0).set (rows.length - 1) 0

theorem offset_pos {rows : List Row} {i : ℤ} (h0 : 0 < i) (h1 : i < (rows.length : ℤ) - 1) :
    alignOffset rows i = .ok (sumTo (inner rows) (i + 1)) := by
  unfold alignOffset
  rw [if_pos (by omega), if_neg (by omega)]
  change Except.ok (if 0 ≤ i then sumTo (inner rows) (i + 1) else sumTo (inner rows) i) = _
  rw [if_pos (by omega)]

theorem offset_neg {rows : List Row} {i : ℤ} (h0 : i < 0) (h1 : -(rows.length : ℤ) ≤ i) :
    alignOffset rows i = .ok (sumTo (inner rows) i) := by
  unfold alignOffset
  rw [if_pos (by omega), if_neg (by omega)]
  change Except.ok (if 0 ≤ i then sumTo (inner rows) (i + 1) else sumTo (inner rows) i) = _
  rw [if_neg (by omega)]

theorem offset_zero (rows : List Row) : alignOffset rows 0 = .ok 0 := by
  unfold alignOffset
  rw [if_neg (by simp)]

theorem sum_inner {a : Row} {t : List Row} {i : ℕ} (hi : i < t.length) :
    ((inner (a :: t)).take (i + 1)).sum = depth (a :: t) i := by
  unfold inner depth
  have e2 : (a :: t).length - 1 = (t.length - 1) + 1 := by simp; omega
  rw [e2, List.map_cons, List.set_cons_zero, List.set_cons_succ, List.take_succ_cons,
    List.sum_cons, zero_add, List.tail_cons, List.take_set_of_le (by omega)]

theorem offset_nonneg {rows : List Row} {i : ℕ} (hi : i + 1 < rows.length) :
    alignOffset rows (i : ℤ) = .ok (depth rows i) := by
  cases rows with
  | nil => simp at hi
  | cons a t =>
    simp only [List.length_cons] at hi
    by_cases h0 : i = 0
    · subst h0
      simpa [depth] using offset_zero _
    · rw [offset_pos (by omega) (by simp; omega)]
      unfold sumTo
      rw [if_pos (by omega)]
      have e : ((i : ℤ) + 1).toNat = i + 1 := by omega
      rw [e, sum_inner (by omega)]

/-- C45: aligning at interface `i` shifts the profile by the thickness of the layers above it. -/
theorem C45_align (ext : Ext) (v : Vals) (s : Structure) {rows : List Row}
    (hs : (slabs ext v s none).1 = .ok (some rows)) {i : ℕ} (hi : i + 1 < rows.length) :
    riProfile ext v s (i : ℤ)
      = .ok ((ext.profile rows).1.map (· - depth rows i), (ext.profile rows).2) := by
  unfold riProfile
  rw [hs]
  change (if rows.length < 2 then _ else _) = _
  rw [if_neg (by omega)]
  rw [offset_nonneg hi]
  rfl

/-- C45: a negative index `-k` counts from the back: `-1` is the interface with the backing medium. -/
theorem C45_negative (ext : Ext) (v : Vals) (s : Structure) {rows : List Row}
    (hs : (slabs ext v s none).1 = .ok (some rows)) {k : ℕ} (hk : 0 < k) (hk' : k < rows.length) :
    riProfile ext v s (-(k : ℤ)) = riProfile ext v s ((rows.length - 1 - k : ℕ) : ℤ) := by
  rw [C45_align ext v s hs (by omega)]
  have hoff : alignOffset rows (-(k : ℤ)) = .ok (depth rows (rows.length - 1 - k)) := by
    cases rows with
    | nil => simp at hk'
    | cons a t =>
      simp only [List.length_cons] at hk'
      rw [offset_neg (by omega) (by simp; omega)]
      unfold sumTo
      rw [if_neg (by omega)]
      have e1 : (inner (a :: t)).length = t.length + 1 := by simp [inner]
      have e2 : t.length + 1 - (- -(k : ℤ)).toNat = (t.length - k) + 1 := by omega
      rw [e1, e2, sum_inner (by omega)]
      simp
  unfold riProfile
  rw [hs]
  change (if rows.length < 2 then _ else _) = _
  rw [if_neg (by omega), hoff]
  rfl

/-- C45, partial: indices beyond the last interface, or below `-n` for `n` slabs, raise RuntimeError.
Missing: `-n` itself, which is not the index of an interface, is accepted, see `C45_fails_range`. -/
theorem C45_range_partial (ext : Ext) (v : Vals) (s : Structure) {rows : List Row}
    (hs : (slabs ext v s none).1 = .ok (some rows)) (hn : 2 ≤ rows.length) {i : ℤ}
    (hi : (rows.length : ℤ) - 1 ≤ i ∨ i < -(rows.length : ℤ)) :
    riProfile ext v s i = .error .runtimeError := by
  have hoff : alignOffset rows i = .error .runtimeError := by
    unfold alignOffset
    rw [if_pos (by omega), if_pos (by omega)]
  unfold riProfile
  rw [hs]
  change (if rows.length < 2 then _ else _) = _
  rw [if_neg (by omega), hoff]
  rfl

/-- C45 fails: `n` slabs have `n - 1` interfaces, but the index `-n` is accepted and treated like 0. -/
theorem C45_fails_range (ext : Ext) (v : Vals) (s : Structure) {rows : List Row}
    (hs : (slabs ext v s none).1 = .ok (some rows)) (hn : 2 ≤ rows.length) :
    riProfile ext v s (-(rows.length : ℤ)) = riProfile ext v s 0 := by
  have hoff : alignOffset rows (-(rows.length : ℤ)) = alignOffset rows 0 := by
    rw [offset_neg (by omega) le_rfl, offset_zero]
    unfold sumTo
    rw [if_neg (by omega)]
    simp [inner]
  unfold riProfile
  rw [hs]
  change (if rows.length < 2 then _ else _) = (if rows.length < 2 then _ else _)
  rw [if_neg (by omega), if_neg (by omega), hoff]

/-- C45: a structure without two slabs raises ValueError. -/
theorem C45_needs_two (ext : Ext) (v : Vals) (s : Structure) (i : ℤ)
    (hs : (slabs ext v s none).1 = .ok none ∨
      ∃ rows, (slabs ext v s none).1 = .ok (some rows) ∧ rows.length < 2) :
    riProfile ext v s i = .error .valueError := by
  unfold riProfile
  rcases hs with hs | ⟨rows, hs, hl⟩
  · rw [hs]; rfl
  · rw [hs]
    change (if rows.length < 2 then _ else _) = _
    rw [if_pos hl]
    rfl

/-- Non-vacuity: the four slab structure of `PropsSlabs`. -/
example (ext : Ext) : ∃ rows, (slabs ext exVals (glassStruct none false) none).1 = .ok (some rows) ∧
    rows.length = 4 := by
  obtain ⟨rows, h1, h2⟩ := C39_rows ext exVals (glassStruct_plain none false) rfl
  refine ⟨rows, by rw [h1], ?_⟩
  have := congrArg List.length h2
  simpa using this

end Verif.Struct
