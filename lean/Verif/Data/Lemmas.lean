import Verif.Data.Model
import Verif.RModel.Lemmas

/-! # Lemmas about datasets -/

namespace Verif.Data
open Verif.RModel

theorem pick_eq {α : Type} (m : List Bool) (l : List α) :
    pick m l = ((m.zip l).filter (·.1)).map (·.2) := by
  induction m generalizing l with
  | nil => simp [pick]
  | cons b m ih => cases b <;> cases l <;> simp [pick, ih]

theorem pick_map {α β : Type} (f : α → β) (m : List Bool) (l : List α) :
    pick m (l.map f) = (pick m l).map f := by
  induction m generalizing l with
  | nil => simp [pick]
  | cons b m ih => cases b <;> cases l <;> simp [pick, ih]

theorem pick_length {α : Type} (m : List Bool) (l : List α) (h : m.length = l.length) :
    (pick m l).length = m.count true := by
  induction m generalizing l with
  | nil => simp [pick]
  | cons b m ih =>
    cases l with
    | nil => simp at h
    | cons a l =>
      simp only [List.length_cons, add_left_inj] at h
      cases b <;> simp [pick, ih l h]

theorem pick_ones {α β : Type} (l : List α) (l' : List β) (h : l.length = l'.length) :
    pick (l.map fun _ => true) l' = l' := by
  induction l generalizing l' with
  | nil => cases l' <;> simp_all [pick]
  | cons a l ih =>
    cases l' with
    | nil => simp at h
    | cons b l' =>
      rw [List.map_cons, pick, ih l' (by simpa using h)]

theorem pick_maskEq {α : Type} (f : α → ℝ) (l : List α) (u : ℝ) :
    pick (maskEq (l.map f) u) l = open Classical in l.filter fun x => f x = u := by
  classical
  induction l with
  | nil => simp [maskEq, pick]
  | cons a l ih =>
    have hm : maskEq ((a :: l).map f) u = decide (f a = u) :: maskEq (l.map f) u := by
      simp [maskEq]
    rw [hm]
    by_cases h : f a = u
    · simp only [h, decide_true, pick, List.filter_cons, if_true, ih]
    · simp only [h, decide_false, pick, List.filter_cons, Bool.false_eq_true, if_false, ih]

/-! ### Heaps -/

theorem newCols_ref (h : Heap) (t : Cols) :
    (newCols h t).1 = (h.next, h.next + 1, h.next + 2, h.next + 3) := rfl

theorem newCols_arr (h : Heap) (t : Cols) (r : ℕ) : (newCols h t).2.arr r =
    if r = h.next + 3 then t.dlt else if r = h.next + 2 then t.psi else if r = h.next + 1 then t.aoi
      else if r = h.next then t.wav else h.arr r := rfl

theorem newCols_old (h : Heap) (t : Cols) {r : ℕ} (hr : r < h.next) :
    (newCols h t).2.arr r = h.arr r := by
  rw [newCols_arr, if_neg (by omega), if_neg (by omega), if_neg (by omega), if_neg (by omega)]

theorem newCols_new (h : Heap) (t : Cols) :
    (newCols h t).2.arr h.next = t.wav ∧ (newCols h t).2.arr (h.next + 1) = t.aoi ∧
    (newCols h t).2.arr (h.next + 2) = t.psi ∧ (newCols h t).2.arr (h.next + 3) = t.dlt := by
  simp [newCols_arr]

theorem newCols_next (h : Heap) (t : Cols) : (newCols h t).2.next = h.next + 4 := rfl

end Verif.Data
