import Verif.Disp.Model
import Verif.Disp.Spec
import Mathlib.Tactic.Linarith
import Mathlib.Tactic.FieldSimp
import Mathlib.Tactic.Positivity

/-! # Lemmas about `np.interp` -/

namespace Verif.Disp

theorem interpFrom_seg {x0 y0 : ℝ} {pre : List (ℝ × ℝ)} {a b : ℝ × ℝ} {post : List (ℝ × ℝ)} {x : ℝ}
    (hs : ((x0, y0) :: (pre ++ a :: b :: post)).Pairwise fun p q => p.1 < q.1)
    (ha : a.1 ≤ x) (hb : x < b.1) :
    interpFrom x0 y0 (pre ++ a :: b :: post) x = (b.2 - a.2) / (b.1 - a.1) * (x - a.1) + a.2 := by
  induction pre generalizing x0 y0 with
  | nil =>
    obtain ⟨a1, a2⟩ := a
    obtain ⟨b1, b2⟩ := b
    simp only [List.nil_append, interpFrom]
    rw [if_neg (not_lt.mpr ha), if_pos hb]
  | cons c pre ih =>
    obtain ⟨c1, c2⟩ := c
    have hca : c1 < a.1 := by
      have := (List.pairwise_cons.mp (List.pairwise_cons.mp hs).2).1 a (by simp)
      simpa using this
    simp only [List.cons_append, interpFrom]
    rw [if_neg (not_lt.mpr (by linarith))]
    exact ih (List.pairwise_cons.mp hs).2

theorem interpFrom_last {x0 y0 : ℝ} {pre : List (ℝ × ℝ)} {a : ℝ × ℝ} {x : ℝ}
    (hs : ((x0, y0) :: (pre ++ [a])).Pairwise fun p q => p.1 < q.1) (ha : a.1 ≤ x) :
    interpFrom x0 y0 (pre ++ [a]) x = a.2 := by
  induction pre generalizing x0 y0 with
  | nil =>
    obtain ⟨a1, a2⟩ := a
    simp only [List.nil_append, interpFrom]
    rw [if_neg (not_lt.mpr ha)]
  | cons c pre ih =>
    obtain ⟨c1, c2⟩ := c
    have hca : c1 < a.1 := by
      have := (List.pairwise_cons.mp (List.pairwise_cons.mp hs).2).1 a (by simp)
      simpa using this
    simp only [List.cons_append, interpFrom]
    rw [if_neg (not_lt.mpr (by linarith))]
    exact ih (List.pairwise_cons.mp hs).2

theorem interp_first {a : ℝ × ℝ} {t : List (ℝ × ℝ)} {x : ℝ}
    (hs : (a :: t).Pairwise fun p q => p.1 < q.1) (h : x ≤ a.1) : interp (a :: t) x = .ok a.2 := by
  obtain ⟨a1, a2⟩ := a
  simp only [interp]
  split_ifs with h1
  · rfl
  · have hx : x = a1 := le_antisymm h (not_lt.mp h1)
    cases t with
    | nil => rfl
    | cons b t =>
      obtain ⟨b1, b2⟩ := b
      have : a1 < b1 := (List.pairwise_cons.mp hs).1 (b1, b2) (by simp)
      simp only [interpFrom]
      rw [if_pos (by linarith), hx]
      simp

theorem interp_seg {tab pre post : List (ℝ × ℝ)} {a b : ℝ × ℝ} {x : ℝ}
    (hs : tab.Pairwise fun p q => p.1 < q.1) (ht : tab = pre ++ a :: b :: post) (ha : a.1 ≤ x)
    (hb : x < b.1) : interp tab x = .ok (lerp a.1 a.2 b.1 b.2 x) := by
  have hab : a.1 < b.1 := lt_of_le_of_lt ha hb
  have e : (b.2 - a.2) / (b.1 - a.1) * (x - a.1) + a.2 = lerp a.1 a.2 b.1 b.2 x := by
    unfold lerp; ring
  subst ht
  cases pre with
  | nil =>
    obtain ⟨a1, a2⟩ := a
    obtain ⟨b1, b2⟩ := b
    simp only [List.nil_append, interp, interpFrom]
    rw [if_neg (not_lt.mpr ha), if_pos hb, ← e]
  | cons c pre =>
    obtain ⟨c1, c2⟩ := c
    have hca : c1 < a.1 := by
      have := (List.pairwise_cons.mp hs).1 a (by simp)
      simpa using this
    simp only [List.cons_append, interp]
    rw [if_neg (not_lt.mpr (by linarith)), interpFrom_seg hs ha hb, e]

theorem interp_last {tab pre : List (ℝ × ℝ)} {a : ℝ × ℝ} {x : ℝ}
    (hs : tab.Pairwise fun p q => p.1 < q.1) (ht : tab = pre ++ [a]) (ha : a.1 ≤ x) :
    interp tab x = .ok a.2 := by
  subst ht
  cases pre with
  | nil =>
    obtain ⟨a1, a2⟩ := a
    simp only [List.nil_append, interp, interpFrom]
    rw [if_neg (not_lt.mpr ha)]
  | cons c pre =>
    obtain ⟨c1, c2⟩ := c
    have hca : c1 < a.1 := by
      have := (List.pairwise_cons.mp hs).1 a (by simp)
      simpa using this
    simp only [List.cons_append, interp]
    rw [if_neg (not_lt.mpr (by linarith)), interpFrom_last hs ha]

theorem interp_seg_closed {tab pre post : List (ℝ × ℝ)} {a b : ℝ × ℝ} {x : ℝ}
    (hs : tab.Pairwise fun p q => p.1 < q.1) (ht : tab = pre ++ a :: b :: post) (ha : a.1 ≤ x)
    (hb : x ≤ b.1) : interp tab x = .ok (lerp a.1 a.2 b.1 b.2 x) := by
  rcases hb.lt_or_eq with hb | hb
  · exact interp_seg hs ht ha hb
  · have hlt : a.1 < b.1 := by
      rw [ht] at hs
      exact (List.pairwise_cons.mp (List.pairwise_append.mp hs).2.1).1 b (by simp)
    have hend : lerp a.1 a.2 b.1 b.2 x = b.2 := by
      have : b.1 - a.1 ≠ 0 := by linarith
      unfold lerp; rw [hb]; field_simp; ring
    rw [hend]
    cases post with
    | nil => exact interp_last hs (pre := pre ++ [a]) (by simp [ht]) hb.ge
    | cons c post =>
      have hbc : b.1 < c.1 := by
        rw [ht] at hs
        have h := (List.pairwise_cons.mp (List.pairwise_append.mp hs).2.1).2
        exact (List.pairwise_cons.mp h).1 c (by simp)
      rw [interp_seg hs (pre := pre ++ [a]) (a := b) (b := c) (post := post) (by simp [ht]) hb.ge
        (by linarith)]
      simp [lerp, hb]

/-- The interpolated value lies in every interval containing the tabulated values. -/
theorem interpFrom_mem {lo hi : ℝ} {x0 y0 : ℝ} {t : List (ℝ × ℝ)} {x : ℝ} (h0 : x0 ≤ x)
    (hy : lo ≤ y0 ∧ y0 ≤ hi) (ht : ∀ p ∈ t, lo ≤ p.2 ∧ p.2 ≤ hi) :
    lo ≤ interpFrom x0 y0 t x ∧ interpFrom x0 y0 t x ≤ hi := by
  induction t generalizing x0 y0 with
  | nil => exact hy
  | cons c t ih =>
    obtain ⟨c1, c2⟩ := c
    have hc : lo ≤ c2 ∧ c2 ≤ hi := ht (c1, c2) (by simp)
    simp only [interpFrom]
    split_ifs with h
    · have hpos : 0 < c1 - x0 := by linarith
      set s := (x - x0) / (c1 - x0) with hs
      have hs0 : 0 ≤ s := div_nonneg (by linarith) hpos.le
      have hs1 : s ≤ 1 := by rw [hs, div_le_one hpos]; linarith
      have e : (c2 - y0) / (c1 - x0) * (x - x0) + y0 = (1 - s) * y0 + s * c2 := by
        rw [hs]; ring
      rw [e]
      constructor
      · nlinarith [mul_nonneg hs0 (sub_nonneg.mpr hc.1),
          mul_nonneg (sub_nonneg.mpr hs1) (sub_nonneg.mpr hy.1)]
      · nlinarith [mul_nonneg hs0 (sub_nonneg.mpr hc.2),
          mul_nonneg (sub_nonneg.mpr hs1) (sub_nonneg.mpr hy.2)]
    · exact ih (not_lt.mp h) hc fun p hp => ht p (by simp [hp])

theorem interp_mem {lo hi : ℝ} {tab : List (ℝ × ℝ)} (hne : tab ≠ []) (x : ℝ)
    (ht : ∀ p ∈ tab, lo ≤ p.2 ∧ p.2 ≤ hi) : ∃ y, interp tab x = .ok y ∧ lo ≤ y ∧ y ≤ hi := by
  cases tab with
  | nil => exact absurd rfl hne
  | cons a t =>
    obtain ⟨a1, a2⟩ := a
    have ha : lo ≤ a2 ∧ a2 ≤ hi := ht (a1, a2) (by simp)
    simp only [interp]
    split_ifs with h
    · exact ⟨_, rfl, ha⟩
    · exact ⟨_, rfl, interpFrom_mem (not_lt.mp h) ha fun p hp => ht p (by simp [hp])⟩

/-- Lower bounds only. -/
theorem interp_ge {lo : ℝ} {tab : List (ℝ × ℝ)} (hne : tab ≠ []) (x : ℝ)
    (ht : ∀ p ∈ tab, lo ≤ p.2) : ∃ y, interp tab x = .ok y ∧ lo ≤ y := by
  obtain ⟨hi, hhi⟩ : ∃ hi : ℝ, ∀ p ∈ tab, p.2 ≤ hi := by
    induction tab with
    | nil => exact ⟨0, by simp⟩
    | cons a t ih =>
      by_cases ht' : t = []
      · exact ⟨a.2, by simp [ht']⟩
      · obtain ⟨hi, h⟩ := ih ht' fun p hp => ht p (by simp [hp])
        refine ⟨max a.2 hi, ?_⟩
        intro p hp
        rcases List.mem_cons.mp hp with rfl | hp
        · exact le_max_left _ _
        · exact (h p hp).trans (le_max_right _ _)
  obtain ⟨y, h1, h2, -⟩ := interp_mem hne x fun p hp => ⟨ht p hp, hhi p hp⟩
  exact ⟨y, h1, h2⟩

end Verif.Disp
