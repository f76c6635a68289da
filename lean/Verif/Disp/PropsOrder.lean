import Verif.Disp.NpInterp
import Verif.Disp.InterpLemmas
import Verif.Disp.PropsMaterials

/-! # C152: the order of the rows of a table -/

namespace Verif.Disp

variable {tab : List (ℝ × ℝ)} {key : ℝ}

theorem getD_lt {α : Type*} {l : List α} {d : α} {i : ℕ} (h : i < l.length) : l.getD i d = l[i] := by
  rw [List.getD_eq_getElem?_getD, List.getElem?_eq_getElem h, Option.getD_some]

/-! ### The search finds an interval, whatever the order -/

theorem bisect_spec (tab : List (ℝ × ℝ)) (key : ℝ) (imin imax : ℕ) (h : imin ≤ imax)
    (h0 : imin = 0 ∨ knotAt tab (imin - 1) ≤ key ∨ (imin < imax ∧ knotAt tab imin ≤ key))
    (h1 : imax = tab.length ∨ key < knotAt tab imax) :
    (bisect tab key imin imax = 0 ∨ knotAt tab (bisect tab key imin imax - 1) ≤ key) ∧
      (bisect tab key imin imax = tab.length ∨ key < knotAt tab (bisect tab key imin imax)) ∧
      bisect tab key imin imax ≤ imax := by
  induction imin, imax using bisect.induct tab key with
  | case1 imin imax hlt hle ih =>
    rw [bisect, if_pos hlt, if_pos hle]
    exact ih (by omega) (.inr (.inl (by simpa using hle))) h1
  | case2 imin imax hlt hle ih =>
    rw [bisect, if_pos hlt, if_neg hle]
    obtain ⟨a, b, c⟩ := ih (by omega) (by
      rcases h0 with h0 | h0 | ⟨-, h0⟩
      · exact .inl h0
      · exact .inr (.inl h0)
      · refine .inr (.inr ⟨?_, h0⟩)
        by_contra hc
        rw [show imin + (imax - imin) / 2 = imin by omega] at hle
        exact hle h0) (.inr (not_le.mp hle))
    exact ⟨a, b, by omega⟩
  | case3 imin imax hlt =>
    rw [bisect, if_neg hlt]
    have : imin = imax := by omega
    subst this
    exact ⟨by rcases h0 with h0 | h0 | ⟨h0, -⟩
              · exact .inl h0
              · exact .inr h0
              · omega, h1, h⟩

theorem scan_spec (tab : List (ℝ × ℝ)) (key : ℝ) (i : ℕ) (hi : i ≤ tab.length) (h1 : 1 ≤ i)
    (h : knotAt tab (i - 1) ≤ key) :
    1 ≤ scan tab key i ∧ scan tab key i ≤ tab.length ∧ knotAt tab (scan tab key i - 1) ≤ key ∧
      (scan tab key i = tab.length ∨ key < knotAt tab (scan tab key i)) := by
  induction i using scan.induct tab key with
  | case1 i hc ih =>
    rw [scan, if_pos hc]
    exact ih (by omega) (by omega) (by simpa using hc.2)
  | case2 i hc =>
    rw [scan, if_neg hc]
    refine ⟨h1, hi, h, ?_⟩
    by_cases hl : i < tab.length
    · exact .inr (not_le.mp fun hk => hc ⟨hl, hk⟩)
    · exact .inl (by omega)

theorem search_spec (hne : tab ≠ []) (h0 : knotAt tab 0 ≤ key) (guess : ℕ) :
    search tab key guess < tab.length ∧ knotAt tab (search tab key guess) ≤ key ∧
      (search tab key guess + 1 = tab.length ∨ key < knotAt tab (search tab key guess + 1)) := by
  have hpos : 0 < tab.length := List.length_pos_iff.mpr hne
  have fin : ∀ k, (k = 0 ∨ knotAt tab (k - 1) ≤ key) → (k = tab.length ∨ key < knotAt tab k) → k ≤ tab.length →
      k - 1 < tab.length ∧ knotAt tab (k - 1) ≤ key ∧ (k - 1 + 1 = tab.length ∨ key < knotAt tab (k - 1 + 1)) := by
    intro k a b c
    have hk : 1 ≤ k := by
      rcases Nat.eq_zero_or_pos k with rfl | h
      · rcases b with b | b
        · omega
        · exact absurd h0 (not_le.mpr b)
      · exact h
    rw [show k - 1 + 1 = k by omega]
    refine ⟨by omega, a.resolve_left (by omega), b⟩
  unfold search
  simp only
  by_cases hl : tab.length ≤ 4
  · rw [if_pos hl]
    obtain ⟨a, b, c, d⟩ := scan_spec tab key 1 hpos le_rfl h0
    exact fin _ (.inr c) d b
  rw [if_neg hl]
  have hg : ∃ g, max (min guess (tab.length - 3)) 1 = g ∧ 1 ≤ g ∧ g + 3 ≤ tab.length := ⟨_, rfl, by omega, by omega⟩
  obtain ⟨g, e, hg1, hg2⟩ := hg
  rw [e]
  by_cases k0 : key < knotAt tab g
  · rw [if_pos k0]
    by_cases k1 : key < knotAt tab (g - 1)
    · rw [if_pos k1]
      have : ∃ i, (if 8 < g ∧ knotAt tab (g - 8) ≤ key then g - 8 else 0) = i ∧ i ≤ g - 1 ∧
          (i = 0 ∨ knotAt tab (i - 1) ≤ key ∨ (i < g - 1 ∧ knotAt tab i ≤ key)) := by
        refine ⟨_, rfl, ?_⟩
        split_ifs with hc
        · exact ⟨by omega, .inr (.inr ⟨by omega, hc.2⟩)⟩
        · exact ⟨by omega, .inl rfl⟩
      obtain ⟨i, e1, h2, h3⟩ := this
      rw [e1]
      obtain ⟨a, b, c⟩ := bisect_spec tab key i (g - 1) h2 h3 (.inr k1)
      exact fin _ a b (by omega)
    · rw [if_neg k1, show g - 1 + 1 = g by omega]
      exact ⟨by omega, not_lt.mp k1, .inr k0⟩
  · rw [if_neg k0]
    by_cases k1 : key < knotAt tab (g + 1)
    · rw [if_pos k1]
      exact ⟨by omega, not_lt.mp k0, .inr k1⟩
    · rw [if_neg k1]
      by_cases k2 : key < knotAt tab (g + 2)
      · rw [if_pos k2]
        exact ⟨by omega, not_lt.mp k1, .inr k2⟩
      · rw [if_neg k2]
        have : ∃ i, (if g + 9 < tab.length ∧ key < knotAt tab (g + 8) then g + 8 else tab.length) = i ∧ g + 2 < i ∧
            i ≤ tab.length ∧ (i = tab.length ∨ key < knotAt tab i) := by
          refine ⟨_, rfl, ?_⟩
          split_ifs with hc
          · exact ⟨by omega, by omega, .inr hc.2⟩
          · exact ⟨by omega, le_rfl, .inl rfl⟩
        obtain ⟨i, e1, h2, h3, h4⟩ := this
        rw [e1]
        obtain ⟨a, b, c⟩ := bisect_spec tab key (g + 2) i h2.le (.inr (.inr ⟨h2, not_lt.mp k2⟩)) h4
        exact fin _ a b (by omega)

/-! ### Increasing knots -/

/-- What the model takes `np.interp` to be, in terms of the interval. -/
theorem interpFrom_char {x0 y0 x : ℝ} {rest : List (ℝ × ℝ)}
    (hs : ((x0, y0) :: rest).Pairwise fun p q => p.1 ≤ q.1) {j : ℕ} (hj : j < ((x0, y0) :: rest).length)
    (h1 : knotAt ((x0, y0) :: rest) j ≤ x)
    (h2 : j + 1 = ((x0, y0) :: rest).length ∨ x < knotAt ((x0, y0) :: rest) (j + 1)) :
    interpFrom x0 y0 rest x = if j + 1 = ((x0, y0) :: rest).length then ordinate ((x0, y0) :: rest) j else
      (ordinate ((x0, y0) :: rest) (j + 1) - ordinate ((x0, y0) :: rest) j) /
        (knotAt ((x0, y0) :: rest) (j + 1) - knotAt ((x0, y0) :: rest) j) * (x - knotAt ((x0, y0) :: rest) j) +
        ordinate ((x0, y0) :: rest) j := by
  induction rest generalizing x0 y0 j with
  | nil =>
    have : j = 0 := by simpa using hj
    subst this
    simp [interpFrom, ordinate]
  | cons b rest ih =>
    obtain ⟨x1, y1⟩ := b
    rw [interpFrom]
    cases j with
    | zero =>
      have hx : x < x1 := by
        rcases h2 with h2 | h2
        · simp at h2
        · simpa [knotAt] using h2
      rw [if_pos hx, if_neg (by simp)]
      simp [knotAt, ordinate]
    | succ k =>
      have hs' := (List.pairwise_cons.mp hs).2
      have hk : k < ((x1, y1) :: rest).length := by simpa using hj
      have hx : ¬ x < x1 := by
        rw [not_lt]
        refine le_trans ?_ h1
        have : knotAt ((x0, y0) :: (x1, y1) :: rest) (k + 1) = (((x1, y1) :: rest)[k]).1 := by
          simp only [knotAt]
          rw [getD_lt hj]
          simp
        rw [this]
        cases k with
        | zero => simp
        | succ k =>
          exact (List.pairwise_cons.mp hs').1 _ (List.getElem_mem (by simpa using hk))
      rw [if_neg hx, ih hs' hk (by simpa [knotAt] using h1) (by simpa [knotAt] using h2)]
      simp [knotAt, ordinate]

theorem knotAt_mono (hs : tab.Pairwise fun p q => p.1 ≤ q.1) {i j : ℕ} (h : i ≤ j) (hj : j < tab.length) :
    knotAt tab i ≤ knotAt tab j := by
  unfold knotAt
  rw [getD_lt hj, getD_lt (lt_of_le_of_lt h hj)]
  rcases h.eq_or_lt with rfl | h
  · exact le_rfl
  · exact List.pairwise_iff_getElem.mp hs i j _ hj h

theorem npInterp_sorted (hs : tab.Pairwise fun p q => p.1 ≤ q.1) (guess : ℕ) (x : ℝ) :
    npInterp guess tab x = interp tab x := by
  cases tab with
  | nil => rfl
  | cons a rest =>
    obtain ⟨x0, y0⟩ := a
    have hl : ((x0, y0) :: rest).length ≠ 0 := by simp
    unfold npInterp interp
    simp only [if_neg hl]
    by_cases hlo : x < x0
    · rw [if_pos hlo, if_neg, if_pos (by simpa [knotAt] using hlo)]
      · simp [ordinate]
      · rw [not_lt]
        have := knotAt_mono hs (Nat.zero_le (((x0, y0) :: rest).length - 1)) (by simp)
        refine le_trans ?_ this
        simpa [knotAt] using hlo.le
    · rw [if_neg hlo]
      have h0 : knotAt ((x0, y0) :: rest) 0 ≤ x := by simpa [knotAt] using hlo
      by_cases hhi : knotAt ((x0, y0) :: rest) (((x0, y0) :: rest).length - 1) < x
      · rw [if_pos hhi, interpFrom_char hs (j := ((x0, y0) :: rest).length - 1) (by simp) hhi.le (.inl (by simp)),
          if_pos (by simp)]
      · rw [if_neg hhi, if_neg (not_lt.mpr h0)]
        obtain ⟨h1, h2, h3⟩ := search_spec (by simp) h0 guess
        rw [interpFrom_char hs h1 h2 h3]
        generalize search ((x0, y0) :: rest) x guess = j at *
        by_cases hj : j + 1 = ((x0, y0) :: rest).length
        · rw [if_pos (by omega), if_pos hj]
        · rw [if_neg (by omega), if_neg hj]
          split_ifs with hk
          · rw [hk]; simp
          · rfl

/-- C152: for rows in the order of increasing wavelength (repeated wavelengths are allowed) the search of
`np.interp` finds the interval, whatever its first guess, and the index is that of the model, which C46 and C57
are about.  Partial: rows in another order, see `C152_fails_decreasing`. -/
theorem C152_increasing_partial (z : SqrtOracle) (wl : ℝ) {tab : List (ℝ × ℝ × ℝ)}
    (hs : tab.Pairwise fun a b => a.1 ≤ b.1) (g g' : ℕ) {w : ℝ} (hw : w ≠ 0) :
    tableNp g g' tab w = (Scat.table wl tab).complex z (some w) := by
  have h1 : (tab.map fun r => (r.1, r.2.1)).Pairwise fun p q => p.1 ≤ q.1 := by
    rw [List.pairwise_map]; exact hs
  have h2 : (tab.map fun r => (r.1, r.2.2)).Pairwise fun p q => p.1 ≤ q.1 := by
    rw [List.pairwise_map]; exact hs
  simp only [tableNp, npInterp_sorted h1, npInterp_sorted h2, Scat.complex, Scat.at, pickWav, if_neg hw,
    Scat.ownWav]
  cases interp (tab.map fun r => (r.1, r.2.1)) w <;> cases interp (tab.map fun r => (r.1, r.2.2)) w <;> rfl

/-- The wavelengths of the rows do not decrease. -/
def ascending : List (ℕ × ℕ × ℕ) → Bool
  | a :: b :: t => decide (a.1 ≤ b.1) && ascending (b :: t)
  | _ => true

theorem ascending_pairwise {l : List (ℕ × ℕ × ℕ)} (h : ascending l = true) : l.Pairwise fun a b => a.1 ≤ b.1 := by
  rw [← List.isChain_iff_pairwise (R := fun a b : ℕ × ℕ × ℕ => a.1 ≤ b.1)]
  induction l with
  | nil => simp
  | cons a t ih =>
    cases t with
    | nil => simp
    | cons b t =>
      simp only [ascending, Bool.and_eq_true, decide_eq_true_eq] at h
      exact List.isChain_cons_cons.mpr ⟨h.1, ih h.2⟩

theorem bundled_ascending : bundled.all (fun m => ascending m.rows) = true := by
  decide +kernel

/-- C152: all bundled tables are in that order, also the one with repeated wavelengths. -/
theorem C152_bundled (z : SqrtOracle) {name : String} {s : Scat} (h : loadMaterial name = .ok s) :
    ∃ tab, s = .table 658 tab ∧ ∀ (g g' : ℕ) (w : ℝ), w ≠ 0 → tableNp g g' tab w = s.complex z (some w) := by
  obtain ⟨m, hm, hn, rfl⟩ := loadMaterial_ok h
  have hs := ascending_pairwise (List.all_eq_true.mp bundled_ascending m hm)
  refine ⟨_, rfl, fun g g' w hw => C152_increasing_partial z 658 ?_ g g' hw⟩
  rw [List.pairwise_map, List.pairwise_map]
  refine hs.imp fun {a b} hab => ?_
  have : (a.1 : ℝ) ≤ b.1 := by exact_mod_cast hab
  simp only [RawMaterial.row]
  have p10 : (0 : ℝ) < 10 ^ m.dw := by positivity
  have := div_le_div_of_nonneg_right this p10.le
  linarith

/-! ### Decreasing knots -/

theorem npInterp_decreasing {a b : ℝ × ℝ} {mid : List (ℝ × ℝ)}
    (hs : (a :: mid ++ [b]).Pairwise fun p q => q.1 < p.1) (guess : ℕ) (x : ℝ) :
    npInterp guess (a :: mid ++ [b]) x = .ok (if b.1 < x then b.2 else a.2) := by
  have hl : (a :: mid ++ [b]).length = mid.length + 2 := by simp
  have hb : (a :: mid ++ [b]).getD (mid.length + 1) (0, 0) = b := by
    simp [List.getD_eq_getElem?_getD]
  have hab : b.1 < a.1 := (List.pairwise_cons.mp hs).1 b (by simp)
  unfold npInterp
  simp only [hl]
  rw [if_neg (by omega)]
  simp only [show mid.length + 2 - 1 = mid.length + 1 by omega, knotAt, ordinate, hb]
  by_cases h : b.1 < x
  · rw [if_pos h, if_pos h]
  · rw [if_neg h, if_neg h, if_pos]
    · simp
    · simp only [List.cons_append, List.getD_cons_zero]
      linarith [not_lt.mp h]

/-- C152 fails for rows in the order of decreasing wavelength: the interpolation is a step.  Above the smallest
wavelength the index is that of the last row, elsewhere that of the first one - the values in between do not
matter, and at its own wavelength even the first row is not found. -/
theorem C152_fails_decreasing {a b : ℝ × ℝ × ℝ} {mid : List (ℝ × ℝ × ℝ)}
    (hs : (a :: mid ++ [b]).Pairwise fun p q => q.1 < p.1) (g g' : ℕ) (w : ℝ) :
    tableNp g g' (a :: mid ++ [b]) w = some (if b.1 < w then rowRI b else rowRI a) ∧
      tableNp g g' (a :: mid ++ [b]) a.1 = some (rowRI b) := by
  have h1 : ((a.1, a.2.1) :: (mid.map fun r => (r.1, r.2.1)) ++ [(b.1, b.2.1)]).Pairwise fun p q => q.1 < p.1 := by
    have : (((a :: mid ++ [b]).map fun r => (r.1, r.2.1)).Pairwise fun p q => q.1 < p.1) := by
      rw [List.pairwise_map]; exact hs
    simpa using this
  have h2 : ((a.1, a.2.2) :: (mid.map fun r => (r.1, r.2.2)) ++ [(b.1, b.2.2)]).Pairwise fun p q => q.1 < p.1 := by
    have : (((a :: mid ++ [b]).map fun r => (r.1, r.2.2)).Pairwise fun p q => q.1 < p.1) := by
      rw [List.pairwise_map]; exact hs
    simpa using this
  have key : ∀ w, tableNp g g' (a :: mid ++ [b]) w = some (if b.1 < w then rowRI b else rowRI a) := by
    intro w
    unfold tableNp
    rw [show (a :: mid ++ [b]).map (fun r => (r.1, r.2.1)) =
        (a.1, a.2.1) :: (mid.map fun r => (r.1, r.2.1)) ++ [(b.1, b.2.1)] by simp,
      show (a :: mid ++ [b]).map (fun r => (r.1, r.2.2)) =
        (a.1, a.2.2) :: (mid.map fun r => (r.1, r.2.2)) ++ [(b.1, b.2.2)] by simp,
      npInterp_decreasing h1, npInterp_decreasing h2]
    simp only
    split_ifs <;> rfl
  refine ⟨key w, ?_⟩
  rw [key, if_pos ((List.pairwise_cons.mp hs).1 b (by simp))]

/-- Non-vacuity: silica, with its wavelengths in both orders; at 600 nm its index is 1.458. -/
example (z : SqrtOracle) (wl : ℝ) :
    tableNp 0 0 [(500, 1.462, 0), (600, 1.458, 0), (700, 1.455, 0)] 600 = some ⟨1.458, 0⟩ ∧
    tableNp 0 0 [(700, 1.455, 0), (600, 1.458, 0), (500, 1.462, 0)] 600 = some ⟨1.462, 0⟩ := by
  constructor
  · rw [C152_increasing_partial z wl (by norm_num) 0 0 (by norm_num)]
    norm_num [Scat.complex, Scat.at, pickWav, interp, interpFrom]
  · refine (C152_fails_decreasing (a := (700, 1.455, 0)) (mid := [(600, 1.458, 0)]) (b := (500, 1.462, 0)) (by norm_num)
      0 0 600).1.trans ?_
    rw [if_pos (by norm_num)]
    rfl

end Verif.Disp
