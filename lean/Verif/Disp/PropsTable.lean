import Verif.Disp.InterpLemmas

/-! # C46, C47, C48, C58, C95: tabulated materials, unit conversion, arrays, names -/

namespace Verif.Disp

theorem pickWav_some {own w : ℝ} (h : w ≠ 0) : pickWav own (some w) = w := by
  simp [pickWav, h]

theorem table_complex (z : SqrtOracle) (wl : ℝ) (tab : List (ℝ × ℝ × ℝ)) {w : ℝ} (hw : w ≠ 0)
    {a b : ℝ} (ha : interp (tab.map fun r => (r.1, r.2.1)) w = .ok a)
    (hb : interp (tab.map fun r => (r.1, r.2.2)) w = .ok b) :
    (Scat.table wl tab).complex z (some w) = some ⟨a, b⟩ := by
  simp only [Scat.complex, Scat.at, pickWav_some hw, ha, hb]

theorem sorted_map {tab : List (ℝ × ℝ × ℝ)} (h : Increasing tab) (g : ℝ × ℝ × ℝ → ℝ) :
    (tab.map fun r => (r.1, g r)).Pairwise fun p q => p.1 < q.1 := by
  rw [List.pairwise_map]; exact h

/-- C46: between neighbouring entries the index is the straight line between them. -/
theorem C46_interpolates (z : SqrtOracle) (wl : ℝ) {tab : List (ℝ × ℝ × ℝ)} (hinc : Increasing tab)
    {a b : ℝ × ℝ × ℝ} (hab : Neighbours tab a b) {w : ℝ} (hw : w ≠ 0) (h1 : a.1 ≤ w)
    (h2 : w ≤ b.1) :
    (Scat.table wl tab).complex z (some w)
      = some ⟨lerp a.1 a.2.1 b.1 b.2.1 w, lerp a.1 a.2.2 b.1 b.2.2 w⟩ := by
  obtain ⟨pre, post, rfl⟩ := hab
  have hlt : a.1 < b.1 := by
    have h := (List.pairwise_append.mp hinc).2.1
    exact (List.pairwise_cons.mp h).1 b (by simp)
  have hend : ∀ u v : ℝ, lerp a.1 u b.1 v b.1 = v := by
    intro u v
    have : b.1 - a.1 ≠ 0 := by linarith
    unfold lerp; field_simp; ring
  rcases h2.lt_or_eq with h2 | h2
  · refine table_complex z wl _ hw
      (interp_seg (sorted_map hinc _) (a := (a.1, a.2.1)) (b := (b.1, b.2.1))
        (pre := pre.map fun r => (r.1, r.2.1)) (post := post.map fun r => (r.1, r.2.1))
        (by simp) h1 h2)
      (interp_seg (sorted_map hinc _) (a := (a.1, a.2.2)) (b := (b.1, b.2.2))
        (pre := pre.map fun r => (r.1, r.2.2)) (post := post.map fun r => (r.1, r.2.2))
        (by simp) h1 h2)
  · subst h2
    rw [hend, hend]
    cases post with
    | nil =>
      refine table_complex z wl _ hw
        (interp_last (sorted_map hinc _) (a := (b.1, b.2.1))
          (pre := (pre ++ [a]).map fun r => (r.1, r.2.1)) (by simp) le_rfl)
        (interp_last (sorted_map hinc _) (a := (b.1, b.2.2))
          (pre := (pre ++ [a]).map fun r => (r.1, r.2.2)) (by simp) le_rfl)
    | cons c post =>
      have hbc : b.1 < c.1 := by
        have h := (List.pairwise_cons.mp (List.pairwise_append.mp hinc).2.1).2
        exact (List.pairwise_cons.mp h).1 c (by simp)
      have hbeg : ∀ u v : ℝ, lerp b.1 u c.1 v b.1 = u := by
        intro u v; unfold lerp; simp
      have t1 := interp_seg (sorted_map hinc fun r => r.2.1) (a := (b.1, b.2.1))
        (b := (c.1, c.2.1)) (pre := (pre ++ [a]).map fun r => (r.1, r.2.1))
        (post := post.map fun r => (r.1, r.2.1)) (by simp) (le_refl b.1) hbc
      have t2 := interp_seg (sorted_map hinc fun r => r.2.2) (a := (b.1, b.2.2))
        (b := (c.1, c.2.2)) (pre := (pre ++ [a]).map fun r => (r.1, r.2.2))
        (post := post.map fun r => (r.1, r.2.2)) (by simp) (le_refl b.1) hbc
      simp only [hbeg] at t1 t2
      exact table_complex z wl _ hw t1 t2

/-- C46: outside the table the index is that of the nearest end. -/
theorem C46_clamps (z : SqrtOracle) (wl : ℝ) {tab : List (ℝ × ℝ × ℝ)} (hinc : Increasing tab)
    {w : ℝ} (hw : w ≠ 0) :
    (∀ a, tab.head? = some a → w ≤ a.1 →
      (Scat.table wl tab).complex z (some w) = some (rowRI a)) ∧
    (∀ a, tab.getLast? = some a → a.1 ≤ w →
      (Scat.table wl tab).complex z (some w) = some (rowRI a)) := by
  constructor
  · intro a ha h
    cases tab with
    | nil => simp at ha
    | cons c t =>
      simp only [List.head?_cons, Option.some.injEq] at ha
      subst ha
      have t1 := sorted_map hinc fun r => r.2.1
      have t2 := sorted_map hinc fun r => r.2.2
      rw [List.map_cons] at t1 t2
      exact table_complex z wl _ hw (interp_first t1 h) (interp_first t2 h)
  · intro a ha h
    obtain ⟨pre, rfl⟩ := List.getLast?_eq_some_iff.mp ha
    refine table_complex z wl _ hw
      (interp_last (sorted_map hinc _) (a := (a.1, a.2.1))
        (pre := pre.map fun r => (r.1, r.2.1)) (by simp) h)
      (interp_last (sorted_map hinc _) (a := (a.1, a.2.2))
        (pre := pre.map fun r => (r.1, r.2.2)) (by simp) h)

/-- C46: at a tabulated wavelength the index is the tabulated one. -/
theorem C46_at_entries (z : SqrtOracle) (wl : ℝ) {tab : List (ℝ × ℝ × ℝ)} (hinc : Increasing tab)
    {r : ℝ × ℝ × ℝ} (hr : r ∈ tab) (hw : r.1 ≠ 0) :
    (Scat.table wl tab).complex z (some r.1) = some (rowRI r) := by
  obtain ⟨pre, post, rfl⟩ := List.append_of_mem hr
  cases post with
  | nil => exact (C46_clamps z wl hinc hw).2 r (by simp) le_rfl
  | cons c post =>
    have hlt : r.1 < c.1 := by
      have h := (List.pairwise_append.mp hinc).2.1
      exact (List.pairwise_cons.mp h).1 c (by simp)
    rw [C46_interpolates z wl hinc ⟨pre, post, rfl⟩ hw le_rfl hlt.le]
    simp [lerp, rowRI]

/-- C46: the interpolated index lies between the neighbouring entries. -/
theorem C46_between (z : SqrtOracle) (wl : ℝ) {tab : List (ℝ × ℝ × ℝ)} (hinc : Increasing tab)
    {a b : ℝ × ℝ × ℝ} (hab : Neighbours tab a b) {w : ℝ} (hw : w ≠ 0) (h1 : a.1 ≤ w)
    (h2 : w ≤ b.1) :
    ∃ N, (Scat.table wl tab).complex z (some w) = some N ∧
      min a.2.1 b.2.1 ≤ N.re ∧ N.re ≤ max a.2.1 b.2.1 ∧
      min a.2.2 b.2.2 ≤ N.im ∧ N.im ≤ max a.2.2 b.2.2 := by
  have hlt : a.1 < b.1 := by
    obtain ⟨pre, post, rfl⟩ := hab
    have h := (List.pairwise_append.mp hinc).2.1
    exact (List.pairwise_cons.mp h).1 b (by simp)
  refine ⟨_, C46_interpolates z wl hinc hab hw h1 h2, ?_⟩
  have key : ∀ u v : ℝ, min u v ≤ lerp a.1 u b.1 v w ∧ lerp a.1 u b.1 v w ≤ max u v := by
    intro u v
    have hpos : 0 < b.1 - a.1 := by linarith
    unfold lerp
    set s := (w - a.1) / (b.1 - a.1) with hs
    have hs0 : 0 ≤ s := div_nonneg (by linarith) hpos.le
    have hs1 : s ≤ 1 := by rw [hs, div_le_one hpos]; linarith
    rcases le_total u v with h | h
    · rw [min_eq_left h, max_eq_right h]
      constructor <;> nlinarith
    · rw [min_eq_right h, max_eq_left h]
      constructor <;> nlinarith
  exact ⟨(key _ _).1, (key _ _).2, (key _ _).1, (key _ _).2⟩

/-- A three row table meets the hypotheses, 550 nm lying between two rows. -/
example : Increasing [(400, 1.5, 0.1), (500, 1.45, 0.05), (600, 1.4, 0)] ∧
    Neighbours [(400, 1.5, 0.1), (500, 1.45, 0.05), (600, 1.4, 0)] (500, 1.45, 0.05) (600, 1.4, 0)
    := by
  refine ⟨?_, [(400, 1.5, 0.1)], [], rfl⟩
  simp [Increasing]; norm_num

/-! ### C47: aliasing of the caller's arrays -/

/-- C47 (partial): building one material from arrays no one reuses represents the given table
(wavelengths in micron converted to nm), and the index arrays are not modified.  Missing: the
wavelength array is modified, see `C47_fails_mutates`. -/
theorem C47_single_use_partial (h : Heap) {wav n k : ℕ} (h1 : n ≠ wav) (h2 : k ≠ wav) :
    let (h', o) := mkRI h wav n k
    o.scat h' = .table 658 (((h wav).map (· * 1000)).zip ((h n).zip (h k))) ∧
      h' n = h n ∧ h' k = h k ∧ ∀ r, r ≠ wav → h' r = h r := by
  refine ⟨by simp [RIObj.scat, h1, h2], by simp [h1], by simp [h2], by simp +contextual⟩

/-- C47 is false of the code: the caller's wavelength array is multiplied by 1000 whenever it
contains a non-zero entry. -/
theorem C47_fails_mutates (h : Heap) (wav n k : ℕ) (hne : ∃ x ∈ h wav, x ≠ 0) :
    (mkRI h wav n k).1 wav ≠ h wav := by
  intro he
  simp only [mkRI, if_true] at he
  obtain ⟨x, hx, hx0⟩ := hne
  obtain ⟨i, hi, rfl⟩ := List.mem_iff_getElem.mp hx
  have := congrArg (fun l => l[i]?) he
  simp [hi] at this
  exact hx0 (by linarith)

/-- C47 is false of the code: building a second material from the same three arrays gives a
different material (wavelengths another factor 1000 off) and also changes the first one. -/
theorem C47_fails_second (h : Heap) {wav n k : ℕ} (h1 : n ≠ wav) (h2 : k ≠ wav) {x y v : ℝ}
    (hx : x ≠ 0) (hw : h wav = [x]) (hn : h n = [y]) (hk : h k = [v]) :
    let (h', o) := mkRI h wav n k
    let (h'', o') := mkRI h' wav n k
    o'.scat h'' ≠ o.scat h' ∧ o.scat h'' ≠ o.scat h' := by
  have hne : x * 1000 * 1000 ≠ x * 1000 := by
    intro he
    apply hx
    linarith
  simp [mkRI, RIObj.scat, h1, h2, hw, hn, hk, hx]

/-- With Python lists the wavelength list is not even scaled but repeated 1000 times. -/
theorem C47_fails_lists (h : Heap) (wav n k : ℕ) :
    ((mkRIList h wav n k).1 wav).length = 1000 * (h wav).length := by
  simp [mkRIList, -List.reduceReplicate]

example : ∃ x ∈ ([0.4, 0.5] : List ℝ), x ≠ 0 := ⟨0.4, by simp, by norm_num⟩

/-! ### C48 -/

/-- C48: converting twice gives the value back. -/
theorem C48_involution {v : ℝ} (h : v ≠ 0) :
    ∃ u, nmEV v = some u ∧ u ≠ 0 ∧ nmEV u = some v := by
  have hu : (1239.841984055 : ℝ) / v ≠ 0 := div_ne_zero (by norm_num) h
  refine ⟨_, rdiv_of_ne h, hu, ?_⟩
  unfold nmEV
  rw [rdiv_of_ne hu]
  congr 1
  field_simp

/-- C48: conversion is strictly decreasing on positive values and keeps them positive. -/
theorem C48_decreasing {v w : ℝ} (h : 0 < v) (hvw : v < w) :
    ∃ a b, nmEV v = some a ∧ nmEV w = some b ∧ 0 < b ∧ b < a := by
  refine ⟨_, _, rdiv_of_ne h.ne', rdiv_of_ne (h.trans hvw).ne', ?_, ?_⟩
  · have : 0 < w := h.trans hvw
    positivity
  · exact div_lt_div_of_pos_left (by norm_num) h hvw

/-- Planck's constant times the speed of light in vacuum over the elementary charge (SI definitions), in
electron volts times nanometres. -/
noncomputable def hcOverE : ℝ := 6.62607015e-34 * 299792458 / 1.602176634e-19 * 1e9

/-- C48: wavelength in nm times photon energy in eV is `h c / e`, to three parts in ten thousand million. -/
theorem C48_physical {v : ℝ} (h : v ≠ 0) :
    ∃ u, nmEV v = some u ∧ |u * v - hcOverE| ≤ 3e-10 * hcOverE := by
  refine ⟨_, rdiv_of_ne h, ?_⟩
  rw [div_mul_cancel₀ _ h, hcOverE, abs_le]
  constructor <;> norm_num

/-- C48: zero is the only wavelength or energy without a partner. -/
theorem C48_zero {v : ℝ} : nmEV v = none ↔ v = 0 := by
  constructor
  · intro h
    by_contra hv
    obtain ⟨u, hu, -⟩ := C48_involution hv
    rw [hu] at h
    simp at h
  · rintro rfl
    simp [nmEV, rdiv]

/-- Non-vacuity: 658 nm is between 1.88 and 1.89 eV. -/
example : ∃ u, nmEV 658 = some u ∧ 1.88 < u ∧ u < 1.89 :=
  ⟨_, rdiv_of_ne (by norm_num), by norm_num, by norm_num⟩

/-! ### C58 -/

/-- Index evaluation of each element of an array. -/
noncomputable def elementwise (z : SqrtOracle) (s : Scat) (ws : List ℝ) : List (Option ℂ) :=
  ws.map fun w => s.complex z (some w)

theorem complex_at (z : SqrtOracle) (s : Scat) {w : ℝ} (h : w ≠ 0) :
    s.complex z (some w) = s.at z w := by
  cases s <;> simp [Scat.complex, pickWav_some h, Scat.at]

/-- C58 (partial): for every dispersive model, evaluating an array gives the array of the values.
Missing: for a wavelength independent `RI` a scalar is returned, see `C58_fails_const`. -/
theorem C58_elementwise_partial (z : SqrtOracle) {s : Scat} (hs : ∀ wl n k, s ≠ .const wl n k)
    {ws : List ℝ} (hne : ws ≠ []) (hw : ∀ w ∈ ws, w ≠ 0) :
    s.complexArr z ws = .inr (elementwise z s ws) := by
  have hex : ∃ w ∈ ws, w ≠ 0 := by
    cases ws with
    | nil => exact absurd rfl hne
    | cons w t => exact ⟨w, by simp, hw w (by simp)⟩
  have hmap : ws.map (s.at z) = elementwise z s ws := by
    unfold elementwise
    apply List.map_congr_left
    intro w h
    rw [complex_at z s (hw w h)]
  cases s with
  | const wl n k => exact absurd rfl (hs wl n k)
  | _ => simp only [Scat.complexArr, if_pos hex, hmap]

/-- C58 is false for constant materials: the result is not an array. -/
theorem C58_fails_const (z : SqrtOracle) (wl n k : ℝ) (ws : List ℝ) :
    ∀ l, (Scat.const wl n k).complexArr z ws ≠ .inr l := by
  simp [Scat.complexArr]

example : ∀ w ∈ ([400, 500, 658] : List ℝ), w ≠ 0 := by simp

/-! ### C95: names -/

/-- C95 (partial): an explicit name is kept.  Missing: the default taken from the file name. -/
theorem C95_name_partial (path : String) {name : String} (_h : name ≠ "") :
    (riInit path name).name = name := by
  simp only [riInit]
  split_ifs <;> rfl

example : (riInit "materials/gold.csv" "Au").name = "Au" := C95_name_partial _ (by decide)

/-- C95 is false of the code: without an explicit name the material does not get the name of its file
(the part of the last path component before the first dot), whatever the file. -/
theorem C95_fails_default (dir file ext : String) (hne : file ≠ "") :
    (riInit (dir ++ "/" ++ file ++ "." ++ ext) "").name ≠ file ∧
      (riInit (dir ++ "/" ++ file ++ "." ++ ext) "").name = "" := by
  have h : (riInit (dir ++ "/" ++ file ++ "." ++ ext) "").name = "" := by simp [riInit]
  exact ⟨by rw [h]; exact hne.symm, h⟩

example : stem "materials/gold.csv" = "gold" := by decide +kernel

end Verif.Disp
