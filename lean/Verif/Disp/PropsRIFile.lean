import Verif.Disp.RIFile
import Verif.Disp.PropsTable

/-! # C133: materials read from files -/

namespace Verif.Disp

/-! ### Specification -/

/-- A line of a CSV file with these numbers. -/
structure CsvRow (c : Data.Codec) (l : Data.Line) (xs : List ℝ) : Prop where
  /-- the fields, separated by commas -/
  fields : ∃ fs : List Data.Line, l = [','].intercalate fs ∧ (∀ f ∈ fs, ',' ∉ f) ∧
    List.Forall₂ (fun f x => c.pl f = some x) fs xs
  ne : l ≠ []
  hash : '#' ∉ l

/-- Rows with wavelength in nm instead of micron. -/
noncomputable def nm (tab : List (ℝ × ℝ × ℝ)) : List (ℝ × ℝ × ℝ) := tab.map fun r => (r.1 * 1000, r.2)

/-! ### Reading -/

theorem parse_csv {c : Data.Codec} {l : Data.Line} {xs : List ℝ} (h : CsvRow c l xs) :
    Data.parseRow c ',' l = some xs := by
  obtain ⟨fs, rfl, hf, hx⟩ := h.fields
  unfold Data.parseRow
  rw [List.splitOn_intercalate _ hf]
  · clear hf h
    induction hx with
    | nil => rfl
    | cons h _ ih => rw [List.mapM_cons, h, ih]; rfl
  · rintro rfl
    exact h.ne (by simp)

theorem dataLines_csv {c : Data.Codec} {ls : List Data.Line} {rows : List (List ℝ)}
    (h : List.Forall₂ (CsvRow c) ls rows) : Data.dataLines ls = ls := by
  induction h with
  | nil => rfl
  | @cons l xs ls rows h _ ih =>
    unfold Data.dataLines at ih ⊢
    have e : l.takeWhile (· ≠ '#') = l := by
      rw [← List.append_nil l, List.takeWhile_append_of_pos]
      · simp
      · intro x hx
        simp only [ne_eq, decide_not, Bool.not_eq_eq_eq_not, Bool.not_true, decide_eq_false_iff_not]
        rintro rfl
        exact h.hash hx
    have e2 : (!l.isEmpty) = true := by
      have := h.ne
      cases l with
      | nil => exact absurd rfl this
      | cons => rfl
    rw [List.map_cons, e, List.filter_cons, if_pos e2, ih]

theorem loadtxt_csv {c : Data.Codec} {ls : List Data.Line} {rows : List (List ℝ)} {m : ℕ}
    (h : List.Forall₂ (CsvRow c) ls rows) (hm : ∀ r ∈ rows, r.length = m) (head : Data.Line) :
    Data.loadtxt c ',' 1 (head :: ls) = .ok rows := by
  unfold Data.loadtxt
  rw [List.drop_one, List.tail_cons, dataLines_csv h]
  have : ls.mapM (Data.parseRow c ',') = some rows := by
    clear hm
    induction h with
    | nil => rfl
    | cons h _ ih => rw [List.mapM_cons, parse_csv h, ih]; rfl
  rw [this]
  simp only
  rw [if_pos]
  intro r hr r' hr'
  rw [hm r hr, hm r' hr']

/-- The columns of a table with at least two rows. -/
theorem fileVals_rows {rows : List (List ℝ)} {m : ℕ} (hm : ∀ r ∈ rows, r.length = m) (h1 : m ≠ 1)
    (h2 : 2 ≤ rows.length) :
    fileVals rows = (List.range m).map fun j : ℕ => Attr.arr (rows.map fun x => x.getD j 0) := by
  match rows, h2 with
  | r :: r' :: rest, _ =>
    have := hm r (by simp)
    simp only [fileVals]
    rw [if_neg (by omega), this]

/-- The object made from three columns. -/
noncomputable def tableAttrs (own : ℝ) (tab : List (ℝ × ℝ × ℝ)) : RIAttrs :=
  ⟨own, some (.arr ((nm tab).map (·.1))), .arr (tab.map (·.2.1)), .arr (tab.map (·.2.2))⟩

theorem riNew_three {c : Data.Codec} {own : ℝ} {head : Data.Line} {ls : List Data.Line}
    {tab : List (ℝ × ℝ × ℝ)} (h2 : 2 ≤ tab.length)
    (h : List.Forall₂ (CsvRow c) ls (tab.map fun r => [r.1, r.2.1, r.2.2])) :
    riNew c own (.file (head :: ls)) = .ok (tableAttrs own tab) := by
  have hm : ∀ r ∈ tab.map fun r => [r.1, r.2.1, r.2.2], r.length = 3 := by
    intro r hr; obtain ⟨q, -, rfl⟩ := List.mem_map.mp hr; rfl
  simp only [riNew, loadtxt_csv h hm]
  change attrsOfVals own (fileVals _) = _
  rw [fileVals_rows hm (by norm_num) (by simpa using h2)]
  simp [List.range_succ, attrsOfVals, tableAttrs, nm, Attr.scale, Function.comp_def]

theorem riNew_two {c : Data.Codec} {own : ℝ} {head : Data.Line} {ls : List Data.Line}
    {tab : List (ℝ × ℝ × ℝ)} (h2 : 2 ≤ tab.length) (h0 : ∀ r ∈ tab, r.2.2 = 0)
    (h : List.Forall₂ (CsvRow c) ls (tab.map fun r => [r.1, r.2.1])) :
    riNew c own (.file (head :: ls)) = .ok (tableAttrs own tab) := by
  have hm : ∀ r ∈ tab.map fun r => [r.1, r.2.1], r.length = 2 := by
    intro r hr; obtain ⟨q, -, rfl⟩ := List.mem_map.mp hr; rfl
  simp only [riNew, loadtxt_csv h hm]
  change attrsOfVals own (fileVals _) = _
  rw [fileVals_rows hm (by norm_num) (by simpa using h2)]
  have e : tab.map (·.2.2) = tab.map fun _ => 0 := List.map_congr_left h0
  simp [List.range_succ, attrsOfVals, tableAttrs, nm, Attr.scale, Attr.zeros, Function.comp_def, e]

theorem tableAttrs_complex {own : ℝ} {tab : List (ℝ × ℝ × ℝ)} (hne : ∃ r ∈ tab, r.1 ≠ 0) (z : SqrtOracle)
    (w : Option ℝ) {N : ℂ} (h : (Scat.table own (nm tab)).complex z w = some N) :
    (tableAttrs own tab).complex w = .ok N := by
  have hany : ∃ a, (tableAttrs own tab).wav = some a ∧ a.any := by
    refine ⟨_, rfl, ?_⟩
    obtain ⟨r, hr, h0⟩ := hne
    simp only [Attr.any, nm, List.map_map, List.mem_map, Function.comp_apply]
    exact ⟨_, ⟨r, hr, rfl⟩, mul_ne_zero h0 (by norm_num)⟩
  unfold RIAttrs.complex
  rw [if_pos hany]
  have e1 : ((nm tab).map (·.1)).zip (tab.map (·.2.1)) = (nm tab).map fun r => (r.1, r.2.1) := by
    simp [nm, List.zip_map', Function.comp_def]
  have e2 : ((nm tab).map (·.1)).zip (tab.map (·.2.2)) = (nm tab).map fun r => (r.1, r.2.2) := by
    simp [nm, List.zip_map', Function.comp_def]
  simp only [Scat.complex, Scat.at, Scat.ownWav, Option.getD_some] at h
  simp only [tableAttrs, e1, e2]
  cases ha : interp ((nm tab).map fun r => (r.1, r.2.1)) (pickWav own w) with
  | error => rw [ha] at h; simp at h
  | ok a =>
    cases hb : interp ((nm tab).map fun r => (r.1, r.2.2)) (pickWav own w) with
    | error => rw [ha, hb] at h; simp at h
    | ok b =>
      rw [ha, hb] at h
      simp only [Option.some.injEq] at h
      subst h
      rfl

/-! ### C133 -/

/-- C133, partial: a material read from a CSV file (a heading, then at least two rows of wavelength in micron,
refractive index and, if present, extinction coefficient, in order of wavelength) has the indices of the file at
its wavelengths, straight lines in between and the first or last entry outside.  Missing: files with one row,
with more than three columns, or without a heading, see `C133_fails_one_row`, `C133_fails_columns`,
`C133_fails_headless`. -/
theorem C133_file_partial (c : Data.Codec) (own : ℝ) (head : Data.Line) {ls : List Data.Line}
    {tab : List (ℝ × ℝ × ℝ)} (h2 : 2 ≤ tab.length) (hinc : Increasing tab) (hpos : ∀ r ∈ tab, 0 < r.1)
    (h : List.Forall₂ (CsvRow c) ls (tab.map fun r => [r.1, r.2.1, r.2.2]) ∨
      (∀ r ∈ tab, r.2.2 = 0) ∧ List.Forall₂ (CsvRow c) ls (tab.map fun r => [r.1, r.2.1])) :
    ∃ o, riNew c own (.file (head :: ls)) = .ok o ∧
      (∀ r ∈ tab, o.complex (some (1000 * r.1)) = .ok ⟨r.2.1, r.2.2⟩) ∧
      (∀ a b, Neighbours tab a b → ∀ x, 1000 * a.1 ≤ x → x ≤ 1000 * b.1 →
        o.complex (some x) = .ok ⟨lerp (1000 * a.1) a.2.1 (1000 * b.1) b.2.1 x,
          lerp (1000 * a.1) a.2.2 (1000 * b.1) b.2.2 x⟩) ∧
      (∀ a, tab.head? = some a → ∀ x, 0 < x → x ≤ 1000 * a.1 → o.complex (some x) = .ok ⟨a.2.1, a.2.2⟩) ∧
      (∀ a, tab.getLast? = some a → ∀ x, 1000 * a.1 ≤ x → o.complex (some x) = .ok ⟨a.2.1, a.2.2⟩) := by
  refine ⟨tableAttrs own tab, ?_, ?_⟩
  · rcases h with h | ⟨h0, h⟩
    · exact riNew_three h2 h
    · exact riNew_two h2 h0 h
  have hne : ∃ r ∈ tab, r.1 ≠ 0 := by
    match tab, h2 with
    | r :: _, _ => exact ⟨r, by simp, (hpos r (by simp)).ne'⟩
  have hinc' : Increasing (nm tab) := by
    unfold Increasing nm
    rw [List.pairwise_map]
    refine hinc.imp fun h => ?_
    simp only
    linarith
  let z : SqrtOracle := fun _ _ => true
  have hmem : ∀ r ∈ tab, (r.1 * 1000, r.2) ∈ nm tab := fun r hr => List.mem_map.mpr ⟨r, hr, rfl⟩
  refine ⟨fun r hr => ?_, fun a b hab x h1 h2 => ?_, fun a ha x hx h1 => ?_, fun a ha x h1 => ?_⟩
  · have := C46_at_entries z own hinc' (hmem r hr) (mul_pos (hpos r hr) (by norm_num)).ne'
    rw [mul_comm]
    exact tableAttrs_complex hne z _ this
  · have hab' : Neighbours (nm tab) (a.1 * 1000, a.2) (b.1 * 1000, b.2) := by
      obtain ⟨l, r, e⟩ := hab
      exact ⟨nm l, nm r, by simp [e, nm]⟩
    have ha : 0 < a.1 := hpos a (by obtain ⟨l, r, e⟩ := hab; simp [e])
    have := C46_interpolates z own hinc' hab' (w := x) (by nlinarith) (by simpa [mul_comm] using h1)
      (by simpa [mul_comm] using h2)
    rw [mul_comm 1000, mul_comm 1000]
    exact tableAttrs_complex hne z _ this
  · have := (C46_clamps z own hinc' (w := x) hx.ne').1 (a.1 * 1000, a.2) (by simp [nm, ha])
      (by simpa [mul_comm] using h1)
    exact tableAttrs_complex hne z _ this
  · have ha0 : 0 < a.1 := hpos a (List.mem_of_getLast? ha)
    have := (C46_clamps z own hinc' (w := x) (by nlinarith)).2 (a.1 * 1000, a.2) (by simp [nm, ha])
      (by simpa [mul_comm] using h1)
    exact tableAttrs_complex hne z _ this

/-- C133 fails for a file with one row of data: the object is made, but cannot be evaluated at any wavelength. -/
theorem C133_fails_one_row (c : Data.Codec) (own : ℝ) (head : Data.Line) {l : Data.Line} {w n k : ℝ}
    (hw : w ≠ 0) (h : CsvRow c l [w, n, k]) :
    ∃ o, riNew c own (.file [head, l]) = .ok o ∧ ∀ x, o.complex x = .error .valueError := by
  refine ⟨⟨own, some (.num (w * 1000)), .num n, .num k⟩, ?_, fun x => ?_⟩
  · simp only [riNew, loadtxt_csv (m := 3) (.cons h .nil) (by simp)]
    rfl
  · unfold RIAttrs.complex
    rw [if_pos ⟨_, rfl, by simpa [Attr.any] using hw⟩]

theorem interp_zero {ws : List ℝ} {tab : List (ℝ × ℝ × ℝ)} {x y : ℝ}
    (h : interp (ws.zip (tab.map fun _ => 0)) x = .ok y) : y = 0 := by
  have hz : ∀ q ∈ ws.zip (tab.map fun _ => (0 : ℝ)), q.2 = 0 := by
    intro q hq
    have := (List.of_mem_zip (show (q.1, q.2) ∈ _ from hq)).2
    obtain ⟨_, -, e⟩ := List.mem_map.mp this
    exact e.symm
  have key : ∀ (l : List (ℝ × ℝ)) (x0 : ℝ), (∀ q ∈ l, q.2 = 0) → interpFrom x0 0 l x = 0 := by
    intro l
    induction l with
    | nil => intro x0 _; rfl
    | cons q l ih =>
      intro x0 hq
      obtain ⟨x1, y1⟩ := q
      have e : y1 = 0 := hq (x1, y1) (by simp)
      subst e
      simp only [interpFrom]
      rw [ih x1 fun q h => hq q (by simp [h])]
      simp
  cases hl : ws.zip (tab.map fun _ => (0 : ℝ)) with
  | nil => rw [hl] at h; cases h
  | cons q l =>
    rw [hl] at h hz
    obtain ⟨x0, y0⟩ := q
    have e : y0 = 0 := hz (x0, y0) (by simp)
    subst e
    simp only [interp] at h
    rw [key l x0 fun q hq => hz q (by simp [hq])] at h
    simp only [ite_self, Except.ok.injEq] at h
    exact h.symm

/-- C133 fails for a file with more than three columns: the extinction coefficient of the third column is lost,
without an error. -/
theorem C133_fails_columns (c : Data.Codec) (own : ℝ) (head : Data.Line) {ls : List Data.Line}
    {tab : List (ℝ × ℝ × ℝ)} {more : List ℝ} (hmore : more ≠ []) (h2 : 2 ≤ tab.length)
    (h : List.Forall₂ (CsvRow c) ls (tab.map fun r => r.1 :: r.2.1 :: r.2.2 :: more)) :
    ∃ o, riNew c own (.file (head :: ls)) = .ok o ∧ ∀ x N, o.complex x = .ok N → N.im = 0 := by
  have hnew : riNew c own (.file (head :: ls)) = .ok (tableAttrs own (tab.map fun r => (r.1, r.2.1, 0))) := ?_
  · refine ⟨_, hnew, fun x N hN => ?_⟩
    unfold RIAttrs.complex at hN
    by_cases hany : ∃ a, (tableAttrs own (tab.map fun r => (r.1, r.2.1, 0))).wav = some a ∧ a.any
    · rw [if_pos hany] at hN
      simp only [tableAttrs, List.map_map, Function.comp_def] at hN
      generalize (nm (tab.map fun r => (r.1, r.2.1, 0))).map (·.1) = ws at hN
      cases ha : interp (ws.zip (tab.map fun r => r.2.1)) (pickWav own x) with
      | error => rw [ha] at hN; cases hN
      | ok a =>
        cases hb : interp (ws.zip (tab.map fun _ => 0)) (pickWav own x) with
        | error => rw [ha, hb] at hN; cases hN
        | ok b =>
          rw [ha, hb] at hN
          cases hN
          exact interp_zero hb
    · rw [if_neg hany] at hN
      cases hN
  have hm : ∀ r ∈ tab.map fun r => r.1 :: r.2.1 :: r.2.2 :: more, r.length = more.length + 3 := by
    intro r hr; obtain ⟨q, -, rfl⟩ := List.mem_map.mp hr; rfl
  simp only [riNew, loadtxt_csv h hm]
  change attrsOfVals own (fileVals _) = _
  rw [fileVals_rows hm (by omega) (by simpa using h2)]
  obtain ⟨a, more', rfl⟩ := List.exists_cons_of_ne_nil hmore
  simp only [List.length_cons]
  rw [List.range_succ_eq_map, List.range_succ_eq_map, List.range_succ_eq_map, List.range_succ_eq_map]
  simp [attrsOfVals, tableAttrs, nm, Attr.scale, Attr.zeros, Function.comp_def]

/-- C133 fails for a file without a heading: whatever the first line holds is ignored. -/
theorem C133_fails_headless (c : Data.Codec) (own : ℝ) (l l' : Data.Line) (ls : List Data.Line) :
    riNew c own (.file (l :: ls)) = riNew c own (.file (l' :: ls)) := by
  simp [riNew, Data.loadtxt]

/-- C133: the other forms of the argument: two numbers are an index for all wavelengths; `None` and objects of
other lengths are refused. -/
theorem C133_forms (c : Data.Codec) (own n k : ℝ) :
    (∃ o, riNew c own (.pair n k) = .ok o ∧ ∀ x, o.complex x = .ok ⟨n, k⟩) ∧
    riNew c own .none = .error .runtimeError ∧
    ∀ len h, riNew c own (.other len h) = .error .typeError := by
  refine ⟨⟨_, rfl, fun x => ?_⟩, rfl, fun _ _ => rfl⟩
  unfold RIAttrs.complex
  rw [if_neg]
  rintro ⟨a, ha, -⟩
  cases ha

/-! ### Non-vacuity -/

/-- A number format for the examples: unary numbers. -/
noncomputable def tally : Data.Codec := ⟨fun l => some l.length, fun l => some l.length, fun _ => []⟩

theorem tally_row {l : Data.Line} (h1 : ',' ∉ l) (h2 : '#' ∉ l) {m : Data.Line} (h3 : ',' ∉ m) (h4 : '#' ∉ m)
    {k : Data.Line} (h5 : ',' ∉ k) (h6 : '#' ∉ k) :
    CsvRow tally (l ++ ',' :: (m ++ ',' :: k)) [l.length, m.length, k.length] where
  fields := ⟨[l, m, k], by simp [List.intercalate, List.intersperse], by simp [h1, h3, h5], by simp [tally]⟩
  ne := by simp
  hash := by simp [h2, h4, h6]

/-- Non-vacuity of C133: a file with a heading and two rows, `(1 micron, 2, 1)` and `(2 micron, 3, 2)`. -/
example (own : ℝ) : ∃ o, riNew tally own (.file ["w,n,k".toList, "1,11,1".toList, "11,111,11".toList]) = .ok o ∧
    o.complex (some 1500) = .ok ⟨5 / 2, 3 / 2⟩ := by
  obtain ⟨o, h1, -, h2, -⟩ := C133_file_partial tally own "w,n,k".toList (ls := ["1,11,1".toList, "11,111,11".toList])
    (tab := [(1, 2, 1), (2, 3, 2)]) (by simp) (by simp [Increasing]) (by simp) (.inl (.cons
      (by
        have := tally_row (l := "1".toList) (m := "11".toList) (k := "1".toList) (by decide) (by decide) (by decide)
          (by decide) (by decide) (by decide)
        simpa using this)
      (.cons (by
        have := tally_row (l := "11".toList) (m := "111".toList) (k := "11".toList) (by decide) (by decide) (by decide)
          (by decide) (by decide) (by decide)
        simpa using this) .nil)))
  refine ⟨o, h1, ?_⟩
  rw [h2 (1, 2, 1) (2, 3, 2) ⟨[], [], rfl⟩ 1500 (by norm_num) (by norm_num)]
  norm_num [lerp]

/-- Non-vacuity of the exceptions: a file with one row, and one with four columns. -/
example (own : ℝ) : ∃ o, riNew tally own (.file ["w,n,k".toList, "1,11,1".toList]) = .ok o ∧
    o.complex (some 1500) = .error .valueError := by
  obtain ⟨o, h1, h2⟩ := C133_fails_one_row tally own "w,n,k".toList (l := "1,11,1".toList) (w := 1) (n := 2) (k := 1)
    one_ne_zero (by
      have := tally_row (l := "1".toList) (m := "11".toList) (k := "1".toList) (by decide) (by decide) (by decide)
        (by decide) (by decide) (by decide)
      simpa using this)
  exact ⟨o, h1, h2 _⟩

example : List.Forall₂ (CsvRow tally) ["1,1,1,".toList, "11,1,1,".toList]
    ([((1 : ℝ), (1 : ℝ), (1 : ℝ)), (2, 1, 1)].map fun r => r.1 :: r.2.1 :: r.2.2 :: [(0 : ℝ)]) := by
  refine .cons ⟨⟨["1".toList, "1".toList, "1".toList, []], by decide, by decide, ?_⟩, by decide, by decide⟩
    (.cons ⟨⟨["11".toList, "1".toList, "1".toList, []], by decide, by decide, ?_⟩, by decide, by decide⟩ .nil) <;>
    simp [tally]

end Verif.Disp
