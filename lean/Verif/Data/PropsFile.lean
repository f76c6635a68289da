import Verif.Data.PropsData

/-! # Properties of saving and loading (C64 - C67, C98) -/

namespace Verif.Data
open Verif.RModel

/-- What is assumed of the number formats, for the numbers in `Rep` (the binary64 numbers): what
`np.savetxt` writes is read back as the same number, and contains neither separators nor `#`; the
first field of the header is not a number. -/
structure Codec.Good (c : Codec) (Rep : ℝ → Prop) : Prop where
  pf : ∀ x, Rep x → ∃ y, c.pf (c.fmt x) = some y
  pl : ∀ x, Rep x → c.pl (c.fmt x) = some x
  tab : ∀ x, Rep x → '\t' ∉ c.fmt x
  hash : ∀ x, Rep x → '#' ∉ c.fmt x
  ne : ∀ x, Rep x → c.fmt x ≠ []
  header : c.pf "# wavelength".toList = none

/-- All numbers of the point can be represented. -/
def RepPt (Rep : ℝ → Prop) (q : Pt) : Prop := Rep q.1 ∧ Rep q.2.1 ∧ Rep q.2.2.1 ∧ Rep q.2.2.2

/-- The numbers of a point in the order of the columns. -/
def Pt.list (q : Pt) : List ℝ := [q.1, q.2.1, q.2.2.1, q.2.2.2]

/-- A file as written for these points. -/
def written (c : Codec) (pts : List Pt) : List Line := headerLine :: pts.map fun q => fmtRow c q.list

/-- The columns read are those of these points; those of a single point are scalars. -/
def ReadsAs (t : Cols) (pts : List Pt) : Prop :=
  t = ⟨⟨pts.length == 1, pts.map (·.1)⟩, ⟨pts.length == 1, pts.map (·.2.1)⟩,
    ⟨pts.length == 1, pts.map (·.2.2.1)⟩, ⟨pts.length == 1, pts.map (·.2.2.2)⟩⟩

theorem stack4_pts (pts : List Pt) : stack4 (pts.map (·.1)) (pts.map (·.2.1)) (pts.map (·.2.2.1))
    (pts.map (·.2.2.2)) = .ok (pts.map Pt.list) := by
  induction pts with
  | nil => rfl
  | cons q pts ih => simp only [List.map_cons, stack4, ih, Except.map, Pt.list]

/-- What `save` writes: the header and every point held, masked or not. -/
theorem save_eq (c : Codec) {h : Heap} {o : DS} {pts : List Pt} (hold : Holds h o pts) :
    save c h o = .ok (written c pts) := by
  unfold save written
  rw [hold.wav, hold.aoi, hold.psi, hold.dlt, stack4_pts]
  simp [Except.map]

theorem takeWhile_all {α : Type} {p : α → Bool} {l : List α} (h : ∀ x ∈ l, p x = true) :
    l.takeWhile p = l := by
  induction l with
  | nil => rfl
  | cons a l ih =>
    rw [List.takeWhile_cons, if_pos (h a (by simp)), ih fun x hx => h x (by simp [hx])]

section
variable {c : Codec} {Rep : ℝ → Prop} (hc : c.Good Rep) {q : Pt} (hq : RepPt Rep q)
include hc hq

omit hc hq in
theorem fmtRow_eq : fmtRow c q.list = c.fmt q.1 ++ '\t' :: (c.fmt q.2.1 ++ '\t' ::
    (c.fmt q.2.2.1 ++ '\t' :: c.fmt q.2.2.2)) := by
  simp [fmtRow, Pt.list, List.intercalate, List.intersperse]

theorem first_row : firstField '\t' (fmtRow c q.list) = c.fmt q.1 := by
  rw [fmtRow_eq]
  unfold firstField
  rw [List.takeWhile_append_of_pos]
  · simp
  · intro x hx
    have := hc.tab _ hq.1
    simp only [ne_eq, decide_not, Bool.not_eq_eq_eq_not, Bool.not_true, decide_eq_false_iff_not]
    rintro rfl
    exact this hx

theorem parse_row : parseRow c '\t' (fmtRow c q.list) = some q.list := by
  rw [fmtRow_eq]
  unfold parseRow
  obtain ⟨h1, h2, h3, h4⟩ := hq
  have key : ∀ (l r : Line), '\t' ∉ l → (l ++ '\t' :: r).splitOn '\t' = l :: r.splitOn '\t' := by
    intro l r hl
    rw [List.splitOn_append_cons_of_beq l r (by simp), List.splitOn_eq_singleton hl]
    rfl
  rw [key _ _ (hc.tab _ h1), key _ _ (hc.tab _ h2), key _ _ (hc.tab _ h3),
    List.splitOn_eq_singleton (hc.tab _ h4)]
  simp [hc.pl _ h1, hc.pl _ h2, hc.pl _ h3, hc.pl _ h4, Pt.list]

theorem row_comment : (fmtRow c q.list).takeWhile (· ≠ '#') = fmtRow c q.list := by
  apply takeWhile_all
  rw [fmtRow_eq]
  obtain ⟨h1, h2, h3, h4⟩ := hq
  have e1 := hc.hash _ h1
  have e2 := hc.hash _ h2
  have e3 := hc.hash _ h3
  have e4 := hc.hash _ h4
  intro x hx
  simp only [List.mem_append, List.mem_cons] at hx
  simp only [ne_eq, decide_not, Bool.not_eq_eq_eq_not, Bool.not_true, decide_eq_false_iff_not]
  rintro rfl
  simp [e1, e2, e3, e4] at hx

omit hc hq in
theorem row_ne : fmtRow c q.list ≠ [] := by
  rw [fmtRow_eq]
  simp

end

theorem dataLines_rows {c : Codec} {Rep : ℝ → Prop} (hc : c.Good Rep) {pts : List Pt}
    (hp : ∀ q ∈ pts, RepPt Rep q) :
    dataLines (pts.map fun q => fmtRow c q.list) = pts.map fun q => fmtRow c q.list := by
  unfold dataLines
  rw [List.map_map]
  have : pts.map ((fun l : Line => l.takeWhile (· ≠ '#')) ∘ fun q => fmtRow c q.list) =
      pts.map fun q => fmtRow c q.list :=
    List.map_congr_left fun q hq => row_comment hc (hp q hq)
  rw [this, List.filter_eq_self]
  intro l hl
  obtain ⟨q, hq, rfl⟩ := List.mem_map.mp hl
  have := row_ne (c := c) (q := q)
  cases h : fmtRow c q.list with
  | nil => exact absurd h this
  | cons => rfl

theorem mapM_rows {c : Codec} {Rep : ℝ → Prop} (hc : c.Good Rep) {pts : List Pt}
    (hp : ∀ q ∈ pts, RepPt Rep q) :
    (pts.map fun q => fmtRow c q.list).mapM (parseRow c '\t') = some (pts.map Pt.list) := by
  induction pts with
  | nil => rfl
  | cons q pts ih =>
    rw [List.map_cons, List.mapM_cons, parse_row hc (hp q (by simp)),
      ih fun q' hq' => hp q' (by simp [hq'])]
    rfl

theorem loadtxt_rows {c : Codec} {Rep : ℝ → Prop} (hc : c.Good Rep) {pts : List Pt}
    (hp : ∀ q ∈ pts, RepPt Rep q) {ls : List Line} {skip : ℕ}
    (hl : ls.drop skip = pts.map fun q => fmtRow c q.list) :
    loadtxt c '\t' skip ls = .ok (pts.map Pt.list) := by
  unfold loadtxt
  rw [hl, dataLines_rows hc hp, mapM_rows hc hp]
  simp only
  rw [if_pos]
  intro r hr r' hr'
  obtain ⟨q, _, rfl⟩ := List.mem_map.mp hr
  obtain ⟨q', _, rfl⟩ := List.mem_map.mp hr'
  rfl

theorem unpack_rows {pts : List Pt} (h1 : pts ≠ []) :
    unpack (pts.map Pt.list) = .ok ⟨⟨pts.length == 1, pts.map (·.1)⟩, ⟨pts.length == 1, pts.map (·.2.1)⟩,
      ⟨pts.length == 1, pts.map (·.2.2.1)⟩, ⟨pts.length == 1, pts.map (·.2.2.2)⟩⟩ := by
  match pts, h1 with
  | [q], _ => simp [unpack, Pt.list]
  | q :: q' :: pts, _ =>
    unfold unpack
    simp [Pt.list, Function.comp_def]

theorem skip_written {c : Codec} {Rep : ℝ → Prop} (hc : c.Good Rep) {pts : List Pt}
    (hp : ∀ q ∈ pts, RepPt Rep q) (hne : pts ≠ []) :
    countSkip c '\t' 100 (written c pts) = (1, (pts.tail.map fun q => fmtRow c q.list)) := by
  cases pts with
  | nil => exact absurd rfl hne
  | cons q pts =>
    have h0 : firstField '\t' headerLine = "# wavelength".toList := by decide
    obtain ⟨y, hy⟩ := hc.pf q.1 (hp q (by simp)).1
    simp only [written, countSkip, h0, hc.header, List.map_cons, first_row hc (hp q (by simp)), hy,
      List.tail_cons]

theorem loadName_written {c : Codec} {Rep : ℝ → Prop} (hc : c.Good Rep) {pts : List Pt}
    (hp : ∀ q ∈ pts, RepPt Rep q) (hne : pts ≠ []) :
    ∃ t, loadName c '\t' (written c pts) = .ok t ∧ ReadsAs t pts := by
  refine ⟨_, ?_, rfl⟩
  unfold loadName
  rw [skip_written hc hp hne, loadtxt_rows hc hp (by simp [written])]
  exact unpack_rows hne

theorem newCols_presents {pts : List Pt} {t : Cols} (ht : ReadsAs t pts) (h : Heap) {o : DS}
    (hw : o.wav = (newCols h t).1.1) (ha : o.aoi = (newCols h t).1.2.1)
    (hp : o.psi = (newCols h t).1.2.2.1) (hd : o.dlt = (newCols h t).1.2.2.2) (h1 : pts.length ≠ 1) :
    Holds (newCols h t).2 o pts := by
  have h1' : (pts.length == 1) = false := by simpa using h1
  obtain ⟨h1, h2, h3, h4⟩ := newCols_new h t
  rw [newCols_ref] at hw ha hp hd
  subst ht
  simp only [h1'] at h1 h2 h3 h4 ⊢
  exact ⟨by rw [hw]; exact h1, by rw [ha]; exact h2, by rw [hp]; exact h3, by rw [hd]; exact h4⟩

theorem presents_ones {h : Heap} {o : DS} {pts : List Pt} (hold : Holds h o pts)
    (hm : o.mask = some (pts.map fun _ => true)) : Presents h o pts := by
  have := (C59_mask_partial hold hm (by simp)).1
  rwa [← pick_eq, pick_ones _ _ rfl] at this

theorem presents_cols {h : Heap} {o : DS} {pts : List Pt} {b : Bool}
    (hw : h.arr o.wav = ⟨b, pts.map (·.1)⟩) (ha : h.arr o.aoi = ⟨b, pts.map (·.2.1)⟩)
    (hp : h.arr o.psi = ⟨b, pts.map (·.2.2.1)⟩) (hd : h.arr o.dlt = ⟨b, pts.map (·.2.2.2)⟩)
    (hm : o.mask = some (pts.map fun _ => true)) : Presents h o pts := by
  have key : ∀ f : Pt → ℝ, access ⟨b, pts.map f⟩ (some (pts.map fun _ => true)) =
      .ok (.vec (pts.map f)) := by
    intro f
    have e : pick (pts.map fun _ => true) (pts.map f) = pts.map f := by
      rw [pick_ones _ _ (by simp)]
    unfold access
    simp only [e]
    split
    · rfl
    · simp
  have hwv : wavelength h o = .ok (.vec (pts.map (·.1))) := by
    rw [wavelength, hw, hm]; exact key _
  refine ⟨hwv, ?_, ?_, ?_, ?_⟩
  · rw [aoi, ha, hm]; exact key _
  · rw [psi, hp, hm]; exact key _
  · rw [delta, hd, hm]; exact key _
  · simp [len, hwv]

theorem mk_file {c : Codec} {pts : List Pt} {t : Cols} (ht : ReadsAs t pts) {ls : List Line} {d : Char}
    (hl : loadName c d ls = .ok t) (h : Heap) (f : String) :
    ∃ o' h'', mk c h (.file f ls) false d = .ok (o', h'') ∧ Presents h'' o' pts ∧
      (pts.length ≠ 1 → Holds h'' o' pts) ∧ o'.filename = some f ∧ o'.delim = d := by
  have : ∃ r, mk c h (.file f ls) false d = .ok r ∧ Presents r.2 r.1 pts ∧
      (pts.length ≠ 1 → Holds r.2 r.1 pts) ∧ r.1.filename = some f ∧ r.1.delim = d := by
    simp only [mk, gather, hl, Except.map, Bool.false_eq_true, if_false]
    refine ⟨_, rfl, ?_, newCols_presents ht h rfl rfl rfl rfl, rfl, rfl⟩
    obtain ⟨h1, h2, h3, h4⟩ := newCols_new h t
    rw [newCols_ref]
    subst ht
    exact presents_cols h1 h2 h3 h4 (by simp [h1, onesLike])
  obtain ⟨r, h1, h2⟩ := this
  exact ⟨r.1, r.2, h1, h2⟩

theorem mk_handle {c : Codec} {pts : List Pt} {t : Cols} (ht : ReadsAs t pts) {ls : List Line}
    {d : Char} (hl : loadHandle c d ls = .ok t) (h : Heap) :
    ∃ o' h'', mk c h (.handle ls) false d = .ok (o', h'') ∧ Presents h'' o' pts := by
  have : ∃ r, mk c h (.handle ls) false d = .ok r ∧ Presents r.2 r.1 pts := by
    simp only [mk, gather, hl, Except.map, Bool.false_eq_true, if_false]
    refine ⟨_, rfl, ?_⟩
    obtain ⟨h1, h2, h3, h4⟩ := newCols_new h t
    rw [newCols_ref]
    subst ht
    exact presents_cols h1 h2 h3 h4 (by simp [h1, onesLike])
  obtain ⟨r, h1, h2⟩ := this
  exact ⟨r.1, r.2, h1, h2⟩

/-! ### C64, C65 round trip -/

/-- C64, partial: loading what was saved, with the default delimiter, gives all points (masked or
not, and with nothing masked) of a dataset with at least one point.  Missing: datasets with another
delimiter, see `C64_fails_delimiter`. -/
theorem C64_round_trip_partial {c : Codec} {Rep : ℝ → Prop} (hc : c.Good Rep) {h : Heap} {o : DS}
    {pts : List Pt} (hold : Holds h o pts) (hrep : ∀ q ∈ pts, RepPt Rep q) (hne : pts ≠ [])
    (h' : Heap) (f : String) :
    ∃ ls o' h'', save c h o = .ok ls ∧ mk c h' (.file f ls) false = .ok (o', h'') ∧
      Presents h'' o' pts := by
  obtain ⟨t, h1, ht⟩ := loadName_written hc hrep hne
  obtain ⟨o', h'', h3, h4, _⟩ := mk_file ht h1 h' f
  exact ⟨_, o', h'', save_eq c hold, h3, h4⟩

/-- `s` is the text of the line before the first delimiter. -/
def IsFirst (d : Char) (l s : Line) : Prop := d ∉ s ∧ (l = s ∨ ∃ rest, l = s ++ d :: rest)

/-- The line does not start with a number. -/
def NotNumber (c : Codec) (d : Char) (l : Line) : Prop := ∀ s, IsFirst d l s → c.pf s = none

/-- The line starts with a number. -/
def StartsNumber (c : Codec) (d : Char) (l : Line) : Prop := ∃ s y, IsFirst d l s ∧ c.pf s = some y

theorem isFirst_iff {d : Char} {l s : Line} : IsFirst d l s ↔ s = firstField d l := by
  unfold firstField
  constructor
  · rintro ⟨hd, h⟩
    have hs : ∀ x ∈ s, decide (x ≠ d) = true := by
      intro x hx
      rw [decide_eq_true_eq]
      rintro rfl
      exact hd hx
    rcases h with rfl | ⟨rest, rfl⟩
    · exact (takeWhile_all hs).symm
    · rw [List.takeWhile_append_of_pos hs, List.takeWhile_cons]
      simp
  · rintro rfl
    refine ⟨fun h => ?_, ?_⟩
    · have := List.all_takeWhile (p := fun x : Char => decide (x ≠ d)) (l := l)
      rw [List.all_eq_true] at this
      simpa using this _ h
    · have := List.takeWhile_append_dropWhile (p := fun x : Char => decide (x ≠ d)) (l := l)
      cases hr : l.dropWhile fun x : Char => decide (x ≠ d) with
      | nil => rw [hr, List.append_nil] at this; exact .inl this.symm
      | cons a rest =>
        have ha : a = d := by
          have := List.head?_dropWhile_not (fun x : Char => decide (x ≠ d)) l
          rw [hr] at this
          simpa using this
        rw [hr, ha] at this
        exact .inr ⟨rest, this.symm⟩

theorem notNumber_iff {c : Codec} {d : Char} {l : Line} : NotNumber c d l ↔ c.pf (firstField d l) = none :=
  ⟨fun h => h _ (isFirst_iff.2 rfl), fun h _ hs => isFirst_iff.1 hs ▸ h⟩

theorem startsNumber_iff {c : Codec} {d : Char} {l : Line} :
    StartsNumber c d l ↔ ∃ y, c.pf (firstField d l) = some y :=
  ⟨fun ⟨_, y, hs, hy⟩ => ⟨y, isFirst_iff.1 hs ▸ hy⟩, fun ⟨y, hy⟩ => ⟨_, y, isFirst_iff.2 rfl, hy⟩⟩

theorem skip_all {c : Codec} {d : Char} {ls : List Line}
    (h : ∀ l ∈ ls, NotNumber c d l) (n : ℕ) :
    (countSkip c d n ls).1 = n := by
  induction ls generalizing n with
  | nil => cases n <;> rfl
  | cons l ls ih =>
    cases n with
    | zero => rfl
    | succ n =>
      simp only [countSkip, notNumber_iff.1 (h l (by simp))]
      rw [ih (fun l' hl' => h l' (by simp [hl'])) n]

/-- C64 fails: `save` always separates by tabs, so a dataset with another delimiter (here at most 99
points, none of whose lines can be read as one number) cannot read its own file. -/
theorem C64_fails_delimiter {c : Codec} {h : Heap} {o : DS} {pts : List Pt} (hold : Holds h o pts)
    {d : Char} (hd : ∀ l ∈ written c pts, NotNumber c d l) (hn : pts.length < 100)
    (h' : Heap) (f : String) :
    ∃ ls, save c h o = .ok ls ∧ mk c h' (.file f ls) false d = .error .valueError := by
  refine ⟨_, save_eq c hold, ?_⟩
  have h1 : (countSkip c d 100 (written c pts)).1 = 100 := skip_all hd 100
  have h2 : (written c pts).drop 100 = [] := by
    apply List.drop_of_length_le
    simp [written]
    omega
  have h3 : loadName c d (written c pts) = .error .valueError := by
    unfold loadName loadtxt
    rw [h1, h2]
    simp [dataLines, unpack]
  simp [mk, gather, h3, Except.map]

/-- C65: a file cut off after the header and `k >= 1` whole lines loads as the first `k` points. -/
theorem C65_truncated {c : Codec} {Rep : ℝ → Prop} (hc : c.Good Rep) {h : Heap} {o : DS}
    {pts : List Pt} (hold : Holds h o pts) (hrep : ∀ q ∈ pts, RepPt Rep q) {k : ℕ} (h2 : 1 ≤ k)
    (hk : k ≤ pts.length) (h' : Heap) (f : String) :
    ∃ ls o' h'', save c h o = .ok ls ∧ mk c h' (.file f (ls.take (k + 1))) false = .ok (o', h'') ∧
      Presents h'' o' (pts.take k) := by
  have htake : (written c pts).take (k + 1) = written c (pts.take k) := by
    simp [written, List.map_take]
  obtain ⟨t, h1, ht⟩ := loadName_written hc (pts := pts.take k)
    (fun q hq => hrep q (List.mem_of_mem_take hq)) (by
      intro h0
      have := congrArg List.length h0
      rw [List.length_take, List.length_nil] at this
      omega)
  obtain ⟨o', h'', h3, h4, _⟩ := mk_file ht h1 h' f
  exact ⟨_, o', h'', save_eq c hold, by rw [htake]; exact h3, h4⟩

/-- C61 fails for a file with a single point: reading what `save` wrote for a one point dataset with
`reflect_delta` is a TypeError (the columns are scalars), although it can be read without. -/
theorem C61_fails_single {c : Codec} {Rep : ℝ → Prop} (hc : c.Good Rep) {h : Heap} {o : DS} {q : Pt}
    (hold : Holds h o [q]) (hrep : RepPt Rep q) (h' : Heap) (f : String) :
    ∃ ls, save c h o = .ok ls ∧ mk c h' (.file f ls) true = .error .typeError ∧
      ∃ o' h'', mk c h' (.file f ls) false = .ok (o', h'') ∧ Presents h'' o' [q] := by
  obtain ⟨t, h1, ht⟩ := loadName_written hc (pts := [q]) (by simpa using hrep) (by simp)
  obtain ⟨o', h'', h3, h4, _⟩ := mk_file ht h1 h' f
  refine ⟨_, save_eq c hold, ?_, o', h'', h3, h4⟩
  have hn := newCols_new h' t
  have hr := newCols_ref h' t
  simp [mk, gather, h1, Except.map, hr, hn.2.2.2]
  rw [show t = _ from ht]
  rfl

/-! ### C66 headers -/

theorem skip_header {c : Codec} {d : Char} {hdr body : List Line} {n : ℕ}
    (hh : ∀ l ∈ hdr, NotNumber c d l) (hn : hdr.length ≤ n)
    (hb : hdr.length = n ∨ ∃ l rest, body = l :: rest ∧ StartsNumber c d l) :
    (countSkip c d n (hdr ++ body)).1 = hdr.length ∧
      (hdr.length < n → (countSkip c d n (hdr ++ body)).2 = body.tail) := by
  induction hdr generalizing n with
  | nil =>
    cases n with
    | zero => simp [countSkip]
    | succ n =>
      rcases hb with hb | ⟨l, rest, rfl, hy⟩
      · simp at hb
      · obtain ⟨y, hy⟩ := startsNumber_iff.1 hy
        simp [countSkip, hy]
  | cons l hdr ih =>
    cases n with
    | zero => simp at hn
    | succ n =>
      have h1 := ih (n := n) (fun l' hl' => hh l' (by simp [hl'])) (by simpa using hn)
        (by simpa using hb)
      simp only [List.cons_append, countSkip, notNumber_iff.1 (hh l (by simp)), List.length_cons, add_lt_add_iff_right]
      exact ⟨by rw [h1.1], h1.2⟩

/-- The line is a line of data for this point: four numbers, no comment. -/
def IsDataLine (c : Codec) (d : Char) (l : Line) (q : Pt) : Prop :=
  (l.splitOn d).map c.pl = q.list.map some ∧ '#' ∉ l ∧ l ≠ []

theorem mapM_map {α β : Type} {f : α → Option β} {l : List α} {r : List β}
    (h : l.map f = r.map some) : l.mapM f = some r := by
  induction l generalizing r with
  | nil => cases r <;> simp_all
  | cons a l ih =>
    cases r with
    | nil => simp at h
    | cons b r =>
      simp only [List.map_cons, List.cons.injEq] at h
      rw [List.mapM_cons, h.1, ih h.2]
      rfl

theorem loadtxt_lines {c : Codec} {d : Char} {body : List Line} {pts : List Pt}
    (hb : List.Forall₂ (IsDataLine c d) body pts) {ls : List Line} {skip : ℕ}
    (hl : ls.drop skip = body) : loadtxt c d skip ls = .ok (pts.map Pt.list) := by
  have h1 : dataLines body = body := by
    clear hl
    unfold dataLines
    induction hb with
    | nil => rfl
    | @cons l q _ _ h _ ih =>
      have e : l.takeWhile (· ≠ '#') = l := takeWhile_all (by
        intro x hx
        simp only [ne_eq, decide_not, Bool.not_eq_eq_eq_not, Bool.not_true, decide_eq_false_iff_not]
        rintro rfl
        exact h.2.1 hx)
      rw [List.map_cons, e, List.filter_cons, if_pos, ih]
      cases l with
      | nil => exact absurd rfl h.2.2
      | cons => rfl
  have h2 : body.mapM (parseRow c d) = some (pts.map Pt.list) := by
    clear hl h1
    induction hb with
    | nil => rfl
    | cons h _ ih =>
      rw [List.mapM_cons, ih]
      unfold parseRow
      rw [mapM_map h.1]
      rfl
  unfold loadtxt
  rw [hl, h1, h2]
  simp only
  rw [if_pos]
  intro r hr r' hr'
  obtain ⟨q, _, rfl⟩ := List.mem_map.mp hr
  obtain ⟨q', _, rfl⟩ := List.mem_map.mp hr'
  rfl

/-- C66: loading by name skips the leading lines whose first field is not a number, up to 100 of
them, and reads every line after that. -/
theorem C66_header {c : Codec} {d : Char} {hdr body : List Line} {pts : List Pt}
    (hh : ∀ l ∈ hdr, NotNumber c d l) (hn : hdr.length ≤ 100)
    (hf : hdr.length = 100 ∨ ∃ l rest, body = l :: rest ∧ StartsNumber c d l)
    (hb : List.Forall₂ (IsDataLine c d) body pts) (hne : pts ≠ []) (h : Heap) (f : String) :
    ∃ o h', mk c h (.file f (hdr ++ body)) false d = .ok (o, h') ∧ Presents h' o pts := by
  have hl : loadName c d (hdr ++ body) = .ok ⟨⟨pts.length == 1, pts.map (·.1)⟩,
      ⟨pts.length == 1, pts.map (·.2.1)⟩, ⟨pts.length == 1, pts.map (·.2.2.1)⟩,
      ⟨pts.length == 1, pts.map (·.2.2.2)⟩⟩ := by
    unfold loadName
    rw [(skip_header hh hn hf).1, loadtxt_lines hb (by simp)]
    exact unpack_rows hne
  obtain ⟨o, h', h1, h2, _⟩ := mk_file rfl hl h f
  exact ⟨o, h', h1, h2⟩

/-- C66: a file with more than 100 header lines is not read (a ValueError from the first of them that
is not a comment and not a row of numbers). -/
theorem C66_too_long {c : Codec} {d : Char} {hdr rest : List Line} {l : Line}
    (hh : ∀ l ∈ hdr, NotNumber c d l) (hn : hdr.length = 100)
    (hl : '#' ∉ l) (hne : l ≠ []) (hp : ∃ x ∈ l.splitOn d, c.pl x = none) (h : Heap) (f : String)
    (r : Bool) : mk c h (.file f (hdr ++ l :: rest)) r d = .error .valueError := by
  suffices hs : loadName c d (hdr ++ l :: rest) = .error .valueError by simp [mk, gather, hs, Except.map]
  have hp : parseRow c d l = none := by
    obtain ⟨x, hx, hx'⟩ := hp
    unfold parseRow
    revert hx
    generalize l.splitOn d = fs
    intro hx
    induction fs with
    | nil => simp at hx
    | cons y fs ih =>
      rw [List.mapM_cons]
      rcases List.mem_cons.mp hx with rfl | hx
      · rw [hx']; rfl
      · rw [ih hx]
        cases c.pl y <;> rfl
  unfold loadName loadtxt
  rw [(skip_header hh hn.le (.inl hn)).1, List.drop_left]
  have e : l.takeWhile (· ≠ '#') = l := takeWhile_all (by
    intro x hx
    simp only [ne_eq, decide_not, Bool.not_eq_eq_eq_not, Bool.not_true, decide_eq_false_iff_not]
    rintro rfl
    exact hl hx)
  have e2 : dataLines (l :: rest) = l :: dataLines rest := by
    unfold dataLines
    rw [List.map_cons, e, List.filter_cons, if_pos]
    cases l with
    | nil => exact absurd rfl hne
    | cons => rfl
  rw [e2, List.mapM_cons, hp]
  rfl

theorem loadInto_holds {c : Codec} {o : DS} {hdr body : List Line} {pts : List Pt}
    (hh : ∀ l ∈ hdr, NotNumber c o.delim l) (hn : hdr.length ≤ 100)
    (hf : hdr.length = 100 ∨ ∃ l rest, body = l :: rest ∧ StartsNumber c o.delim l)
    (hb : List.Forall₂ (IsDataLine c o.delim) body pts) (h2 : 2 ≤ pts.length) (h : Heap) :
    ∃ o' h', loadInto c h o (hdr ++ body) = .ok (o', h') ∧ Holds h' o' pts ∧ o'.mask = o.mask := by
  have hl : loadName c o.delim (hdr ++ body) = .ok ⟨⟨pts.length == 1, pts.map (·.1)⟩,
      ⟨pts.length == 1, pts.map (·.2.1)⟩, ⟨pts.length == 1, pts.map (·.2.2.1)⟩,
      ⟨pts.length == 1, pts.map (·.2.2.2)⟩⟩ := by
    unfold loadName
    rw [(skip_header hh hn hf).1, loadtxt_lines hb (by simp)]
    exact unpack_rows (by rintro rfl; simp at h2)
  unfold loadInto
  rw [hl]
  exact ⟨_, _, rfl, newCols_presents rfl h rfl rfl rfl rfl (by omega), rfl⟩

/-! ### C67 handles and refresh -/

/-- C67, partial: from an open handle, with `k < 100` header lines, the data lines are read in order,
but without the first `k + 1` of them.  Missing: those lines, see `C67_fails_handle`. -/
theorem C67_handle_partial {c : Codec} {d : Char} {hdr body : List Line} {pts : List Pt}
    (hh : ∀ l ∈ hdr, NotNumber c d l) (hn : hdr.length < 100)
    (hf : ∃ l rest, body = l :: rest ∧ StartsNumber c d l)
    (hb : List.Forall₂ (IsDataLine c d) body pts) (h2 : hdr.length + 2 ≤ pts.length) (h : Heap) :
    ∃ o h', mk c h (.handle (hdr ++ body)) false d = .ok (o, h') ∧
      Presents h' o (pts.drop (hdr.length + 1)) := by
  suffices ht : ∃ t, loadHandle c d (hdr ++ body) = .ok t ∧ ReadsAs t (pts.drop (hdr.length + 1)) by
    obtain ⟨t, h1, ht⟩ := ht
    exact mk_handle ht h1 h
  refine ⟨_, ?_, rfl⟩
  unfold loadHandle
  obtain ⟨e1, e2⟩ := skip_header hh hn.le (.inr hf)
  have hb' : List.Forall₂ (IsDataLine c d) (body.drop (hdr.length + 1)) (pts.drop (hdr.length + 1)) :=
    List.forall₂_drop _ hb
  rw [e1, e2 hn, loadtxt_lines hb' (by rw [List.drop_tail])]
  exact unpack_rows (by
    intro h0
    have := congrArg List.length h0
    simp at this
    omega)

theorem loadHandle_written {c : Codec} {Rep : ℝ → Prop} (hc : c.Good Rep) {pts : List Pt}
    (hp : ∀ q ∈ pts, RepPt Rep q) (h4 : 4 ≤ pts.length) :
    ∃ t, loadHandle c '\t' (written c pts) = .ok t ∧ ReadsAs t (pts.drop 2) := by
  refine ⟨_, ?_, rfl⟩
  have hne : pts ≠ [] := by rintro rfl; simp at h4
  unfold loadHandle
  rw [skip_written hc hp hne, loadtxt_rows hc (pts := pts.drop 2)
    (fun q hq => hp q (List.mem_of_mem_drop hq)) (by
      rw [← List.drop_one, List.map_drop, List.drop_drop, List.map_drop]; rfl)]
  exact unpack_rows (by
    intro h0
    have := congrArg List.length h0
    rw [List.length_drop, List.length_nil] at this
    omega)

/-- C67 fails: a saved dataset loaded from an open handle lacks the first two points. -/
theorem C67_fails_handle {c : Codec} {Rep : ℝ → Prop} (hc : c.Good Rep) {h : Heap} {o : DS}
    {pts : List Pt} (hold : Holds h o pts) (hrep : ∀ q ∈ pts, RepPt Rep q) (h4 : 4 ≤ pts.length)
    (h' : Heap) (f : String) :
    ∃ ls, save c h o = .ok ls ∧
      (∃ o' h'', mk c h' (.file f ls) false = .ok (o', h'') ∧ Presents h'' o' pts) ∧
      ∃ o' h'', mk c h' (.handle ls) false = .ok (o', h'') ∧ Presents h'' o' (pts.drop 2) := by
  obtain ⟨t, h1, ht⟩ := loadName_written hc hrep (by rintro rfl; simp at h4)
  obtain ⟨t', h1', ht'⟩ := loadHandle_written hc hrep h4
  obtain ⟨o', h'', h3, h5, _⟩ := mk_file ht h1 h' f
  exact ⟨_, save_eq c hold, ⟨o', h'', h3, h5⟩, mk_handle ht' h1' h'⟩

/-- C67 fails: refreshing a dataset loaded from a saved file loses the first two points (or, if refnx
opens the file for writing, raises and empties the file). -/
theorem C67_fails_refresh {c : Codec} {Rep : ℝ → Prop} (hc : c.Good Rep) {pts : List Pt}
    (hrep : ∀ q ∈ pts, RepPt Rep q) (h4 : 4 ≤ pts.length) (h : Heap) (f : String) :
    ∃ o h', mk c h (.file f (written c pts)) false = .ok (o, h') ∧ Presents h' o pts ∧
      (∃ o' h'', refresh c .read h' o (written c pts) = (.ok (o', h''), written c pts) ∧
        Holds h'' o' (pts.drop 2)) ∧
      refresh c .write h' o (written c pts) = (.error .external, []) := by
  obtain ⟨t, h1, ht⟩ := loadName_written hc hrep (by rintro rfl; simp at h4)
  obtain ⟨t', h1', ht'⟩ := loadHandle_written hc hrep h4
  obtain ⟨o, h', h3, h5, _, h6, h7⟩ := mk_file ht h1 h f
  refine ⟨o, h', h3, h5, ?_, by simp [refresh, h6]⟩
  simp only [refresh, h6, h7, h1', Except.map]
  exact ⟨_, _, rfl, newCols_presents ht' h' rfl rfl rfl rfl (by simp; omega)⟩

/-- C98 fails: refreshing a reflected dataset brings back deltas above 180 while the flag remains. -/
theorem C98_fails_refresh {c : Codec} {Rep : ℝ → Prop} (hc : c.Good Rep) {pts : List Pt}
    (hrep : ∀ q ∈ pts, RepPt Rep q) (h4 : 4 ≤ pts.length) {q : Pt} (hq : q ∈ pts.drop 2)
    (h180 : 180 < q.2.2.2) (h : Heap) {o : DS} (hf : o.flipped = true) {f : String}
    (hn : o.filename = some f) (hd : o.delim = '\t') :
    ∃ o' h', refresh c .read h o (written c pts) = (.ok (o', h'), written c pts) ∧
      ¬ Consistent h' o' := by
  obtain ⟨t', h1', ht'⟩ := loadHandle_written hc hrep h4
  simp only [refresh, hn, hd, h1', Except.map]
  refine ⟨_, _, rfl, fun hcon => ?_⟩
  have hold : Holds (newCols h t').2 { o with wav := (newCols h t').1.1, aoi := (newCols h t').1.2.1,
                                              psi := (newCols h t').1.2.2.1,
                                              dlt := (newCols h t').1.2.2.2 } (pts.drop 2) :=
    newCols_presents ht' h rfl rfl rfl rfl (by simp; omega)
  have := hcon hf q.2.2.2 (by rw [hold.dlt]; exact List.mem_map_of_mem hq)
  linarith

/-! ### C127 loading into an existing dataset -/

/-- C127, partial: if the file has as many points as the mask of the dataset has entries, then after
`data.load(file)` the dataset presents the points of the file that the *old* mask lets through.  Missing: files
of another length, and getting rid of the mask, see `C127_fails_length` and `C127_fails_mask`. -/
theorem C127_load_partial {c : Codec} {o : DS} {hdr body : List Line} {pts : List Pt}
    (hh : ∀ l ∈ hdr, NotNumber c o.delim l) (hn : hdr.length ≤ 100)
    (hf : hdr.length = 100 ∨ ∃ l rest, body = l :: rest ∧ StartsNumber c o.delim l)
    (hb : List.Forall₂ (IsDataLine c o.delim) body pts) (h2 : 2 ≤ pts.length) (h : Heap) {m : List Bool}
    (hm : o.mask = some m) (hlen : m.length = pts.length) :
    ∃ o' h', loadInto c h o (hdr ++ body) = .ok (o', h') ∧
      Presents h' o' (((m.zip pts).filter (·.1)).map (·.2)) := by
  obtain ⟨o', h', h1, hh2, h3⟩ := loadInto_holds hh hn hf hb h2 h
  exact ⟨o', h', h1, (C59_mask_partial hh2 (h3.trans hm) hlen).1⟩

/-- C127 fails: loading a file with another number of points than the dataset had before leaves a dataset
none of whose accessors works, although nothing was ever masked. -/
theorem C127_fails_length {c : Codec} {o : DS} {hdr body : List Line} {pts old : List Pt}
    (hh : ∀ l ∈ hdr, NotNumber c o.delim l) (hn : hdr.length ≤ 100)
    (hf : hdr.length = 100 ∨ ∃ l rest, body = l :: rest ∧ StartsNumber c o.delim l)
    (hb : List.Forall₂ (IsDataLine c o.delim) body pts) (h2 : 2 ≤ pts.length) (h : Heap)
    (hold : Holds h o old) (hm : o.mask = some (onesLike (h.arr o.wav))) (hlen : old.length ≠ pts.length) :
    Presents h o old ∧ ∃ o' h', loadInto c h o (hdr ++ body) = .ok (o', h') ∧
      wavelength h' o' = .error .indexError ∧ aoi h' o' = .error .indexError ∧
      psi h' o' = .error .indexError ∧ delta h' o' = .error .indexError := by
  refine ⟨presents_ones hold (by rw [hm, onesLike, hold.wav]; simp), ?_⟩
  obtain ⟨o', h', h1, hh2, h3⟩ := loadInto_holds hh hn hf hb h2 h
  exact ⟨o', h', h1, C59_wrong_length hh2 (h3.trans hm) (by simpa [onesLike, hold.wav] using hlen) (by rintro rfl; simp at h2)⟩

/-- C127 fails: a point that the old mask hides stays hidden after another file is loaded. -/
theorem C127_fails_mask {c : Codec} {o : DS} {hdr body : List Line} {pts : List Pt}
    (hh : ∀ l ∈ hdr, NotNumber c o.delim l) (hn : hdr.length ≤ 100)
    (hf : hdr.length = 100 ∨ ∃ l rest, body = l :: rest ∧ StartsNumber c o.delim l)
    (hb : List.Forall₂ (IsDataLine c o.delim) body pts) (h2 : 2 ≤ pts.length) (h : Heap) {m : List Bool}
    (hm : o.mask = some m) (hlen : m.length = pts.length) (hhide : false ∈ m) :
    ∃ o' h' n, loadInto c h o (hdr ++ body) = .ok (o', h') ∧ len h' o' = .ok n ∧ n < pts.length := by
  obtain ⟨o', h', h1, hh2, h3⟩ := loadInto_holds hh hn hf hb h2 h
  refine ⟨o', h', m.count true, h1, (C59_mask_partial hh2 (h3.trans hm) hlen).2, ?_⟩
  rw [← hlen]
  refine lt_of_le_of_ne List.count_le_length fun hc => ?_
  have := List.count_eq_length.1 hc false hhide
  simp at this

/-- C127 fails: refreshing a dataset that was read from a file of at least four points, if it succeeds, leaves
a dataset none of whose accessors works. -/
theorem C127_fails_refresh {c : Codec} {Rep : ℝ → Prop} (hc : c.Good Rep) {pts : List Pt}
    (hrep : ∀ q ∈ pts, RepPt Rep q) (h4 : 4 ≤ pts.length) (h : Heap) (f : String) :
    ∃ o h' o' h'', mk c h (.file f (written c pts)) false = .ok (o, h') ∧ Presents h' o pts ∧
      refresh c .read h' o (written c pts) = (.ok (o', h''), written c pts) ∧
      wavelength h'' o' = .error .indexError ∧ aoi h'' o' = .error .indexError ∧
      psi h'' o' = .error .indexError ∧ delta h'' o' = .error .indexError := by
  obtain ⟨t, h1, ht⟩ := loadName_written hc hrep (by rintro rfl; simp at h4)
  obtain ⟨t', h1', ht'⟩ := loadHandle_written hc hrep h4
  obtain ⟨o, h', h3, h5, h8, h6, h7⟩ := mk_file ht h1 h f
  have hmask : ∃ m, o.mask = some m ∧ m.length = pts.length := by
    have hold := h8 (by omega)
    have hne : pts ≠ [] := by rintro rfl; simp at h4
    cases hm : o.mask with
    | none => exact absurd h5 (C59_fails_none hold hm hne).2
    | some m =>
      refine ⟨m, rfl, ?_⟩
      by_contra hl
      have := (C59_wrong_length hold hm hl hne).1
      rw [h5.wav] at this
      simp at this
  obtain ⟨m, hm, hml⟩ := hmask
  refine ⟨o, h', _, _, h3, h5, by simp only [refresh, h6, h7, h1', Except.map]; rfl, ?_⟩
  refine C59_wrong_length (newCols_presents ht' h' rfl rfl rfl rfl (by simp; omega)) hm (by simp; omega) ?_
  intro h0
  have := congrArg List.length h0
  simp at this
  omega

/-! ### Non-vacuity: a number format -/

/-- Natural numbers written in unary, ended by a full stop. -/
noncomputable def unary : Codec :=
  let parse (l : Line) : Option ℝ :=
    if l.getLast? = some '.' ∧ l.dropLast.all (· = '1') then some ((l.length - 1 : ℕ) : ℝ) else none
  { pf := parse, pl := parse,
    fmt := fun x => List.replicate ⌊x⌋₊ '1' ++ ['.'] }

theorem unary_good : unary.Good fun x => ∃ n : ℕ, x = n := by
  have key : ∀ n : ℕ, unary.pl (unary.fmt n) = some (n : ℝ) := by
    intro n
    simp [unary]
  constructor
  · rintro x ⟨n, rfl⟩
    exact ⟨n, key n⟩
  · rintro x ⟨n, rfl⟩
    exact key n
  · rintro x ⟨n, rfl⟩
    simp [unary]
  · rintro x ⟨n, rfl⟩
    simp [unary]
  · rintro x ⟨n, rfl⟩
    simp [unary]
  · simp [unary]

theorem exPts_rep : ∀ q ∈ exPts, RepPt (fun x => ∃ n : ℕ, x = n) q := by
  intro q hq
  simp only [exPts, List.mem_cons, List.not_mem_nil, or_false] at hq
  rcases hq with rfl | rfl | rfl
  · exact ⟨⟨400, by norm_num⟩, ⟨60, by norm_num⟩, ⟨20, by norm_num⟩, ⟨100, by norm_num⟩⟩
  · exact ⟨⟨500, by norm_num⟩, ⟨60, by norm_num⟩, ⟨30, by norm_num⟩, ⟨200, by norm_num⟩⟩
  · exact ⟨⟨400, by norm_num⟩, ⟨70, by norm_num⟩, ⟨25, by norm_num⟩, ⟨180, by norm_num⟩⟩

example : ∃ ls o' h'', save unary exHeap (exDS [true, false, true]) = .ok ls ∧
    mk unary exHeap (.file "f" ls) false = .ok (o', h'') ∧ Presents h'' o' exPts :=
  C64_round_trip_partial unary_good (exHolds _) exPts_rep (by simp [exPts]) _ _

example : ∃ ls o' h'', save unary exHeap (exDS [true, false, true]) = .ok ls ∧
    mk unary exHeap (.file "f" (ls.take 2)) false = .ok (o', h'') ∧
    Presents h'' o' [(400, 60, 20, 100)] :=
  C65_truncated unary_good (exHolds _) exPts_rep (k := 1) le_rfl (by simp [exPts]) _ _

/-- The lines written for points are lines of data. -/
theorem rows_dataLines {c : Codec} {Rep : ℝ → Prop} (hc : c.Good Rep) {pts : List Pt}
    (hp : ∀ q ∈ pts, RepPt Rep q) :
    List.Forall₂ (IsDataLine c '\t') (pts.map fun q => fmtRow c q.list) pts := by
  induction pts with
  | nil => exact .nil
  | cons q pts ih =>
    refine .cons ⟨?_, ?_, row_ne⟩ (ih fun r hr => hp r (by simp [hr]))
    · have h := parse_row hc (hp q (by simp))
      unfold parseRow at h
      have key : ∀ (l : List Line) (r : List ℝ), l.mapM c.pl = some r → l.map c.pl = r.map some := by
        intro l
        induction l with
        | nil => intro r hr; simp_all
        | cons x l ih =>
          intro r hr
          rw [List.mapM_cons] at hr
          cases hx : c.pl x with
          | none => simp [hx] at hr
          | some y =>
            cases hl : l.mapM c.pl with
            | none => simp [hx, hl] at hr
            | some ys =>
              simp [hx, hl] at hr
              subst hr
              simp [hx, ih ys hl]
      exact key _ _ h
    · intro hmem
      have h := row_comment hc (hp q (by simp))
      change '#' ∈ fmtRow c q.list at hmem
      rw [← h] at hmem
      have := List.all_takeWhile (p := fun x : Char => decide (x ≠ '#')) (l := fmtRow c q.list)
      rw [List.all_eq_true] at this
      simpa using this _ hmem

/-- Two lines of header, three points. -/
def exHdr : List Line := ["instrument 7".toList, "wavelength\tangle\tpsi\tdelta".toList]

theorem exHdr_none : ∀ l ∈ exHdr, NotNumber unary '\t' l := by
  intro l hl
  rw [notNumber_iff]
  simp only [exHdr, List.mem_cons, List.not_mem_nil, or_false] at hl
  rcases hl with rfl | rfl <;> simp [unary, firstField]

theorem exBody_first : ∃ l rest, (exPts.map fun q => fmtRow unary q.list) = l :: rest ∧
    StartsNumber unary '\t' l := by
  obtain ⟨y, hy⟩ := unary_good.pf 400 ⟨400, by norm_num⟩
  refine ⟨_, _, rfl, startsNumber_iff.2 ⟨y, ?_⟩⟩
  have := first_row unary_good (exPts_rep (400, 60, 20, 100) (by simp [exPts]))
  exact (congrArg unary.pf this).trans hy

example : ∃ o h', mk unary exHeap (.file "f" (exHdr ++ exPts.map fun q => fmtRow unary q.list)) false
    = .ok (o, h') ∧ Presents h' o exPts :=
  C66_header exHdr_none (by simp [exHdr]) (.inr exBody_first) (rows_dataLines unary_good exPts_rep)
    (by simp [exPts]) _ _

/-- Another file with three points, into a dataset with one of three points masked. -/
example : ∃ o' h', loadInto unary exHeap (exDS [true, false, true])
    (exHdr ++ exPts.map fun q => fmtRow unary q.list) = .ok (o', h') ∧
      Presents h' o' [(400, 60, 20, 100), (400, 70, 25, 180)] := by
  simpa [exPts] using C127_load_partial (o := exDS [true, false, true]) exHdr_none (by simp [exHdr])
    (.inr exBody_first) (rows_dataLines unary_good exPts_rep) (by simp [exPts]) exHeap rfl (by simp [exPts])

/-- A file with two points, into a dataset of three points of which none is masked. -/
example : ∃ o' h', loadInto unary exHeap (exDS [true, true, true])
    (exHdr ++ (exPts.take 2).map fun q => fmtRow unary q.list) = .ok (o', h') ∧
      wavelength h' o' = .error .indexError :=
  have ⟨_, o', h', h1, h2, _⟩ := C127_fails_length (o := exDS [true, true, true]) exHdr_none (by simp [exHdr])
    (.inr (by
      obtain ⟨l, rest, h, hs⟩ := exBody_first
      simp only [exPts, List.map_cons, List.cons.injEq] at h
      rw [← h.1] at hs
      exact ⟨_, _, rfl, hs⟩))
    (rows_dataLines unary_good fun q hq => exPts_rep q (List.mem_of_mem_take hq)) (by simp [exPts]) exHeap
    (exHolds _) (by simp [exDS, onesLike, exHeap]) (by simp [exPts])
  ⟨o', h', h1, h2⟩

/-- Six points are at least four. -/
example : 4 ≤ (exPts ++ exPts).length ∧ ∀ q ∈ exPts ++ exPts, RepPt (fun x => ∃ n : ℕ, x = n) q :=
  ⟨by simp [exPts], fun q hq => exPts_rep q (by simpa using hq)⟩

/-- With no header the first of the three points is lost. -/
example : ∃ o h', mk unary exHeap (.handle ([] ++ exPts.map fun q => fmtRow unary q.list)) false
    = .ok (o, h') ∧ Presents h' o [(500, 60, 30, 200), (400, 70, 25, 180)] :=
  C67_handle_partial (by simp) (by simp) exBody_first (rows_dataLines unary_good exPts_rep)
    (by simp [exPts]) _

end Verif.Data
