import Verif.Data.Lemmas

/-! # Properties of datasets in memory (C59 - C63, C68, C98) -/

namespace Verif.Data
open Verif.RModel

/-- A measured point: wavelength, angle of incidence, psi, delta. -/
abbrev Pt := ℝ × ℝ × ℝ × ℝ

/-- The dataset holds these points (masked or not) in arrays. -/
structure Holds (h : Heap) (o : DS) (pts : List Pt) : Prop where
  wav : h.arr o.wav = ⟨false, pts.map (·.1)⟩
  aoi : h.arr o.aoi = ⟨false, pts.map (·.2.1)⟩
  psi : h.arr o.psi = ⟨false, pts.map (·.2.2.1)⟩
  dlt : h.arr o.dlt = ⟨false, pts.map (·.2.2.2)⟩

/-- The dataset presents these points to its user. -/
structure Presents (h : Heap) (o : DS) (pts : List Pt) : Prop where
  wav : wavelength h o = .ok (.vec (pts.map (·.1)))
  aoi : aoi h o = .ok (.vec (pts.map (·.2.1)))
  psi : psi h o = .ok (.vec (pts.map (·.2.2.1)))
  dlt : delta h o = .ok (.vec (pts.map (·.2.2.2)))
  len : len h o = .ok pts.length

theorem access_pick {pts : List Pt} (f : Pt → ℝ) {m : List Bool} (hm : m.length = pts.length) :
    access ⟨false, pts.map f⟩ (some m) = .ok (.vec ((pick m pts).map f)) := by
  cases pts with
  | nil =>
    have : pick m ([] : List Pt) = [] := by cases m <;> simp_all [pick]
    simp [access, this]
  | cons p pts =>
    simp [access, hm]
    rw [← List.map_cons, pick_map]

/-! ### C59 masks -/

/-- C59, partial: with a boolean mask of the right length the four accessors give the points whose mask
entry is True, in order and still aligned, and `len` is their number.  Missing: `mask = None`, see
`C59_fails_none`. -/
theorem C59_mask_partial {h : Heap} {o : DS} {pts : List Pt} (hold : Holds h o pts) {m : List Bool}
    (hm : o.mask = some m) (hlen : m.length = pts.length) :
    Presents h o (((m.zip pts).filter (·.1)).map (·.2)) ∧
      len h o = .ok (m.count true) := by
  rw [← pick_eq]
  have hw : wavelength h o = .ok (.vec ((pick m pts).map (·.1))) := by
    rw [wavelength, hold.wav, hm]; exact access_pick _ hlen
  have hl : len h o = .ok (pick m pts).length := by
    unfold len
    rw [hw]
    simp
  refine ⟨⟨hw, ?_, ?_, ?_, hl⟩, by rw [hl, pick_length _ _ hlen]⟩
  · rw [aoi, hold.aoi, hm]; exact access_pick _ hlen
  · rw [psi, hold.psi, hm]; exact access_pick _ hlen
  · rw [delta, hold.dlt, hm]; exact access_pick _ hlen

/-- C59: a mask of another length is an IndexError. -/
theorem C59_wrong_length {h : Heap} {o : DS} {pts : List Pt} (hold : Holds h o pts) {m : List Bool}
    (hm : o.mask = some m) (hlen : m.length ≠ pts.length) (hne : pts ≠ []) :
    wavelength h o = .error .indexError ∧ aoi h o = .error .indexError ∧
      psi h o = .error .indexError ∧ delta h o = .error .indexError := by
  simp [wavelength, aoi, psi, delta, hold.wav, hold.aoi, hold.psi, hold.dlt, hm, access, hne, hlen]

/-- C59 fails for the documented way of clearing a mask: after `data.mask = None` the accessors
return 2-d arrays. -/
theorem C59_fails_none {h : Heap} {o : DS} {pts : List Pt} (hold : Holds h o pts)
    (hm : o.mask = none) (hne : pts ≠ []) :
    wavelength h o = .ok (.row (pts.map (·.1))) ∧ ¬ Presents h o pts := by
  have hw : wavelength h o = .ok (.row (pts.map (·.1))) := by
    simp [wavelength, hold.wav, hm, access, hne]
  refine ⟨hw, fun hp => ?_⟩
  have := hp.wav
  rw [hw] at this
  simp at this

/-! ### C60 the data setter -/

theorem setData_holds (h : Heap) (o : DS) (pts : List Pt) :
    Holds (setData h o (pts.map (·.1)) (pts.map (·.2.1)) (pts.map (·.2.2.1)) (pts.map (·.2.2.2))).2
      (setData h o (pts.map (·.1)) (pts.map (·.2.1)) (pts.map (·.2.2.1)) (pts.map (·.2.2.2))).1 pts := by
  obtain ⟨h1, h2, h3, h4⟩ := newCols_new h ⟨⟨false, pts.map (·.1)⟩, ⟨false, pts.map (·.2.1)⟩,
    ⟨false, pts.map (·.2.2.1)⟩, ⟨false, pts.map (·.2.2.2)⟩⟩
  exact ⟨h1, h2, h3, h4⟩

/-- C60: after setting the data the accessors return exactly the given points, nothing is masked, no
existing array is changed, and later modifications of any array that existed before are not seen. -/
theorem C60_setter (h : Heap) (o : DS) (pts : List Pt) :
    let r := setData h o (pts.map (·.1)) (pts.map (·.2.1)) (pts.map (·.2.2.1)) (pts.map (·.2.2.2))
    Presents r.2 r.1 pts ∧ (∀ x < h.next, r.2.arr x = h.arr x) ∧
      ∀ (ws : List (ℕ × List ℝ)), (∀ w ∈ ws, w.1 < h.next) →
        Presents (ws.foldl (fun h w => h.write w.1 w.2) r.2) r.1 pts := by
  intro r
  have hold := setData_holds h o pts
  have hmask : r.1.mask = some (pts.map fun _ => true) := by
    simp [r, setData, onesLike]
  have pres : ∀ h', Holds h' r.1 pts → Presents h' r.1 pts := by
    intro h' hh
    have := (C59_mask_partial hh hmask (by simp)).1
    rwa [← pick_eq, pick_ones _ _ rfl] at this
  refine ⟨pres _ hold, fun x hx => newCols_old h _ hx, fun ws hws => pres _ ?_⟩
  have hold' : Holds r.2 r.1 pts := hold
  generalize r.2 = h' at hold'
  induction ws generalizing h' with
  | nil => exact hold'
  | cons w ws ih =>
    refine ih (fun w' hw' => hws w' (by simp [hw'])) _ ?_
    have hw := hws w (by simp)
    have hr : ∀ k, k = r.1.wav ∨ k = r.1.aoi ∨ k = r.1.psi ∨ k = r.1.dlt →
        (h'.write w.1 w.2).arr k = h'.arr k := by
      intro k hk
      have e1 : r.1.wav = h.next := rfl
      have e2 : r.1.aoi = h.next + 1 := rfl
      have e3 : r.1.psi = h.next + 2 := rfl
      have e4 : r.1.dlt = h.next + 3 := rfl
      have : k ≠ w.1 := by omega
      simp [Heap.write, this]
    exact ⟨by rw [hr _ (by simp)]; exact hold'.wav, by rw [hr _ (by simp)]; exact hold'.aoi,
      by rw [hr _ (by simp)]; exact hold'.psi, by rw [hr _ (by simp)]; exact hold'.dlt⟩

/-! ### C61 reflection of delta -/

/-- A dataset made from four distinct arrays. -/
theorem mk_arrays (c : Codec) (h : Heap) {w a p d : ℕ} (hs : (h.arr d).scalar = false) (r : Bool) :
    mk c h (.arrays w a p d) r = .ok (
      { wav := w, aoi := a, psi := p, dlt := d, mask := some (onesLike (h.arr w)), flipped := r },
      if r then h.write d ((h.arr d).vals.map reflect1) else h) := by
  cases r <;> simp [mk, gather, hs]

/-- C61, partial: with `reflect_delta` every delta above 180 is replaced by 360 - delta and no other
value is changed; the result does not exceed 180.  Missing: a file with one point, see
`C61_fails_single`. -/
theorem C61_reflect_partial (c : Codec) (h : Heap) {o : DS} {pts : List Pt} (hold : Holds h o pts)
    (h1 : o.wav ≠ o.dlt) (h2 : o.aoi ≠ o.dlt) (h3 : o.psi ≠ o.dlt) :
    ∃ o' h', mk c h (.arrays o.wav o.aoi o.psi o.dlt) true = .ok (o', h') ∧
      Presents h' o' (pts.map fun q => (q.1, q.2.1, q.2.2.1,
        if 180 < q.2.2.2 then 360 - q.2.2.2 else q.2.2.2)) ∧
      ∀ q ∈ pts, (if 180 < q.2.2.2 then 360 - q.2.2.2 else q.2.2.2) ≤ 180 := by
  refine ⟨_, _, mk_arrays c h (by rw [hold.dlt]) true, ?_, ?_⟩
  · set pts' : List Pt := pts.map fun q => (q.1, q.2.1, q.2.2.1,
      if 180 < q.2.2.2 then 360 - q.2.2.2 else q.2.2.2) with hp
    have := (C59_mask_partial (h := h.write o.dlt ((h.arr o.dlt).vals.map reflect1))
      (o := { wav := o.wav, aoi := o.aoi, psi := o.psi, dlt := o.dlt,
              mask := some (onesLike (h.arr o.wav)), flipped := true }) (pts := pts') ?_ rfl
        (by simp [onesLike, hold.wav, hp])).1
    · have e : pick (onesLike (h.arr o.wav)) pts' = pts' :=
        pick_ones _ _ (by simp [hold.wav, hp])
      rw [← pick_eq, e] at this
      simpa using this
    · constructor
      · simp [Heap.write, h1, hold.wav, hp]
      · simp [Heap.write, h2, hold.aoi, hp]
      · simp [Heap.write, h3, hold.psi, hp]
      · simp [Heap.write, hold.dlt, hp, reflect1]
  · intro q _
    split_ifs <;> linarith

/-- C61: reflecting a second time changes nothing. -/
theorem C61_idempotent (c : Codec) (h h1 : Heap) (src : Source) (o1 : DS)
    (h1' : mk c h src true = .ok (o1, h1)) :
    ∃ o2 h2, mk c h1 (.ds o1) true = .ok (o2, h2) ∧ ∀ r, h2.arr r = h1.arr r := by
  unfold mk at h1'
  cases hg : gather c h '\t' none src with
  | error e => simp [hg] at h1'
  | ok q =>
    obtain ⟨o, h0⟩ := q
    simp only [hg, if_true] at h1'
    by_cases hs : (h0.arr o.dlt).scalar = true
    · simp [hs] at h1'
    · rw [if_neg hs] at h1'
      simp only [Except.ok.injEq, Prod.mk.injEq] at h1'
      obtain ⟨rfl, rfl⟩ := h1'
      have hs' : ((h0.write o.dlt ((h0.arr o.dlt).vals.map reflect1)).arr o.dlt).scalar = false := by
        simpa [Heap.write] using hs
      have hm := mk_arrays c (w := o.wav) (a := o.aoi) (p := o.psi) _ hs' true
      refine ⟨_, _, by simp only [mk, gather, hs', if_true, Bool.false_eq_true, if_false]; rfl, ?_⟩
      intro r
      by_cases hr : r = o.dlt
      · subst hr
        simp only [Heap.write, if_true]
        have : ∀ x, reflect1 (reflect1 x) = reflect1 x := by
          intro x
          unfold reflect1
          split_ifs <;> linarith
        simp [this]
      · simp [Heap.write, hr]

/-! ### C62 sources -/

/-- C62, partial: without `reflect_delta` no existing array changes, and neither do they if the
columns come from a file.  Missing: `reflect_delta` modifies the arrays passed in, see
`C62_fails_reflect` and `C62_fails_dataset`. -/
theorem C62_unchanged_partial (c : Codec) (h h' : Heap) (src : Source) (r : Bool) (delim : Char)
    (name : Option String) (o : DS) (hm : mk c h src r delim name = .ok (o, h'))
    (hr : r = false ∨ ∃ f ls, src = .file f ls) : ∀ x < h.next, h'.arr x = h.arr x := by
  unfold mk at hm
  cases hg : gather c h delim name src with
  | error e => simp [hg] at hm
  | ok q =>
    obtain ⟨o0, h0⟩ := q
    simp only [hg] at hm
    have hold : ∀ x < h.next, h0.arr x = h.arr x := by
      intro x hx
      cases src with
      | none =>
        simp only [gather, Except.ok.injEq, Prod.mk.injEq] at hg
        rw [← hg.2]; exact newCols_old h _ hx
      | file f ls =>
        simp only [gather] at hg
        cases hl : loadName c delim ls with
        | error e => simp [hl, Except.map] at hg
        | ok t =>
          simp only [hl, Except.map, Except.ok.injEq, Prod.mk.injEq] at hg
          rw [← hg.2]; exact newCols_old h _ hx
      | handle ls =>
        simp only [gather] at hg
        cases hl : loadHandle c delim ls with
        | error e => simp [hl, Except.map] at hg
        | ok t =>
          simp only [hl, Except.map, Except.ok.injEq, Prod.mk.injEq] at hg
          rw [← hg.2]; exact newCols_old h _ hx
      | ds o1 =>
        simp only [gather, Except.ok.injEq, Prod.mk.injEq] at hg
        rw [← hg.2]
      | arrays w a p d =>
        simp only [gather, Except.ok.injEq, Prod.mk.injEq] at hg
        rw [← hg.2]
    rcases hr with rfl | ⟨f, ls, rfl⟩
    · simp only [Bool.false_eq_true, if_false, Except.ok.injEq, Prod.mk.injEq] at hm
      rw [← hm.2]; exact hold
    · have hd : h.next ≤ o0.dlt := by
        simp only [gather] at hg
        cases hl : loadName c delim ls with
        | error e => simp [hl, Except.map] at hg
        | ok t =>
          simp only [hl, Except.map, Except.ok.injEq, Prod.mk.injEq] at hg
          rw [← hg.1, newCols_ref]
          simp
      intro x hx
      split_ifs at hm with h1 h2
      · simp only [Except.ok.injEq, Prod.mk.injEq] at hm
        rw [← hm.2]
        simp only [Heap.write]
        rw [if_neg (by omega)]
        exact hold x hx
      · simp only [Except.ok.injEq, Prod.mk.injEq] at hm
        rw [← hm.2]
        exact hold x hx

/-- C62 fails: with `reflect_delta` the array of the caller is overwritten whenever it contains a
value above 180. -/
theorem C62_fails_reflect (c : Codec) (h : Heap) {w a p d : ℕ} (hs : (h.arr d).scalar = false)
    {x : ℝ} (hx : x ∈ (h.arr d).vals) (h180 : 180 < x) :
    ∃ o h', mk c h (.arrays w a p d) true = .ok (o, h') ∧ h'.arr d ≠ h.arr d := by
  refine ⟨_, _, mk_arrays c h hs true, ?_⟩
  intro he
  have he' : (h.arr d).vals.map reflect1 = (h.arr d).vals.map id := by
    have := congrArg Col.vals he
    simpa [Heap.write] using this
  have := List.map_inj_left.mp he' x hx
  simp only [id_eq] at this
  unfold reflect1 at this
  rw [if_pos h180] at this
  linarith

/-- C62 fails: building a reflected dataset from another dataset changes the delta values the other
one presents. -/
theorem C62_fails_dataset (c : Codec) (h : Heap) {o : DS} {pts : List Pt} (hold : Holds h o pts)
    (hm : o.mask = some (pts.map fun _ => true)) {q : Pt} (hq : q ∈ pts) (h180 : 180 < q.2.2.2) :
    delta h o = .ok (.vec (pts.map (·.2.2.2))) ∧
    ∃ o' h', mk c h (.ds o) true = .ok (o', h') ∧ delta h' o ≠ delta h o := by
  have hd : delta h o = .ok (.vec (pts.map (·.2.2.2))) := by
    have := (C59_mask_partial hold hm (by simp)).1.dlt
    rwa [← pick_eq, pick_ones _ _ rfl] at this
  refine ⟨hd, ?_⟩
  have hs : (h.arr o.dlt).scalar = false := by rw [hold.dlt]
  refine ⟨_, _, by simp only [mk, gather, hs, if_true, Bool.false_eq_true, if_false]; rfl, ?_⟩
  have hw : (h.write o.dlt ((h.arr o.dlt).vals.map reflect1)).arr o.dlt =
      ⟨false, pts.map fun q => reflect1 q.2.2.2⟩ := by
    simp [Heap.write, hold.dlt]
  rw [hd, delta, hw, hm, access_pick _ (by simp), pick_ones _ _ rfl]
  intro he
  simp only [Except.ok.injEq, Sel.vec.injEq] at he
  have := List.map_inj_left.mp he q hq
  unfold reflect1 at this
  rw [if_pos h180] at this
  linarith

/-! ### C63 copies -/

/-- C63, partial: the copy of a dataset without masked points presents the same points.  Missing:
masks and the delta convention are not copied, see `C63_fails_mask` and `C63_fails_convention`. -/
theorem C63_copy_partial (c : Codec) (h : Heap) {o : DS} {pts : List Pt} (hold : Holds h o pts)
    (hm : o.mask = some (pts.map fun _ => true)) :
    ∃ o', mk c h (.ds o) false = .ok (o', h) ∧ Presents h o pts ∧ Presents h o' pts ∧
      o'.name = o.name ∧ o'.filename = o.filename := by
  have key : ∀ o1 : DS, Holds h o1 pts → o1.mask = some (pts.map fun _ => true) →
      Presents h o1 pts := by
    intro o1 hh hm1
    have := (C59_mask_partial hh hm1 (by simp)).1
    rwa [← pick_eq, pick_ones _ _ rfl] at this
  refine ⟨{ wav := o.wav, aoi := o.aoi, psi := o.psi, dlt := o.dlt,
            mask := some (onesLike (h.arr o.wav)), flipped := false, name := o.name,
            filename := o.filename }, rfl, key o hold hm,
    key _ ⟨hold.wav, hold.aoi, hold.psi, hold.dlt⟩ (by simp [onesLike, hold.wav]), rfl, rfl⟩

/-- C63 fails: the copy presents points that are masked in the original. -/
theorem C63_fails_mask (c : Codec) (h : Heap) {o : DS} {pts : List Pt} (hold : Holds h o pts)
    {m : List Bool} (hm : o.mask = some m) (hlen : m.length = pts.length) (hf : false ∈ m) :
    ∃ o', mk c h (.ds o) false = .ok (o', h) ∧ len h o' = .ok pts.length ∧
      len h o = .ok (m.count true) ∧ m.count true < pts.length := by
  obtain ⟨o', h1, -, h3, -⟩ := C63_copy_partial c h
    (o := { o with mask := some (pts.map fun _ => true) })
    ⟨hold.wav, hold.aoi, hold.psi, hold.dlt⟩ rfl
  refine ⟨o', h1, h3.len, (C59_mask_partial hold hm hlen).2, ?_⟩
  rw [← hlen]
  rcases lt_or_eq_of_le (List.count_le_length (a := true) (l := m)) with h | h
  · exact h
  · have := List.count_eq_length.mp h _ hf
    simp at this

/-- C63 fails: the copy of a reflected dataset is not marked as reflected. -/
theorem C63_fails_convention (c : Codec) (h : Heap) (o : DS) :
    ∃ o', mk c h (.ds o) false = .ok (o', h) ∧ o'.dlt = o.dlt ∧ o'.flipped = false :=
  ⟨_, rfl, rfl, rfl⟩

/-! ### C98 the delta convention -/

/-- Where the flag says that deltas are reflected, they are. -/
def Consistent (h : Heap) (o : DS) : Prop := o.flipped = true → ∀ x ∈ (h.arr o.dlt).vals, x ≤ 180

/-- C98, partial: a newly constructed dataset is consistent.  Missing: setting the data or refreshing
does not update the flag, see `C98_fails_setter`, `C98_fails_refresh`. -/
theorem C98_new_partial (c : Codec) (h h' : Heap) (src : Source) (r : Bool) (delim : Char)
    (name : Option String) (o : DS) (hm : mk c h src r delim name = .ok (o, h')) :
    o.flipped = r ∧ Consistent h' o := by
  unfold mk at hm
  cases hg : gather c h delim name src with
  | error e => simp [hg] at hm
  | ok q =>
    obtain ⟨o0, h0⟩ := q
    simp only [hg] at hm
    have hf : o0.flipped = false := by
      cases src with
      | none => simp only [gather, Except.ok.injEq, Prod.mk.injEq] at hg; rw [← hg.1]
      | file f ls =>
        simp only [gather] at hg
        cases hl : loadName c delim ls with
        | error e => simp [hl, Except.map] at hg
        | ok t =>
          simp only [hl, Except.map, Except.ok.injEq, Prod.mk.injEq] at hg
          rw [← hg.1]
      | handle ls =>
        simp only [gather] at hg
        cases hl : loadHandle c delim ls with
        | error e => simp [hl, Except.map] at hg
        | ok t =>
          simp only [hl, Except.map, Except.ok.injEq, Prod.mk.injEq] at hg
          rw [← hg.1]
      | ds o1 => simp only [gather, Except.ok.injEq, Prod.mk.injEq] at hg; rw [← hg.1]
      | arrays w a p d => simp only [gather, Except.ok.injEq, Prod.mk.injEq] at hg; rw [← hg.1]
    cases r with
    | false =>
      simp only [Bool.false_eq_true, if_false, Except.ok.injEq, Prod.mk.injEq] at hm
      obtain ⟨rfl, rfl⟩ := hm
      exact ⟨hf, fun h => by simp [hf] at h⟩
    | true =>
      simp only [if_true] at hm
      split_ifs at hm
      simp only [Except.ok.injEq, Prod.mk.injEq] at hm
      obtain ⟨rfl, rfl⟩ := hm
      refine ⟨rfl, fun _ x hx => ?_⟩
      simp only [Heap.write, if_true, List.mem_map] at hx
      obtain ⟨y, _, rfl⟩ := hx
      unfold reflect1
      split_ifs <;> linarith

/-- C98 fails: after setting new data the flag of a reflected dataset remains. -/
theorem C98_fails_setter (h : Heap) (o : DS) (hf : o.flipped = true) {pts : List Pt} {q : Pt}
    (hq : q ∈ pts) (h180 : 180 < q.2.2.2) :
    ¬ Consistent
      (setData h o (pts.map (·.1)) (pts.map (·.2.1)) (pts.map (·.2.2.1)) (pts.map (·.2.2.2))).2
      (setData h o (pts.map (·.1)) (pts.map (·.2.1)) (pts.map (·.2.2.1)) (pts.map (·.2.2.2))).1 := by
  intro hc
  have hold := setData_holds h o pts
  have := hc hf q.2.2.2 (by rw [hold.dlt]; exact List.mem_map_of_mem hq)
  linarith

/-! ### C68 unique wavelengths -/

/-- C68, partial: iterating yields the distinct wavelengths in increasing order, each with its points in order;
together these are all points.  Missing: datasets whose columns are not arrays but pandas Series, as HORIBA files
give (`C68_fails_series`). -/
theorem C68_unique_partial {h : Heap} {o : DS} {pts : List Pt} (hp : Presents h o pts) : open Classical in
    ∃ U : List ℝ, U.Pairwise (· < ·) ∧ (∀ u, u ∈ U ↔ ∃ q ∈ pts, q.1 = u) ∧
      uniqueWavelengthData h o =
        .ok (U.map (fun u => (u, (pts.filter (·.1 = u)).map (·.2.1),
          (pts.filter (·.1 = u)).map (·.2.2.1), (pts.filter (·.1 = u)).map (·.2.2.2)))) ∧
      (U.flatMap fun u => pts.filter (·.1 = u)).Perm pts := by
  classical
  refine ⟨npUnique (pts.map (·.1)), ?_, ?_, ?_, ?_⟩
  · have h1 := npUnique_sorted (pts.map (·.1))
    have h2 := npUnique_nodup (pts.map (·.1))
    exact (h1.and h2).imp fun h => lt_of_le_of_ne h.1 h.2
  · intro u
    rw [mem_npUnique]
    simp
  · unfold uniqueWavelengthData
    rw [hp.wav, hp.aoi, hp.psi, hp.dlt]
    simp only [Except.ok.injEq]
    unfold uniqueData
    refine List.map_congr_left fun u _ => ?_
    simp only [pick_map, pick_maskEq]
  · clear hp
    have hnd := npUnique_nodup (pts.map (·.1))
    have hall : ∀ q ∈ pts, q.1 ∈ npUnique (pts.map (·.1)) := fun q hq =>
      mem_npUnique.mpr (List.mem_map_of_mem hq)
    generalize npUnique (pts.map (·.1)) = U at hnd hall
    induction U generalizing pts with
    | nil =>
      cases pts with
      | nil => simp
      | cons q _ => exact absurd (hall q (by simp)) (by simp)
    | cons u U ih =>
      rw [List.flatMap_cons]
      have hu : u ∉ U := (List.nodup_cons.mp hnd).1
      have hcongr : (U.flatMap fun u' => pts.filter (·.1 = u')) =
          U.flatMap fun u' => (pts.filter (fun q => ¬ q.1 = u)).filter (·.1 = u') := by
        refine List.flatMap_congr fun u' hu' => ?_
        rw [List.filter_filter]
        refine List.filter_congr fun q _ => ?_
        by_cases h : q.1 = u'
        · have : u' ≠ u := fun h' => hu (h' ▸ hu')
          simp [h, this]
        · simp [h]
      rw [hcongr]
      have := ih (pts := pts.filter fun q => ¬ q.1 = u) (List.nodup_cons.mp hnd).2 (by
        intro q hq
        rw [List.mem_filter] at hq
        rcases List.mem_cons.mp (hall q hq.1) with h | h
        · simp [h] at hq
        · exact h)
      refine (List.Perm.append_left _ this).trans ?_
      simpa using List.filter_append_perm (fun q : Pt => decide (q.1 = u)) pts

/-! ### Non-vacuity -/

/-- Three points, the second one masked, with a delta above 180. -/
noncomputable def exPts : List Pt := [(400, 60, 20, 100), (500, 60, 30, 200), (400, 70, 25, 180)]

noncomputable def exHeap : Heap :=
  ⟨fun r => match r with
    | 0 => ⟨false, [400, 500, 400]⟩
    | 1 => ⟨false, [60, 60, 70]⟩
    | 2 => ⟨false, [20, 30, 25]⟩
    | _ => ⟨false, [100, 200, 180]⟩, 4⟩

def exDS (m : List Bool) : DS := { wav := 0, aoi := 1, psi := 2, dlt := 3, mask := some m, flipped := false }

theorem exHolds (m : List Bool) : Holds exHeap (exDS m) exPts :=
  ⟨by simp [exHeap, exDS, exPts], by simp [exHeap, exDS, exPts], by simp [exHeap, exDS, exPts],
    by simp [exHeap, exDS, exPts]⟩

example : Presents exHeap (exDS [true, false, true]) [(400, 60, 20, 100), (400, 70, 25, 180)] ∧
    len exHeap (exDS [true, false, true]) = .ok 2 := by
  simpa [exPts] using C59_mask_partial (exHolds [true, false, true]) rfl rfl

example (c : Codec) : ∃ o h', mk c exHeap (.arrays 0 1 2 3) true = .ok (o, h') ∧
    h'.arr 3 ≠ exHeap.arr 3 :=
  C62_fails_reflect c exHeap rfl (x := 200) (by simp [exHeap]) (by norm_num)

example (c : Codec) : ∃ o', mk c exHeap (.ds (exDS [true, false, true])) false = .ok (o', exHeap) ∧
    len exHeap o' = .ok 3 ∧ len exHeap (exDS [true, false, true]) = .ok 2 ∧ 2 < 3 := by
  simpa [exPts] using C63_fails_mask c exHeap (exHolds [true, false, true]) rfl rfl (by simp)

end Verif.Data
