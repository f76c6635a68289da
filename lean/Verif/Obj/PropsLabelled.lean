import Verif.Obj.Labelled
import Verif.Obj.PropsPlot
import Verif.Parse.PropsHoriba

/-! # Datasets read from HORIBA files (C179) -/

namespace Verif.Obj.Labelled
open Verif.RModel Verif.Data Verif.Obj

variable {env : Env} {o : Objective}

/-- The dataset presents these rows of the file, each with its number in the table of the file. -/
structure Shows (d : LDS) (rows : List (ℕ × Pt)) : Prop where
  wav : accessS d.wav d.mask = .ok (onVals (·.1) rows)
  aoi : accessS d.aoi d.mask = .ok (onVals (·.2.1) rows)
  psi : accessS d.psi d.mask = .ok (onVals (·.2.2.1) rows)
  dlt : accessS d.dlt d.mask = .ok (onVals (·.2.2.2) rows)
  order : (rows.map (·.1)).Pairwise (· < ·)

/-- A row between the cut-offs. -/
def Kept (lo hi : Option ℝ) (r : ℝ × ℝ × ℝ) : Prop := (∀ c ∈ lo, c < r.1) ∧ ∀ c ∈ hi, r.1 < c

/-- The point of a row of the table. -/
noncomputable def pointOf (aoi : ℝ) (reflect : Bool) (r : ℝ × ℝ × ℝ) : Pt :=
  (r.1, aoi, r.2.1, if reflect ∧ 180 < r.2.2 then 360 - r.2.2 else r.2.2)

theorem vals_onVals {α β : Type} (f : α → β) (s : Series α) : vals (onVals f s) = (vals s).map f := by
  simp [vals, onVals]

theorem onVals_onVals {α β γ : Type} (f : α → β) (g : β → γ) (s : Series α) :
    onVals g (onVals f s) = onVals (g ∘ f) s := by simp [onVals]

theorem isEmpty_onVals {α β : Type} (f : α → β) (s : Series α) : (onVals f s).isEmpty = s.isEmpty := by
  simp [onVals]

theorem length_onVals {α β : Type} (f : α → β) (s : Series α) : (onVals f s).length = s.length := by
  simp [onVals]

theorem accessS_onVals {α : Type} (f : α → ℝ) (s : Series α) {m : List Bool} (hm : m.length = s.length) :
    accessS (onVals f s) (some m) = .ok (onVals f (pick m s)) := by
  unfold accessS
  simp only [isEmpty_onVals, length_onVals, hm, if_true]
  cases s with
  | nil => cases m <;> simp [onVals, pick]
  | cons a s => simp only [onVals, List.isEmpty_cons, Bool.false_eq_true, if_false, pick_map]

theorem pick_true {α : Type} : ∀ s : List α, pick (s.map fun _ => true) s = s
  | [] => rfl
  | _ :: s => by rw [List.map_cons, pick, pick_true s]

theorem pick_sublist {α : Type} : ∀ (m : List Bool) (s : List α), (pick m s).Sublist s
  | [], s => by simp [pick]
  | true :: m, [] => by simp [pick]
  | false :: m, [] => by simp [pick]
  | true :: m, x :: s => by rw [pick]; exact (pick_sublist m s).cons_cons x
  | false :: m, x :: s => by rw [pick]; exact (pick_sublist m s).cons x

/-- The frame after the reflection of delta. -/
noncomputable def reflected (reflect : Bool) (f : Series Pt) : Series Pt :=
  onVals (fun p => (p.1, p.2.1, p.2.2.1, if reflect then reflect1 p.2.2.2 else p.2.2.2)) f

theorem mkSeries_shows (f : Series Pt) (hf : (f.map (·.1)).Pairwise (· < ·)) (reflect : Bool) {m : List Bool}
    (hm : m.length = f.length) : Shows { mkSeries f reflect with mask := some m } (pick m (reflected reflect f)) := by
  have hl : m.length = (reflected reflect f).length := by rw [reflected, length_onVals, hm]
  have key : ∀ g : Pt → ℝ, accessS (onVals g (reflected reflect f)) (some m) =
      .ok (onVals g (pick m (reflected reflect f))) := fun g => accessS_onVals g _ hl
  refine ⟨?_, ?_, ?_, ?_, ?_⟩
  · rw [← key]; simp [mkSeries, reflected, onVals, Function.comp_def]
  · rw [← key]; simp [mkSeries, reflected, onVals, Function.comp_def]
  · rw [← key]; simp [mkSeries, reflected, onVals, Function.comp_def]
  · rw [← key]; cases reflect <;> simp [mkSeries, reflected, onVals, Function.comp_def]
  · refine List.Pairwise.sublist ((pick_sublist m _).map _) ?_
    simpa [reflected, onVals, Function.comp_def] using hf

theorem frame_order (aoi : ℝ) (lo hi : Option ℝ) (table : List (ℝ × ℝ × ℝ)) :
    ((horibaFrame aoi lo hi table).map (·.1)).Pairwise (· < ·) := by
  unfold horibaFrame
  refine List.Pairwise.sublist ((List.filter_sublist.trans List.filter_sublist).map _) ?_
  rw [List.map_map]
  have : (fun x : (ℝ × ℝ × ℝ) × ℕ => x.2) = Prod.snd := rfl
  simp only [Function.comp_def, this, List.zipIdx_map_snd]
  exact List.pairwise_lt_range'

theorem frame_vals (aoi : ℝ) (lo hi : Option ℝ) (table : List (ℝ × ℝ × ℝ)) :
    vals (horibaFrame aoi lo hi table) = Parse.horibaPoints aoi lo hi table := by
  classical
  unfold horibaFrame Parse.horibaPoints vals
  have e : table.map (fun r => ((r.1, aoi, r.2.1, r.2.2) : Pt)) =
      (table.zipIdx.map fun r => (r.2, ((r.1.1, aoi, r.1.2.1, r.1.2.2) : Pt))).map (·.2) := by
    rw [List.map_map]
    conv_lhs => rw [← List.zipIdx_map_fst 0 table]
    rw [List.map_map]
    rfl
  rw [e]
  generalize table.zipIdx.map (fun r => (r.2, ((r.1.1, aoi, r.1.2.1, r.1.2.2) : Pt))) = l
  rw [List.filter_map, List.filter_map]
  rfl

theorem mem_frame (aoi : ℝ) (lo hi : Option ℝ) (table : List (ℝ × ℝ × ℝ)) (k : ℕ) (p : Pt) :
    (k, p) ∈ horibaFrame aoi lo hi table ↔
      ∃ r, table[k]? = some r ∧ Kept lo hi r ∧ p = (r.1, aoi, r.2.1, r.2.2) := by
  classical
  unfold horibaFrame Kept
  simp only [List.mem_filter, List.mem_map]
  constructor
  · rintro ⟨⟨⟨⟨r, j⟩, h, e⟩, h1⟩, h2⟩
    simp only [Prod.mk.injEq] at e
    obtain ⟨rfl, rfl⟩ := e
    refine ⟨r, List.mem_zipIdx_iff_getElem?.1 h, ⟨?_, ?_⟩, rfl⟩
    · intro x hx; cases hx; simpa using h1
    · intro x hx; cases hx; simpa using h2
  · rintro ⟨r, h, ⟨h1, h2⟩, rfl⟩
    refine ⟨⟨⟨(r, k), List.mem_zipIdx_iff_getElem?.2 h, rfl⟩, ?_⟩, ?_⟩
    · cases lo with
      | none => rfl
      | some x => simpa using h1 x rfl
    · cases hi with
      | none => rfl
      | some x => simpa using h2 x rfl

/-- **C179**: a file named by a string, where Python knows the encoding "ANSI": the dataset presents the rows of
the DATA table between the cut-offs in the order of the file, with delta reflected on request; after masking, those
of them that are not masked. -/
theorem C179_reads {knows : String → Bool} (hk : knows "ANSI" = true) (c : Codec)
    {csv : List Line → ℕ → ℕ → Except PyErr (List (ℝ × ℝ × ℝ))} {reflect : Bool} {lo hi : Option ℝ}
    {lines : List Line} {pts : List Pt} (h : Parse.openHoriba c csv lo hi lines = .ok pts) :
    ∃ d rows skip n table aoi, openHoribaDS knows c csv .str reflect lo hi lines = .ok d ∧
      csv lines skip n = .ok table ∧ Shows d rows ∧
      (∀ k p, (k, p) ∈ rows ↔ ∃ r, table[k]? = some r ∧ Kept lo hi r ∧ p = pointOf aoi reflect r) ∧
      rows.map (·.2) = pts.map (fun p => (p.1, p.2.1, p.2.2.1,
        if reflect ∧ 180 < p.2.2.2 then 360 - p.2.2.2 else p.2.2.2)) ∧
      ∀ m : List Bool, m.length = pts.length → Shows { d with mask := some m } (pick m rows) := by
  unfold Parse.openHoriba at h
  simp only [bind, Except.bind] at h
  unfold openHoribaDS
  simp only [bind, Except.bind, hk, if_true]
  revert h
  cases h1 : Parse.item (Parse.horibaMeta lines).lineno "DATA".toList with
  | error e => simp
  | ok no =>
  cases h2 : Parse.item (Parse.horibaMeta lines).metadata "DATA".toList with
  | error e => simp
  | ok dat =>
  cases h3 : dat.len with
  | error e => simp [h3]
  | ok n =>
  simp only [h3]
  cases h4 : csv lines (no + 1) (n - 1) with
  | error e => simp
  | ok table =>
  simp only
  cases h5 : Parse.item (Parse.horibaMeta lines).metadata "INCIDENCE ANGLE".toList with
  | error e => simp
  | ok ang =>
  simp only
  cases h6 : ang.angle c with
  | error e => simp
  | ok aoi =>
  intro h
  simp only [pure, Except.pure, Except.ok.injEq] at h ⊢
  have hlen : (horibaFrame aoi lo hi table).length = pts.length := by
    rw [← h, ← frame_vals, vals, List.length_map]
  have hs : ∀ m : List Bool, m.length = pts.length → Shows
      { mkSeries (horibaFrame aoi lo hi table) reflect with mask := some m }
      (pick m (reflected reflect (horibaFrame aoi lo hi table))) := fun m hm =>
    mkSeries_shows _ (frame_order aoi lo hi table) reflect (hm.trans hlen.symm)
  refine ⟨_, reflected reflect (horibaFrame aoi lo hi table), no + 1, n - 1, table, aoi, rfl, h4, ?_, ?_, ?_, hs⟩
  · have := hs ((horibaFrame aoi lo hi table).map fun _ => true) (by simpa using hlen)
    have e : pick ((horibaFrame aoi lo hi table).map fun _ => true)
        (reflected reflect (horibaFrame aoi lo hi table)) = reflected reflect (horibaFrame aoi lo hi table) := by
      have := pick_true (reflected reflect (horibaFrame aoi lo hi table))
      rwa [reflected, onVals, List.map_map] at this
    rw [e] at this
    exact this
  · intro k p
    unfold reflected onVals
    simp only [List.mem_map]
    constructor
    · rintro ⟨⟨k', q⟩, hm, e⟩
      simp only [Prod.mk.injEq] at e
      obtain ⟨rfl, rfl⟩ := e
      obtain ⟨r, hr, hkept, rfl⟩ := (mem_frame _ _ _ _ _ _).1 hm
      refine ⟨r, hr, hkept, ?_⟩
      cases reflect <;> simp [pointOf, reflect1]
    · rintro ⟨r, hr, hkept, rfl⟩
      refine ⟨(k, _), (mem_frame _ _ _ _ _ _).2 ⟨r, hr, hkept, rfl⟩, ?_⟩
      cases reflect <;> simp [pointOf, reflect1]
  · rw [← h, ← frame_vals]
    simp only [reflected, onVals, vals, List.map_map]
    refine List.map_congr_left fun r _ => ?_
    cases reflect <;> simp [reflect1]

/-- **C179 fails where Python has no encoding "ANSI"** (it exists on Windows only): no file can be read. -/
theorem C179_fails_encoding {knows : String → Bool} (hk : knows "ANSI" = false) (c : Codec)
    (csv : List Line → ℕ → ℕ → Except PyErr (List (ℝ × ℝ × ℝ))) (fname : FName) (reflect : Bool) (lo hi : Option ℝ)
    (lines : List Line) (d : LDS) : openHoribaDS knows c csv fname reflect lo hi lines ≠ .ok d := by
  unfold openHoribaDS
  cases fname with
  | path => simp
  | handle => simp
  | str =>
    simp only [bind, Except.bind, hk, Bool.false_eq_true, if_false]
    cases Parse.item (Parse.horibaMeta lines).lineno "DATA".toList with
    | error e => simp
    | ok no =>
    cases Parse.item (Parse.horibaMeta lines).metadata "DATA".toList with
    | error e => simp
    | ok dat =>
    cases hd : dat.len <;> simp [hd]

/-- **C179 fails for handles and paths**: the documentation allows an open file, but only a string can be given. -/
theorem C179_fails_handle (knows : String → Bool) (c : Codec)
    (csv : List Line → ℕ → ℕ → Except PyErr (List (ℝ × ℝ × ℝ))) {fname : FName} (hf : fname ≠ .str) (reflect : Bool)
    (lo hi : Option ℝ) (lines : List Line) :
    openHoribaDS knows c csv fname reflect lo hi lines = .error .typeError := by
  cases fname with
  | str => exact absurd rfl hf
  | path => rfl
  | handle => rfl

/-! ### Iterating -/

theorem npUnique_ne_nil {l : List ℝ} (h : l ≠ []) : npUnique l ≠ [] := by
  obtain ⟨x, hx⟩ := List.exists_mem_of_ne_nil l h
  exact List.ne_nil_of_mem (mem_npUnique.mpr hx)

/-- **C179 fails for iteration**: `unique_wavelength_data` of such a dataset raises KeyError as soon as
it presents a point. -/
theorem C179_fails_iteration {d : LDS} {rows : List (ℕ × Pt)} (h : Shows d rows) :
    uniqueS d = if rows = [] then .ok [] else .error .keyError := by
  unfold uniqueS
  simp only [bind, Except.bind, h.wav, h.aoi, h.psi, h.dlt]
  by_cases hr : rows = []
  · subst hr
    simp [onVals, vals, npUnique, pure, Except.pure]
  · rw [if_neg hr]
    cases hu : npUnique (vals (onVals (fun p : Pt => p.1) rows)) with
    | nil =>
      exact absurd hu (npUnique_ne_nil (by simpa [vals, onVals] using hr))
    | cons u us => rfl

/-! ### Fitting -/

theorem find_self {α β : Type} (g : α → β) : ∀ {s : Series α}, (s.map (·.1)).Pairwise (· < ·) → ∀ r ∈ s,
    (onVals g s).find? (·.1 = r.1) = some (r.1, g r.2)
  | a :: s, h, r, hr => by
    rw [List.map_cons, List.pairwise_cons] at h
    rcases List.mem_cons.1 hr with rfl | hr
    · simp [onVals]
    · have hne : a.1 ≠ r.1 := (h.1 _ (List.mem_map_of_mem hr)).ne
      have := find_self g h.2 r hr
      simp only [onVals, List.map_cons] at this ⊢
      rw [List.find?_cons_of_neg (by simpa using hne)]
      exact this

theorem align_self (f : ℝ → ℝ → ℝ) (g : Option ℝ → Option ℝ) {s : Series (Option ℝ)}
    (hs : (s.map (·.1)).Pairwise (· < ·)) : align f s (onVals g s) = onVals (fun x => Option.map₂ f x (g x)) s := by
  unfold align
  conv_rhs => rw [onVals]
  refine List.map_congr_left fun r hr => ?_
  rw [find_self g hs r hr]

theorem rsub_labels : ∀ {a : List (Option ℝ)} {s : Series ℝ}, a.length = s.length →
    (rsub a s).map (·.1) = s.map (·.1)
  | [], [], _ => rfl
  | x :: a, r :: s, h => by
    have := rsub_labels (a := a) (s := s) (by simpa using h)
    simp only [rsub, List.zipWith_cons_cons, List.map_cons] at this ⊢
    rw [this]

theorem rsub_vals : ∀ (a : List (Option ℝ)) (s : Series ℝ),
    vals (rsub a s) = List.zipWith (fun x y => x.map (· - y)) a (vals s)
  | [], _ => by simp [rsub, vals]
  | _ :: _, [] => by simp [rsub, vals]
  | x :: a, r :: s => by
    have := rsub_vals a s
    simp only [rsub, vals, List.zipWith_cons_cons, List.map_cons] at this ⊢
    rw [this]

theorem circS_vals {a : List (Option ℝ)} {s : Series ℝ} (hs : (s.map (·.1)).Pairwise (· < ·))
    (hl : a.length = s.length) (period : ℝ) :
    vals (circS a s period) = List.zipWith (fun x y => x.map fun z => circularDistance z y period) a (vals s) := by
  unfold circS
  have h : ((onVals (Option.map abs) (rsub a s)).map (·.1)).Pairwise (· < ·) := by
    have : (onVals (Option.map abs) (rsub a s)).map (·.1) = (rsub a s).map (·.1) := by simp [onVals]
    rw [this, rsub_labels hl]
    exact hs
  simp only
  rw [align_self _ _ h, vals_onVals, vals_onVals, rsub_vals, List.map_map, List.map_zipWith]
  congr 1
  funext x y
  cases x with
  | none => rfl
  | some x => simp [circularDistance]

theorem dataS_shows {d : LDS} {rows : List (ℕ × Pt)} (h : Shows d rows) :
    dataS d = .ok (onVals (·.1) rows, onVals (·.2.1) rows, onVals (·.2.2.1) rows, onVals (·.2.2.2) rows) := by
  unfold dataS
  rw [h.wav, h.aoi, h.psi, h.dlt]
  rfl

theorem dataOf_presents {st : St} {pts : List Pt} (hp : Presents st.heap o.data pts) :
    dataOf o st = .ok (pts.map (·.1), pts.map (·.2.1), pts.map (·.2.2.1), pts.map (·.2.2.2)) := by
  unfold dataOf
  rw [hp.wav, hp.aoi, hp.psi, hp.dlt]

theorem zipWith_fst (f : Option ℝ → ℝ → Option ℝ) (cells : List Cell) (p : List ℝ) :
    List.zipWith f (cells.map (·.1)) p = List.zipWith (fun (c : Cell) x => f c.1 x) cells p := by
  rw [List.zipWith_map_left]

theorem zipWith_snd (f : Option ℝ → ℝ → Option ℝ) (cells : List Cell) (p : List ℝ) :
    List.zipWith f (cells.map (·.2)) p = List.zipWith (fun (c : Cell) x => f c.2 x) cells p := by
  rw [List.zipWith_map_left]

/-- **C179**: an objective computes with such a dataset what it computes with the same points in arrays, although
the values are matched by their labels on the way; so every fit, likelihood and posterior is the same. -/
theorem C179_residuals {d : LDS} {rows : List (ℕ × Pt)} (h : Shows d rows) {st : St}
    (hp : Presents st.heap o.data (vals rows)) (pvals : Option (List ℝ)) :
    residualsS env o d pvals st = residuals env o pvals st := by
  unfold residualsS residuals
  have hs := (setp_state (env := env) (o := o) pvals st)
  rcases hset : setp env o pvals st with ⟨r, s⟩
  rw [hset] at hs
  cases r with
  | error e => rfl
  | ok u =>
    have hheap : s.heap = st.heap := by
      simp only at hs
      rw [hs]
    have hd : dataOf o s = _ := (dataOf_heap hheap).trans (dataOf_presents hp)
    simp only [dataS_shows h, hd, vals_onVals]
    rcases hc : callModel env o ((vals rows).map (·.1)) ((vals rows).map (·.2.1)) s with ⟨c, s'⟩
    cases c with
    | error e => simp [hc]
    | ok cells =>
      simp only [hc, length_onVals, List.length_map]
      have hlv : (vals rows).length = rows.length := by simp [vals]
      rw [hlv]
      by_cases hl : rows.length = cells.length
      · rw [if_pos ⟨hl, hl⟩, if_pos ⟨hl, hl⟩]
        refine congrArg (fun l => (Except.ok l, s')) ?_
        have e1 := rsub_vals (cells.map (·.1)) (onVals (fun p : Pt => p.2.2.1) rows)
        have e2 := circS_vals (a := cells.map (·.2)) (s := onVals (fun p : Pt => p.2.2.2) rows)
          (by simpa [onVals, Function.comp_def] using h.order) (by simp [length_onVals, hl]) 360
        rw [e1, e2, resOf, zipWith_fst, zipWith_snd, vals_onVals, vals_onVals]
      · rw [if_neg (fun hh => hl hh.1), if_neg (fun hh => hl hh.1)]

/-! ### Plotting -/

/-- The value of the first item, if its label is 0. -/
def firstAtZero {α : Type} : Series α → Except PyErr α
  | (0, x) :: _ => .ok x
  | _ => .error .keyError

theorem at_zero {α : Type} {s : Series α} (hs : (s.map (·.1)).Pairwise (· < ·)) : at_ s 0 = firstAtZero s := by
  unfold at_
  cases s with
  | nil => rfl
  | cons a s =>
    obtain ⟨k, x⟩ := a
    rw [List.map_cons, List.pairwise_cons] at hs
    cases k with
    | zero => simp [firstAtZero]
    | succ k =>
      have : ((k + 1, x) :: s).find? (fun r => decide (r.1 = 0)) = none := by
        rw [List.find?_eq_none]
        intro r hr
        rcases List.mem_cons.1 hr with rfl | hr
        · simp
        · have := hs.1 _ (List.mem_map_of_mem hr)
          simp only [decide_eq_true_eq]
          omega
      rw [this]
      rfl

/-- **C179**, partial: if the first row of the file is presented, `plot_ellipsdata` over wavelengths draws what it
draws for the same points in arrays.  Missing: files whose first row is cut off or masked
(`C179_fails_plot`). -/
theorem C179_plot_partial {d : LDS} {p0 : Pt} {rows : List (ℕ × Pt)} (h : Shows d ((0, p0) :: rows)) {st : St}
    (hp : Presents st.heap o.data (p0 :: vals rows)) :
    plotEllipsS env o d st = plotEllips env o "wavelength" false st := by
  unfold plotEllipsS plotEllips
  rw [if_neg (by decide), if_pos rfl, (cols_presents hp).1, h.wav, h.aoi, h.psi, h.dlt]
  have ha : at_ (onVals (fun p : Pt => p.2.1) ((0, p0) :: rows)) 0 = .ok p0.2.1 := by
    rw [at_zero (by simpa [onVals, Function.comp_def] using h.order)]
    rfl
  have hv : ∀ f : Pt → ℝ, vals (onVals f ((0, p0) :: rows)) = (p0 :: vals rows).map f := fun f => vals_onVals f _
  simp only [hv, Except.bind, ha, withRes, Bool.false_eq_true, if_false, List.map_cons, List.take_succ_cons,
    List.take_zero, drawOn]
  cases npMin (p0.1 :: (vals rows).map (·.1)) with
  | error e => rfl
  | ok a =>
    cases npMax (p0.1 :: (vals rows).map (·.1)) with
    | error e => rfl
    | ok b =>
      simp only
      have hst := curveLoop_state (env := env) (o := o) (fun q x => (x, q)) (linspace (a - 50) (b + 50)) [p0.2.1] st
      rcases hc : curveLoop env o (fun q x => (x, q)) (linspace (a - 50) (b + 50)) [p0.2.1] st with ⟨r, s⟩
      rw [hc] at hst
      cases r with
      | error e => rfl
      | ok curves =>
        have hp' : Presents s.heap o.data (p0 :: vals rows) := by rw [hst.heap]; exact hp
        have hpd : colsPD o s = .ok ((p0 :: vals rows).map (·.2.2.1), (p0 :: vals rows).map (·.2.2.2)) := by
          unfold colsPD
          rw [hp'.psi, hp'.dlt]
        simp only [hpd, hv, bind, Except.bind, pure, Except.pure, List.map_cons]
        cases dotsOf (p0.1 :: (vals rows).map (·.1)) (p0.2.2.1 :: (vals rows).map (·.2.2.1))
          (p0.2.2.2 :: (vals rows).map (·.2.2.2)) <;> rfl

/-- **C179 fails for `plot_ellipsdata`**: when the dataset presents points, but not the first row of the file, the
plot over wavelengths raises KeyError. -/
theorem C179_fails_plot {d : LDS} {rows : List (ℕ × Pt)} (h : Shows d rows) (hne : rows ≠ [])
    (h0 : ∀ p, (0, p) ∉ rows) (st : St) : (plotEllipsS env o d st).1 = .error .keyError := by
  unfold plotEllipsS
  rw [h.wav, h.aoi]
  have ha : at_ (onVals (fun p : Pt => p.2.1) rows) 0 = .error .keyError := by
    rw [at_zero (by simpa [onVals, Function.comp_def] using h.order)]
    cases rows with
    | nil => rfl
    | cons a rows =>
      obtain ⟨k, x⟩ := a
      cases k with
      | zero => exact absurd (by simp) (h0 x)
      | succ k => rfl
  cases rows with
  | nil => exact absurd rfl hne
  | cons a rows =>
    simp only [Except.bind, ha]
    simp [vals, onVals, npMin, npMax]

/-! ### A file -/

/-- Two rows at 400 and 500 nm, of which a cut-off at 450 nm leaves the second. -/
noncomputable def exTable : List (ℝ × ℝ × ℝ) := [(400, 30, 200), (500, 31, 120)]

theorem ex_frame : horibaFrame 70 (some 450) none exTable = [(1, (500, 70, 31, 120))] := by
  have h1 : ¬ (450 : ℝ) < 400 := by norm_num
  have h2 : (450 : ℝ) < 500 := by norm_num
  simp [horibaFrame, exTable, List.zipIdx, h1, h2]

theorem ex_frame_all : horibaFrame 70 none none exTable = [(0, (400, 70, 30, 200)), (1, (500, 70, 31, 120))] := by
  simp [horibaFrame, exTable, List.zipIdx]

theorem ex_shows : Shows (mkSeries (horibaFrame 70 (some 450) none exTable) false) [(1, (500, 70, 31, 120))] := by
  have h := mkSeries_shows (horibaFrame 70 (some 450) none exTable) (frame_order _ _ _ _) false (m := [true])
    (by rw [ex_frame]; rfl)
  rw [ex_frame] at h ⊢
  exact h

theorem ex_shows_all : Shows (mkSeries (horibaFrame 70 none none exTable) false)
    [(0, (400, 70, 30, 200)), (1, (500, 70, 31, 120))] := by
  have h := mkSeries_shows (horibaFrame 70 none none exTable) (frame_order _ _ _ _) false (m := [true, true])
    (by rw [ex_frame_all]; rfl)
  rw [ex_frame_all] at h ⊢
  exact h

/-- A file that `C179_reads` applies to: on a machine that knows the encoding it is read, elsewhere not. -/
example (knows : String → Bool) : let c : Codec := ⟨fun _ => some 70, fun _ => none, fun _ => []⟩
    let csv : List Line → ℕ → ℕ → Except PyErr (List (ℝ × ℝ × ℝ)) := fun _ _ _ => .ok [(500, 30, 120)]
    (∃ d, openHoribaDS knows c csv .str false none none (Parse.exBlocks.flatMap Parse.Block.text) = .ok d ∧
      Shows d [(0, (500, 70, 30, 120))]) ↔ knows "ANSI" = true := by
  intro c csv
  constructor
  · rintro ⟨d, h, -⟩
    by_contra hk
    exact C179_fails_encoding (by simpa using hk) _ _ _ _ _ _ _ d h
  · intro hk
    have h := Parse.C130_block_partial c none none [] (by simp) [Parse.exBlocks[0]] Parse.exBlocks[1] []
      (by simpa [Parse.exBlocks] using Parse.exBlocks_ok) rfl (by simp) (by simp [Parse.exBlocks]) []
      Parse.exBlocks[0] [Parse.exBlocks[1]] rfl rfl (by simp [Parse.exBlocks]) _ rfl 70 rfl
      (fun _ => [(500, 30, 120)])
    obtain ⟨d, rows, -, -, table, aoi, h1, h2, h3, h4, h5, -⟩ := C179_reads (reflect := false) hk c h
    refine ⟨d, h1, ?_⟩
    have ht : table = [(500, 30, 120)] := (Except.ok.inj h2).symm
    have h6 : rows.map (·.2) = [(500, 70, 30, 120)] := by rw [h5]; simp
    match rows, h6 with
    | [(k, p)], h6 =>
      obtain rfl : p = (500, 70, 30, 120) := by simpa using h6
      obtain ⟨r, hr, -⟩ := (h4 k _).1 (List.mem_singleton.2 rfl)
      rw [ht, List.getElem?_singleton] at hr
      have hk0 : k = 0 := by by_contra hne; rw [if_neg hne] at hr; cases hr
      subst hk0
      exact h3

/-- With the cut-off the dataset can neither be iterated nor plotted. -/
example (st : St) : uniqueS (mkSeries (horibaFrame 70 (some 450) none exTable) false) = .error .keyError ∧
    (plotEllipsS env o (mkSeries (horibaFrame 70 (some 450) none exTable) false) st).1 = .error .keyError := by
  refine ⟨?_, C179_fails_plot ex_shows (by simp) (by simp) st⟩
  rw [C179_fails_iteration ex_shows, if_neg (by simp)]

/-- **C68 fails for datasets of HORIBA files**: two points are read and presented, but iterating over the
wavelengths raises KeyError. -/
theorem C68_fails_series : ∃ (table : List (ℝ × ℝ × ℝ)) (rows : List (ℕ × Pt)), rows.length = 2 ∧
    Shows (mkSeries (horibaFrame 70 none none table) false) rows ∧
    uniqueS (mkSeries (horibaFrame 70 none none table) false) = .error .keyError :=
  ⟨exTable, _, rfl, ex_shows_all, by rw [C179_fails_iteration ex_shows_all, if_neg (by simp)]⟩

/-- A state and an objective with the two points of the table in arrays. -/
noncomputable def exSt : St where
  vals := fun _ => 0
  vary := fun _ => false
  models := fun _ => ⟨⟨7, false⟩, 0⟩
  structs := fun _ => twoMedia
  heap := ⟨fun i => ⟨false, [[400, 500], [70, 70], [30, 31], [200, 120]].getD i []⟩, 4⟩

theorem exSt_presents : Presents exSt.heap plotObj.data [(400, 70, 30, 200), (500, 70, 31, 120)] := by
  constructor <;> simp [exSt, plotObj, wavelength, aoi, psi, delta, len, access, pick]

/-- Without the cut-off the hypotheses of `C179_residuals` and `C179_plot_partial` hold. -/
example : residualsS env plotObj (mkSeries (horibaFrame 70 none none exTable) false) none exSt =
      residuals env plotObj none exSt ∧
    plotEllipsS env plotObj (mkSeries (horibaFrame 70 none none exTable) false) exSt =
      plotEllips env plotObj "wavelength" false exSt :=
  ⟨C179_residuals ex_shows_all exSt_presents none, C179_plot_partial ex_shows_all exSt_presents⟩

end Verif.Obj.Labelled
