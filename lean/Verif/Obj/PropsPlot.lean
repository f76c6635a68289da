import Verif.Obj.PlotLemmas
import Verif.Obj.PropsResid

/-! # Properties of plotting an objective (C107, C108) -/

namespace Verif.Obj
open Verif.Struct Verif.TMM Verif.RModel Verif.Data

variable {env : Env} {o : Objective}

/-! ### What a plot should show -/

/-- A curve of 50 equidistant points from `lo` to `hi`, each with the values the model returns for the row
`row x` of wavelength and angle. -/
def DrawnCurve (env : Env) (o : Objective) (st : St) (row : ℝ → ℝ × ℝ) (lo hi : ℝ) (c : List (ℝ × Cell)) : Prop :=
  c.length = 50 ∧ ∀ k (h : k < c.length), c[k].1 = lo + (hi - lo) * ((k : ℝ) / 49) ∧
    ModelAt env o st (row c[k].1) c[k].2

/-- `qs` lists the distinct values of a column, in increasing order. -/
def Distinct (pts : List Pt) (f : Pt → ℝ) (qs : List ℝ) : Prop :=
  qs.Pairwise (· < ·) ∧ ∀ q, q ∈ qs ↔ ∃ p ∈ pts, f p = q

/-- `lo` and `hi` are the extreme values of a column. -/
def Span (pts : List Pt) (f : Pt → ℝ) (lo hi : ℝ) : Prop :=
  (∃ p ∈ pts, f p = lo) ∧ (∃ p ∈ pts, f p = hi) ∧ ∀ p ∈ pts, lo ≤ f p ∧ f p ≤ hi

/-! ### Auxiliary facts -/

theorem curveOf_iff {st : St} {pt : ℝ → ℝ → ℝ × ℝ} {lo hi q : ℝ} {c : List (ℝ × Cell)} :
    CurveOf env o st pt (linspace lo hi) q c ↔ DrawnCurve env o st (pt q) lo hi c := by
  have hg : ∀ k (h : k < (linspace lo hi).length), (linspace lo hi)[k] = lo + (hi - lo) * ((k : ℝ) / 49) := by
    intro k h
    simp [linspace]
  have hl : (linspace lo hi).length = 50 := by simp [linspace]
  constructor
  · rintro ⟨h1, h2⟩
    have hlen : c.length = 50 := by rw [← hl, ← h1, List.length_map]
    refine ⟨hlen, fun k h => ⟨?_, h2 _ (List.getElem_mem h)⟩⟩
    rw [← hg k (by rw [hl, ← hlen]; exact h)]
    simp only [← h1, List.getElem_map]
  · rintro ⟨h1, h2⟩
    refine ⟨?_, fun p hp => ?_⟩
    · apply List.ext_getElem
      · rw [List.length_map, h1, hl]
      · intro k hk hk'
        rw [List.getElem_map, hg k hk', (h2 k (by simpa using hk)).1]
    · obtain ⟨k, hk, rfl⟩ := List.mem_iff_getElem.mp hp
      exact (h2 k hk).2

theorem distinct_unique {pts : List Pt} {f : Pt → ℝ} {qs : List ℝ} (h : Distinct pts f qs) :
    npUnique (pts.map f) = qs := by
  have hs : qs.Pairwise (· ≤ ·) := h.1.imp le_of_lt
  have hn : qs.Nodup := h.1.imp ne_of_lt
  refine List.Perm.eq_of_pairwise (le := (· ≤ ·)) (fun a b _ _ h1 h2 => le_antisymm h1 h2)
    (npUnique_sorted _) hs ?_
  refine (List.perm_ext_iff_of_nodup (npUnique_nodup _) hn).mpr fun q => ?_
  rw [mem_npUnique, h.2, List.mem_map]

theorem span_min {pts : List Pt} {f : Pt → ℝ} {lo hi : ℝ} (h : Span pts f lo hi) :
    npMin (pts.map f) = .ok lo ∧ npMax (pts.map f) = .ok hi := by
  obtain ⟨⟨p, hp, h1⟩, ⟨p', hp', h2⟩, h3⟩ := h
  have hne : ∃ x l, pts.map f = x :: l := by
    cases pts with
    | nil => simp at hp
    | cons x l => exact ⟨_, _, rfl⟩
  obtain ⟨x, l, hx⟩ := hne
  obtain ⟨a, ha⟩ : ∃ a, npMin (pts.map f) = .ok a := by rw [hx]; exact ⟨_, rfl⟩
  obtain ⟨b, hb⟩ : ∃ b, npMax (pts.map f) = .ok b := by rw [hx]; exact ⟨_, rfl⟩
  obtain ⟨m1, m2⟩ := npMin_spec ha
  obtain ⟨n1, n2⟩ := npMax_spec hb
  obtain ⟨r, hr, er⟩ := List.mem_map.mp m1
  obtain ⟨s, hs, es⟩ := List.mem_map.mp n1
  rw [ha, hb]
  refine ⟨congrArg _ (le_antisymm ?_ ?_), congrArg _ (le_antisymm ?_ ?_)⟩
  · rw [← h1]; exact m2 _ (List.mem_map_of_mem hp)
  · rw [← er]; exact (h3 r hr).1
  · rw [← es]; exact (h3 s hs).2
  · rw [← h2]; exact n2 _ (List.mem_map_of_mem hp')

theorem cols_presents {st : St} {pts : List Pt} (hp : Presents st.heap o.data pts) :
    colsXY o st = .ok (pts.map (·.1), pts.map (·.2.1)) ∧
      colsPD o st = .ok (pts.map (·.2.2.1), pts.map (·.2.2.2)) := by
  simp [colsXY, colsPD, hp.wav, hp.aoi, hp.psi, hp.dlt]

theorem dots_presents (pts : List Pt) (f : Pt → ℝ) :
    dotsOf (pts.map f) (pts.map (·.2.2.1)) (pts.map (·.2.2.2)) =
      .ok (pts.map fun p => (f p, p.2.2.1, p.2.2.2)) := by
  simp [dotsOf, List.zip_map']

theorem drawOn_ok {st : St} {pts : List Pt} (hp : Presents st.heap o.data pts) {pt : ℝ → ℝ → ℝ × ℝ}
    {f : Pt → ℝ} {qs : List ℝ} {lo hi dlo dhi : ℝ} (hs : Span pts f lo hi) {D : Drawing} :
    (drawOn env o pt (pts.map f) qs dlo dhi st).1 = .ok D ↔
      D.dots = pts.map (fun p => (f p, p.2.2.1, p.2.2.2)) ∧ D.res = [] ∧
        List.Forall₂ (fun q c => DrawnCurve env o st (pt q) (lo - dlo) (hi + dhi) c) qs D.curves := by
  obtain ⟨h1, h2⟩ := span_min hs
  unfold drawOn
  simp only [h1, h2]
  have hst := curveLoop_state (env := env) (o := o) pt (linspace (lo - dlo) (hi + dhi)) qs st
  have hok := curveLoop_ok (env := env) (o := o) pt (linspace (lo - dlo) (hi + dhi)) qs st
  simp only [List.forall₂_iff_get, curveOf_iff] at hok ⊢
  rcases hb : curveLoop env o pt (linspace (lo - dlo) (hi + dhi)) qs st with ⟨r, sb⟩
  rw [hb] at hst hok
  simp only at hok
  cases r with
  | error e =>
    simp only [reduceCtorEq, false_iff] at hok ⊢
    exact fun h => hok _ h.2.2
  | ok curves =>
    have hpres : colsPD o sb = .ok (pts.map (·.2.2.1), pts.map (·.2.2.2)) := by
      have := (cols_presents hp).2
      unfold colsPD at this ⊢
      rwa [hst.heap]
    simp only [hpres]
    have hd := dots_presents pts f
    constructor
    · intro h
      change (do let dots ← dotsOf (pts.map f) (pts.map (·.2.2.1)) (pts.map (·.2.2.2));
                 pure ({ curves, dots } : Drawing)) = Except.ok D at h
      rw [hd] at h
      cases h
      exact ⟨rfl, rfl, (hok _).mp rfl⟩
    · rintro ⟨h3, h4, h5⟩
      have := (hok _).mpr h5
      simp only [Except.ok.injEq] at this
      change (do let dots ← dotsOf (pts.map f) (pts.map (·.2.2.1)) (pts.map (·.2.2.2));
                 pure ({ curves, dots } : Drawing)) = Except.ok D
      rw [hd]
      obtain ⟨c, dts, r⟩ := D
      simp only at this h3 h4
      subst this h3 h4
      rfl

theorem axisOf_none {pts : List Pt} {qs : List ℝ} (h : Distinct pts (·.2.1) qs) :
    axisOf none (pts.map (·.2.1)) = if 1 < qs.length then "aoi" else "wavelength" := by
  simp only [axisOf]
  rw [distinct_unique h]

/-! ### C107 -/

/-- C107: over wavelengths - chosen by name, or by default if the data have one angle of incidence -
`plot` draws the unmasked data points and for each of their angles a curve from the smallest to the largest
wavelength, which at each of its points has the values the model returns there.  It succeeds exactly if the
model does at all these points. -/
theorem C107_wavelength {st : St} {pts : List Pt} (hp : Presents st.heap o.data pts) {lo hi : ℝ}
    (hs : Span pts (·.1) lo hi) {qs : List ℝ} (hq : Distinct pts (·.2.1) qs) {xaxis : Option String}
    (hx : xaxis = some "wavelength" ∨ xaxis = none ∧ qs.length ≤ 1) {D : Drawing} :
    (plot env o xaxis st).1 = .ok D ↔
      D.dots = pts.map (fun p => (p.1, p.2.2.1, p.2.2.2)) ∧ D.res = [] ∧
        List.Forall₂ (fun a c => DrawnCurve env o st (fun w => (w, a)) lo hi c) qs D.curves := by
  have hax : axisOf xaxis (pts.map (·.2.1)) = "wavelength" := by
    rcases hx with rfl | ⟨rfl, h⟩
    · rfl
    · rw [axisOf_none hq, if_neg (by omega)]
  unfold plot
  rw [(cols_presents hp).1]
  simp only [hax]
  rw [if_neg (by decide), if_pos trivial, distinct_unique hq, drawOn_ok hp hs]
  simp only [sub_zero, add_zero]

/-- C107: over angles - chosen by name, or by default if the data have several - there is a curve for each
wavelength. -/
theorem C107_aoi {st : St} {pts : List Pt} (hp : Presents st.heap o.data pts) {lo hi : ℝ}
    (hs : Span pts (·.2.1) lo hi) {qs as : List ℝ} (hq : Distinct pts (·.1) qs)
    (ha : Distinct pts (·.2.1) as) {xaxis : Option String}
    (hx : xaxis = some "aoi" ∨ xaxis = none ∧ 1 < as.length) {D : Drawing} :
    (plot env o xaxis st).1 = .ok D ↔
      D.dots = pts.map (fun p => (p.2.1, p.2.2.1, p.2.2.2)) ∧ D.res = [] ∧
        List.Forall₂ (fun w c => DrawnCurve env o st (fun a => (w, a)) lo hi c) qs D.curves := by
  have hax : axisOf xaxis (pts.map (·.2.1)) = "aoi" := by
    rcases hx with rfl | ⟨rfl, h⟩
    · rfl
    · rw [axisOf_none ha, if_pos h]
  unfold plot
  rw [(cols_presents hp).1]
  simp only [hax]
  rw [if_pos trivial, distinct_unique hq, drawOn_ok hp hs]
  simp only [sub_zero, add_zero]

/-- C107: no data, no plot: ValueError. -/
theorem C107_empty {st : St} (hp : Presents st.heap o.data []) (xaxis : Option String)
    (hx : xaxis = none ∨ xaxis = some "aoi" ∨ xaxis = some "wavelength") :
    plot env o xaxis st = (.error .valueError, st) := by
  unfold plot
  rw [(cols_presents hp).1]
  rcases hx with rfl | rfl | rfl
  · simp only [List.map_nil, axisOf]
    rw [show npUnique [] = [] from npUnique_eq_nil.mpr rfl]
    simp [drawOn, npMin]
  · simp [axisOf, drawOn, npMin]
  · simp [axisOf, drawOn, npMin]

theorem ModelAt.values {st : St} {pts : List Pt} {cells : List Cell} (hdt : env.dt = .float)
    (hv : Values env o st pts cells) {i : ℕ} (hi : i < pts.length) (hi' : i < cells.length) :
    ModelAt env o st (pts[i].1, pts[i].2.1) cells[i] := by
  unfold Values at hv
  rw [hdt, C19_model, List.forall₂_map_left_iff] at hv
  exact (List.forall₂_iff_get.mp hv).2 i hi hi'

/-- C107, partial: where a curve passes the wavelength and angle of a data point, it shows the model values the
residuals of that point are computed from.  Missing: data of integers, for which the residuals use truncated
values (`C107_fails_integer`). -/
theorem C107_fitted_partial {st : St} {pts : List Pt} {cells : List Cell} (hdt : env.dt = .float)
    (hv : Values env o st pts cells) {i : ℕ} (hi : i < pts.length) (hi' : i < cells.length) {lo hi₂ : ℝ}
    {c : List (ℝ × Cell)} (hc : DrawnCurve env o st (fun w => (w, pts[i].2.1)) lo hi₂ c) {k : ℕ}
    (hk : k < c.length) (hx : c[k].1 = pts[i].1) : c[k].2 = cells[i] := by
  have h1 := (hc.2 k hk).2
  rw [hx] at h1
  have h2 := ModelAt.values hdt hv hi hi'
  unfold ModelAt at h1 h2
  rw [h1] at h2
  simpa using h2

/-! ### C108 -/

/-- The residuals panel: each point with its two residuals. -/
def Panel (pts : List Pt) (f : Pt → ℝ) (r : List (Option ℝ)) (p : List (ℝ × Option ℝ × Option ℝ)) : Prop :=
  p.length = pts.length ∧ ∀ i (h : i < pts.length) (h' : i < p.length),
    p[i].1 = f pts[i] ∧ r[i]? = some p[i].2.1 ∧ r[pts.length + i]? = some p[i].2.2

theorem drawOn_panel {st : St} {pts : List Pt} {f : Pt → ℝ}
    {D : Drawing} {s : St} (hs : Sim st s) (resax : Bool) {D' : Drawing}
    (h : (withRes env o resax (pts.map f) (.ok D, s)).1 = .ok D') :
    D'.dots = D.dots ∧ D'.curves = D.curves ∧ (resax = false → D'.res = D.res) ∧
      (resax = true → ∃ r, (residuals env o none st).1 = .ok r ∧ Panel pts f r D'.res) := by
  cases resax with
  | false =>
    simp only [withRes, Bool.false_eq_true, if_false, Except.ok.injEq] at h
    subst h
    simp
  | true =>
    simp only [withRes, if_true] at h
    have hres := residuals_none_sim (env := env) (o := o) hs
    unfold resPanel at h
    rcases hb : residuals env o none s with ⟨r, sb⟩
    rw [hb] at h hres
    simp only at hres
    cases r with
    | error e => simp at h
    | ok res =>
      simp only at h
      by_cases hc : (pts.map f).length = (res.take (res.length / 2)).length ∧
          (pts.map f).length = (res.drop (res.length / 2)).length
      · rw [if_pos hc] at h
        have hch : ∃ y sy, chisqr env o none sb = (y, sy) := ⟨_, _, rfl⟩
        obtain ⟨y, sy, hy⟩ := hch
        rw [hy] at h
        cases y with
        | error e => simp at h
        | ok y =>
          simp only [Except.ok.injEq] at h
          subst h
          refine ⟨rfl, rfl, by simp, fun _ => ⟨res, hres.symm, ?_⟩⟩
          have l1 := hc.1
          have l2 := hc.2
          simp only [List.length_map, List.length_take, List.length_drop] at l1 l2
          refine ⟨by simp; omega, fun i hi hi' => ?_⟩
          have hn : res.length / 2 = pts.length := by omega
          simp only [List.getElem_zip, List.getElem_map, List.getElem_take, List.getElem_drop, hn]
          refine ⟨trivial, ?_, ?_⟩
          · rw [List.getElem?_eq_getElem]
          · rw [List.getElem?_eq_getElem]
      · rw [if_neg hc] at h
        simp at h

/-- C108: `plot_ellipsdata` over angles draws the unmasked data, a curve for each wavelength which extends 5
degrees to both sides, and in the residuals panel for each data point its two residuals. -/
theorem C108_aoi {st : St} {pts : List Pt} (hp : Presents st.heap o.data pts) {lo hi : ℝ}
    (hs : Span pts (·.2.1) lo hi) {qs : List ℝ} (hq : Distinct pts (·.1) qs) {resax : Bool} {D : Drawing}
    (h : (plotEllips env o "aoi" resax st).1 = .ok D) :
    D.dots = pts.map (fun p => (p.2.1, p.2.2.1, p.2.2.2)) ∧
      List.Forall₂ (fun w c => DrawnCurve env o st (fun a => (w, a)) (lo - 5) (hi + 5) c) qs D.curves ∧
      (resax = true → ∃ r, (residuals env o none st).1 = .ok r ∧ Panel pts (·.2.1) r D.res) := by
  unfold plotEllips at h
  rw [if_pos rfl, (cols_presents hp).1] at h
  simp only at h
  rw [distinct_unique hq] at h
  have hst := drawOn_state (env := env) (o := o) (fun q x => (q, x)) (pts.map (·.2.1)) qs 5 5 st
  have hok := fun D => drawOn_ok (env := env) (D := D) (pt := fun q x => (q, x)) (qs := qs) (dlo := 5) (dhi := 5) hp hs
  rcases hb : drawOn env o (fun q x => (q, x)) (pts.map (·.2.1)) qs 5 5 st with ⟨r, s⟩
  rw [hb] at h hst hok
  cases r with
  | error e => simp [withRes] at h
  | ok D0 =>
    obtain ⟨h1, h2, -, h4⟩ := drawOn_panel hst resax h
    obtain ⟨g1, -, g3⟩ := (hok D0).mp rfl
    exact ⟨h1.trans g1, h2 ▸ g3, h4⟩

theorem withRes_ok {st s : St} {pts : List Pt} (hp : Presents st.heap o.data pts) {f : Pt → ℝ} {D : Drawing}
    (hs : Sim st s) {resax : Bool}
    (hv : resax = true → ∃ cells, Values env o st pts cells) :
    ∃ D', (withRes env o resax (pts.map f) (.ok D, s)).1 = .ok D' := by
  cases resax with
  | false => exact ⟨D, rfl⟩
  | true =>
    obtain ⟨cells, hv⟩ := hv rfl
    have hr := (C81_residuals (env := env) hp).mpr ⟨cells, hv, rfl⟩
    rw [← residuals_none_sim (env := env) (o := o) hs] at hr
    have hc := chisqr_state (env := env) (o := o) none s
    rw [setVals_none] at hc
    have hst := residuals_none_state (env := env) (o := o) s
    simp only [withRes, if_true]
    unfold resPanel
    rcases hb : residuals env o none s with ⟨r, sb⟩
    rw [hb] at hr hst
    simp only at hr
    subst hr
    have hl := Values.length_eq hv
    have hr2 := residuals_none_sim (env := env) (o := o) hst
    rw [hb] at hr2
    rcases hb2 : residuals env o none sb with ⟨r2, sb2⟩
    rw [hb2] at hr2
    simp only at hr2
    subst hr2
    simp only [chisqr, setp, hb2]
    rw [if_pos (by simp [hl]; omega)]
    exact ⟨_, rfl⟩

/-- C108: over angles the plot succeeds if the model does at the points of the curves and, for the residuals
panel, at the data. -/
theorem C108_aoi_succeeds {st : St} {pts : List Pt} (hp : Presents st.heap o.data pts) {lo hi : ℝ}
    (hs : Span pts (·.2.1) lo hi) {qs : List ℝ} (hq : Distinct pts (·.1) qs) {resax : Bool}
    (hm : ∀ w ∈ qs, ∃ c, DrawnCurve env o st (fun a => (w, a)) (lo - 5) (hi + 5) c)
    (hv : resax = true → ∃ cells, Values env o st pts cells) :
    ∃ D, (plotEllips env o "aoi" resax st).1 = .ok D := by
  have hcs : ∃ cs, List.Forall₂ (fun w c => DrawnCurve env o st (fun a => (w, a)) (lo - 5) (hi + 5) c) qs cs := by
    clear hq
    induction qs with
    | nil => exact ⟨[], .nil⟩
    | cons w l ih =>
      obtain ⟨c, hc⟩ := hm w (by simp)
      obtain ⟨cs, hcs⟩ := ih fun w' h => hm w' (by simp [h])
      exact ⟨c :: cs, .cons hc hcs⟩
  obtain ⟨cs, hcs⟩ := hcs
  unfold plotEllips
  rw [if_pos rfl, (cols_presents hp).1]
  simp only
  rw [distinct_unique hq]
  have hst := drawOn_state (env := env) (o := o) (fun q x => (q, x)) (pts.map (·.2.1)) qs 5 5 st
  have hok := (drawOn_ok (env := env) (D := ⟨cs, _, []⟩) (pt := fun q x => (q, x)) (qs := qs) (dlo := 5)
    (dhi := 5) hp hs).mpr ⟨rfl, rfl, hcs⟩
  rcases hb : drawOn env o (fun q x => (q, x)) (pts.map (·.2.1)) qs 5 5 st with ⟨r, s⟩
  rw [hb] at hst hok ⊢
  simp only at hok hst
  subst hok
  exact withRes_ok hp hst hv

/-- C108, partial: over wavelengths there is one curve, extending 50 nm to both sides, for the angle of the
first data point; so there is a curve for every data point if all angles are equal.  Missing: several angles
(`C108_fails_angles`). -/
theorem C108_wavelength_partial {st : St} {p0 : Pt} {pts : List Pt}
    (hp : Presents st.heap o.data (p0 :: pts)) {lo hi : ℝ} (hs : Span (p0 :: pts) (·.1) lo hi) {resax : Bool}
    {D : Drawing} (h : (plotEllips env o "wavelength" resax st).1 = .ok D) :
    D.dots = (p0 :: pts).map (fun p => (p.1, p.2.2.1, p.2.2.2)) ∧
      (∃ c, D.curves = [c] ∧ DrawnCurve env o st (fun w => (w, p0.2.1)) (lo - 50) (hi + 50) c) ∧
      (resax = true → ∃ r, (residuals env o none st).1 = .ok r ∧ Panel (p0 :: pts) (·.1) r D.res) := by
  unfold plotEllips at h
  rw [if_neg (by decide), if_pos rfl, (cols_presents hp).1] at h
  simp only [List.map_cons, List.take_succ_cons, List.take_zero] at h
  have hst := drawOn_state (env := env) (o := o) (fun q x => (x, q)) ((p0 :: pts).map (·.1)) [p0.2.1] 50 50 st
  have hok := fun D => drawOn_ok (env := env) (D := D) (pt := fun q x => (x, q)) (qs := [p0.2.1]) (dlo := 50)
    (dhi := 50) hp hs
  rw [List.map_cons] at hst hok
  rcases hb : drawOn env o (fun q x => (x, q)) (p0.1 :: pts.map (·.1)) [p0.2.1] 50 50 st with ⟨r, s⟩
  rw [hb] at h hst hok
  cases r with
  | error e => simp [withRes] at h
  | ok D0 =>
    obtain ⟨h1, h2, -, h4⟩ := drawOn_panel (pts := p0 :: pts) (f := (·.1)) hst resax h
    obtain ⟨g1, -, g3⟩ := (hok D0).mp rfl
    obtain ⟨c, t, hc, ht, e⟩ := List.forall₂_cons_left_iff.mp g3
    rw [List.forall₂_nil_left_iff.mp ht] at e
    exact ⟨h1.trans g1, ⟨c, h2.trans e, hc⟩, h4⟩

/-! ### Concrete plots -/

/-- One model of a structure; two data points at 500 nm, at the angles 0 and `a`. -/
noncomputable def plotSt (v : Vals) (m : RM) (s : Structure) (a : ℝ) : St where
  vals := v
  vary := fun _ => false
  models := fun _ => ⟨m, 0⟩
  structs := fun _ => s
  heap := ⟨fun i => ⟨false, [[500, 500], [0, a], [45, 45], [180, 180]].getD i []⟩, 4⟩

/-- The data of `plotSt`. -/
def plotObj : Objective :=
  { model := 0, data := { wav := 0, aoi := 1, psi := 2, dlt := 3, mask := some [true, true], flipped := false } }

theorem plot_presents (v : Vals) (m : RM) (s : Structure) (a : ℝ) :
    Presents (plotSt v m s a).heap plotObj.data [(500, 0, 45, 180), (500, a, 45, 180)] := by
  constructor <;> simp [plotSt, plotObj, wavelength, aoi, psi, delta, len, access, pick]

theorem plot_span (a : ℝ) : Span [(500, 0, 45, 180), (500, a, 45, 180)] (·.1) 500 500 :=
  ⟨⟨(500, 0, 45, 180), by simp, rfl⟩, ⟨(500, 0, 45, 180), by simp, rfl⟩, by simp⟩

theorem plot_modelAt (env : Env) (a : ℝ) {x : ℝ} (hx : x ≠ 0) :
    ModelAt env plotObj (plotSt (fun _ => 0) ⟨7, false⟩ twoMedia a) (x, 0) (some 45, some 180) := by
  have := twoMedia_value env.ext env.zs (v := fun _ => 0) (fun _ _ => rfl) hx 7
  simp only [add_zero] at this
  exact this

theorem const_curve {st : St} {row : ℝ → ℝ × ℝ} {x : ℝ} {c : Cell} (h : ModelAt env o st (row x) c) :
    DrawnCurve env o st row x x (List.replicate 50 (x, c)) :=
  ⟨List.length_replicate, fun k hk => by
    rw [List.getElem_replicate]
    exact ⟨by simp, h⟩⟩

/-- C107 fails for integers: the residuals are computed from a delta of 180, the plot shows 180.5 at the
wavelength and angle of the data. -/
theorem C107_fails_integer (env : Env) {j : ℤ} (hdt : env.dt = .int j) :
    ∃ st pts cells D c, Presents st.heap plotObj.data pts ∧ Values env plotObj st pts cells ∧
      (plot env plotObj none st).1 = .ok D ∧ c ∈ D.curves ∧
      ∃ (h : 0 < c.length) (hp : 0 < pts.length) (hc : 0 < cells.length),
        c[0].1 = pts[0].1 ∧ DrawnCurve env plotObj st (fun w => (w, pts[0].2.1)) 500 500 c ∧
        c[0].2 = (some 45, some (361 / 2)) ∧ cells[0] = (some 45, some 180) := by
  obtain ⟨v, m, s, h1, h2⟩ := C21_fails_integer env.ext env.zs j
  have hm : ModelAt env plotObj (plotSt v m s 0) (500, 0) (some 45, some (361 / 2)) := h1
  have hc := const_curve (row := fun w => (w, 0)) hm
  have hq : Distinct [(500, 0, 45, 180), (500, 0, 45, 180)] (fun p : Pt => p.2.1) [0] :=
    ⟨by simp, by simp [eq_comm]⟩
  refine ⟨plotSt v m s 0, _, [(some 45, some 180), (some 45, some 180)],
    ⟨[List.replicate 50 (500, some 45, some (361 / 2))], _, []⟩, _, plot_presents v m s 0, ?_,
    (C107_wavelength (plot_presents v m s 0) (plot_span 0) hq (.inr ⟨rfl, by simp⟩)).mpr
      ⟨rfl, rfl, .cons hc .nil⟩, List.mem_singleton.mpr rfl, ?_⟩
  · unfold Values
    rw [hdt, C19_model]
    exact .cons h2 (.cons h2 .nil)
  · exact ⟨by simp, by simp, by simp, by simp, hc, by simp, by simp⟩

/-- A curve of 50 points with the same values everywhere. -/
theorem flat_curve {st : St} {row : ℝ → ℝ × ℝ} {lo hi : ℝ} {c : Cell}
    (h : ∀ x, lo ≤ x → x ≤ hi → ModelAt env o st (row x) c) (hlh : lo ≤ hi) :
    DrawnCurve env o st row lo hi ((linspace lo hi).map fun x => (x, c)) := by
  have hl : (linspace lo hi).length = 50 := by simp [linspace]
  refine ⟨by simp [hl], fun k hk => ?_⟩
  have hk' : k < 50 := by simpa [hl] using hk
  have hx : (linspace lo hi)[k]'(by rw [hl]; exact hk') = lo + (hi - lo) * ((k : ℝ) / 49) := by simp [linspace]
  simp only [List.getElem_map, hx, true_and]
  have h49 : (k : ℝ) / 49 ≤ 1 := by
    rw [div_le_one (by norm_num)]; exact_mod_cast Nat.le_of_lt_succ hk'
  have h0 : (0 : ℝ) ≤ (k : ℝ) / 49 := by positivity
  apply h
  · nlinarith
  · nlinarith

/-- C108 fails for several angles: data at the angles 0 and 60, and over wavelengths one curve, for the
angle 0. -/
theorem C108_fails_angles (env : Env) :
    ∃ st pts D, Presents st.heap plotObj.data pts ∧ Distinct pts (·.2.1) [0, 60] ∧
      (plotEllips env plotObj "wavelength" false st).1 = .ok D ∧
      ∃ c, D.curves = [c] ∧ DrawnCurve env plotObj st (fun w => (w, 0)) 450 550 c := by
  have hp := plot_presents (fun _ => 0) ⟨7, false⟩ twoMedia 60
  have hc : DrawnCurve env plotObj (plotSt (fun _ => 0) ⟨7, false⟩ twoMedia 60) (fun w => (w, 0)) 450 550
      ((linspace 450 550).map fun x => (x, (some 45, some 180))) := by
    exact flat_curve (fun x h1 _ => plot_modelAt env 60 (by linarith : 0 < x).ne') (by norm_num)
  refine ⟨_, _, ⟨[(linspace 450 550).map fun x => (x, (some 45, some 180))],
    [(500, 45, 180), (500, 45, 180)], []⟩, hp, ⟨by simp, by simp [eq_comm]⟩, ?_, _, rfl, hc⟩
  · unfold plotEllips
    rw [if_neg (by decide), if_pos rfl, (cols_presents hp).1]
    have h := (drawOn_ok (env := env) (pt := fun q x => (x, q)) (qs := [0]) (dlo := 50) (dhi := 50) hp
      (plot_span 60) (D := ⟨[(linspace 450 550).map fun x => (x, (some 45, some 180))],
        [(500, 45, 180), (500, 45, 180)], []⟩)).mpr ⟨rfl, rfl, by
          simp only [List.forall₂_cons, List.forall₂_nil_left_iff, and_true]
          rw [show (500 : ℝ) - 50 = 450 by norm_num, show (500 : ℝ) + 50 = 550 by norm_num]
          exact hc⟩
    simp only [List.map_cons, List.map_nil, List.take_succ_cons, List.take_zero] at h ⊢
    rcases hb : drawOn env plotObj (fun q x => (x, q)) [500, 500] [0] 50 50
      (plotSt (fun _ => 0) ⟨7, false⟩ twoMedia 60) with ⟨r, s⟩
    rw [hb] at h
    simp only at h
    subst h
    rfl

/-- Non-vacuity of C107: a default plot that succeeds. -/
example (env : Env) : ∃ D, (plot env plotObj none (plotSt (fun _ => 0) ⟨7, false⟩ twoMedia 0)).1 = .ok D ∧
    D.curves.length = 1 := by
  have hm := plot_modelAt env 0 (x := 500) (by norm_num)
  exact ⟨⟨[_], _, []⟩, (C107_wavelength (plot_presents _ _ _ 0) (plot_span 0) (qs := [0])
    ⟨by simp, by simp [eq_comm]⟩ (.inr ⟨rfl, by simp⟩)).mpr
      ⟨rfl, rfl, .cons (const_curve (row := fun w => (w, 0)) hm) .nil⟩, rfl⟩

theorem twoMedia_angle (env : Env) (s : ℝ) {w : ℝ} (hw : w ≠ 0) (a : ℝ) :
    ∃ c, ModelAt env plotObj (plotSt (fun _ => 0) ⟨7, false⟩ twoMedia s) (w, a) c := by
  have hnz : Stack.NZ ⟨((1 : ℝ) : ℂ), [], 3⟩ := by simp [Stack.NZ]
  have h := congrArg Prod.fst (deltaPsi_rows (exRows_of []) hnz hw env.zs [a] 0 false)
  exact ⟨_, (model_ok (ext := env.ext) (zs := env.zs)).mpr
    (.cons ⟨_, _, twoMedia_rows env.ext w (fun _ => 0) (fun _ _ => rfl), h, rfl⟩ .nil)⟩

/-- Non-vacuity of C108: a plot over angles with a residuals panel that succeeds. -/
example (env : Env) : ∃ D, (plotEllips env plotObj "aoi" true (plotSt (fun _ => 0) ⟨7, false⟩ twoMedia 60)).1 = .ok D := by
  refine C108_aoi_succeeds (plot_presents _ _ _ 60) (lo := 0) (hi := 60) (qs := [500])
    ⟨⟨(500, 0, 45, 180), by simp, rfl⟩, ⟨(500, 60, 45, 180), by simp, rfl⟩, by simp⟩
    ⟨by simp, by simp [eq_comm]⟩ ?_ fun _ => ?_
  · intro w hw
    rw [List.mem_singleton] at hw
    subst hw
    choose g hg using twoMedia_angle env 60 (w := 500) (by norm_num)
    refine ⟨(linspace (0 - 5) (60 + 5)).map fun a => (a, g a), by simp [linspace], fun k hk => ?_⟩
    rw [List.getElem_map]
    exact ⟨by simp [linspace], hg _⟩
  · have h : ∀ a, ∃ c, PointVal env.ext env.zs env.dt (fun _ => 0) ⟨7, false⟩ twoMedia (500, a) c := by
      intro a
      obtain ⟨c, hc⟩ := twoMedia_angle env 60 (w := 500) (by norm_num) a
      obtain ⟨rows, y, h1, h2, -⟩ := (List.forall₂_cons.mp (model_ok.mp hc)).1
      exact ⟨_, rows, y, h1, h2, rfl⟩
    obtain ⟨c, hc⟩ := h 0
    obtain ⟨c', hc'⟩ := h 60
    exact ⟨[c, c'], values_iff.mpr (.cons hc (.cons hc' .nil))⟩

end Verif.Obj
