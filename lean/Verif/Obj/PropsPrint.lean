import Verif.Obj.PrintModel
import Verif.Obj.PropsHist

/-! # C165: printing an objective -/

namespace Verif.Obj
open Verif.Struct Verif.TMM Verif.RModel Verif.Data

variable {env : Env} {o : Objective}

/-- Spec: sum of the squared differences between model values and data over the points that are fitted. -/
noncomputable def misfit (pts : List Pt) (ms : List (ℝ × ℝ)) : ℝ :=
  ((pts.zip ms).map fun x => (x.2.1 - x.1.2.2.1) ^ 2).sum +
    ((pts.zip ms).map fun x => circularDistance x.2.2 x.1.2.2.2 360 ^ 2).sum

theorem chisqr_misfit {st : St} {pts : List Pt} (hp : Presents st.heap o.data pts) {ms : List (ℝ × ℝ)}
    (hv : Values env o st pts (cellsOf ms)) : (chisqr env o none st).1 = .ok (some (misfit pts ms)) := by
  have hr := (C81_residuals (env := env) hp).mpr ⟨_, hv, rfl⟩
  have e : (pts.zip (cellsOf ms)).map (fun x => x.2.1.map fun ψ => ψ - x.1.2.2.1) ++
      (pts.zip (cellsOf ms)).map (fun x => x.2.2.map fun Δ => circularDistance Δ x.1.2.2.2 360) =
      (((pts.zip ms).map fun x => x.2.1 - x.1.2.2.1) ++
      ((pts.zip ms).map fun x => circularDistance x.2.2 x.1.2.2.2 360)).map some := by
    simp [cellsOf, List.zip_map_right, Function.comp_def]
  rw [e] at hr
  rw [(C82_sum hr).1]
  simp [misfit, Function.comp_def]

theorem strLines_state (fmt : Fmt) (name : List Char) (st : St) : Sim st (strLines fmt name env o st).2 := by
  unfold strLines
  cases datasetLine fmt o st with
  | error e => exact Sim.refl _
  | ok l =>
    have h := chisqr_state (env := env) (o := o) none st
    rw [setVals_none] at h
    generalize chisqr env o none st = q at h ⊢
    obtain ⟨r, s⟩ := q
    cases r <;> exact h

theorem objStr_state (fmt : Fmt) (name : List Char) (st : St) : Sim st (objStr fmt name env o st).2 := by
  have h := strLines_state (env := env) (o := o) fmt name st
  unfold objStr
  generalize strLines fmt name env o st = q at h ⊢
  obtain ⟨r, s⟩ := q
  cases r <;> exact h

/-- The lines of the text, in terms of the state before. -/
theorem strLines_fst (fmt : Fmt) (name : List Char) (st : St) {l : List Char} (hl : datasetLine fmt o st = .ok l) :
    (strLines fmt name env o st).1 = (chisqr env o none st).1.map fun x =>
      [List.replicate 80 '_', "Objective - ".toList ++ name, l,
        "datapoints = ".toList ++ fmt.nat (npoints o st), "chi2 = ".toList ++ fmt.real x,
        "Weighted = ".toList ++ fmt.bool o.weighted, "Transform = ".toList ++ fmt.transform o.transform,
        fmt.pars (flatParams env o st) st.vals st.vary] := by
  have h := chisqr_state (env := env) (o := o) none st
  rw [setVals_none] at h
  unfold strLines
  rw [hl]
  generalize chisqr env o none st = q at h ⊢
  obtain ⟨r, s⟩ := q
  replace h : Sim st s := h
  rw [← flatParams_sim' h.weak, ← h.vals, ← h.vary]
  cases r <;> rfl

theorem objStr_fst (fmt : Fmt) (name : List Char) (st : St) :
    (objStr fmt name env o st).1 = (strLines fmt name env o st).1.map (['\n'].intercalate ·) := by
  unfold objStr
  generalize strLines fmt name env o st = q
  obtain ⟨r, s⟩ := q
  cases r <;> rfl

theorem objStr_sim (fmt : Fmt) (name : List Char) {a b : St} (h : Sim a b) :
    (objStr fmt name env o b).1 = (objStr fmt name env o a).1 := by
  rw [objStr_fst, objStr_fst]
  congr 1
  have hd : datasetLine fmt o b = datasetLine fmt o a := by unfold datasetLine; rw [h.heap]
  have hn : npoints o b = npoints o a := by unfold npoints; rw [h.heap]
  cases ha : datasetLine fmt o a with
  | error e => unfold strLines; rw [hd, ha]
  | ok l =>
    rw [strLines_fst fmt name a ha, strLines_fst fmt name b (hd.trans ha), chisqr_none_sim h, hn,
      flatParams_sim' h.weak, h.vals, h.vary]

/-- Spec: how the data are named: by their name, or else as so many points without one. -/
def label (fmt : Fmt) (name : Option String) (n : ℕ) : List Char :=
  match name with
  | none => "<None>, ".toList ++ fmt.nat n ++ " points".toList
  | some s => s.toList

/-- C165: `str(objective)` shows, on lines of their own, the data, the sum of squared differences between the current
model and the points that are fitted, how it is weighted, and the current values of the parameters. -/
theorem C165_text (fmt : Fmt) (name : List Char) {st : St} {pts : List Pt} (hp : Presents st.heap o.data pts)
    {ms : List (ℝ × ℝ)} (hv : Values env o st pts (cellsOf ms)) :
    ∃ n, (objStr fmt name env o st).1 = .ok (['\n'].intercalate
      [List.replicate 80 '_', "Objective - ".toList ++ name, "Dataset = ".toList ++ label fmt o.data.name pts.length,
        "datapoints = ".toList ++ fmt.nat n, "chi2 = ".toList ++ fmt.real (some (misfit pts ms)),
        "Weighted = ".toList ++ fmt.bool (o.data.weighted && o.useWeights),
        "Transform = ".toList ++ fmt.transform o.transform, fmt.pars (flatParams env o st) st.vals st.vary]) := by
  have hl : datasetLine fmt o st = .ok ("Dataset = ".toList ++ label fmt o.data.name pts.length) := by
    unfold datasetLine dataStr label
    rw [hp.len]
    cases o.data.name <;> rfl
  have hc := chisqr_misfit (env := env) hp hv
  refine ⟨npoints o st, ?_⟩
  rw [objStr_fst, strLines_fst fmt name st hl, hc]
  rfl

/-- C165: `str(objective)` raises exactly if the model cannot be computed at one of the points that are fitted. -/
theorem C165_raises (fmt : Fmt) (name : List Char) {st : St} {pts : List Pt} (hp : Presents st.heap o.data pts) :
    (∃ e, (objStr fmt name env o st).1 = .error e) ↔ ∃ pt ∈ pts, ¬ ∃ c, PointVal env.ext env.zs env.dt st.vals
      (st.models o.model).rm (st.structs (st.models o.model).str) (pt.1, pt.2.1) c := by
  obtain ⟨l, hl⟩ : ∃ l, datasetLine fmt o st = .ok l := by
    unfold datasetLine dataStr
    rw [hp.len]
    cases o.data.name <;> exact ⟨_, rfl⟩
  have h1 : (∃ e, (objStr fmt name env o st).1 = .error e) ↔ ∃ e, (residuals env o none st).1 = .error e := by
    have : (∃ e, (objStr fmt name env o st).1 = .error e) ↔ ∃ e, (chisqr env o none st).1 = .error e := by
      rw [objStr_fst, strLines_fst fmt name st hl]
      cases (chisqr env o none st).1 <;> simp [Except.map]
    rw [this, chisqr_eq]
    cases (residuals env o none st).1 <;> simp [Except.map]
  have h2 : (∃ e, (residuals env o none st).1 = .error e) ↔ ¬ ∃ cells, PointValues env o st pts cells := by
    constructor
    · rintro ⟨e, he⟩ ⟨cells, hc⟩
      have := (C81_residuals (env := env) hp).mpr ⟨cells, values_iff.mpr hc, rfl⟩
      rw [he] at this
      simp at this
    · intro h
      cases hr : (residuals env o none st).1 with
      | error e => exact ⟨e, rfl⟩
      | ok r =>
        obtain ⟨cells, hv, -⟩ := (C81_residuals (env := env) hp).mp hr
        exact absurd ⟨cells, values_iff.mp hv⟩ h
  rw [h1, h2, ← not_iff_not, not_not]
  push Not
  unfold PointValues
  constructor
  · rintro ⟨cells, h⟩ pt hpt
    obtain ⟨i, hi, rfl⟩ := List.getElem_of_mem hpt
    exact ⟨_, (List.forall₂_iff_get.mp h).2 i hi (by rw [← h.length_eq]; exact hi)⟩
  · intro h
    clear h1 h2 hp
    induction pts with
    | nil => exact ⟨[], .nil⟩
    | cons p l ih =>
      obtain ⟨c, hc⟩ := h p (by simp)
      obtain ⟨cs, hcs⟩ := ih fun q hq => h q (by simp [hq])
      exact ⟨c :: cs, .cons hc hcs⟩

/-- C165: printing, whether it succeeds or raises, changes no parameter, no dataset and no model, and of structures
only the wavelength they were last evaluated at. -/
theorem C165_state (fmt : Fmt) (name : List Char) (st : St) :
    let st' := (objStr fmt name env o st).2
    st'.vals = st.vals ∧ st'.vary = st.vary ∧ st'.models = st.models ∧ st'.heap = st.heap ∧
      ∀ i, ∃ w, st'.structs i = { st.structs i with wavelength := w } := by
  have h := objStr_state (env := env) (o := o) fmt name st
  exact ⟨h.vals, h.vary, h.models, h.heap, h.structs⟩

/-- C165: whatever was printed, every objective gives the same results and the same text as before, with or without a
vector of parameters. -/
theorem C165_no_effect (fmt : Fmt) (name name' : List Char) (o' : Objective) (st : St) (p : Option (List ℝ)) :
    let st' := (objStr fmt name env o' st).2
    (residuals env o p st').1 = (residuals env o p st).1 ∧ (chisqr env o p st').1 = (chisqr env o p st).1 ∧
      (logp env o p st').1 = (logp env o p st).1 ∧ (logl env o p st').1 = (logl env o p st).1 ∧
      (logpost env o p st').1 = (logpost env o p st).1 ∧
      (objStr fmt name' env o st').1 = (objStr fmt name' env o st).1 := by
  have h := objStr_state (env := env) (o := o') fmt name st
  cases p with
  | none =>
    exact ⟨residuals_none_sim h, chisqr_none_sim h, logp_none_sim h, logl_none_sim h, logpost_none_sim h,
      objStr_sim fmt name' h⟩
  | some x =>
    obtain ⟨a, b, c, d, e⟩ := C90_function (env := env) (o := o) ⟨h.weak, fun p _ => by rw [h.vals]⟩ x
    exact ⟨a, b, d, c, e, objStr_sim fmt name' h⟩

/-- C165: the two counts in the text.  Without a name the dataset is shown with the number of points that are fitted,
and the line below it gives the number of points stored.  Missing: that they agree if points are masked, which is false
(`C165_fails`). -/
theorem C165_counts_partial (fmt : Fmt) (name : List Char) {st : St} {pts : List Pt} {m : List Bool}
    (hold : Holds st.heap o.data pts) (hm : o.data.mask = some m) (hl : m.length = pts.length)
    (hall : ∀ b ∈ m, b = true) (hn : o.data.name = none) {t : List (List Char)}
    (h : (strLines fmt name env o st).1 = .ok t) :
    t[2]? = some ("Dataset = <None>, ".toList ++ fmt.nat pts.length ++ " points".toList) ∧
      t[3]? = some ("datapoints = ".toList ++ fmt.nat pts.length) := by
  have hlen := (C59_mask_partial hold hm hl).2
  have hc : m.count true = pts.length := by
    rw [← hl, List.count_eq_length]
    exact fun b hb => (hall b hb).symm
  rw [hc] at hlen
  have hnp : npoints o st = pts.length := by rw [npoints, hold.wav]; simp
  have hd : datasetLine fmt o st =
      .ok ("Dataset = <None>, ".toList ++ fmt.nat pts.length ++ " points".toList) := by
    unfold datasetLine dataStr
    rw [hn, hlen]
    simp
  rw [strLines_fst fmt name st hd, hnp] at h
  cases hx : (chisqr env o none st).1 with
  | error e => rw [hx] at h; exact absurd h (by rintro ⟨⟩)
  | ok x =>
    rw [hx] at h
    obtain rfl := Except.ok.inj h
    exact ⟨rfl, rfl⟩

/-- C165 fails for the counts: with one of two points masked the text says "1 points" and "datapoints = 2", and shows
the misfit of one point. -/
theorem C165_fails (fmt : Fmt) (name : List Char) (env : Env) (hdt : env.dt = .float) : ∃ t,
    (strLines fmt name env (ex2Obj false) ex2St).1 = .ok t ∧
      t[2]? = some ("Dataset = <None>, ".toList ++ fmt.nat 1 ++ " points".toList) ∧
      t[3]? = some ("datapoints = ".toList ++ fmt.nat 2) ∧ t[4]? = some ("chi2 = ".toList ++ fmt.real (some 100)) := by
  obtain ⟨h1, h2, h3⟩ := C91_fails env hdt
  have hd : datasetLine fmt (ex2Obj false) ex2St =
      .ok ("Dataset = <None>, ".toList ++ fmt.nat 1 ++ " points".toList) := by
    unfold datasetLine dataStr
    rw [h2]
    simp [ex2Obj]
  have hc : (chisqr env (ex2Obj false) none ex2St).1 = .ok (some 100) := by
    have := (C82_sum (env := env) (o := ex2Obj false) (st := ex2St) (p := none) (r := [0, 10]) h1).1
    rw [this]
    norm_num
  rw [strLines_fst fmt name _ hd, hc, h3]
  exact ⟨_, rfl, rfl, rfl, rfl⟩

/-- Non-vacuity of C165: one point of which delta is off by ten degrees. -/
example (fmt : Fmt) (name : List Char) (env : Env) (hdt : env.dt = .float) :
    Presents (exSt 0 190).heap exObj.data [(600, 0, 45, 190)] ∧
    Values env exObj (exSt 0 190) [(600, 0, 45, 190)] (cellsOf [(45, 180)]) ∧
    misfit [(600, 0, 45, 190)] [(45, 180)] = 100 ∧ ∃ t, (objStr fmt name env exObj (exSt 0 190)).1 = .ok t := by
  have h1 := ex_presents 0 190
  have h2 : Values env exObj (exSt 0 190) [(600, 0, 45, 190)] (cellsOf [(45, 180)]) := by
    have := ex_values env hdt exObj 0 190
    simpa [cellsOf] using this
  refine ⟨h1, h2, ?_, ?_⟩
  · norm_num [misfit, circularDistance, abs_of_neg]
  · obtain ⟨_, h⟩ := C165_text (env := env) fmt name h1 h2
    exact ⟨_, h⟩

/-- Non-vacuity of `C165_counts_partial`: two points, none masked. -/
example (fmt : Fmt) (name : List Char) (env : Env) (hdt : env.dt = .float) : ∃ t,
    (strLines fmt name env (ex2Obj true) ex2St).1 = .ok t ∧ t[3]? = some ("datapoints = ".toList ++ fmt.nat 2) := by
  obtain ⟨h1, h3⟩ := ex2_all env hdt
  have hp := (C59_mask_partial (ex2_holds true) rfl rfl).1
  have hc := (C82_sum (env := env) (o := ex2Obj true) (st := ex2St) (p := none) (r := [0, 0, 10, 10]) h1).1
  obtain ⟨t, ht⟩ : ∃ t, (strLines fmt name env (ex2Obj true) ex2St).1 = .ok t := by
    have hd : ∃ l, datasetLine fmt (ex2Obj true) ex2St = .ok l := by
      unfold datasetLine dataStr
      rw [hp.len]
      exact ⟨_, rfl⟩
    obtain ⟨l, hd⟩ := hd
    rw [strLines_fst fmt name _ hd, hc]
    exact ⟨_, rfl⟩
  exact ⟨t, ht, (C165_counts_partial fmt name (ex2_holds true) rfl rfl (by simp) rfl ht).2⟩

end Verif.Obj
