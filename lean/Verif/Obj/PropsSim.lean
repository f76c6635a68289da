import Verif.Obj.PropsArgs

/-! # Fitting a model to its own data (C135) -/

namespace Verif.Obj
open Verif.Struct Verif.TMM Verif.RModel Verif.Data

variable {env : Env}

/-- The state after the call of model number `m` at the points `x` of the table: the structure of the model
keeps the last wavelength. -/
noncomputable def afterCall (env : Env) (st : St) (m : ℕ) (x : List (ℝ × ℝ)) : St :=
  { st with structs := fun i => if i = (st.models m).str then
      (RModel.model env.ext env.zs env.dt st.vals (st.models m).rm (st.structs (st.models m).str) x).2
      else st.structs i }

/-- Model number `m`, called at the wavelengths and angles of `pts`, returns the psi and delta of `pts`. -/
def Simulates (env : Env) (st : St) (m : ℕ) (pts : List Pt) : Prop :=
  (RModel.model env.ext env.zs env.dt st.vals (st.models m).rm (st.structs (st.models m).str)
    (pts.map fun q => (q.1, q.2.1))).1 = .ok (pts.map fun q => (some q.2.2.1, some q.2.2.2))

theorem residuals_simulated {st st' : St} {m : ℕ} {pts : List Pt} (hs : Simulates env st m pts)
    {o : Objective} (ho : o.model = m) (hp : Presents st'.heap o.data pts) (hv : st'.vals = st.vals)
    (hm : st'.models m = st.models m)
    (hst : st'.structs (st.models m).str = st.structs (st.models m).str ∨
      ∃ w, st'.structs (st.models m).str = { st.structs (st.models m).str with wavelength := w }) :
    (residuals env o none st').1 = .ok (List.replicate (pts.length + pts.length) (some 0)) ∧
      (chisqr env o none st').1 = .ok (some 0) := by
  have hr : (residuals env o none st').1 = .ok (List.replicate (pts.length + pts.length) (some 0)) := by
    refine (C81_residuals hp).mpr ⟨pts.map fun q => (some q.2.2.1, some q.2.2.2), ?_, ?_⟩
    · rw [values_iff]
      have h := (values_iff (o := o) (st := st)).mp (by rw [Values, ho]; exact hs)
      unfold PointValues at h ⊢
      rw [ho, hv, hm]
      rw [ho] at h
      rcases hst with e | ⟨w, e⟩
      · rwa [e]
      · rw [e]
        exact h
    · rw [List.replicate_add]
      congr 1 <;>
      · symm
        rw [List.eq_replicate_iff]
        refine ⟨by simp, fun b hb => ?_⟩
        simp only [List.mem_map] at hb
        obtain ⟨⟨q, c⟩, hq, rfl⟩ := hb
        obtain ⟨i, hi, he⟩ := List.getElem_of_mem hq
        rw [List.getElem_zip, List.getElem_map, Prod.mk.injEq] at he
        rw [← he.1, ← he.2]
        simp [circularDistance]
  refine ⟨hr, ?_⟩
  rw [chisqr_eq, hr]
  have : ∀ n : ℕ, finite (List.replicate n (some (0 : ℝ))) = some (List.replicate n 0) := by
    intro n
    induction n with
    | zero => rfl
    | succ n ih => simp [List.replicate_succ, finite, ih]
  simp [Except.map, this]

theorem afterCall_structs (env : Env) (st : St) (m : ℕ) (x : List (ℝ × ℝ)) :
    ∃ w, (afterCall env st m x).structs (st.models m).str =
      { st.structs (st.models m).str with wavelength := w } := by
  simp only [afterCall, if_pos]
  exact loop_state' _ _ _

theorem mkObjective_models {st : St} {m : ℕ} {d : DS} (hf : d.flipped = (st.models m).rm.flip)
    (ln : Option PId) (use : Bool) (lp : Option (MObj → DS → St → ℝ)) :
    (mkObjective st m d ln use lp).2.models m = st.models m := by
  simp [mkObjective, hf]

/-- C135, partial: psi and delta that a model has returned, put into a dataset whose convention for delta is
that of the model, are fitted by the model with all residuals 0 and chi-squared 0.  Missing: data in the other
convention and deltas above 180 in the folded convention, see `C135_fails_convention`, `C135_fails_offset`. -/
theorem C135_arrays_partial (c : Codec) {st : St} {m : ℕ} {pts : List Pt} (hs : Simulates env st m pts)
    {h : Heap} {w a p d : ℕ} (hw : h.arr w = ⟨false, pts.map (·.1)⟩) (ha : h.arr a = ⟨false, pts.map (·.2.1)⟩)
    (hp : h.arr p = ⟨false, pts.map (·.2.2.1)⟩) (hd : h.arr d = ⟨false, pts.map (·.2.2.2)⟩)
    (hwd : w ≠ d) (had : a ≠ d) (hpd : p ≠ d)
    (hf : (st.models m).rm.flip = true → ∀ q ∈ pts, q.2.2.2 ≤ 180)
    (ln : Option PId) (use : Bool) (lp : Option (MObj → DS → St → ℝ)) :
    ∃ ds h', mk c h (.arrays w a p d) (st.models m).rm.flip = .ok (ds, h') ∧
      let r := mkObjective { afterCall env st m (pts.map fun q => (q.1, q.2.1)) with heap := h' } m ds ln use lp
      (residuals env r.1 none r.2).1 = .ok (List.replicate (pts.length + pts.length) (some 0)) ∧
      (chisqr env r.1 none r.2).1 = .ok (some 0) := by
  have hmk := mk_arrays c h (w := w) (a := a) (p := p) (d := d) (by rw [hd]) (st.models m).rm.flip
  refine ⟨_, _, hmk, ?_⟩
  refine residuals_simulated hs (m := m) rfl ?_ rfl ?_ (.inr (afterCall_structs env st m _))
  · cases hb : (st.models m).rm.flip with
    | false => exact presents_all ⟨hw, ha, hp, hd⟩ rfl
    | true =>
      obtain ⟨o', h', h1, h2, _⟩ := C61_reflect_partial c h
        (o := { wav := w, aoi := a, psi := p, dlt := d, mask := none, flipped := false }) (pts := pts)
        ⟨hw, ha, hp, hd⟩ hwd had hpd
      rw [hb] at hmk
      simp only at h1
      rw [hmk] at h1
      obtain ⟨rfl, rfl⟩ := Prod.mk.inj (Except.ok.inj h1)
      have e : (pts.map fun q : Pt => (q.1, q.2.1, q.2.2.1, if 180 < q.2.2.2 then 360 - q.2.2.2 else q.2.2.2)) =
          pts := by
        conv_rhs => rw [← List.map_id pts]
        refine List.map_congr_left fun q hq => ?_
        rw [if_neg (not_lt.mpr (hf hb q hq))]
        rfl
      rw [e] at h2
      exact h2
  · exact mkObjective_models rfl ln use lp

/-- C135, partial: the same through a file: psi and delta that a model has returned, put into a dataset, saved
and loaded, are fitted by the model with all residuals 0.  Missing: models that return delta in the folded
convention, see `C135_fails_convention`; another delimiter, see `C64_fails_delimiter`. -/
theorem C135_file_partial {c : Codec} {Rep : ℝ → Prop} (hc : c.Good Rep) {st : St} {m : ℕ} {pts : List Pt}
    (hs : Simulates env st m pts) (hrep : ∀ q ∈ pts, RepPt Rep q) (hne : pts ≠ [])
    (hf : (st.models m).rm.flip = false) {h : Heap} {d : DS} (hd : Holds h d pts) (f : String)
    (ln : Option PId) (use : Bool) (lp : Option (MObj → DS → St → ℝ)) :
    ∃ ls ds h', save c h d = .ok ls ∧ mk c h (.file f ls) false = .ok (ds, h') ∧
      let r := mkObjective { afterCall env st m (pts.map fun q => (q.1, q.2.1)) with heap := h' } m ds ln use lp
      (residuals env r.1 none r.2).1 = .ok (List.replicate (pts.length + pts.length) (some 0)) ∧
      (chisqr env r.1 none r.2).1 = .ok (some 0) := by
  obtain ⟨ls, ds, h', h1, h2, h3⟩ := C64_round_trip_partial hc hd hrep hne h f
  refine ⟨ls, ds, h', h1, h2, ?_⟩
  refine residuals_simulated hs (m := m) rfl h3 rfl ?_ (.inr (afterCall_structs env st m _))
  exact mkObjective_models (by rw [(C98_new_partial c h h' _ _ _ _ ds h2).1]; exact hf.symm) ln use lp

/-- The film of C89 with an offset of delta, and the flag of the model. -/
noncomputable def filmOffSt (ψ Δ off : ℝ) (b : Bool) : St :=
  { filmSt ψ Δ with vals := Function.update filmVals 7 off, models := fun _ => ⟨⟨7, b⟩, 0⟩ }

theorem filmOff_slabs (ext : Ext) (w off : ℝ) :
    (slabs ext (Function.update filmVals 7 off) { filmStruct with wavelength := some w } none).1 =
      .ok (some filmRows) := by
  rw [← film_slabs ext w]
  rfl

theorem filmOff_simulates (hdt : env.dt = .float) {ψ Δ off : ℝ} {b : Bool} (ψ' Δ' : ℝ)
    (h : (deltaPsiTMM env.zs [filmAoi] filmRows 480 off b).1 = .ok [(some ψ, some Δ)]) :
    Simulates env (filmOffSt ψ' Δ' off b) 0 [(480, filmAoi, ψ, Δ)] := by
  have := (values_iff (env := env) (o := { exObj with model := 0 }) (st := filmOffSt ψ' Δ' off b)
    (pts := [(480, filmAoi, ψ, Δ)]) (cells := [(some ψ, some Δ)])).mpr (.cons
        ⟨filmRows, (some ψ, some Δ), filmOff_slabs env.ext 480 off, ?_, by rw [hdt]; rfl⟩ .nil)
  · exact this
  · simpa [filmOffSt] using h

theorem filmOff_presents (ψ Δ off : ℝ) (b : Bool) (d : DS) (hd : d.wav = 0 ∧ d.aoi = 1 ∧ d.psi = 2 ∧ d.dlt = 3)
    (hm : d.mask = some [true]) : Presents (filmOffSt ψ Δ off b).heap d [(480, filmAoi, ψ, Δ)] := by
  obtain ⟨h1, h2, h3, h4⟩ := hd
  constructor <;> simp [filmOffSt, filmSt, wavelength, aoi, psi, delta, len, access, pick, h1, h2, h3, h4, hm]

/-- C135 fails: a model that folds delta (it was fitted to folded data) does not fit its own psi and delta in a
new dataset, because the objective makes it unfold delta. -/
theorem C135_fails_convention (c : Codec) (env : Env) (hdt : env.dt = .float) : ∃ (st : St) (pts : List Pt),
    (st.models 0).rm.flip = true ∧ Simulates env st 0 pts ∧ Holds st.heap (filmData false) pts ∧
    ∃ o st', mkObjectiveFrom c (afterCall env st 0 (pts.map fun q => (q.1, q.2.1)))
        0 (.other (.arrays 0 1 2 3)) = .ok (o, st') ∧
      ∃ x : ℝ, 0 < x ∧ (residuals env o none st').1 = .ok [some 0, some x] := by
  obtain ⟨ψ, Δ, h1, h2, h⟩ := film_delta env.zs
  obtain ⟨hf, ht⟩ := h 0
  rw [add_zero] at hf ht
  refine ⟨filmOffSt ψ (360 - Δ) 0 true, [(480, filmAoi, ψ, 360 - Δ)], rfl, filmOff_simulates hdt _ _ ht,
    ⟨rfl, rfl, rfl, rfl⟩, _, _, rfl, circularDistance Δ (360 - Δ) 360, ?_, ?_⟩
  · unfold circularDistance
    rw [show Δ - (360 - Δ) = 2 * (Δ - 180) by ring, abs_of_pos (by linarith)]
    exact lt_min (by linarith) (by linarith)
  · refine (C81_residuals (pts := [(480, filmAoi, ψ, 360 - Δ)]) ?_).mpr
      ⟨[(some ψ, some Δ)], values_iff.mpr (.cons ⟨filmRows, (some ψ, some Δ), ?_, ?_, by rw [hdt]; rfl⟩ .nil),
        by simp⟩
    · exact filmOff_presents ψ (360 - Δ) 0 true _ ⟨rfl, rfl, rfl, rfl⟩ rfl
    · obtain ⟨w, hw⟩ := afterCall_structs env (filmOffSt ψ (360 - Δ) 0 true) 0 [(480, filmAoi)]
      have e : (slabs env.ext (Function.update filmVals 7 0) { ({ filmStruct with wavelength := w } : Structure) with
        wavelength := some 480 } none).1 = .ok (some filmRows) := filmOff_slabs env.ext 480 0
      rw [← show _ = ({ filmStruct with wavelength := w } : Structure) from hw] at e
      exact e
    · simpa [filmOffSt, afterCall] using hf

/-- C135 fails: with an offset a model that folds delta can return a delta above 180, which a dataset in the
same convention folds back; the model does not fit its own data. -/
theorem C135_fails_offset (c : Codec) (env : Env) (hdt : env.dt = .float) : ∃ (st : St) (pts : List Pt),
    (st.models 0).rm.flip = true ∧ Simulates env st 0 pts ∧ Holds st.heap (filmData false) pts ∧
    ∃ d h', mk c st.heap (.arrays 0 1 2 3) true = .ok (d, h') ∧
      let r := mkObjective { afterCall env st 0 (pts.map fun q => (q.1, q.2.1)) with heap := h' } 0 d none false none
      (residuals env r.1 none r.2).1 = .ok [some 0, some 20] := by
  obtain ⟨ψ, Δ, h1, h2, h⟩ := film_delta env.zs
  obtain ⟨_, ht⟩ := h (Δ - 170)
  rw [show 360 - Δ + (Δ - 170) = 190 by ring] at ht
  have hs := filmOff_simulates hdt ψ 190 ht
  refine ⟨filmOffSt ψ 190 (Δ - 170) true, [(480, filmAoi, ψ, 190)], rfl, hs, ⟨rfl, rfl, rfl, rfl⟩, ?_⟩
  obtain ⟨d, h', h3, h4, _⟩ := C61_reflect_partial c (filmOffSt ψ 190 (Δ - 170) true).heap
    (o := filmData false) (pts := [(480, filmAoi, ψ, 190)]) ⟨rfl, rfl, rfl, rfl⟩ (by decide) (by decide) (by decide)
  refine ⟨d, h', h3, ?_⟩
  have hfl := (C98_new_partial c _ h' _ _ _ _ d h3).1
  have e : ([(480, filmAoi, ψ, 190)] : List Pt).map (fun q : Pt => (q.1, q.2.1, q.2.2.1,
      if 180 < q.2.2.2 then 360 - q.2.2.2 else q.2.2.2)) = [(480, filmAoi, ψ, 170)] := by
    norm_num
  rw [e] at h4
  refine (C81_residuals h4).mpr ⟨[(some ψ, some 190)], values_iff.mpr (.cons
    ⟨filmRows, (some ψ, some 190), ?_, ?_, by rw [hdt]; rfl⟩ .nil), ?_⟩
  · obtain ⟨w, hw⟩ := afterCall_structs env (filmOffSt ψ 190 (Δ - 170) true) 0 [(480, filmAoi)]
    have e : (slabs env.ext (Function.update filmVals 7 (Δ - 170)) { ({ filmStruct with wavelength := w } : Structure) with
        wavelength := some 480 } none).1 = .ok (some filmRows) := filmOff_slabs env.ext 480 _
    rw [← show _ = ({ filmStruct with wavelength := w } : Structure) from hw] at e
    exact e
  · have hv : Function.update filmVals 7 (Δ - 170) 7 = Δ - 170 := Function.update_self ..
    simpa [filmOffSt, mkObjective, hfl, afterCall] using ht
  · norm_num [circularDistance, abs_of_pos]

/-- Non-vacuity of `C135_arrays_partial` (in both conventions): the film simulates its own data. -/
example (env : Env) (hdt : env.dt = .float) : ∃ (ψ Δ : ℝ), 180 < Δ ∧
    Simulates env (filmOffSt ψ Δ 0 false) 0 [(480, filmAoi, ψ, Δ)] ∧
    Simulates env (filmOffSt ψ (360 - Δ) 0 true) 0 [(480, filmAoi, ψ, 360 - Δ)] ∧ 360 - Δ ≤ 180 := by
  obtain ⟨ψ, Δ, h1, h2, h⟩ := film_delta env.zs
  obtain ⟨hf, ht⟩ := h 0
  rw [add_zero] at hf ht
  exact ⟨ψ, Δ, h1, filmOff_simulates hdt _ _ hf, filmOff_simulates hdt _ _ ht, by linarith⟩

/-- Non-vacuity of `C135_file_partial`: numbers with a finite text, and a model that returns such numbers. -/
example (env : Env) (hdt : env.dt = .float) : Simulates env (exSt 0 180) 0 [(600, 0, 45, 180)] ∧
    ((exSt 0 180).models 0).rm.flip = false ∧ Holds (exSt 0 180).heap exObj.data [(600, 0, 45, 180)] := by
  refine ⟨?_, rfl, ⟨rfl, rfl, rfl, rfl⟩⟩
  have := ex_values env hdt exObj 0 180
  rw [add_zero] at this
  exact this

end Verif.Obj
