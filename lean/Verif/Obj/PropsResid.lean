import Verif.Obj.Lemmas
import Verif.Data.PropsData
import Verif.RModel.PropsModel
import Mathlib.Analysis.Real.Pi.Bounds

/-! # Properties of residuals and likelihood (C80 - C84) -/

namespace Verif.Obj
open Verif.Struct Verif.TMM Verif.RModel Verif.Data

/-! ### C80 circular distance -/

/-- Spec: the distance of two angles on a circle of circumference `T`, the smallest distance of
representatives. -/
noncomputable def circDist (T a b : ℝ) : ℝ := ⨅ k : ℤ, |a - b + T * k|

theorem circDist_eq {T a b : ℝ} (k : ℤ) (h : |a - b + T * k| ≤ T / 2) :
    circDist T a b = |a - b + T * k| := by
  have hb : BddBelow (Set.range fun k : ℤ => |a - b + T * k|) :=
    ⟨0, by rintro _ ⟨k, rfl⟩; exact abs_nonneg _⟩
  refine le_antisymm (ciInf_le hb k) (le_ciInf fun j => ?_)
  rcases eq_or_ne j k with rfl | hj
  · exact le_rfl
  · have hT : 0 ≤ T := by linarith [abs_nonneg (a - b + T * k)]
    have h1 : (1 : ℝ) ≤ |((j - k : ℤ) : ℝ)| := by
      exact_mod_cast Int.one_le_abs (sub_ne_zero.mpr hj)
    have h2 : |T * ((j - k : ℤ) : ℝ)| = T * |((j - k : ℤ) : ℝ)| := by
      rw [abs_mul, abs_of_nonneg hT]
    have h3 : T ≤ |T * ((j - k : ℤ) : ℝ)| := by rw [h2]; nlinarith
    have h4 : T * ((j - k : ℤ) : ℝ) = (a - b + T * j) - (a - b + T * k) := by push_cast; ring
    have h5 := abs_sub (a - b + T * j) (a - b + T * k)
    rw [← h4] at h5
    linarith

theorem circDist_nonneg (T a b : ℝ) : 0 ≤ circDist T a b := Real.iInf_nonneg fun _ => abs_nonneg _

theorem circDist_shift (T a b : ℝ) (j : ℤ) : circDist T a (b + T * j) = circDist T a b := by
  unfold circDist
  have : (fun k : ℤ => |a - (b + T * j) + T * k|) = fun k : ℤ => |a - b + T * ((k - j : ℤ) : ℝ)| := by
    funext k
    push_cast
    congr 1
    ring
  rw [this]
  exact (Equiv.subRight j).iInf_comp (g := fun k : ℤ => |a - b + T * (k : ℝ)|)

/-- C80, up to one and a half turns, apart from the sign. -/
theorem C80_abs_partial {T a b : ℝ} (h : |a - b| ≤ 3 / 2 * T) :
    |circularDistance a b T| = circDist T a b := by
  unfold circularDistance
  rcases le_total (|a - b|) (T / 2) with h1 | h1
  · rw [min_eq_left (by linarith), abs_abs, circDist_eq 0 (by simpa using h1)]
    simp
  · rw [min_eq_right (by linarith)]
    rcases le_total 0 (a - b) with h2 | h2
    · rw [abs_of_nonneg h2] at h h1 ⊢
      have e : T - (a - b) = -(a - b + T * ((-1 : ℤ) : ℝ)) := by push_cast; ring
      rw [circDist_eq (-1), e, abs_neg]
      rw [abs_le]; push_cast; constructor <;> linarith
    · rw [abs_of_nonpos h2] at h h1 ⊢
      have e : T - -(a - b) = a - b + T * ((1 : ℤ) : ℝ) := by push_cast; ring
      rw [circDist_eq 1, e]
      rw [abs_le]; push_cast; constructor <;> linarith

/-- C80 for angles at most one turn apart.  Missing: angles further apart, for which the claim is false
(`C80_fails`). -/
theorem C80_partial {T a b : ℝ} (hT : 0 < T) (h : |a - b| ≤ T) :
    circularDistance a b T = circDist T a b := by
  rw [← C80_abs_partial (by linarith), abs_of_nonneg]
  exact le_min (abs_nonneg _) (by linarith)

/-- C80 fails for all other angles: the value is negative, however far they are apart on the circle. -/
theorem C80_fails {T a b : ℝ} (hT : 0 < T) (h : T < |a - b|) :
    circularDistance a b T = T - |a - b| ∧ circularDistance a b T < 0 ∧
      circularDistance a b T ≠ circDist T a b := by
  have e : circularDistance a b T = T - |a - b| := min_eq_right (by linarith)
  have hn : circularDistance a b T < 0 := by rw [e]; linarith
  exact ⟨e, hn, fun h' => absurd (circDist_nonneg T a b) (by rw [← h']; linarith)⟩

/-- Non-vacuity of C80: angles on either side of 0, and equivalent angles two turns apart. -/
example : circularDistance 350 10 360 = 20 ∧ circDist 360 350 10 = 20 ∧
    circularDistance 10 (-710) 360 = -360 ∧ circDist 360 10 (-710) = 0 := by
  have h1 : circularDistance 350 10 360 = 20 := by unfold circularDistance; norm_num [abs_of_pos]
  refine ⟨h1, ?_, ?_, ?_⟩
  · rw [← C80_partial (by norm_num) (by norm_num [abs_of_pos]), h1]
  · unfold circularDistance; norm_num [abs_of_pos]
  · rw [circDist_eq (-2) (by norm_num)]; norm_num

/-! ### C81 residuals -/

variable {env : Env} {o : Objective}

/-- The model values at the points of an objective: what `model(np.c_[wavelength, aoi])` returns. -/
def Values (env : Env) (o : Objective) (st : St) (pts : List Pt) (cells : List Cell) : Prop :=
  (RModel.model env.ext env.zs env.dt st.vals (st.models o.model).rm
    (st.structs (st.models o.model).str) (pts.map fun p => (p.1, p.2.1))).1 = .ok cells

/-- The same, computed for each point alone. -/
def PointValues (env : Env) (o : Objective) (st : St) (pts : List Pt) (cells : List Cell) : Prop :=
  List.Forall₂ (fun (pt : Pt) c => PointVal env.ext env.zs env.dt st.vals (st.models o.model).rm
    (st.structs (st.models o.model).str) (pt.1, pt.2.1) c) pts cells

theorem values_iff {st : St} {pts : List Pt} {cells : List Cell} :
    Values env o st pts cells ↔ PointValues env o st pts cells := by
  unfold Values PointValues
  rw [model_ok, List.forall₂_map_left_iff]

theorem Values.length_eq {st : St} {pts : List Pt} {cells : List Cell}
    (h : Values env o st pts cells) : pts.length = cells.length :=
  List.Forall₂.length_eq (values_iff.mp h)

theorem dataOf_presents {st : St} {pts : List Pt} (hp : Presents st.heap o.data pts) :
    dataOf o st = .ok (pts.map (·.1), pts.map (·.2.1), pts.map (·.2.2.1), pts.map (·.2.2.2)) := by
  unfold dataOf
  rw [hp.wav, hp.aoi, hp.psi, hp.dlt]

theorem zip_cols (pts : List Pt) :
    (pts.map (·.1)).zip (pts.map (·.2.1)) = pts.map fun p => (p.1, p.2.1) := by
  rw [List.zip_map']

theorem callModel_ok {st : St} {pts : List Pt} {cells : List Cell} :
    (callModel env o (pts.map (·.1)) (pts.map (·.2.1)) st).1 = .ok cells ↔
      Values env o st pts cells := by
  unfold callModel
  rw [if_pos (by simp), zip_cols]
  rfl

theorem zipWith_zip {α β γ : Type} (f : α → β → γ) (l : List α) (m : List β) :
    List.zipWith f l m = (l.zip m).map fun x => f x.1 x.2 := by
  induction l generalizing m with
  | nil => simp
  | cons a l ih => cases m <;> simp [ih]

/-- C81: the residuals are psi of the model minus psi of the data for each unmasked point followed by the
circular distance of delta for each unmasked point, with the model values at the points,
and they exist exactly if the model can be computed. -/
theorem C81_residuals {st : St} {pts : List Pt} (hp : Presents st.heap o.data pts)
    {r : List (Option ℝ)} :
    (residuals env o none st).1 = .ok r ↔ ∃ cells, Values env o st pts cells ∧
      r = (pts.zip cells).map (fun x => x.2.1.map fun ψ => ψ - x.1.2.2.1) ++
        (pts.zip cells).map (fun x => x.2.2.map fun Δ => circularDistance Δ x.1.2.2.2 360) := by
  rw [residuals_none, dataOf_presents hp]
  simp only
  have key : ∀ cells : List Cell, resOf cells (pts.map (·.2.2.1)) (pts.map (·.2.2.2)) =
      (pts.zip cells).map (fun x => x.2.1.map fun ψ => ψ - x.1.2.2.1) ++
        (pts.zip cells).map (fun x => x.2.2.map fun Δ => circularDistance Δ x.1.2.2.2 360) := by
    intro cells
    unfold resOf
    rw [List.zipWith_comm, List.zipWith_map_left, zipWith_zip, List.zipWith_comm,
      List.zipWith_map_left, zipWith_zip]
  have hc := fun cells => callModel_ok (env := env) (o := o) (st := st) (pts := pts) (cells := cells)
  rcases h : callModel env o (pts.map (·.1)) (pts.map (·.2.1)) st with ⟨q, s'⟩
  rw [h] at hc
  rw [h]
  cases q with
  | error e =>
    simp only [reduceCtorEq, false_iff] at hc ⊢
    rintro ⟨cells, h1, _⟩
    exact hc cells h1
  | ok cells =>
    have hv := (hc cells).mp rfl
    have hl := hv.length_eq
    simp only
    rw [if_pos (by simp [hl]), key]
    simp only [Except.ok.injEq]
    constructor
    · rintro rfl
      exact ⟨cells, hv, rfl⟩
    · rintro ⟨cells', h1, rfl⟩
      have : cells = cells' := by simpa using (hc cells').mpr h1
      subst this
      rfl

theorem reflectRad_bound {b : Bool} {x : ℝ} (h0 : 0 ≤ x) (h1 : x ≤ 2 * Real.pi) :
    0 ≤ reflectRad b x * (180 / Real.pi) ∧ reflectRad b x * (180 / Real.pi) ≤ 360 := by
  have hpi := Real.pi_pos
  have h180 : (0 : ℝ) < 180 / Real.pi := by positivity
  have hpp : 2 * Real.pi * (180 / Real.pi) = 360 := by field_simp; norm_num
  have hr : 0 ≤ reflectRad b x ∧ reflectRad b x ≤ 2 * Real.pi := by
    cases b with
    | false => simpa [reflectRad] using ⟨h0, h1⟩
    | true => simp only [reflectRad, if_true]; constructor <;> (split <;> linarith)
  refine ⟨mul_nonneg hr.1 h180.le, ?_⟩
  rw [← hpp]
  gcongr
  exact hr.2

/-- The delta of the model, without offset, is an angle between 0 and 360. -/
theorem delta_range {v : Vals} {m : RM} {ext : Ext} {zs : List Layer → ℝ → ℝ → Bool} {s : Structure}
    {pt : ℝ × ℝ} {c : Cell} (h : PointVal ext zs .float v m s pt c) {d : ℝ} (hd : c.2 = some d) :
    v m.off ≤ d ∧ d ≤ v m.off + 360 := by
  obtain ⟨rows, y, _, h2, rfl⟩ := h
  change y.2 = some d at hd
  unfold deltaPsiTMM at h2
  split at h2
  · simp at h2
  · simp only [List.map_cons, List.map_nil] at h2
    cases hq : cohTmm (toLayers (zeroFrontK _)) [(((pt.2 * (Real.pi / 180) : ℝ) : ℂ), pt.1)] with
    | error e => rw [hq] at h2; simp [Except.map] at h2
    | ok amps =>
      rw [hq] at h2
      simp only [Except.map, Except.ok.injEq] at h2
      cases amps with
      | nil => simp at h2
      | cons am l =>
        simp only [List.zipWith_cons_cons, List.zipWith_nil_left, List.cons.injEq, and_true] at h2
        rw [← h2] at hd
        unfold psiDelta at hd
        split at hd
        · simp only [Option.map_eq_some_iff] at hd
          obtain ⟨x, hx, rfl⟩ := hd
          simp only [deltaRad, Option.bind_eq_bind, Option.bind_eq_some_iff, Option.some.injEq] at hx
          obtain ⟨q, _, w, _, hx⟩ := hx
          generalize zs _ pt.2 pt.1 = σ at hx
          have := npAngle_mem σ w
          have h3 := reflectRad_bound (b := m.flip) (x := x) (by linarith) (by linarith)
          constructor <;> linarith [h3.1, h3.2]
        · simp at hd

/-- Within two turns, a circular distance of zero means that the angles are equivalent. -/
theorem circularDistance_zero {a b : ℝ} (h : |a - b| < 720) :
    circularDistance a b 360 = 0 ↔ ∃ k : ℤ, a = b + 360 * k := by
  unfold circularDistance
  constructor
  · intro h0
    rcases min_choice |a - b| (360 - |a - b|) with h1 | h1 <;> rw [h1] at h0
    · exact ⟨0, by have := abs_eq_zero.mp h0; push_cast; linarith⟩
    · rcases abs_cases (a - b) with ⟨h2, _⟩ | ⟨h2, _⟩
      · exact ⟨1, by push_cast; linarith⟩
      · exact ⟨-1, by push_cast; linarith⟩
  · rintro ⟨k, rfl⟩
    have e : b + 360 * (k : ℝ) - b = 360 * k := by ring
    rw [e, abs_mul, abs_of_pos (by norm_num : (0 : ℝ) < 360)] at h ⊢
    have h2 : |(k : ℝ)| < 2 := by linarith
    have h3 : |k| < 2 := by exact_mod_cast h2
    have h4 : (0 : ℤ) ≤ |k| := abs_nonneg k
    have h5 : |k| = 0 ∨ |k| = 1 := by omega
    have h6 : |(k : ℝ)| = ((|k| : ℤ) : ℝ) := by push_cast; rfl
    rcases h5 with h5 | h5 <;> rw [h6, h5] <;> norm_num

/-- C81: for data with delta between 0 and 360 and an offset of less than one turn, all residuals are zero
exactly if the model reproduces psi exactly and delta modulo 360, at each unmasked point.  Missing: other
offsets and data, for which this is false (`C81_fails`). -/
theorem C81_zero_partial {st : St} {pts : List Pt} (hp : Presents st.heap o.data pts)
    (hdt : env.dt = .float) (hoff : |st.vals (st.models o.model).rm.off| < 360)
    (hd : ∀ pt ∈ pts, 0 ≤ pt.2.2.2 ∧ pt.2.2.2 ≤ 360) {r : List (Option ℝ)}
    (hr : (residuals env o none st).1 = .ok r) :
    (∀ x ∈ r, x = some 0) ↔ ∃ cells, Values env o st pts cells ∧
      List.Forall₂ (fun (pt : Pt) (c : Cell) => c.1 = some pt.2.2.1 ∧
        ∃ k : ℤ, c.2 = some (pt.2.2.2 + 360 * k)) pts cells := by
  obtain ⟨cells, hv, rfl⟩ := (C81_residuals hp).mp hr
  have huniq : ∀ cells', Values env o st pts cells' → cells' = cells := by
    intro cells' hv'
    have h1 := callModel_ok.mpr hv
    have h2 := callModel_ok.mpr hv'
    rw [h1] at h2
    simpa using h2.symm
  have key : ∀ (pts : List Pt) (cells : List Cell), PointValues env o st pts cells →
      (∀ pt ∈ pts, 0 ≤ pt.2.2.2 ∧ pt.2.2.2 ≤ 360) →
      ((∀ x ∈ (pts.zip cells).map (fun x => x.2.1.map fun ψ => ψ - x.1.2.2.1) ++
        (pts.zip cells).map (fun x => x.2.2.map fun Δ => circularDistance Δ x.1.2.2.2 360), x = some 0) ↔
      List.Forall₂ (fun (pt : Pt) (c : Cell) => c.1 = some pt.2.2.1 ∧
        ∃ k : ℤ, c.2 = some (pt.2.2.2 + 360 * k)) pts cells) := by
    intro pts cells hv
    induction hv with
    | nil => simp
    | @cons pt c pts cells h1 h2 ih =>
      intro hd
      have ih := ih (fun pt' h => hd pt' (by simp [h]))
      rw [List.forall₂_cons, ← ih]
      have e1 : c.1.map (fun ψ => ψ - pt.2.2.1) = some 0 ↔ c.1 = some pt.2.2.1 := by
        cases c.1 with
        | none => simp
        | some a => simp [sub_eq_zero]
      have e2 : c.2.map (fun Δ => circularDistance Δ pt.2.2.2 360) = some 0 ↔
          ∃ k : ℤ, c.2 = some (pt.2.2.2 + 360 * k) := by
        cases h : c.2 with
        | none => simp
        | some a =>
          rw [hdt] at h1
          have h3 := delta_range h1 h
          have h4 := hd pt (by simp)
          have h5 := abs_lt.mp hoff
          simp only [Option.map_some, Option.some.injEq]
          exact circularDistance_zero (abs_lt.mpr ⟨by linarith, by linarith⟩)
      simp only [List.zip_cons_cons, List.map_cons, List.cons_append, List.mem_cons, List.mem_append,
        forall_eq_or_imp]
      rw [e1]
      constructor
      · rintro ⟨h3, h4⟩
        refine ⟨⟨h3, e2.mp (h4 _ (Or.inr (Or.inl rfl)))⟩, ?_⟩
        intro x hx
        rcases hx with hx | hx
        · exact h4 _ (Or.inl hx)
        · exact h4 _ (Or.inr (Or.inr hx))
      · rintro ⟨⟨h3, h4⟩, h5⟩
        refine ⟨h3, ?_⟩
        rintro x (hx | rfl | hx)
        · exact h5 _ (Or.inl hx)
        · exact e2.mpr h4
        · exact h5 _ (Or.inr hx)
  rw [key pts cells (values_iff.mp hv) hd]
  constructor
  · intro h
    exact ⟨cells, hv, h⟩
  · rintro ⟨cells', h1, h2⟩
    rwa [huniq _ h1] at h2

/-- An example: one measurement at normal incidence of the surface of `twoMedia`, with offset `off` and
measured values 45 and `δ`. -/
noncomputable def exSt (off δ : ℝ) : St where
  vals := Function.update (fun _ => 0) 7 off
  vary := fun p => p == 7
  models := fun _ => ⟨⟨7, false⟩, 0⟩
  structs := fun _ => twoMedia
  heap := ⟨fun i => ⟨false, [[600, 0, 45, δ].getD i 0]⟩, 4⟩

/-- The objective of the example. -/
def exObj : Objective where
  model := 0
  data := { wav := 0, aoi := 1, psi := 2, dlt := 3, mask := some [true], flipped := false }

theorem ex_presents (off δ : ℝ) : Presents (exSt off δ).heap exObj.data [(600, 0, 45, δ)] := by
  constructor <;>
    simp [exSt, exObj, wavelength, aoi, psi, delta, len, access, pick]

theorem ex_values (env : Env) (hdt : env.dt = .float) (o : Objective) (off δ : ℝ) :
    Values env o (exSt off δ) [(600, 0, 45, δ)] [(some 45, some (180 + off))] := by
  have h := (model_ok (ext := env.ext) (zs := env.zs)).mp (twoMedia_value env.ext env.zs (w := 600)
    (v := Function.update (fun _ => 0) 7 off)
    (fun p hp => Function.update_of_ne (ne_of_lt (lt_trans hp (by norm_num : (5 : ℕ) < 7))) _ _)
    (by norm_num) 7)
  rw [Function.update_self] at h
  rw [values_iff]
  unfold PointValues
  rw [hdt]
  cases h with
  | cons h1 h2 => exact .cons h1 .nil

theorem ex_residuals (env : Env) (hdt : env.dt = .float) (off δ : ℝ) :
    (residuals env exObj none (exSt off δ)).1 =
      .ok [some 0, some (circularDistance (180 + off) δ 360)] := by
  rw [C81_residuals (ex_presents off δ)]
  exact ⟨_, ex_values env hdt exObj off δ, by simp⟩

/-- Non-vacuity of C81: delta 180 against 180, and against 170 with an offset. -/
example (env : Env) (hdt : env.dt = .float) :
    (residuals env exObj none (exSt 0 180)).1 = .ok [some 0, some 0] ∧
    (residuals env exObj none (exSt 10 170)).1 = .ok [some 0, some 20] ∧
    |(exSt 10 170).vals ((exSt 10 170).models exObj.model).rm.off| < 360 := by
  refine ⟨?_, ?_, ?_⟩
  · rw [ex_residuals env hdt]; norm_num [circularDistance]
  · rw [ex_residuals env hdt]; norm_num [circularDistance, abs_of_pos]
  · change |Function.update (fun _ => (0 : ℝ)) 7 10 7| < 360
    rw [Function.update_self]; norm_num [abs_of_pos]

/-- C81 fails in general: with delta given as -540, or with an offset of 720, a model that reproduces the
measurement (delta 180 modulo 360) has residual -360. -/
theorem C81_fails (env : Env) (hdt : env.dt = .float) :
    (residuals env exObj none (exSt 0 (-540))).1 = .ok [some 0, some (-360)] ∧
    (residuals env exObj none (exSt 720 180)).1 = .ok [some 0, some (-360)] ∧
    (∃ k : ℤ, (180 : ℝ) = -540 + 360 * k) ∧ ∃ k : ℤ, (180 + 720 : ℝ) = 180 + 360 * k := by
  refine ⟨?_, ?_, ⟨2, by norm_num⟩, ⟨2, by norm_num⟩⟩
  · rw [ex_residuals env hdt]; norm_num [circularDistance, abs_of_pos]
  · rw [ex_residuals env hdt]; norm_num [circularDistance, abs_of_pos]

/-! ### C82 chi-squared -/

theorem finite_some (l : List ℝ) : finite (l.map some) = some l := by
  induction l with
  | nil => rfl
  | cons x l ih => simp [finite, ih]

theorem finite_eq {l : List (Option ℝ)} {l' : List ℝ} : finite l = some l' ↔ l = l'.map some := by
  constructor
  · induction l generalizing l' with
    | nil => intro h; simp [finite] at h; simp [← h]
    | cons x l ih =>
      intro h
      cases x with
      | none => simp [finite] at h
      | some x =>
        simp only [finite, Option.map_eq_some_iff] at h
        obtain ⟨a, h1, rfl⟩ := h
        simp [ih h1]
  · rintro rfl
    exact finite_some l'

/-- `chisqr` computes the residuals for the vector and sums their squares. -/
theorem chisqr_eq (p : Option (List ℝ)) (st : St) : (chisqr env o p st).1 =
    (residuals env o p st).1.map fun r => (finite r).map fun l => (l.map fun x => x * x).sum := by
  unfold chisqr
  rw [residuals_some]
  rcases setp env o p st with ⟨r, s⟩
  cases r with
  | error e => rfl
  | ok u =>
    simp only
    rcases residuals env o none s with ⟨r, s'⟩
    cases r <;> rfl

/-- C82: if all residuals are finite, chi-squared is the sum of their squares, hence not negative. -/
theorem C82_sum {p : Option (List ℝ)} {st : St} {r : List ℝ}
    (h : (residuals env o p st).1 = .ok (r.map some)) :
    (chisqr env o p st).1 = .ok (some (r.map (· ^ 2)).sum) ∧ 0 ≤ (r.map (· ^ 2)).sum := by
  constructor
  · rw [chisqr_eq, h]
    simp [Except.map, finite_some, sq]
  · apply List.sum_nonneg
    simp only [List.mem_map]
    rintro _ ⟨x, _, rfl⟩
    positivity

/-- C82: chi-squared is never negative. -/
theorem C82_nonneg {p : Option (List ℝ)} {st : St} {x : ℝ}
    (h : (chisqr env o p st).1 = .ok (some x)) : 0 ≤ x := by
  rw [chisqr_eq] at h
  cases hr : (residuals env o p st).1 with
  | error e => rw [hr] at h; simp [Except.map] at h
  | ok r =>
    rw [hr] at h
    simp only [Except.map, Except.ok.injEq, Option.map_eq_some_iff] at h
    obtain ⟨l, h1, rfl⟩ := h
    apply List.sum_nonneg
    simp only [List.mem_map]
    rintro _ ⟨x, _, rfl⟩
    exact mul_self_nonneg x

/-- C82: chi-squared does not depend on which representative of delta is in the data, as long as these are
between half a turn below and one and a half turns above the offset.  Missing: other representatives, for
which this is false (`C82_fails`). -/
theorem C82_equiv_partial {st : St} {D : DS} {pts pts' : List Pt} (hp : Presents st.heap o.data pts)
    (hp' : Presents st.heap D pts') (hdt : env.dt = .float)
    (heq : List.Forall₂ (fun (a b : Pt) => b.1 = a.1 ∧ b.2.1 = a.2.1 ∧ b.2.2.1 = a.2.2.1 ∧
      ∃ k : ℤ, b.2.2.2 = a.2.2.2 + 360 * k) pts pts')
    (hr : ∀ pt ∈ pts ++ pts', st.vals (st.models o.model).rm.off - 180 ≤ pt.2.2.2 ∧
      pt.2.2.2 ≤ st.vals (st.models o.model).rm.off + 540) :
    (chisqr env { o with data := D } none st).1 = (chisqr env o none st).1 := by
  -- the model values are the same
  have hw : pts'.map (·.1) = pts.map (·.1) := by
    clear hp hp' hr
    induction heq with
    | nil => rfl
    | cons h _ ih => simp [ih, h.1]
  have ha : pts'.map (·.2.1) = pts.map (·.2.1) := by
    clear hp hp' hr hw
    induction heq with
    | nil => rfl
    | cons h _ ih => simp [ih, h.2.1]
  rw [chisqr_eq, chisqr_eq, residuals_none, residuals_none, dataOf_presents hp,
    dataOf_presents (o := { o with data := D }) hp', hw, ha]
  simp only
  have hcall : callModel env { o with data := D } (pts.map (·.1)) (pts.map (·.2.1)) st =
      callModel env o (pts.map (·.1)) (pts.map (·.2.1)) st := rfl
  rw [hcall]
  have hc := fun cells => callModel_ok (env := env) (o := o) (st := st) (pts := pts) (cells := cells)
  rcases h : callModel env o (pts.map (·.1)) (pts.map (·.2.1)) st with ⟨q, s'⟩
  rw [h] at hc
  rw [h]
  cases q with
  | error e => rfl
  | ok cells =>
    have hv := (hc cells).mp rfl
    have hl := hv.length_eq
    have hl' := heq.length_eq
    simp only
    rw [if_pos (by simp; omega), if_pos (by simp [hl])]
    simp only [Except.map, Except.ok.injEq]
    -- the same squares
    have sq_eq : ∀ (l l' : List (Option ℝ)), l'.map (Option.map (fun x => x * x)) =
        l.map (Option.map fun x => x * x) →
        (finite l').map (fun l => (l.map fun x => x * x).sum) =
        (finite l).map fun l => (l.map fun x => x * x).sum := by
      intro l
      induction l with
      | nil => intro l' h; simp at h; simp [h]
      | cons x l ih =>
        intro l' h
        cases l' with
        | nil => simp at h
        | cons x' l' =>
          simp only [List.map_cons, List.cons.injEq] at h
          have := ih l' h.2
          cases x with
          | none => cases x' with
            | none => rfl
            | some _ => simp at h
          | some x => cases x' with
            | none => simp at h
            | some y =>
              simp only [Option.map_some, Option.some.injEq] at h
              simp only [finite]
              cases h1 : finite l <;> cases h2 : finite l' <;> rw [h1, h2] at this <;>
                simp_all
    apply sq_eq
    unfold resOf
    rw [List.map_append, List.map_append]
    clear h hc hcall hw ha hp hp' sq_eq
    have key : ∀ (pts pts' : List Pt) (cells : List Cell), PointValues env o st pts cells →
        List.Forall₂ (fun (a b : Pt) => b.1 = a.1 ∧ b.2.1 = a.2.1 ∧ b.2.2.1 = a.2.2.1 ∧
          ∃ k : ℤ, b.2.2.2 = a.2.2.2 + 360 * k) pts pts' →
        (∀ pt ∈ pts ++ pts', st.vals (st.models o.model).rm.off - 180 ≤ pt.2.2.2 ∧
          pt.2.2.2 ≤ st.vals (st.models o.model).rm.off + 540) →
        (List.zipWith (fun (c : Cell) x => c.1.map (· - x)) cells (pts'.map (·.2.2.1))).map
            (Option.map (fun x => x * x)) =
          (List.zipWith (fun (c : Cell) x => c.1.map (· - x)) cells (pts.map (·.2.2.1))).map
            (Option.map (fun x => x * x)) ∧
        (List.zipWith (fun (c : Cell) y => c.2.map fun z => circularDistance z y 360) cells
            (pts'.map (·.2.2.2))).map (Option.map (fun x => x * x)) =
          (List.zipWith (fun (c : Cell) y => c.2.map fun z => circularDistance z y 360) cells
            (pts.map (·.2.2.2))).map (Option.map (fun x => x * x)) := by
      intro pts pts' cells hv
      induction hv generalizing pts' with
      | nil => intro h _; cases h; simp
      | @cons pt c pts cells h1 h2 ih =>
        intro h hr
        cases h with
        | @cons _ pt' _ pts' g1 g2 =>
          obtain ⟨i1, i2⟩ := ih pts' g2 (fun x hx => hr x (by
            simp only [List.mem_append] at hx
            rcases hx with hx | hx <;> simp [hx]))
          have r1 := hr pt (by simp)
          have r2 := hr pt' (by simp)
          obtain ⟨_, _, g4, k, g5⟩ := g1
          simp only [List.map_cons, List.zipWith_cons_cons, i1, i2, g4, true_and]
          congr 1
          cases hc : c.2 with
          | none => rfl
          | some Δ =>
            rw [hdt] at h1
            have h3 := delta_range h1 hc
            simp only [Option.map_some, Option.some.injEq]
            have e1 : |circularDistance Δ pt.2.2.2 360| = circDist 360 Δ pt.2.2.2 :=
              C80_abs_partial (by rw [abs_le]; constructor <;> linarith)
            have e2 : |circularDistance Δ pt'.2.2.2 360| = circDist 360 Δ pt'.2.2.2 :=
              C80_abs_partial (by rw [abs_le]; constructor <;> linarith)
            rw [← abs_mul_abs_self (circularDistance Δ pt'.2.2.2 360), e2,
              ← abs_mul_abs_self (circularDistance Δ pt.2.2.2 360), e1, g5, circDist_shift]
    obtain ⟨k1, k2⟩ := key pts pts' cells (values_iff.mp hv) heq hr
    rw [k1, k2]

/-- Non-vacuity of C82: data with delta 190 and -170 against a model with 180. -/
example (env : Env) (hdt : env.dt = .float) :
    (chisqr env exObj none (exSt 0 190)).1 = .ok (some 100) ∧
    (chisqr env exObj none (exSt 0 (-170))).1 = .ok (some 100) := by
  constructor
  · have := (C82_sum (r := [0, 10]) (by rw [ex_residuals env hdt]; norm_num [circularDistance, abs_of_neg] :
      (residuals env exObj none (exSt 0 190)).1 = .ok _)).1
    rw [this]; norm_num
  · have := (C82_sum (r := [0, 10]) (by rw [ex_residuals env hdt]; norm_num [circularDistance, abs_of_pos] :
      (residuals env exObj none (exSt 0 (-170))).1 = .ok _)).1
    rw [this]; norm_num

/-- C82 fails in general: replacing delta = 180, which fits exactly, by the equivalent -540 changes
chi-squared from 0 to 129600. -/
theorem C82_fails (env : Env) (hdt : env.dt = .float) :
    (chisqr env exObj none (exSt 0 180)).1 = .ok (some 0) ∧
    (chisqr env exObj none (exSt 0 (-540))).1 = .ok (some 129600) ∧
    ∃ k : ℤ, (180 : ℝ) = -540 + 360 * k := by
  refine ⟨?_, ?_, ⟨2, by norm_num⟩⟩
  · have := (C82_sum (r := [0, 0]) (by rw [ex_residuals env hdt]; norm_num [circularDistance] :
      (residuals env exObj none (exSt 0 180)).1 = .ok _)).1
    rw [this]; norm_num
  · have := (C82_sum (r := [0, -360]) (by
      rw [ex_residuals env hdt]; norm_num [circularDistance, abs_of_pos] :
      (residuals env exObj none (exSt 0 (-540))).1 = .ok _)).1
    rw [this]; norm_num

end Verif.Obj
