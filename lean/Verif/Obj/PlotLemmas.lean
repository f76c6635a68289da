import Verif.Obj.PlotModel
import Verif.Obj.Lemmas
import Verif.RModel.PropsModel
import Verif.Data.PropsData

/-! # Lemmas about plotting -/

namespace Verif.Obj
open Verif.Struct Verif.TMM Verif.RModel Verif.Data

variable {env : Env} {o : Objective}

/-- What the objective's model returns for the single row `(wavelength, aoi)` of floats. -/
def ModelAt (env : Env) (o : Objective) (st : St) (row : ℝ × ℝ) (c : Cell) : Prop :=
  (RModel.model env.ext env.zs .float st.vals (st.models o.model).rm
    (st.structs (st.models o.model).str) [row]).1 = .ok [c]

theorem zip_self {α β : Type} : ∀ l : List (α × β), (l.map (·.1)).zip (l.map (·.2)) = l
  | [] => rfl
  | (a, b) :: l => by simp [zip_self l]

theorem callModel_rows {st : St} {rows : List (ℝ × ℝ)} {cells : List Cell} :
    (callModel { env with dt := .float } o (rows.map (·.1)) (rows.map (·.2)) st).1 = .ok cells ↔
      List.Forall₂ (ModelAt env o st) rows cells := by
  unfold callModel
  rw [if_pos (by simp), zip_self]
  exact C19_model _ _ _ _ _ _ _ _

theorem modelAt_sim {a b : St} (h : Sim a b) (row : ℝ × ℝ) (c : Cell) :
    ModelAt env o b row c ↔ ModelAt env o a row c := by
  have h1 := callModel_rows (env := env) (o := o) (st := a) (rows := [row]) (cells := [c])
  have h2 := callModel_rows (env := env) (o := o) (st := b) (rows := [row]) (cells := [c])
  rw [callModel_sim h] at h2
  simp only [List.forall₂_cons, List.forall₂_nil_left_iff, and_true] at h1 h2
  rw [← h1, ← h2]

/-- A curve over a grid. -/
def CurveOf (env : Env) (o : Objective) (st : St) (pt : ℝ → ℝ → ℝ × ℝ) (grid : List ℝ) (q : ℝ)
    (c : List (ℝ × Cell)) : Prop :=
  c.map Prod.fst = grid ∧ ∀ p ∈ c, ModelAt env o st (pt q p.1) p.2

theorem curveOf_sim {a b : St} (h : Sim a b) {pt : ℝ → ℝ → ℝ × ℝ} {grid : List ℝ} {q : ℝ}
    {c : List (ℝ × Cell)} : CurveOf env o b pt grid q c ↔ CurveOf env o a pt grid q c := by
  simp only [CurveOf, modelAt_sim h]

theorem curve_cells {R : ℝ → Cell → Prop} : ∀ {grid : List ℝ} {cells : List Cell},
    List.Forall₂ R grid cells →
      (grid.zip cells).map Prod.fst = grid ∧ ∀ p ∈ grid.zip cells, R p.1 p.2
  | _, _, .nil => by simp
  | _, _, .cons h t => by
    obtain ⟨h1, h2⟩ := curve_cells t
    simp only [List.zip_cons_cons, List.map_cons, h1, List.mem_cons, true_and]
    rintro p (rfl | hp)
    · exact h
    · exact h2 p hp

theorem cells_curve {R : ℝ → Cell → Prop} : ∀ {c : List (ℝ × Cell)}, (∀ p ∈ c, R p.1 p.2) →
    List.Forall₂ R (c.map Prod.fst) (c.map Prod.snd)
  | [], _ => .nil
  | p :: c, h => .cons (h p (by simp)) (cells_curve fun q hq => h q (by simp [hq]))

theorem curveLoop_state (pt : ℝ → ℝ → ℝ × ℝ) (grid : List ℝ) : ∀ (qs : List ℝ) (st : St),
    Sim st (curveLoop env o pt grid qs st).2
  | [], st => Sim.refl st
  | q :: qs, st => by
    have h1 := callModel_state (env := { env with dt := .float }) (o := o)
      (grid.map fun x => (pt q x).1) (grid.map fun x => (pt q x).2) st
    unfold curveLoop
    rcases hb : callModel { env with dt := .float } o (grid.map fun x => (pt q x).1)
      (grid.map fun x => (pt q x).2) st with ⟨rb, sb⟩
    rw [hb] at h1
    cases rb with
    | error e => exact h1
    | ok cells => exact h1.trans (curveLoop_state pt grid qs sb)

theorem curveLoop_ok (pt : ℝ → ℝ → ℝ × ℝ) (grid : List ℝ) : ∀ (qs : List ℝ) (st : St)
    (cs : List (List (ℝ × Cell))), (curveLoop env o pt grid qs st).1 = .ok cs ↔
      List.Forall₂ (CurveOf env o st pt grid) qs cs
  | [], st, cs => by
    simp [curveLoop, List.forall₂_nil_left_iff, eq_comm]
  | q :: qs, st, cs => by
    have h1 := callModel_state (env := { env with dt := .float }) (o := o)
      (grid.map fun x => (pt q x).1) (grid.map fun x => (pt q x).2) st
    have h2 := fun cells => callModel_rows (env := env) (o := o) (st := st) (rows := grid.map (pt q))
      (cells := cells)
    simp only [List.map_map, List.forall₂_map_left_iff] at h2
    have h2' : ∀ cells, (callModel { env with dt := .float } o (grid.map fun x => (pt q x).1)
      (grid.map fun x => (pt q x).2) st).1 = .ok cells ↔
        List.Forall₂ (fun x c => ModelAt env o st (pt q x) c) grid cells := h2
    unfold curveLoop
    rcases hb : callModel { env with dt := .float } o (grid.map fun x => (pt q x).1)
      (grid.map fun x => (pt q x).2) st with ⟨rb, sb⟩
    rw [hb] at h1 h2'
    simp only at h1 h2'
    cases rb with
    | error e =>
      simp only [reduceCtorEq, false_iff] at h2' ⊢
      intro h
      obtain ⟨c, t, hc, -, rfl⟩ := List.forall₂_cons_left_iff.mp h
      have := cells_curve (R := fun x c => ModelAt env o st (pt q x) c) hc.2
      rw [hc.1] at this
      exact h2' _ this
    | ok cells =>
      have ih := curveLoop_ok pt grid qs sb
      have hc := (h2' cells).mp rfl
      simp only
      constructor
      · intro h
        cases hr : (curveLoop env o pt grid qs sb).1 with
        | error e => rw [hr] at h; cases h
        | ok t =>
          rw [hr] at h
          cases h
          refine .cons (curve_cells hc) ?_
          exact ((ih t).mp hr).imp fun a b => (curveOf_sim h1).mp
      · intro h
        obtain ⟨c, t, hc', ht, rfl⟩ := List.forall₂_cons_left_iff.mp h
        have hr := (ih t).mpr (ht.imp fun a b => (curveOf_sim h1).mpr)
        rw [hr]
        have hcells := (h2' (c.map Prod.snd)).mpr (by
          have := cells_curve (R := fun x c => ModelAt env o st (pt q x) c) hc'.2
          rwa [hc'.1] at this)
        cases hcells
        show Except.ok (grid.zip (c.map Prod.snd) :: t) = _
        rw [← hc'.1]
        exact congrArg (fun x => Except.ok (x :: t)) (zip_self c)

theorem npMin_spec {l : List ℝ} {a : ℝ} (h : npMin l = .ok a) : a ∈ l ∧ ∀ x ∈ l, a ≤ x := by
  cases l with
  | nil => simp [npMin] at h
  | cons x l =>
    simp only [npMin, Except.ok.injEq] at h
    subst h
    induction l generalizing x with
    | nil => simp
    | cons y l ih =>
      obtain ⟨h1, h2⟩ := ih (min x y)
      simp only [List.foldl_cons]
      refine ⟨?_, ?_⟩
      · rcases List.mem_cons.mp h1 with h | h
        · rw [h]; rcases min_choice x y with e | e <;> simp [e]
        · simp [h]
      · intro z hz
        have h3 := h2 (min x y) (by simp)
        rcases List.mem_cons.mp hz with rfl | hz
        · exact h3.trans (min_le_left _ _)
        · rcases List.mem_cons.mp hz with rfl | hz
          · exact h3.trans (min_le_right _ _)
          · exact h2 z (by simp [hz])

theorem npMax_spec {l : List ℝ} {a : ℝ} (h : npMax l = .ok a) : a ∈ l ∧ ∀ x ∈ l, x ≤ a := by
  cases l with
  | nil => simp [npMax] at h
  | cons x l =>
    simp only [npMax, Except.ok.injEq] at h
    subst h
    induction l generalizing x with
    | nil => simp
    | cons y l ih =>
      obtain ⟨h1, h2⟩ := ih (max x y)
      simp only [List.foldl_cons]
      refine ⟨?_, ?_⟩
      · rcases List.mem_cons.mp h1 with h | h
        · rw [h]; rcases max_choice x y with e | e <;> simp [e]
        · simp [h]
      · intro z hz
        have h3 := h2 (max x y) (by simp)
        rcases List.mem_cons.mp hz with rfl | hz
        · exact (le_max_left _ _).trans h3
        · rcases List.mem_cons.mp hz with rfl | hz
          · exact (le_max_right _ _).trans h3
          · exact h2 z (by simp [hz])

theorem drawOn_state (pt : ℝ → ℝ → ℝ × ℝ) (x qs : List ℝ) (lo hi : ℝ) (st : St) :
    Sim st (drawOn env o pt x qs lo hi st).2 := by
  unfold drawOn
  cases npMin x with
  | error e => exact Sim.refl _
  | ok a =>
    cases npMax x with
    | error e => exact Sim.refl _
    | ok b =>
      have h := curveLoop_state (env := env) (o := o) pt (linspace (a - lo) (b + hi)) qs st
      simp only
      rcases hb : curveLoop env o pt (linspace (a - lo) (b + hi)) qs st with ⟨r, sb⟩
      rw [hb] at h
      cases r <;> exact h

theorem plot_state (xaxis : Option String) (st : St) : Sim st (plot env o xaxis st).2 := by
  unfold plot
  cases colsXY o st with
  | error e => exact Sim.refl _
  | ok t =>
    obtain ⟨w, a⟩ := t
    simp only
    split_ifs
    · exact drawOn_state _ _ _ _ _ _
    · exact drawOn_state _ _ _ _ _ _
    · exact Sim.refl _

theorem resPanel_state (x : List ℝ) (st : St) : Sim st (resPanel env o x st).2 := by
  unfold resPanel
  have h := residuals_none_state (env := env) (o := o) st
  rcases hb : residuals env o none st with ⟨r, sb⟩
  rw [hb] at h
  cases r with
  | error e => exact h
  | ok res =>
    simp only
    split_ifs with hc
    · have h2 := chisqr_state (env := env) (o := o) none sb
      rw [setVals_none] at h2
      rcases hb2 : chisqr env o none sb with ⟨r2, sb2⟩
      rw [hb2] at h2
      cases r2 <;> exact h.trans h2
    · exact h

theorem withRes_state (resax : Bool) (x : List ℝ) {st : St} {r : Except PyErr Drawing × St} (h : Sim st r.2) :
    Sim st (withRes env o resax x r).2 := by
  obtain ⟨r, s⟩ := r
  unfold withRes
  cases r with
  | error e => exact h
  | ok d =>
    simp only
    cases resax with
    | false => exact h
    | true =>
      have h2 := resPanel_state (env := env) (o := o) x s
      simp only [if_true]
      rcases hb : resPanel env o x s with ⟨r2, s2⟩
      rw [hb] at h2
      cases r2 <;> exact h.trans h2

theorem plotEllips_state (xaxis : String) (resax : Bool) (st : St) :
    Sim st (plotEllips env o xaxis resax st).2 := by
  unfold plotEllips
  split_ifs
  · cases colsXY o st with
    | error e => exact Sim.refl _
    | ok t => exact withRes_state _ _ (drawOn_state _ _ _ _ _ _)
  · cases colsXY o st with
    | error e => exact Sim.refl _
    | ok t => exact withRes_state _ _ (drawOn_state _ _ _ _ _ _)
  · exact Sim.refl _

end Verif.Obj
