import Verif.Obj.Model
import Verif.RModel.Lemmas

/-! # Lemmas about objectives -/

namespace Verif.Obj
open Verif.Struct Verif.TMM Verif.RModel Verif.Data

/-- States that agree but for the wavelengths structures are evaluated at. -/
structure Sim (a b : St) : Prop where
  vals : b.vals = a.vals
  vary : b.vary = a.vary
  models : b.models = a.models
  heap : b.heap = a.heap
  structs : ∀ i, ∃ w, b.structs i = { a.structs i with wavelength := w }

theorem Sim.refl (a : St) : Sim a a := ⟨rfl, rfl, rfl, rfl, fun _ => ⟨_, rfl⟩⟩

theorem Sim.trans {a b c : St} (h : Sim a b) (g : Sim b c) : Sim a c := by
  refine ⟨g.vals.trans h.vals, g.vary.trans h.vary, g.models.trans h.models, g.heap.trans h.heap, ?_⟩
  intro i
  obtain ⟨w, hw⟩ := h.structs i
  obtain ⟨w', hw'⟩ := g.structs i
  exact ⟨w', by rw [hw', hw]⟩

theorem Sim.symm {a b : St} (h : Sim a b) : Sim b a := by
  refine ⟨h.vals.symm, h.vary.symm, h.models.symm, h.heap.symm, ?_⟩
  intro i
  obtain ⟨w, hw⟩ := h.structs i
  exact ⟨(a.structs i).wavelength, by rw [hw]⟩

theorem Sim.withVals {a b : St} (h : Sim a b) (v : Vals) :
    Sim { a with vals := v } { b with vals := v } :=
  ⟨rfl, h.vary, h.models, h.heap, h.structs⟩

/-- States that agree but for wavelengths and values. -/
def Sim' (a b : St) : Prop := ∃ v, Sim { a with vals := v } b

theorem Sim'.refl (a : St) : Sim' a a := ⟨a.vals, Sim.refl a⟩

theorem Sim'.trans {a b c : St} (h : Sim' a b) (g : Sim' b c) : Sim' a c := by
  obtain ⟨v, h⟩ := h
  obtain ⟨w, g⟩ := g
  exact ⟨w, (h.withVals w).trans g⟩

theorem Sim.weak {a b : St} (h : Sim a b) : Sim' a b := ⟨a.vals, h⟩

theorem Sim'.eq {a b : St} (h : Sim' a b) : Sim { a with vals := b.vals } b := by
  obtain ⟨v, h⟩ := h
  have : b.vals = v := h.vals
  rwa [this]

variable {env : Env} {o : Objective}

theorem flatParams_sim' {a b : St} (h : Sim' a b) : flatParams env o b = flatParams env o a := by
  obtain ⟨v, h⟩ := h
  obtain ⟨w, hw⟩ := h.structs (a.models o.model).str
  have hm : b.models = a.models := h.models
  unfold flatParams
  simp only [hm]
  rw [hw]

theorem varying_sim' {a b : St} (h : Sim' a b) : varying env o b = varying env o a := by
  have hv : b.vary = a.vary := h.choose_spec.vary
  unfold varying
  rw [flatParams_sim' h, hv]

theorem dataOf_heap {a b : St} (h : b.heap = a.heap) : dataOf o b = dataOf o a := by
  unfold dataOf
  rw [h]

/-! ### assignment -/

theorem assign_not_mem : ∀ (ps : List PId) (xs : List ℝ) (v : Vals) {p : PId}, p ∉ ps →
    assign ps xs v p = v p
  | [], _, _, _, _ => by simp [assign]
  | _ :: _, [], _, _, _ => by simp [assign]
  | q :: ps, x :: xs, v, p, h => by
    rw [assign, assign_not_mem ps xs _ (by simp_all), Function.update_of_ne (by simp_all)]

/-- Values given for the same parameter agree. -/
def Consistent (ps : List PId) (xs : List ℝ) : Prop :=
  ∀ (i j : ℕ) (p : PId) (x y : ℝ), ps[i]? = some p → ps[j]? = some p → xs[i]? = some x → xs[j]? = some y →
    x = y

theorem assign_get : ∀ (ps : List PId) (xs : List ℝ) (v : Vals), Consistent ps xs →
    ∀ (i : ℕ) (p : PId) (x : ℝ), ps[i]? = some p → xs[i]? = some x → assign ps xs v p = x
  | [], _, _, _, i, p, x, hp, _ => by simp at hp
  | q :: ps, [], _, _, i, p, x, _, hx => by simp at hx
  | q :: ps, y :: xs, v, hc, i, p, x, hp, hx => by
    have hc' : Consistent ps xs := fun i j p x y h1 h2 h3 h4 =>
      hc (i + 1) (j + 1) p x y (by simpa using h1) (by simpa using h2) (by simpa using h3)
        (by simpa using h4)
    rw [assign]
    by_cases hmem : ∃ (j : ℕ) (z : ℝ), ps[j]? = some p ∧ xs[j]? = some z
    · obtain ⟨j, z, h1, h2⟩ := hmem
      rw [assign_get ps xs _ hc' j p z h1 h2]
      exact hc (j + 1) i p z x (by simpa using h1) hp (by simpa using h2) hx
    · cases i with
      | succ i => exact absurd ⟨i, x, by simpa using hp, by simpa using hx⟩ hmem
      | zero =>
        simp only [List.getElem?_cons_zero, Option.some.injEq] at hp hx
        subst hp hx
        have : ∀ (ps : List PId) (xs : List ℝ) (v : Vals) (p : PId),
            (¬ ∃ (j : ℕ) (z : ℝ), ps[j]? = some p ∧ xs[j]? = some z) → assign ps xs v p = v p := by
          intro ps
          induction ps with
          | nil => intros; simp [assign]
          | cons a ps ih =>
            intro xs v p h
            cases xs with
            | nil => simp [assign]
            | cons b xs =>
              rw [assign, ih]
              · apply Function.update_of_ne
                rintro rfl
                exact h ⟨0, b, by simp, by simp⟩
              · rintro ⟨j, z, h1, h2⟩
                exact h ⟨j + 1, z, by simpa using h1, by simpa using h2⟩
        rw [this ps xs _ _ hmem, Function.update_self]

theorem Consistent.of_nodup {ps : List PId} (h : ps.Nodup) (xs : List ℝ) : Consistent ps xs := by
  intro i j p x y hi hj hx hy
  have hi' := List.getElem?_eq_some_iff.mp hi
  have hj' := List.getElem?_eq_some_iff.mp hj
  obtain ⟨a, ha⟩ := hi'
  obtain ⟨b, hb⟩ := hj'
  have : i = j := (List.Nodup.getElem_inj_iff h).mp (ha.trans hb.symm)
  subst this
  rw [hx] at hy
  exact Option.some.inj hy

theorem assign_read {ps : List PId} {xs : List ℝ} (hc : Consistent ps xs) (hl : xs.length = ps.length)
    (v : Vals) : ps.map (assign ps xs v) = xs := by
  apply List.ext_getElem (by simp [hl])
  intro i h1 h2
  have hi : i < ps.length := by simpa using h1
  rw [List.getElem_map]
  exact assign_get ps xs v hc i _ _ (List.getElem?_eq_getElem hi) (List.getElem?_eq_getElem h2)

/-- The result of assigning depends on the old values of other parameters only. -/
theorem assign_congr : ∀ (ps : List PId) (xs : List ℝ) (v v' : Vals), ps.length ≤ xs.length →
    (∀ p, p ∉ ps → v p = v' p) → assign ps xs v = assign ps xs v'
  | [], xs, v, v', _, h => by
    have : v = v' := funext fun p => h p (by simp)
    rw [this]
  | q :: ps, [], v, v', hl, h => by simp at hl
  | q :: ps, x :: xs, v, v', hl, h => by
    rw [assign, assign]
    apply assign_congr ps xs _ _ (by simpa using hl)
    intro p hp
    by_cases hq : p = q
    · subst hq; simp
    · rw [Function.update_of_ne hq, Function.update_of_ne hq]
      exact h p (by simp [hq, hp])

theorem mem_unique {l : List PId} {p : PId} : p ∈ unique l ↔ p ∈ l := by
  induction l with
  | nil => simp [unique]
  | cons q l ih =>
    simp only [unique, List.mem_cons, List.mem_filter, ih, decide_eq_true_eq]
    by_cases h : p = q <;> simp [h]

theorem unique_nodup (l : List PId) : (unique l).Nodup := by
  induction l with
  | nil => simp [unique]
  | cons q l ih =>
    rw [unique, List.nodup_cons]
    exact ⟨by simp, ih.filter _⟩

theorem unique_of_nodup {l : List PId} (h : l.Nodup) : unique l = l := by
  induction l with
  | nil => rfl
  | cons q l ih =>
    rw [List.nodup_cons] at h
    rw [unique, ih h.2, List.filter_eq_self.mpr]
    intro a ha
    simp only [decide_eq_true_eq]
    rintro rfl
    exact h.1 ha

/-- The order is that of first occurrences. -/
theorem unique_order (l : List PId) : (unique l).Pairwise fun a b => l.idxOf a < l.idxOf b := by
  induction l with
  | nil => simp [unique]
  | cons q l ih =>
    rw [unique, List.pairwise_cons]
    constructor
    · intro b hb
      simp only [List.mem_filter, decide_eq_true_eq] at hb
      rw [List.idxOf_cons_self, List.idxOf_cons_ne _ (Ne.symm hb.2)]
      omega
    · refine (ih.filter _).imp_of_mem ?_
      intro a b ha hb hab
      simp only [List.mem_filter, decide_eq_true_eq] at ha hb
      rw [List.idxOf_cons_ne _ (Ne.symm ha.2), List.idxOf_cons_ne _ (Ne.symm hb.2)]
      omega

theorem varying_nodup (env : Env) (o : Objective) (st : St) : (varying env o st).Nodup :=
  unique_nodup _

theorem mem_varying {st : St} {p : PId} :
    p ∈ varying env o st ↔ p ∈ flatParams env o st ∧ st.vary p = true := by
  unfold varying
  rw [mem_unique, List.mem_filter]

/-! ### setp -/

/-- The values after `setp`. -/
noncomputable def setVals (env : Env) (o : Objective) (pvals : Option (List ℝ)) (st : St) : Vals :=
  (setp env o pvals st).2.vals

theorem setp_state (pvals : Option (List ℝ)) (st : St) :
    (setp env o pvals st).2 = { st with vals := setVals env o pvals st } := by
  unfold setVals setp
  split
  · rfl
  · split
    · rfl
    · split <;> rfl

theorem setp_sim {a b : St} (h : Sim a b) (pvals : Option (List ℝ)) :
    (setp env o pvals b).1 = (setp env o pvals a).1 ∧
      Sim (setp env o pvals a).2 (setp env o pvals b).2 := by
  unfold setp
  rw [varying_sim' h.weak, flatParams_sim' h.weak]
  split
  · exact ⟨rfl, h⟩
  · split
    · rw [h.vals]
      exact ⟨rfl, h.withVals _⟩
    · split
      · rw [h.vals]
        exact ⟨rfl, h.withVals _⟩
      · exact ⟨rfl, h⟩

/-! ### evaluation -/

theorem callModel_state (w a : List ℝ) (st : St) : Sim st (callModel env o w a st).2 := by
  unfold callModel
  split
  · refine ⟨rfl, rfl, rfl, rfl, ?_⟩
    intro i
    by_cases hi : i = (st.models o.model).str
    · subst hi
      simp only [if_pos]
      exact loop_state' _ _ _
    · simp only [hi, if_false]
      exact ⟨_, rfl⟩
  · exact Sim.refl _

theorem callModel_sim {x y : St} (h : Sim x y) (w a : List ℝ) :
    (callModel env o w a y).1 = (callModel env o w a x).1 := by
  unfold callModel
  split
  · obtain ⟨q, hq⟩ := h.structs (x.models o.model).str
    simp only [h.models, h.vals]
    rw [hq]
    exact loop_wavelength _ _ _ _
  · rfl

/-- What the residuals are in a state, without a vector being set. -/
theorem residuals_none (st : St) : residuals env o none st =
    match dataOf o st with
    | .error e => (.error e, st)
    | .ok (w, a, p, d) =>
      match callModel env o w a st with
      | (.error e, st) => (.error e, st)
      | (.ok cells, st) =>
        if p.length = cells.length ∧ d.length = cells.length then (.ok (resOf cells p d), st)
        else (.error .valueError, st) := rfl

/-- The residuals with a vector are those after setting it. -/
theorem residuals_some (p : Option (List ℝ)) (st : St) : residuals env o p st =
    match setp env o p st with
    | (.error e, st) => (.error e, st)
    | (.ok _, st) => residuals env o none st := by
  rw [residuals]
  split <;> rename_i h <;> simp only [h, residuals_none]
  rfl

theorem residuals_none_sim {a b : St} (h : Sim a b) :
    (residuals env o none b).1 = (residuals env o none a).1 := by
  rw [residuals_none, residuals_none, dataOf_heap h.heap]
  cases dataOf o a with
  | error e => rfl
  | ok t =>
    obtain ⟨w, ang, p, d⟩ := t
    have h1 := callModel_sim (env := env) (o := o) h w ang
    simp only
    rcases hb : callModel env o w ang b with ⟨rb, sb⟩
    rcases ha : callModel env o w ang a with ⟨ra, sa⟩
    rw [hb, ha] at h1
    simp only at h1
    subst h1
    cases rb with
    | error e => rfl
    | ok cells =>
      simp only
      split <;> rfl

theorem residuals_none_state (st : St) : Sim st (residuals env o none st).2 := by
  rw [residuals_none]
  cases dataOf o st with
  | error e => exact Sim.refl _
  | ok t =>
    obtain ⟨w, ang, p, d⟩ := t
    have h1 := callModel_state (env := env) (o := o) w ang st
    simp only
    rcases hb : callModel env o w ang st with ⟨rb, sb⟩
    rw [hb] at h1
    cases rb with
    | error e => exact h1
    | ok cells =>
      simp only
      split <;> exact h1

theorem residuals_state (p : Option (List ℝ)) (st : St) :
    Sim { st with vals := setVals env o p st } (residuals env o p st).2 := by
  rw [residuals_some]
  have := setp_state (env := env) (o := o) p st
  rcases h : setp env o p st with ⟨r, s⟩
  rw [h] at this
  simp only at this
  cases r with
  | error e => simp only; rw [this]; exact Sim.refl _
  | ok u =>
    simp only
    rw [← this]
    exact residuals_none_state s

theorem residuals_sim {a b : St} (h : Sim a b) (p : Option (List ℝ)) :
    (residuals env o p b).1 = (residuals env o p a).1 := by
  rw [residuals_some, residuals_some]
  obtain ⟨h1, h2⟩ := setp_sim (env := env) (o := o) h p
  rcases hb : setp env o p b with ⟨rb, sb⟩
  rcases ha : setp env o p a with ⟨ra, sa⟩
  rw [hb, ha] at h1 h2
  simp only at h1 h2
  subst h1
  cases rb with
  | error e => rfl
  | ok u => exact residuals_none_sim h2

theorem chisqr_state (p : Option (List ℝ)) (st : St) :
    Sim { st with vals := setVals env o p st } (chisqr env o p st).2 := by
  unfold chisqr
  have := setp_state (env := env) (o := o) p st
  rcases h : setp env o p st with ⟨r, s⟩
  rw [h] at this
  simp only at this
  cases r with
  | error e => simp only; rw [this]; exact Sim.refl _
  | ok u =>
    simp only
    rw [← this]
    have h2 := residuals_none_state (env := env) (o := o) s
    rcases h3 : residuals env o none s with ⟨r, s'⟩
    rw [h3] at h2
    cases r <;> exact h2

theorem logp_state (p : Option (List ℝ)) (st : St) :
    (logp env o p st).2 = { st with vals := setVals env o p st } := by
  unfold logp
  have := setp_state (env := env) (o := o) p st
  rcases h : setp env o p st with ⟨r, s⟩
  rw [h] at this
  cases r <;> exact this

theorem logl_state (p : Option (List ℝ)) (st : St) :
    Sim { st with vals := setVals env o p st } (logl env o p st).2 := by
  unfold logl
  have := setp_state (env := env) (o := o) p st
  rcases h : setp env o p st with ⟨r, s⟩
  rw [h] at this
  simp only at this
  cases r with
  | error e => simp only; rw [this]; exact Sim.refl _
  | ok u =>
    simp only
    rw [← this]
    cases dataOf o s with
    | error e => exact Sim.refl _
    | ok t =>
      obtain ⟨w, ang, p', d⟩ := t
      simp only
      have h1 := callModel_state (env := env) (o := o) w ang s
      rcases hb : callModel env o w ang s with ⟨rb, sb⟩
      rw [hb] at h1
      cases rb with
      | error e => exact h1
      | ok cells =>
        simp only
        have h2 := residuals_none_state (env := env) (o := o) sb
        rcases h3 : residuals env o none sb with ⟨r, s'⟩
        rw [h3] at h2
        cases r with
        | error e => exact h1.trans h2
        | ok res =>
          simp only
          split <;> exact h1.trans h2

theorem setVals_none (st : St) : setVals env o none st = st.vals := rfl

theorem logpost_state (p : Option (List ℝ)) (st : St) :
    Sim { st with vals := setVals env o p st } (logpost env o p st).2 := by
  unfold logpost
  have := setp_state (env := env) (o := o) p st
  rcases h : setp env o p st with ⟨r, s⟩
  rw [h] at this
  simp only at this
  cases r with
  | error e => simp only; rw [this]; exact Sim.refl _
  | ok u =>
    simp only
    rw [← this]
    have h1 := logp_state (env := env) (o := o) none s
    rw [setVals_none] at h1
    rcases hb : logp env o none s with ⟨rb, sb⟩
    rw [hb] at h1
    simp only at h1
    subst h1
    rcases rb with e | _ | x
    · exact Sim.refl _
    · exact Sim.refl _
    · simp only
      have h2 := logl_state (env := env) (o := o) none s
      rw [setVals_none] at h2
      rcases h3 : logl env o none s with ⟨r, s'⟩
      have h2' : Sim s (logl env o none s).2 := h2
      rw [h3] at h2'
      cases r <;> exact h2'

theorem setVals_not_mem {p : Option (List ℝ)} {st : St} {q : PId} (h : q ∉ flatParams env o st) :
    setVals env o p st q = st.vals q := by
  unfold setVals setp
  split
  · rfl
  · split
    · exact assign_not_mem _ _ _ (fun h' => h (mem_varying.mp h').1)
    · split
      · exact assign_not_mem _ _ _ h
      · rfl

theorem setVals_fixed {p : Option (List ℝ)} {st : St}
    (hp : ∀ x ∈ p, x.length = (varying env o st).length ∨ x.length ≠ (flatParams env o st).length)
    {q : PId} (h : q ∉ varying env o st) : setVals env o p st q = st.vals q := by
  unfold setVals setp
  split
  · rfl
  · rename_i x
    split
    · exact assign_not_mem _ _ _ h
    · split
      · rename_i h1 h2
        rcases hp x (by simp) with h3 | h3
        · exact absurd h3 h1
        · exact absurd h2 h3
      · rfl

end Verif.Obj
