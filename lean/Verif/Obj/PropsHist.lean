import Verif.Obj.PropsState
import Verif.Obj.PlotLemmas
import Verif.TMM.ExFilm

/-! # Properties of sharing, histories, the number of points and the prior transform (C89 - C92) -/

namespace Verif.Obj
open Verif.Struct Verif.TMM Verif.RModel Verif.Data Verif.Disp

variable {env : Env} {o : Objective}

/-! ### C89 fails for a shared model -/

/-- A film in vacuum on a substrate; the thickness is parameter 4. -/
noncomputable def filmStruct : Structure :=
  { data := [dry (.const 658 1 0), .slab 4 (fun _ => .const 658 (39 / 25) 0) 1 2 true,
      dry (.const 658 (15 / 7) 0)].map .comp }

/-- Parameter values: 1250 Angstrom. -/
noncomputable def filmVals : Vals := Function.update (fun _ => 0) 4 1250

theorem film_slabs (ext : Ext) (w : ℝ) :
    (slabs ext filmVals { filmStruct with wavelength := some w } none).1 = .ok (some filmRows) := by
  have hp : Plain { filmStruct with wavelength := some w }
      [dry (.const 658 1 0), .slab 4 (fun _ => .const 658 (39 / 25) 0) 1 2 true,
        dry (.const 658 (15 / 7) 0)] :=
    plain_of rfl (by simp) (by simp [dry, Comp.isSlab, Comp.dflt]) le_rfl (.inl rfl)
  have h0 : filmVals 0 = 0 := rfl
  have h1 : filmVals 1 = 0 := rfl
  have h2 : filmVals 2 = 0 := rfl
  have h4 : filmVals 4 = 1250 := Function.update_self ..
  rw [slabs_plain ext _ hp]
  simp only [List.map_cons, List.map_nil, compRow, dry, layerRi, Scat.dispersive, Scat.complex, Scat.at,
    filmStruct, h0, h1, h2, h4, solvRows, Bool.false_eq_true, if_false]
  rw [if_neg (by simp)]
  simp [filmRows, Complex.ext_iff]

/-- A world with one model of the film and data measured at one point. -/
noncomputable def filmSt (ψ Δ : ℝ) : St where
  vals := filmVals
  vary := fun p => p == 4
  models := fun _ => ⟨⟨7, false⟩, 0⟩
  structs := fun _ => filmStruct
  heap := ⟨fun i => ⟨false, [[480, filmAoi, ψ, Δ].getD i 0]⟩, 4⟩

/-- Data in the world above, in the usual or the flipped convention for delta. -/
def filmData (b : Bool) : DS :=
  { wav := 0, aoi := 1, psi := 2, dlt := 3, mask := some [true], flipped := b }

/-- C89 fails: an objective whose model fits its data exactly (both residuals are 0) has a residual above
0 once another objective has been made with the same model and flipped data. -/
theorem C89_fails (env : Env) (hdt : env.dt = .float) : ∃ (ψ Δ x : ℝ), 0 < x ∧
    let r := mkObjective (filmSt ψ Δ) 0 (filmData false) none false none
    (residuals env r.1 none r.2).1 = .ok [some 0, some 0] ∧
    (residuals env r.1 none (mkObjective r.2 0 (filmData true) none false none).2).1 =
      .ok [some 0, some x] := by
  obtain ⟨ψ, Δ, h1, h2, h⟩ := film_delta env.zs
  obtain ⟨hf, ht⟩ := h 0
  rw [add_zero] at hf ht
  refine ⟨ψ, Δ, circularDistance (360 - Δ) Δ 360, ?_, ?_⟩
  · unfold circularDistance
    rw [show 360 - Δ - Δ = -(2 * (Δ - 180)) by ring, abs_neg, abs_of_pos (by linarith)]
    exact lt_min (by linarith) (by linarith)
  intro r
  have hpres : Presents (filmSt ψ Δ).heap (filmData false) [(480, filmAoi, ψ, Δ)] := by
    constructor <;> simp [filmSt, filmData, wavelength, aoi, psi, delta, len, access, pick]
  constructor
  · rw [C81_residuals (st := r.2) (o := r.1) hpres]
    refine ⟨[(some ψ, some Δ)], values_iff.mpr (.cons
      ⟨filmRows, (some ψ, some Δ), film_slabs env.ext 480, ?_, by rw [hdt]; rfl⟩ .nil), by simp [circularDistance]⟩
    exact hf
  · rw [C81_residuals (st := (mkObjective r.2 0 (filmData true) none false none).2) (o := r.1) hpres]
    refine ⟨[(some ψ, some (360 - Δ))],
      values_iff.mpr (.cons
        ⟨filmRows, (some ψ, some (360 - Δ)), film_slabs env.ext 480, ?_, by rw [hdt]; rfl⟩ .nil), by simp⟩
    exact ht

/-! ### C90 histories -/

/-- Two states agree on everything an objective may depend on but the values of its varying parameters:
the structures (but for the wavelength last used), the models, the data, which parameters vary, and
the values of all other parameters. -/
def SameBut (env : Env) (o : Objective) (a b : St) : Prop :=
  Sim' a b ∧ ∀ p, p ∉ varying env o a → b.vals p = a.vals p

theorem SameBut.refl (a : St) : SameBut env o a a := ⟨Sim'.refl a, fun _ _ => rfl⟩

theorem SameBut.trans {a b c : St} (h : SameBut env o a b) (g : SameBut env o b c) :
    SameBut env o a c :=
  ⟨h.1.trans g.1, fun p hp => (g.2 p (by rwa [varying_sim' h.1])).trans (h.2 p hp)⟩

theorem setp_sameBut {a b : St} (h : SameBut env o a b) (x : List ℝ) :
    (setp env o (some x) b).1 = (setp env o (some x) a).1 ∧
      ((setp env o (some x) a).1 = .ok () →
        Sim (setp env o (some x) a).2 (setp env o (some x) b).2) := by
  obtain ⟨hs, hv⟩ := h
  have hs' := hs.eq
  unfold setp
  simp only [varying_sim' hs, flatParams_sim' hs]
  by_cases h1 : x.length = (varying env o a).length
  · simp only [if_pos h1]
    refine ⟨trivial, fun _ => ?_⟩
    rw [assign_congr _ _ b.vals a.vals h1.ge hv]
    exact hs'.withVals _
  · simp only [if_neg h1]
    by_cases h2 : x.length = (flatParams env o a).length
    · simp only [if_pos h2]
      refine ⟨trivial, fun _ => ?_⟩
      rw [assign_congr _ _ b.vals a.vals h2.ge
        fun p hp => hv p fun hm => hp (mem_varying.mp hm).1]
      exact hs'.withVals _
    · simp [if_neg h2]

theorem chisqr_none_sim {a b : St} (h : Sim a b) :
    (chisqr env o none b).1 = (chisqr env o none a).1 := by
  have h1 := residuals_none_sim (env := env) (o := o) h
  simp only [chisqr, setp]
  rcases hb : residuals env o none b with ⟨rb, sb⟩
  rcases ha : residuals env o none a with ⟨ra, sa⟩
  rw [hb, ha] at h1
  simp only at h1
  subst h1
  cases rb <;> rfl

theorem logp_none_sim {a b : St} (h : Sim a b) :
    (logp env o none b).1 = (logp env o none a).1 := by
  simp only [logp, setp, h.vals, varying_sim' h.weak]

theorem logl_none_sim {a b : St} (h : Sim a b) :
    (logl env o none b).1 = (logl env o none a).1 := by
  simp only [logl, setp, dataOf_heap h.heap]
  cases dataOf o a with
  | error e => rfl
  | ok t =>
    obtain ⟨w, ang, p, d⟩ := t
    simp only
    have h1 := callModel_sim (env := env) (o := o) h w ang
    have h2 := callModel_state (env := env) (o := o) w ang a
    have h3 := callModel_state (env := env) (o := o) w ang b
    rcases hb : callModel env o w ang b with ⟨rb, sb⟩
    rcases ha : callModel env o w ang a with ⟨ra, sa⟩
    rw [hb, ha] at h1
    rw [ha] at h2
    rw [hb] at h3
    simp only at h1
    subst h1
    cases rb with
    | error e => rfl
    | ok cells =>
      simp only
      have hs : Sim sa sb := (h2.symm.trans h).trans h3
      have h4 := residuals_none_sim (env := env) (o := o) hs
      have h5 := residuals_none_state (env := env) (o := o) sa
      have h6 := residuals_none_state (env := env) (o := o) sb
      rcases hb : residuals env o none sb with ⟨rb, sb'⟩
      rcases ha : residuals env o none sa with ⟨ra, sa'⟩
      rw [hb, ha] at h4
      rw [ha] at h5
      rw [hb] at h6
      simp only at h4
      subst h4
      cases rb with
      | error e => rfl
      | ok res =>
        simp only
        have hv : sb'.vals = sa'.vals := ((h5.symm.trans hs).trans h6).vals
        rw [hv]
        split <;> rfl

theorem logpost_none_sim {a b : St} (h : Sim a b) :
    (logpost env o none b).1 = (logpost env o none a).1 := by
  simp only [logpost, setp]
  have h1 := logp_none_sim (env := env) (o := o) h
  have h2 := logp_state (env := env) (o := o) none a
  have h3 := logp_state (env := env) (o := o) none b
  rw [setVals_none] at h2 h3
  rcases hb : logp env o none b with ⟨rb, sb⟩
  rcases ha : logp env o none a with ⟨ra, sa⟩
  rw [hb, ha] at h1
  rw [ha] at h2
  rw [hb] at h3
  simp only at h1 h2 h3
  subst h1 h2 h3
  rcases rb with e | _ | x
  · rfl
  · rfl
  · simp only
    have h4 := logl_none_sim (env := env) (o := o) h
    change (match logl env o none b with
      | (.error e, st) => (.error e, st)
      | (.ok l, st) => (.ok (some (x + l)), st) : Except PyErr (Option ℝ) × St).1 =
      (match logl env o none a with
      | (.error e, st) => (.error e, st)
      | (.ok l, st) => (.ok (some (x + l)), st) : Except PyErr (Option ℝ) × St).1
    rcases hb : logl env o none b with ⟨rb, sb⟩
    rcases ha : logl env o none a with ⟨ra, sa⟩
    rw [hb, ha] at h4
    simp only at h4
    subst h4
    cases rb <;> rfl

/-- A function that first sets the vector and then evaluates. -/
theorem after_setp {α : Type} {f : St → Except PyErr α × St} {a b : St} (h : SameBut env o a b)
    (x : List ℝ) (hf : ∀ {a b : St}, Sim a b → (f b).1 = (f a).1) :
    (match setp env o (some x) b with
      | (.error e, st) => (.error e, st)
      | (.ok _, st) => f st : Except PyErr α × St).1 =
    (match setp env o (some x) a with
      | (.error e, st) => (.error e, st)
      | (.ok _, st) => f st : Except PyErr α × St).1 := by
  obtain ⟨h1, h2⟩ := setp_sameBut h x
  rcases hb : setp env o (some x) b with ⟨rb, sb⟩
  rcases ha : setp env o (some x) a with ⟨ra, sa⟩
  rw [ha] at h1 h2
  rw [hb] at h1 h2
  simp only at h1 h2
  subst h1
  cases rb with
  | error e => rfl
  | ok u => exact hf (h2 rfl)

/-- C90: the residuals, chi-squared, log-likelihood, log-prior and log-posterior for a vector are the same
(value or exception) in any two states that agree on fixed parameters, settings and data; the values of
the varying parameters and the wavelength a structure was last evaluated at do not matter. -/
theorem C90_function {a b : St} (h : SameBut env o a b) (x : List ℝ) :
    (residuals env o (some x) b).1 = (residuals env o (some x) a).1 ∧
    (chisqr env o (some x) b).1 = (chisqr env o (some x) a).1 ∧
    (logl env o (some x) b).1 = (logl env o (some x) a).1 ∧
    (logp env o (some x) b).1 = (logp env o (some x) a).1 ∧
    (logpost env o (some x) b).1 = (logpost env o (some x) a).1 := by
  refine ⟨?_, ?_, ?_, ?_, ?_⟩
  · exact after_setp h x fun h => residuals_none_sim h
  · exact after_setp (f := chisqr env o none) h x fun h => chisqr_none_sim h
  · exact after_setp (f := logl env o none) h x fun h => logl_none_sim h
  · exact after_setp (f := logp env o none) h x fun h => logp_none_sim h
  · exact after_setp (f := logpost env o none) h x fun h => logpost_none_sim h

/-- Calls of the methods of an objective, and of `plot_ellipsdata` with it. -/
inductive Call where
  | setp (x : Option (List ℝ))
  | residuals (x : Option (List ℝ))
  | chisqr (x : Option (List ℝ))
  | logp (x : Option (List ℝ))
  | logl (x : Option (List ℝ))
  | logpost (x : Option (List ℝ))
  | plot (xaxis : Option String)
  | plotEllips (xaxis : String) (resax : Bool)

/-- The vector passed. -/
def Call.vec : Call → Option (List ℝ)
  | .setp x | .residuals x | .chisqr x | .logp x | .logl x | .logpost x => x
  | .plot _ | .plotEllips _ _ => none

/-- The state after a call, also if it raises. -/
noncomputable def Call.run (env : Env) (o : Objective) (st : St) : Call → St
  | .setp x => (Obj.setp env o x st).2
  | .residuals x => (Obj.residuals env o x st).2
  | .chisqr x => (Obj.chisqr env o x st).2
  | .logp x => (Obj.logp env o x st).2
  | .logl x => (Obj.logl env o x st).2
  | .logpost x => (Obj.logpost env o x st).2
  | .plot a => (Obj.plot env o a st).2
  | .plotEllips a r => (Obj.plotEllips env o a r st).2

theorem Call.state (c : Call) (st : St) :
    Sim { st with vals := setVals env o c.vec st } (c.run env o st) := by
  cases c with
  | setp x => rw [Call.run, setp_state]; exact Sim.refl _
  | residuals x => exact residuals_state x st
  | chisqr x => exact chisqr_state x st
  | logp x => rw [Call.run, logp_state]; exact Sim.refl _
  | logl x => exact logl_state x st
  | logpost x => exact logpost_state x st
  | plot a => rw [Call.vec, setVals_none]; exact plot_state a st
  | plotEllips a r => rw [Call.vec, setVals_none]; exact plotEllips_state a r st

/-- The state after a history of calls on any objectives. -/
noncomputable def history (env : Env) : List (Objective × Call) → St → St
  | [], st => st
  | (o, c) :: l, st => history env l (c.run env o st)

/-- C90: the values for a vector do not change through any history of calls - evaluations and plots - on any
objectives whose varying parameters vary in this objective too, if the vectors passed do not set fixed parameters (they
have the length of the varying parameters, or a length that is rejected). -/
theorem C90_history : ∀ (hist : List (Objective × Call)) {st : St},
    (∀ oc ∈ hist, ∀ p, p ∈ varying env oc.1 st → p ∈ varying env o st) →
    (∀ oc ∈ hist, ∀ x ∈ oc.2.vec, x.length = (varying env oc.1 st).length ∨
      x.length ≠ (flatParams env oc.1 st).length) →
    ∀ x : List ℝ,
    (residuals env o (some x) (history env hist st)).1 = (residuals env o (some x) st).1 ∧
    (chisqr env o (some x) (history env hist st)).1 = (chisqr env o (some x) st).1 ∧
    (logl env o (some x) (history env hist st)).1 = (logl env o (some x) st).1 ∧
    (logp env o (some x) (history env hist st)).1 = (logp env o (some x) st).1 ∧
    (logpost env o (some x) (history env hist st)).1 = (logpost env o (some x) st).1 := by
  intro hist st h1 h2 x
  refine C90_function ?_ x
  induction hist generalizing st with
  | nil => exact SameBut.refl st
  | cons oc l ih =>
    obtain ⟨o', c⟩ := oc
    have hstep : SameBut env o st (c.run env o' st) := by
      have hs := Call.state (env := env) (o := o') c st
      refine ⟨⟨_, hs⟩, fun p hp => ?_⟩
      rw [hs.vals]
      exact setVals_fixed (h2 (o', c) (by simp)) fun hm => hp (h1 (o', c) (by simp) p hm)
    refine hstep.trans (ih ?_ ?_)
    · intro oc hoc p hp
      rw [varying_sim' hstep.1] at hp ⊢
      exact h1 oc (by simp [hoc]) p hp
    · intro oc hoc x hx
      rw [varying_sim' hstep.1, flatParams_sim' hstep.1]
      exact h2 oc (by simp [hoc]) x hx

/-- C90: a vector for all parameters sets all of them, and its values do not change through any history at
all on objectives that have no parameters this one does not have. -/
theorem C90_full_vector : ∀ (hist : List (Objective × Call)) {st : St},
    (∀ oc ∈ hist, ∀ p, p ∈ flatParams env oc.1 st → p ∈ flatParams env o st) →
    ∀ x : List ℝ, x.length = (flatParams env o st).length →
      x.length ≠ (varying env o st).length →
    (residuals env o (some x) (history env hist st)).1 = (residuals env o (some x) st).1 := by
  intro hist st h1 x hx hne
  have key : Sim' st (history env hist st) ∧
      ∀ p, p ∉ flatParams env o st → (history env hist st).vals p = st.vals p := by
    clear hx hne
    induction hist generalizing st with
    | nil => exact ⟨Sim'.refl st, fun _ _ => rfl⟩
    | cons oc l ih =>
      obtain ⟨o', c⟩ := oc
      have hs := Call.state (env := env) (o := o') c st
      have hs' : Sim' st (c.run env o' st) := ⟨_, hs⟩
      obtain ⟨h3, h4⟩ := ih (st := c.run env o' st) (by
        intro oc hoc p hp
        rw [flatParams_sim' hs'] at hp ⊢
        exact h1 oc (by simp [hoc]) p hp)
      refine ⟨hs'.trans h3, fun p hp => ?_⟩
      rw [history, h4 p (by rwa [flatParams_sim' hs']), hs.vals]
      exact setVals_not_mem fun hm => hp (h1 (o', c) (by simp) p hm)
  obtain ⟨h3, h4⟩ := key
  rw [residuals_some, residuals_some]
  simp only [setp, varying_sim' h3, flatParams_sim' h3, if_neg hne, if_pos hx]
  rw [assign_congr _ _ _ st.vals hx.ge h4]
  exact residuals_none_sim (h3.eq.withVals _)

/-- Non-vacuity of C90: a history with another vector, a rejected one and a call without vector; it moves
the parameter, and the residuals for a vector are as before. -/
example (ext : Ext) (zs : List Layer → ℝ → ℝ → Bool) :
    let env := exEnv ext zs [1, 2]
    let hist : List (Objective × Call) := [(exObj, .residuals (some [6])), (exObj, .chisqr (some [])),
      (exObj, .logl none)]
    (history env hist (exSt 3 190)).vals 7 = 6 ∧
    (residuals env exObj (some [8]) (history env hist (exSt 3 190))).1 =
      (residuals env exObj (some [8]) (exSt 3 190)).1 := by
  intro env hist
  obtain ⟨e1, e2⟩ := ex_varying ext zs 3 190
  constructor
  · have h1 := Call.state (env := env) (o := exObj) (.residuals (some [6])) (exSt 3 190)
    have h2 := Call.state (env := env) (o := exObj) (.chisqr (some []))
      (Call.run env exObj (exSt 3 190) (.residuals (some [6])))
    have h3 := Call.state (env := env) (o := exObj) (.logl none)
      (Call.run env exObj (Call.run env exObj (exSt 3 190) (.residuals (some [6]))) (.chisqr (some [])))
    have hw : Sim' (exSt 3 190) (Call.run env exObj (exSt 3 190) (.residuals (some [6]))) := ⟨_, h1⟩
    change (Call.run env exObj _ _).vals 7 = 6
    rw [h3.vals]
    change (Call.run env exObj _ _).vals 7 = 6
    rw [h2.vals]
    change (setp env exObj (some []) _).2.vals 7 = 6
    rw [C86_wrong_length (by rw [varying_sim' hw, e1]; simp)
      (by rw [flatParams_sim' hw]; change 0 ≠ 3; simp)]
    change (Call.run env exObj _ _).vals 7 = 6
    rw [h1.vals]
    change (setp env exObj (some [6]) _).2.vals 7 = 6
    rw [setp, if_pos (by rw [e1]; rfl), e1]
    simp [assign]
  · refine (C90_history hist ?_ ?_ [8]).1
    · intro oc hoc p hp
      simp only [hist, List.mem_cons, List.not_mem_nil, or_false] at hoc
      rcases hoc with rfl | rfl | rfl <;> exact hp
    · intro oc hoc x hx
      simp only [hist, List.mem_cons, List.not_mem_nil, or_false] at hoc
      rcases hoc with rfl | rfl | rfl
      · simp only [Call.vec, Option.mem_some_iff] at hx
        subst hx
        left
        rw [e1]; rfl
      · simp only [Call.vec, Option.mem_some_iff] at hx
        subst hx
        right
        change 0 ≠ 3
        simp
      · simp [Call.vec] at hx

/-! ### C91 number of points -/

/-- There are two residuals for each point whose mask entry is True. -/
theorem residuals_count {st : St} {pts : List Pt} {m : List Bool} (hold : Holds st.heap o.data pts)
    (hm : o.data.mask = some m) (hl : m.length = pts.length) {r : List (Option ℝ)}
    (h : (residuals env o none st).1 = .ok r) : r.length = 2 * m.count true := by
  obtain ⟨hp, hlen⟩ := C59_mask_partial hold hm hl
  have h1 := hp.len
  rw [hlen, Except.ok.injEq] at h1
  rw [C81_residuals hp] at h
  obtain ⟨cells, hv, rfl⟩ := h
  have h2 : _ = cells.length := hv.length_eq
  simp only [List.length_append, List.length_map, List.length_zip, ← h2, min_self] at h1 ⊢
  omega

/-- C91: `npoints` is the number of points stored, masked or not; so it is the number of points entering the
residuals exactly if no point is masked. -/
theorem C91_iff {st : St} {pts : List Pt} {m : List Bool} (hold : Holds st.heap o.data pts)
    (hm : o.data.mask = some m) (hl : m.length = pts.length) {r : List (Option ℝ)}
    (h : (residuals env o none st).1 = .ok r) :
    npoints o st = pts.length ∧ (r.length = 2 * npoints o st ↔ ∀ b ∈ m, b = true) := by
  have hn : npoints o st = pts.length := by rw [npoints, hold.wav]; simp
  refine ⟨hn, ?_⟩
  rw [residuals_count hold hm hl h, hn, ← hl]
  have : m.count true = m.length ↔ ∀ b ∈ m, b = true := by
    rw [List.count_eq_length]; simp [eq_comm]
  rw [← this]
  omega

/-- C91 if no point is masked.  Missing: masked points, for which the claim is false (`C91_fails`). -/
theorem C91_partial {st : St} {pts : List Pt} {m : List Bool} (hold : Holds st.heap o.data pts)
    (hm : o.data.mask = some m) (hl : m.length = pts.length) (hall : ∀ b ∈ m, b = true)
    {r : List (Option ℝ)} (h : (residuals env o none st).1 = .ok r) :
    r.length = 2 * npoints o st :=
  (C91_iff hold hm hl h).2.mpr hall

/-- Two points stored. -/
noncomputable def ex2St : St :=
  { exSt 0 190 with
    heap := ⟨fun i => ⟨false, [[600, 500], [0, 0], [45, 45], [190, 170]].getD i []⟩, 4⟩ }

/-- An objective with the second point masked or not. -/
def ex2Obj (b : Bool) : Objective where
  model := 0
  data := { wav := 0, aoi := 1, psi := 2, dlt := 3, mask := some [true, b], flipped := false }

theorem ex2_holds (b : Bool) :
    Holds ex2St.heap (ex2Obj b).data [(600, 0, 45, 190), (500, 0, 45, 170)] := by
  constructor <;> rfl

theorem ex2_value (env : Env) (hdt : env.dt = .float) (b : Bool) {w : ℝ} (hw : w ≠ 0) :
    PointVal env.ext env.zs env.dt ex2St.vals (ex2St.models (ex2Obj b).model).rm
      (ex2St.structs (ex2St.models (ex2Obj b).model).str) (w, 0) (some 45, some 180) := by
  have h := (model_ok (ext := env.ext) (zs := env.zs)).mp (twoMedia_value env.ext env.zs
    (v := Function.update (fun _ => 0) 7 0)
    (fun p hp => Function.update_of_ne (ne_of_lt (lt_trans hp (by norm_num : (5 : ℕ) < 7))) _ _) hw 7)
  rw [Function.update_self, add_zero] at h
  rw [hdt]
  cases h with
  | cons h1 h2 => exact h1

/-- Non-vacuity of C91: two points, four residuals. -/
theorem ex2_all (env : Env) (hdt : env.dt = .float) :
    (residuals env (ex2Obj true) none ex2St).1 = .ok [some 0, some 0, some 10, some 10] ∧
      npoints (ex2Obj true) ex2St = 2 := by
  refine ⟨?_, rfl⟩
  rw [C81_residuals (C59_mask_partial (ex2_holds true) rfl rfl).1]
  refine ⟨[(some 45, some 180), (some 45, some 180)],
    values_iff.mpr (.cons (ex2_value env hdt true (by norm_num))
      (.cons (ex2_value env hdt true (by norm_num)) .nil)), ?_⟩
  norm_num [circularDistance, abs_of_pos, abs_of_neg]

/-- C91 fails with a masked point: one point enters the residuals, `npoints` is 2. -/
theorem C91_fails (env : Env) (hdt : env.dt = .float) :
    (residuals env (ex2Obj false) none ex2St).1 = .ok [some 0, some 10] ∧
      len ex2St.heap (ex2Obj false).data = .ok 1 ∧ npoints (ex2Obj false) ex2St = 2 := by
  refine ⟨?_, (C59_mask_partial (ex2_holds false) rfl rfl).2, rfl⟩
  rw [C81_residuals (C59_mask_partial (ex2_holds false) rfl rfl).1]
  refine ⟨[(some 45, some 180)], values_iff.mpr (.cons (ex2_value env hdt false (by norm_num)) .nil), ?_⟩
  norm_num [circularDistance, abs_of_pos, abs_of_neg]

/-! ### C92 prior transform -/

/-- C92: the varying parameters are the parameters that vary, each once, in the order in which they first
occur among the parameters of the objective. -/
theorem C92_varying (st : St) :
    (∀ p, p ∈ varying env o st ↔ p ∈ flatParams env o st ∧ st.vary p = true) ∧
    (varying env o st).Nodup ∧
    (varying env o st).Pairwise fun a b =>
      (flatParams env o st).idxOf a < (flatParams env o st).idxOf b := by
  refine ⟨fun p => mem_varying, varying_nodup env o st, ?_⟩
  have aux : ∀ (l : List PId) (a b : PId), st.vary a = true → st.vary b = true →
      (l.filter fun p => st.vary p).idxOf a < (l.filter fun p => st.vary p).idxOf b →
      l.idxOf a < l.idxOf b := by
    intro l a b ha hb
    induction l with
    | nil => simp
    | cons q l ih =>
      by_cases hq : st.vary q = true
      · rw [List.filter_cons_of_pos (by simpa using hq)]
        by_cases h1 : q = a
        · subst h1
          by_cases h2 : q = b
          · subst h2; simp
          · intro _
            rw [List.idxOf_cons_self, List.idxOf_cons_ne _ h2]
            omega
        · by_cases h2 : q = b
          · subst h2; simp
          · rw [List.idxOf_cons_ne _ h1, List.idxOf_cons_ne _ h2, List.idxOf_cons_ne _ h1,
              List.idxOf_cons_ne _ h2]
            intro h
            have := ih (by omega)
            omega
      · rw [List.filter_cons_of_neg (by simpa using hq)]
        intro h
        rw [List.idxOf_cons_ne _ (by rintro rfl; exact hq ha),
          List.idxOf_cons_ne _ (by rintro rfl; exact hq hb)]
        have := ih h
        omega
  refine (unique_order _).imp_of_mem ?_
  intro a b ha hb hab
  have ha' := List.mem_filter.mp (mem_unique.mp ha)
  have hb' := List.mem_filter.mp (mem_unique.mp hb)
  exact aux _ a b ha'.2 hb'.2 hab

/-- C92: a parameter varies in the fit if it may vary and is lnsigma, the model's offset of delta, or a
parameter of the structure. -/
theorem C92_which (st : St) (p : PId) : p ∈ varying env o st ↔ st.vary p = true ∧
    (o.lnsigma = some p ∨ p = (st.models o.model).rm.off ∨
      p ∈ env.pars (st.structs (st.models o.model).str).data (st.structs (st.models o.model).str).solvent) := by
  rw [mem_varying, and_comm]
  simp [flatParams, Option.mem_toList]

/-- C92: the result has one value for each varying parameter, the inverse CDF of its own bounds at the value
of `u` in its place; values of `u` beyond are ignored and no parameter changes. -/
theorem C92_transform {st : St} {u : List ℝ} (hu : (varying env o st).length ≤ u.length) :
    ∃ l, priorTransform env o u st = .ok l ∧ l.length = (varying env o st).length ∧
      ∀ (i : ℕ) (p : PId) (x : ℝ), (varying env o st)[i]? = some p → u[i]? = some x →
        l[i]? = some (env.invcdf p x) := by
  refine ⟨_, by rw [priorTransform, if_neg (by omega)], by simp [hu], ?_⟩
  intro i p x hp hx
  simp [List.getElem?_zipWith, hp, hx]

/-- C92: with fewer values than varying parameters an IndexError is raised. -/
theorem C92_short {st : St} {u : List ℝ} :
    priorTransform env o u st = .error .indexError ↔ u.length < (varying env o st).length := by
  unfold priorTransform
  split <;> simp [*]

/-- C92: setting the transformed values gives each varying parameter its own one. -/
theorem C92_setp {st : St} {u l : List ℝ} (h : priorTransform env o u st = .ok l) :
    ∃ st', setp env o (some l) st = (.ok (), st') ∧
      ∀ (i : ℕ) (p : PId) (x : ℝ), (varying env o st)[i]? = some p → u[i]? = some x →
        st'.vals p = env.invcdf p x := by
  have hu : (varying env o st).length ≤ u.length := by
    by_contra hc
    rw [C92_short.mpr (by omega)] at h
    simp at h
  obtain ⟨l', h1, h2, h3⟩ := C92_transform hu
  rw [h1, Except.ok.injEq] at h
  subst h
  refine ⟨{ st with vals := assign (varying env o st) l' st.vals }, by rw [setp, if_pos h2], ?_⟩
  intro i p x hp hx
  exact assign_get _ _ _ (Consistent.of_nodup (varying_nodup env o st) _) i p _ hp (h3 i p x hp hx)

/-- Non-vacuity of C92: parameters 7, 1, 7, 2 of which 7 and 2 vary. -/
example (ext : Ext) (zs : List Layer → ℝ → ℝ → Bool) :
    let st := { exSt 0 190 with vary := fun p => p == 7 || p == 2 }
    varying (exEnv ext zs [1, 7, 2]) exObj st = [7, 2] ∧
    priorTransform (exEnv ext zs [1, 7, 2]) exObj [1 / 4, 1 / 2] st = .ok [1 / 2, 1] := by
  intro st
  have h : varying (exEnv ext zs [1, 7, 2]) exObj st = [7, 2] := by
    change unique (List.filter (fun p => p == 7 || p == 2) [7, 1, 7, 2]) = [7, 2]
    decide
  refine ⟨h, ?_⟩
  rw [priorTransform, h]
  norm_num [exEnv]

end Verif.Obj
