import Verif.Obj.PropsLik

/-! # Properties of parameters, posterior and the state of objectives (C85 - C92) -/

namespace Verif.Obj
open Verif.Struct Verif.TMM Verif.RModel Verif.Data

variable {env : Env} {o : Objective}

/-! ### C86 setp -/

/-- C86: `setp(None)` changes nothing, and neither does setting the values that the varying parameters have. -/
theorem C86_none (st : St) : setp env o none st = (.ok (), st) ∧
    setp env o (some ((varying env o st).map st.vals)) st = (.ok (), st) := by
  refine ⟨rfl, ?_⟩
  rw [setp, if_pos (by simp)]
  have key : ∀ (ps : List PId) (v : Vals), assign ps (ps.map v) v = v := by
    intro ps v
    induction ps with
    | nil => rfl
    | cons p ps ih =>
      simp only [List.map_cons, assign, Function.update_eq_self]
      exact ih
  rw [key]

/-- C86: a vector as long as the varying parameters sets these, each to its own value, and nothing else;
reading the varying parameters gives the vector. -/
theorem C86_varying {st : St} {x : List ℝ} (hx : x.length = (varying env o st).length) :
    ∃ st', setp env o (some x) st = (.ok (), st') ∧
      (varying env o st').map st'.vals = x ∧
      (∀ p, (p ∉ flatParams env o st ∨ st.vary p = false) → st'.vals p = st.vals p) ∧
      st' = { st with vals := st'.vals } := by
  refine ⟨{ st with vals := assign (varying env o st) x st.vals }, by rw [setp, if_pos hx], ?_, ?_, rfl⟩
  · exact assign_read (Consistent.of_nodup (varying_nodup env o st) x) hx st.vals
  · intro p hp
    refine assign_not_mem _ _ _ fun hm => ?_
    have := mem_varying.mp hm
    rcases hp with hp | hp
    · exact hp this.1
    · rw [hp] at this; simp at this

/-- C86: a vector as long as all parameters (repeats counted) sets all of them and nothing else; reading
them gives the vector if no parameter occurs twice with different values.  Missing: without that, the last
value wins (`C86_fails`). -/
theorem C86_all_partial {st : St} {x : List ℝ} (hn : x.length ≠ (varying env o st).length)
    (hx : x.length = (flatParams env o st).length) (hc : Consistent (flatParams env o st) x) :
    ∃ st', setp env o (some x) st = (.ok (), st') ∧
      (flatParams env o st').map st'.vals = x ∧
      (∀ p, p ∉ flatParams env o st → st'.vals p = st.vals p) ∧
      st' = { st with vals := st'.vals } := by
  refine ⟨{ st with vals := assign (flatParams env o st) x st.vals },
    by rw [setp, if_neg hn, if_pos hx], ?_, ?_, rfl⟩
  · exact assign_read hc hx st.vals
  · intro p hp
    exact assign_not_mem _ _ _ hp

/-- C86: which values go where: a vector for all parameters starts with the value of lnsigma if there is one,
followed by that of the model's offset of delta and those of the parameters of the structure, each in its
place. -/
theorem C86_places {st : St} {a y : ℝ} {x : List ℝ} {p : PId}
    (hn : x.length + 2 ≠ (varying env o st).length) (hl : o.lnsigma = some p)
    (hx : x.length = (env.pars (st.structs (st.models o.model).str).data
      (st.structs (st.models o.model).str).solvent).length)
    (hc : Consistent (p :: (st.models o.model).rm.off :: env.pars (st.structs (st.models o.model).str).data
      (st.structs (st.models o.model).str).solvent) (a :: y :: x)) :
    ∃ st', setp env o (some (a :: y :: x)) st = (.ok (), st') ∧ st'.vals p = a ∧
      st'.vals (st.models o.model).rm.off = y ∧
      (env.pars (st.structs (st.models o.model).str).data
        (st.structs (st.models o.model).str).solvent).map st'.vals = x := by
  have hf : flatParams env o st = p :: (st.models o.model).rm.off ::
      env.pars (st.structs (st.models o.model).str).data (st.structs (st.models o.model).str).solvent := by
    simp [flatParams, hl]
  obtain ⟨st', h1, h2, -, h4⟩ := C86_all_partial (env := env) (o := o) (st := st) (x := a :: y :: x) (by simpa using hn)
    (by rw [hf]; simpa using hx) (by rw [hf]; exact hc)
  have hf' : flatParams env o st' = flatParams env o st := by rw [h4]; rfl
  rw [hf', hf] at h2
  simp only [List.map_cons, List.cons.injEq] at h2
  exact ⟨st', h1, h2.1, h2.2.1, h2.2.2⟩

/-- C86: without lnsigma the vector starts with the value of the offset. -/
theorem C86_places_unweighted {st : St} {y : ℝ} {x : List ℝ}
    (hn : x.length + 1 ≠ (varying env o st).length) (hl : o.lnsigma = none)
    (hx : x.length = (env.pars (st.structs (st.models o.model).str).data
      (st.structs (st.models o.model).str).solvent).length)
    (hc : Consistent ((st.models o.model).rm.off :: env.pars (st.structs (st.models o.model).str).data
      (st.structs (st.models o.model).str).solvent) (y :: x)) :
    ∃ st', setp env o (some (y :: x)) st = (.ok (), st') ∧
      st'.vals (st.models o.model).rm.off = y ∧
      (env.pars (st.structs (st.models o.model).str).data
        (st.structs (st.models o.model).str).solvent).map st'.vals = x := by
  have hf : flatParams env o st = (st.models o.model).rm.off ::
      env.pars (st.structs (st.models o.model).str).data (st.structs (st.models o.model).str).solvent := by
    simp [flatParams, hl]
  obtain ⟨st', h1, h2, -, h4⟩ := C86_all_partial (env := env) (o := o) (st := st) (x := y :: x) (by simpa using hn)
    (by rw [hf]; simpa using hx) (by rw [hf]; exact hc)
  have hf' : flatParams env o st' = flatParams env o st := by rw [h4]; rfl
  rw [hf', hf] at h2
  simp only [List.map_cons, List.cons.injEq] at h2
  exact ⟨st', h1, h2.1, h2.2⟩

/-- C86: any other length is a ValueError and changes nothing. -/
theorem C86_wrong_length {st : St} {x : List ℝ} (h1 : x.length ≠ (varying env o st).length)
    (h2 : x.length ≠ (flatParams env o st).length) :
    setp env o (some x) st = (.error .valueError, st) := by
  rw [setp, if_neg h1, if_neg h2]

/-- An environment for examples: the parameters of each structure are those given, values below zero have
no probability. -/
noncomputable def exEnv (ext : Ext) (zs : List Layer → ℝ → ℝ → Bool) (ps : List PId) : Env where
  ext := ext
  zs := zs
  dt := .float
  pars := fun _ _ => ps
  logp := fun _ x => open Classical in if 0 ≤ x then some 0 else none
  invcdf := fun _ u => 2 * u
  structLogp := fun _ _ => 0

theorem ex_flat (ext : Ext) (zs : List Layer → ℝ → ℝ → Bool) (ps : List PId) (off δ : ℝ) :
    flatParams (exEnv ext zs ps) exObj (exSt off δ) = 7 :: ps := rfl

theorem ex_varying (ext : Ext) (zs : List Layer → ℝ → ℝ → Bool) (off δ : ℝ) :
    varying (exEnv ext zs [1, 2]) exObj (exSt off δ) = [7] ∧
      varying (exEnv ext zs [7]) exObj (exSt off δ) = [7] := by
  unfold varying
  rw [ex_flat, ex_flat]
  constructor
  · change unique (List.filter (fun p => p == 7) [7, 1, 2]) = [7]
    decide
  · change unique (List.filter (fun p => p == 7) [7, 7]) = [7]
    decide

/-- Non-vacuity of C86: one varying parameter among three; vectors of length 1, 3 and 2. -/
example (ext : Ext) (zs : List Layer → ℝ → ℝ → Bool) :
    ([5] : List ℝ).length = (varying (exEnv ext zs [1, 2]) exObj (exSt 0 0)).length ∧
    ([5, 6, 7] : List ℝ).length = (flatParams (exEnv ext zs [1, 2]) exObj (exSt 0 0)).length ∧
    Consistent (flatParams (exEnv ext zs [1, 2]) exObj (exSt 0 0)) [5, 6, 7] ∧
    setp (exEnv ext zs [1, 2]) exObj (some [5, 6]) (exSt 0 0) = (.error .valueError, exSt 0 0) := by
  refine ⟨by rw [(ex_varying ext zs 0 0).1]; rfl, by rw [ex_flat]; rfl, ?_, ?_⟩
  · rw [ex_flat]; exact Consistent.of_nodup (by decide) _
  · apply C86_wrong_length
    · rw [(ex_varying ext zs 0 0).1]; simp
    · rw [ex_flat]; simp

/-- Non-vacuity of `C86_places`: lnsigma is parameter 9. -/
example (ext : Ext) (zs : List Layer → ℝ → ℝ → Bool) : ∃ st',
    setp (exEnv ext zs [1, 2]) { exObj with lnsigma := some 9 } (some [4, 5, 6, 8]) (exSt 0 0) = (.ok (), st') ∧
      st'.vals 9 = 4 ∧ st'.vals 7 = 5 ∧ [1, 2].map st'.vals = [6, 8] := by
  refine C86_places (env := exEnv ext zs [1, 2]) (o := { exObj with lnsigma := some 9 }) (st := exSt 0 0) ?_ rfl rfl
    (Consistent.of_nodup (show [9, 7, 1, 2].Nodup by decide) _)
  change 4 ≠ (unique (List.filter (fun p => p == 7) [9, 7, 1, 2])).length
  decide

/-- C86 fails for full vectors if a parameter occurs twice: the vector [1, 2] is accepted, the parameter gets
2 and reading back gives [2, 2]. -/
theorem C86_fails (ext : Ext) (zs : List Layer → ℝ → ℝ → Bool) : ∃ st',
    setp (exEnv ext zs [7]) exObj (some [1, 2]) (exSt 0 0) = (.ok (), st') ∧
      (flatParams (exEnv ext zs [7]) exObj st').map st'.vals = [2, 2] := by
  refine ⟨_, by
    rw [setp, if_neg (by rw [(ex_varying ext zs 0 0).2]; simp), if_pos (by rw [ex_flat]; simp)], ?_⟩
  change ([7, 7] : List PId).map (assign [7, 7] [1, 2] _) = [2, 2]
  simp [assign]

/-! ### C87 posterior -/

/-- Prior: sum over the varying parameters, if all are finite. -/
theorem sumLogp_eq {v : Vals} (l : List PId) {x : ℝ} : sumLogp env v l = some x ↔
    ∃ ys : List ℝ, List.Forall₂ (fun p y => env.logp p (v p) = some y) l ys ∧ x = ys.sum := by
  induction l generalizing x with
  | nil => simp [sumLogp, eq_comm]
  | cons p l ih =>
    constructor
    · intro h
      simp only [sumLogp] at h
      split at h
      · rename_i a b h1 h2
        obtain ⟨ys, h3, rfl⟩ := ih.mp h2
        simp only [Option.some.injEq] at h
        exact ⟨a :: ys, .cons h1 h3, by simp [h]⟩
      · simp at h
    · rintro ⟨ys, h, rfl⟩
      cases h with
      | @cons _ y _ ys h1 h2 =>
        simp only [sumLogp, h1, ih.mpr ⟨ys, h2, rfl⟩, List.sum_cons]

theorem sumLogp_none {v : Vals} (l : List PId) : sumLogp env v l = none ↔
    ∃ p ∈ l, env.logp p (v p) = none := by
  induction l with
  | nil => simp [sumLogp]
  | cons p l ih =>
    simp only [sumLogp, List.mem_cons, exists_eq_or_imp, ← ih]
    cases env.logp p (v p) <;> cases sumLogp env v l <;> simp

/-- C87: if a varying parameter has no finite log-probability, logpost is -inf, and the model is not
evaluated: nothing changes but the parameters, and no external function of the model matters. -/
theorem C87_outside {p : Option (List ℝ)} {st st' : St} (h : setp env o p st = (.ok (), st'))
    (hq : ∃ q, q ∈ flatParams env o st' ∧ st'.vary q = true ∧ env.logp q (st'.vals q) = none) (ext : Ext)
    (zs : List Layer → ℝ → ℝ → Bool) :
    logpost { env with ext, zs } o p st = (.ok none, st') := by
  obtain ⟨q, h1, h2, h3⟩ := hq
  have hs : sumLogp env st'.vals (varying env o st') = none :=
    (sumLogp_none _).mpr ⟨q, mem_varying.mpr ⟨h1, h2⟩, h3⟩
  have e1 : setp { env with ext, zs } o p st = setp env o p st := rfl
  have e2 : logp { env with ext, zs } o none st' = (.ok none, st') := by
    have : logp { env with ext, zs } o none st' =
      (.ok (sumLogp { env with ext, zs } st'.vals (varying env o st')), st') := rfl
    rw [this]
    have e3 : ∀ l, sumLogp { env with ext, zs } st'.vals l = sumLogp env st'.vals l := by
      intro l
      induction l with
      | nil => rfl
      | cons a l ih => simp only [sumLogp, ih]
    rw [e3, hs]
  unfold logpost
  rw [e1, h]
  simp only [e2]

/-- C87: otherwise it is the sum of the log-probabilities of the varying parameters and the
log-likelihood. -/
theorem C87_inside {p : Option (List ℝ)} {st st' : St} (h : setp env o p st = (.ok (), st'))
    {ys : List ℝ} (hq : List.Forall₂ (fun q y => env.logp q (st'.vals q) = some y) (varying env o st') ys) :
    (logpost env o p st).1 = (logl env o p st).1.map fun l => some (ys.sum + l) := by
  have hs := (sumLogp_eq _).mpr ⟨ys, hq, rfl⟩
  rw [logl_some]
  unfold logpost
  rw [h]
  simp only
  have e2 : logp env o none st' = (.ok (some ys.sum), st') := by
    have : logp env o none st' = (.ok (sumLogp env st'.vals (varying env o st')), st') := rfl
    rw [this, hs]
  rw [e2]
  simp only
  rcases logl env o none st' with ⟨r, s⟩
  cases r <;> rfl

/-- C87: logpost is -inf exactly if the vector can be set and the prior is not finite. -/
theorem C87_iff {p : Option (List ℝ)} {st : St} : (logpost env o p st).1 = .ok none ↔
    ∃ st', setp env o p st = (.ok (), st') ∧
      ∃ q, q ∈ flatParams env o st' ∧ st'.vary q = true ∧ env.logp q (st'.vals q) = none := by
  constructor
  · intro h
    rcases hs : setp env o p st with ⟨r, st'⟩
    cases r with
    | error e =>
      unfold logpost at h
      rw [hs] at h
      simp at h
    | ok u =>
      refine ⟨st', rfl, ?_⟩
      cases hl : sumLogp env st'.vals (varying env o st') with
      | none =>
        obtain ⟨q, h1, h2⟩ := (sumLogp_none _).mp hl
        exact ⟨q, (mem_varying.mp h1).1, (mem_varying.mp h1).2, h2⟩
      | some x =>
        obtain ⟨ys, h1, _⟩ := (sumLogp_eq _).mp hl
        rw [C87_inside hs h1] at h
        cases hq : (logl env o p st).1 <;> rw [hq] at h <;> simp [Except.map] at h
  · rintro ⟨st', h1, h2⟩
    exact congrArg Prod.fst (C87_outside h1 h2 env.ext env.zs)

theorem ex_logpost (ext : Ext) (zs : List Layer → ℝ → ℝ → Bool) :
    (logpost (exEnv ext zs [1, 2]) exObj none (exSt 0 190)).1 = .ok (some (-50)) := by
  have hl : (logl (exEnv ext zs [1, 2]) exObj none (exSt 0 190)).1 = .ok (-50) := by
    have hv := ex_values (exEnv ext zs [1, 2]) rfl exObj 0 190
    have e : [((some 45 : Option ℝ), (some (180 + 0) : Option ℝ))] = cellsOf [(45, 180 + 0)] := rfl
    rw [e] at hv
    rw [C83_formula (ex_presents 0 190) hv]
    norm_num [loglSpec, contrib, circularDistance, exObj, abs_of_neg, Objective.weighted]
  rw [C87_inside (C86_none _).1 (ys := [0]), hl]
  · simp [Except.map]
  · rw [(ex_varying ext zs 0 190).1]
    refine .cons ?_ .nil
    change (if 0 ≤ Function.update (fun _ => (0 : ℝ)) 7 0 7 then some (0 : ℝ) else none) = some 0
    rw [Function.update_self]
    simp

/-- Non-vacuity of C87: offset -1 is outside, 1 is inside. -/
example (ext : Ext) (zs : List Layer → ℝ → ℝ → Bool) :
    (logpost (exEnv ext zs [1, 2]) exObj (some [-1]) (exSt 0 190)).1 = .ok none ∧
    (logpost (exEnv ext zs [1, 2]) exObj none (exSt 0 190)).1 = .ok (some (-50)) := by
  refine ⟨?_, ex_logpost ext zs⟩
  rw [C87_iff]
  refine ⟨_, by rw [setp, if_pos (by rw [(ex_varying ext zs 0 190).1]; rfl)], 7, ?_, rfl, ?_⟩
  · rw [show flatParams (exEnv ext zs [1, 2]) exObj _ = [7, 1, 2] from rfl]; simp
  · rw [(ex_varying ext zs 0 190).1]
    simp [assign, exEnv]

/-! ### C85 logp_extra -/

/-- C85 fails: `logp_extra` and the log-probability of the model never matter. -/
theorem C85_fails (f g : Option (MObj → DS → St → ℝ)) (s : Structure → Vals → ℝ) (p : Option (List ℝ))
    (st : St) :
    logpost { env with structLogp := s } { o with logpExtra := f } p st =
      logpost env { o with logpExtra := g } p st := by
  have h : ∀ (v : Vals) l, sumLogp { env with structLogp := s } v l = sumLogp env v l := by
    intro v l
    induction l with
    | nil => rfl
    | cons a l ih => simp only [sumLogp, ih]
  have h1 : ∀ q st, logp { env with structLogp := s } { o with logpExtra := f } q st =
      logp env { o with logpExtra := g } q st := by
    intro q st
    unfold logp
    have : setp { env with structLogp := s } { o with logpExtra := f } q st =
      setp env { o with logpExtra := g } q st := rfl
    rw [this]
    rcases setp env { o with logpExtra := g } q st with ⟨r, s'⟩
    cases r with
    | error e => rfl
    | ok u => simp only [h]; rfl
  unfold logpost
  have h2 : setp { env with structLogp := s } { o with logpExtra := f } p st =
      setp env { o with logpExtra := g } p st := rfl
  rw [h2]
  rcases setp env { o with logpExtra := g } p st with ⟨r, s'⟩
  cases r with
  | error e => rfl
  | ok u => simp only [h1]; rfl

/-- C85 holds only where `logp_extra` has nothing to add: for a finite prior and likelihood, the posterior is
prior + likelihood + `logp_extra` exactly if `logp_extra` is 0.  Missing: everything else, for which the
claim is false. -/
theorem C85_iff_partial {p : Option (List ℝ)} {st st' : St} (f : MObj → DS → St → ℝ)
    (ho : o.logpExtra = some f) (h : setp env o p st = (.ok (), st')) {ys : List ℝ}
    (hq : List.Forall₂ (fun q y => env.logp q (st'.vals q) = some y) (varying env o st') ys) {l : ℝ}
    (hl : (logl env o p st).1 = .ok l) :
    (logpost env o p st).1 = .ok (some (ys.sum + l + f (st'.models o.model) o.data st')) ↔
      ∃ g, o.logpExtra = some g ∧ g (st'.models o.model) o.data st' = 0 := by
  rw [C87_inside h hq, hl, ho]
  simp [Except.map]

/-- C85 fails, concretely: an objective whose `logp_extra` is the constant 1, with prior 0 and
log-likelihood -50, has log-posterior -50. -/
theorem C85_fails_example (ext : Ext) (zs : List Layer → ℝ → ℝ → Bool) :
    (logpost (exEnv ext zs [1, 2]) { exObj with logpExtra := some fun _ _ _ => 1 } none (exSt 0 190)).1 =
      .ok (some (-50)) := by
  have h := C85_fails (env := exEnv ext zs [1, 2]) (o := exObj) (some fun _ _ _ => 1) none (fun _ _ => 0)
    none (exSt 0 190)
  exact (congrArg Prod.fst h).trans (ex_logpost ext zs)

/-! ### C88 covar -/

theorem assign_self (ps : List PId) (v : Vals) : assign ps (ps.map v) v = v := by
  induction ps with
  | nil => rfl
  | cons p ps ih =>
    rw [List.map_cons, assign, Function.update_eq_self, ih]

/-- Only the varying parameters have changed, and wavelengths. -/
structure Drift (env : Env) (o : Objective) (a b : St) : Prop where
  sim : Sim' a b
  fixed : ∀ p, p ∉ varying env o a → b.vals p = a.vals p

theorem Drift.refl (a : St) : Drift env o a a := ⟨Sim'.refl a, fun _ _ => rfl⟩

theorem Drift.trans {a b c : St} (h : Drift env o a b) (g : Drift env o b c) : Drift env o a c := by
  refine ⟨h.sim.trans g.sim, fun p hp => ?_⟩
  rw [g.fixed p (by rwa [varying_sim' h.sim]), h.fixed p hp]

theorem residuals_drift {st : St} {x : List ℝ} (hx : x.length = (varying env o st).length) :
    Drift env o st (residuals env o (some x) st).2 := by
  have h := residuals_state (env := env) (o := o) (some x) st
  refine ⟨⟨_, h⟩, fun p hp => ?_⟩
  rw [h.vals]
  exact setVals_fixed (by simp [hx]) hp

theorem run_drift {α : Type} {D : Diff α} {scale : List ℝ → List ℝ} {st : St}
    (hD : ∀ seen x, D.next seen = .inl x → (scale x).length = (varying env o st).length) (n : ℕ) :
    ∀ seen st', Drift env o st st' → Drift env o st (D.run env o scale n seen st').2 := by
  induction n with
  | zero => intro seen st' h; exact h
  | succ n ih =>
    intro seen st' h
    unfold Diff.run
    split
    · exact h
    · rename_i x hx
      have hd := residuals_drift (env := env) (o := o) (st := st') (x := scale x)
        (by rw [varying_sim' h.sim]; exact hD _ _ hx)
      rcases hr : residuals env o (some (scale x)) st' with ⟨r, s⟩
      rw [hr] at hd
      cases r with
      | error e => exact h.trans hd
      | ok r => exact ih _ _ (h.trans hd)

/-- Setting the old values of the varying parameters brings the state back, but for wavelengths. -/
theorem setp_restores {a b : St} (h : Drift env o a b) : ∃ c,
    setp env o (some ((varying env o a).map a.vals)) b = (.ok (), c) ∧ Sim a c := by
  refine ⟨{ b with vals := a.vals }, ?_, ?_⟩
  · rw [setp, if_pos (by simp [varying_sim' h.sim])]
    rw [varying_sim' h.sim, assign_congr _ _ _ a.vals (by simp) h.fixed, assign_self]
  · obtain ⟨v, hv⟩ := h.sim
    exact hv.withVals a.vals

theorem covarJac_sim {α : Type} (D D' : Diff α) (fpe : PyErr → Bool) (n : ℕ) (st : St)
    (hD : ∀ seen x, D.next seen = .inl x → x.length = (varying env o st).length)
    (hD' : ∀ seen x, D'.next seen = .inl x → x.length = (varying env o st).length) :
    Sim st (covarJac env o D D' fpe n st).2 := by
  classical
  -- the first attempt
  have h1 : ∀ pv : List ℝ, pv = (varying env o st).map st.vals →
      Drift env o st (D.run env o (fun x => List.zipWith (· * ·) pv x) n [] st).2 := by
    rintro pv rfl
    exact run_drift (fun seen x hx => by simp [hD seen x hx]) n [] st (Drift.refl st)
  have h2 : ∀ st', Drift env o st st' → Drift env o st (D'.run env o (fun x => x) n [] st').2 :=
    fun st' h => run_drift (fun seen x hx => hD' seen x hx) n [] st' h
  unfold covarJac
  simp only
  have fin' : ∀ b : Except PyErr (α × Bool) × St, Drift env o st b.2 →
      Sim st (match setp env o (some ((varying env o st).map st.vals)) b.2 with
        | (.error e, st) => (.error e, st)
        | (.ok _, st) => (b.1, st) : Except PyErr (α × Bool) × St).2 := by
    intro b hb
    obtain ⟨c, hc, hs⟩ := setp_restores hb
    rw [hc]
    exact hs
  apply fin'
  have body : ∀ q : Except PyErr α × St, Drift env o st q.2 → Drift env o st
      (match q with
        | (.ok j, st) => (.ok (j, true), st)
        | (.error e, st1) =>
          if (0 : ℝ) ∈ (varying env o st).map st.vals ∨ fpe e = true then
            match D'.run env o (fun x => x) n [] st1 with
            | (.ok j, st) => (.ok (j, false), st)
            | (.error e, st) => (.error e, st)
          else (.error e, st1) : Except PyErr (α × Bool) × St).2 := by
    rintro ⟨r, s⟩ hs
    cases r with
    | ok j => exact hs
    | error e =>
      simp only
      split
      · have := h2 s hs
        rcases hr : D'.run env o (fun x => x) n [] s with ⟨r, s'⟩
        rw [hr] at this
        cases r <;> exact this
      · exact hs
  apply body
  split
  · exact Drift.refl st
  · exact h1 _ rfl

/-- C88: covar leaves all parameters as they were (and everything else but the wavelengths of structures),
whatever vectors the numerical differentiation tries, whatever exceptions the model or the differentiation
raise, and whether or not covar itself succeeds. -/
theorem C88_covar {α β : Type} (D D' : Diff α) (fpe : PyErr → Bool) (n : ℕ)
    (fin : α × Bool → Except PyErr β) (scaled : β → Option ℝ → β) (st : St)
    (hD : ∀ seen x, D.next seen = .inl x → x.length = (varying env o st).length)
    (hD' : ∀ seen x, D'.next seen = .inl x → x.length = (varying env o st).length) :
    Sim st (covar env o D D' fpe n fin scaled st).2 ∧
      (covar env o D D' fpe n fin scaled st).2.vals = st.vals := by
  suffices h : Sim st (covar env o D D' fpe n fin scaled st).2 from ⟨h, h.vals⟩
  classical
  have hj := covarJac_sim D D' fpe n st hD hD'
  unfold covar
  rcases hr : covarJac env o D D' fpe n st with ⟨r, s⟩
  rw [hr] at hj
  cases r with
  | error e => exact hj
  | ok j =>
    simp only
    split
    · exact hj
    · split
      · exact hj
      · have h3 := chisqr_state (env := env) (o := o) none s
        rw [setVals_none] at h3
        have h3' : Sim s (chisqr env o none s).2 := h3
        rcases hc : chisqr env o none s with ⟨r, s'⟩
        rw [hc] at h3'
        cases r <;> exact hj.trans h3'

/-- Non-vacuity of C88: differentiation that evaluates at two vectors and then raises; after the second
evaluation the parameter has another value than before. -/
example (ext : Ext) (zs : List Layer → ℝ → ℝ → Bool) :
    let D : Diff Unit := ⟨fun seen => if seen.length < 2 then .inl [1 + seen.length] else .inr (.error .external)⟩
    (∀ seen x, D.next seen = .inl x →
      x.length = (varying (exEnv ext zs [1, 2]) exObj (exSt 3 190)).length) ∧
    (residuals (exEnv ext zs [1, 2]) exObj (some [6]) (exSt 3 190)).2.vals 7 = 6 ∧
    (exSt 3 190).vals 7 = 3 := by
  intro D
  refine ⟨?_, ?_, (by change Function.update (fun _ => (0 : ℝ)) 7 3 7 = 3; rw [Function.update_self])⟩
  · intro seen x hx
    simp only [D] at hx
    split at hx
    · simp only [Sum.inl.injEq] at hx
      rw [← hx, (ex_varying ext zs 3 190).1]
      rfl
    · simp at hx
  · rw [(residuals_state _ _).vals]
    change (setp _ _ _ _).2.vals 7 = 6
    rw [setp, if_pos (by rw [(ex_varying ext zs 3 190).1]; rfl), (ex_varying ext zs 3 190).1]
    simp [assign]

/-! ### C89 several objectives -/

/-- C89 if the second objective has another model, or data in the same delta convention.  Missing: a shared
model with data of different conventions, for which the claim is false (`C89_fails`). -/
theorem C89_partial {st : St} {m m' : ℕ} {d d' : DS} {ln ln' : Option PId} {w w' : Bool}
    {f f' : Option (MObj → DS → St → ℝ)} (h : m' ≠ m ∨ d'.flipped = d.flipped) (p : Option (List ℝ)) :
    let r := mkObjective st m d ln w f
    (residuals env r.1 p (mkObjective r.2 m' d' ln' w' f').2).1 = (residuals env r.1 p r.2).1 := by
  intro r
  -- the models seen by the first objective are the same
  have key : (mkObjective r.2 m' d' ln' w' f').2.models r.1.model = r.2.models r.1.model := by
    simp only [mkObjective, r]
    rcases eq_or_ne m' m with rfl | hne
    · rcases h with h | h
      · exact absurd rfl h
      · simp [h]
    · simp [hne.symm]
  generalize hs : (mkObjective r.2 m' d' ln' w' f').2 = s at key
  have e1 : s.vals = r.2.vals := by rw [← hs]; rfl
  have e2 : s.vary = r.2.vary := by rw [← hs]; rfl
  have e3 : s.structs = r.2.structs := by rw [← hs]; rfl
  have e4 : s.heap = r.2.heap := by rw [← hs]; rfl
  -- residuals see nothing else
  have loc : ∀ {a b : St}, b.vals = a.vals → b.vary = a.vary → b.structs = a.structs →
      b.heap = a.heap → b.models r.1.model = a.models r.1.model →
      (residuals env r.1 none b).1 = (residuals env r.1 none a).1 := by
    intro a b h1 h2 h3 h4 h5
    rw [residuals_none, residuals_none, dataOf_heap h4]
    cases dataOf r.1 a with
    | error e => rfl
    | ok t =>
      obtain ⟨w, ang, ψ, δ⟩ := t
      have hc : (callModel env r.1 w ang b).1 = (callModel env r.1 w ang a).1 := by
        unfold callModel
        rw [h5, h1, h3]
        split <;> rfl
      simp only
      rcases hb : callModel env r.1 w ang b with ⟨rb, sb⟩
      rcases ha : callModel env r.1 w ang a with ⟨ra, sa⟩
      rw [hb, ha] at hc
      simp only at hc
      subst hc
      cases rb with
      | error e => rfl
      | ok cells => simp only; split <;> rfl
  have hf : flatParams env r.1 s = flatParams env r.1 r.2 := by
    unfold flatParams; rw [key, e3]
  have hv : varying env r.1 s = varying env r.1 r.2 := by unfold varying; rw [hf, e2]
  rw [residuals_some, residuals_some]
  cases p with
  | none => exact loc e1 e2 e3 e4 key
  | some x =>
    simp only [setp, hf, hv]
    by_cases h1 : x.length = (varying env r.1 r.2).length
    · simp only [if_pos h1]
      exact loc (by simp [e1]) e2 e3 e4 key
    · simp only [if_neg h1]
      by_cases h2 : x.length = (flatParams env r.1 r.2).length
      · simp only [if_pos h2]
        exact loc (by simp [e1]) e2 e3 e4 key
      · simp only [if_neg h2]

end Verif.Obj
