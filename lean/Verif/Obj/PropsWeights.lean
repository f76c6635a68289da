import Verif.Obj.PropsArgs

/-! # Properties of the weighting switch (C125) -/

namespace Verif.Obj
open Verif.Struct Verif.TMM Verif.RModel Verif.Data

variable {env : Env} {o : Objective}

/-- Data sets as they are constructed have no weights. -/
theorem mk_weighted {c : Codec} {h h' : Heap} {src : Source} {r : Bool} {dl : Char} {nm : Option String}
    {d : DS} (hm : mk c h src r dl nm = .ok (d, h')) : d.weighted = false := by
  have hg : ∀ {x : DS × Heap}, gather c h dl nm src = .ok x → x.1.weighted = false := by
    intro x hx
    cases src with
    | none => simp only [gather, Except.ok.injEq] at hx; rw [← hx]
    | file f ls =>
      simp only [gather] at hx
      cases hl : loadName c dl ls <;> rw [hl] at hx <;> simp only [Except.map, Except.ok.injEq, reduceCtorEq] at hx
      rw [← hx]
    | handle ls =>
      simp only [gather] at hx
      cases hl : loadHandle c dl ls <;> rw [hl] at hx <;> simp only [Except.map, Except.ok.injEq, reduceCtorEq] at hx
      rw [← hx]
    | ds o => simp only [gather, Except.ok.injEq] at hx; rw [← hx]
    | arrays w a p d => simp only [gather, Except.ok.injEq] at hx; rw [← hx]
  rw [mk] at hm
  cases hx : gather c h dl nm src with
  | error e => rw [hx] at hm; simp at hm
  | ok x =>
    rw [hx] at hm
    have := hg hx
    obtain ⟨o, h1⟩ := x
    simp only at hm
    split_ifs at hm <;> simp only [Except.ok.injEq, Prod.mk.injEq] at hm <;> rw [← hm.1] <;>
      exact this

/-- C125 fails: whatever is handed to `DataSE`, the data set has no weights, and an objective with this data
is not weighted although it is told to be, at construction or later. -/
theorem C125_fails {c : Codec} {h h' : Heap} {src : Source} {r : Bool} {dl : Char} {nm : Option String} {d : DS}
    (hm : mk c h src r dl nm = .ok (d, h')) (st : St) (model : ℕ) (use : Bool) {x : Objective × St}
    (ho : mkObjectiveFrom c st model (.exact d) use = .ok x) :
    x.1.weighted = false ∧ (x.1.setWeighted true).weighted = false := by
  simp only [mkObjectiveFrom, Except.ok.injEq] at ho
  subst ho
  simp [Objective.weighted, Objective.setWeighted, mkObjective, mk_weighted hm]

/-- C125 fails for anything but a `DataSE`, also. -/
theorem C125_fails_other (c : Codec) (st : St) (model : ℕ) (src : Source) (use : Bool) {x : Objective × St}
    (ho : mkObjectiveFrom c st model (.other src) use = .ok x) :
    x.1.weighted = false ∧ (x.1.setWeighted true).weighted = false := by
  simp only [mkObjectiveFrom] at ho
  cases hm : mk c st.heap src false with
  | error e => rw [hm] at ho; simp at ho
  | ok y =>
    obtain ⟨d, h'⟩ := y
    rw [hm] at ho
    simp only [Except.ok.injEq] at ho
    subst ho
    simp [Objective.weighted, Objective.setWeighted, mkObjective, mk_weighted hm]

/-- C125: for data without weights the switch has no effect: residuals, chi-squared, likelihood, posterior
and covariance are the same. -/
theorem C125_no_weights (hd : o.data.weighted = false) (use : Bool) (p : Option (List ℝ)) (st : St) :
    residuals env (o.setWeighted use) p st = residuals env o p st ∧
    chisqr env (o.setWeighted use) p st = chisqr env o p st ∧
    logl env (o.setWeighted use) p st = logl env o p st ∧
    logpost env (o.setWeighted use) p st = logpost env o p st ∧
    ∀ {α β : Type} (D D' : Diff α) fpe n (fin : α × Bool → Except PyErr β) scaled,
      covar env (o.setWeighted use) D D' fpe n fin scaled st = covar env o D D' fpe n fin scaled st := by
  have hw : (o.setWeighted use).weighted = o.weighted := by simp [Objective.weighted, Objective.setWeighted, hd]
  have hl : ∀ p st, logl env (o.setWeighted use) p st = logl env o p st := by
    intro p st
    rw [logl, hw]
    rfl
  refine ⟨rfl, rfl, hl p st, ?_, ?_⟩
  · rw [logpost, funext fun st => hl none st]
    rfl
  · intro α β D D' fpe n fin scaled
    rw [covar, hw]
    have hrun : ∀ (D : Diff α) scale n seen st,
        D.run env (o.setWeighted use) scale n seen st = D.run env o scale n seen st := by
      intro D scale n
      induction n with
      | zero => intro seen st; rfl
      | succ n ih =>
        intro seen st
        rw [Diff.run, Diff.run]
        cases D.next seen with
        | inr r => rfl
        | inl x =>
          have hr : residuals env (o.setWeighted use) (some (scale x)) st = residuals env o (some (scale x)) st := rfl
          simp only [hr, ih]
    have hj : covarJac env (o.setWeighted use) D D' fpe n st = covarJac env o D D' fpe n st := by
      rw [covarJac, covarJac]
      simp only [hrun]
      rfl
    rw [hj]
    rfl

/-- Spec: the logarithms of 2 pi times the variances of the values of the model. -/
noncomputable def logNorm (lnsigma : Option ℝ) (ms : List (ℝ × ℝ)) : ℝ :=
  (ms.map fun m => Real.log (2 * Real.pi * (1 + lnsigma.elim 0 fun s => Real.exp (2 * s) * m.1 ^ 2)) +
    Real.log (2 * Real.pi * (1 + lnsigma.elim 0 fun s => Real.exp (2 * s) * m.2 ^ 2))).sum

theorem loglSpec_weighted (ln : Option ℝ) (pts : List Pt) (ms : List (ℝ × ℝ)) (hl : pts.length = ms.length) :
    loglSpec true ln pts ms = loglSpec false ln pts ms - logNorm ln ms / 2 := by
  simp only [loglSpec, logNorm, contrib, if_true, Bool.false_eq_true, if_false, add_zero, List.sum_map_add]
  have e : ∀ f : ℝ × ℝ → ℝ, ((pts.zip ms).map fun x => f x.2).sum = (ms.map f).sum := by
    intro f
    have : (pts.zip ms).map (fun x => f x.2) = ((pts.zip ms).map Prod.snd).map f := by simp [Function.comp_def]
    rw [this, List.map_snd_zip (by omega)]
  rw [e fun m => Real.log (2 * Real.pi * (1 + ln.elim 0 fun s => Real.exp (2 * s) * m.1 ^ 2)),
    e fun m => Real.log (2 * Real.pi * (1 + ln.elim 0 fun s => Real.exp (2 * s) * m.2 ^ 2))]
  ring

/-- C125: for data that the user has declared weighted the switch decides whether the objective is, and
switching it on subtracts from the log-likelihood half the logarithms of 2 pi times the variances, without
effect on residuals and chi-squared.  Missing: data as constructed (`C125_fails`); and no uncertainty of the
data enters, because there is none. -/
theorem C125_partial (hd : o.data.weighted = true) (use : Bool) {st : St} {pts : List Pt}
    (hp : Presents st.heap o.data pts) {ms : List (ℝ × ℝ)} (hv : Values env o st pts (cellsOf ms)) :
    (o.setWeighted use).weighted = use ∧
    residuals env (o.setWeighted use) none st = residuals env o none st ∧
    chisqr env (o.setWeighted use) none st = chisqr env o none st ∧
    ∃ l, (logl env (o.setWeighted false) none st).1 = .ok l ∧
      (logl env (o.setWeighted true) none st).1 = .ok (l - logNorm (o.lnsigma.map st.vals) ms / 2) := by
  refine ⟨by simp [Objective.weighted, Objective.setWeighted, hd], rfl, rfl, ?_⟩
  have hl : pts.length = ms.length := by simpa [cellsOf] using hv.length_eq
  have h0 := C83_formula (o := o.setWeighted false) hp (show Values env _ st pts (cellsOf ms) from hv)
  have h1 := C83_formula (o := o.setWeighted true) hp (show Values env _ st pts (cellsOf ms) from hv)
  have e0 : (o.setWeighted false).weighted = false := by simp [Objective.weighted, Objective.setWeighted]
  have e1 : (o.setWeighted true).weighted = true := by simp [Objective.weighted, Objective.setWeighted, hd]
  rw [e0] at h0
  rw [e1, loglSpec_weighted _ _ _ hl] at h1
  exact ⟨_, h0, h1⟩

/-- C125: without lnsigma the switch shifts the log-likelihood by a constant, log(2 pi) for each point, so
that a fit is not affected. -/
theorem C125_no_lnsigma (hd : o.data.weighted = true) (hs : o.lnsigma = none) {st : St} {pts : List Pt}
    (hp : Presents st.heap o.data pts) {ms : List (ℝ × ℝ)} (hv : Values env o st pts (cellsOf ms)) :
    ∃ l, (logl env (o.setWeighted false) none st).1 = .ok l ∧
      (logl env (o.setWeighted true) none st).1 = .ok (l - pts.length * Real.log (2 * Real.pi)) := by
  obtain ⟨-, -, -, l, h0, h1⟩ := C125_partial (env := env) hd true hp hv
  have hl : pts.length = ms.length := by simpa [cellsOf] using hv.length_eq
  refine ⟨l, h0, h1.trans ?_⟩
  rw [hs, hl]
  simp only [logNorm, Option.map_none, Option.elim_none, add_zero, mul_one, List.map_const', List.sum_replicate,
    nsmul_eq_mul]
  congr 2
  ring

/-- Non-vacuity: the example, with weights. -/
example (env : Env) (hdt : env.dt = .float) :
    ∃ l, (logl env (({ exObj with data := { exObj.data with weighted := true } } : Objective).setWeighted false)
        none (exSt 0 190)).1 = .ok l ∧
      (logl env (({ exObj with data := { exObj.data with weighted := true } } : Objective).setWeighted true)
        none (exSt 0 190)).1 = .ok (l - ([(600, 0, 45, 190)] : List Pt).length * Real.log (2 * Real.pi)) :=
  C125_no_lnsigma (env := env) (o := { exObj with data := { exObj.data with weighted := true } }) rfl rfl
    (presents_weighted (ex_presents 0 190) true) (ms := [(45, 180 + 0)])
    (ex_values env hdt { exObj with data := { exObj.data with weighted := true } } 0 190)

/-- Non-vacuity of `C125_fails`: four arrays. -/
example (c : Codec) (st : St) : ∃ d, mk c st.heap (.arrays 0 1 2 3) false = .ok (d, st.heap) ∧
    ∃ x, mkObjectiveFrom c st 0 (.exact d) true = .ok x := ⟨_, rfl, _, rfl⟩

end Verif.Obj
