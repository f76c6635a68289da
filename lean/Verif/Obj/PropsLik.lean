import Verif.Obj.PropsResid

/-! # Properties of the likelihood (C83, C84) -/

namespace Verif.Obj
open Verif.Struct Verif.TMM Verif.RModel Verif.Data

variable {env : Env} {o : Objective}

/-- Spec: the contribution of a value `m` of the model with residual `r` to -2 logl: the variance is 1, or
1 + exp(2 lnsigma) m². -/
noncomputable def contrib (weighted : Bool) (lnsigma : Option ℝ) (m r : ℝ) : ℝ :=
  let s2 := 1 + lnsigma.elim 0 fun s => Real.exp (2 * s) * m ^ 2
  r ^ 2 / s2 + if weighted then Real.log (2 * Real.pi * s2) else 0

/-- Spec: the log-likelihood of data given finite model values. -/
noncomputable def loglSpec (weighted : Bool) (lnsigma : Option ℝ) (pts : List Pt) (ms : List (ℝ × ℝ)) : ℝ :=
  -(1 / 2) * (((pts.zip ms).map fun x => contrib weighted lnsigma x.2.1 (x.2.1 - x.1.2.2.1)).sum +
    ((pts.zip ms).map fun x => contrib weighted lnsigma x.2.2 (circularDistance x.2.2 x.1.2.2.2 360)).sum)

/-- Finite values as cells. -/
def cellsOf (ms : List (ℝ × ℝ)) : List Cell := ms.map fun m => (some m.1, some m.2)

theorem loglTerms_append (w : Bool) {a b c d : List (Option ℝ)} (h : a.length = c.length) :
    loglTerms w (a ++ b) (c ++ d) = loglTerms w a c ++ loglTerms w b d := by
  unfold loglTerms
  exact List.zipWith_append h

/-- The variance of one value. -/
noncomputable def varY1 (ln : Option ℝ) (c : Option ℝ) : Option ℝ :=
  match ln with
  | none => some 1
  | some s => c.map fun m => 1 + Real.exp (2 * s) * m * m

theorem varY_eq (ln : Option ℝ) (cells : List Cell) : varY ln cells =
    cells.map (fun c => varY1 ln c.1) ++ cells.map (fun c => varY1 ln c.2) := by
  unfold varY varY1
  cases ln <;> simp only [List.map_append, List.map_map] <;> rfl

theorem term1 (w : Bool) (ln : Option ℝ) (m r : ℝ) :
    loglTerm w (varY1 ln (some m)) (some r) = some (contrib w ln m r) := by
  cases ln with
  | none => simp [varY1, contrib, loglTerm, add_comm]
  | some s =>
    simp only [varY1, Option.map_some, contrib, loglTerm, Option.elim_some]
    rw [show Real.exp (2 * s) * m * m = Real.exp (2 * s) * m ^ 2 by ring, add_comm]

theorem terms_eq (w : Bool) (ln : Option ℝ) (pts : List Pt) (ms : List (ℝ × ℝ))
    (hl : pts.length = ms.length) :
    loglTerms w (varY ln (cellsOf ms))
      ((pts.zip (cellsOf ms)).map (fun x => x.2.1.map fun ψ => ψ - x.1.2.2.1) ++
        (pts.zip (cellsOf ms)).map (fun x => x.2.2.map fun Δ => circularDistance Δ x.1.2.2.2 360)) =
    (((pts.zip ms).map fun x => contrib w ln x.2.1 (x.2.1 - x.1.2.2.1)) ++
      ((pts.zip ms).map fun x => contrib w ln x.2.2 (circularDistance x.2.2 x.1.2.2.2 360))).map some := by
  rw [varY_eq, loglTerms_append _ (by simp [cellsOf, hl]), List.map_append]
  congr 1
  · induction pts generalizing ms with
    | nil => cases ms <;> simp_all [loglTerms, cellsOf]
    | cons p pts ih =>
      cases ms with
      | nil => simp at hl
      | cons m ms =>
        have := ih ms (by simpa using hl)
        simp only [cellsOf, List.map_cons, List.zip_cons_cons, loglTerms, List.zipWith_cons_cons,
          Option.map_some, term1] at this ⊢
        rw [this]
  · induction pts generalizing ms with
    | nil => cases ms <;> simp_all [loglTerms, cellsOf]
    | cons p pts ih =>
      cases ms with
      | nil => simp at hl
      | cons m ms =>
        have := ih ms (by simpa using hl)
        simp only [cellsOf, List.map_cons, List.zip_cons_cons, loglTerms, List.zipWith_cons_cons,
          Option.map_some, term1] at this ⊢
        rw [this]

/-- The likelihood for a vector is the one after setting it. -/
theorem logl_some (p : Option (List ℝ)) (st : St) : logl env o p st =
    match setp env o p st with
    | (.error e, st) => (.error e, st)
    | (.ok _, st) => logl env o none st := by
  rw [logl]
  split <;> rename_i h <;> simp only [h]
  rfl

theorem values_sim {a b : St} (h : Sim a b) {pts : List Pt} {cells : List Cell}
    (hv : Values env o a pts cells) : Values env o b pts cells :=
  callModel_ok.mp ((callModel_sim h _ _).trans (callModel_ok.mpr hv))

/-- The likelihood in terms of model values and residuals. -/
theorem logl_values {st : St} {pts : List Pt} (hp : Presents st.heap o.data pts) {cells : List Cell}
    (hv : Values env o st pts cells) : (logl env o none st).1 =
    match finite (loglTerms o.weighted (varY (o.lnsigma.map st.vals) cells)
      ((pts.zip cells).map (fun x => x.2.1.map fun ψ => ψ - x.1.2.2.1) ++
        (pts.zip cells).map (fun x => x.2.2.map fun Δ => circularDistance Δ x.1.2.2.2 360))) with
    | none => .error .runtimeError
    | some l => .ok (-(1 / 2) * l.sum) := by
  unfold logl
  simp only [setp]
  rw [dataOf_presents hp]
  simp only
  have h1 := callModel_ok.mpr hv
  have h2 := callModel_state (env := env) (o := o) (pts.map (·.1)) (pts.map (·.2.1)) st
  rcases hq : callModel env o (pts.map (·.1)) (pts.map (·.2.1)) st with ⟨q, s'⟩
  rw [hq] at h1 h2
  simp only at h1 h2
  subst h1
  rw [hq]
  simp only
  have hp' : Presents s'.heap o.data pts := by rw [h2.heap]; exact hp
  have h3 := (C81_residuals (env := env) (o := o) hp').mpr ⟨cells, values_sim h2 hv, rfl⟩
  have h4 := residuals_none_state (env := env) (o := o) s'
  rcases hr : residuals env o none s' with ⟨r, s''⟩
  rw [hr] at h3 h4
  simp only at h3 h4
  subst h3
  simp only
  rw [h4.vals, h2.vals]
  cases finite _ <;> rfl

/-- C83: the log-likelihood is -1/2 the sum, over psi and delta of all unmasked points, of res²/s² and, if
weighted, log(2 pi s²), with s² = 1 (+ exp(2 lnsigma) model²). -/
theorem C83_formula {st : St} {pts : List Pt} (hp : Presents st.heap o.data pts) {ms : List (ℝ × ℝ)}
    (hv : Values env o st pts (cellsOf ms)) :
    (logl env o none st).1 = .ok (loglSpec o.weighted (o.lnsigma.map st.vals) pts ms) := by
  have hl : pts.length = ms.length := by simpa [cellsOf] using hv.length_eq
  rw [logl_values hp hv, terms_eq _ _ _ _ hl, finite_some]
  simp only [loglSpec, List.sum_append]

/-- C83: for a vector that can be set it is the log-likelihood with these values. -/
theorem C83_vector {p : List ℝ} {st st' : St} (h : setp env o (some p) st = (.ok (), st')) :
    (logl env o (some p) st) = logl env o none st' := by
  rw [logl_some, h]

/-- C83: unweighted and without lnsigma it is -chisqr/2. -/
theorem C83_chisqr {st : St} {pts : List Pt} (hp : Presents st.heap o.data pts) {ms : List (ℝ × ℝ)}
    (hv : Values env o st pts (cellsOf ms)) (hw : o.weighted = false) (hs : o.lnsigma = none) :
    ∃ x, (chisqr env o none st).1 = .ok (some x) ∧ (logl env o none st).1 = .ok (-x / 2) := by
  have hr := (C81_residuals (env := env) hp).mpr ⟨_, hv, rfl⟩
  have e : (pts.zip (cellsOf ms)).map (fun x => x.2.1.map fun ψ => ψ - x.1.2.2.1) ++
      (pts.zip (cellsOf ms)).map (fun x => x.2.2.map fun Δ => circularDistance Δ x.1.2.2.2 360) =
      (((pts.zip ms).map fun x => x.2.1 - x.1.2.2.1) ++
      ((pts.zip ms).map fun x => circularDistance x.2.2 x.1.2.2.2 360)).map some := by
    simp [cellsOf, List.zip_map_right, Function.comp_def]
  rw [e] at hr
  refine ⟨_, (C82_sum hr).1, ?_⟩
  rw [C83_formula hp hv, hw, hs]
  simp only [loglSpec, contrib, Option.map_none, Option.elim_none, add_zero, div_one,
    Bool.false_eq_true, if_false, List.map_append, List.map_map, List.sum_append, Function.comp_def]
  congr 1
  ring

/-- C83: if a value of the model is not finite, a RuntimeError is raised. -/
theorem C83_not_finite {st : St} {pts : List Pt} (hp : Presents st.heap o.data pts)
    {cells : List Cell} (hv : Values env o st pts cells)
    (h : ∃ c ∈ cells, c.1 = none ∨ c.2 = none) :
    (logl env o none st).1 = .error .runtimeError := by
  rw [logl_values hp hv]
  have hf : ∀ l : List (Option ℝ), none ∈ l → finite l = none := by
    intro l
    induction l with
    | nil => simp
    | cons x l ih =>
      intro h
      cases x with
      | none => rfl
      | some x => simp only [List.mem_cons, reduceCtorEq, false_or] at h; simp [finite, ih h]
  have hl := hv.length_eq
  have key : ∀ (l l' : List (Option ℝ)), l.length = l'.length → none ∈ l' →
      none ∈ loglTerms o.weighted l l' := by
    intro l
    induction l with
    | nil => intro l' h1 h2; cases l' <;> simp_all
    | cons x l ih =>
      intro l' h1 h2
      cases l' with
      | nil => simp at h2
      | cons y l' =>
        simp only [loglTerms, List.zipWith_cons_cons, List.mem_cons] at h2 ⊢
        rcases h2 with h2 | h2
        · left; subst h2; cases x <;> rfl
        · right; exact ih l' (by simpa using h1) h2
  rw [hf _ (key _ _ ?_ ?_)]
  · rw [varY_eq]; simp [hl]
  · obtain ⟨c, hc, h⟩ := h
    obtain ⟨i, hi, rfl⟩ := List.getElem_of_mem hc
    have hz : (pts[i]'(hl ▸ hi), cells[i]) ∈ pts.zip cells := by
      rw [List.mem_iff_getElem]
      exact ⟨i, by simp [hl, hi], by simp⟩
    rw [List.mem_append]
    rcases h with h | h
    · exact Or.inl (List.mem_map.mpr ⟨_, hz, by simp [h]⟩)
    · exact Or.inr (List.mem_map.mpr ⟨_, hz, by simp [h]⟩)

theorem presents_weighted {h : Heap} {d : DS} {pts : List Pt} (hp : Presents h d pts) (b : Bool) :
    Presents h { d with weighted := b } pts := ⟨hp.1, hp.2, hp.3, hp.4, hp.5⟩

/-- Non-vacuity of C83: the example with delta 190 measured and 180 computed. -/
example (env : Env) (hdt : env.dt = .float) :
    (logl env exObj none (exSt 0 190)).1 = .ok (-50) ∧
    (logl env { exObj with data := { exObj.data with weighted := true } } none (exSt 0 190)).1 =
      .ok (-50 - Real.log (2 * Real.pi)) := by
  have hv := fun o : Objective => ex_values env hdt o 0 190
  have e : [((some 45 : Option ℝ), (some (180 + 0) : Option ℝ))] = cellsOf [(45, 180 + 0)] := rfl
  rw [e] at hv
  constructor
  · rw [C83_formula (ex_presents 0 190) (hv exObj)]
    norm_num [loglSpec, contrib, circularDistance, exObj, abs_of_neg, Objective.weighted]
  · rw [C83_formula (o := { exObj with data := { exObj.data with weighted := true } })
      (presents_weighted (ex_presents 0 190) true) (hv _)]
    simp only [loglSpec, contrib, circularDistance, exObj, Objective.weighted]
    norm_num [abs_of_neg]
    ring

/-! ### C84 lnsigma -/

/-- The state with another value of a parameter. -/
noncomputable def St.at (st : St) (q : PId) (x : ℝ) : St := { st with vals := Function.update st.vals q x }

/-- The parameter is not used by the model of the objective. -/
structure Apart (env : Env) (o : Objective) (st : St) (q : PId) : Prop where
  off : (st.models o.model).rm.off ≠ q
  slabs : ∀ x w, (Struct.slabs env.ext (Function.update st.vals q x)
      { st.structs (st.models o.model).str with wavelength := some w } none).1 =
    (Struct.slabs env.ext st.vals { st.structs (st.models o.model).str with wavelength := some w } none).1

theorem values_at {st : St} {q : PId} (h : Apart env o st q) {pts : List Pt} {cells : List Cell}
    (hv : Values env o st pts cells) (x : ℝ) : Values env o (st.at q x) pts cells := by
  rw [values_iff] at hv ⊢
  refine List.Forall₂.imp ?_ hv
  rintro pt c ⟨rows, y, h1, h2, h3⟩
  refine ⟨rows, y, (h.slabs x _).trans h1, ?_, h3⟩
  change (deltaPsiTMM _ _ _ _ (Function.update st.vals q x (st.models o.model).rm.off) _).1 = _
  rw [Function.update_of_ne h.off]
  exact h2

theorem logl_at {st : St} {q : PId} (h : Apart env o st q) (hs : o.lnsigma = some q) {pts : List Pt}
    (hp : Presents st.heap o.data pts) {ms : List (ℝ × ℝ)} (hv : Values env o st pts (cellsOf ms))
    (x : ℝ) : (logl env o none (st.at q x)).1 = .ok (loglSpec o.weighted (some x) pts ms) := by
  rw [C83_formula (st := st.at q x) hp (values_at h hv x), hs]
  have : (st.at q x).vals q = x := by unfold St.at; exact Function.update_self ..
  simp only [Option.map_some, this]

theorem sum_map_le {α : Type} {f g : α → ℝ} (l : List α) (h : ∀ a ∈ l, f a ≤ g a) :
    (l.map f).sum ≤ (l.map g).sum := List.sum_le_sum h

/-- C84 fails for objectives as they are by default (`data.weighted` is False): the likelihood never
decreases when lnsigma is raised, and it strictly increases if some model value and its residual are not
zero.  A fit drives lnsigma to its upper bound. -/
theorem C84_fails {st : St} {q : PId} (h : Apart env o st q) (hs : o.lnsigma = some q)
    (hw : o.weighted = false) {pts : List Pt}
    (hp : Presents st.heap o.data pts) {ms : List (ℝ × ℝ)} (hv : Values env o st pts (cellsOf ms))
    {x y : ℝ} (hxy : x < y) :
    ∃ a b, (logl env o none (st.at q x)).1 = .ok a ∧ (logl env o none (st.at q y)).1 = .ok b ∧ a ≤ b ∧
      ((∃ z ∈ pts.zip ms, z.2.1 ≠ 0 ∧ z.2.1 ≠ z.1.2.2.1) → a < b) := by
  refine ⟨_, _, logl_at h hs hp hv x, logl_at h hs hp hv y, ?_⟩
  have he : Real.exp (2 * x) < Real.exp (2 * y) := Real.exp_lt_exp.mpr (by linarith)
  have hpos := Real.exp_pos (2 * x)
  have hc : ∀ m r, contrib o.weighted (some y) m r ≤ contrib o.weighted (some x) m r := by
    intro m r
    simp only [contrib, hw, Option.elim_some, Bool.false_eq_true, if_false, add_zero]
    gcongr
  have hc' : ∀ m r, m ≠ 0 → r ≠ 0 →
      contrib o.weighted (some y) m r < contrib o.weighted (some x) m r := by
    intro m r hm hr
    simp only [contrib, hw, Option.elim_some, Bool.false_eq_true, if_false, add_zero]
    have h1 : 0 < r ^ 2 := by positivity
    have h2 : 0 < m ^ 2 := by positivity
    gcongr
  have hle : ∀ (f g : Pt × (ℝ × ℝ) → ℝ), ((pts.zip ms).map fun z => contrib o.weighted (some y) (f z) (g z)).sum ≤
      ((pts.zip ms).map fun z => contrib o.weighted (some x) (f z) (g z)).sum :=
    fun f g => sum_map_le _ fun z _ => hc _ _
  constructor
  · unfold loglSpec
    have h1 := hle (fun z => z.2.1) (fun z => z.2.1 - z.1.2.2.1)
    have h2 := hle (fun z => z.2.2) (fun z => circularDistance z.2.2 z.1.2.2.2 360)
    linarith
  · rintro ⟨z, hz, hm, hr⟩
    unfold loglSpec
    have h1 : ((pts.zip ms).map fun z => contrib o.weighted (some y) z.2.1 (z.2.1 - z.1.2.2.1)).sum <
        ((pts.zip ms).map fun z => contrib o.weighted (some x) z.2.1 (z.2.1 - z.1.2.2.1)).sum :=
      List.sum_lt_sum _ _ (fun z _ => hc _ _) ⟨z, hz, hc' _ _ hm (sub_ne_zero.mpr hr)⟩
    have h2 := hle (fun z => z.2.2) (fun z => circularDistance z.2.2 z.1.2.2.2 360)
    linarith

theorem contrib_nonneg (s : ℝ) (m r : ℝ) : 0 ≤ contrib true (some s) m r := by
  have he := Real.exp_pos (2 * s)
  simp only [contrib, Option.elim_some, if_true]
  have h1 : (1 : ℝ) ≤ 1 + Real.exp (2 * s) * m ^ 2 := by nlinarith [sq_nonneg m]
  have h2 : 0 ≤ Real.log (2 * Real.pi * (1 + Real.exp (2 * s) * m ^ 2)) :=
    Real.log_nonneg (by nlinarith [Real.pi_gt_three])
  have h3 : 0 ≤ r ^ 2 / (1 + Real.exp (2 * s) * m ^ 2) := by positivity
  linarith

theorem contrib_large (s : ℝ) {m : ℝ} (r : ℝ) (hm : m ≠ 0) :
    2 * s + Real.log (m ^ 2) ≤ contrib true (some s) m r := by
  have he := Real.exp_pos (2 * s)
  have hm2 : 0 < m ^ 2 := by positivity
  simp only [contrib, Option.elim_some, if_true]
  have h3 : 0 ≤ r ^ 2 / (1 + Real.exp (2 * s) * m ^ 2) := by positivity
  have h4 : 2 * s + Real.log (m ^ 2) = Real.log (Real.exp (2 * s) * m ^ 2) := by
    rw [Real.log_mul he.ne' hm2.ne', Real.log_exp]
  have h5 : Real.log (Real.exp (2 * s) * m ^ 2) ≤
      Real.log (2 * Real.pi * (1 + Real.exp (2 * s) * m ^ 2)) := by
    apply Real.log_le_log (by positivity)
    nlinarith [Real.pi_gt_three, mul_pos he hm2]
  linarith

/-- C84 for weighted objectives (the user sets `data.weighted = True`): as soon as some psi of the model is
not zero (always the case for finite psi), the likelihood for large lnsigma is below any value.  Missing:
unweighted objectives, for which the claim is false (`C84_fails`). -/
theorem C84_partial {st : St} {q : PId} (h : Apart env o st q) (hs : o.lnsigma = some q)
    (hw : o.weighted = true) {pts : List Pt} (hp : Presents st.heap o.data pts) {ms : List (ℝ × ℝ)}
    (hv : Values env o st pts (cellsOf ms)) (hm : ∃ m ∈ ms, m.1 ≠ 0) (c : ℝ) :
    ∃ X, ∀ x ≥ X, ∃ a, (logl env o none (st.at q x)).1 = .ok a ∧ a < c := by
  obtain ⟨m, hm, hm0⟩ := hm
  have hl : pts.length = ms.length := by simpa [cellsOf] using hv.length_eq
  obtain ⟨i, hi, rfl⟩ := List.getElem_of_mem hm
  refine ⟨-c + 1 - Real.log (ms[i].1 ^ 2) / 2, fun x hx => ⟨_, logl_at h hs hp hv x, ?_⟩⟩
  have hz : (pts[i]'(hl ▸ hi), ms[i]) ∈ pts.zip ms := by
    rw [List.mem_iff_getElem]
    exact ⟨i, by simp [hl, hi], by simp⟩
  rw [hw]
  unfold loglSpec
  have h1 : contrib true (some x) ms[i].1 (ms[i].1 - (pts[i]'(hl ▸ hi)).2.2.1) ≤
      ((pts.zip ms).map fun z => contrib true (some x) z.2.1 (z.2.1 - z.1.2.2.1)).sum := by
    refine List.single_le_sum (fun z hz => ?_) _ (List.mem_map.mpr ⟨_, hz, rfl⟩)
    obtain ⟨w, _, rfl⟩ := List.mem_map.mp hz
    exact contrib_nonneg _ _ _
  have h2 : 0 ≤ ((pts.zip ms).map fun z =>
      contrib true (some x) z.2.2 (circularDistance z.2.2 z.1.2.2.2 360)).sum := by
    refine List.sum_nonneg fun z hz => ?_
    obtain ⟨w, _, rfl⟩ := List.mem_map.mp hz
    exact contrib_nonneg _ _ _
  have h3 := contrib_large x (ms[i].1 - (pts[i]'(hl ▸ hi)).2.2.1) hm0
  linarith

/-- Non-vacuity of C84: the example with lnsigma as parameter 9. -/
example (env : Env) (hdt : env.dt = .float) (w : Bool) :
    Apart env { exObj with lnsigma := some 9, data := { exObj.data with weighted := w } } (exSt 0 190) 9 ∧
      Values env { exObj with lnsigma := some 9, data := { exObj.data with weighted := w } } (exSt 0 190) [(600, 0, 45, 190)]
        (cellsOf [(45, 180 + 0)]) := by
  refine ⟨⟨?_, ?_⟩, ex_values env hdt _ 0 190⟩
  · change (7 : ℕ) ≠ 9
    norm_num
  · intro x w
    have h : ∀ p : ℕ, p < 5 → (exSt 0 190).vals p = 0 := fun p hp => by
      change Function.update (fun _ => (0 : ℝ)) 7 0 p = 0
      simp
    change (slabs _ _ { twoMedia with wavelength := some w } none).1 =
      (slabs _ _ { twoMedia with wavelength := some w } none).1
    rw [twoMedia_rows env.ext w _ h, twoMedia_rows env.ext w]
    intro p hp
    rw [Function.update_of_ne (by rintro rfl; omega)]
    exact h p hp

end Verif.Obj
