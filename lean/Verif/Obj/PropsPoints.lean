import Verif.Obj.PropsHist

/-! # The points of a dataset contribute independently of each other (C120) -/

namespace Verif.Obj
open Verif.Struct Verif.TMM Verif.RModel Verif.Data

variable {env : Env} {o : Objective}

theorem cellsOf_append (a b : List (ℝ × ℝ)) : cellsOf (a ++ b) = cellsOf a ++ cellsOf b := by simp [cellsOf]

theorem exists_cellsOf {cells : List Cell} (h : ∀ c ∈ cells, c.1.isSome ∧ c.2.isSome) :
    ∃ ms, cells = cellsOf ms := by
  induction cells with
  | nil => exact ⟨[], rfl⟩
  | cons c cells ih =>
    obtain ⟨ms, rfl⟩ := ih fun c hc => h c (by simp [hc])
    obtain ⟨h1, h2⟩ := h c (by simp)
    obtain ⟨⟨x, hx⟩, ⟨y, hy⟩⟩ := And.intro (Option.isSome_iff_exists.mp h1) (Option.isSome_iff_exists.mp h2)
    refine ⟨(x, y) :: ms, ?_⟩
    obtain ⟨c1, c2⟩ := c
    simp only at hx hy
    subst hx hy
    rfl

theorem finite_isSome {l : List (Option ℝ)} : (finite l).isSome ↔ ∀ x ∈ l, x.isSome := by
  induction l with
  | nil => simp [finite]
  | cons x l ih => cases x <;> simp [finite, ih]

/-- Squared residuals of a point. -/
noncomputable def sqTerm (pt : Pt) (m : ℝ × ℝ) : ℝ :=
  (m.1 - pt.2.2.1) ^ 2 + circularDistance m.2 pt.2.2.2 360 ^ 2

theorem res_cellsOf (pts : List Pt) (ms : List (ℝ × ℝ)) :
    (pts.zip (cellsOf ms)).map (fun x => x.2.1.map fun ψ => ψ - x.1.2.2.1) ++
      (pts.zip (cellsOf ms)).map (fun x => x.2.2.map fun Δ => circularDistance Δ x.1.2.2.2 360) =
      (((pts.zip ms).map fun x => x.2.1 - x.1.2.2.1) ++
      ((pts.zip ms).map fun x => circularDistance x.2.2 x.1.2.2.2 360)).map some := by
  simp [cellsOf, List.zip_map_right, Function.comp_def]

theorem sum_two {α : Type} (l : List α) (f g : α → ℝ) :
    (l.map f).sum + (l.map g).sum = (l.map fun x => f x + g x).sum := by
  rw [← List.sum_map_add]

theorem cells_finite {pts : List Pt} {cells : List Cell} (hl : pts.length = cells.length)
    (h : ∀ x ∈ (pts.zip cells).map (fun x => x.2.1.map fun ψ => ψ - x.1.2.2.1) ++
      (pts.zip cells).map (fun x => x.2.2.map fun Δ => circularDistance Δ x.1.2.2.2 360), x.isSome) :
    ∃ ms, cells = cellsOf ms := by
  apply exists_cellsOf
  induction pts generalizing cells with
  | nil =>
    have : cells = [] := List.length_eq_zero_iff.mp hl.symm
    subst this
    simp
  | cons p pts ih =>
    cases cells with
    | nil => simp at hl
    | cons c cells =>
      intro d hd
      rcases List.mem_cons.mp hd with rfl | hd
      · constructor
        · have := h (d.1.map fun ψ => ψ - p.2.2.1) (by simp)
          simpa using this
        · have := h (d.2.map fun Δ => circularDistance Δ p.2.2.2 360) (by simp)
          simpa using this
      · refine ih (by simpa using hl) ?_ d hd
        intro x hx
        refine h x ?_
        simp only [List.zip_cons_cons, List.map_cons, List.cons_append, List.mem_cons, List.mem_append] at hx ⊢
        rcases hx with hx | hx
        · exact .inr (.inl hx)
        · exact .inr (.inr (.inr hx))

theorem chisqr_iff {st : St} {pts : List Pt} (hp : Presents st.heap o.data pts) {x : ℝ} :
    (chisqr env o none st).1 = .ok (some x) ↔
      ∃ ms, Values env o st pts (cellsOf ms) ∧ x = ((pts.zip ms).map fun y => sqTerm y.1 y.2).sum := by
  have key : ∀ ms, Values env o st pts (cellsOf ms) →
      (chisqr env o none st).1 = .ok (some ((pts.zip ms).map fun y => sqTerm y.1 y.2).sum) := by
    intro ms hv
    have hr := (C81_residuals (env := env) hp).mpr ⟨_, hv, rfl⟩
    rw [res_cellsOf] at hr
    rw [(C82_sum hr).1, List.map_append, List.sum_append, List.map_map, List.map_map, sum_two]
    rfl
  constructor
  · intro h
    have h' := h
    rw [chisqr_eq] at h
    cases hr : (residuals env o none st).1 with
    | error e => rw [hr] at h; simp [Except.map] at h
    | ok r =>
      rw [hr] at h
      simp only [Except.map, Except.ok.injEq, Option.map_eq_some_iff] at h
      obtain ⟨l, h1, h2⟩ := h
      obtain ⟨cells, hv, rfl⟩ := (C81_residuals hp).mp hr
      obtain ⟨ms, rfl⟩ := cells_finite hv.length_eq
        (finite_isSome.mp (by rw [h1]; rfl))
      refine ⟨ms, hv, ?_⟩
      have := (key ms hv).symm.trans h'
      simpa using this.symm
  · rintro ⟨ms, hv, rfl⟩
    exact key ms hv

/-- Contribution of a point to the log-likelihood. -/
noncomputable def loglPt (w : Bool) (ln : Option ℝ) (pt : Pt) (m : ℝ × ℝ) : ℝ :=
  -(1 / 2) * (contrib w ln m.1 (m.1 - pt.2.2.1) + contrib w ln m.2 (circularDistance m.2 pt.2.2.2 360))

theorem loglSpec_eq (w : Bool) (ln : Option ℝ) (pts : List Pt) (ms : List (ℝ × ℝ)) :
    loglSpec w ln pts ms = ((pts.zip ms).map fun y => loglPt w ln y.1 y.2).sum := by
  unfold loglSpec
  rw [sum_two, ← List.sum_map_mul_left]
  rfl

theorem logl_cells (w : Bool) (ln : Option ℝ) {pts : List Pt} {cells : List Cell} {l : List ℝ}
    (hl : pts.length = cells.length)
    (h : finite (loglTerms w (varY ln cells)
      ((pts.zip cells).map (fun x => x.2.1.map fun ψ => ψ - x.1.2.2.1) ++
        (pts.zip cells).map (fun x => x.2.2.map fun Δ => circularDistance Δ x.1.2.2.2 360))) = some l) :
    ∃ ms, cells = cellsOf ms := by
  refine cells_finite hl ?_
  have h' := finite_isSome.mp (show (finite _).isSome by rw [h]; rfl)
  unfold loglTerms at h'
  have hlen : (varY ln cells).length = ((pts.zip cells).map (fun x => x.2.1.map fun ψ => ψ - x.1.2.2.1) ++
        (pts.zip cells).map (fun x => x.2.2.map fun Δ => circularDistance Δ x.1.2.2.2 360)).length := by
    rw [varY_eq]; simp [hl]
  generalize varY ln cells = a at hlen h'
  generalize ((pts.zip cells).map (fun x => x.2.1.map fun ψ => ψ - x.1.2.2.1) ++
        (pts.zip cells).map (fun x => x.2.2.map fun Δ => circularDistance Δ x.1.2.2.2 360)) = b at hlen h'
  clear h
  induction a generalizing b with
  | nil =>
    have : b = [] := List.length_eq_zero_iff.mp hlen.symm
    subst this; simp
  | cons y a ih =>
    cases b with
    | nil => simp
    | cons z b =>
      intro x hx
      rcases List.mem_cons.mp hx with rfl | hx
      · have := h' (loglTerm w y x) (by simp)
        cases x with
        | none => cases y <;> simp [loglTerm] at this
        | some x => rfl
      · exact ih b (by simpa using hlen) (fun q hq => h' q (by
          simp only [List.zipWith_cons_cons, List.mem_cons]; exact .inr hq)) x hx

theorem logl_iff {st : St} {pts : List Pt} (hp : Presents st.heap o.data pts) {x : ℝ} :
    (logl env o none st).1 = .ok x ↔
      ∃ ms, Values env o st pts (cellsOf ms) ∧
        x = ((pts.zip ms).map fun y => loglPt o.weighted (o.lnsigma.map st.vals) y.1 y.2).sum := by
  constructor
  · intro h
    have hv : ∃ cells, Values env o st pts cells := by
      by_contra hc
      push Not at hc
      have h1 : ∀ cells, (callModel env o (pts.map (·.1)) (pts.map (·.2.1)) st).1 ≠ .ok cells :=
        fun cells h => hc cells (callModel_ok.mp h)
      unfold logl at h
      simp only [setp] at h
      rw [dataOf_presents hp] at h
      simp only at h
      rcases hq : callModel env o (pts.map (·.1)) (pts.map (·.2.1)) st with ⟨q, s'⟩
      rw [hq] at h h1
      cases q with
      | error e => simp at h
      | ok c => exact h1 c rfl
    obtain ⟨cells, hv⟩ := hv
    have h0 := h
    rw [logl_values hp hv] at h
    cases hf : finite (loglTerms o.weighted (varY (o.lnsigma.map st.vals) cells)
      ((pts.zip cells).map (fun x => x.2.1.map fun ψ => ψ - x.1.2.2.1) ++
        (pts.zip cells).map (fun x => x.2.2.map fun Δ => circularDistance Δ x.1.2.2.2 360))) with
    | none => rw [hf] at h; simp at h
    | some l =>
      obtain ⟨ms, rfl⟩ := logl_cells _ _ hv.length_eq hf
      refine ⟨ms, hv, ?_⟩
      rw [C83_formula hp hv, loglSpec_eq] at h0
      simpa using h0.symm
  · rintro ⟨ms, hv, rfl⟩
    rw [C83_formula hp hv, loglSpec_eq]

/-! ### Sums over points -/

theorem values_append {st : St} {a b : List Pt} {ms : List (ℝ × ℝ)} :
    Values env o st (a ++ b) (cellsOf ms) ↔ ∃ m1 m2, ms = m1 ++ m2 ∧ Values env o st a (cellsOf m1) ∧
      Values env o st b (cellsOf m2) := by
  simp only [values_iff]
  constructor
  · intro h
    induction a generalizing ms with
    | nil => exact ⟨[], ms, rfl, .nil, h⟩
    | cons p a ih =>
      cases ms with
      | nil => cases h
      | cons m ms =>
        cases h with
        | cons h1 h2 =>
          obtain ⟨m1, m2, rfl, h3, h4⟩ := ih h2
          exact ⟨m :: m1, m2, rfl, .cons h1 h3, h4⟩
  · rintro ⟨m1, m2, rfl, h1, h2⟩
    rw [cellsOf_append]
    exact List.rel_append h1 h2

theorem values_data {st : St} {pts : List Pt} {cells : List Cell} (o' : Objective) (hm : o'.model = o.model) :
    Values env o' st pts cells ↔ Values env o st pts cells := by
  unfold Values
  rw [hm]

/-- Values of permuted points. -/
theorem values_perm {st : St} {f : Pt → ℝ × ℝ → ℝ} {a b : List Pt} (h : a.Perm b) {x : ℝ}
    (hv : ∃ ms, Values env o st a (cellsOf ms) ∧ x = ((a.zip ms).map fun y => f y.1 y.2).sum) :
    ∃ ms, Values env o st b (cellsOf ms) ∧ x = ((b.zip ms).map fun y => f y.1 y.2).sum := by
  simp only [values_iff] at hv ⊢
  induction h generalizing x with
  | nil => exact hv
  | cons p _ ih =>
    obtain ⟨ms, hv, rfl⟩ := hv
    cases ms with
    | nil => cases hv
    | cons m ms =>
      cases hv with
      | cons h1 h2 =>
        obtain ⟨ms', h3, h4⟩ := ih ⟨ms, h2, rfl⟩
        refine ⟨m :: ms', .cons h1 h3, ?_⟩
        simp [h4]
  | swap p q l =>
    obtain ⟨ms, hv, rfl⟩ := hv
    match ms, hv with
    | [], hv => cases hv
    | [m], hv => cases hv with | cons _ h2 => cases h2
    | m :: m' :: ms, hv =>
      cases hv with
      | cons h1 h2 =>
        cases h2 with
        | cons h2 h3 =>
          refine ⟨m' :: m :: ms, .cons h2 (.cons h1 h3), ?_⟩
          simp only [List.zip_cons_cons, List.map_cons, List.sum_cons]
          ring
  | trans _ _ ih1 ih2 => exact ih2 (ih1 hv)

/-- C120: two datasets that present the same points give the same residuals, chi-squared and likelihood:
points that are masked have no effect, nor has where the columns are stored.  (The flag `weighted` of data,
which only the user can set, counts for the likelihood.) -/
theorem C120_same {st : St} {D D' : DS} {pts : List Pt} (h : Presents st.heap D pts)
    (h' : Presents st.heap D' pts) :
    residuals env { o with data := D } none st = residuals env { o with data := D' } none st ∧
    chisqr env { o with data := D } none st = chisqr env { o with data := D' } none st ∧
    (D.weighted = D'.weighted →
      logl env { o with data := D } none st = logl env { o with data := D' } none st) := by
  have e : ∀ s : St, s.heap = st.heap → dataOf { o with data := D } s = dataOf { o with data := D' } s := by
    intro s hs
    rw [dataOf_presents (o := { o with data := D }) (by rw [hs]; exact h),
      dataOf_presents (o := { o with data := D' }) (by rw [hs]; exact h')]
  have r : ∀ s : St, s.heap = st.heap →
      residuals env { o with data := D } none s = residuals env { o with data := D' } none s := by
    intro s hs
    rw [residuals_none, residuals_none, e s hs]
    rfl
  refine ⟨r st rfl, ?_, ?_⟩
  · unfold chisqr
    simp only [setp]
    rw [r st rfl]
  · intro hw
    have hw' : Objective.weighted { o with data := D } = Objective.weighted { o with data := D' } := by
      simp [Objective.weighted, hw]
    unfold logl
    simp only [setp]
    rw [e st rfl]
    rw [dataOf_presents (o := { o with data := D' }) h']
    simp only
    have hc : callModel env { o with data := D } (pts.map (·.1)) (pts.map (·.2.1)) st =
      callModel env { o with data := D' } (pts.map (·.1)) (pts.map (·.2.1)) st := rfl
    have hs := callModel_state (env := env) (o := { o with data := D' }) (pts.map (·.1)) (pts.map (·.2.1)) st
    rw [hc]
    rcases hq : callModel env { o with data := D' } (pts.map (·.1)) (pts.map (·.2.1)) st with ⟨q, s'⟩
    rw [hq] at hs
    simp only [hq]
    cases q with
    | error _ => rfl
    | ok cells =>
      simp only
      rw [r s' hs.heap, hw']

/-- C120: the order of the points does not matter: chi-squared is finite for the one order exactly if for
the other, and then the same; so is the likelihood. -/
theorem C120_order {st : St} {D D' : DS} {pts pts' : List Pt} (h : Presents st.heap D pts)
    (h' : Presents st.heap D' pts') (hperm : pts.Perm pts') (x : ℝ) :
    ((chisqr env { o with data := D } none st).1 = .ok (some x) ↔
      (chisqr env { o with data := D' } none st).1 = .ok (some x)) ∧
    (D.weighted = D'.weighted → ((logl env { o with data := D } none st).1 = .ok x ↔
      (logl env { o with data := D' } none st).1 = .ok x)) := by
  constructor
  · rw [chisqr_iff (o := { o with data := D }) h, chisqr_iff (o := { o with data := D' }) h']
    exact ⟨fun q => values_perm (o := o) hperm q, fun q => values_perm (o := o) hperm.symm q⟩
  · intro hw
    have hw' : Objective.weighted { o with data := D } = Objective.weighted { o with data := D' } := by
      simp [Objective.weighted, hw]
    rw [logl_iff (o := { o with data := D }) h, logl_iff (o := { o with data := D' }) h', hw']
    exact ⟨fun q => values_perm (o := o) hperm q, fun q => values_perm (o := o) hperm.symm q⟩

theorem sum_append {st : St} {f : Pt → ℝ × ℝ → ℝ} {a b : List Pt} {x : ℝ} :
    (∃ ms, Values env o st (a ++ b) (cellsOf ms) ∧ x = (((a ++ b).zip ms).map fun y => f y.1 y.2).sum) ↔
    ∃ x1 x2, (∃ ms, Values env o st a (cellsOf ms) ∧ x1 = ((a.zip ms).map fun y => f y.1 y.2).sum) ∧
      (∃ ms, Values env o st b (cellsOf ms) ∧ x2 = ((b.zip ms).map fun y => f y.1 y.2).sum) ∧ x = x1 + x2 := by
  constructor
  · rintro ⟨ms, hv, rfl⟩
    obtain ⟨m1, m2, rfl, h1, h2⟩ := values_append.mp hv
    refine ⟨_, _, ⟨m1, h1, rfl⟩, ⟨m2, h2, rfl⟩, ?_⟩
    have hl : a.length = m1.length := by simpa [cellsOf] using h1.length_eq
    rw [List.zip_append hl, List.map_append, List.sum_append]
  · rintro ⟨_, _, ⟨m1, h1, rfl⟩, ⟨m2, h2, rfl⟩, rfl⟩
    refine ⟨m1 ++ m2, values_append.mpr ⟨m1, m2, rfl, h1, h2⟩, ?_⟩
    have hl : a.length = m1.length := by simpa [cellsOf] using h1.length_eq
    rw [List.zip_append hl, List.map_append, List.sum_append]

/-- C120: chi-squared and likelihood of two datasets together are the sums of those of the datasets. -/
theorem C120_together {st : St} {D D₁ D₂ : DS} {pts₁ pts₂ : List Pt} (h : Presents st.heap D (pts₁ ++ pts₂))
    (h₁ : Presents st.heap D₁ pts₁) (h₂ : Presents st.heap D₂ pts₂) (x : ℝ) :
    ((chisqr env { o with data := D } none st).1 = .ok (some x) ↔ ∃ x₁ x₂,
      (chisqr env { o with data := D₁ } none st).1 = .ok (some x₁) ∧
      (chisqr env { o with data := D₂ } none st).1 = .ok (some x₂) ∧ x = x₁ + x₂) ∧
    (D.weighted = D₁.weighted → D.weighted = D₂.weighted →
      ((logl env { o with data := D } none st).1 = .ok x ↔ ∃ x₁ x₂,
        (logl env { o with data := D₁ } none st).1 = .ok x₁ ∧
        (logl env { o with data := D₂ } none st).1 = .ok x₂ ∧ x = x₁ + x₂)) := by
  constructor
  · simp only [chisqr_iff (o := { o with data := D }) h, chisqr_iff (o := { o with data := D₁ }) h₁,
      chisqr_iff (o := { o with data := D₂ }) h₂]
    exact sum_append (o := o)
  · intro hw₁ hw₂
    have e₁ : Objective.weighted { o with data := D₁ } = Objective.weighted { o with data := D } := by
      simp [Objective.weighted, hw₁]
    have e₂ : Objective.weighted { o with data := D₂ } = Objective.weighted { o with data := D } := by
      simp [Objective.weighted, hw₂]
    simp only [logl_iff (o := { o with data := D }) h, logl_iff (o := { o with data := D₁ }) h₁,
      logl_iff (o := { o with data := D₂ }) h₂, e₁, e₂]
    exact sum_append (o := o)

/-- Non-vacuity of C120: two points, the second masked or not, and the second alone. -/
example (env : Env) (hdt : env.dt = .float) :
    (chisqr env (ex2Obj true) none ex2St).1 = .ok (some 200) ∧
    (chisqr env (ex2Obj false) none ex2St).1 = .ok (some 100) ∧
    (chisqr env { ex2Obj true with data := { (ex2Obj true).data with mask := some [false, true] } } none ex2St).1 =
      .ok (some 100) ∧
    ∃ x₁ x₂, (chisqr env { ex2Obj true with data := (ex2Obj false).data } none ex2St).1 = .ok (some x₁) ∧
      (chisqr env { ex2Obj true with data := { (ex2Obj true).data with mask := some [false, true] } } none
        ex2St).1 = .ok (some x₂) ∧ (200 : ℝ) = x₁ + x₂ := by
  have h1 : (chisqr env (ex2Obj true) none ex2St).1 = .ok (some 200) := by
    have := (C82_sum (r := [0, 0, 10, 10]) (by simpa using (ex2_all env hdt).1)).1
    rw [this]; norm_num
  have h2 : (chisqr env (ex2Obj false) none ex2St).1 = .ok (some 100) := by
    have := (C82_sum (r := [0, 10]) (by simpa using (C91_fails env hdt).1)).1
    rw [this]; norm_num
  have p1 := (C59_mask_partial (ex2_holds true) rfl rfl).1
  have p2 := (C59_mask_partial (ex2_holds false) rfl rfl).1
  have p3 : Presents ex2St.heap { (ex2Obj true).data with mask := some [false, true] } [(500, 0, 45, 170)] :=
    (C59_mask_partial (o := { (ex2Obj true).data with mask := some [false, true] })
      (pts := [(600, 0, 45, 190), (500, 0, 45, 170)]) ⟨rfl, rfl, rfl, rfl⟩ rfl rfl).1
  have h4 := (C120_together (env := env) (o := ex2Obj true) (pts₁ := [(600, 0, 45, 190)]) p1 p2 p3 200).1.mp h1
  obtain ⟨x₁, x₂, q1, q2, q3⟩ := h4
  have e : x₁ = 100 := by
    have := q1.symm.trans h2
    simpa using this
  refine ⟨h1, h2, ?_, x₁, x₂, q1, q2, q3⟩
  rw [q2, show x₂ = 100 by linarith]

end Verif.Obj
