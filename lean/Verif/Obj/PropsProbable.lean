import Verif.Obj.PropsBest
import Verif.Obj.PropsErrorBars

/-! # C170: with flat priors the most probable parameters are those that fit best -/

namespace Verif.Obj
open Verif.Struct Verif.TMM Verif.RModel Verif.Data Filter Topology

variable {env : Env} {o : Objective}

/-- Spec: the varying parameters have flat priors: each is equally probable between its bounds and impossible outside
(`Parameter(value, vary=True, bounds=(lo, hi))`). -/
def Flat (env : Env) (o : Objective) (st : St) (lo hi : PId → ℝ) : Prop :=
  ∀ q ∈ varying env o st, ∃ k, ∀ x, (lo q ≤ x ∧ x ≤ hi q → env.logp q x = some k) ∧
    (¬ (lo q ≤ x ∧ x ≤ hi q) → env.logp q x = none)

/-- Spec: a vector of values within the bounds, one for each varying parameter. -/
def Within (env : Env) (o : Objective) (st : St) (lo hi : PId → ℝ) (x : List ℝ) : Prop :=
  List.Forall₂ (fun q v => lo q ≤ v ∧ v ≤ hi q) (varying env o st) x

/-- Spec: no vector of values for the varying parameters has a larger log-posterior than `x`, which has a finite one. -/
def MostProbable (env : Env) (o : Objective) (st : St) (x : List ℝ) : Prop :=
  ∃ u, (logpost env o (some x) st).1 = .ok (some u) ∧ ∀ y v, y.length = (varying env o st).length →
    (logpost env o (some y) st).1 = .ok (some v) → v ≤ u

/-- Spec: `x` is within the bounds and no vector within the bounds has a smaller chi-squared. -/
def BestFit (env : Env) (o : Objective) (st : St) (lo hi : PId → ℝ) (x : List ℝ) : Prop :=
  Within env o st lo hi x ∧ ∃ a, (chisqr env o (some x) st).1 = .ok (some a) ∧ ∀ y b, Within env o st lo hi y →
    (chisqr env o (some y) st).1 = .ok (some b) → a ≤ b

/-- What the constant part of each residual adds to the log-likelihood. -/
noncomputable def normTerm (o : Objective) : ℝ := if o.weighted then Real.log (2 * Real.pi) else 0

theorem logl_chisqr {st : St} {pts : List Pt} (hp : Presents st.heap o.data pts) (hs : o.lnsigma = none) {l : ℝ} :
    (logl env o none st).1 = .ok l ↔ ∃ a, (chisqr env o none st).1 = .ok (some a) ∧
      l = -a / 2 - pts.length * normTerm o := by
  have key : ∀ (ms : List (ℝ × ℝ)), pts.length = ms.length →
      ((pts.zip ms).map fun y => loglPt o.weighted none y.1 y.2).sum =
        -((pts.zip ms).map fun y => sqTerm y.1 y.2).sum / 2 - pts.length * normTerm o := by
    intro ms
    clear hp
    induction pts generalizing ms with
    | nil => intro _; simp
    | cons p pts ih =>
      intro hl
      cases ms with
      | nil => simp at hl
      | cons m ms =>
        simp only [List.zip_cons_cons, List.map_cons, List.sum_cons, ih ms (by simpa using hl), List.length_cons]
        simp only [loglPt, contrib, sqTerm, normTerm, Option.elim_none, add_zero, div_one, mul_one]
        push_cast
        ring
  rw [logl_iff hp]
  constructor
  · rintro ⟨ms, hv, rfl⟩
    refine ⟨_, (chisqr_iff hp).mpr ⟨ms, hv, rfl⟩, ?_⟩
    rw [hs, Option.map_none]
    exact key ms (by simpa [cellsOf] using hv.length_eq)
  · rintro ⟨a, ha, rfl⟩
    obtain ⟨ms, hv, rfl⟩ := (chisqr_iff hp).mp ha
    refine ⟨ms, hv, ?_⟩
    rw [hs, Option.map_none]
    exact (key ms (by simpa [cellsOf] using hv.length_eq)).symm

/-- The prior of a vector. -/
theorem flat_prior {lo hi : PId → ℝ} {ps : List PId} (hn : ps.Nodup)
    (h : ∀ q ∈ ps, ∃ k, ∀ x, (lo q ≤ x ∧ x ≤ hi q → env.logp q x = some k) ∧
      (¬ (lo q ≤ x ∧ x ≤ hi q) → env.logp q x = none)) : ∃ K, ∀ (x : List ℝ) (v : Vals), x.length = ps.length →
      (List.Forall₂ (fun q v => lo q ≤ v ∧ v ≤ hi q) ps x → sumLogp env (assign ps x v) ps = some K) ∧
      (¬ List.Forall₂ (fun q v => lo q ≤ v ∧ v ≤ hi q) ps x → sumLogp env (assign ps x v) ps = none) := by
  choose! k hk using h
  have get : ∀ (x : List ℝ) (v : Vals) (hx : x.length = ps.length) (i : ℕ) (hi : i < ps.length),
      assign ps x v ps[i] = x[i] := fun x v hx i hi =>
    assign_get ps x v (Consistent.of_nodup hn x) i _ _ (by simp [hi]) (by simp [hx, hi])
  refine ⟨(ps.map k).sum, fun x v hx => ⟨fun hin => ?_, fun hout => ?_⟩⟩
  · rw [sumLogp_eq]
    refine ⟨ps.map k, ?_, rfl⟩
    rw [List.forall₂_iff_get]
    refine ⟨by simp, fun i h1 h2 => ?_⟩
    have hb := (List.forall₂_iff_get.mp hin).2 i h1 (by rw [hx]; exact h1)
    simp only [List.get_eq_getElem, List.getElem_map] at hb ⊢
    rw [get x v hx i h1]
    exact (hk _ (List.getElem_mem h1) _).1 hb
  · rw [sumLogp_none]
    rw [List.forall₂_iff_get] at hout
    push Not at hout
    obtain ⟨i, h1, h2, h3⟩ := hout hx.symm
    refine ⟨ps[i], List.getElem_mem h1, ?_⟩
    rw [get x v hx i h1]
    refine (hk _ (List.getElem_mem h1) _).2 fun hb => ?_
    simp only [List.get_eq_getElem] at h3
    exact absurd hb.2 (not_le.mpr (h3 hb.1))

theorem Within.length_eq {st : St} {lo hi : PId → ℝ} {x : List ℝ} (h : Within env o st lo hi x) :
    x.length = (varying env o st).length := (List.Forall₂.length_eq h).symm

/-- The log-posterior with flat priors: -inf outside the bounds, and inside chi-squared up to a constant. -/
theorem flat_logpost {st : St} {pts : List Pt} (hp : Presents st.heap o.data pts) (hs : o.lnsigma = none)
    {lo hi : PId → ℝ} (hf : Flat env o st lo hi) : ∃ K, ∀ x : List ℝ, x.length = (varying env o st).length →
      (Within env o st lo hi x → ∀ u, (logpost env o (some x) st).1 = .ok (some u) ↔
        ∃ a, (chisqr env o (some x) st).1 = .ok (some a) ∧ u = K - a / 2) ∧
      (¬ Within env o st lo hi x → (logpost env o (some x) st).1 = .ok none) := by
  obtain ⟨K, hK⟩ := flat_prior (varying_nodup env o st) hf
  refine ⟨K - pts.length * normTerm o, fun x hx => ?_⟩
  have hset : setp env o (some x) st = (.ok (), { st with vals := assign (varying env o st) x st.vals }) := by
    rw [setp, if_pos hx]
  set st' : St := { st with vals := assign (varying env o st) x st.vals } with hst'
  have hv : varying env o st' = varying env o st := rfl
  have hlp : logp env o none st' = (.ok (sumLogp env (assign (varying env o st) x st.vals) (varying env o st)), st') := rfl
  have hp' : Presents st'.heap o.data pts := hp
  constructor
  · intro hin u
    rw [(hK x st.vals hx).1 hin] at hlp
    have e : (logpost env o (some x) st).1 = (logl env o none st').1.map fun l => some (K + l) := by
      unfold logpost
      rw [hset]
      simp only [hlp]
      rcases logl env o none st' with ⟨r, s⟩
      cases r <;> rfl
    rw [e, chisqr_set hx]
    rw [show (setp env o (some x) st).2 = st' by rw [hset]]
    constructor
    · intro h
      cases hl : (logl env o none st').1 with
      | error e => rw [hl] at h; simp [Except.map] at h
      | ok l =>
        rw [hl] at h
        obtain ⟨a, ha, rfl⟩ := (logl_chisqr hp' hs).mp hl
        simp only [Except.map, Except.ok.injEq, Option.some.injEq] at h
        exact ⟨a, ha, by rw [← h]; ring⟩
    · rintro ⟨a, ha, rfl⟩
      rw [(logl_chisqr hp' hs).mpr ⟨a, ha, rfl⟩]
      simp only [Except.map, Except.ok.injEq, Option.some.injEq]
      ring
  · intro hout
    rw [(hK x st.vals hx).2 hout] at hlp
    unfold logpost
    rw [hset]
    simp only [hlp]

/-- C170 (partial): with flat priors, the log-posteriors of two vectors within the bounds differ by half the difference of their
chi-squared.  Missing: objectives with `lnsigma` (`C170_fails`). -/
theorem C170_difference_partial {st : St} {pts : List Pt} (hp : Presents st.heap o.data pts) (hs : o.lnsigma = none)
    {lo hi : PId → ℝ} (hf : Flat env o st lo hi) {x y : List ℝ} (hx : Within env o st lo hi x)
    (hy : Within env o st lo hi y) {a b : ℝ} (ha : (chisqr env o (some x) st).1 = .ok (some a))
    (hb : (chisqr env o (some y) st).1 = .ok (some b)) :
    ∃ u v, (logpost env o (some x) st).1 = .ok (some u) ∧ (logpost env o (some y) st).1 = .ok (some v) ∧
      u - v = (b - a) / 2 := by
  obtain ⟨K, hK⟩ := flat_logpost hp hs hf
  exact ⟨K - a / 2, K - b / 2, ((hK x hx.length_eq).1 hx _).mpr ⟨a, ha, rfl⟩,
    ((hK y hy.length_eq).1 hy _).mpr ⟨b, hb, rfl⟩, by ring⟩

/-- C170 (partial): with flat priors, the most probable vectors are those that fit best within the bounds.  Missing:
objectives with `lnsigma`, for which it is false (`C170_fails`). -/
theorem C170_best_partial {st : St} {pts : List Pt} (hp : Presents st.heap o.data pts) (hs : o.lnsigma = none)
    {lo hi : PId → ℝ} (hf : Flat env o st lo hi) {x : List ℝ} (hx : x.length = (varying env o st).length) :
    MostProbable env o st x ↔ BestFit env o st lo hi x := by
  obtain ⟨K, hK⟩ := flat_logpost hp hs hf
  constructor
  · rintro ⟨u, hu, hmax⟩
    have hin : Within env o st lo hi x := by
      by_contra hout
      rw [(hK x hx).2 hout] at hu
      simp at hu
    obtain ⟨a, ha, rfl⟩ := ((hK x hx).1 hin u).mp hu
    refine ⟨hin, a, ha, fun y b hy hb => ?_⟩
    have := hmax y (K - b / 2) hy.length_eq (((hK y hy.length_eq).1 hy _).mpr ⟨b, hb, rfl⟩)
    linarith
  · rintro ⟨hin, a, ha, hmin⟩
    refine ⟨K - a / 2, ((hK x hx).1 hin _).mpr ⟨a, ha, rfl⟩, fun y v hy hv => ?_⟩
    have hyin : Within env o st lo hi y := by
      by_contra hout
      rw [(hK y hy).2 hout] at hv
      simp at hv
    obtain ⟨b, hb, rfl⟩ := ((hK y hy).1 hyin v).mp hv
    have := hmin y b hyin hb
    linarith

/-- The vectors within the bounds are compact. -/
theorem within_iff {st : St} {lo hi : PId → ℝ} {n : ℕ} (hn : n = (varying env o st).length) {x : Fin n → ℝ} :
    Within env o st lo hi (List.ofFn x) ↔
      x ∈ Set.Icc (fun i : Fin n => lo ((varying env o st).getD i 0)) fun i => hi ((varying env o st).getD i 0) := by
  unfold Within
  rw [List.forall₂_iff_get, Set.mem_Icc, Pi.le_def, Pi.le_def, ← forall_and]
  subst hn
  constructor
  · rintro ⟨-, h⟩ i
    have := h i i.2 (by simp)
    simpa using this
  · intro h
    refine ⟨by simp, fun i h1 h2 => ?_⟩
    have := h ⟨i, h1⟩
    simpa [h1] using this

/-- C170 (partial): if the model deforms continuously within the bounds, most probable values exist.  Missing: families
outside `Deforms` (see `C167_fails`), and `lnsigma`. -/
theorem C170_exists_partial {st : St} {pts pts' : List Pt} (hp : Presents st.heap o.data pts) (hs : o.lnsigma = none)
    {lo hi : PId → ℝ} (hf : Flat env o st lo hi) (hle : ∀ q ∈ varying env o st, lo q ≤ hi q) {M : MObj}
    {s : Structure} {cs : List Comp} {n : ℕ} (hn : n = (varying env o st).length) {c : (Fin n → ℝ) → ℝ}
    (h : Searches env o (fun p => (setp env o (some (List.ofFn p)) st).2) pts' M s cs
      {p | Within env o st lo hi (List.ofFn p)} c) : ∃ x, MostProbable env o st x := by
  have hset : {p : Fin n → ℝ | Within env o st lo hi (List.ofFn p)} =
      Set.Icc (fun i : Fin n => lo ((varying env o st).getD i 0)) fun i => hi ((varying env o st).getD i 0) :=
    Set.ext fun p => within_iff hn
  have hK : IsCompact {p : Fin n → ℝ | Within env o st lo hi (List.ofFn p)} := by
    rw [hset]; exact isCompact_Icc
  obtain ⟨p, hin, a, ha, hmin⟩ := C167_vectors_partial hn h hK (by
    rw [hset, Set.nonempty_Icc]
    intro i
    have hi' : (i : ℕ) < (varying env o st).length := hn ▸ i.2
    simp only [List.getD_eq_getElem?_getD, List.getElem?_eq_getElem hi', Option.getD_some]
    exact hle _ (List.getElem_mem hi'))
  refine ⟨_, (C170_best_partial hp hs hf (by simpa using hn)).mpr ⟨hin, a, ha, fun y b hy hb => ?_⟩⟩
  have hyl : y.length = n := hy.length_eq.trans hn.symm
  subst hyl
  have hyo : List.ofFn (fun i : Fin y.length => y[i]) = y := by simp
  obtain ⟨b', hb', hle'⟩ := hmin (fun i => y[i]) (by simpa [hyo] using hy)
  rw [hyo, hb] at hb'
  simp only [Except.ok.injEq, Option.some.injEq] at hb'
  rw [hb']; exact hle'

/-! ### Examples -/

/-- Every parameter is equally probable between 0 and 10. -/
noncomputable def probEnv (ext : Ext) (zs : List Layer → ℝ → ℝ → Bool) : Env :=
  { exEnv ext zs [1, 2] with logp := fun _ x => open Classical in if 0 ≤ x ∧ x ≤ 10 then some (-Real.log 10) else none }

/-- Two points, with or without `lnsigma`. -/
def probObj (ln : Option PId) : Objective := { barObj false 2 with lnsigma := ln }

theorem prob_varying (ext : Ext) (zs : List Layer → ℝ → ℝ → Bool) (off : ℝ) (ds : List ℝ) :
    varying (probEnv ext zs) (probObj none) (barSt off ds) = [7] ∧
    varying (probEnv ext zs) (probObj (some 8)) (barSt off ds) = [7] := by
  constructor
  · exact (ex_varying ext zs off 0).1
  · change unique (List.filter (fun p => p == 7) [8, 7, 1, 2]) = [7]
    decide

theorem prob_flat (ext : Ext) (zs : List Layer → ℝ → ℝ → Bool) (ln : Option PId) (off : ℝ) (ds : List ℝ) :
    Flat (probEnv ext zs) (probObj ln) (barSt off ds) (fun _ => 0) (fun _ => 10) := by
  intro q _
  exact ⟨-Real.log 10, fun x => ⟨fun h => by simp only [probEnv]; rw [if_pos h],
    fun h => by simp only [probEnv]; rw [if_neg h]⟩⟩

theorem prob_set (ext : Ext) (zs : List Layer → ℝ → ℝ → Bool) {ln : Option PId} {off : ℝ} {ds : List ℝ}
    (h : varying (probEnv ext zs) (probObj ln) (barSt off ds) = [7]) (v : ℝ) :
    setp (probEnv ext zs) (probObj ln) (some [v]) (barSt off ds) = (.ok (), barSt v ds) := by
  rw [setp, if_pos (by rw [h]; rfl), h]
  simp [assign, barSt]

theorem prob_values (ext : Ext) (zs : List Layer → ℝ → ℝ → Bool) (ln : Option PId) (v : ℝ) :
    Values (probEnv ext zs) (probObj ln) (barSt v [184, 186]) [(600, 0, 45, 184), (600, 0, 45, 186)]
      (cellsOf [(45, 180 + v), (45, 180 + v)]) :=
  bar_values (probEnv ext zs) rfl (probObj ln) v [184, 186] [184, 186]

theorem prob_dist {a v : ℝ} (h0 : 0 ≤ v ∧ v ≤ 10) (h1 : 180 ≤ a ∧ a ≤ 190) :
    circularDistance (180 + v) a 360 ^ 2 = (v - (a - 180)) ^ 2 := by
  unfold circularDistance
  have : |180 + v - a| ≤ 10 := abs_le.mpr ⟨by linarith, by linarith⟩
  rw [min_eq_left (by linarith), sq_abs]
  ring

theorem prob_chisqr (ext : Ext) (zs : List Layer → ℝ → ℝ → Bool) {ln : Option PId} {off : ℝ}
    (h : varying (probEnv ext zs) (probObj ln) (barSt off [184, 186]) = [7]) {v : ℝ} (hv : 0 ≤ v ∧ v ≤ 10) :
    (chisqr (probEnv ext zs) (probObj ln) (some [v]) (barSt off [184, 186])).1 =
      .ok (some ((v - 4) ^ 2 + (v - 6) ^ 2)) := by
  rw [chisqr_set (by rw [h]; rfl), prob_set ext zs h]
  rw [chisqr_iff (o := probObj ln) (bar_presents v false 184 186).2]
  refine ⟨_, prob_values ext zs ln v, ?_⟩
  have e1 := prob_dist (a := 184) hv (by norm_num)
  have e2 := prob_dist (a := 186) hv (by norm_num)
  simp only [List.zip_cons_cons, List.zip_nil_right, List.map_cons, List.map_nil, List.sum_cons, List.sum_nil, sqTerm, e1, e2]
  ring

theorem prob_best (ext : Ext) (zs : List Layer → ℝ → ℝ → Bool) {ln : Option PId} {off : ℝ}
    (h : varying (probEnv ext zs) (probObj ln) (barSt off [184, 186]) = [7]) :
    BestFit (probEnv ext zs) (probObj ln) (barSt off [184, 186]) (fun _ => 0) (fun _ => 10) [5] := by
  refine ⟨?_, _, prob_chisqr ext zs h (by norm_num), ?_⟩
  · unfold Within
    rw [h]
    exact .cons (by norm_num) .nil
  · intro y b hy hb
    unfold Within at hy
    rw [h] at hy
    cases hy with
    | cons h1 h2 =>
      cases h2
      rw [prob_chisqr ext zs h h1] at hb
      simp only [Except.ok.injEq, Option.some.injEq] at hb
      rw [← hb]
      nlinarith [sq_nonneg (‹ℝ› - 5)]

/-- Non-vacuity of `C170_difference_partial` and `C170_best_partial`: the offset 5 is the most probable one. -/
example (ext : Ext) (zs : List Layer → ℝ → ℝ → Bool) :
    MostProbable (probEnv ext zs) (probObj none) (barSt 3 [184, 186]) [5] :=
  (C170_best_partial (o := probObj none) (bar_presents 3 false 184 186).2 rfl (prob_flat ext zs none 3 _)
    (by rw [(prob_varying ext zs 3 _).1]; rfl)).mpr (prob_best ext zs (prob_varying ext zs 3 _).1)

/-- C170 fails with `lnsigma`: the offset 5 fits best, but is not the most probable one. -/
theorem C170_fails (ext : Ext) (zs : List Layer → ℝ → ℝ → Bool) :
    Flat (probEnv ext zs) (probObj (some 8)) (barSt 3 [184, 186]) (fun _ => 0) (fun _ => 10) ∧
    BestFit (probEnv ext zs) (probObj (some 8)) (barSt 3 [184, 186]) (fun _ => 0) (fun _ => 10) [5] ∧
    (∃ u, (logpost (probEnv ext zs) (probObj (some 8)) (some [5]) (barSt 3 [184, 186])).1 = .ok (some u)) ∧
    ¬ MostProbable (probEnv ext zs) (probObj (some 8)) (barSt 3 [184, 186]) [5] := by
  have hv := (prob_varying ext zs 3 [184, 186]).2
  have key : ∀ v : ℝ, 0 ≤ v ∧ v ≤ 10 →
      (logpost (probEnv ext zs) (probObj (some 8)) (some [v]) (barSt 3 [184, 186])).1 =
        .ok (some (-Real.log 10 - ((v - 4) ^ 2 + (v - 6) ^ 2) / (2 * (1 + (180 + v) ^ 2)))) := by
    intro v hvb
    have hset := prob_set ext zs hv v
    rw [C87_inside (ys := [-Real.log 10]) hset (by
      rw [show varying (probEnv ext zs) (probObj (some 8)) (barSt v [184, 186]) = [7] from (prob_varying ext zs v _).2]
      refine .cons ?_ .nil
      simp only [probEnv, barSt, Function.update_self]
      rw [if_pos hvb]), C83_vector hset,
      C83_formula (o := probObj (some 8)) (bar_presents v false 184 186).2 (prob_values ext zs (some 8) v)]
    have e1 := prob_dist (a := 184) hvb (by norm_num)
    have e2 := prob_dist (a := 186) hvb (by norm_num)
    have e8 : (barSt v [184, 186]).vals 8 = 0 := by
      simp [barSt, Function.update_of_ne]
    simp only [Except.map, loglSpec, contrib, probObj, barObj, Objective.weighted, Option.map_some, e8, Option.elim_some,
      List.zip_cons_cons, List.zip_nil_right, List.map_cons, List.map_nil, List.sum_cons, List.sum_nil, e1, e2,
      Bool.false_and, Bool.false_eq_true, if_false, Except.ok.injEq, Option.some.injEq, mul_zero, Real.exp_zero]
    have : (1 : ℝ) + (180 + v) ^ 2 ≠ 0 := by positivity
    field_simp
    ring
  refine ⟨prob_flat ext zs _ 3 _, prob_best ext zs hv, ⟨_, key 5 (by norm_num)⟩, ?_⟩
  rintro ⟨u, hu, hmax⟩
  rw [key 5 (by norm_num)] at hu
  have := hmax [5.005] _ (by rw [hv]; rfl) (key 5.005 (by norm_num))
  simp only [Except.ok.injEq, Option.some.injEq] at hu
  rw [← hu] at this
  norm_num at this
  have h : (40001 : ℝ) / 1369114001 < 1 / 34226 := by norm_num
  linarith

theorem prob_within (ext : Ext) (zs : List Layer → ℝ → ℝ → Bool) {p : Fin 1 → ℝ} :
    Within (probEnv ext zs) (probObj none) (barSt 3 [184, 186]) (fun _ => 0) (fun _ => 10) (List.ofFn p) ↔
      0 ≤ p 0 ∧ p 0 ≤ 10 := by
  unfold Within
  rw [(prob_varying ext zs 3 [184, 186]).1, show List.ofFn p = [p 0] by simp]
  refine ⟨fun hp => ?_, fun hp => .cons hp .nil⟩
  cases hp with
  | cons h1 h2 => exact h1

/-- The offsets between 0 and 10 as a search. -/
theorem prob_searches (ext : Ext) (zs : List Layer → ℝ → ℝ → Bool) :
    Searches (probEnv ext zs) (probObj none)
      (fun p : Fin 1 → ℝ => (setp (probEnv ext zs) (probObj none) (some (List.ofFn p)) (barSt 3 [184, 186])).2)
      [(600, 0, 45, 184), (600, 0, 45, 186)] ⟨⟨7, false⟩, 0⟩ twoMedia [dry (.const 658 1 0), dry (.const 658 3 0)]
      {p | Within (probEnv ext zs) (probObj none) (barSt 3 [184, 186]) (fun _ => 0) (fun _ => 10) (List.ofFn p)}
      (fun p => (p 0 - 4) ^ 2 + (p 0 - 6) ^ 2) := by
  have hv := (prob_varying ext zs 3 [184, 186]).1
  have hset : ∀ p : Fin 1 → ℝ,
      (setp (probEnv ext zs) (probObj none) (some (List.ofFn p)) (barSt 3 [184, 186])).2 = barSt (p 0) [184, 186] := by
    intro p
    rw [show List.ofFn p = [p 0] by simp, prob_set ext zs hv]
  have hin : ∀ p : Fin 1 → ℝ, Within (probEnv ext zs) (probObj none) (barSt 3 [184, 186]) (fun _ => 0) (fun _ => 10)
      (List.ofFn p) → 0 ≤ p 0 ∧ p 0 ≤ 10 := fun p => (prob_within ext zs).mp
  refine ⟨fun p0 _ => ?_, fun p0 hp0 => ?_, fun p hp => ?_⟩
  · simp only [hset]
    refine ⟨rfl, fun _ => rfl, fun _ => rfl, twoMedia_plain, ?_, fun p => (bar_presents (p 0) false 184 186).2, ?_⟩
    · simp only [barSt, Function.update_self]
      exact (continuous_apply (0 : Fin 1)).continuousAt
    · have hang : |rad 0| < Real.pi / 2 := by simp [rad, Real.pi_pos]
      have hst : ∃ (n₀ : (Fin 1 → ℝ) → ℝ) (films : List (((Fin 1 → ℝ) → ℂ) × ((Fin 1 → ℝ) → ℝ))) (nb : (Fin 1 → ℝ) → ℂ),
          Varies n₀ (fun _ => rad 0) (fun _ => 600) films nb p0 ∧
          ∀ᶠ x in 𝓝 p0, Sees (probEnv ext zs).ext.zs (barSt (x 0) [184, 186]).vals twoMedia
            [dry (.const 658 1 0), dry (.const 658 3 0)] 600 (stackAt n₀ films nb x) := by
        refine ⟨fun _ => 1, [], fun _ => ⟨3, 0⟩, ⟨continuousAt_const, continuousAt_const, continuousAt_const, by simp,
          continuousAt_const, ?_, by simp, ?_⟩, ?_⟩
        · exact Eventually.of_forall fun k => physical_bare ⟨by norm_num, le_rfl⟩ one_pos hang (by norm_num)
        · exact .inl (.inr (.inr (.inl (Eventually.of_forall fun _ => ⟨rfl, rfl⟩))))
        · refine Eventually.of_forall fun x => ?_
          exact ⟨_, [], _, ⟨1, 0⟩, ⟨3, 0⟩, rfl, .slab (const_material _ _ one_pos), rfl,
            .slab (const_material _ _ (by norm_num)), rfl, .nil⟩
      intro pt hpt
      rcases List.mem_cons.mp hpt with rfl | hpt
      · exact hst
      · rw [List.mem_singleton] at hpt
        subst hpt
        exact hst
  · have h1 : ∀ᶠ p : Fin 1 → ℝ in 𝓝 p0, -1 < p 0 ∧ p 0 < 11 := by
      have hc : Tendsto (fun p : Fin 1 → ℝ => p 0) (𝓝 p0) (𝓝 (p0 0)) := (continuous_apply (0 : Fin 1)).tendsto p0
      have := hin p0 hp0
      exact hc.eventually (Ioo_mem_nhds (by linarith) (by linarith))
    filter_upwards [h1] with p hp pt hpt
    rw [hset]
    have h7 : (barSt (p 0) [184, 186]).vals 7 = p 0 := by simp [barSt]
    have hpt' : pt.2.2.2 = 184 ∨ pt.2.2.2 = 186 := by
      rcases List.mem_cons.mp hpt with rfl | hpt
      · exact .inl rfl
      · rw [List.mem_singleton] at hpt
        subst hpt
        exact .inr rfl
    simp only [h7]
    rcases hpt' with h | h <;> rw [h] <;> constructor <;> linarith
  · have h := prob_chisqr ext zs hv (hin p hp)
    rw [chisqr_set (by rw [hv]; rfl)] at h
    rw [show List.ofFn p = [p 0] by simp]
    exact h

/-- Non-vacuity of `C170_exists_partial`: there is a most probable offset. -/
example (ext : Ext) (zs : List Layer → ℝ → ℝ → Bool) :
    ∃ x, MostProbable (probEnv ext zs) (probObj none) (barSt 3 [184, 186]) x :=
  C170_exists_partial (o := probObj none) (bar_presents 3 false 184 186).2 rfl (prob_flat ext zs none 3 _)
    (fun _ _ => by norm_num) (n := 1) (by rw [(prob_varying ext zs 3 _).1]; rfl) (prob_searches ext zs)

end Verif.Obj
