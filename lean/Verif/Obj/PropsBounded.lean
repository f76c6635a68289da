import Verif.Obj.PropsLik

/-! # The misfit is bounded for moderate offsets (C146) -/

namespace Verif.Obj
open Verif.Struct Verif.TMM Verif.RModel Verif.Data

variable {env : Env} {o : Objective}

/-- The psi of the model is an angle between 0 and 90. -/
theorem psi_range {v : Vals} {m : RM} {ext : Ext} {zs : List Layer → ℝ → ℝ → Bool} {s : Structure}
    {pt : ℝ × ℝ} {c : Cell} (h : PointVal ext zs .float v m s pt c) {d : ℝ} (hd : c.1 = some d) :
    0 ≤ d ∧ d ≤ 90 := by
  obtain ⟨rows, y, _, h2, rfl⟩ := h
  change y.1 = some d at hd
  unfold deltaPsiTMM at h2
  split at h2
  · simp at h2
  · simp only [List.map_cons, List.map_nil] at h2
    cases hq : cohTmm (toLayers (zeroFrontK _)) [(((pt.2 * (Real.pi / 180) : ℝ) : ℂ), pt.1)] with
    | error e => rw [hq] at h2; simp [Except.map] at h2
    | ok amps =>
      rw [hq] at h2
      simp only [Except.map, Except.ok.injEq] at h2
      cases amps with
      | nil => simp at h2
      | cons am l =>
        simp only [List.zipWith_cons_cons, List.zipWith_nil_left, List.cons.injEq, and_true] at h2
        rw [← h2] at hd
        unfold psiDelta at hd
        have hpi := Real.pi_pos
        split at hd
        · simp only [Option.map_eq_some_iff] at hd
          obtain ⟨x, hx, rfl⟩ := hd
          have hx' : 0 ≤ x ∧ x ≤ Real.pi / 2 := by
            unfold psiRad at hx
            split_ifs at hx
            · cases hx; exact ⟨by positivity, le_rfl⟩
            · cases hx
              exact ⟨Real.arctan_nonneg.mpr (norm_nonneg _), (Real.arctan_lt_pi_div_two _).le⟩
          refine ⟨mul_nonneg hx'.1 (by positivity), ?_⟩
          calc x * (180 / Real.pi) ≤ Real.pi / 2 * (180 / Real.pi) := by gcongr; exact hx'.2
            _ = 90 := by field_simp; norm_num
        · simp at hd

theorem circularDistance_bound {a b : ℝ} (h : |a - b| ≤ 540) : |circularDistance a b 360| ≤ 180 := by
  unfold circularDistance
  rw [abs_le]
  rcases le_total (|a - b|) 180 with h1 | h1
  · exact ⟨le_min (by linarith [abs_nonneg (a - b)]) (by linarith), (min_le_left _ _).trans h1⟩
  · exact ⟨le_min (by linarith [abs_nonneg (a - b)]) (by linarith), (min_le_right _ _).trans (by linarith)⟩

/-- Spec: data as instruments report them, psi between 0 and 90 and delta between 0 and 360. -/
def Sane (pts : List Pt) : Prop :=
  ∀ p ∈ pts, (0 ≤ p.2.2.1 ∧ p.2.2.1 ≤ 90) ∧ 0 ≤ p.2.2.2 ∧ p.2.2.2 ≤ 360

theorem cell_bounds {st : St} {pts : List Pt} (hdt : env.dt = .float)
    (hoff : |st.vals (st.models o.model).rm.off| ≤ 180) (hs : Sane pts) {cells : List Cell}
    (hv : Values env o st pts cells) :
    ∀ x ∈ pts.zip cells, (∀ ψ, x.2.1 = some ψ → (0 ≤ ψ ∧ ψ ≤ 90) ∧ |ψ - x.1.2.2.1| ≤ 90) ∧
      ∀ Δ, x.2.2 = some Δ → |Δ| ≤ 540 ∧ |circularDistance Δ x.1.2.2.2 360| ≤ 180 := by
  rw [values_iff] at hv
  unfold PointValues at hv
  rw [hdt] at hv
  intro x hx
  have hpv := (List.forall₂_iff_zip.mp hv).2 hx
  have hm := hs x.1 (List.of_mem_zip hx).1
  rw [abs_le] at hoff
  constructor
  · intro ψ hψ
    have := psi_range hpv hψ
    exact ⟨this, abs_le.mpr ⟨by linarith [hm.1.1, hm.1.2], by linarith [hm.1.1, hm.1.2]⟩⟩
  · intro Δ hΔ
    have := delta_range hpv hΔ
    have h1 : -180 ≤ Δ ∧ Δ ≤ 540 := ⟨by linarith, by linarith⟩
    refine ⟨abs_le.mpr ⟨by linarith, h1.2⟩, circularDistance_bound (abs_le.mpr ⟨?_, ?_⟩)⟩ <;>
      linarith [hm.2.1, hm.2.2]

/-- C146: for data with psi between 0 and 90 and delta between 0 and 360 and an offset of at most half a
turn, whatever the structure, no residual of psi exceeds 90 and none of delta exceeds 180; the residuals
are those of psi, one for each unmasked point, followed by those of delta.  Missing: larger offsets, for
which there is no bound (`C146_fails`). -/
theorem C146_residuals_partial {st : St} {pts : List Pt} (hp : Presents st.heap o.data pts)
    (hdt : env.dt = .float) (hoff : |st.vals (st.models o.model).rm.off| ≤ 180) (hs : Sane pts)
    {r : List (Option ℝ)} (h : (residuals env o none st).1 = .ok r) :
    ∃ rψ rΔ, r = rψ ++ rΔ ∧ rψ.length = pts.length ∧ rΔ.length = pts.length ∧
      (∀ x, some x ∈ rψ → |x| ≤ 90) ∧ ∀ x, some x ∈ rΔ → |x| ≤ 180 := by
  obtain ⟨cells, hv, rfl⟩ := (C81_residuals hp).mp h
  have hb := cell_bounds hdt hoff hs hv
  have hl := hv.length_eq
  refine ⟨_, _, rfl, by simp [hl], by simp [hl], ?_, ?_⟩
  · intro x hx
    rw [List.mem_map] at hx
    obtain ⟨y, hy, he⟩ := hx
    rw [Option.map_eq_some_iff] at he
    obtain ⟨ψ, h1, rfl⟩ := he
    exact ((hb y hy).1 ψ h1).2
  · intro x hx
    rw [List.mem_map] at hx
    obtain ⟨y, hy, he⟩ := hx
    rw [Option.map_eq_some_iff] at he
    obtain ⟨Δ, h1, rfl⟩ := he
    exact ((hb y hy).2 Δ h1).2

theorem sum_sq_le {l : List ℝ} {B : ℝ} (h : ∀ x ∈ l, |x| ≤ B) :
    (l.map fun x => x ^ 2).sum ≤ l.length * B ^ 2 := by
  induction l with
  | nil => simp
  | cons a l ih =>
    simp only [List.map_cons, List.sum_cons, List.length_cons]
    have h1 := ih fun x hx => h x (List.mem_cons_of_mem _ hx)
    have h2 : a ^ 2 ≤ B ^ 2 := sq_le_sq' (abs_le.mp (h a (by simp))).1 (abs_le.mp (h a (by simp))).2
    push_cast
    linarith

/-- C146: then chi-squared, if finite, is at most (90² + 180²) times the number of unmasked points.
Missing: larger offsets, as above. -/
theorem C146_chisqr_partial {st : St} {pts : List Pt} (hp : Presents st.heap o.data pts)
    (hdt : env.dt = .float) (hoff : |st.vals (st.models o.model).rm.off| ≤ 180) (hs : Sane pts)
    {x : ℝ} (h : (chisqr env o none st).1 = .ok (some x)) :
    0 ≤ x ∧ x ≤ pts.length * (90 ^ 2 + 180 ^ 2) := by
  refine ⟨C82_nonneg h, ?_⟩
  rw [chisqr_eq] at h
  cases hr : (residuals env o none st).1 with
  | error e => rw [hr] at h; simp [Except.map] at h
  | ok r =>
    rw [hr] at h
    simp only [Except.map, Except.ok.injEq, Option.map_eq_some_iff] at h
    obtain ⟨l, h1, rfl⟩ := h
    rw [finite_eq] at h1
    obtain ⟨a, b, hab, hla, hlb, ha, hb⟩ := C146_residuals_partial hp hdt hoff hs hr
    rw [h1] at hab
    obtain ⟨a', b', rfl, rfl, rfl⟩ := List.map_eq_append_iff.mp hab
    have e1 := sum_sq_le (l := a') (B := 90) fun x hx => ha x (List.mem_map_of_mem hx)
    have e2 := sum_sq_le (l := b') (B := 180) fun x hx => hb x (List.mem_map_of_mem hx)
    rw [List.length_map] at hla hlb
    rw [hla] at e1
    rw [hlb] at e2
    simp only [sq] at e1 e2
    rw [List.map_append, List.sum_append]
    linarith

theorem logl_values_exist {st : St} {pts : List Pt} (hp : Presents st.heap o.data pts) {x : ℝ}
    (h : (logl env o none st).1 = .ok x) : ∃ cells, Values env o st pts cells := by
  unfold logl at h
  simp only [setp] at h
  rw [dataOf_presents hp] at h
  simp only at h
  rcases hq : callModel env o (pts.map (·.1)) (pts.map (·.2.1)) st with ⟨q, s'⟩
  cases q with
  | error e => rw [hq] at h; simp at h
  | ok cells => exact ⟨cells, callModel_ok.mp (by rw [hq])⟩

theorem cells_all_finite {cells : List Cell} (h : ∀ c ∈ cells, c.1 ≠ none ∧ c.2 ≠ none) :
    ∃ ms, cells = cellsOf ms := by
  induction cells with
  | nil => exact ⟨[], rfl⟩
  | cons c l ih =>
    obtain ⟨ms, rfl⟩ := ih fun c hc => h c (List.mem_cons_of_mem _ hc)
    obtain ⟨h1, h2⟩ := h c (by simp)
    obtain ⟨a, ha⟩ := Option.ne_none_iff_exists'.mp h1
    obtain ⟨b, hb⟩ := Option.ne_none_iff_exists'.mp h2
    exact ⟨(a, b) :: ms, by simp [cellsOf, ← ha, ← hb]⟩

theorem contrib_bound (ln : Option ℝ) {m r B : ℝ} (h : |r| ≤ B) :
    0 ≤ contrib false ln m r ∧ contrib false ln m r ≤ B ^ 2 := by
  have hr : r ^ 2 ≤ B ^ 2 := sq_le_sq' (abs_le.mp h).1 (abs_le.mp h).2
  have h1 : (1 : ℝ) ≤ 1 + ln.elim 0 fun s => Real.exp (2 * s) * m ^ 2 := by
    cases ln with
    | none => simp
    | some s => simp only [Option.elim_some]; have := Real.exp_pos (2 * s); nlinarith [sq_nonneg m]
  simp only [contrib, Bool.false_eq_true, if_false, add_zero]
  refine ⟨by positivity, (div_le_self (sq_nonneg r) h1).trans hr⟩

theorem contrib_sum_le {α : Type} {l : List α} (ln : Option ℝ) (f g : α → ℝ) {B : ℝ}
    (h : ∀ x ∈ l, |g x| ≤ B) : 0 ≤ (l.map fun x => contrib false ln (f x) (g x)).sum ∧
      (l.map fun x => contrib false ln (f x) (g x)).sum ≤ l.length * B ^ 2 := by
  induction l with
  | nil => simp
  | cons a l ih =>
    simp only [List.map_cons, List.sum_cons, List.length_cons]
    have h1 := ih fun x hx => h x (List.mem_cons_of_mem _ hx)
    have h2 := contrib_bound ln (m := f a) (h a (by simp))
    push_cast
    constructor
    · linarith [h1.1, h2.1]
    · linarith [h1.2, h2.2]

/-- C146: and the log-likelihood of an objective without weights is never below
-(90² + 180²)/2 times the number of unmasked points, whether or not it has `lnsigma`, and never positive.
Missing: larger offsets, as above. -/
theorem C146_logl_partial {st : St} {pts : List Pt} (hp : Presents st.heap o.data pts)
    (hdt : env.dt = .float) (hoff : |st.vals (st.models o.model).rm.off| ≤ 180) (hs : Sane pts)
    (hw : o.weighted = false) {x : ℝ} (h : (logl env o none st).1 = .ok x) :
    -(pts.length * (90 ^ 2 + 180 ^ 2)) / 2 ≤ x ∧ x ≤ 0 := by
  obtain ⟨cells, hv⟩ := logl_values_exist hp h
  obtain ⟨ms, rfl⟩ : ∃ ms, cells = cellsOf ms := by
    refine cells_all_finite ?_
    by_contra hc
    rw [C83_not_finite hp hv (by push Not at hc; obtain ⟨c, h1, h2⟩ := hc; exact ⟨c, h1, by tauto⟩)] at h
    cases h
  have hl : pts.length = ms.length := by simpa [cellsOf] using hv.length_eq
  have hb := cell_bounds hdt hoff hs hv
  rw [C83_formula hp hv, hw] at h
  simp only [Except.ok.injEq, loglSpec] at h
  have hb' : ∀ y ∈ pts.zip ms, |y.2.1 - y.1.2.2.1| ≤ 90 ∧ |circularDistance y.2.2 y.1.2.2.2 360| ≤ 180 := by
    intro y hy
    have := hb (y.1, (some y.2.1, some y.2.2)) (by
      unfold cellsOf
      rw [List.zip_map_right, List.mem_map]
      exact ⟨y, hy, rfl⟩)
    exact ⟨(this.1 _ rfl).2, (this.2 _ rfl).2⟩
  have e1 := contrib_sum_le (l := pts.zip ms) (o.lnsigma.map st.vals) (fun y => y.2.1)
    (fun y => y.2.1 - y.1.2.2.1) (B := 90) fun y hy => (hb' y hy).1
  have e2 := contrib_sum_le (l := pts.zip ms) (o.lnsigma.map st.vals) (fun y => y.2.2)
    (fun y => circularDistance y.2.2 y.1.2.2.2 360) (B := 180) fun y hy => (hb' y hy).2
  have hz : (pts.zip ms).length = pts.length := by simp [hl]
  rw [hz] at e1 e2
  rw [← h]
  constructor
  · linarith [e1.2, e2.2]
  · linarith [e1.1, e2.1]

/-- Non-vacuity of C146: psi 45 and delta 200 against the model value 45, 180, at an offset of -170 degrees. -/
example (env : Env) (hdt : env.dt = .float) : Sane [(600, 0, 45, 200)] ∧
    Presents (exSt (-170) 200).heap exObj.data [(600, 0, 45, 200)] ∧
    |(exSt (-170) 200).vals ((exSt (-170) 200).models exObj.model).rm.off| ≤ 180 ∧
    (chisqr env exObj none (exSt (-170) 200)).1 = .ok (some (170 ^ 2)) := by
  refine ⟨?_, ex_presents _ _, ?_, ?_⟩
  · intro p hp
    rw [List.mem_singleton] at hp
    subst hp
    norm_num
  · change |Function.update (fun _ => (0 : ℝ)) 7 (-170) 7| ≤ 180
    rw [Function.update_self]; norm_num [abs_of_neg]
  · have := (C82_sum (r := [0, 170]) (by
      rw [ex_residuals env hdt]; norm_num [circularDistance, abs_of_neg] :
      (residuals env exObj none (exSt (-170) 200)).1 = .ok _)).1
    rw [this]; norm_num

/-- C146 fails beyond: data that the model reproduces exactly are at chi-squared zero without offset, and
with an offset of n turns, which makes no difference to the angle, chi-squared is (360 (n - 1))², larger
than any bound. -/
theorem C146_fails (env : Env) (hdt : env.dt = .float) (B : ℝ) : ∃ n : ℕ,
    Sane [(600, 0, 45, 180)] ∧
    (chisqr env exObj none (exSt 0 180)).1 = .ok (some 0) ∧
    (chisqr env exObj none (exSt (360 * n) 180)).1 = .ok (some ((360 * (n - 1)) ^ 2)) ∧
    B < (360 * ((n : ℝ) - 1)) ^ 2 := by
  obtain ⟨n, hn⟩ := exists_nat_gt (|B| + 2)
  have hB := abs_nonneg B
  refine ⟨n, ?_, (C82_fails env hdt).1, ?_, ?_⟩
  · intro p hp
    rw [List.mem_singleton] at hp
    subst hp
    norm_num
  · have e : circularDistance (180 + 360 * (n : ℝ)) 180 360 = -(360 * (n - 1)) := by
      unfold circularDistance
      rw [show (180 : ℝ) + 360 * n - 180 = 360 * n by ring, abs_of_nonneg (by positivity),
        min_eq_right (by linarith)]
      ring
    have := (C82_sum (r := [0, -(360 * ((n : ℝ) - 1))]) (by
      rw [ex_residuals env hdt, e]; rfl :
      (residuals env exObj none (exSt (360 * n) 180)).1 = .ok _)).1
    rw [this]
    simp
  · have h1 : |B| + 1 < (n : ℝ) - 1 := by linarith
    nlinarith [le_abs_self B]

end Verif.Obj
