import Verif.Obj.PropsPerfect
import Verif.Disp.PropsIdentify
import Verif.TMM.PropsBare

/-! # C172: a substrate that fits its data perfectly is the only one -/

namespace Verif.Obj
open Verif.Struct Verif.TMM Verif.RModel Verif.Data Verif.Disp

/-- The parameter values after `objective.setp(x)`. -/
noncomputable def valsAt (env : Env) (o : Objective) (st : St) (x : List ℝ) : Vals :=
  assign (varying env o st) x st.vals

/-- The objective fits parameters of the material `sub` of a bare substrate to these points, all at oblique incidence;
the search is over the parameter vectors in `X`. -/
structure FitsSubstrate (env : Env) (o : Objective) (st : St) (cs : List Comp) (n₀ : ℝ → ℝ) (sub : ScatObj)
    (pts : List Pt) (X : Set (List ℝ)) : Prop where
  data : Presents st.heap o.data pts
  float : env.dt = .float
  off : (st.models o.model).rm.off ∉ varying env o st
  plain : Plain (st.structs (st.models o.model).str) cs
  length : ∀ x ∈ X, x.length = (varying env o st).length
  sees : ∀ x ∈ X, ∀ pt ∈ pts, ∃ nb, MaterialAt env.ext.zs pt.1 (sub (valsAt env o st x)) nb ∧
    Sees env.ext.zs (valsAt env o st x) (st.structs (st.models o.model).str) cs pt.1 ⟨(n₀ pt.1 : ℂ), [], nb⟩
  oblique : ∀ pt ∈ pts, 0 < pt.1 ∧ 0 < n₀ pt.1 ∧ |rad pt.2.1| < Real.pi / 2 ∧ pt.2.1 ≠ 0

/-- `objective.chisqr(x)` is 0. -/
def Perfect (env : Env) (o : Objective) (st : St) (x : List ℝ) : Prop :=
  (chisqr env o (some x) st).1 = .ok (some 0)

/-- The wavelengths of the points. -/
noncomputable def wavs (pts : List Pt) : Finset ℝ := open Classical in (pts.map (·.1)).toFinset

section
variable {env : Env} {o : Objective} {st : St} {cs : List Comp} {n₀ : ℝ → ℝ} {sub : ScatObj} {pts : List Pt}
  {X : Set (List ℝ)}

/-- If chi-squared is 0 then every point is reproduced, delta up to whole turns. -/
theorem perfect_cells {st : St} (hp : Presents st.heap o.data pts)
    (hc : (chisqr env o none st).1 = .ok (some 0)) : ∀ pt ∈ pts, ∃ k : ℤ,
      PointVal env.ext env.zs env.dt st.vals (st.models o.model).rm (st.structs (st.models o.model).str) (pt.1, pt.2.1)
        (some pt.2.2.1, some (pt.2.2.2 + 360 * k)) := by
  rw [chisqr_eq] at hc
  cases hr : (residuals env o none st).1 with
  | error e => rw [hr] at hc; simp [Except.map] at hc
  | ok r =>
    rw [hr] at hc
    simp only [Except.map, Except.ok.injEq, Option.map_eq_some_iff] at hc
    obtain ⟨l, h1, h2⟩ := hc
    rw [finite_eq] at h1
    have hz : ∀ x ∈ l, x = 0 := by
      intro x hx
      have h3 : x * x ∈ l.map fun x => x * x := List.mem_map_of_mem hx
      have h4 := List.single_le_sum (l := l.map fun x => x * x) (by
        simp only [List.mem_map]
        rintro _ ⟨y, _, rfl⟩
        exact mul_self_nonneg y) _ h3
      rw [h2] at h4
      exact mul_self_eq_zero.mp (le_antisymm h4 (mul_self_nonneg x))
    obtain ⟨cells, hv, he⟩ := (C81_residuals hp).mp hr
    have hz' : ∀ y ∈ r, y = some 0 := by
      rw [h1]
      simp only [List.mem_map]
      rintro _ ⟨x, hx, rfl⟩
      rw [hz x hx]
    have hv' := values_iff.mp hv
    intro pt hpt
    obtain ⟨i, hi, rfl⟩ := List.getElem_of_mem hpt
    have hi' : i < cells.length := by rw [← hv.length_eq]; exact hi
    have hmem : (pts[i], cells[i]) ∈ pts.zip cells := by
      have : i < (pts.zip cells).length := by simp [hi, hi']
      have e : (pts.zip cells)[i] = (pts[i], cells[i]) := List.getElem_zip
      rw [← e]
      exact List.getElem_mem this
    have hpv := (List.forall₂_iff_get.mp hv').2 i hi hi'
    have k1 := hz' _ (by rw [he]; exact List.mem_append_left _ (List.mem_map_of_mem hmem))
    have k2 := hz' _ (by rw [he]; exact List.mem_append_right _ (List.mem_map_of_mem hmem))
    simp only [Option.map_eq_some_iff] at k1 k2
    obtain ⟨ψ, e1, f1⟩ := k1
    obtain ⟨Δ, e2, f2⟩ := k2
    obtain ⟨k, rfl⟩ := circular_zero f2
    refine ⟨k, ?_⟩
    have hc : cells[i] = (some pts[i].2.2.1, some (pts[i].2.2.2 + 360 * k)) := by
      rw [Prod.ext_iff]
      exact ⟨by rw [e1]; congr 1; linarith, e2⟩
    exact hc ▸ hpv

theorem FitsSubstrate.chisqr_at (h : FitsSubstrate env o st cs n₀ sub pts X) {x : List ℝ} (hx : x ∈ X) :
    (chisqr env o (some x) st).1 = (chisqr env o none { st with vals := valsAt env o st x }).1 := by
  rw [chisqr_eq, chisqr_eq, residuals_some, setp, if_pos (h.length x hx)]
  rfl

theorem FitsSubstrate.point (h : FitsSubstrate env o st cs n₀ sub pts X) {x : List ℝ} (hx : x ∈ X)
    (hp : Perfect env o st x) {pt : Pt} (hpt : pt ∈ pts) : ∃ nb rows, ∃ k : ℤ,
      (sub (valsAt env o st x)).complex env.ext.zs (some pt.1) = some nb ∧
      RowsOf rows ⟨(n₀ pt.1 : ℂ), [], nb⟩ ∧ Physical ⟨(n₀ pt.1 : ℂ), [], nb⟩ (n₀ pt.1) (rad pt.2.1) pt.1 ∧
      (deltaPsiTMM env.zs [pt.2.1] rows pt.1 (st.vals (st.models o.model).rm.off) (st.models o.model).rm.flip).1 =
        .ok [(some pt.2.2.1, some (pt.2.2.2 + 360 * k))] ∧
      st.vals (st.models o.model).rm.off ≤ pt.2.2.2 + 360 * k ∧
      pt.2.2.2 + 360 * k ≤ st.vals (st.models o.model).rm.off + 360 := by
  obtain ⟨nb, hm, hs⟩ := h.sees x hx pt hpt
  obtain ⟨hw, hn, ha, -⟩ := h.oblique pt hpt
  obtain ⟨rows, h1, h2⟩ := C117_slabs h.plain hw.ne' hs
  unfold Perfect at hp
  rw [h.chisqr_at hx] at hp
  obtain ⟨k, hk⟩ := perfect_cells (st := { st with vals := valsAt env o st x }) h.data hp pt hpt
  have ho : valsAt env o st x (st.models o.model).rm.off = st.vals (st.models o.model).rm.off :=
    assign_not_mem _ _ _ h.off
  rw [h.float] at hk
  have hrange := delta_range hk rfl
  obtain ⟨r, y, g1, g2, g3⟩ := hk
  have e : rows = r := by
    have g := h1.symm.trans g1
    simpa using g
  subst e
  change (_, _) = y at g3
  subst g3
  change _ ≤ _ ∧ _ ≤ _ at hrange
  simp only [ho] at hrange g2
  obtain ⟨⟨own, hown⟩, hat, hpass⟩ := hm
  refine ⟨nb, rows, k, ?_, h2, ⟨rfl, hn, ha, hw, by simp, hpass, by simp, by simp⟩, g2, hrange⟩
  have : (sub (valsAt env o st x)).complex env.ext.zs (some pt.1) = (sub (valsAt env o st x)).at env.ext.zs pt.1 := by
    cases hc : sub (valsAt env o st x) with
    | other d f => rw [hc] at hown; simp [Scat.ownWav] at hown
    | _ => simp only [Scat.complex, Scat.ownWav, pick_ne hw.ne']
  rw [this, hat]

/-- C172: two perfect fits of a bare substrate have the same index at every measured wavelength. -/
theorem C172_index (h : FitsSubstrate env o st cs n₀ sub pts X) {x y : List ℝ} (hx : x ∈ X) (hy : y ∈ X)
    (px : Perfect env o st x) (py : Perfect env o st y) : ∀ pt ∈ pts, ∃ nb,
      (sub (valsAt env o st x)).complex env.ext.zs (some pt.1) = some nb ∧
      (sub (valsAt env o st y)).complex env.ext.zs (some pt.1) = some nb := by
  intro pt hpt
  obtain ⟨nb, rows, k, a1, a2, a3, a4, a5, a6⟩ := h.point hx px hpt
  obtain ⟨nb', rows', k', b1, b2, b3, b4, b5, b6⟩ := h.point hy py hpt
  obtain ⟨-, -, ha, h0⟩ := h.oblique pt hpt
  have hsin : Real.sin (rad pt.2.1) ≠ 0 := by
    have hr0 : rad pt.2.1 ≠ 0 := by
      unfold rad
      exact mul_ne_zero h0 (by positivity)
    obtain ⟨l, u⟩ := abs_lt.mp ha
    intro hc
    exact hr0 ((Real.sin_eq_zero_iff_of_lt_of_lt (by linarith [Real.pi_pos]) (by linarith [Real.pi_pos])).mp hc)
  have hkk : SameAngle (some (pt.2.2.2 + 360 * k)) (some (pt.2.2.2 + 360 * k')) := by
    have d1 : (k : ℝ) - k' ≤ 1 := by linarith
    have d2 : (k' : ℝ) - k ≤ 1 := by linarith
    have d1' : k - k' ≤ 1 := by exact_mod_cast d1
    have d2' : k' - k ≤ 1 := by exact_mod_cast d2
    rcases (by omega : k = k' ∨ k - k' = 1 ∨ k' - k = 1) with e | e | e
    · exact .inl (by rw [e])
    · refine .inr ⟨_, _, rfl, rfl, ?_⟩
      have : (k : ℝ) - k' = 1 := by exact_mod_cast e
      rw [show pt.2.2.2 + 360 * k - (pt.2.2.2 + 360 * k') = 360 * ((k : ℝ) - k') by ring, this]
      norm_num
    · refine .inr ⟨_, _, rfl, rfl, ?_⟩
      have : (k' : ℝ) - k = 1 := by exact_mod_cast e
      rw [show pt.2.2.2 + 360 * k - (pt.2.2.2 + 360 * k') = -(360 * ((k' : ℝ) - k)) by ring, this]
      norm_num
  have := C112_unique a2 b2 a3 b3 hsin a4 b4 ⟨rfl, hkk⟩
  exact ⟨nb, a1, this ▸ b1⟩

theorem FitsSubstrate.on_wavs (h : FitsSubstrate env o st cs n₀ sub pts X) {x y : List ℝ} (hx : x ∈ X) (hy : y ∈ X)
    (px : Perfect env o st x) (py : Perfect env o st y) : ∃ N : ℝ → ℂ, ∀ w ∈ wavs pts, 0 < w ∧
      (sub (valsAt env o st x)).complex env.ext.zs (some w) = some (N w) ∧
      (sub (valsAt env o st y)).complex env.ext.zs (some w) = some (N w) := by
  have : ∀ w ∈ wavs pts, ∃ nb, 0 < w ∧ (sub (valsAt env o st x)).complex env.ext.zs (some w) = some nb ∧
      (sub (valsAt env o st y)).complex env.ext.zs (some w) = some nb := by
    intro w hw
    classical
    rw [wavs, List.mem_toFinset, List.mem_map] at hw
    obtain ⟨pt, hpt, rfl⟩ := hw
    obtain ⟨nb, h1, h2⟩ := C172_index h hx hy px py pt hpt
    exact ⟨nb, (h.oblique pt hpt).1, h1, h2⟩
  choose! N hN using this
  exact ⟨N, hN⟩

/-- The fitted values are read back from the parameters. -/
theorem FitsSubstrate.read (h : FitsSubstrate env o st cs n₀ sub pts X) {x : List ℝ} (hx : x ∈ X) :
    (varying env o st).map (valsAt env o st x) = x :=
  assign_read (Consistent.of_nodup (varying_nodup env o st) _) (h.length x hx) _

/-- C172: with points at three wavelengths, at most one Cauchy law fits perfectly. -/
theorem C172_cauchy {wl : ℝ} {a b c : PId}
    (h : FitsSubstrate env o st cs n₀ (fun v => .cauchy wl (v a) (v b) (v c)) pts X)
    (hv : ∀ p ∈ varying env o st, p = a ∨ p = b ∨ p = c) (hw : 3 ≤ (wavs pts).card) {x y : List ℝ} (hx : x ∈ X)
    (hy : y ∈ X) (px : Perfect env o st x) (py : Perfect env o st y) : x = y := by
  obtain ⟨N, hN⟩ := h.on_wavs hx hy px py
  obtain ⟨e1, e2, e3⟩ := C171_cauchy env.ext.zs env.ext.zs hw (fun w hw => (hN w hw).1)
    (fun w hw => (hN w hw).2.1.trans (hN w hw).2.2.symm)
  rw [← h.read hx, ← h.read hy]
  refine List.map_congr_left fun p hp => ?_
  rcases hv p hp with rfl | rfl | rfl
  · exact e1
  · exact e2
  · exact e3

/-- C172: with points at four wavelengths, at most one Sellmeier law with a resonance fits perfectly. -/
theorem C172_sellmeier {wl : ℝ} {a b c d : PId}
    (h : FitsSubstrate env o st cs n₀ (fun v => .sellmeier wl (v a) (v b) (v c) (v d)) pts X)
    (hv : ∀ p ∈ varying env o st, p = a ∨ p = b ∨ p = c ∨ p = d) (hw : 4 ≤ (wavs pts).card)
    (hX : ∀ x ∈ X, valsAt env o st x a ≠ 0 ∧ 0 < valsAt env o st x b) {x y : List ℝ} (hx : x ∈ X)
    (hy : y ∈ X) (px : Perfect env o st x) (py : Perfect env o st y) : x = y := by
  obtain ⟨N, hN⟩ := h.on_wavs hx hy px py
  obtain ⟨e1, e2, e3, e4⟩ := C171_sellmeier (hX x hx).1 (hX x hx).2 (hX y hy).2 env.ext.zs env.ext.zs hw
    (fun w hw => (hN w hw).1) (fun w hw => (hN w hw).2.1) (fun w hw => (hN w hw).2.2)
  rw [← h.read hx, ← h.read hy]
  refine List.map_congr_left fun p hp => ?_
  rcases hv p hp with rfl | rfl | rfl | rfl
  · exact e1
  · exact e2
  · exact e3
  · exact e4

/-- C172 (partial): with points at more than `2 n` wavelengths, all perfect fits by `n` underdamped Lorentz oscillators
have the same `einf` and the same oscillators, up to their order.  Missing: overdamped oscillators, for which this is
false of the index itself (`C171_fails`). -/
theorem C172_lorentz_partial {wl : ℝ} {osc : List (PId × PId × PId)} {e : PId}
    (h : FitsSubstrate env o st cs n₀
      (fun v => .lorentz wl (osc.map fun k => (v k.1, v k.2.1, v k.2.2)) (v e)) pts X)
    (hw : 2 * osc.length < (wavs pts).card)
    (hX : ∀ x ∈ X, Underdamped (osc.map fun k =>
      (valsAt env o st x k.1, valsAt env o st x k.2.1, valsAt env o st x k.2.2)) ∧ Distinct (osc.map fun k =>
      (valsAt env o st x k.1, valsAt env o st x k.2.1, valsAt env o st x k.2.2))) {x y : List ℝ} (hx : x ∈ X)
    (hy : y ∈ X) (px : Perfect env o st x) (py : Perfect env o st y) :
    valsAt env o st x e = valsAt env o st y e ∧
    (osc.map fun k => (valsAt env o st x k.1, valsAt env o st x k.2.1, valsAt env o st x k.2.2)).Perm
      (osc.map fun k => (valsAt env o st y k.1, valsAt env o st y k.2.1, valsAt env o st y k.2.2)) := by
  obtain ⟨N, hN⟩ := h.on_wavs hx hy px py
  obtain ⟨e1, -, e3⟩ := C171_lorentz_partial (hX x hx).1 (hX y hy).1 env.ext.zs env.ext.zs
    (by simp only [List.length_map]; omega) (fun w hw => (hN w hw).1) (fun w hw => (hN w hw).2.1)
    (fun w hw => (hN w hw).2.2)
  exact ⟨e1, e3 (hX x hx).2 (hX y hy).2⟩

/-- C172: with points at more than `8 n` wavelengths at which the substrate absorbs, all perfect fits by `n`
Tauc-Lorentz oscillators have the same gap, the same `einf` and the same oscillators, up to their order. -/
theorem C172_tauc {wl : ℝ} {osc : List (PId × PId × PId)} {g e : PId}
    (h : FitsSubstrate env o st cs n₀
      (fun v => .tauc wl (osc.map fun k => (v k.1, v k.2.1, v k.2.2)) (v g) (v e)) pts X)
    (hw : 8 * osc.length < (wavs pts).card)
    (hX : ∀ x ∈ X, (∀ k ∈ osc, 0 < valsAt env o st x k.2.1 ∧ 0 < valsAt env o st x k.2.2) ∧
      Distinct (osc.map fun k => (valsAt env o st x k.1, valsAt env o st x k.2.1, valsAt env o st x k.2.2)))
    (ha : ∀ x ∈ X, ∀ w ∈ wavs pts, ∀ N, (Scat.tauc wl (osc.map fun k =>
      (valsAt env o st x k.1, valsAt env o st x k.2.1, valsAt env o st x k.2.2)) (valsAt env o st x g)
      (valsAt env o st x e)).complex env.ext.zs (some w) = some N → N.re ≠ 0 ∧ N.im ≠ 0) {x y : List ℝ} (hx : x ∈ X)
    (hy : y ∈ X) (px : Perfect env o st x) (py : Perfect env o st y) :
    valsAt env o st x g = valsAt env o st y g ∧ valsAt env o st x e = valsAt env o st y e ∧
    (osc.map fun k => (valsAt env o st x k.1, valsAt env o st x k.2.1, valsAt env o st x k.2.2)).Perm
      (osc.map fun k => (valsAt env o st y k.1, valsAt env o st y k.2.1, valsAt env o st y k.2.2)) := by
  obtain ⟨N, hN⟩ := h.on_wavs hx hy px py
  have pos : ∀ x ∈ X, ∀ q ∈ osc.map fun k => (valsAt env o st x k.1, valsAt env o st x k.2.1, valsAt env o st x k.2.2),
      0 < q.2.1 ∧ 0 < q.2.2 := by
    intro x hx q hq
    obtain ⟨k, hk, rfl⟩ := List.mem_map.mp hq
    exact (hX x hx).1 k hk
  obtain ⟨e1, e2, e3⟩ := C171_tauc (pos x hx) (pos y hy) (hX x hx).2 (hX y hy).2 env.ext.zs env.ext.zs
    (by simp only [List.length_map]; omega) (fun w hw => (hN w hw).1) (fun w hw => (hN w hw).2.1)
    (fun w hw => (hN w hw).2.2) (fun w hw => ha x hx w hw _ (hN w hw).2.1)
  exact ⟨e2, e3, e1⟩

end

/-! ### A Cauchy substrate measured at three wavelengths -/

/-- Air on a substrate with Cauchy parameters 4, 5, 6. -/
noncomputable def subComps : List Comp :=
  [dry (.const 658 1 0), .slab 0 (fun v => .cauchy 658 (v 4) (v 5) (v 6)) 1 2 true]

/-- A world with a model of that structure and data at 400, 500 and 600 nm. -/
noncomputable def subSt (ψ ψ' ψ'' : ℝ) : St where
  vals := fun p => if p = 4 then 3 / 2 else if p = 5 then 1 / 100 else 0
  vary := fun p => p == 4 || p == 5 || p == 6
  models := fun _ => ⟨⟨7, false⟩, 0⟩
  structs := fun _ => { data := subComps.map .comp }
  heap := ⟨fun i => ⟨false, [[400, 500, 600], [filmAoi, filmAoi, filmAoi], [ψ, ψ', ψ''], [180, 180, 180]].getD i []⟩, 4⟩

/-- The objective of that model and those data. -/
noncomputable def subObj : Objective :=
  { model := 0, data := { wav := 0, aoi := 1, psi := 2, dlt := 3, mask := some [true, true, true], flipped := false },
    lnsigma := none, useWeights := false, logpExtra := none, transform := none }

theorem sub_varying (env : Env) (hpars : env.pars (subComps.map .comp) none = [1, 2, 4, 5, 6]) (ψ ψ' ψ'' : ℝ) :
    varying env subObj (subSt ψ ψ' ψ'') = [4, 5, 6] := by
  simp [varying, flatParams, subSt, subObj, hpars, unique]

theorem sub_sees (env : Env) {v : Vals} (hA : 1 < v 4) (hB : 0 ≤ v 5) (hC : 0 ≤ v 6) {w : ℝ} (hw : 0 < w) :
    ∃ n : ℝ, 1 < n ∧ MaterialAt env.ext.zs w (.cauchy 658 (v 4) (v 5) (v 6)) (n : ℂ) ∧
      Sees env.ext.zs v { data := subComps.map .comp } subComps w ⟨((1 : ℝ) : ℂ), [], (n : ℂ)⟩ := by
  have hn : (Scat.cauchy 658 (v 4) (v 5) (v 6)).at env.ext.zs w
      = some ((v 4 + v 5 / (w / 1000) ^ 2 + v 6 / (w / 1000) ^ 4 : ℝ) : ℂ) := by
    have h1 := C49_cauchy env.ext.zs 658 (v 4) (v 5) (v 6) hw
    simp only [Scat.complex, Scat.ownWav, pick_ne hw.ne'] at h1
    rw [h1]
    rfl
  have hpos : 1 < v 4 + v 5 / (w / 1000) ^ 2 + v 6 / (w / 1000) ^ 4 := by
    have h1 : 0 ≤ v 5 / (w / 1000) ^ 2 := by positivity
    have h2 : 0 ≤ v 6 / (w / 1000) ^ 4 := by positivity
    linarith
  have hm : MaterialAt env.ext.zs w (.cauchy 658 (v 4) (v 5) (v 6))
      ((v 4 + v 5 / (w / 1000) ^ 2 + v 6 / (w / 1000) ^ 4 : ℝ) : ℂ) :=
    ⟨⟨658, rfl⟩, hn, by rw [Complex.ofReal_re]; linarith, by rw [Complex.ofReal_im]⟩
  refine ⟨_, hpos, hm, _, [], _, ⟨1, 0⟩, _, rfl, .slab (const_material _ _ one_pos), rfl, .slab hm, rfl, .nil⟩

/-- Data that this substrate produces: the fit of `A`, `B`, `C` has exactly one perfect solution among all
`A > 1`, `B, C ≥ 0`. -/
example (env : Env) (hdt : env.dt = .float) (hpars : env.pars (subComps.map .comp) none = [1, 2, 4, 5, 6]) :
    ∃ ψ ψ' ψ'' : ℝ, ∀ A B C : ℝ, 1 < A → 0 ≤ B → 0 ≤ C →
      (Perfect env subObj (subSt ψ ψ' ψ'') [A, B, C] ↔ A = 3 / 2 ∧ B = 1 / 100 ∧ C = 0) := by
  have hpi := Real.pi_pos
  have hsin : Real.sin (rad filmAoi) = 3 / 5 := by
    rw [film_rad, Real.sin_arcsin] <;> norm_num
  have hlt := Real.arcsin_lt_pi_div_two.mpr (by norm_num : (3 / 5 : ℝ) < 1)
  have hgt := Real.arcsin_pos.mpr (by norm_num : (0 : ℝ) < 3 / 5)
  have haoi : 0 < filmAoi := by unfold filmAoi; positivity
  have habs : |rad filmAoi| < Real.pi / 2 := by rw [film_rad, abs_of_pos hgt]; exact hlt
  have htan : Real.tan (rad filmAoi) < 1 := by
    rw [film_rad, Real.tan_arcsin]
    rw [show (1 : ℝ) - (3 / 5) ^ 2 = (4 / 5) ^ 2 by norm_num, Real.sqrt_sq (by norm_num)]
    norm_num
  -- what the model computes
  have hval : ∀ w : ℝ, 0 < w → ∃ ψ : ℝ, PointVal env.ext env.zs .float (subSt 0 0 0).vals ⟨7, false⟩
      { data := subComps.map .comp } (w, filmAoi) (some ψ, some 180) := by
    intro w hw
    obtain ⟨n, hn, hm, hs⟩ := sub_sees env (v := (subSt 0 0 0).vals) (by norm_num [subSt])
      (by norm_num [subSt]) (by norm_num [subSt]) hw
    have hp : Plain { data := subComps.map .comp } subComps :=
      plain_of rfl (by simp [subComps]) (by simp [subComps, dry, Comp.isSlab, Comp.dflt]) le_rfl (.inl rfl)
    obtain ⟨rows, h1, h2⟩ := C117_slabs hp hw.ne' hs
    have ph : Physical ⟨((1 : ℝ) : ℂ), [], (n : ℂ)⟩ 1 (rad filmAoi) w :=
      ⟨rfl, one_pos, habs, hw, by simp, hm.2.2, by simp, by simp⟩
    obtain ⟨ψ, -, hψ⟩ := (C113_brewster h2 ph haoi.le (by rw [hsin]; linarith) hn.ne' env.zs 0 false).1
      (by rw [div_one]; linarith)
    refine ⟨ψ, rows, (some ψ, some 180), h1, ?_, rfl⟩
    have : (subSt 0 0 0).vals 7 = 0 := by simp [subSt]
    simp only [this]
    rw [hψ, add_zero]
  obtain ⟨ψ, g1⟩ := hval 400 (by norm_num)
  obtain ⟨ψ', g2⟩ := hval 500 (by norm_num)
  obtain ⟨ψ'', g3⟩ := hval 600 (by norm_num)
  refine ⟨ψ, ψ', ψ'', ?_⟩
  have hvar := sub_varying env hpars ψ ψ' ψ''
  have hpres : Presents (subSt ψ ψ' ψ'').heap subObj.data
      [(400, filmAoi, ψ, 180), (500, filmAoi, ψ', 180), (600, filmAoi, ψ'', 180)] := by
    constructor <;> simp [subSt, subObj, wavelength, aoi, psi, delta, len, access, pick]
  have hat : ∀ A B C : ℝ, valsAt env subObj (subSt ψ ψ' ψ'') [A, B, C]
      = fun p => if p = 4 then A else if p = 5 then B else if p = 6 then C else 0 := by
    intro A B C
    funext p
    have hv : (subSt ψ ψ' ψ'').vals = fun p => if p = 4 then 3 / 2 else if p = 5 then 1 / 100 else 0 := rfl
    rw [valsAt, hvar, hv]
    simp only [assign, Function.update_apply]
    by_cases h4 : p = 4
    · subst h4; simp
    · by_cases h5 : p = 5
      · subst h5; simp
      · simp [h4, h5]
  have hfit : FitsSubstrate env subObj (subSt ψ ψ' ψ'') subComps (fun _ => 1)
      (fun v => .cauchy 658 (v 4) (v 5) (v 6))
      [(400, filmAoi, ψ, 180), (500, filmAoi, ψ', 180), (600, filmAoi, ψ'', 180)]
      {x | ∃ A B C : ℝ, x = [A, B, C] ∧ 1 < A ∧ 0 ≤ B ∧ 0 ≤ C} := by
    refine ⟨hpres, hdt, by rw [hvar]; simp [subSt], plain_of rfl (by simp [subComps])
      (by simp [subComps, dry, Comp.isSlab, Comp.dflt]) le_rfl (.inl rfl), ?_, ?_, ?_⟩
    · rintro _ ⟨A, B, C, rfl, -⟩
      rw [hvar]; rfl
    · rintro _ ⟨A, B, C, rfl, hA, hB, hC⟩ pt hpt
      have hw : 0 < pt.1 := by
        simp only [List.mem_cons, List.not_mem_nil, or_false] at hpt
        rcases hpt with rfl | rfl | rfl <;> norm_num
      obtain ⟨n, -, h1, h2⟩ := sub_sees env (v := valsAt env subObj (subSt ψ ψ' ψ'') [A, B, C])
        (by rw [hat]; simpa using hA) (by rw [hat]; simpa using hB) (by rw [hat]; simpa using hC) hw
      exact ⟨n, h1, h2⟩
    · intro pt hpt
      simp only [List.mem_cons, List.not_mem_nil, or_false] at hpt
      rcases hpt with rfl | rfl | rfl <;> exact ⟨by norm_num, one_pos, habs, haoi.ne'⟩
  have htrue : Perfect env subObj (subSt ψ ψ' ψ'') [3 / 2, 1 / 100, 0] := by
    unfold Perfect
    rw [hfit.chisqr_at ⟨_, _, _, rfl, by norm_num, by norm_num, le_rfl⟩, chisqr_eq]
    have e : valsAt env subObj (subSt ψ ψ' ψ'') [3 / 2, 1 / 100, 0] = (subSt 0 0 0).vals := by
      rw [hat]
      funext p
      simp [subSt]
    rw [e]
    have hr := (C81_residuals (env := env) (o := subObj)
      (st := { subSt ψ ψ' ψ'' with vals := (subSt 0 0 0).vals }) hpres).mpr
      ⟨[(some ψ, some 180), (some ψ', some 180), (some ψ'', some 180)], values_iff.mpr (.cons (by rw [hdt]; exact g1)
        (.cons (by rw [hdt]; exact g2) (.cons (by rw [hdt]; exact g3) .nil))), rfl⟩
    rw [hr]
    simp [Except.map, circularDistance, finite]
  intro A B C hA hB hC
  constructor
  · intro hp
    have hcard : 3 ≤ (wavs [(400, filmAoi, ψ, 180), (500, filmAoi, ψ', 180), (600, filmAoi, ψ'', 180)]).card := by
      classical
      have : wavs [(400, filmAoi, ψ, 180), (500, filmAoi, ψ', 180), (600, filmAoi, ψ'', 180)] = {400, 500, 600} := by
        ext w; simp [wavs]
      rw [this, Finset.card_insert_of_notMem (by norm_num), Finset.card_insert_of_notMem (by norm_num)]
      simp
    have := C172_cauchy hfit (by rw [hvar]; simp) hcard ⟨A, B, C, rfl, hA, hB, hC⟩
      ⟨3 / 2, 1 / 100, 0, rfl, by norm_num, by norm_num, le_rfl⟩ hp htrue
    simpa using this
  · rintro ⟨rfl, rfl, rfl⟩
    exact htrue

end Verif.Obj
