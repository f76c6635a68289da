import Verif.Obj.PropsHist
import Verif.Obj.PropsSim
import Verif.RModel.PropsEndToEnd
import Verif.TMM.PropsThicknessMany

/-! # C166: the thicknesses that fit the data of one film perfectly -/

namespace Verif.Obj
open Verif.Struct Verif.TMM Verif.RModel Verif.Data

/-- The measurement at a point of the data, for a model with this offset and these indices (functions of the
wavelength). -/
noncomputable def shotOf (off : ℝ) (n₀ n : ℝ → ℝ) (nb : ℝ → ℂ) (pt : Pt) : Shot :=
  ⟨n₀ pt.1, n pt.1, nb pt.1, pt.2.1, pt.1, off, pt.2.2.1, pt.2.2.2⟩

/-- The objective fits the thickness (parameter `t`, in Angstrom) of a transparent film between two media to these
points, all at oblique incidence. -/
structure FitsFilm (env : Env) (o : Objective) (st : St) (t : PId) (cs : List Comp) (n₀ n : ℝ → ℝ) (nb : ℝ → ℂ)
    (pts : List Pt) : Prop where
  data : Presents st.heap o.data pts
  float : env.dt = .float
  one : varying env o st = [t]
  off_ne : (st.models o.model).rm.off ≠ t
  plain : Plain (st.structs (st.models o.model).str) cs
  sees : ∀ d, 0 ≤ d → ∀ pt ∈ pts, Sees env.ext.zs (Function.update st.vals t (10 * d))
    (st.structs (st.models o.model).str) cs pt.1 (oneFilm (n₀ pt.1) (n pt.1) (nb pt.1) d)
  sound : ∀ pt ∈ pts, (shotOf (st.vals (st.models o.model).rm.off) n₀ n nb pt).Sound

section
variable {env : Env} {o : Objective} {st : St} {t : PId} {cs : List Comp} {n₀ n : ℝ → ℝ} {nb : ℝ → ℂ} {pts : List Pt}

theorem residuals_one (h : varying env o st = [t]) (x : ℝ) : (residuals env o (some [x]) st).1 =
    (residuals env o none { st with vals := Function.update st.vals t x }).1 := by
  rw [residuals_some, setp, if_pos (by rw [h]; rfl), h]
  rfl

theorem FitsFilm.point (h : FitsFilm env o st t cs n₀ n nb pts) {d : ℝ} (hd : 0 ≤ d) {pt : Pt} (hpt : pt ∈ pts)
    {c : Cell} : PointVal env.ext env.zs env.dt (Function.update st.vals t (10 * d)) (st.models o.model).rm
      (st.structs (st.models o.model).str) (pt.1, pt.2.1) c ↔
    ∃ rows, RowsOf rows (oneFilm (n₀ pt.1) (n pt.1) (nb pt.1) d) ∧
      (slabs env.ext (Function.update st.vals t (10 * d))
        { st.structs (st.models o.model).str with wavelength := some pt.1 } none).1 = .ok (some rows) ∧
      (deltaPsiTMM env.zs [pt.2.1] rows pt.1 (st.vals (st.models o.model).rm.off) (st.models o.model).rm.flip).1 =
        .ok [c] := by
  have hs := h.sound pt hpt
  obtain ⟨rows, h1, h2⟩ := C117_slabs h.plain hs.wav_pos.ne' (h.sees d hd pt hpt)
  have ho : Function.update st.vals t (10 * d) (st.models o.model).rm.off = st.vals (st.models o.model).rm.off :=
    Function.update_of_ne h.off_ne _ _
  constructor
  · rintro ⟨r, y, g1, g2, rfl⟩
    have e : rows = r := by
      have g := h1.symm.trans g1
      simpa using g
    subst e
    rw [ho] at g2
    refine ⟨rows, h2, h1, ?_⟩
    rw [h.float]
    exact g2
  · rintro ⟨r, -, g1, g2⟩
    refine ⟨r, c, g1, ?_, by rw [h.float]; rfl⟩
    rw [ho]
    exact g2

theorem circular_zero {a b : ℝ} (h : circularDistance a b 360 = 0) : ∃ k : ℤ, a = b + 360 * k := by
  unfold circularDistance at h
  rcases min_choice |a - b| (360 - |a - b|) with h1 | h1 <;> rw [h1] at h
  · exact ⟨0, by have := abs_eq_zero.mp h; push_cast; linarith⟩
  · rcases abs_cases (a - b) with ⟨h2, _⟩ | ⟨h2, _⟩
    · exact ⟨1, by push_cast; linarith⟩
    · exact ⟨-1, by push_cast; linarith⟩

/-- A fit with chi-squared 0 reproduces each point. -/
theorem FitsFilm.zero (h : FitsFilm env o st t cs n₀ n nb pts) {d : ℝ} (hd : 0 ≤ d)
    (hc : (chisqr env o (some [10 * d]) st).1 = .ok (some 0)) :
    ∀ pt ∈ pts, (shotOf (st.vals (st.models o.model).rm.off) n₀ n nb pt).Fits env.zs (st.models o.model).rm.flip d := by
  rw [chisqr_eq, residuals_one h.one] at hc
  have hp : Presents ({ st with vals := Function.update st.vals t (10 * d) } : St).heap o.data pts := h.data
  cases hr : (residuals env o none { st with vals := Function.update st.vals t (10 * d) }).1 with
  | error e => rw [hr] at hc; simp [Except.map] at hc
  | ok r =>
    rw [hr] at hc
    simp only [Except.map, Except.ok.injEq, Option.map_eq_some_iff] at hc
    obtain ⟨l, h1, h2⟩ := hc
    rw [finite_eq] at h1
    have hz : ∀ x ∈ l, x = 0 := by
      intro x hx
      have h3 : x * x ∈ l.map fun x => x * x := List.mem_map_of_mem hx
      have h4 := List.single_le_sum (l := l.map fun x => x * x) (by
        simp only [List.mem_map]
        rintro _ ⟨y, _, rfl⟩
        exact mul_self_nonneg y) _ h3
      rw [h2] at h4
      exact mul_self_eq_zero.mp (le_antisymm h4 (mul_self_nonneg x))
    obtain ⟨cells, hv, he⟩ := (C81_residuals hp).mp hr
    have hz' : ∀ y ∈ r, y = some 0 := by
      rw [h1]
      simp only [List.mem_map]
      rintro _ ⟨x, hx, rfl⟩
      rw [hz x hx]
    have hv' := values_iff.mp hv
    intro pt hpt
    obtain ⟨i, hi, rfl⟩ := List.getElem_of_mem hpt
    have hi' : i < cells.length := by rw [← hv.length_eq]; exact hi
    have hmem : (pts[i], cells[i]) ∈ pts.zip cells := by
      have : i < (pts.zip cells).length := by simp [hi, hi']
      have e : (pts.zip cells)[i] = (pts[i], cells[i]) := List.getElem_zip
      rw [← e]
      exact List.getElem_mem this
    obtain ⟨rows, g1, -, g2⟩ := (h.point hd hpt).mp ((List.forall₂_iff_get.mp hv').2 i hi hi')
    have k1 := hz' _ (by rw [he]; exact List.mem_append_left _ (List.mem_map_of_mem hmem))
    have k2 := hz' _ (by rw [he]; exact List.mem_append_right _ (List.mem_map_of_mem hmem))
    simp only [Option.map_eq_some_iff] at k1 k2
    obtain ⟨ψ, e1, f1⟩ := k1
    obtain ⟨Δ, e2, f2⟩ := k2
    obtain ⟨k, rfl⟩ := circular_zero f2
    refine ⟨rows, k, g1, ?_⟩
    have hc : cells[i] = (some pts[i].2.2.1, some (pts[i].2.2.2 + 360 * k)) := by
      rw [Prod.ext_iff]
      exact ⟨by rw [e1]; congr 1; linarith, e2⟩
    exact hc ▸ g2

/-- C166: the thicknesses for which `objective.chisqr` is 0 are among finitely many, up to lengths that are whole
numbers of interference periods at every point. -/
theorem C166_finitely_many (h : FitsFilm env o st t cs n₀ n nb pts) :
    ∃ ds : List ℝ, ds.length = candidates (st.models o.model).rm.flip ^ pts.length ∧
      ∀ d, 0 ≤ d → (chisqr env o (some [10 * d]) st).1 = .ok (some 0) →
        ∃ d' ∈ ds, ∀ pt ∈ pts, ∃ k : ℤ, d = d' + k * period (n₀ pt.1) (n pt.1) (rad pt.2.1) pt.1 := by
  obtain ⟨ds, h1, h2⟩ := C163_finitely_many env.zs (st.models o.model).rm.flip
    (shots := pts.map (shotOf (st.vals (st.models o.model).rm.off) n₀ n nb)) (by
      simp only [List.mem_map]
      rintro _ ⟨pt, hpt, rfl⟩
      exact h.sound pt hpt)
  refine ⟨ds, by simpa using h1, fun d hd hc => ?_⟩
  obtain ⟨d', h3, h4⟩ := h2 d (by
    simp only [List.mem_map]
    rintro _ ⟨pt, hpt, rfl⟩
    exact h.zero hd hc pt hpt)
  exact ⟨d', h3, fun pt hpt => h4 _ (List.mem_map_of_mem hpt)⟩

/-- C166: if the periods at two points have an irrational ratio, only finitely many thicknesses have chi-squared 0. -/
theorem C166_incommensurate (h : FitsFilm env o st t cs n₀ n nb pts) {p q : Pt} (hp : p ∈ pts) (hq : q ∈ pts)
    (hirr : Irrational (period (n₀ p.1) (n p.1) (rad p.2.1) p.1 / period (n₀ q.1) (n q.1) (rad q.2.1) q.1)) :
    ∃ ds : List ℝ, ds.length = candidates (st.models o.model).rm.flip ^ pts.length ∧
      ∀ d, 0 ≤ d → (chisqr env o (some [10 * d]) st).1 = .ok (some 0) → d ∈ ds := by
  obtain ⟨ds, h1, h2⟩ := C163_incommensurate env.zs (st.models o.model).rm.flip
    (shots := pts.map (shotOf (st.vals (st.models o.model).rm.off) n₀ n nb)) (by
      simp only [List.mem_map]
      rintro _ ⟨pt, hpt, rfl⟩
      exact h.sound pt hpt) (List.mem_map_of_mem hp) (List.mem_map_of_mem hq) hirr
  refine ⟨ds, by simpa using h1, fun d hd hc => h2 d ?_⟩
  simp only [List.mem_map]
  rintro _ ⟨pt, hpt, rfl⟩
  exact h.zero hd hc pt hpt

theorem circular_same {off y a b : ℝ} (hy : off ≤ y ∧ y ≤ off + 360) (ha : off ≤ a ∧ a ≤ off + 360)
    (hb : off ≤ b ∧ b ≤ off + 360) (h : |a - b| = 360) : circularDistance a y 360 = circularDistance b y 360 := by
  unfold circularDistance
  rcases abs_cases (a - b) with ⟨h1, _⟩ | ⟨h1, _⟩
  · have e1 : a = off + 360 := by linarith
    have e2 : b = off := by linarith
    rw [e1, e2, abs_of_nonneg (by linarith), abs_of_nonpos (by linarith), min_comm]
    congr 1 <;> ring
  · have e1 : a = off := by linarith
    have e2 : b = off + 360 := by linarith
    rw [e1, e2, abs_of_nonneg (by linarith : 0 ≤ off + 360 - y), abs_of_nonpos (by linarith), min_comm]
    congr 1 <;> ring

/-- C166: if all periods fit into a common length, the residuals, and with them chi-squared, are the same for
thicknesses that differ by it, whether or not they fit. -/
theorem C166_periodic (h : FitsFilm env o st t cs n₀ n nb pts)
    (hr : ∀ pt ∈ pts, st.vals (st.models o.model).rm.off ≤ pt.2.2.2 ∧ pt.2.2.2 ≤ st.vals (st.models o.model).rm.off + 360)
    {L : ℝ} (hL : ∀ pt ∈ pts, ∃ k : ℕ, L = k * period (n₀ pt.1) (n pt.1) (rad pt.2.1) pt.1) {d : ℝ} (hd : 0 ≤ d)
    (m : ℕ) (hmL : 0 ≤ L) :
    (residuals env o (some [10 * (d + m * L)]) st).1 = (residuals env o (some [10 * d]) st).1 ∧
      (chisqr env o (some [10 * (d + m * L)]) st).1 = (chisqr env o (some [10 * d]) st).1 := by
  have hd' : 0 ≤ d + m * L := by positivity
  have main : (residuals env o (some [10 * (d + m * L)]) st).1 = (residuals env o (some [10 * d]) st).1 := by
    have hp : ∀ x, Presents ({ st with vals := Function.update st.vals t x } : St).heap o.data pts := fun _ => h.data
    have hpair : ∀ pt ∈ pts, ∃ x y : Cell, PointVal env.ext env.zs env.dt (Function.update st.vals t (10 * d))
        (st.models o.model).rm (st.structs (st.models o.model).str) (pt.1, pt.2.1) x ∧
        PointVal env.ext env.zs env.dt (Function.update st.vals t (10 * (d + m * L)))
        (st.models o.model).rm (st.structs (st.models o.model).str) (pt.1, pt.2.1) y ∧ SamePD x y := by
      intro pt hpt
      obtain ⟨rows, a1, a2⟩ := C117_slabs h.plain (h.sound pt hpt).wav_pos.ne' (h.sees d hd pt hpt)
      obtain ⟨rows', b1, b2⟩ := C117_slabs h.plain (h.sound pt hpt).wav_pos.ne' (h.sees _ hd' pt hpt)
      obtain ⟨k, hk⟩ := hL pt hpt
      obtain ⟨x, y, c1, c2, c3⟩ := C163_commensurate env.zs (st.models o.model).rm.flip
        (shots := [shotOf (st.vals (st.models o.model).rm.off) n₀ n nb pt]) (L := L)
        (by simpa using h.sound pt hpt) (by simpa using ⟨k, hk⟩) hd m (shotOf (st.vals (st.models o.model).rm.off) n₀ n nb pt)
        (by simp) rows rows' a2 b2
      exact ⟨x, y, (h.point hd hpt).mpr ⟨rows, a2, a1, c1⟩, (h.point hd' hpt).mpr ⟨rows', b2, b1, c2⟩, c3⟩
    have hlists : ∀ ps : List Pt, (∀ pt ∈ ps, pt ∈ pts) → ∃ cs cs' : List Cell,
        PointValues env o { st with vals := Function.update st.vals t (10 * d) } ps cs ∧
        PointValues env o { st with vals := Function.update st.vals t (10 * (d + m * L)) } ps cs' ∧
        (ps.zip cs').map (fun x => x.2.1.map fun ψ => ψ - x.1.2.2.1) =
          (ps.zip cs).map (fun x => x.2.1.map fun ψ => ψ - x.1.2.2.1) ∧
        (ps.zip cs').map (fun x => x.2.2.map fun Δ => circularDistance Δ x.1.2.2.2 360) =
          (ps.zip cs).map (fun x => x.2.2.map fun Δ => circularDistance Δ x.1.2.2.2 360) := by
      intro ps
      induction ps with
      | nil => intro _; exact ⟨[], [], .nil, .nil, rfl, rfl⟩
      | cons pt ps ih =>
        intro hsub
        obtain ⟨cs, cs', i1, i2, i3, i4⟩ := ih fun q hq => hsub q (by simp [hq])
        have hpt := hsub pt (by simp)
        obtain ⟨x, y, v1, v2, e1, e2⟩ := hpair pt hpt
        refine ⟨x :: cs, y :: cs', .cons v1 i1, .cons v2 i2, ?_, ?_⟩
        · simp only [List.zip_cons_cons, List.map_cons, i3, e1]
        · simp only [List.zip_cons_cons, List.map_cons, i4]
          congr 1
          rcases e2 with e2 | ⟨a, b, ea, eb, e2⟩
          · rw [e2]
          · rw [ea, eb]
            simp only [Option.map_some, Option.some.injEq]
            have ho : ∀ z, Function.update st.vals t z (st.models o.model).rm.off =
                st.vals (st.models o.model).rm.off := fun z => Function.update_of_ne h.off_ne _ _
            rw [h.float] at v1 v2
            have r1 := delta_range v1 ea
            have r2 := delta_range v2 eb
            rw [ho] at r1 r2
            exact (circular_same (hr pt hpt) r1 r2 e2).symm
    obtain ⟨cs, cs', i1, i2, i3, i4⟩ := hlists pts fun _ h => h
    rw [residuals_one h.one, residuals_one h.one]
    rw [(C81_residuals (hp _)).mpr ⟨cs, values_iff.mpr i1, rfl⟩, (C81_residuals (hp _)).mpr ⟨cs', values_iff.mpr i2, rfl⟩,
      i3, i4]
  exact ⟨main, by rw [chisqr_eq, chisqr_eq, main]⟩

end

/-! ### Two points measured on a film -/

/-- A world with one model of the film and data measured at two wavelengths. -/
noncomputable def twoSt (lam ψ Δ ψ' Δ' : ℝ) : St :=
  { filmSt 0 0 with
    heap := ⟨fun i => ⟨false, [[480, lam], [filmAoi, filmAoi], [ψ, ψ'], [Δ, Δ']].getD i []⟩, 4⟩ }

/-- The objective of that model and those data. -/
noncomputable def twoObj : Objective :=
  { model := 0, data := { wav := 0, aoi := 1, psi := 2, dlt := 3, mask := some [true, true], flipped := false }, lnsigma := none,
    useWeights := false, logpExtra := none, transform := none }

theorem unique_all {p : PId} : ∀ {l : List PId}, l ≠ [] → (∀ q ∈ l, q = p) → unique l = [p]
  | [], h, _ => absurd rfl h
  | q :: l, _, h => by
    have hq : q = p := h q (by simp)
    subst hq
    rw [unique]
    congr 1
    rw [List.filter_eq_nil_iff]
    by_cases hl : l = []
    · subst hl
      simp [unique]
    · rw [unique_all hl fun r hr => h r (by simp [hr])]
      simp

theorem two_fits (env : Env) (hdt : env.dt = .float) (hpars : 4 ∈ env.pars filmStruct.data none) {lam : ℝ}
    (hl : 0 < lam) : ∃ ψ Δ ψ' Δ' : ℝ,
    FitsFilm env twoObj (twoSt lam ψ Δ ψ' Δ') 4 [dry (.const 658 1 0),
      .slab 4 (fun _ => .const 658 (39 / 25) 0) 1 2 true, dry (.const 658 (15 / 7) 0)]
      (fun _ => 1) (fun _ => 39 / 25) (fun _ => ((15 / 7 : ℝ) : ℂ)) [(480, filmAoi, ψ, Δ), (lam, filmAoi, ψ', Δ')] ∧
    (0 ≤ Δ ∧ Δ ≤ 360) ∧ (0 ≤ Δ' ∧ Δ' ≤ 360) ∧
    (chisqr env twoObj (some [10 * 125]) (twoSt lam ψ Δ ψ' Δ')).1 = .ok (some 0) := by
  have hsin : Real.sin (rad filmAoi) = 3 / 5 := by
    rw [film_rad, Real.sin_arcsin] <;> norm_num
  have hpi := Real.pi_pos
  have h1 := Real.arcsin_lt_pi_div_two.mpr (by norm_num : (3 / 5 : ℝ) < 1)
  have h2 := Real.arcsin_pos.mpr (by norm_num : (0 : ℝ) < 3 / 5)
  have h3 : 0 < filmAoi := by unfold filmAoi; positivity
  have h4 : |filmAoi| < 90 := by
    rw [abs_of_pos h3]
    unfold filmAoi
    rw [← lt_div_iff₀ (by positivity)]
    calc Real.arcsin (3 / 5) < Real.pi / 2 := h1
      _ = 90 / (180 / Real.pi) := by field_simp; norm_num
  have sound : ∀ {w off ψ Δ : ℝ}, 0 < w → Shot.Sound ⟨1, 39 / 25, ((15 / 7 : ℝ) : ℂ), filmAoi, w, off, ψ, Δ⟩ := by
    intro w off ψ Δ hl
    refine ⟨one_pos, by norm_num, by norm_num, ⟨by norm_num, by simp⟩, ?_, h4, h3.ne', hl, ?_⟩
    · intro h
      have := Complex.ofReal_injective h
      norm_num at this
    · simp only
      rw [hsin, abs_of_pos] <;> norm_num
  obtain ⟨ψ, Δ, f1⟩ := shot_finite env.zs (lam := 480) (by norm_num)
  obtain ⟨ψ', Δ', f2⟩ := shot_finite env.zs hl
  have pv : ∀ {w : ℝ} {c : Cell}, (deltaPsiTMM env.zs [filmAoi] filmRows w 0 false).1 = .ok [c] →
      PointVal env.ext env.zs .float filmVals ⟨7, false⟩ filmStruct (w, filmAoi) c := fun h =>
    ⟨filmRows, _, film_slabs env.ext _, h, rfl⟩
  have r1 := delta_range (pv f1) rfl
  have r2 := delta_range (pv f2) rfl
  have h7 : filmVals 7 = 0 := rfl
  simp only [h7, zero_add] at r1 r2
  have hpres : Presents (twoSt lam ψ Δ ψ' Δ').heap twoObj.data [(480, filmAoi, ψ, Δ), (lam, filmAoi, ψ', Δ')] := by
    constructor <;> simp [twoSt, twoObj, wavelength, aoi, psi, delta, len, access, pick]
  have hone : varying env twoObj (twoSt lam ψ Δ ψ' Δ') = [4] := by
    refine unique_all (List.ne_nil_of_mem (a := 4) (List.mem_filter.mpr ⟨?_, rfl⟩)) fun q hq => ?_
    · exact List.mem_cons_of_mem _ hpars
    · simpa [twoSt, filmSt] using (List.mem_filter.mp hq).2
  refine ⟨ψ, Δ, ψ', Δ', ⟨hpres, hdt, hone, by simp [twoSt, filmSt],
    plain_of rfl (by simp) (by simp [dry, Comp.isSlab, Comp.dflt]) le_rfl (.inl rfl), ?_, ?_⟩, r1, r2, ?_⟩
  · intro d _ pt _
    have e : oneFilm 1 (39 / 25) ((15 / 7 : ℝ) : ℂ) d = ⟨((1 : ℝ) : ℂ), [(⟨39 / 25, 0⟩,
        Function.update filmVals 4 (10 * d) 4 / 10)], ⟨15 / 7, 0⟩⟩ := by
      rw [Function.update_self, mul_div_cancel_left₀ _ (by norm_num : (10 : ℝ) ≠ 0)]
      rfl
    show Sees _ _ _ _ _ (oneFilm 1 (39 / 25) ((15 / 7 : ℝ) : ℂ) d)
    rw [e]
    refine ⟨_, [_], _, ⟨1, 0⟩, ⟨15 / 7, 0⟩, rfl, .slab (const_material _ _ one_pos), rfl,
      .slab (const_material _ _ (by norm_num)), rfl, .cons (.slab (const_material _ _ (by norm_num)) ?_) .nil⟩
    have hv : Function.update (twoSt lam ψ Δ ψ' Δ').vals 4 (10 * d) 2 = 0 := rfl
    rw [hv]
    refine mix_dry ?_ ⟨by norm_num, by norm_num⟩ ?_
    · norm_num [EMA.GoodL, twoSt, filmSt, filmStruct]
    · intro h
      norm_num [EMA.Dielectric]
  · intro pt hpt
    simp only [List.mem_cons, List.not_mem_nil, or_false] at hpt
    rcases hpt with rfl | rfl
    · exact sound (by norm_num)
    · exact sound hl
  · have hv : Function.update (twoSt lam ψ Δ ψ' Δ').vals 4 (10 * 125) = filmVals := by
      norm_num [twoSt, filmSt, filmVals]
    rw [chisqr_eq, residuals_one hone, hv]
    have hr := (C81_residuals (env := env) (o := twoObj) (st := twoSt lam ψ Δ ψ' Δ') hpres).mpr
      ⟨[(some ψ, some Δ), (some ψ', some Δ')], values_iff.mpr (.cons (by rw [hdt]; exact pv f1)
        (.cons (by rw [hdt]; exact pv f2) .nil)), rfl⟩
    have e : ({ twoSt lam ψ Δ ψ' Δ' with vals := filmVals } : St) = twoSt lam ψ Δ ψ' Δ' := rfl
    rw [e, hr]
    simp [Except.map, circularDistance, finite]

/-- Two wavelengths with irrational ratio: the film of 1250 Angstrom fits perfectly, and at most 4 thicknesses do. -/
example (env : Env) (hdt : env.dt = .float) (hpars : 4 ∈ env.pars filmStruct.data none) : ∃ st : St,
    (chisqr env twoObj (some [1250]) st).1 = .ok (some 0) ∧
    ∃ ds : List ℝ, ds.length = 4 ∧ ∀ d, 0 ≤ d → (chisqr env twoObj (some [10 * d]) st).1 = .ok (some 0) → d ∈ ds := by
  obtain ⟨ψ, Δ, ψ', Δ', h, -, -, h0⟩ := two_fits env hdt hpars (lam := 480 * Real.sqrt 2) (by positivity)
  refine ⟨_, by norm_num at h0; exact h0, ?_⟩
  refine C166_incommensurate h (p := (480 * Real.sqrt 2, filmAoi, ψ', Δ')) (q := (480, filmAoi, ψ, Δ)) (by simp)
    (by simp) ?_
  have hs := (h.sound (480, filmAoi, ψ, Δ) (by simp)).period_pos
  have e : period 1 (39 / 25) (rad filmAoi) (480 * Real.sqrt 2) = Real.sqrt 2 * period 1 (39 / 25) (rad filmAoi) 480 := by
    unfold period; ring
  simp only [e]
  rw [mul_div_cancel_right₀ _ (by exact hs.ne')]
  exact irrational_sqrt_two

/-- One wavelength twice the other: adding whole periods of the longer one to the thickness fits as well. -/
example (env : Env) (hdt : env.dt = .float) (hpars : 4 ∈ env.pars filmStruct.data none) : ∃ (st : St) (L : ℝ), 0 < L ∧
    ∀ m : ℕ, (chisqr env twoObj (some [10 * (125 + m * L)]) st).1 = .ok (some 0) := by
  obtain ⟨ψ, Δ, ψ', Δ', h, r1, r2, h0⟩ := two_fits env hdt hpars (lam := 960) (by norm_num)
  have hs : 0 < period 1 (39 / 25) (rad filmAoi) 960 := (h.sound (960, filmAoi, ψ', Δ') (by simp)).period_pos
  refine ⟨twoSt 960 ψ Δ ψ' Δ', period 1 (39 / 25) (rad filmAoi) 960, hs, fun m => ?_⟩
  refine ((C166_periodic h ?_ ?_ (by norm_num) m (le_of_lt hs)).2).trans h0
  · have h7 : (twoSt 960 ψ Δ ψ' Δ').vals ((twoSt 960 ψ Δ ψ' Δ').models twoObj.model).rm.off = 0 := rfl
    rw [h7]
    simp [r1, r2]
  · intro pt hpt
    simp only [List.mem_cons, List.not_mem_nil, or_false] at hpt
    rcases hpt with rfl | rfl
    · exact ⟨2, by unfold period; push_cast; ring⟩
    · exact ⟨1, by push_cast; ring⟩

end Verif.Obj
