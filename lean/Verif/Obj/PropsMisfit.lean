import Verif.Obj.PropsPoints
import Verif.RModel.PropsEndToEnd

/-! # The misfit is a continuous function of the model (C121) -/

namespace Verif.Obj
open Verif.Struct Verif.TMM Verif.RModel Verif.Data Filter Topology

variable {env : Env} {o : Objective}

theorem circDist_arccos (a b : ℝ) :
    circDist 360 a b = Real.arccos (Real.cos (rad (a - b))) * (180 / Real.pi) := by
  have hpi := Real.pi_pos
  obtain ⟨k, hk⟩ : ∃ k : ℤ, |a - b + 360 * k| ≤ 180 := by
    refine ⟨-round ((a - b) / 360), ?_⟩
    have := abs_sub_round ((a - b) / 360)
    rw [show a - b + 360 * ((-round ((a - b) / 360) : ℤ) : ℝ) = 360 * ((a - b) / 360 - round ((a - b) / 360)) by
      push_cast; ring, abs_mul, abs_of_pos (by norm_num : (0 : ℝ) < 360)]
    linarith
  rw [circDist_eq k (by linarith)]
  have e : Real.cos (rad (a - b)) = Real.cos (rad |a - b + 360 * k|) := by
    have e1 : rad (a - b + 360 * k) = rad (a - b) + k * (2 * Real.pi) := by unfold rad; ring
    have e2 : Real.cos (rad |a - b + 360 * k|) = Real.cos (rad (a - b + 360 * k)) := by
      rcases abs_choice (a - b + 360 * k) with h | h
      · rw [h]
      · rw [h, show rad (-(a - b + 360 * k)) = -rad (a - b + 360 * k) by unfold rad; ring, Real.cos_neg]
    rw [e2, e1, Real.cos_add_int_mul_two_pi]
  rw [e, Real.arccos_cos]
  · unfold rad; field_simp
  · unfold rad; positivity
  · unfold rad
    calc _ ≤ 180 * (Real.pi / 180) := by gcongr
      _ = Real.pi := by ring

section
variable {X : Type*} [TopologicalSpace X]

theorem cont_circDist {D : X → ℝ} {x0 : X} (hc : ContinuousAt (fun x => Real.cos (rad (D x))) x0)
    (hs : ContinuousAt (fun x => Real.sin (rad (D x))) x0) (y : ℝ) :
    ContinuousAt (fun x => circDist 360 (D x) y) x0 := by
  simp only [circDist_arccos]
  refine ContinuousAt.mul ?_ continuousAt_const
  refine Real.continuous_arccos.continuousAt.comp (f := fun x => Real.cos (rad (D x - y))) ?_
  have e : ∀ x, Real.cos (rad (D x - y)) =
      Real.cos (rad (D x)) * Real.cos (rad y) + Real.sin (rad (D x)) * Real.sin (rad y) := by
    intro x
    rw [← Real.cos_sub]
    unfold rad
    congr 1
    ring
  simp only [e]
  exact (hc.mul continuousAt_const).add (hs.mul continuousAt_const)

/-- A structure of fixed composition whose parameters vary in such a way that, at every wavelength and angle
of the data, the stack that light meets varies continuously (`Varies`: thicknesses and indices are continuous,
layers passive, no transparent film beyond its critical angle that attenuates by 35 nepers or more, and no
transparent backing at or beyond it, if the index varies). -/
structure Deforms (env : Env) (o : Objective) (st : X → St) (pts : List Pt) (M : MObj) (s : Structure)
    (cs : List Comp) (x0 : X) : Prop where
  float : env.dt = .float
  model : ∀ x, (st x).models o.model = M
  struct : ∀ x, (st x).structs M.str = s
  plain : Plain s cs
  offset : ContinuousAt (fun x => (st x).vals M.rm.off) x0
  data : ∀ x, Presents (st x).heap o.data pts
  stack : ∀ pt ∈ pts, ∃ n₀ films nb, Varies n₀ (fun _ => rad pt.2.1) (fun _ => pt.1) films nb x0 ∧
    ∀ᶠ x in 𝓝 x0, Sees env.ext.zs (st x).vals s cs pt.1 (stackAt n₀ films nb x)

/-- Some rows describe the stack; they are those of the structure where it is seen as that stack. -/
theorem rowsOf_when {P : Vals → Stack → Prop} {f : Vals → Except PyErr (Option (List Row))}
    (h : ∀ {v : Vals} {st : Stack}, P v st → ∃ rows, f v = .ok (some rows) ∧ RowsOf rows st) {v : Vals} {st : Stack}
    {n : ℝ} (hn : st.front = (n : ℂ)) : ∃ rows, RowsOf rows st ∧ (P v st → f v = .ok (some rows)) := by
  by_cases hp : P v st
  · obtain ⟨rows, h1, h2⟩ := h hp
    exact ⟨rows, h2, fun _ => h1⟩
  · refine ⟨_, ⟨⟨0, some (n : ℂ), 0, 0⟩, st.films.map fun f => ⟨10 * f.2, some f.1, 0, 0⟩, ⟨0, some st.back, 0, 0⟩, (n : ℂ),
      rfl, rfl, by rw [hn, Complex.ofReal_re], ?_, rfl⟩, fun hp' => absurd hp' hp⟩
    rw [List.forall₂_map_left_iff]
    exact List.forall₂_same.mpr fun f _ => ⟨rfl, rfl⟩

theorem Deforms.point {st : X → St} {pts : List Pt} {M : MObj} {s : Structure} {cs : List Comp} {x0 : X}
    (h : Deforms env o st pts M s cs x0) {pt : Pt} (hpt : pt ∈ pts) {m : ℝ × ℝ}
    (h0 : PointVal env.ext env.zs env.dt (st x0).vals M.rm s (pt.1, pt.2.1) (some m.1, some m.2)) :
    ∃ ψ D : X → ℝ,
      (∀ᶠ x in 𝓝 x0, PointVal env.ext env.zs env.dt (st x).vals M.rm s (pt.1, pt.2.1) (some (ψ x), some (D x))) ∧
      ContinuousAt ψ x0 ∧ ContinuousAt (fun x => circDist 360 (D x) pt.2.2.2) x0 := by
  obtain ⟨n₀, films, nb, hv, hs⟩ := h.stack pt hpt
  have hw : pt.1 ≠ 0 := hv.physical.self_of_nhds.lam_pos.ne'
  choose rows hro hrows using fun x : X => rowsOf_when (P := fun v => Sees env.ext.zs v s cs pt.1)
    (C117_slabs h.plain hw) (v := (st x).vals) (st := stackAt n₀ films nb x) rfl
  obtain ⟨rows0, y, h1, h2, h3⟩ := h0
  rw [h.float] at h3
  rw [hrows x0 hs.self_of_nhds] at h1
  simp only [Except.ok.injEq, Option.some.injEq] at h1
  subst h1
  change (some m.1, some m.2) = y at h3
  rw [← h3] at h2
  obtain ⟨ψ, Δ, ev, cψ, hD⟩ := C116_psi_delta_partial (a := fun _ => pt.2.1) (wav := fun _ => pt.1) hv h.offset hro
    env.zs M.rm.flip h2
  obtain ⟨D, hD1, hcos, hsin, hnum⟩ := hD (by simp)
  refine ⟨ψ, D, ?_, cψ, ?_⟩
  · filter_upwards [ev, hD1, hs] with x e1 e2 e3
    refine ⟨rows x, (some (ψ x), some (D x)), hrows x e3, ?_, by rw [h.float]; rfl⟩
    rw [e1, e2]
  · refine cont_circDist hcos ?_ _
    cases hf : M.rm.flip with
    | false => exact hsin hf
    | true =>
      have cD := hnum (.inl hf)
      exact Real.continuous_sin.continuousAt.comp (cD.mul continuousAt_const)

theorem Deforms.values {st : X → St} {pts : List Pt} {M : MObj} {s : Structure} {cs : List Comp} {x0 : X}
    (h : Deforms env o st pts M s cs x0) {ms : List (ℝ × ℝ)} (h0 : Values env o (st x0) pts (cellsOf ms)) :
    ∃ L : List ((X → ℝ) × (X → ℝ)),
      (∀ᶠ x in 𝓝 x0, Values env o (st x) pts (cellsOf (L.map fun f => (f.1 x, f.2 x)))) ∧
      List.Forall₂ (fun (pt : Pt) f => ContinuousAt f.1 x0 ∧
        ContinuousAt (fun x => circDist 360 (f.2 x) pt.2.2.2) x0) pts L := by
  simp only [values_iff] at h0 ⊢
  have key : ∀ (q : List Pt) (ms : List (ℝ × ℝ)), (∀ pt ∈ q, pt ∈ pts) → PointValues env o (st x0) q (cellsOf ms) →
      ∃ L : List ((X → ℝ) × (X → ℝ)),
        (∀ᶠ x in 𝓝 x0, PointValues env o (st x) q (cellsOf (L.map fun f => (f.1 x, f.2 x)))) ∧
        List.Forall₂ (fun (pt : Pt) f => ContinuousAt f.1 x0 ∧
          ContinuousAt (fun x => circDist 360 (f.2 x) pt.2.2.2) x0) q L := by
    intro q
    induction q with
    | nil =>
      intro ms _ _
      exact ⟨[], Eventually.of_forall fun _ => .nil, .nil⟩
    | cons pt q ih =>
      intro ms hq hv
      cases ms with
      | nil => cases hv
      | cons m ms =>
        cases hv with
        | cons h1 h2 =>
          obtain ⟨L, e1, e2⟩ := ih ms (fun p hp => hq p (by simp [hp])) h2
          rw [h.model, h.struct] at h1
          obtain ⟨ψ, D, d1, d2, d3⟩ := h.point (hq pt (by simp)) h1
          refine ⟨(ψ, D) :: L, ?_, .cons ⟨d2, d3⟩ e2⟩
          filter_upwards [e1, d1] with x g1 g2
          refine .cons ?_ g1
          rw [h.model, h.struct]
          exact g2
  exact key pts ms (fun _ h => h) h0

/-- The squares of the residuals, with true distances on the circle. -/
noncomputable def trueSq (pts : List Pt) (L : List ((X → ℝ) × (X → ℝ))) (x : X) : ℝ :=
  ((pts.zip L).map fun y => (y.2.1 x - y.1.2.2.1) ^ 2 + circDist 360 (y.2.2 x) y.1.2.2.2 ^ 2).sum

theorem cont_trueSq {pts : List Pt} {L : List ((X → ℝ) × (X → ℝ))} {x0 : X}
    (h : List.Forall₂ (fun (pt : Pt) f => ContinuousAt f.1 x0 ∧
      ContinuousAt (fun x => circDist 360 (f.2 x) pt.2.2.2) x0) pts L) : ContinuousAt (trueSq pts L) x0 := by
  induction h with
  | nil => exact continuousAt_const
  | @cons pt f pts L hf _ ih =>
    have e : trueSq (pt :: pts) (f :: L) = fun x =>
        ((f.1 x - pt.2.2.1) ^ 2 + circDist 360 (f.2 x) pt.2.2.2 ^ 2) + trueSq pts L x := by
      funext x
      simp [trueSq]
    rw [e]
    exact (((hf.1.sub continuousAt_const).pow 2).add (hf.2.pow 2)).add ih

/-- C121, partial: if chi-squared is finite and the deltas of the data are between half a turn below and one
and a half turns above the offset, chi-squared is a continuous function of the model.  Missing: deltas further
away, for which chi-squared does not use the distance on the circle (`C82_fails`); total reflection by a
transparent backing medium, where chi-squared jumps (`C121_fails`). -/
theorem C121_chisqr_partial {st : X → St} {pts : List Pt} {M : MObj} {s : Structure} {cs : List Comp} {x0 : X}
    (h : Deforms env o st pts M s cs x0)
    (hr : ∀ᶠ x in 𝓝 x0, ∀ pt ∈ pts, (st x).vals M.rm.off - 180 ≤ pt.2.2.2 ∧
      pt.2.2.2 ≤ (st x).vals M.rm.off + 540)
    {c : ℝ} (h0 : (chisqr env o none (st x0)).1 = .ok (some c)) :
    ∃ C : X → ℝ, (∀ᶠ x in 𝓝 x0, (chisqr env o none (st x)).1 = .ok (some (C x))) ∧ C x0 = c ∧
      ContinuousAt C x0 := by
  obtain ⟨ms, hv, -⟩ := (chisqr_iff (h.data x0)).mp h0
  obtain ⟨L, hL, hc⟩ := h.values hv
  have ev : ∀ᶠ x in 𝓝 x0, (chisqr env o none (st x)).1 = .ok (some (trueSq pts L x)) := by
    filter_upwards [hL, hr] with x e1 e2
    rw [chisqr_iff (h.data x)]
    refine ⟨_, e1, ?_⟩
    rw [values_iff] at e1
    have key : ∀ (q : List Pt) (K : List ((X → ℝ) × (X → ℝ))),
        (∀ pt ∈ q, (st x).vals M.rm.off - 180 ≤ pt.2.2.2 ∧ pt.2.2.2 ≤ (st x).vals M.rm.off + 540) →
        PointValues env o (st x) q (cellsOf (K.map fun f => (f.1 x, f.2 x))) →
        trueSq q K x = ((q.zip (K.map fun f => (f.1 x, f.2 x))).map fun y => sqTerm y.1 y.2).sum := by
      intro q
      induction q with
      | nil => intro K _ _; simp [trueSq]
      | cons pt q ih =>
        intro K hq hv
        cases K with
        | nil => cases hv
        | cons f K =>
          cases hv with
          | cons g1 g2 =>
            have := ih K (fun p hp => hq p (by simp [hp])) g2
            have r1 := hq pt (by simp)
            rw [h.float, h.model, h.struct] at g1
            have r2 := delta_range g1 rfl
            have e : circDist 360 (f.2 x) pt.2.2.2 ^ 2 = circularDistance (f.2 x) pt.2.2.2 360 ^ 2 := by
              rw [← C80_abs_partial (by rw [abs_le]; constructor <;> linarith), sq_abs]
            simp only [trueSq, List.zip_cons_cons, List.map_cons, List.sum_cons, sqTerm] at this ⊢
            rw [this, e]
    exact key pts L e2 e1
  refine ⟨_, ev, ?_, cont_trueSq hc⟩
  have := ev.self_of_nhds
  rw [h0] at this
  simpa using this.symm

/-- C121, partial: if the residuals are finite and the deltas of the data between the offset and one turn
above it, every residual is a continuous function of the model, also where delta wraps around.  Missing: as
for `C121_chisqr_partial`. -/
theorem C121_residuals_partial {st : X → St} {pts : List Pt} {M : MObj} {s : Structure} {cs : List Comp} {x0 : X}
    (h : Deforms env o st pts M s cs x0)
    (hr : ∀ᶠ x in 𝓝 x0, ∀ pt ∈ pts, (st x).vals M.rm.off ≤ pt.2.2.2 ∧ pt.2.2.2 ≤ (st x).vals M.rm.off + 360)
    {r : List ℝ} (h0 : (residuals env o none (st x0)).1 = .ok (r.map some)) :
    ∃ R : List (X → ℝ), (∀ᶠ x in 𝓝 x0, (residuals env o none (st x)).1 = .ok ((R.map fun f => f x).map some)) ∧
      ∀ f ∈ R, ContinuousAt f x0 := by
  obtain ⟨ms, hv, -⟩ := (chisqr_iff (h.data x0)).mp (C82_sum h0).1
  obtain ⟨L, hL, hc⟩ := h.values hv
  refine ⟨((pts.zip L).map fun y x => y.2.1 x - y.1.2.2.1) ++
    ((pts.zip L).map fun y x => circDist 360 (y.2.2 x) y.1.2.2.2), ?_, ?_⟩
  · filter_upwards [hL, hr] with x e1 e2
    rw [C81_residuals (h.data x)]
    refine ⟨_, e1, ?_⟩
    rw [res_cellsOf, List.map_append]
    congr 1
    rw [values_iff] at e1
    congr 1
    · simp [List.zip_map_right, Function.comp_def]
    · have key : ∀ (q : List Pt) (K : List ((X → ℝ) × (X → ℝ))),
          (∀ pt ∈ q, (st x).vals M.rm.off ≤ pt.2.2.2 ∧ pt.2.2.2 ≤ (st x).vals M.rm.off + 360) →
          PointValues env o (st x) q (cellsOf (K.map fun f => (f.1 x, f.2 x))) →
          ((q.zip K).map fun y x => circDist 360 (y.2.2 x) y.1.2.2.2).map (fun f => f x) =
            (q.zip (K.map fun f => (f.1 x, f.2 x))).map fun y => circularDistance y.2.2 y.1.2.2.2 360 := by
        intro q
        induction q with
        | nil => intro K _ _; simp
        | cons pt q ih =>
          intro K hq hv
          cases K with
          | nil => cases hv
          | cons f K =>
            cases hv with
            | cons g1 g2 =>
              have := ih K (fun p hp => hq p (by simp [hp])) g2
              have r1 := hq pt (by simp)
              rw [h.float, h.model, h.struct] at g1
              have r2 := delta_range g1 rfl
              simp only [List.zip_cons_cons, List.map_cons] at this ⊢
              rw [this, C80_partial (by norm_num) (by rw [abs_le]; constructor <;> linarith)]
      exact key pts L e2 e1
  · intro f hf
    rcases List.mem_append.mp hf with hf | hf
    all_goals
      obtain ⟨y, hy, rfl⟩ := List.mem_map.mp hf
      have hy' := (List.forall₂_iff_zip.mp hc).2 (show (y.1, y.2) ∈ pts.zip L from hy)
    · exact hy'.1.sub continuousAt_const
    · exact hy'.2

end

/-! ### A film whose thickness varies -/

/-- The film of the example, with thickness `d`. -/
noncomputable def filmAt (d : ℝ) : Stack := ⟨((1 : ℝ) : ℂ), [(((39 / 25 : ℝ) : ℂ), d)], ((15 / 7 : ℝ) : ℂ)⟩

theorem filmAt_physical {d : ℝ} (hd : 0 ≤ d) : Physical (filmAt d) 1 (rad filmAoi) 480 := by
  have hp := film_physical
  refine ⟨rfl, one_pos, hp.angle, by norm_num, ?_, hp.back, ?_, ?_⟩
  · intro f hf
    simp only [filmAt, List.mem_cons, List.not_mem_nil, or_false] at hf
    subst hf
    exact ⟨(hp.films (((39 / 25 : ℝ) : ℂ), 125) (by simp [filmStack])).1, hd⟩
  · intro f hf
    simp only [filmAt, List.mem_cons, List.not_mem_nil, or_false] at hf
    subst hf
    exact hp.offCritical (((39 / 25 : ℝ) : ℂ), 125) (by simp [filmStack])
  · intro f hf m hm
    simp only [filmAt, List.mem_cons, List.not_mem_nil, or_false] at hf
    subst hf
    obtain ⟨_, h2, h3⟩ := hm
    simp only [filmAt, film_sin] at h2 h3
    have h4 : m.c ^ 2 = ((144 / 169 : ℝ) : ℂ) := by
      rw [h2]; push_cast; norm_num
    have h5 : m.c = ((12 / 13 : ℝ) : ℂ) ∨ m.c = -((12 / 13 : ℝ) : ℂ) := by
      rw [← sq_eq_sq_iff_eq_or_eq_neg, h4]; push_cast; norm_num
    have h6 : m.δ.im = 0 := by
      have e : ∀ y : ℝ, 2 * (Real.pi : ℂ) * ((39 / 25 : ℝ) : ℂ) * (y : ℂ) * (d : ℂ) /
          ((480 : ℝ) : ℂ) = ((2 * Real.pi * (39 / 25) * y * d / 480 : ℝ) : ℂ) := by
        intro y; push_cast; ring
      rcases h5 with h5 | h5
      · rw [h3, h5, e, Complex.ofReal_im]
      · rw [h3, h5, ← Complex.ofReal_neg, e, Complex.ofReal_im]
    rw [h6]
    have := Real.sinh_nonneg_iff.mpr (by norm_num : (0 : ℝ) ≤ 35)
    exact this

/-- The world of the film, with the thickness as parameter. -/
noncomputable def filmStAt (ψ Δ x : ℝ) : St :=
  { filmSt ψ Δ with vals := Function.update (fun _ => 0) 4 x }

theorem film_deforms (env : Env) (hdt : env.dt = .float) (ψ Δ : ℝ) {x0 : ℝ} (hx0 : 0 < x0) :
    Deforms env { model := 0, data := filmData false } (filmStAt ψ Δ) [(480, filmAoi, ψ, Δ)] ⟨⟨7, false⟩, 0⟩
      filmStruct [dry (.const 658 1 0), .slab 4 (fun _ => .const 658 (39 / 25) 0) 1 2 true,
        dry (.const 658 (15 / 7) 0)] x0 where
  float := hdt
  model := fun _ => rfl
  struct := fun _ => rfl
  plain := plain_of rfl (by simp) (by simp [dry, Comp.isSlab, Comp.dflt]) le_rfl (.inl rfl)
  offset := continuousAt_const
  data := fun x => by
    constructor <;> simp [filmStAt, filmSt, filmData, wavelength, aoi, psi, delta, len, access, pick]
  stack := by
    intro pt hpt
    rw [List.mem_singleton] at hpt
    subst hpt
    have hp := film_physical
    refine ⟨fun _ => 1, [(fun _ => ((39 / 25 : ℝ) : ℂ), fun x => x / 10)], fun _ => ((15 / 7 : ℝ) : ℂ),
      ⟨continuousAt_const, continuousAt_const, continuousAt_const, ?_, continuousAt_const, ?_, ?_, ?_⟩, ?_⟩
    · intro f hf
      rw [List.mem_singleton] at hf
      subst hf
      exact ⟨continuousAt_const, (continuous_id.div_const _).continuousAt⟩
    · filter_upwards [Ioi_mem_nhds hx0] with x hx
      have hx' : (0 : ℝ) < x := hx
      exact filmAt_physical (d := x / 10) (by positivity)
    · intro f hf
      exact .inl (.inr (.inr (.inl (by
        rw [List.mem_singleton] at hf
        subst hf
        exact Eventually.of_forall fun _ => ⟨rfl, rfl⟩))))
    · exact .inl (.inr (.inr (.inl (Eventually.of_forall fun _ => ⟨rfl, rfl⟩))))
    · refine Eventually.of_forall fun x => ?_
      have h2 : (filmStAt ψ Δ x).vals 2 = 0 := rfl
      have h4 : (filmStAt ψ Δ x).vals 4 = x := by simp [filmStAt]
      refine ⟨_, [_], _, ⟨1, 0⟩, ((15 / 7 : ℝ) : ℂ), rfl, .slab (const_material _ _ one_pos), rfl,
        .slab (const_material _ _ (by norm_num)), rfl, .cons ?_ .nil⟩
      have := FilmIs.slab (z := env.ext.zs) (v := (filmStAt ψ Δ x).vals) (w := 480) (nS := ((15 / 7 : ℝ) : ℂ))
        (t := 4) (g := 1) (f := 2) (r := fun _ => .const 658 (39 / 25) 0) (d := true) (ema := "linear") (L := 1 / 3)
        (a := ⟨39 / 25, 0⟩) (n := ((39 / 25 : ℝ) : ℂ)) (const_material _ _ (by norm_num))
        (by rw [h2]; exact mix_dry ⟨by norm_num, by norm_num, by simp⟩ ⟨by norm_num, le_rfl⟩ (by simp))
      rw [h4] at this
      exact this

/-- Non-vacuity of C121: chi-squared of the film as a function of its thickness. -/
example (env : Env) (hdt : env.dt = .float) : ∃ ψ Δ : ℝ, ∃ C : ℝ → ℝ,
    (∀ᶠ x in 𝓝 1250, (chisqr env { model := 0, data := filmData false } none (filmStAt ψ Δ x)).1 =
      .ok (some (C x))) ∧ C 1250 = 0 ∧ ContinuousAt C 1250 := by
  obtain ⟨ψ, Δ, h1, h2, h⟩ := film_delta env.zs
  obtain ⟨hf, -⟩ := h 0
  rw [add_zero] at hf
  have hd := film_deforms env hdt ψ Δ (by norm_num : (0 : ℝ) < 1250)
  refine ⟨ψ, Δ, C121_chisqr_partial hd ?_ ?_⟩
  · refine Eventually.of_forall fun x pt hpt => ?_
    rw [List.mem_singleton] at hpt
    subst hpt
    have h7 : (filmStAt ψ Δ x).vals 7 = 0 := rfl
    rw [h7]
    constructor <;> linarith
  · rw [chisqr_iff (hd.data 1250)]
    refine ⟨[(ψ, Δ)], values_iff.mpr (.cons
      ⟨filmRows, (some ψ, some Δ), film_slabs env.ext 480, ?_, by rw [hdt]; rfl⟩ .nil), by
        simp [sqTerm, circularDistance]⟩
    exact hf

/-! ### Total reflection -/

/-- Light in a medium of index 2 meets one of index 1 + i k; k is a parameter. -/
noncomputable def tirStruct : Structure :=
  { data := [dry (.const 658 2 0), .slab 0 (fun v => .const 658 1 (v 5)) 1 2 true].map .comp }

/-- A world with data measured at one point at 45 degrees. -/
noncomputable def tirSt (ψ Δ k : ℝ) : St where
  vals := Function.update (fun _ => 0) 5 k
  vary := fun p => p == 5
  models := fun _ => ⟨⟨7, false⟩, 0⟩
  structs := fun _ => tirStruct
  heap := ⟨fun i => ⟨false, [[500, 45, ψ, Δ].getD i 0]⟩, 4⟩

theorem tir_slabs (ext : Ext) (ψ Δ k w : ℝ) :
    (slabs ext (tirSt ψ Δ k).vals { tirStruct with wavelength := some w } none).1 =
      .ok (some [⟨0, some 2, 0, 0⟩, ⟨0, some (1 + Complex.I * (k : ℂ)), 0, 0⟩]) := by
  have hp : Plain { tirStruct with wavelength := some w }
      [dry (.const 658 2 0), .slab 0 (fun v => .const 658 1 (v 5)) 1 2 true] :=
    plain_of rfl (by simp) (by simp [dry, Comp.isSlab, Comp.dflt]) le_rfl (.inl rfl)
  have h0 : (tirSt ψ Δ k).vals 0 = 0 := rfl
  have h1 : (tirSt ψ Δ k).vals 1 = 0 := rfl
  have h2 : (tirSt ψ Δ k).vals 2 = 0 := rfl
  have h5 : (tirSt ψ Δ k).vals 5 = k := by simp [tirSt]
  rw [slabs_plain ext _ hp]
  simp only [List.map_cons, List.map_nil, compRow, dry, layerRi, Disp.Scat.dispersive, Disp.Scat.complex, Disp.Scat.at,
    tirStruct, h0, h1, h2, h5, solvRows, Bool.false_eq_true, if_false]
  rw [if_neg (by simp)]
  simp [Complex.ext_iff]

/-- C121 fails at total reflection: chi-squared is 0 for a transparent backing medium and finite for all
absorbing ones, but does not tend to 0 with the absorption. -/
theorem C121_fails (env : Env) (hdt : env.dt = .float) : ∃ (ψ Δ : ℝ) (C : ℝ → ℝ),
    (∀ k, 0 ≤ k → (chisqr env { model := 0, data := filmData false } none (tirSt ψ Δ k)).1 = .ok (some (C k))) ∧
    C 0 = 0 ∧ ¬ ContinuousWithinAt C (Set.Ici 0) 0 := by
  have hpi := Real.pi_pos
  obtain ⟨ψ, Δ, hok, hnot⟩ := C116_fails_total_reflection env.zs
  have hd : ∀ k, Presents (tirSt (ψ 0) (Δ 0) k).heap (filmData false) [(500, 45, ψ 0, Δ 0)] := by
    intro k
    constructor <;> simp [tirSt, filmData, wavelength, aoi, psi, delta, len, access, pick]
  have hv : ∀ k, 0 ≤ k → PointVal env.ext env.zs env.dt (tirSt (ψ 0) (Δ 0) k).vals ⟨7, false⟩ tirStruct (500, 45)
      (some (ψ k), some (Δ k)) := by
    intro k hk
    exact ⟨_, _, tir_slabs env.ext (ψ 0) (Δ 0) k 500, hok k hk, by rw [hdt]; rfl⟩
  have hrange : ∀ k, 0 ≤ k → 0 ≤ Δ k ∧ Δ k ≤ 360 := by
    intro k hk
    have := hv k hk
    rw [hdt] at this
    have := delta_range this rfl
    simpa [tirSt] using this
  refine ⟨ψ 0, Δ 0, fun k => sqTerm (500, 45, ψ 0, Δ 0) (ψ k, Δ k), ?_, by simp [sqTerm, circularDistance], ?_⟩
  · intro k hk
    rw [chisqr_iff (o := { model := 0, data := filmData false }) (hd k)]
    exact ⟨[(ψ k, Δ k)], values_iff.mpr (.cons (hv k hk) .nil), by simp⟩
  · intro hc
    have hC0 : sqTerm (500, 45, ψ 0, Δ 0) (ψ 0, Δ 0) = 0 := by simp [sqTerm, circularDistance]
    have hlim : Tendsto (fun k => Real.sqrt (sqTerm (500, 45, ψ 0, Δ 0) (ψ k, Δ k))) (𝓝[Set.Ici 0] 0) (𝓝 0) := by
      have := (Real.continuous_sqrt.tendsto _).comp hc
      simpa [hC0, Function.comp_def] using this
    have hψ : ContinuousWithinAt ψ (Set.Ici 0) 0 := by
      rw [ContinuousWithinAt, tendsto_iff_norm_sub_tendsto_zero]
      refine squeeze_zero (fun _ => norm_nonneg _) (fun k => ?_) hlim
      rw [Real.norm_eq_abs]
      apply Real.abs_le_sqrt
      simp only [sqTerm]
      nlinarith [sq_nonneg (circularDistance (Δ k) (Δ 0) 360)]
    have hD : Tendsto (fun k => circDist 360 (Δ k) (Δ 0)) (𝓝[Set.Ici 0] 0) (𝓝 0) := by
      refine squeeze_zero' (Eventually.of_forall fun _ => circDist_nonneg _ _ _) ?_ hlim
      filter_upwards [self_mem_nhdsWithin] with k hk
      have r1 := hrange k hk
      have r2 := hrange 0 le_rfl
      rw [← C80_partial (by norm_num) (by rw [abs_le]; constructor <;> linarith)]
      apply Real.le_sqrt_of_sq_le
      simp only [sqTerm]
      nlinarith [sq_nonneg (ψ k - ψ 0)]
    have hcos : Tendsto (fun k => Real.cos (rad (Δ k - Δ 0))) (𝓝[Set.Ici 0] 0) (𝓝 1) := by
      have e : ∀ k, Real.cos (rad (Δ k - Δ 0)) = Real.cos (circDist 360 (Δ k) (Δ 0) * (Real.pi / 180)) := by
        intro k
        rw [circDist_arccos, mul_assoc, show 180 / Real.pi * (Real.pi / 180) = 1 by field_simp, mul_one,
          Real.cos_arccos (Real.neg_one_le_cos _) (Real.cos_le_one _)]
      simp only [e]
      have := (Real.continuous_cos.tendsto _).comp (hD.mul_const (Real.pi / 180))
      simpa [Function.comp_def] using this
    have hsin : Tendsto (fun k => Real.sin (rad (Δ k - Δ 0))) (𝓝[Set.Ici 0] 0) (𝓝 0) := by
      rw [tendsto_zero_iff_abs_tendsto_zero]
      have e : ∀ k, |Real.sin (rad (Δ k - Δ 0))| = Real.sqrt (1 - Real.cos (rad (Δ k - Δ 0)) ^ 2) :=
        fun k => Real.abs_sin_eq_sqrt_one_sub_cos_sq _
      have h1 := (Real.continuous_sqrt.tendsto _).comp ((tendsto_const_nhds (x := (1 : ℝ))).sub (hcos.pow 2))
      simpa [Function.comp_def, e] using h1
    have erad : ∀ k, rad (Δ k) = rad (Δ k - Δ 0) + rad (Δ 0) := by intro k; unfold rad; ring
    refine hnot ⟨hψ, ?_, ?_⟩
    · rw [ContinuousWithinAt]
      have h1 := (hcos.mul_const (Real.cos (rad (Δ 0)))).sub (hsin.mul_const (Real.sin (rad (Δ 0))))
      simp only [one_mul, zero_mul, sub_zero] at h1
      refine h1.congr fun k => ?_
      rw [erad k, Real.cos_add]
    · rw [ContinuousWithinAt]
      have h1 := (hsin.mul_const (Real.cos (rad (Δ 0)))).add (hcos.mul_const (Real.sin (rad (Δ 0))))
      simp only [one_mul, zero_mul, zero_add] at h1
      refine h1.congr fun k => ?_
      rw [erad k, Real.sin_add]

end Verif.Obj
