import Verif.Obj.PropsSensitivity
import Verif.Obj.PropsSubstrate
import Verif.TMM.BareSens

/-! # C175 for the material of a bare substrate -/

namespace Verif.Obj
open Matrix Verif.Struct Verif.TMM Verif.RModel Verif.Data Verif.Disp Filter Topology Asymptotics

variable {p : ℕ} {env : Env} {o : Objective} {st : St} {cs : List Comp} {n₀ : ℝ → ℝ} {sub : ScatObj} {pts : List Pt}
  {X : Set (List ℝ)}

/-- Spec: delta of the data between half a turn below and one and a half turns above the offset. -/
def Reach (off : ℝ) (pts : List Pt) : Prop := ∀ pt ∈ pts, off - 180 ≤ pt.2.2.2 ∧ pt.2.2.2 ≤ off + 540

/-- Spec: near `x0`, `nb w` is the index of the material at `w`, differentiable there; light enters it at any angle below
the critical one, or it absorbs. -/
structure SmoothIndex (env : Env) (o : Objective) (st : St) (n₀ : ℝ → ℝ) (sub : ScatObj) (pts : List Pt) (x0 : Fin p → ℝ)
    (nb : ℝ → (Fin p → ℝ) → ℂ) : Prop where
  index : ∀ pt ∈ pts, ∀ᶠ x in 𝓝 x0, (sub (valsAt env o st (List.ofFn x))).at env.ext.zs pt.1 = some (nb pt.1 x)
  smooth : ∀ pt ∈ pts, ContDiffAt ℝ 1 (nb pt.1) x0
  regular : ∀ pt ∈ pts, (nb pt.1 x0).im ≠ 0 ∨ |n₀ pt.1 * Real.sin (rad pt.2.1)| < (nb pt.1 x0).re

theorem inRange_iff (hn : p = (varying env o st).length) (hoff : (st.models o.model).rm.off ∉ varying env o st)
    (x : Fin p → ℝ) (pts : List Pt) :
    InRange env o st x pts ↔ Reach (st.vals (st.models o.model).rm.off) pts := by
  unfold InRange Reach
  rw [setp, if_pos (by simpa using hn)]
  simp only [assign_not_mem _ _ _ hoff]

/-- One point: psi and delta are differentiable, and respond to first order to whatever changes the index. -/
theorem FitsSubstrate.respond (h : FitsSubstrate env o st cs n₀ sub pts X) {x0 : Fin p → ℝ}
    (hX : ∀ᶠ x in 𝓝 x0, List.ofFn x ∈ X) (hperf : Perfect env o st (List.ofFn x0))
    (hends : ∀ pt ∈ pts, ∀ k : ℤ, pt.2.2.2 - st.vals (st.models o.model).rm.off ≠
      (if (st.models o.model).rm.flip then 180 else 360) * k)
    {nb : ℝ → (Fin p → ℝ) → ℂ} (hm : SmoothIndex env o st n₀ sub pts x0 nb) {pt : Pt} (hpt : pt ∈ pts) :
    ∃ (ψ Δ : (Fin p → ℝ) → ℝ) (ψ' Δ' : (Fin p → ℝ) →L[ℝ] ℝ) (k : ℤ),
      (∀ᶠ x in 𝓝 x0, PointVal env.ext env.zs .float (valsAt env o st (List.ofFn x)) (st.models o.model).rm
        (st.structs (st.models o.model).str) (pt.1, pt.2.1) (some (ψ x), some (Δ x))) ∧
      pt.2.2.1 = ψ x0 ∧ pt.2.2.2 = Δ x0 + 360 * k ∧ HasFDerivAt ψ ψ' x0 ∧ HasFDerivAt Δ Δ' x0 ∧
      ∀ v, ψ' v = 0 → Δ' v = 0 → fderiv ℝ (nb pt.1) x0 v = 0 := by
  obtain ⟨hw, hn, ha, ha0⟩ := h.oblique pt hpt
  have hsin : Real.sin (rad pt.2.1) ≠ 0 := by
    have hr0 : rad pt.2.1 ≠ 0 := by
      unfold rad
      exact mul_ne_zero ha0 (by positivity)
    obtain ⟨l, u⟩ := abs_lt.mp ha
    intro hc
    exact hr0 ((Real.sin_eq_zero_iff_of_lt_of_lt (by linarith [Real.pi_pos]) (by linarith [Real.pi_pos])).mp hc)
  set off := st.vals (st.models o.model).rm.off with hoff
  set flip := (st.models o.model).rm.flip with hflip
  -- the rows of the stack
  set rows : (Fin p → ℝ) → List Row := fun x => [⟨0, some (n₀ pt.1 : ℂ), 0, 0⟩, ⟨0, some (nb pt.1 x), 0, 0⟩] with hrows
  have hr : ∀ x, RowsOf (rows x) ⟨(n₀ pt.1 : ℂ), [], nb pt.1 x⟩ := fun x =>
    ⟨_, [], _, _, rfl, rfl, by simp, .nil, rfl⟩
  have hsee : ∀ᶠ x in 𝓝 x0, Physical ⟨(n₀ pt.1 : ℂ), [], nb pt.1 x⟩ (n₀ pt.1) (rad pt.2.1) pt.1 ∧
      ∃ rws, (slabs env.ext (valsAt env o st (List.ofFn x))
        { st.structs (st.models o.model).str with wavelength := some pt.1 } none).1 = .ok (some rws) ∧
        RowsOf rws ⟨(n₀ pt.1 : ℂ), [], nb pt.1 x⟩ := by
    filter_upwards [hX, hm.index pt hpt] with x hx hi
    obtain ⟨n, ⟨-, hat, hpass⟩, hs⟩ := h.sees _ hx pt hpt
    have e : nb pt.1 x = n := by rw [hi] at hat; simpa using hat
    rw [e]
    exact ⟨⟨rfl, hn, ha, hw, by simp, hpass, by simp, by simp⟩, C117_slabs h.plain hw.ne' hs⟩
  -- the values at `x0`
  obtain ⟨nb0, rows0, k, e1, e2, e3, e4, e5, e6⟩ := h.point hX.self_of_nhds hperf hpt
  have enb : nb0 = nb pt.1 x0 := by
    obtain ⟨n, ⟨⟨own, hown⟩, hat, -⟩, -⟩ := h.sees _ hX.self_of_nhds pt hpt
    have : (sub (valsAt env o st (List.ofFn x0))).complex env.ext.zs (some pt.1) =
        (sub (valsAt env o st (List.ofFn x0))).at env.ext.zs pt.1 := by
      cases hc : sub (valsAt env o st (List.ofFn x0)) with
      | other d f => rw [hc] at hown; simp [Scat.ownWav] at hown
      | _ => simp only [Scat.complex, Scat.ownWav, pick_ne hw.ne']
    rw [this, (hm.index pt hpt).self_of_nhds] at e1
    simpa using e1.symm
  rw [enb] at e2 e3
  have h0 : (deltaPsiTMM env.zs [pt.2.1] (rows x0) pt.1 off flip).1 =
      .ok [(some pt.2.2.1, some (pt.2.2.2 + 360 * k))] := by
    rw [← e4, deltaPsi_rows (hr x0) e3.nz hw.ne', deltaPsi_rows e2 e3.nz hw.ne']
  have hrange : 0 < pt.2.2.2 + 360 * k - off ∧ pt.2.2.2 + 360 * k - off < if flip then 180 else 360 := by
    have hle : 0 ≤ pt.2.2.2 + 360 * k - off ∧ pt.2.2.2 + 360 * k - off ≤ if flip then 180 else 360 := by
      refine ⟨by linarith, ?_⟩
      cases hf : flip
      · simp only [Bool.false_eq_true, if_false]
        linarith
      · rw [hf, deltaPsi_rows (hr x0) e3.nz hw.ne'] at h0
        simp only [List.map_cons, List.map_nil, Except.ok.injEq, List.cons.injEq, and_true] at h0
        simpa using folded_le h0
    have hne := hends pt hpt
    constructor
    · refine lt_of_le_of_ne hle.1 fun hz => ?_
      cases hf : flip
      · refine hne (-k) ?_
        simp only [hf, Bool.false_eq_true, if_false]
        push_cast
        linarith
      · refine hne (-(2 * k)) ?_
        simp only [hf, if_true]
        push_cast
        linarith
    · refine lt_of_le_of_ne hle.2 fun hz => ?_
      cases hf : flip
      · refine hne (1 - k) ?_
        simp only [hf, Bool.false_eq_true, if_false] at hz ⊢
        push_cast
        linarith
      · refine hne (1 - 2 * k) ?_
        simp only [hf, if_true] at hz ⊢
        push_cast
        linarith
  have hvs : VariesSmoothly ((1 : ℕ∞) : WithTop ℕ∞) (fun _ => n₀ pt.1) (fun _ => rad pt.2.1) (fun _ => pt.1) [] (nb pt.1) x0 :=
    ⟨contDiffAt_const, contDiffAt_const, contDiffAt_const, by simp, hm.smooth pt hpt, e3, .inl (by simp),
      (hm.regular pt hpt).imp id .inl, by simp⟩
  obtain ⟨ψ, Δ, hev, hcψ, hcΔ⟩ := C138_psi_delta (off := fun _ => off) (a := fun _ => pt.2.1) hvs contDiffAt_const
    (rows := rows) hr env.zs flip h0 hrange.1 hrange.2
  have dψ := (hcψ.differentiableAt (by norm_num)).hasFDerivAt
  have dΔ := (hcΔ.differentiableAt (by norm_num)).hasFDerivAt
  have dn := ((hm.smooth pt hpt).differentiableAt (by norm_num)).hasFDerivAt
  have hx0 := hev.self_of_nhds
  rw [h0] at hx0
  simp only [Except.ok.injEq, List.cons.injEq, Prod.mk.injEq, Option.some.injEq, and_true] at hx0
  refine ⟨ψ, Δ, _, _, -k, ?_, hx0.1, by rw [← hx0.2]; push_cast; ring, dψ, dΔ, fun v h1 h2 =>
    bare_sensitive (Eventually.of_forall hr) (hsee.mono fun x hx => hx.1) hsin hev dψ dΔ dn h1 h2⟩
  filter_upwards [hev, hsee] with x hx hs
  obtain ⟨hph, rws, g1, g2⟩ := hs
  refine ⟨rws, (some (ψ x), some (Δ x)), g1, ?_, rfl⟩
  have ho : valsAt env o st (List.ofFn x) (st.models o.model).rm.off = off := assign_not_mem _ _ _ h.off
  simp only [ho]
  rw [← hx, deltaPsi_rows g2 hph.nz hw.ne', deltaPsi_rows (hr x) hph.nz hw.ne']


/-- The derivative of a list of functions, as a matrix. -/
theorem jacobian_pi {N : ℕ} {f : (Fin p → ℝ) → Fin N → ℝ} {x0 : Fin p → ℝ} {f' : Fin N → (Fin p → ℝ) →L[ℝ] ℝ}
    (h : ∀ i, HasFDerivAt (fun x => f x i) (f' i) x0) :
    ∃ A : Matrix (Fin N) (Fin p) ℝ, IsJacobian f x0 A ∧ ∀ v i, (A *ᵥ v) i = f' i v := by
  refine ⟨LinearMap.toMatrix' (ContinuousLinearMap.pi f' : (Fin p → ℝ) →L[ℝ] Fin N → ℝ).toLinearMap, ?_, fun v i => ?_⟩
  · refine (hasFDerivAt_pi.mpr h).congr_fderiv ?_
    ext v i
    simp
  · rw [← Matrix.toLin'_apply, Matrix.toLin'_toMatrix']
    rfl

/-- C175 for the material of a bare substrate: if the varying parameters are parameters of the substrate's material, no
direction leaves its index at all measured wavelengths unchanged to first order, and `x0` fits the data perfectly, then
parameters near `x0` that fit noisy data at least as well as `x0` differ from it by at most a constant times the noise. -/
theorem C175_substrate (h : FitsSubstrate env o st cs n₀ sub pts X) (hn : p = (varying env o st).length) {x0 : Fin p → ℝ}
    (hX : ∀ᶠ x in 𝓝 x0, List.ofFn x ∈ X) (hperf : Perfect env o st (List.ofFn x0))
    (hends : ∀ pt ∈ pts, ∀ k : ℤ, pt.2.2.2 - st.vals (st.models o.model).rm.off ≠
      (if (st.models o.model).rm.flip then 180 else 360) * k)
    (hreach : Reach (st.vals (st.models o.model).rm.off) pts)
    {nb : ℝ → (Fin p → ℝ) → ℂ} (hm : SmoothIndex env o st n₀ sub pts x0 nb)
    (hdir : ∀ v, (∀ pt ∈ pts, fderiv ℝ (nb pt.1) x0 v = 0) → v = 0) :
    ∃ K, ∀ᶠ x in 𝓝 x0, ∀ h' d' pts', Presents h' d' pts' → SamePlaces pts pts' →
      Reach (st.vals (st.models o.model).rm.off) pts' →
      ∀ u w, (chisqr env { o with data := d' } (some (List.ofFn x)) { st with heap := h' }).1 = .ok (some u) →
        (chisqr env { o with data := d' } (some (List.ofFn x0)) { st with heap := h' }).1 = .ok (some w) →
      u ≤ w → Real.sqrt ((x - x0) ⬝ᵥ (x - x0)) ≤ K * Real.sqrt (noise pts pts') := by
  choose ψ Δ ψ' Δ' k hv h1 h2 h3 h4 h5 using fun i : Fin pts.length =>
    h.respond hX hperf hends hm (List.getElem_mem i.2)
  obtain ⟨A, hA, eA⟩ := jacobian_pi (f := fun x i => ψ i x) h3
  obtain ⟨B, hB, eB⟩ := jacobian_pi (f := fun x i => Δ i x) h4
  have htr : Tracks env o st pts x0 (fun x i => ψ i x) (fun x i => Δ i x) := by
    filter_upwards [eventually_all.mpr hv] with x hx
    refine ⟨fun i => Δ i x, fun i => ⟨0, by simp⟩, ?_⟩
    rw [values_iff, setp, if_pos (by simpa using hn)]
    unfold PointValues
    rw [List.forall₂_iff_get]
    refine ⟨by simp, fun i hi hi' => ?_⟩
    have := hx ⟨i, hi⟩
    rw [h.float]
    simpa [valsAt] using this
  have hre : Reproduces pts x0 (fun x i => ψ i x) (fun x i => Δ i x) := fun i => ⟨h1 i, k i, h2 i⟩
  obtain ⟨s, hs0, hs⟩ := form_bound (A := A) (B := B) fun v a b => hdir v fun pt hpt => by
    obtain ⟨i, hi, rfl⟩ := List.getElem_of_mem hpt
    exact h5 ⟨i, hi⟩ v (by rw [← eA, a]; rfl) (by rw [← eB, b]; rfl)
  have key := C175_noise h.data h.float hn htr hre (Eventually.of_forall fun x => (inRange_iff hn h.off x pts).mpr hreach)
    hA hB (σ := s / 2) (by positivity) (by linarith) hs
  refine ⟨4 / s, ?_⟩
  filter_upwards [key] with x hx h' d' pts' a1 a2 a3 u w a4 a5 a6
  have := hx h' d' pts' a1 a2 ((inRange_iff hn h.off x0 pts').mpr a3) ((inRange_iff hn h.off x pts').mpr a3) u w a4 a5 a6
  rw [div_mul_eq_mul_div, le_div_iff₀ hs0]
  linarith

/-! ### A Cauchy substrate measured at three wavelengths -/

/-- The data points of `subSt`. -/
noncomputable def subPts (ψ ψ' ψ'' : ℝ) : List Pt := [(400, filmAoi, ψ, 180), (500, filmAoi, ψ', 180), (600, filmAoi, ψ'', 180)]

theorem sub_at (env : Env) (hpars : env.pars (subComps.map .comp) none = [1, 2, 4, 5, 6]) (ψ ψ' ψ'' A B C : ℝ) :
    valsAt env subObj (subSt ψ ψ' ψ'') [A, B, C] =
      fun p => if p = 4 then A else if p = 5 then B else if p = 6 then C else 0 := by
  funext p
  have hv : (subSt ψ ψ' ψ'').vals = fun p => if p = 4 then 3 / 2 else if p = 5 then 1 / 100 else 0 := rfl
  rw [valsAt, sub_varying env hpars, hv]
  simp only [assign, Function.update_apply]
  by_cases h4 : p = 4
  · subst h4; simp
  · by_cases h5 : p = 5
    · subst h5; simp
    · simp [h4, h5]

theorem film_angle : |rad filmAoi| < Real.pi / 2 ∧ 0 < filmAoi ∧ Real.sin (rad filmAoi) = 3 / 5 ∧ Real.tan (rad filmAoi) < 1 := by
  have hpi := Real.pi_pos
  have hlt := Real.arcsin_lt_pi_div_two.mpr (by norm_num : (3 / 5 : ℝ) < 1)
  have hgt := Real.arcsin_pos.mpr (by norm_num : (0 : ℝ) < 3 / 5)
  refine ⟨by rw [film_rad, abs_of_pos hgt]; exact hlt, by unfold filmAoi; positivity, ?_, ?_⟩
  · rw [film_rad, Real.sin_arcsin] <;> norm_num
  · rw [film_rad, Real.tan_arcsin]
    rw [show (1 : ℝ) - (3 / 5) ^ 2 = (4 / 5) ^ 2 by norm_num, Real.sqrt_sq (by norm_num)]
    norm_num

theorem sub_fits (env : Env) (hdt : env.dt = .float) (hpars : env.pars (subComps.map .comp) none = [1, 2, 4, 5, 6])
    (ψ ψ' ψ'' : ℝ) : FitsSubstrate env subObj (subSt ψ ψ' ψ'') subComps (fun _ => 1)
      (fun v => .cauchy 658 (v 4) (v 5) (v 6)) (subPts ψ ψ' ψ'')
      {x | ∃ A B C : ℝ, x = [A, B, C] ∧ 1 < A ∧ 0 ≤ B ∧ 0 ≤ C} := by
  have hvar := sub_varying env hpars ψ ψ' ψ''
  have hpres : Presents (subSt ψ ψ' ψ'').heap subObj.data (subPts ψ ψ' ψ'') := by
    constructor <;> simp [subPts, subSt, subObj, wavelength, aoi, psi, delta, len, access, pick]
  refine ⟨hpres, hdt, by rw [hvar]; simp [subSt], plain_of rfl (by simp [subComps])
    (by simp [subComps, dry, Comp.isSlab, Comp.dflt]) le_rfl (.inl rfl), ?_, ?_, ?_⟩
  · rintro _ ⟨A, B, C, rfl, -⟩
    rw [hvar]; rfl
  · rintro _ ⟨A, B, C, rfl, hA, hB, hC⟩ pt hpt
    have hw : 0 < pt.1 := by
      simp only [subPts, List.mem_cons, List.not_mem_nil, or_false] at hpt
      rcases hpt with rfl | rfl | rfl <;> norm_num
    obtain ⟨n, -, h1, h2⟩ := sub_sees env (v := valsAt env subObj (subSt ψ ψ' ψ'') [A, B, C])
      (by rw [sub_at env hpars]; simpa using hA) (by rw [sub_at env hpars]; simpa using hB)
      (by rw [sub_at env hpars]; simpa using hC) hw
    exact ⟨n, h1, h2⟩
  · intro pt hpt
    simp only [subPts, List.mem_cons, List.not_mem_nil, or_false] at hpt
    rcases hpt with rfl | rfl | rfl <;> exact ⟨by norm_num, one_pos, film_angle.1, film_angle.2.1.ne'⟩

theorem sub_perfect (env : Env) (hdt : env.dt = .float) (hpars : env.pars (subComps.map .comp) none = [1, 2, 4, 5, 6])
    {A B C : ℝ} (hA : 1 < A) (hB : 0 ≤ B) (hC : 0 ≤ C) :
    ∃ ψ ψ' ψ'' : ℝ, Perfect env subObj (subSt ψ ψ' ψ'') [A, B, C] := by
  obtain ⟨habs, haoi, hsin, htan⟩ := film_angle
  have hval : ∀ w : ℝ, 0 < w → ∃ ψ : ℝ, PointVal env.ext env.zs .float (valsAt env subObj (subSt 0 0 0) [A, B, C]) ⟨7, false⟩
      { data := subComps.map .comp } (w, filmAoi) (some ψ, some 180) := by
    intro w hw
    obtain ⟨n, hn, hm, hs⟩ := sub_sees env (v := valsAt env subObj (subSt 0 0 0) [A, B, C])
      (by rw [sub_at env hpars]; simpa using hA) (by rw [sub_at env hpars]; simpa using hB)
      (by rw [sub_at env hpars]; simpa using hC) hw
    have hp : Plain { data := subComps.map .comp } subComps :=
      plain_of rfl (by simp [subComps]) (by simp [subComps, dry, Comp.isSlab, Comp.dflt]) le_rfl (.inl rfl)
    obtain ⟨rows, h1, h2⟩ := C117_slabs hp hw.ne' hs
    have ph : Physical ⟨((1 : ℝ) : ℂ), [], (n : ℂ)⟩ 1 (rad filmAoi) w :=
      ⟨rfl, one_pos, habs, hw, by simp, hm.2.2, by simp, by simp⟩
    obtain ⟨ψ, -, hψ⟩ := (C113_brewster h2 ph haoi.le (by rw [hsin]; linarith) hn.ne' env.zs 0 false).1
      (by rw [div_one]; linarith)
    refine ⟨ψ, rows, (some ψ, some 180), h1, ?_, rfl⟩
    have : valsAt env subObj (subSt 0 0 0) [A, B, C] 7 = 0 := by rw [sub_at env hpars]; simp
    simp only [this]
    rw [hψ, add_zero]
  obtain ⟨ψ, g1⟩ := hval 400 (by norm_num)
  obtain ⟨ψ', g2⟩ := hval 500 (by norm_num)
  obtain ⟨ψ'', g3⟩ := hval 600 (by norm_num)
  refine ⟨ψ, ψ', ψ'', ?_⟩
  have hfit := sub_fits env hdt hpars ψ ψ' ψ''
  unfold Perfect
  rw [hfit.chisqr_at ⟨_, _, _, rfl, hA, hB, hC⟩, chisqr_eq]
  have e : valsAt env subObj (subSt ψ ψ' ψ'') [A, B, C] = valsAt env subObj (subSt 0 0 0) [A, B, C] := by
    rw [sub_at env hpars, sub_at env hpars]
  rw [e]
  have hr := (C81_residuals (env := env) (o := subObj)
    (st := { subSt ψ ψ' ψ'' with vals := valsAt env subObj (subSt 0 0 0) [A, B, C] }) hfit.data).mpr
    ⟨[(some ψ, some 180), (some ψ', some 180), (some ψ'', some 180)], values_iff.mpr (.cons (by rw [hdt]; exact g1)
      (.cons (by rw [hdt]; exact g2) (.cons (by rw [hdt]; exact g3) .nil))), rfl⟩
  rw [hr]
  simp [Except.map, circularDistance, finite, subPts]

/-- The Cauchy law as a linear function of its parameters. -/
noncomputable def cauchyMap (w : ℝ) : (Fin 3 → ℝ) →L[ℝ] ℂ :=
  Complex.ofRealCLM.comp (ContinuousLinearMap.proj 0 + (1 / (w / 1000) ^ 2) • ContinuousLinearMap.proj 1 +
    (1 / (w / 1000) ^ 4) • ContinuousLinearMap.proj 2)

theorem cauchyMap_apply (w : ℝ) (x : Fin 3 → ℝ) :
    cauchyMap w x = ((x 0 + x 1 / (w / 1000) ^ 2 + x 2 / (w / 1000) ^ 4 : ℝ) : ℂ) := by
  simp only [cauchyMap, ContinuousLinearMap.comp_apply, _root_.add_apply, _root_.smul_apply,
    ContinuousLinearMap.proj_apply, Complex.ofRealCLM_apply, smul_eq_mul]
  congr 1
  ring

/-- The fit of `A`, `B`, `C` to data that a Cauchy substrate with `A > 1`, `B, C > 0` produces: noise enters at most
linearly. -/
example (env : Env) (hdt : env.dt = .float) (hpars : env.pars (subComps.map .comp) none = [1, 2, 4, 5, 6])
    {A B C : ℝ} (hA : 1 < A) (hB : 0 < B) (hC : 0 < C) : ∃ ψ ψ' ψ'' K : ℝ, ∀ᶠ x in 𝓝 ![A, B, C], ∀ h' d' pts',
      Presents h' d' pts' → SamePlaces (subPts ψ ψ' ψ'') pts' → Reach 0 pts' →
      ∀ u w, (chisqr env { subObj with data := d' } (some (List.ofFn x)) { subSt ψ ψ' ψ'' with heap := h' }).1 = .ok (some u) →
        (chisqr env { subObj with data := d' } (some [A, B, C]) { subSt ψ ψ' ψ'' with heap := h' }).1 = .ok (some w) →
      u ≤ w → Real.sqrt ((x - ![A, B, C]) ⬝ᵥ (x - ![A, B, C])) ≤ K * Real.sqrt (noise (subPts ψ ψ' ψ'') pts') := by
  obtain ⟨ψ, ψ', ψ'', hperf⟩ := sub_perfect env hdt hpars hA hB.le hC.le
  have ho : (subSt ψ ψ' ψ'').vals ((subSt ψ ψ' ψ'').models subObj.model).rm.off = 0 := by simp [subSt]
  have hlist : List.ofFn ![A, B, C] = [A, B, C] := by simp
  have hpt : ∀ pt ∈ subPts ψ ψ' ψ'', 0 < pt.1 ∧ pt.2.1 = filmAoi ∧ pt.2.2.2 = 180 := by
    intro pt hpt
    simp only [subPts, List.mem_cons, List.not_mem_nil, or_false] at hpt
    rcases hpt with rfl | rfl | rfl <;> norm_num
  obtain ⟨K, hK⟩ := C175_substrate (x0 := ![A, B, C]) (nb := fun w x => cauchyMap w x) (sub_fits env hdt hpars ψ ψ' ψ'')
    (by rw [sub_varying env hpars]; rfl) (by
      have h0 : Tendsto (fun x : Fin 3 → ℝ => x 0) (𝓝 ![A, B, C]) (𝓝 A) := (continuous_apply (0 : Fin 3)).continuousAt
      have h1 : Tendsto (fun x : Fin 3 → ℝ => x 1) (𝓝 ![A, B, C]) (𝓝 B) := (continuous_apply (1 : Fin 3)).continuousAt
      have h2 : Tendsto (fun x : Fin 3 → ℝ => x 2) (𝓝 ![A, B, C]) (𝓝 C) := (continuous_apply (2 : Fin 3)).continuousAt
      filter_upwards [h0.eventually (Ioi_mem_nhds hA), h1.eventually (Ioi_mem_nhds hB), h2.eventually (Ioi_mem_nhds hC)]
        with x e0 e1 e2
      exact ⟨x 0, x 1, x 2, by simp [List.ofFn_succ], e0, le_of_lt e1, le_of_lt e2⟩)
    (by rw [hlist]; exact hperf) (fun pt h k => by
      rw [ho, (hpt pt h).2.2, show ((subSt ψ ψ' ψ'').models subObj.model).rm.flip = false from rfl]
      simp only [Bool.false_eq_true, if_false]
      intro hk
      have h1 : (1 : ℝ) = 2 * k := by linarith
      have h2 : (1 : ℤ) = 2 * k := by exact_mod_cast h1
      omega) (fun pt h => by rw [ho, (hpt pt h).2.2]; norm_num)
    ⟨fun pt h => Eventually.of_forall fun x => by
        have e : List.ofFn x = [x 0, x 1, x 2] := by simp [List.ofFn_succ]
        rw [e, sub_at env hpars, cauchyMap_apply]
        have h1 := C49_cauchy env.ext.zs 658 (x 0) (x 1) (x 2) (hpt pt h).1
        simp only [Scat.complex, Scat.ownWav, pick_ne (hpt pt h).1.ne'] at h1
        simp only [if_true]
        exact h1,
      fun pt _ => (cauchyMap pt.1).contDiff.contDiffAt,
      fun pt h => .inr (by
        rw [(hpt pt h).2.1, film_angle.2.2.1, cauchyMap_apply, Complex.ofReal_re]
        have h1 : 0 ≤ B / (pt.1 / 1000) ^ 2 := by positivity
        have h2 : 0 ≤ C / (pt.1 / 1000) ^ 4 := by positivity
        have h3 : |(1 : ℝ) * (3 / 5)| = 3 / 5 := by rw [one_mul, abs_of_pos (by norm_num)]
        rw [h3]
        simp only [Matrix.cons_val_zero, Matrix.cons_val_one, Matrix.cons_val]
        linarith)⟩
    (fun v hv => by
      have key : ∀ w ∈ [(400 : ℝ), 500, 600], v 0 + v 1 / (w / 1000) ^ 2 + v 2 / (w / 1000) ^ 4 = 0 := by
        intro w hw
        have h1 : ∃ pt ∈ subPts ψ ψ' ψ'', pt.1 = w := by
          simp only [List.mem_cons, List.not_mem_nil, or_false] at hw
          rcases hw with rfl | rfl | rfl <;> simp [subPts]
        obtain ⟨pt, h2, rfl⟩ := h1
        have h3 := hv pt h2
        rw [ContinuousLinearMap.fderiv, cauchyMap_apply] at h3
        exact_mod_cast h3
      have k1 := key 400 (by simp)
      have k2 := key 500 (by simp)
      have k3 := key 600 (by simp)
      norm_num at k1 k2 k3
      ext i
      fin_cases i <;> simp <;> linarith)
  rw [ho, hlist] at hK
  exact ⟨ψ, ψ', ψ'', K, hK⟩

end Verif.Obj
