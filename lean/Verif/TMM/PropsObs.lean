import Verif.TMM.PropsStack

/-!
# C13 - C19, C22, C23: psi and delta as observables
-/

namespace Verif.TMM

open Complex (I)

/-! ### C14: what psi and delta encode -/

theorem exp_npAngle (σ : Bool) (z : ℂ) :
    (‖z‖ : ℂ) * Complex.exp (npAngle σ z * I) = z := by
  have key : Complex.exp (npAngle σ z * I) = Complex.exp (Complex.arg z * I) := by
    unfold npAngle
    split_ifs with h hs
    · have : Complex.arg z = Real.pi := Complex.arg_eq_pi_iff.mpr ⟨h.2, h.1⟩
      rw [this]
    · have : Complex.arg z = Real.pi := Complex.arg_eq_pi_iff.mpr ⟨h.2, h.1⟩
      rw [this]
      push_cast
      rw [Complex.exp_pi_mul_I, neg_mul, Complex.exp_neg, Complex.exp_pi_mul_I]
      norm_num
    · rfl
  rw [key]
  exact Complex.norm_mul_exp_arg_mul_I z

/-- The ratio of amplitudes behind a finite (psi, delta). -/
theorem psiDelta_encodes {σ : Bool} {off : ℝ} {rs rp ts tp : ℂ} {ψ Δ : ℝ}
    (h : psiDelta σ false off ⟨some (rs, ts), some (rp, tp)⟩ = (some ψ, some Δ)) :
    rp = rs * (Real.tan (rad ψ) : ℝ) * Complex.exp (-(I * (rad (Δ - off) : ℝ))) ∧
      0 < ψ ∧ ψ < 90 ∧ 0 ≤ Δ - off ∧ Δ - off ≤ 360 := by
  have hpi := Real.pi_pos
  simp only [psiDelta, Prod.mk.injEq, Option.map_eq_some_iff] at h
  obtain ⟨⟨x, hx, hxψ⟩, ⟨y, hy, hyΔ⟩⟩ := h
  -- denominators
  simp only [deltaRad, Option.bind_eq_bind, Option.bind_eq_some_iff, Option.some.injEq] at hy
  obtain ⟨q, hq, w, hw, hy⟩ := hy
  obtain ⟨hrs, hq⟩ := cdiv_eq_some.mp hq
  obtain ⟨hq0, hw⟩ := cdiv_eq_some.mp hw
  have hrp : rp ≠ 0 := by
    intro h0; apply hq0; rw [hq, h0]; simp
  simp only [psiRad, if_neg hrs, Option.some.injEq] at hx
  have hρ : 0 < ‖rp / rs‖ := by
    rw [norm_pos_iff]; exact div_ne_zero hrp hrs
  have hrψ : rad ψ = x := by
    rw [rad, ← hxψ]; field_simp
  have hrΔ : rad (Δ - off) = y := by
    rw [rad, ← hyΔ, reflectRad]; simp only [Bool.false_eq_true, if_false]; field_simp; ring
  have hΔ : Δ - off = y * (180 / Real.pi) := by
    rw [← hrΔ, rad]; field_simp
  have hm := npAngle_mem σ w
  have h180 : (0 : ℝ) < 180 / Real.pi := by positivity
  refine ⟨?_, ?_, ?_, ?_, ?_⟩
  · rw [hrψ, hrΔ, ← hx, Real.tan_arctan]
    have hw0 : w ≠ 0 := by
      rw [hw]; exact div_ne_zero one_ne_zero hq0
    have hwn : ‖w‖ = ‖rp / rs‖⁻¹ := by
      rw [hw, hq, norm_div, norm_one, neg_div, norm_neg, one_div]
    have he := exp_npAngle σ w
    -- rp / rs = - 1 / w
    have h1 : rp / rs = -(1 / w) := by
      rw [hw, hq]; field_simp
    have h2 : Complex.exp (-(I * ((y : ℝ) : ℂ))) = -Complex.exp (-(npAngle σ w * I)) := by
      rw [← hy]
      push_cast
      rw [show -(I * ((npAngle σ w : ℂ) + Real.pi)) = -(npAngle σ w * I) + -(Real.pi * I) by ring,
        Complex.exp_add, Complex.exp_neg (Real.pi * I), Complex.exp_pi_mul_I]
      norm_num
    rw [h2]
    have h3 : (1 : ℂ) / w = (‖rp / rs‖ : ℂ) * Complex.exp (-(npAngle σ w * I)) := by
      rw [Complex.exp_neg]
      nth_rw 1 [← he]
      rw [hwn]
      push_cast
      have := Complex.exp_ne_zero (npAngle σ w * I)
      have h4 : (‖rp / rs‖ : ℂ) ≠ 0 := Complex.ofReal_ne_zero.mpr hρ.ne'
      field_simp
    have h5 : rp = rs * (rp / rs) := by field_simp
    calc rp = rs * (rp / rs) := h5
      _ = rs * -((‖rp / rs‖ : ℂ) * Complex.exp (-(npAngle σ w * I))) := by rw [← h3, ← h1]
      _ = _ := by ring
  · rw [← hxψ, ← hx]
    exact mul_pos (Real.arctan_pos.mpr hρ) h180
  · rw [← hxψ, ← hx]
    have := Real.arctan_lt_pi_div_two ‖rp / rs‖
    calc _ < Real.pi / 2 * (180 / Real.pi) := by gcongr
      _ = 90 := by field_simp; norm_num
  · rw [hΔ, ← hy]
    exact mul_nonneg (by linarith) h180.le
  · rw [hΔ, ← hy]
    calc _ ≤ (2 * Real.pi) * (180 / Real.pi) := by gcongr; linarith
      _ = 360 := by field_simp; norm_num

/-- C14: whenever psi and delta are finite, `r_p = r_s tan(psi) exp(-i delta)` (delta before
offset), with psi strictly between 0 and 90 degrees and delta between 0 and 360. -/
theorem C14_encode_ratio {rows : List Row} {st : Stack} (hr : RowsOf rows st) (hnz : st.NZ)
    {wav a off : ℝ} (hw : wav ≠ 0) {zs : List Layer → ℝ → ℝ → Bool} {ψ Δ : ℝ}
    (h : (deltaPsiTMM zs [a] rows wav off false).1 = .ok [(some ψ, some Δ)]) :
    ∃ am rs ts rp tp, cohTmm (st.layers .inf .inf) [((rad a : ℝ), wav)] = .ok [am] ∧
      am.of .s = some (rs, ts) ∧ am.of .p = some (rp, tp) ∧
      rp = rs * (Real.tan (rad ψ) : ℝ) * Complex.exp (-(I * (rad (Δ - off) : ℝ))) ∧
      0 < ψ ∧ ψ < 90 ∧ 0 ≤ Δ - off ∧ Δ - off ≤ 360 := by
  obtain ⟨n₀, hf⟩ := rowsOf_front hr
  rw [deltaPsi_rows hr hnz hw] at h
  simp only [List.map_cons, List.map_nil, Except.ok.injEq, List.cons.injEq, and_true] at h
  refine ⟨⟨solveSt .s st (rad a) wav, solveSt .p st (rad a) wav⟩, ?_⟩
  cases h1 : solveSt .s st (rad a) wav with
  | none => rw [h1] at h; simp [psiDelta] at h
  | some x =>
    cases h2 : solveSt .p st (rad a) wav with
    | none => rw [h1, h2] at h; simp [psiDelta] at h
    | some y =>
      rw [h1, h2] at h
      rw [← h1, ← h2]
      exact ⟨x.1, x.2, y.1, y.2, coh_real hf hnz hw _ _, h1, h2, psiDelta_encodes h⟩

/-- C14, converse: psi and delta are finite exactly when both amplitudes are finite and non-zero. -/
theorem C14_finite_iff {rows : List Row} {st : Stack} (hr : RowsOf rows st) (hnz : st.NZ)
    {wav a off : ℝ} (hw : wav ≠ 0) (zs : List Layer → ℝ → ℝ → Bool) (refl : Bool) :
    (∃ ψ Δ, (deltaPsiTMM zs [a] rows wav off refl).1 = .ok [(some ψ, some Δ)]) ↔
      ∃ am rs ts rp tp, cohTmm (st.layers .inf .inf) [((rad a : ℝ), wav)] = .ok [am] ∧
        am.of .s = some (rs, ts) ∧ am.of .p = some (rp, tp) ∧ rs ≠ 0 ∧ rp ≠ 0 := by
  obtain ⟨n₀, hf⟩ := rowsOf_front hr
  rw [deltaPsi_rows hr hnz hw, coh_real hf hnz hw]
  simp only [List.map_cons, List.map_nil, Except.ok.injEq, List.cons.injEq, and_true]
  constructor
  · rintro ⟨ψ, Δ, h⟩
    cases h1 : solveSt .s st (rad a) wav with
    | none => rw [h1] at h; simp [psiDelta] at h
    | some x =>
      cases h2 : solveSt .p st (rad a) wav with
      | none => rw [h1, h2] at h; simp [psiDelta] at h
      | some y =>
        rw [h1, h2] at h
        refine ⟨_, x.1, x.2, y.1, y.2, rfl, rfl, rfl, ?_⟩
        simp only [psiDelta, Prod.mk.injEq, Option.map_eq_some_iff] at h
        obtain ⟨_, ⟨z, hy, _⟩⟩ := h
        simp only [deltaRad, Option.bind_eq_bind, Option.bind_eq_some_iff] at hy
        obtain ⟨q, hq, w, hw, hy⟩ := hy
        obtain ⟨hrs, hq⟩ := cdiv_eq_some.mp hq
        obtain ⟨hq0, hw⟩ := cdiv_eq_some.mp hw
        refine ⟨hrs, fun h0 => hq0 ?_⟩
        rw [hq, h0]; simp
  · rintro ⟨am, rs, ts, rp, tp, rfl, h1, h2, hs, hp⟩
    simp only [Amps.of] at h1 h2
    have hq : -rp / rs ≠ 0 := div_ne_zero (neg_ne_zero.mpr hp) hs
    simp only [h1, h2, psiDelta, psiRad, if_neg hs, deltaRad, cdiv_of_ne hs, cdiv_of_ne hq,
      Option.bind_eq_bind, Option.bind_some, Option.map_some]
    exact ⟨_, _, rfl⟩

/-- C14 for psi alone: psi is finite exactly when both amplitudes are finite and not both zero; then
`|r_p| cos(psi) = |r_s| sin(psi)` with psi between 0 and 90 degrees, so psi is 0 where `r_p` vanishes
(the Brewster angle) and 90 where `r_s` vanishes. -/
theorem C14_psi {rows : List Row} {st : Stack} (hr : RowsOf rows st) (hnz : st.NZ)
    {wav a off : ℝ} (hw : wav ≠ 0) (zs : List Layer → ℝ → ℝ → Bool) (refl : Bool) :
    ∃ am c, cohTmm (st.layers .inf .inf) [((rad a : ℝ), wav)] = .ok [am] ∧
      (deltaPsiTMM zs [a] rows wav off refl).1 = .ok [c] ∧
      ((∃ ψ, c.1 = some ψ) ↔ ∃ rs ts rp tp, am.of .s = some (rs, ts) ∧ am.of .p = some (rp, tp) ∧
        (rs ≠ 0 ∨ rp ≠ 0)) ∧
      ∀ ψ rs ts rp tp, c.1 = some ψ → am.of .s = some (rs, ts) → am.of .p = some (rp, tp) →
        ‖rp‖ * Real.cos (rad ψ) = ‖rs‖ * Real.sin (rad ψ) ∧ 0 ≤ ψ ∧ ψ ≤ 90 := by
  obtain ⟨n₀, hf⟩ := rowsOf_front hr
  rw [deltaPsi_rows hr hnz hw, coh_real hf hnz hw]
  refine ⟨_, _, rfl, rfl, ?_, ?_⟩
  · simp only [Amps.of]
    cases solveSt .s st (rad a) wav with
    | none => simp [psiDelta]
    | some x =>
      cases solveSt .p st (rad a) wav with
      | none => simp [psiDelta]
      | some y =>
        simp only [psiDelta, psiRad]
        by_cases h1 : x.1 = 0
        · by_cases h2 : y.1 = 0
          · simp [h1, h2]
            rintro rs ts rfl rp tp rfl
            exact ⟨h1, h2⟩
          · simp [h1, h2]
            exact ⟨x.1, ⟨x.2, rfl⟩, y.1, ⟨y.2, rfl⟩, .inr h2⟩
        · simp [h1]
          exact ⟨x.1, ⟨x.2, rfl⟩, y.1, ⟨y.2, rfl⟩, .inl h1⟩
  · intro ψ rs ts rp tp h1 h2 h3
    simp only [Amps.of] at h2 h3
    beta_reduce at h1
    rw [h2, h3] at h1
    simp only [psiDelta, Option.map_eq_some_iff] at h1
    obtain ⟨x, hx, rfl⟩ := h1
    have hpi := Real.pi_pos
    have hrad : rad (x * (180 / Real.pi)) = x := by rw [rad]; field_simp
    rw [hrad]
    have h180 : (0 : ℝ) < 180 / Real.pi := by positivity
    have h90 : Real.pi / 2 * (180 / Real.pi) = 90 := by field_simp; norm_num
    unfold psiRad at hx
    split_ifs at hx with ha hb
    · simp only [Option.some.injEq] at hx
      subst hx
      refine ⟨by simp [ha], by positivity, h90.le⟩
    · simp only [Option.some.injEq] at hx
      subst hx
      have hs : 0 < ‖rs‖ := norm_pos_iff.mpr ha
      have hc := Real.cos_arctan_pos ‖rp / rs‖
      refine ⟨?_, mul_nonneg (Real.arctan_nonneg.mpr (norm_nonneg _)) h180.le, ?_⟩
      · have ht := Real.tan_arctan ‖rp / rs‖
        rw [Real.tan_eq_sin_div_cos, div_eq_iff hc.ne', norm_div] at ht
        rw [norm_div]
        rw [ht]
        field_simp
      · rw [← h90]
        gcongr
        exact (Real.arctan_lt_pi_div_two _).le

/-! ### C15, C16: convention and offset -/

/-- C15: reflecting delta gives `min(d, 360 - d)` (before offset) at every point and leaves psi
alone; the result lies between 0 and 180. -/
theorem C15_reflect {zs : List Layer → ℝ → ℝ → Bool} {aoi : List ℝ} {rows : List Row} {wav off : ℝ}
    {l : List (Option ℝ × Option ℝ)} (h : (deltaPsiTMM zs aoi rows wav off false).1 = .ok l) :
    (deltaPsiTMM zs aoi rows wav off true).1 =
        .ok (l.map fun x => (x.1, x.2.map fun d => min (d - off) (360 - (d - off)) + off)) ∧
      ∀ x ∈ l, ∀ d, x.2 = some d → 0 ≤ min (d - off) (360 - (d - off)) ∧
        min (d - off) (360 - (d - off)) ≤ 180 := by
  have hpi := Real.pi_pos
  have h180 : (0 : ℝ) < 180 / Real.pi := by positivity
  have hpp : Real.pi * (180 / Real.pi) = 180 := by field_simp
  -- one delta
  have key : ∀ σ rs rp x, deltaRad σ rs rp = some x → 0 ≤ x ∧ x ≤ 2 * Real.pi := by
    intro σ rs rp x hx
    simp only [deltaRad, Option.bind_eq_bind, Option.bind_eq_some_iff, Option.some.injEq] at hx
    obtain ⟨q, _, w, _, hx⟩ := hx
    have := npAngle_mem σ w
    constructor <;> linarith
  have hone : ∀ σ am, psiDelta σ true off am =
      ((psiDelta σ false off am).1, (psiDelta σ false off am).2.map
        fun d => min (d - off) (360 - (d - off)) + off) := by
    intro σ am
    unfold psiDelta
    cases am.s with
    | none => rfl
    | some x =>
      cases am.p with
      | none => rfl
      | some y =>
        simp only [Prod.mk.injEq, true_and, Option.map_map]
        cases hd : deltaRad σ x.1 y.1 with
        | none => rfl
        | some d =>
          simp only [Option.map_some, Function.comp, Option.some.injEq, reflectRad, if_true,
            Bool.false_eq_true, if_false, add_sub_cancel_right, add_left_inj]
          split_ifs with hlt
          · rw [min_eq_right]
            · linear_combination 2 * hpp
            · nlinarith
          · rw [min_eq_left]
            nlinarith
  have hrange : ∀ σ am d, (psiDelta σ false off am).2 = some d → 0 ≤ d - off ∧ d - off ≤ 360 := by
    intro σ am d hd
    unfold psiDelta at hd
    split at hd
    · simp only [Option.map_eq_some_iff, reflectRad, Bool.false_eq_true, if_false] at hd
      obtain ⟨x, hx, rfl⟩ := hd
      obtain ⟨k1, k2⟩ := key _ _ _ _ hx
      constructor
      · have := mul_nonneg k1 h180.le; linarith
      · have := mul_le_mul_of_nonneg_right k2 h180.le
        have e : 2 * Real.pi * (180 / Real.pi) = 360 := by linear_combination 2 * hpp
        linarith
    · cases hd
  unfold deltaPsiTMM at h ⊢
  cases rows with
  | nil => simp at h
  | cons r0 rest =>
    simp only at h ⊢
    cases hc : cohTmm (toLayers (zeroFrontK (r0 :: rest)))
      (aoi.map fun a => (((a * (Real.pi / 180) : ℝ) : ℂ), wav)) with
    | error e => rw [hc] at h; simp [Except.map] at h
    | ok amps =>
      rw [hc] at h
      simp only [Except.map, Except.ok.injEq] at h ⊢
      subst h
      constructor
      · rw [List.map_zipWith]
        congr 1
        funext a am
        exact hone _ _
      · intro x hx d hd
        obtain ⟨σ, am, rfl⟩ : ∃ σ am, x = psiDelta σ false off am := by
          clear hd
          induction aoi generalizing amps with
          | nil => simp at hx
          | cons a aoi ih =>
            clear ih hc
            obtain ⟨i, hi, rfl⟩ := List.mem_iff_getElem.mp hx
            rw [List.getElem_zipWith]
            exact ⟨_, _, rfl⟩
        obtain ⟨h1, h2⟩ := hrange _ _ _ hd
        constructor
        · exact le_min h1 (by linarith)
        · rcases le_total (d - off) 180 with h3 | h3
          · exact (min_le_left _ _).trans h3
          · exact (min_le_right _ _).trans (by linarith)

/-- C16: changing the offset by `c` adds `c` to every delta and leaves psi alone. -/
theorem C16_offset (zs : List Layer → ℝ → ℝ → Bool) (aoi : List ℝ) (rows : List Row)
    (wav off c : ℝ) (refl : Bool) :
    (deltaPsiTMM zs aoi rows wav (off + c) refl).1 =
      (deltaPsiTMM zs aoi rows wav off refl).1.map
        (List.map fun x => (x.1, x.2.map (· + c))) := by
  have hone : ∀ σ am, psiDelta σ refl (off + c) am =
      ((psiDelta σ refl off am).1, (psiDelta σ refl off am).2.map (· + c)) := by
    intro σ am
    unfold psiDelta
    cases am.s with
    | none => rfl
    | some x =>
      cases am.p with
      | none => rfl
      | some y =>
        simp only [Prod.mk.injEq, true_and, Option.map_map]
        congr 1
        funext d
        simp [add_assoc]
  unfold deltaPsiTMM
  cases rows with
  | nil => rfl
  | cons r0 rest =>
    simp only
    cases cohTmm (toLayers (zeroFrontK (r0 :: rest)))
      (aoi.map fun a => (((a * (Real.pi / 180) : ℝ) : ℂ), wav)) with
    | error e => rfl
    | ok amps =>
      simp only [Except.map, Except.ok.injEq]
      rw [List.map_zipWith]
      congr 1
      funext a am
      exact hone _ _

/-! ### C17: ignored inputs -/

/-- Two rows that differ at most in roughness and solvent fraction. -/
def SameLayer (r r' : Row) : Prop := r.thick = r'.thick ∧ r.ri = r'.ri

theorem toLayers_ends (r0 rb : Row) (mid : List Row) :
    toLayers (r0 :: mid ++ [rb]) = ⟨r0.ri, .inf⟩ ::
      (mid.map fun r => ⟨r.ri, .fin (r.thick / 10)⟩) ++ [⟨rb.ri, .inf⟩] := by
  simp only [toLayers, List.cons_append, List.map_cons, List.map_append, List.map_nil]
  have := infEnds_eq (.fin (r0.thick / 10)) (.fin (rb.thick / 10))
    (mid.map fun r => .fin (r.thick / 10))
  simp only [List.cons_append] at this
  rw [this]
  simp only [List.zipWith_cons_cons]
  congr 1
  clear this
  induction mid with
  | nil => rfl
  | cons r mid ih => simp [ih]

/-- C17: roughness, the extinction coefficient of the fronting medium, and the thicknesses of the
fronting and backing slabs have no influence on the result. -/
theorem C17_ignored {r0 r0' rb rb' : Row} {mid mid' : List Row}
    (h0 : r0.ri.map Complex.re = r0'.ri.map Complex.re) (hb : rb.ri = rb'.ri)
    (hm : List.Forall₂ SameLayer mid mid') (zs : List Layer → ℝ → ℝ → Bool) (aoi : List ℝ)
    (wav off : ℝ) (refl : Bool) :
    (deltaPsiTMM zs aoi (r0 :: mid ++ [rb]) wav off refl).1 =
      (deltaPsiTMM zs aoi (r0' :: mid' ++ [rb']) wav off refl).1 := by
  have e : toLayers (zeroFrontK (r0 :: mid ++ [rb])) =
      toLayers (zeroFrontK (r0' :: mid' ++ [rb'])) := by
    simp only [List.cons_append, zeroFrontK]
    rw [← List.cons_append, ← List.cons_append, toLayers_ends, toLayers_ends, hb]
    have h1 : (r0.ri.map fun n => ((n.re : ℝ) : ℂ)) = r0'.ri.map fun n => ((n.re : ℝ) : ℂ) := by
      have := congrArg (Option.map (fun x : ℝ => (x : ℂ))) h0
      simpa [Option.map_map, Function.comp_def] using this
    have h2 : (mid.map fun r => (⟨r.ri, .fin (r.thick / 10)⟩ : Layer)) =
        mid'.map fun r => ⟨r.ri, .fin (r.thick / 10)⟩ := by
      induction hm with
      | nil => rfl
      | cons h _ ih => simp [h.1, h.2, ih]
    simp only [h1, h2]
  simp only [deltaPsiTMM, List.cons_append] at e ⊢
  rw [e]

/-! ### C18: scaling -/

theorem psiDelta_oracle (σ σ' refl : Bool) (off : ℝ) (am : Amps) :
    SamePD (psiDelta σ refl off am) (psiDelta σ' refl off am) := by
  obtain ⟨s, p⟩ := am
  cases s with
  | none => exact ⟨rfl, .inl rfl⟩
  | some x =>
    cases p with
    | none => exact ⟨rfl, .inl rfl⟩
    | some y => exact psiDelta_same

/-- C18: scaling all thicknesses and the wavelength by the same factor changes nothing. -/
theorem C18_scale {rows : List Row} {st : Stack} (hr : RowsOf rows st) (hnz : st.NZ)
    {wav k : ℝ} (hw : wav ≠ 0) (hk : k ≠ 0) (zs : List Layer → ℝ → ℝ → Bool) (aoi : List ℝ)
    (off : ℝ) (refl : Bool) :
    ∃ l l', (deltaPsiTMM zs aoi rows wav off refl).1 = .ok l ∧
      (deltaPsiTMM zs aoi (rows.map fun r => { r with thick := k * r.thick }) (k * wav) off
        refl).1 = .ok l' ∧ List.Forall₂ SamePD l l' := by
  set st' : Stack := ⟨st.front, st.films.map fun f => (f.1, k * f.2), st.back⟩ with hst'
  have hr' : RowsOf (rows.map fun r => { r with thick := k * r.thick }) st' := by
    obtain ⟨r0, mid, rb, n0, rfl, h0, hf, hm, hb⟩ := hr
    refine ⟨{ r0 with thick := k * r0.thick }, mid.map fun r => { r with thick := k * r.thick },
      { rb with thick := k * rb.thick }, n0, by simp, h0, hf, ?_, hb⟩
    rw [hst']
    simp only [List.forall₂_map_left_iff, List.forall₂_map_right_iff]
    exact hm.imp fun r f h => ⟨h.1, by rw [h.2]; ring⟩
  have hnz' : st'.NZ := by
    refine ⟨hnz.1, fun f hf => ?_, hnz.2.2⟩
    obtain ⟨g, hg, rfl⟩ := List.mem_map.mp hf
    exact hnz.2.1 g hg
  have hsolve : ∀ pol θ, solveSt pol st' θ (k * wav) = solveSt pol st θ wav := by
    intro pol θ
    simp only [solveSt, hst', List.map_map]
    congr 2
    apply List.map_congr_left
    intro f _
    simp only [Function.comp, codeMed, Medium.mk.injEq, true_and]
    congr 1
    have h1 : (k : ℂ) ≠ 0 := Complex.ofReal_ne_zero.mpr hk
    have h2 : (wav : ℂ) ≠ 0 := Complex.ofReal_ne_zero.mpr hw
    push_cast
    field_simp
  rw [deltaPsi_rows hr hnz hw, deltaPsi_rows hr' hnz' (mul_ne_zero hk hw)]
  refine ⟨_, _, rfl, rfl, ?_⟩
  simp only [List.forall₂_map_left_iff, List.forall₂_map_right_iff, hsolve]
  exact List.forall₂_same.mpr fun a _ => psiDelta_oracle _ _ _ _ _

/-! ### C19: batches of points -/

/-- C19 for `coh_tmm`: a batch gives at every point what the point alone gives (although the
test for opaque layers looks at the whole batch). -/
theorem C19_coh_tmm_pointwise {l0 l1 : Layer} {rest : List Layer} {pts : List (ℂ × ℝ)}
    {l : List Amps} :
    cohTmm (l0 :: l1 :: rest) pts = .ok l ↔
      List.Forall₂ (fun pt a => cohTmm (l0 :: l1 :: rest) [pt] = .ok [a]) pts l := by
  classical
  have hone : ∀ pt a, cohTmm (l0 :: l1 :: rest) [pt] = .ok [a] ↔
      assertOk l0.n pt.1 ∧ a = pointAmps l0 (l0 :: l1 :: rest) pt := by
    intro pt a
    rw [cohTmm_eq]
    by_cases h : assertOk l0.n pt.1
    · rw [if_pos (by simpa using h)]
      simp [h, eq_comm]
    · rw [if_neg (by simpa using h)]
      simp [h]
  simp only [hone]
  rw [cohTmm_eq]
  by_cases h : ∀ pt ∈ pts, assertOk l0.n pt.1
  · rw [if_pos h]
    simp only [Except.ok.injEq]
    constructor
    · rintro rfl
      rw [List.forall₂_map_right_iff]
      exact List.forall₂_same.mpr fun pt hpt => ⟨h pt hpt, rfl⟩
    · intro hf
      clear h
      induction hf with
      | nil => rfl
      | cons h _ ih => rw [List.map_cons, h.2, ih]
  · rw [if_neg h]
    simp only [reduceCtorEq, false_iff]
    intro hf
    apply h
    clear h
    induction hf with
    | nil => simp
    | cons h _ ih =>
      intro pt hpt
      rcases List.mem_cons.mp hpt with rfl | hpt
      · exact h.1
      · exact ih pt hpt

/-- C19 for `Delta_Psi_TMM`: the angles are treated independently of each other. -/
theorem C19_delta_psi_pointwise {zs : List Layer → ℝ → ℝ → Bool} {aoi : List ℝ} {r0 r1 : Row}
    {rest : List Row} {wav off : ℝ} {refl : Bool} {l : List (Option ℝ × Option ℝ)} :
    (deltaPsiTMM zs aoi (r0 :: r1 :: rest) wav off refl).1 = .ok l ↔
      List.Forall₂ (fun a x => (deltaPsiTMM zs [a] (r0 :: r1 :: rest) wav off refl).1 = .ok [x])
        aoi l := by
  classical
  obtain ⟨l0, l1, ls, hls⟩ : ∃ l0 l1 ls, toLayers (zeroFrontK (r0 :: r1 :: rest)) =
      l0 :: l1 :: ls := by
    have hlen : (toLayers (zeroFrontK (r0 :: r1 :: rest))).length = rest.length + 2 := by
      simp [toLayers, zeroFrontK, infEnds]
    generalize toLayers (zeroFrontK (r0 :: r1 :: rest)) = L at hlen
    match L, hlen with
    | l0 :: l1 :: ls, _ => exact ⟨l0, l1, ls, rfl⟩
  simp only [deltaPsiTMM, hls, List.map_cons, List.map_nil]
  set g : ℝ → ℂ × ℝ := fun a => (((a * (Real.pi / 180) : ℝ) : ℂ), wav) with hg
  constructor
  · intro h
    cases hc : cohTmm (l0 :: l1 :: ls) (aoi.map g) with
    | error e => rw [hc] at h; simp [Except.map] at h
    | ok amps =>
      rw [hc] at h
      simp only [Except.map, Except.ok.injEq] at h
      subst h
      have := C19_coh_tmm_pointwise.mp hc
      rw [List.forall₂_map_left_iff] at this
      clear hc
      induction this with
      | nil => exact .nil
      | cons h _ ih =>
        refine .cons ?_ ih
        rw [hg] at h
        simp only at h
        rw [h]
        rfl
  · intro h
    have hex : ∃ amps, List.Forall₂ (fun a am => cohTmm (l0 :: l1 :: ls) [g a] = .ok [am])
        aoi amps ∧ List.zipWith (fun a am => psiDelta (zs (l0 :: l1 :: ls) a wav) refl off am)
          aoi amps = l := by
      induction h with
      | nil => exact ⟨[], .nil, rfl⟩
      | @cons a x aoi l h _ ih =>
        obtain ⟨amps, h1, h2⟩ := ih
        cases hc : cohTmm (l0 :: l1 :: ls) [g a] with
        | error e => rw [hg] at hc; simp only at hc; rw [hc] at h; simp [Except.map] at h
        | ok l' =>
          have hl' : ∃ am, l' = [am] := by
            have := C19_coh_tmm_pointwise.mp hc
            cases this with
            | cons _ h => cases h; exact ⟨_, rfl⟩
          obtain ⟨am, rfl⟩ := hl'
          rw [hg] at hc
          simp only at hc
          rw [hc] at h
          simp only [Except.map, List.zipWith_cons_cons, List.zipWith_nil_left, Except.ok.injEq,
            List.cons.injEq, and_true] at h
          exact ⟨am :: amps, .cons hc h1, by rw [List.zipWith_cons_cons, h, h2]⟩
    obtain ⟨amps, h1, h2⟩ := hex
    have : cohTmm (l0 :: l1 :: ls) (aoi.map g) = .ok amps := by
      rw [C19_coh_tmm_pointwise, List.forall₂_map_left_iff]
      exact h1
    rw [this]
    simp only [Except.map, h2]

/-! ### C22: the clip -/

/-- A film with its true phase, unless its attenuation exponent exceeds 35: then the exponent
is 35 and the real phase is kept. -/
def ClippedFilm (s : ℂ) (lam : ℝ) (f : ℂ × ℝ) (m : Medium) : Prop :=
  ∃ e : Medium, IsFilm s lam f e ∧ m.n = e.n ∧ m.c = e.c ∧ m.δ.re = e.δ.re ∧
    (e.δ.im ≤ 35 → m.δ = e.δ) ∧
    (35 < e.δ.im → m.δ.im = 35 ∧ ‖Complex.exp (I * m.δ)‖ = Real.exp (-35))

/-- C22: at every point of a batch the returned amplitudes solve the boundary value problem in
which films are exact, except those that are opaque at that very point, whose single pass
attenuation is limited to e^-35. -/
theorem C22_clip_confined {st : Stack} (hnz : st.NZ) {d0 db : Thick} {pts : List (ℂ × ℝ)}
    (hl : ∀ pt ∈ pts, pt.2 ≠ 0) {l : List Amps} (h : cohTmm (st.layers d0 db) pts = .ok l) :
    List.Forall₂ (fun pt a => ∀ pol r t, a.of pol = some (r, t) →
      ∃ ms c0 cb, List.Forall₂ (ClippedFilm (st.front * Complex.sin pt.1) pt.2) st.films ms ∧
        c0 ^ 2 = 1 - Complex.sin pt.1 ^ 2 ∧
        cb ^ 2 = 1 - (st.front * Complex.sin pt.1 / st.back) ^ 2 ∧
        Fields pol ⟨st.front, c0, 0⟩ 1 r (ms ++ [⟨st.back, cb, 0⟩]) t) pts l := by
  have ha : ∀ pt ∈ pts, assertOk (some st.front) pt.1 := by
    obtain ⟨l1, rest, hr⟩ := layers_cons st d0 db
    rw [hr] at h
    exact assertOk_of_ok h
  rw [cohTmm_stack st hnz d0 db pts hl ha] at h
  simp only [Except.ok.injEq] at h
  subst h
  rw [List.forall₂_map_right_iff]
  refine List.forall₂_same.mpr fun pt _ pol r t hr => ?_
  have hs : solveSt pol st pt.1 pt.2 = some (r, t) := by cases pol <;> exact hr
  rw [solveSt_eq] at hs
  refine ⟨_, _, _, ?_, root1m_sq _, root1m_sq _, (solveL_spec hs).1⟩
  rw [filmsM, List.forall₂_map_right_iff]
  refine List.forall₂_same.mpr fun f _ => ?_
  refine ⟨_, rawPhase_isFilm _ _ f.1 f.2, rfl, rfl, ?_, ?_, ?_⟩
  · simp [codeMed, clip35, rawPhase]
  · intro hle
    exact codeMed_raw hle
  · intro hlt
    have hlt' : 35 < (rawPhase (st.front * Complex.sin pt.1) pt.2 f.1 f.2).im := hlt
    have : (codeMed (st.front * Complex.sin pt.1) pt.2 f).δ.im = 35 := by
      have e : (codeMed (st.front * Complex.sin pt.1) pt.2 f).δ =
        clip35 (rawPhase (st.front * Complex.sin pt.1) pt.2 f.1 f.2) := rfl
      rw [e, clip35]
      exact min_eq_right hlt'.le
    refine ⟨this, ?_⟩
    rw [Complex.norm_exp]
    simp [this]

/-! ### C23: the input array -/

/-- C23: the array passed in is changed at most in the extinction coefficient of the first row,
and evaluating again on the array left behind gives the same result and leaves it alone. -/
theorem C23_input_usable (zs : List Layer → ℝ → ℝ → Bool) (aoi : List ℝ) (rows : List Row)
    (wav off : ℝ) (refl : Bool) :
    let out := deltaPsiTMM zs aoi rows wav off refl
    out.2.tail = rows.tail ∧
    out.2.head? = rows.head?.map (fun r => { r with ri := r.ri.map fun n => ((n.re : ℝ) : ℂ) }) ∧
    deltaPsiTMM zs aoi out.2 wav off refl = out := by
  cases rows with
  | nil => exact ⟨rfl, rfl, rfl⟩
  | cons r rest =>
    have e : zeroFrontK (zeroFrontK (r :: rest)) = zeroFrontK (r :: rest) := by
      simp [zeroFrontK, Option.map_map, Function.comp_def]
    refine ⟨rfl, rfl, ?_⟩
    simp only [deltaPsiTMM, zeroFrontK] at e ⊢
    rw [e]

/-! ### Non-vacuity -/

/-- Vacuum against index 3 at normal incidence: psi = 45, delta = 180. -/
theorem ex_normal (zs : List Layer → ℝ → ℝ → Bool) {wav : ℝ} (hw : wav ≠ 0) (off : ℝ)
    (refl : Bool) :
    (deltaPsiTMM zs [0] (exRows []) wav off refl).1 = .ok [(some 45, some (180 + off))] := by
  have hnz : Stack.NZ ⟨((1 : ℝ) : ℂ), [], 3⟩ := by simp [Stack.NZ]
  have hpi := Real.pi_pos
  rw [deltaPsi_rows (exRows_of []) hnz hw]
  have hroot : root1m 0 = 1 := by
    have := root1m_ofReal_le (x := 0) (by simp)
    simpa using this
  have hs : ∀ pol, ∃ t, solveSt pol ⟨((1 : ℝ) : ℂ), [], 3⟩ (rad 0 : ℝ) wav =
      some ((if pol = .s then -1 / 2 else 1 / 2), t) := by
    intro pol
    have h4 : ((1 : ℂ) + 3) ≠ 0 := by norm_num
    have h4' : ((3 : ℂ) + 1) ≠ 0 := by norm_num
    cases h : solveSt pol ⟨((1 : ℝ) : ℂ), [], 3⟩ (rad 0 : ℝ) wav with
    | none =>
      exfalso
      have hp : Physical ⟨((1 : ℝ) : ℂ), [], 3⟩ 1 (rad 0) 500 := exPhysical [] (by simp)
      obtain ⟨r, t, h'⟩ := hp.solved pol
      simp only [solveSt, List.map_nil] at h h'
      rw [h] at h'
      cases h'
    | some x =>
      refine ⟨x.2, ?_⟩
      rw [solveSt_eq] at h
      have hf := (solveL_spec (r := x.1) (t := x.2) h).1
      simp only [frontM, filmsM, backM, rad, zero_mul, Complex.ofReal_zero, Complex.sin_zero,
        mul_zero, zero_div, hroot, List.map_nil, List.nil_append, Fields, Complex.ofReal_one] at hf
      cases pol
      · obtain ⟨h1, h2⟩ := hf
        simp only [mul_one, add_zero, sub_zero] at h1 h2
        simp only [if_true, Option.some.injEq]
        apply Prod.ext
        · linear_combination (3 / 4) * h1 - (1 / 4) * h2
        · rfl
      · obtain ⟨h1, h2⟩ := hf
        simp only [add_zero, sub_zero] at h1 h2
        simp only [reduceCtorEq, if_false, Option.some.injEq]
        apply Prod.ext
        · linear_combination (1 / 4) * h1 - (3 / 4) * h2
        · rfl
  obtain ⟨ts, h1⟩ := hs .s
  obtain ⟨tp, h2⟩ := hs .p
  simp only [List.map_cons, List.map_nil, h1, h2, if_true, reduceCtorEq, if_false, psiDelta,
    Except.ok.injEq, List.cons.injEq, and_true, Prod.mk.injEq]
  constructor
  · have : ((1 : ℂ) / 2) / (-1 / 2) = -1 := by norm_num
    have h0 : ((-1 : ℂ) / 2) ≠ 0 := by norm_num
    simp only [psiRad, if_neg h0, this, norm_neg, norm_one, Real.arctan_one, Option.map_some,
      Option.some.injEq]
    field_simp; norm_num
  · have h0 : ((-1 : ℂ) / 2) ≠ 0 := by norm_num
    have h3 : -((1 : ℂ) / 2) / (-1 / 2) = 1 := by norm_num
    have h4 : npAngle (zs (Stack.layers ⟨((1 : ℝ) : ℂ), [], 3⟩ .inf .inf) 0 wav) 1 = 0 := by
      unfold npAngle
      rw [if_neg (by simp), Complex.arg_one]
    simp only [deltaRad, cdiv_of_ne h0, Option.bind_eq_bind, Option.bind_some, h3,
      cdiv_of_ne one_ne_zero, div_one, h4, zero_add, Option.map_some, Option.some.injEq]
    have : reflectRad refl Real.pi = Real.pi := by
      unfold reflectRad; split_ifs <;> linarith
    rw [this]; field_simp

/-- The hypotheses of C14 and C15 are met. -/
example (zs : List Layer → ℝ → ℝ → Bool) : ∃ am rs ts rp tp,
    cohTmm (Stack.layers ⟨((1 : ℝ) : ℂ), [], 3⟩ .inf .inf) [((rad 0 : ℝ), 500)] = .ok [am] ∧
      am.of .s = some (rs, ts) ∧ am.of .p = some (rp, tp) ∧
      rp = rs * (Real.tan (rad 45) : ℝ) * Complex.exp (-(I * (rad (180 + 0 - 0) : ℝ))) := by
  obtain ⟨am, rs, ts, rp, tp, h1, h2, h3, h4, _⟩ := C14_encode_ratio (exRows_of [])
    (by simp [Stack.NZ]) (by norm_num) (ex_normal zs (wav := 500) (by norm_num) 0 false)
  exact ⟨am, rs, ts, rp, tp, h1, h2, h3, h4⟩

example (zs : List Layer → ℝ → ℝ → Bool) : (deltaPsiTMM zs [0] (exRows []) 500 7 true).1 =
    .ok [(some 45, some (min (180 + 7 - 7) (360 - (180 + 7 - 7)) + 7))] :=
  (C15_reflect (ex_normal zs (by norm_num) 7 false)).1

/-- C22: an opaque film next to a transparent one, two points in one batch. -/
example : ∃ l, cohTmm (Stack.layers ⟨((1 : ℝ) : ℂ), [(2 + I, 3000), (2, 10)], 3⟩ .inf .inf)
    [((0 : ℝ), 500), ((0 : ℝ), 500000)] = .ok l ∧ l.length = 2 := by
  have hnz : Stack.NZ ⟨((1 : ℝ) : ℂ), [(2 + I, 3000), (2, 10)], 3⟩ := by
    refine ⟨by simp, ?_, by simp⟩
    intro f hf
    simp only [List.mem_cons, List.not_mem_nil, or_false] at hf
    rcases hf with rfl | rfl
    · intro h; have := congrArg Complex.im h; simp at this
    · simp
  refine ⟨_, cohTmm_stack _ hnz _ _ _ ?_ ?_, by simp⟩
  · intro pt hpt
    simp only [List.mem_cons, List.not_mem_nil, or_false] at hpt
    rcases hpt with rfl | rfl <;> norm_num
  · intro pt hpt
    simp only [List.mem_cons, List.not_mem_nil, or_false] at hpt
    rcases hpt with rfl | rfl <;> exact assertOk_real 1 0

end Verif.TMM
