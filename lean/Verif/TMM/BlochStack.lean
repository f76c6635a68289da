import Verif.TMM.Bloch
import Verif.TMM.PropsLayered
import Verif.TMM.PropsEnergy
import Mathlib.Analysis.Asymptotics.Lemmas
import Mathlib.Analysis.Calculus.Deriv.Inv

/-! # Lemmas on periodic stacks (C157) -/

namespace Verif.TMM

open Complex (I)
open Set Filter Topology

/-- A physical stack into which periods of the films `cell` are put between `pre` and `post`. -/
structure Periodic (pre post cell : List (ℂ × ℝ)) (nb : ℂ) (n₀ θ lam : ℝ) : Prop where
  stack : Physical ⟨n₀, pre ++ post, nb⟩ n₀ θ lam
  layers : ∀ f ∈ cell, Thin n₀ θ lam f

/-- The stack with `N` periods. -/
def periodic (pre post cell : List (ℂ × ℝ)) (nb : ℂ) (n₀ : ℝ) (N : ℕ) : Stack :=
  ⟨n₀, pre ++ repeated cell N ++ post, nb⟩

theorem repeated_eq (cell : List (ℂ × ℝ)) (N : ℕ) : repeated cell N = periods cell 1 N := by
  simp [repeated, periods]

theorem mem_repeated {cell : List (ℂ × ℝ)} {N : ℕ} {f : ℂ × ℝ} (h : f ∈ repeated cell N) : f ∈ cell := by
  obtain ⟨l, hl, hf⟩ := List.mem_flatten.mp h
  obtain ⟨-, rfl⟩ := List.mem_replicate.mp hl
  exact hf

/-- One period. -/
noncomputable def periodMap (pol : Pol) (cell : List (ℂ × ℝ)) (n₀ θ lam : ℝ) : FieldMap :=
  cellMap pol (n₀ * Complex.sin θ) (2 * Real.pi / lam) cell 1

theorem acrossAll_add (pol : Pol) (s : ℂ) (ms : List Medium) (u v : ℂ × ℂ) :
    acrossAll pol s ms (u + v) = acrossAll pol s ms u + acrossAll pol s ms v := by
  induction ms with
  | nil => rfl
  | cons m ms ih =>
    have e : ∀ x, acrossAll pol s (m :: ms) x = across pol s m.n (m.n * m.c) m.δ (acrossAll pol s ms x) := fun _ => rfl
    rw [e, e, e, ih]
    simp only [across]; ext <;> simp <;> ring

theorem reflOf_smul (pol : Pol) (n₀ θ : ℝ) {c : ℂ} (hc : c ≠ 0) (u : ℂ × ℂ) :
    reflOf pol n₀ θ (c • u) = reflOf pol n₀ θ u := by
  unfold reflOf
  rw [← mul_div_mul_left ((frontScale pol n₀ θ).2 * u.1 - (frontScale pol n₀ θ).1 * u.2) _ hc]
  congr 1 <;> simp <;> ring

theorem transOf_smul (pol : Pol) (n₀ θ : ℝ) {c : ℂ} (hc : c ≠ 0) (u : ℂ × ℂ) :
    transOf pol n₀ θ u = c * transOf pol n₀ θ (c • u) := by
  unfold transOf
  rw [← mul_div_assoc, ← mul_div_mul_left _ _ hc]
  congr 1
  simp; ring

theorem power_smul (c : ℂ) (u : ℂ × ℂ) : power (c • u) = ‖c‖ ^ 2 * power u := by
  simp only [power, Prod.smul_fst, Prod.smul_snd, smul_eq_mul, map_mul]
  rw [show c * u.1 * ((starRingEnd ℂ) c * (starRingEnd ℂ) u.2) =
    ((‖c‖ ^ 2 : ℝ) : ℂ) * (u.1 * (starRingEnd ℂ) u.2) by
      rw [← Complex.normSq_eq_norm_sq, Complex.normSq_eq_conj_mul_self]; ring]
  rw [Complex.re_ofReal_mul]

/-- Power carried by the wave in the backing medium. -/
theorem back_power {pre post : List (ℂ × ℝ)} {nb : ℂ} {n₀ θ lam : ℝ} (hs : Physical ⟨n₀, pre ++ post, nb⟩ n₀ θ lam)
    (hb : 0 < nb.im ∨ |n₀ * Real.sin θ| < nb.re) (pol : Pol) :
    0 < power (tanField pol ⟨nb, root1m (n₀ * Complex.sin θ / nb), 0⟩ 1 0) := by
  have hd := hs.back_dir
  have hq : 0 < (qOf (n₀ * Real.sin θ) nb).re := by
    rcases qOf_cases hs.back (n₀ * Real.sin θ) with h | ⟨h1, h2, -⟩ | ⟨h1, h2, -⟩ | ⟨h1, h2, -⟩ | ⟨h1, h2, -⟩
    · exact h.1
    all_goals
      exfalso
      rcases hb with hb | hb
      · exact hb.ne' h1
      · simp only at h2
        have := abs_lt.mp hb
        linarith [this.1, this.2]
  have hk : 0 < (kap pol (backM ⟨n₀, pre ++ post, nb⟩ θ)).re := by
    cases pol
    · rw [kap_s hd]; simpa [backM] using hq
    · rw [(kap_p hd).1]
      apply mul_pos hq
      have h1 : 0 < Complex.normSq nb := Complex.normSq_pos.mpr hs.back.ne_zero
      have h2 : 0 < Complex.normSq (qOf (n₀ * Real.sin θ) nb) :=
        Complex.normSq_pos.mpr fun h0 => by rw [h0] at hq; simp at hq
      simp only [backM]
      positivity
  rw [power_tan]
  simpa [flux, backM] using hk

section
variable {pre post cell : List (ℂ × ℝ)} {nb : ℂ} {n₀ θ lam : ℝ}

theorem physical_films (hs : Physical ⟨n₀, pre ++ post, nb⟩ n₀ θ lam) {fs : List (ℂ × ℝ)}
    (hfs : ∀ f ∈ fs, f ∈ pre ++ post) :
    (∀ m ∈ fs.map (codeMed (n₀ * Complex.sin θ) lam),
      m.n ≠ 0 ∧ m.c ^ 2 = 1 - ((n₀ * Complex.sin θ) / m.n) ^ 2 ∧ m.n * m.c ≠ 0) ∧
    ∀ pol, ∀ m ∈ fs.map (codeMed (n₀ * Complex.sin θ) lam), Damps pol m := by
  constructor
  · intro m hm
    obtain ⟨f, hf, rfl⟩ := List.mem_map.mp hm
    exact codeMed_ok (hs.films f (hfs f hf)).1.ne_zero (hs.offCritical f (hfs f hf))
  · intro pol m hm
    obtain ⟨f, hf, rfl⟩ := List.mem_map.mp hm
    exact hs.film_damps pol _ (List.mem_map.mpr ⟨f, hfs f hf, rfl⟩)

theorem power_acrossAll {s : ℂ} {pol : Pol} {ms : List Medium}
    (h1 : ∀ m ∈ ms, m.n ≠ 0 ∧ m.c ^ 2 = 1 - (s / m.n) ^ 2 ∧ m.n * m.c ≠ 0) (h2 : ∀ m ∈ ms, Damps pol m) (u : ℂ × ℂ) :
    power u ≤ power (acrossAll pol s ms u) := power_through h2 ((through_iff h1).mpr rfl)

theorem code_full {f : ℂ × ℝ} (h : Thin n₀ θ lam f) :
    codeMed (n₀ * Complex.sin θ) lam f = fullMed (n₀ * Complex.sin θ) lam f := by
  unfold codeMed fullMed
  congr 1
  apply clip35_of_le
  have := h.2.2.2 ⟨f.1, root1m (n₀ * Complex.sin θ / f.1),
    2 * Real.pi * f.1 * root1m (n₀ * Complex.sin θ / f.1) * f.2 / lam⟩ (codeMed_isFilm _ _ _)
  refine le_trans (le_of_eq ?_) (abs_le.mp this).2
  simp only
  congr 1; ring

theorem periodMap_apply (pol : Pol) (u : ℂ × ℂ) : periodMap pol cell n₀ θ lam u =
    acrossAll pol (n₀ * Complex.sin θ) (cell.map (fullMed (n₀ * Complex.sin θ) lam)) u := by
  have := acrossAll_cell pol (n₀ * Complex.sin θ) lam cell 1 u
  simpa [periodMap] using this.symm

variable (h : Periodic pre post cell nb n₀ θ lam)
include h

theorem Periodic.ok : ∀ m ∈ cell.map (fullMed ((n₀ : ℂ) * Complex.sin θ) lam),
    m.n ≠ 0 ∧ m.c ^ 2 = 1 - ((n₀ * Complex.sin θ) / m.n) ^ 2 ∧ m.n * m.c ≠ 0 := by
  intro m hm
  obtain ⟨f, hf, rfl⟩ := List.mem_map.mp hm
  exact fullMed_ok (h.layers f hf).1.ne_zero (h.layers f hf).2.2.1

theorem Periodic.unimod (pol : Pol) : Unimod (periodMap pol cell n₀ θ lam) := by
  intro u v
  rw [periodMap_apply, periodMap_apply, wron_acrossAll h.ok]

theorem Periodic.phys (N : ℕ) : Physical (periodic pre post cell nb n₀ N) n₀ θ lam :=
  physical_insert h.stack fun f hf => h.layers f (mem_repeated hf)

theorem Periodic.power_le (pol : Pol) (u : ℂ × ℂ) : power u ≤ power (periodMap pol cell n₀ θ lam u) := by
  rw [periodMap_apply]
  refine power_acrossAll h.ok ?_ u
  intro m hm
  obtain ⟨f, hf, rfl⟩ := List.mem_map.mp hm
  rw [← code_full (h.layers f hf)]
  refine (h.phys 1).film_damps pol _ (List.mem_map.mpr ⟨f, ?_, rfl⟩)
  simp [periodic, repeated, hf]

theorem Periodic.cell_eq {pol : Pol} {mcell : List Medium}
    (hc : List.Forall₂ (IsFilm ((n₀ : ℂ) * Complex.sin θ) lam) cell mcell) :
    (∀ m ∈ mcell, m.n ≠ 0 ∧ m.c ^ 2 = 1 - ((n₀ * Complex.sin θ) / m.n) ^ 2 ∧ m.n * m.c ≠ 0) ∧
      ∀ v, acrossAll pol (n₀ * Complex.sin θ) mcell v = periodMap pol cell n₀ θ lam v := by
  have h35 : ∀ m ∈ mcell, |m.δ.im| ≤ 35 := by
    intro m hm
    obtain ⟨f, hf, hfm⟩ := forall₂_mem_right hc m hm
    exact (h.layers f hf).2.2.2 m hfm
  refine ⟨fun m hm => ?_, fun v => ?_⟩
  · obtain ⟨f, hf, hfm⟩ := forall₂_mem_right hc m hm
    exact isFilm_ok (h.layers f hf).1.ne_zero (h.layers f hf).2.2.1 hfm
  · rw [acrossAll_flip (films_flip hc h35), periodMap_apply]
    congr 1
    exact List.map_congr_left fun f hf => code_full (h.layers f hf)

theorem Periodic.bloch_iff {pol : Pol} {mcell : List Medium}
    (hc : List.Forall₂ (IsFilm ((n₀ : ℂ) * Complex.sin θ) lam) cell mcell) {κ : ℂ} {u : ℂ × ℂ} :
    BlochWave pol mcell κ u ↔ κ ≠ 0 ∧ u ≠ 0 ∧ periodMap pol cell n₀ θ lam u = κ⁻¹ • u := by
  obtain ⟨ok, e⟩ := h.cell_eq (pol := pol) hc
  unfold BlochWave
  rw [through_iff ok, e, map_smul]
  constructor
  · rintro ⟨h1, h2⟩
    have hκ : κ ≠ 0 := by
      rintro rfl
      rw [zero_smul] at h2
      exact h1 h2
    refine ⟨hκ, h1, ?_⟩
    conv_rhs => rw [h2]
    rw [smul_smul, inv_mul_cancel₀ hκ, one_smul]
  · rintro ⟨hκ, h1, h2⟩
    refine ⟨h1, ?_⟩
    rw [h2, smul_smul, mul_inv_cancel₀ hκ, one_smul]

theorem Periodic.solve (pol : Pol) (N : ℕ) {w : ℂ × ℂ}
    (hw : w = acrossAll pol (n₀ * Complex.sin θ) (pre.map (codeMed (n₀ * Complex.sin θ) lam))
      ((periodMap pol cell n₀ θ lam ^ N) (backField pol post nb n₀ θ lam))) :
    solveSt pol (periodic pre post cell nb n₀ N) θ lam = some (reflOf pol n₀ θ w, transOf pol n₀ θ w) := by
  refine front_insert h.stack (fun f hf => h.layers f (mem_repeated hf)) pol ?_
  rw [hw, repeated_eq, acrossAll_periods]
  rfl

theorem Periodic.back_pos (hb : 0 < nb.im ∨ |n₀ * Real.sin θ| < nb.re) (pol : Pol) :
    0 < power (backField pol post nb n₀ θ lam) := by
  obtain ⟨ok, damps⟩ := physical_films h.stack (fs := post) fun f hf => List.mem_append_right _ hf
  exact (back_power h.stack hb pol).trans_le (power_acrossAll ok (damps pol) _)

/-- Reflection at a field that carries no power backwards. -/
theorem Periodic.den {pol : Pol} {w : ℂ × ℂ} (hw : w ≠ 0) (hp : 0 ≤ power w) {U : ℂ × ℂ}
    (hU : U = acrossAll pol (n₀ * Complex.sin θ) (pre.map (codeMed (n₀ * Complex.sin θ) lam)) w) :
    (frontScale pol n₀ θ).2 * U.1 + (frontScale pol n₀ θ).1 * U.2 ≠ 0 := by
  obtain ⟨ok, damps⟩ := physical_films h.stack (fs := pre) fun f hf => List.mem_append_left _ hf
  subst hU
  exact den_of_power h.stack.n₀_pos h.stack.cos_pos (fun h0 => hw (acrossAll_eq_zero ok h0))
    (hp.trans (power_acrossAll ok (damps pol) w))

theorem Periodic.feeds {pol : Pol} {mpre : List Medium}
    (hpre : List.Forall₂ (IsFilm ((n₀ : ℂ) * Complex.sin θ) lam) pre mpre) (h35 : ∀ m ∈ mpre, |m.δ.im| ≤ 35)
    {u : ℂ × ℂ} (hu : u ≠ 0) (hp : 0 ≤ power u) (r : ℂ) :
    FeedsInto pol n₀ θ mpre u r ↔
      r = reflOf pol n₀ θ (acrossAll pol (n₀ * Complex.sin θ) (pre.map (codeMed (n₀ * Complex.sin θ) lam)) u) := by
  have hs := h.stack
  have hden := h.den (pol := pol) hu hp rfl
  have fpre := acrossAll_flip (pol := pol) (s := (n₀ : ℂ) * Complex.sin θ) (films_flip hpre h35)
  have opre : ∀ m ∈ mpre, m.n ≠ 0 ∧ m.c ^ 2 = 1 - ((n₀ * Complex.sin θ) / m.n) ^ 2 ∧ m.n * m.c ≠ 0 := by
    intro m hm
    obtain ⟨f, hf, hfm⟩ := forall₂_mem_right hpre m hm
    exact isFilm_ok (hs.films f (List.mem_append_left _ hf)).1.ne_zero
      (hs.offCritical f (List.mem_append_left _ hf)) hfm
  constructor
  · rintro ⟨c, hc⟩
    rw [through_iff opre, fpre, acrossAll_smul] at hc
    exact (amps_of_front hs.n₀_pos hs.cos_pos hc).1
  · rintro rfl
    refine ⟨transOf pol n₀ θ (acrossAll pol (n₀ * Complex.sin θ) (pre.map (codeMed (n₀ * Complex.sin θ) lam)) u), ?_⟩
    rw [through_iff opre, fpre, acrossAll_smul]
    exact front_of_amps hs.n₀_pos hs.cos_pos hden

/-- The amplitudes for more and more periods. -/
theorem Periodic.amps (hb : 0 < nb.im ∨ |n₀ * Real.sin θ| < nb.re) {pol : Pol} {κ : ℂ} {u : ℂ × ℂ} (hκ0 : κ ≠ 0)
    (hu : u ≠ 0) (hM : periodMap pol cell n₀ θ lam u = κ⁻¹ • u) (hκ : ‖κ‖ < 1) :
    0 ≤ power u ∧ ∃ C, ∀ N, ∃ r t, solveSt pol (periodic pre post cell nb n₀ N) θ lam = some (r, t) ∧
      ‖r - reflOf pol n₀ θ (acrossAll pol (n₀ * Complex.sin θ) (pre.map (codeMed (n₀ * Complex.sin θ) lam)) u)‖ ≤
        C * ‖κ‖ ^ (2 * N) ∧ ‖t‖ ≤ C * ‖κ‖ ^ N := by
  set s : ℂ := (n₀ : ℂ) * Complex.sin θ with hs
  set P : ℂ × ℂ → ℂ × ℂ := acrossAll pol s (pre.map (codeMed s lam)) with hP
  set M := periodMap pol cell n₀ θ lam with hMdef
  set v := backField pol post nb n₀ θ lam with hv
  have hun : Unimod M := h.unimod pol
  have hn0 : 0 < ‖κ‖ := norm_pos_iff.mpr hκ0
  have hκ2 : κ ^ 2 ≠ 1 := by
    intro h1
    have := congrArg norm h1
    rw [norm_pow, norm_one] at this
    nlinarith
  have hki : κ⁻¹ ^ 2 ≠ 1 := by rw [inv_pow]; simpa using hκ2
  have hd : κ⁻¹ - κ ≠ 0 := by
    intro h0
    apply hκ2
    have hk : κ * κ⁻¹ = 1 := mul_inv_cancel₀ hκ0
    linear_combination (-κ) * h0 + hk
  -- waves that decay carry no power backwards
  have hfwd : ∀ w, M w = κ⁻¹ • w → 0 ≤ power w := by
    intro w hw
    have h1 := h.power_le pol w
    rw [← hMdef, hw, power_smul, norm_inv] at h1
    by_contra hneg
    push Not at hneg
    have h2 : 1 < ‖κ‖⁻¹ := (one_lt_inv₀ hn0).mpr hκ
    nlinarith [mul_pos (sub_pos.mpr h2) (sub_pos.mpr h2)]
  obtain ⟨hp1, hp2⟩ := hun.split hκ0 hu hM v
  set p := M v - κ • v with hp
  set g := M v - κ⁻¹ • v with hg
  have hp0 : p ≠ 0 := by
    intro h0
    have h1 : M v = κ • v := sub_eq_zero.mp h0
    have h2 := h.power_le pol v
    rw [← hMdef, h1, power_smul] at h2
    have h3 := h.back_pos hb pol
    rw [← hv] at h3
    have h4 : ‖κ‖ ^ 2 < 1 := by nlinarith
    nlinarith
  have hden := h.den hp0 (hfwd p hp1) (U := P p) rfl
  have hPsub : ∀ (a b : ℂ) (x y : ℂ × ℂ), P (a • x - b • y) = a • P x - b • P y := by
    intro a b x y
    rw [sub_eq_add_neg, ← neg_smul, hP, acrossAll_add, acrossAll_smul, acrossAll_smul, neg_smul, ← sub_eq_add_neg]
  -- the limit is that of the wave `u`
  have hwr : wron u p = 0 := wron_same hun hki hM hp1
  have hR : reflOf pol n₀ θ (P u) = reflOf pol n₀ θ (P p) := by
    obtain ⟨c, hc⟩ : ∃ c : ℂ, p = c • u := by
      unfold wron at hwr
      by_cases h1 : u.1 = 0
      · have h2 : u.2 ≠ 0 := fun h2 => hu (Prod.ext h1 h2)
        refine ⟨p.2 / u.2, Prod.ext ?_ ?_⟩
        · have : u.2 * p.1 = 0 := by linear_combination -hwr + p.2 * h1
          simp [h1, (mul_eq_zero.mp this).resolve_left h2]
        · simp [h2]
      · refine ⟨p.1 / u.1, Prod.ext ?_ ?_⟩
        · simp [h1]
        · simp only [Prod.smul_snd, smul_eq_mul]
          field_simp
          linear_combination hwr
    have hc0 : c ≠ 0 := by rintro rfl; rw [zero_smul] at hc; exact hp0 hc
    rw [hc, hP, acrossAll_smul, reflOf_smul _ _ _ hc0]
  have hW : ∀ N, P ((M ^ N) v) = ((κ⁻¹ - κ)⁻¹ * κ⁻¹ ^ N) • (P p - κ ^ (2 * N) • P g) := by
    intro N
    rw [hun.pow hκ0 hκ2 hu hM v N, hP, acrossAll_smul, ← hP, hPsub, mul_smul, smul_sub (κ⁻¹ ^ N), smul_smul (κ⁻¹ ^ N)]
    congr 4
    rw [two_mul, pow_add, ← mul_assoc, ← mul_pow, inv_mul_cancel₀ hκ0, one_pow, one_mul]
  set F : ℂ → ℂ × ℂ := fun x => P p - x • P g with hF
  have hc1 : HasDerivAt (fun x => (F x).1) (-(P g).1) 0 := by
    have := ((hasDerivAt_id (0 : ℂ)).mul_const (P g).1).const_sub (P p).1
    simpa [hF] using this
  have hc2 : HasDerivAt (fun x => (F x).2) (-(P g).2) 0 := by
    have := ((hasDerivAt_id (0 : ℂ)).mul_const (P g).2).const_sub (P p).2
    simpa [hF] using this
  have hF0 : F 0 = P p := by simp [hF]
  have hden' : (frontScale pol n₀ θ).2 * (F 0).1 + (frontScale pol n₀ θ).1 * (F 0).2 ≠ 0 := by rw [hF0]; exact hden
  have dr : DifferentiableAt ℂ (fun x => reflOf pol n₀ θ (F x)) 0 :=
    (((hc1.const_mul _).sub (hc2.const_mul _)).div ((hc1.const_mul _).add (hc2.const_mul _)) hden').differentiableAt
  have ct : ContinuousAt (fun x => transOf pol n₀ θ (F x)) 0 :=
    ((hasDerivAt_const (0 : ℂ) (2 * (frontScale pol n₀ θ).1 * (frontScale pol n₀ θ).2)).div
      ((hc1.const_mul _).add (hc2.const_mul _)) hden').continuousAt
  have hx : Tendsto (fun N : ℕ => κ ^ (2 * N)) atTop (𝓝 0) := by
    have h1 : ‖κ ^ 2‖ < 1 := by rw [norm_pow]; nlinarith
    simpa [pow_mul] using tendsto_pow_atTop_nhds_zero_of_norm_lt_one h1
  have O1 : (fun N : ℕ => reflOf pol n₀ θ (F (κ ^ (2 * N))) - reflOf pol n₀ θ (F 0)) =O[atTop]
      fun N : ℕ => κ ^ (2 * N) := by
    have := dr.isBigO_sub.comp_tendsto hx
    simpa [Function.comp_def] using this
  have O2 : (fun N : ℕ => transOf pol n₀ θ (F (κ ^ (2 * N)))) =O[atTop] fun _ : ℕ => (1 : ℝ) :=
    (ct.tendsto.comp hx).isBigO_one ℝ
  rw [Asymptotics.isBigO_nat_atTop_iff (by intro N hN; exact absurd hN (pow_ne_zero _ hκ0))] at O1
  rw [Asymptotics.isBigO_nat_atTop_iff (by intro N hN; exact absurd hN one_ne_zero)] at O2
  obtain ⟨C1, hC1⟩ := O1
  obtain ⟨C2, hC2⟩ := O2
  refine ⟨hfwd u hM, max C1 (C2 * ‖κ⁻¹ - κ‖), fun N => ?_⟩
  have hsc : (κ⁻¹ - κ)⁻¹ * κ⁻¹ ^ N ≠ 0 := mul_ne_zero (inv_ne_zero hd) (pow_ne_zero _ (inv_ne_zero hκ0))
  refine ⟨_, _, h.solve pol N rfl, ?_, ?_⟩
  · rw [← hs, ← hP, ← hMdef, ← hv, hW, reflOf_smul _ _ _ hsc, hR]
    have h1 := hC1 N
    rw [hF0] at h1
    refine h1.trans ?_
    rw [norm_pow]
    exact mul_le_mul_of_nonneg_right (le_max_left _ _) (by positivity)
  · rw [← hs, ← hP, ← hMdef, ← hv, hW]
    have e := transOf_smul pol n₀ θ (inv_ne_zero hsc) (((κ⁻¹ - κ)⁻¹ * κ⁻¹ ^ N) • (P p - κ ^ (2 * N) • P g))
    rw [smul_smul, inv_mul_cancel₀ hsc, one_smul] at e
    rw [e, norm_mul, mul_inv, inv_inv, inv_pow, inv_inv, norm_mul, norm_pow]
    have h2 := hC2 N
    simp only [norm_one, mul_one] at h2
    calc ‖κ⁻¹ - κ‖ * ‖κ‖ ^ N * ‖transOf pol n₀ θ (P p - κ ^ (2 * N) • P g)‖
        ≤ ‖κ⁻¹ - κ‖ * ‖κ‖ ^ N * C2 := mul_le_mul_of_nonneg_left h2 (by positivity)
      _ = C2 * ‖κ⁻¹ - κ‖ * ‖κ‖ ^ N := by ring
      _ ≤ _ := mul_le_mul_of_nonneg_right (le_max_right _ _) (by positivity)

/-- A cell that absorbs takes up power. -/
theorem Periodic.power_lt {f : ℂ × ℝ} (hf : f ∈ cell) (hi : 0 < f.1.im) (hd : 0 < f.2) (pol : Pol) {u : ℂ × ℂ}
    (hu : u ≠ 0) : power u < power (periodMap pol cell n₀ θ lam u) := by
  have hlam := h.stack.lam_pos
  have hk : 0 < 2 * Real.pi / lam := by have := Real.pi_pos; positivity
  have hsr : (n₀ : ℂ) * Complex.sin θ = ((n₀ * Real.sin θ : ℝ) : ℂ) := by push_cast; rfl
  have hl := h.layers
  rw [periodMap_apply]
  clear h
  have step : ∀ g ∈ cell, ∀ w : ℂ × ℂ,
      across pol (n₀ * Complex.sin θ) (fullMed (n₀ * Complex.sin θ) lam g).n
        ((fullMed (n₀ * Complex.sin θ) lam g).n * (fullMed (n₀ * Complex.sin θ) lam g).c)
        (fullMed (n₀ * Complex.sin θ) lam g).δ w =
      NormedSpace.exp (g.2 • genMap (2 * Real.pi / lam) (coefA pol g.1) (coefB pol (n₀ * Complex.sin θ) g.1)) w := by
    intro g hg w
    obtain ⟨o1, o2, o3⟩ := fullMed_ok (lam := lam) (hl g hg).1.ne_zero (hl g hg).2.2.1
    have hq : ((fullMed (n₀ * Complex.sin θ) lam g).n * (fullMed (n₀ * Complex.sin θ) lam g).c) ^ 2 =
        (fullMed (n₀ * Complex.sin θ) lam g).n ^ 2 - ((n₀ : ℂ) * Complex.sin θ) ^ 2 := by
      rw [mul_pow, o2]; field_simp
    have h1 := across_exp (pol := pol) (k := 2 * Real.pi / lam) (hl g hg).2.1 o1 o3 hq w
    refine Eq.trans ?_ h1
    congr 1
    simp only [fullMed]
    push_cast; ring
  induction cell with
  | nil => simp at hf
  | cons g cell ih =>
    have e : acrossAll pol (n₀ * Complex.sin θ) ((g :: cell).map (fullMed (n₀ * Complex.sin θ) lam)) u =
      across pol (n₀ * Complex.sin θ) (fullMed (n₀ * Complex.sin θ) lam g).n
        ((fullMed (n₀ * Complex.sin θ) lam g).n * (fullMed (n₀ * Complex.sin θ) lam g).c)
        (fullMed (n₀ * Complex.sin θ) lam g).δ
        (acrossAll pol (n₀ * Complex.sin θ) (cell.map (fullMed (n₀ * Complex.sin θ) lam)) u) := rfl
    rw [e, step g (by simp)]
    set w := acrossAll pol (n₀ * Complex.sin θ) (cell.map (fullMed (n₀ * Complex.sin θ) lam)) u with hw
    have hok : ∀ m ∈ cell.map (fullMed ((n₀ : ℂ) * Complex.sin θ) lam),
        m.n ≠ 0 ∧ m.c ^ 2 = 1 - ((n₀ * Complex.sin θ) / m.n) ^ 2 ∧ m.n * m.c ≠ 0 := by
      intro m hm
      obtain ⟨f, hf, rfl⟩ := List.mem_map.mp hm
      exact fullMed_ok (hl f (by simp [hf])).1.ne_zero (hl f (by simp [hf])).2.2.1
    have hw0 : w ≠ 0 := fun h0 => hu (acrossAll_eq_zero hok h0)
    obtain ⟨c1, c2⟩ := coef_im_nonneg (hl g (by simp)).1 (n₀ * Real.sin θ) pol
    rw [← hsr] at c2
    have hle : ∀ (cs : List (ℂ × ℝ)), (∀ g' ∈ cs, g' ∈ g :: cell) →
        power u ≤ power (acrossAll pol (n₀ * Complex.sin θ) (cs.map (fullMed (n₀ * Complex.sin θ) lam)) u) := by
      intro cs hcs
      induction cs with
      | nil => exact le_rfl
      | cons g' cs ih' =>
        refine (ih' fun x hx => hcs x (by simp [hx])).trans ?_
        have e' : acrossAll pol (n₀ * Complex.sin θ) ((g' :: cs).map (fullMed (n₀ * Complex.sin θ) lam)) u =
          across pol (n₀ * Complex.sin θ) (fullMed (n₀ * Complex.sin θ) lam g').n
            ((fullMed (n₀ * Complex.sin θ) lam g').n * (fullMed (n₀ * Complex.sin θ) lam g').c)
            (fullMed (n₀ * Complex.sin θ) lam g').δ
            (acrossAll pol (n₀ * Complex.sin θ) (cs.map (fullMed (n₀ * Complex.sin θ) lam)) u) := rfl
        have hg' := hcs g' (by simp)
        rw [e', step g' hg']
        obtain ⟨c1, c2⟩ := coef_im_nonneg (hl g' hg').1 (n₀ * Real.sin θ) pol
        rw [← hsr] at c2
        exact power_exp (hl g' hg').2.1 hk.le c1 c2 _
    rcases List.mem_cons.mp hf with rfl | hf'
    · refine (hle cell fun x hx => by simp [hx]).trans_lt ?_
      refine power_exp_lt hd hk c1 c2 ?_ hw0
      have hp := (hl f (by simp)).1
      have him : 0 < (f.1 ^ 2).im := by
        have := mul_pos hp.1 hi
        rw [sq, Complex.mul_im]; linarith
      cases pol
      · right
        refine ⟨?_, by simp [coefA]⟩
        simp only [coefB, Complex.sub_im]
        rw [hsr, ← Complex.ofReal_pow, Complex.ofReal_im, sub_zero]
        exact him
      · left
        refine ⟨him, ?_⟩
        simp only [coefB]
        intro h0
        apply (hl f (by simp)).2.2.1
        have hn := hp.ne_zero
        rw [div_pow, sub_eq_zero, eq_comm, div_eq_one_iff_eq (pow_ne_zero 2 hn)] at h0
        exact h0.symm
    · exact (ih hf' (fun x hx => hl x (by simp [hx])) (fun x hx => step x (by simp [hx]))).trans_le
        (power_exp (hl g (by simp)).2.1 hk.le c1 c2 w)

end

end Verif.TMM
