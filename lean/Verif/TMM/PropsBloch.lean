import Verif.TMM.BlochStack
import Verif.TMM.ObsError

/-! # Periodic stacks (C157) -/

namespace Verif.TMM

open Complex (I)
open Set Filter Topology

section
variable {pre post cell : List (ℂ × ℝ)} {nb : ℂ} {n₀ θ lam : ℝ}

/-- C157: many periods of a cell in which light is attenuated (a Bloch wave has a factor below 1) hide what is behind
them.  The reflected amplitude that the code returns tends to the one of a wave that goes over into the attenuated
Bloch wave, which does not depend on the backing medium and the films in front of it, and the transmitted amplitude
tends to 0, both at a geometric rate. -/
theorem C157_amplitudes (h : Periodic pre post cell nb n₀ θ lam) {pol : Pol} {mcell mpre : List Medium}
    (hcell : List.Forall₂ (IsFilm ((n₀ : ℂ) * Complex.sin θ) lam) cell mcell)
    (hpre : List.Forall₂ (IsFilm ((n₀ : ℂ) * Complex.sin θ) lam) pre mpre) (h35 : ∀ m ∈ mpre, |m.δ.im| ≤ 35)
    (hb : 0 < nb.im ∨ |n₀ * Real.sin θ| < nb.re) {κ : ℂ} {u : ℂ × ℂ} (hu : BlochWave pol mcell κ u) (hκ : ‖κ‖ < 1) :
    ∃ R, (∀ r, FeedsInto pol n₀ θ mpre u r ↔ r = R) ∧ ∃ C, ∀ N d0 db, ∃ a r t,
      cohTmm ((periodic pre post cell nb n₀ N).layers d0 db) [((θ : ℂ), lam)] = .ok [a] ∧ a.of pol = some (r, t) ∧
      ‖r - R‖ ≤ C * ‖κ‖ ^ (2 * N) ∧ ‖t‖ ≤ C * ‖κ‖ ^ N := by
  obtain ⟨hκ0, hu0, hM⟩ := (h.bloch_iff hcell).mp hu
  obtain ⟨hp, C, hC⟩ := h.amps hb hκ0 hu0 hM hκ
  refine ⟨_, h.feeds hpre h35 hu0 hp, C, fun N d0 db => ?_⟩
  obtain ⟨r, t, hr, h1, h2⟩ := hC N
  have hP := h.phys N
  refine ⟨_, r, t, coh_real hP.front hP.nz hP.lam_pos.ne' d0 db, ?_, h1, h2⟩
  cases pol <;> exact hr

theorem Periodic.tendsto (h : Periodic pre post cell nb n₀ θ lam) {pol : Pol} {mcell mpre : List Medium}
    (hcell : List.Forall₂ (IsFilm ((n₀ : ℂ) * Complex.sin θ) lam) cell mcell)
    (hpre : List.Forall₂ (IsFilm ((n₀ : ℂ) * Complex.sin θ) lam) pre mpre) (h35 : ∀ m ∈ mpre, |m.δ.im| ≤ 35)
    (hb : 0 < nb.im ∨ |n₀ * Real.sin θ| < nb.re) {κ : ℂ} {u : ℂ × ℂ} (hu : BlochWave pol mcell κ u) (hκ : ‖κ‖ < 1)
    {R : ℂ} (hR : FeedsInto pol n₀ θ mpre u R) :
    ∃ r t : ℕ → ℂ, (∀ N, solveSt pol (periodic pre post cell nb n₀ N) θ lam = some (r N, t N)) ∧
      Tendsto r atTop (𝓝 R) ∧ Tendsto t atTop (𝓝 0) := by
  obtain ⟨hκ0, hu0, hM⟩ := (h.bloch_iff hcell).mp hu
  obtain ⟨hp, C, hC⟩ := h.amps hb hκ0 hu0 hM hκ
  rw [h.feeds hpre h35 hu0 hp] at hR
  rw [← hR] at hC
  choose r t h1 h2 h3 using hC
  have hn := norm_nonneg κ
  refine ⟨r, t, h1, ?_, ?_⟩
  · rw [tendsto_iff_norm_sub_tendsto_zero]
    refine squeeze_zero (fun N => norm_nonneg _) h2 ?_
    have hk2 : ‖κ‖ ^ 2 < 1 := by nlinarith
    have := (tendsto_pow_atTop_nhds_zero_of_lt_one (by positivity) hk2).const_mul C
    simpa [pow_mul] using this
  · refine squeeze_zero_norm h3 ?_
    simpa using (tendsto_pow_atTop_nhds_zero_of_lt_one hn hκ).const_mul C

/-- C157 for the observables: psi and delta tend to those of the two attenuated Bloch waves, whatever is behind the
periods. -/
theorem C157_psi_delta {a : ℝ} (h : Periodic pre post cell nb n₀ (rad a) lam) {mcell mpre : List Medium}
    (hcell : List.Forall₂ (IsFilm ((n₀ : ℂ) * Complex.sin (rad a)) lam) cell mcell)
    (hpre : List.Forall₂ (IsFilm ((n₀ : ℂ) * Complex.sin (rad a)) lam) pre mpre) (h35 : ∀ m ∈ mpre, |m.δ.im| ≤ 35)
    (hb : 0 < nb.im ∨ |n₀ * Real.sin (rad a)| < nb.re) {κs κp : ℂ} {us up : ℂ × ℂ} (hs : BlochWave .s mcell κs us)
    (hp : BlochWave .p mcell κp up) (hκs : ‖κs‖ < 1) (hκp : ‖κp‖ < 1) {Rs Rp : ℂ}
    (hRs : FeedsInto .s n₀ (rad a) mpre us Rs) (hRp : FeedsInto .p n₀ (rad a) mpre up Rp) (hs0 : Rs ≠ 0) (hp0 : Rp ≠ 0)
    {rows : ℕ → List Row} (hr : ∀ N, RowsOf (rows N) (periodic pre post cell nb n₀ N))
    (zs : List Layer → ℝ → ℝ → Bool) (off : ℝ) (refl : Bool) :
    ∃ ψ Δ : ℕ → ℝ,
      (∀ᶠ N in atTop, (deltaPsiTMM zs [a] (rows N) lam off refl).1 = .ok [(some (ψ N), some (Δ N))]) ∧
      Tendsto ψ atTop (𝓝 (Real.arctan (‖Rp‖ / ‖Rs‖) * 180 / Real.pi)) ∧
      Tendsto (fun N => Real.cos (rad (Δ N - off))) atTop (𝓝 (Real.cos (Rs / Rp).arg)) ∧
      (refl = false → Tendsto (fun N => Real.sin (rad (Δ N - off))) atTop (𝓝 (Real.sin (Rs / Rp).arg))) := by
  obtain ⟨rs, ts, es, cs, -⟩ := h.tendsto hcell hpre h35 hb hs hκs hRs
  obtain ⟨rp, tp, ep, cp, -⟩ := h.tendsto hcell hpre h35 hb hp hκp hRp
  exact obs_tendsto (n₀ := n₀) (.of_forall es) (.of_forall ep) (.of_forall h.phys) cs cp hr zs hs0 hp0

/-- C157 for the observables, rate: psi and delta (as an angle) tend to those values at a geometric rate, the slower one
of the two Bloch waves; the constant is the same for all settings.  The hypotheses are those of `C157_psi_delta`, met by
the mirror below. -/
theorem C157_psi_delta_rate {a : ℝ} (h : Periodic pre post cell nb n₀ (rad a) lam) {mcell mpre : List Medium}
    (hcell : List.Forall₂ (IsFilm ((n₀ : ℂ) * Complex.sin (rad a)) lam) cell mcell)
    (hpre : List.Forall₂ (IsFilm ((n₀ : ℂ) * Complex.sin (rad a)) lam) pre mpre) (h35 : ∀ m ∈ mpre, |m.δ.im| ≤ 35)
    (hb : 0 < nb.im ∨ |n₀ * Real.sin (rad a)| < nb.re) {κs κp : ℂ} {us up : ℂ × ℂ} (hs : BlochWave .s mcell κs us)
    (hp : BlochWave .p mcell κp up) (hκs : ‖κs‖ < 1) (hκp : ‖κp‖ < 1) {Rs Rp : ℂ}
    (hRs : FeedsInto .s n₀ (rad a) mpre us Rs) (hRp : FeedsInto .p n₀ (rad a) mpre up Rp) (hs0 : Rs ≠ 0) (hp0 : Rp ≠ 0) :
    ∃ C N₀, ∀ N, N₀ ≤ N → ∀ rows, RowsOf rows (periodic pre post cell nb n₀ N) →
      ∀ (zs : List Layer → ℝ → ℝ → Bool) (off : ℝ) (refl : Bool), ∃ ψ Δ,
        (deltaPsiTMM zs [a] rows lam off refl).1 = .ok [(some ψ, some Δ)] ∧
        |ψ - Real.arctan (‖Rp‖ / ‖Rs‖) * 180 / Real.pi| ≤ C * max ‖κs‖ ‖κp‖ ^ (2 * N) ∧
        |Real.cos (rad (Δ - off)) - Real.cos (Rs / Rp).arg| ≤ C * max ‖κs‖ ‖κp‖ ^ (2 * N) ∧
        (refl = false → |Real.sin (rad (Δ - off)) - Real.sin (Rs / Rp).arg| ≤ C * max ‖κs‖ ‖κp‖ ^ (2 * N)) := by
  have amp : ∀ {pol : Pol} {κ : ℂ} {u : ℂ × ℂ} {R : ℂ}, BlochWave pol mcell κ u → ‖κ‖ < 1 →
      FeedsInto pol n₀ (rad a) mpre u R → ∃ C, ∀ N, ∃ r t,
        solveSt pol (periodic pre post cell nb n₀ N) (rad a) lam = some (r, t) ∧ ‖r - R‖ ≤ C * ‖κ‖ ^ (2 * N) := by
    intro pol κ u R hu hκ hR
    obtain ⟨hκ0, hu0, hM⟩ := (h.bloch_iff hcell).mp hu
    obtain ⟨hp, C, hC⟩ := h.amps hb hκ0 hu0 hM hκ
    rw [h.feeds hpre h35 hu0 hp] at hR
    rw [← hR] at hC
    refine ⟨C, fun N => ?_⟩
    obtain ⟨r, t, h1, h2, -⟩ := hC N
    exact ⟨r, t, h1, h2⟩
  obtain ⟨C1, H1⟩ := amp hs hκs hRs
  obtain ⟨C2, H2⟩ := amp hp hκp hRp
  obtain ⟨E, ε, hE, hε, HE⟩ := obs_error hs0 hp0
  set c := max |C1| |C2| with hc
  set κ := max ‖κs‖ ‖κp‖ with hκ
  have hκ0 : 0 ≤ κ := (norm_nonneg κs).trans (le_max_left _ _)
  have hκ1 : κ < 1 := max_lt hκs hκp
  have ht : Tendsto (fun N : ℕ => c * κ ^ (2 * N)) atTop (𝓝 0) := by
    have hk2 : κ ^ 2 < 1 := by nlinarith
    have := (tendsto_pow_atTop_nhds_zero_of_lt_one (by positivity) hk2).const_mul c
    simpa [pow_mul] using this
  obtain ⟨N₀, hN₀⟩ := eventually_atTop.mp (ht.eventually_le_const hε)
  refine ⟨E * c, N₀, fun N hN rows hr zs off refl => ?_⟩
  obtain ⟨rs, ts, es, d1⟩ := H1 N
  obtain ⟨rp, tp, ep, d2⟩ := H2 N
  have hP := h.phys N
  obtain ⟨ψ, Δ, e1, e2⟩ := HE (ts := ts) (tp := tp)
    (d1.trans (mul_le_mul ((le_abs_self _).trans (le_max_left _ _))
      (pow_le_pow_left₀ (norm_nonneg _) (le_max_left _ _) _) (by positivity) (by positivity)))
    (d2.trans (mul_le_mul ((le_abs_self _).trans (le_max_right _ _))
      (pow_le_pow_left₀ (norm_nonneg _) (le_max_right _ _) _) (by positivity) (by positivity)))
    (hN₀ N hN) (zs ((periodic pre post cell nb n₀ N).layers .inf .inf) a lam) off refl
  refine ⟨ψ, Δ, ?_, by simpa only [mul_assoc] using e2⟩
  rw [deltaPsi_rows hr hP.nz hP.lam_pos.ne']
  simp only [List.map_cons, List.map_nil, es, ep]
  rw [← e1]

/-- C157: a cell with a layer that absorbs attenuates light of both polarisations. -/
theorem C157_absorbing (h : Periodic pre post cell nb n₀ θ lam) {mcell : List Medium}
    (hcell : List.Forall₂ (IsFilm ((n₀ : ℂ) * Complex.sin θ) lam) cell mcell) {f : ℂ × ℝ} (hf : f ∈ cell)
    (hi : 0 < f.1.im) (hd : 0 < f.2) (pol : Pol) : ∃ κ u, BlochWave pol mcell κ u ∧ ‖κ‖ < 1 := by
  obtain ⟨κ, h1, h2, u, h3, h4⟩ := (h.unimod pol).exists_le
  refine ⟨κ, u, (h.bloch_iff hcell).mpr ⟨h1, h3, h4⟩, lt_of_le_of_ne h2 fun h5 => ?_⟩
  have := h.power_lt hf hi hd pol h3
  rw [h4, power_smul, norm_inv, h5] at this
  simp at this

/-- Reflection at a field that carries no power is total. -/
theorem reflOf_norm {pol : Pol} (hn : 0 < n₀) (hc : 0 < Real.cos θ) {U : ℂ × ℂ} (hU : U ≠ 0) (hp : power U = 0) :
    ‖reflOf pol n₀ θ U‖ = 1 := by
  have hd := den_of_power (pol := pol) hn hc hU hp.ge
  obtain ⟨α, β, ha, hb, e⟩ := frontScale_pos hn hc pol
  unfold reflOf
  rw [e] at hd ⊢
  simp only at hd ⊢
  rw [norm_div, div_eq_one_iff_eq (norm_ne_zero_iff.mpr hd)]
  refine (sq_eq_sq₀ (norm_nonneg _) (norm_nonneg _)).mp ?_
  rw [← Complex.normSq_eq_norm_sq, ← Complex.normSq_eq_norm_sq]
  simp only [power, Complex.mul_re, Complex.conj_re, Complex.conj_im] at hp
  simp only [Complex.normSq_apply, Complex.sub_re, Complex.sub_im, Complex.add_re, Complex.add_im, Complex.re_ofReal_mul,
    Complex.im_ofReal_mul]
  linear_combination (-4 * α * β) * hp

theorem power_through_eq {pol : Pol} {u' : ℂ × ℂ} : ∀ {ms : List Medium}, (∀ m ∈ ms, Conserves pol m) →
    ∀ {u : ℂ × ℂ}, Carries pol u ms u' → power u' = power u := by
  intro ms
  induction ms with
  | nil => intro _ u h; rw [show u = u' from h]
  | cons m ms ih =>
    rintro h u ⟨v, w, rfl, h2⟩
    refine (ih (fun m hm => h m (by simp [hm])) h2).trans ?_
    rw [power_tan, power_tan]
    exact flux_prop_eq (h m (by simp)) v w

theorem Periodic.sub (h : Periodic pre post cell nb n₀ θ lam) : Periodic pre [] cell nb n₀ θ lam := by
  have hs := h.stack
  have hm : ∀ f ∈ pre ++ [], f ∈ pre ++ post := fun f hf => by simp at hf ⊢; exact Or.inl hf
  exact ⟨⟨rfl, hs.n₀_pos, hs.angle, hs.lam_pos, fun f hf => hs.films f (hm f hf), hs.back,
    fun f hf => hs.offCritical f (hm f hf), fun f hf => hs.mild f (hm f hf)⟩, h.layers⟩

theorem Periodic.total (h : Periodic pre post cell nb n₀ θ lam) (hl : ∀ f ∈ pre ++ cell, f.1.im = 0) {pol : Pol}
    {mcell mpre : List Medium} (hcell : List.Forall₂ (IsFilm ((n₀ : ℂ) * Complex.sin θ) lam) cell mcell)
    (hpre : List.Forall₂ (IsFilm ((n₀ : ℂ) * Complex.sin θ) lam) pre mpre) (h35 : ∀ m ∈ mpre, |m.δ.im| ≤ 35)
    {κ : ℂ} {u : ℂ × ℂ} (hu : BlochWave pol mcell κ u) (hκ : ‖κ‖ < 1) {R : ℂ} (hR : FeedsInto pol n₀ θ mpre u R) :
    ‖R‖ = 1 := by
  obtain ⟨hκ0, hu0, hM⟩ := (h.bloch_iff hcell).mp hu
  have hP := h.sub.phys 1
  have hcons := hP.film_conserves (by
    intro f hf
    apply hl
    simpa [periodic, repeated] using hf) pol
  have hmem : ∀ f ∈ pre ++ cell, codeMed (n₀ * Complex.sin θ) lam f ∈ filmsM (periodic pre [] cell nb n₀ 1) θ lam := by
    intro f hf
    refine List.mem_map.mpr ⟨f, ?_, rfl⟩
    simpa [periodic, repeated] using hf
  have e1 : power (periodMap pol cell n₀ θ lam u) = power u := by
    rw [periodMap_apply]
    refine (power_through_eq ?_ ((through_iff h.ok).mpr rfl)).symm
    intro m hm
    obtain ⟨f, hf, rfl⟩ := List.mem_map.mp hm
    rw [← code_full (h.layers f hf)]
    exact hcons _ (hmem f (List.mem_append_right _ hf))
  have hu1 : power u = 0 := by
    rw [hM, power_smul] at e1
    have hn0 : 0 < ‖κ‖ := norm_pos_iff.mpr hκ0
    have h2 : 1 < ‖κ⁻¹‖ := by rw [norm_inv]; exact (one_lt_inv₀ hn0).mpr hκ
    have h3 : (‖κ⁻¹‖ ^ 2 - 1) * power u = 0 := by linarith
    refine (mul_eq_zero.mp h3).resolve_left ?_
    nlinarith
  obtain ⟨ok, -⟩ := physical_films h.stack (fs := pre) fun f hf => List.mem_append_left _ hf
  have hU := power_through_eq (pol := pol) (u' := u) (ms := pre.map (codeMed (n₀ * Complex.sin θ) lam)) (by
    intro m hm
    obtain ⟨f, hf, rfl⟩ := List.mem_map.mp hm
    exact hcons _ (hmem f (List.mem_append_left _ hf))) ((through_iff ok).mpr rfl)
  rw [(h.feeds hpre h35 hu0 hu1.ge R).mp hR]
  exact reflOf_norm h.stack.n₀_pos h.stack.cos_pos (fun h0 => hu0 (acrossAll_eq_zero ok h0)) (hU.symm.trans hu1)

/-- C157: if neither the cell nor the films in front of it absorb, the reflectance in the stop band tends to 1 at a
geometric rate. -/
theorem C157_mirror (h : Periodic pre post cell nb n₀ θ lam) (hl : ∀ f ∈ pre ++ cell, f.1.im = 0) {pol : Pol}
    {mcell mpre : List Medium} (hcell : List.Forall₂ (IsFilm ((n₀ : ℂ) * Complex.sin θ) lam) cell mcell)
    (hpre : List.Forall₂ (IsFilm ((n₀ : ℂ) * Complex.sin θ) lam) pre mpre) (h35 : ∀ m ∈ mpre, |m.δ.im| ≤ 35)
    (hb : 0 < nb.im ∨ |n₀ * Real.sin θ| < nb.re) {κ : ℂ} {u : ℂ × ℂ} (hu : BlochWave pol mcell κ u) (hκ : ‖κ‖ < 1) :
    ∃ C, ∀ N d0 db, ∃ a r t,
      cohTmm ((periodic pre post cell nb n₀ N).layers d0 db) [((θ : ℂ), lam)] = .ok [a] ∧ a.of pol = some (r, t) ∧
      ‖r‖ ≤ 1 ∧ 1 - ‖r‖ ≤ C * ‖κ‖ ^ (2 * N) := by
  obtain ⟨R, hR, C, hC⟩ := C157_amplitudes h hcell hpre h35 hb hu hκ
  have h1 := h.total hl hcell hpre h35 hu hκ ((hR R).mpr rfl)
  refine ⟨C, fun N d0 db => ?_⟩
  obtain ⟨a, r, t, e1, e2, e3, -⟩ := hC N d0 db
  refine ⟨a, r, t, e1, e2, ?_, ?_⟩
  · have hP := h.phys N
    rw [coh_real_of hP.front hP.nz hP.lam_pos.ne' e1] at e2
    have := hP.power e2
    have hk := kap_re_nonneg hP.back_dir pol
    have h2 : 0 ≤ n₀ * Real.cos θ * (1 - ‖r‖ ^ 2) := le_trans (by positivity) this
    have h3 := nonneg_of_mul_nonneg_right h2 (mul_pos hP.n₀_pos hP.cos_pos)
    exact (sq_le_one_iff₀ (norm_nonneg r)).mp (by linarith)
  · rw [← h1]
    refine le_trans ?_ e3
    rw [norm_sub_rev]
    exact norm_sub_norm_le R r

/-- C157: if both polarisations are in the stop band of a cell that does not absorb, psi tends to 45 degrees. -/
theorem C157_psi {a : ℝ} (h : Periodic pre post cell nb n₀ (rad a) lam) (hl : ∀ f ∈ pre ++ cell, f.1.im = 0)
    {mcell mpre : List Medium} (hcell : List.Forall₂ (IsFilm ((n₀ : ℂ) * Complex.sin (rad a)) lam) cell mcell)
    (hpre : List.Forall₂ (IsFilm ((n₀ : ℂ) * Complex.sin (rad a)) lam) pre mpre) (h35 : ∀ m ∈ mpre, |m.δ.im| ≤ 35)
    (hb : 0 < nb.im ∨ |n₀ * Real.sin (rad a)| < nb.re) {κ : Pol → ℂ} {u : Pol → ℂ × ℂ}
    (hu : ∀ pol, BlochWave pol mcell (κ pol) (u pol)) (hκ : ∀ pol, ‖κ pol‖ < 1)
    {rows : ℕ → List Row} (hr : ∀ N, RowsOf (rows N) (periodic pre post cell nb n₀ N))
    (zs : List Layer → ℝ → ℝ → Bool) (off : ℝ) (refl : Bool) :
    ∃ ψ Δ : ℕ → ℝ,
      (∀ᶠ N in atTop, (deltaPsiTMM zs [a] (rows N) lam off refl).1 = .ok [(some (ψ N), some (Δ N))]) ∧
      Tendsto ψ atTop (𝓝 45) := by
  have hex : ∀ pol, ∃ R, FeedsInto pol n₀ (rad a) mpre (u pol) R ∧ ‖R‖ = 1 := by
    intro pol
    obtain ⟨R, hR, -⟩ := C157_amplitudes h hcell hpre h35 hb (hu pol) (hκ pol)
    exact ⟨R, (hR R).mpr rfl, h.total hl hcell hpre h35 (hu pol) (hκ pol) ((hR R).mpr rfl)⟩
  obtain ⟨Rs, hs, ns⟩ := hex .s
  obtain ⟨Rp, hp, np⟩ := hex .p
  obtain ⟨ψ, Δ, h1, h2, -⟩ := C157_psi_delta h hcell hpre h35 hb (hu .s) (hu .p) (hκ .s) (hκ .p) hs hp
    (norm_ne_zero_iff.mp (by rw [ns]; exact one_ne_zero)) (norm_ne_zero_iff.mp (by rw [np]; exact one_ne_zero))
    hr zs off refl
  refine ⟨ψ, Δ, h1, ?_⟩
  rw [ns, np, div_one, Real.arctan_one] at h2
  convert h2 using 2
  field_simp
  norm_num

/-- C157: in a pass band (a Bloch wave with a factor of modulus 1, other than 1 and -1) any number of periods lets
some light through: the reflectance stays below a bound less than 1. -/
theorem C157_pass (h : Periodic pre post cell nb n₀ θ lam) {pol : Pol} {mcell : List Medium}
    (hcell : List.Forall₂ (IsFilm ((n₀ : ℂ) * Complex.sin θ) lam) cell mcell)
    (hb : 0 < nb.im ∨ |n₀ * Real.sin θ| < nb.re) {κ : ℂ} {u : ℂ × ℂ} (hu : BlochWave pol mcell κ u) (hκ : ‖κ‖ = 1)
    (hκ2 : κ ^ 2 ≠ 1) :
    ∃ ρ < 1, ∀ N d0 db, ∃ a r t,
      cohTmm ((periodic pre post cell nb n₀ N).layers d0 db) [((θ : ℂ), lam)] = .ok [a] ∧ a.of pol = some (r, t) ∧
      ‖r‖ ^ 2 ≤ ρ := by
  obtain ⟨hκ0, hu0, hM⟩ := (h.bloch_iff hcell).mp hu
  set s : ℂ := (n₀ : ℂ) * Complex.sin θ with hs
  set P : ℂ × ℂ → ℂ × ℂ := acrossAll pol s (pre.map (codeMed s lam)) with hP
  set M := periodMap pol cell n₀ θ lam with hMdef
  set v := backField pol post nb n₀ θ lam with hv
  have hun : Unimod M := h.unimod pol
  set p := M v - κ • v with hp
  set g := M v - κ⁻¹ • v with hg
  set F : ℂ × ℂ → ℂ := fun w => (frontScale pol n₀ θ).2 * w.1 + (frontScale pol n₀ θ).1 * w.2 with hF
  have hFP : ∀ (a b : ℂ) (x y : ℂ × ℂ), F (P (a • x - b • y)) = a * F (P x) - b * F (P y) := by
    intro a b x y
    rw [sub_eq_add_neg, ← neg_smul, hP, acrossAll_add, acrossAll_smul, acrossAll_smul]
    simp only [hF, Prod.fst_add, Prod.snd_add, Prod.smul_fst, Prod.smul_snd, smul_eq_mul]
    ring
  have hFs : ∀ (a : ℂ) (x : ℂ × ℂ), F (P (a • x)) = a * F (P x) := by
    intro a x
    rw [hP, acrossAll_smul]
    simp only [hF, Prod.smul_fst, Prod.smul_snd, smul_eq_mul]
    ring
  set B := ‖(κ⁻¹ - κ)⁻¹‖ * (‖F (P p)‖ + ‖F (P g)‖) with hB
  have hbound : ∀ N, ‖F (P ((M ^ N) v))‖ ≤ B := by
    intro N
    rw [hun.pow hκ0 hκ2 hu0 hM v N, hFs, hFP, norm_mul]
    refine mul_le_mul_of_nonneg_left ((norm_sub_le _ _).trans ?_) (norm_nonneg _)
    rw [norm_mul, norm_mul, norm_pow, norm_pow, norm_inv, hκ]
    simp [hp, hg]
  have hpow : ∀ N, power v ≤ power ((M ^ N) v) := by
    intro N
    induction N with
    | zero => simp
    | succ N ih => rw [pow_succ', mul_apply_eq_comp]; exact ih.trans (h.power_le pol _)
  have hv0 := h.back_pos hb pol
  rw [← hv] at hv0
  have hne : ∀ N, F (P ((M ^ N) v)) ≠ 0 := by
    intro N
    refine h.den (w := (M ^ N) v) ?_ (hv0.le.trans (hpow N)) rfl
    intro h0
    have h1 := hpow N
    rw [h0, show power (0 : ℂ × ℂ) = 0 by simp [power]] at h1
    exact absurd hv0 (not_lt.mpr h1)
  have hB0 : 0 < B := (norm_pos_iff.mpr (hne 0)).trans_le (hbound 0)
  have hn := h.stack.n₀_pos
  have hc := h.stack.cos_pos
  set c := (kap pol (backM ⟨n₀, pre ++ post, nb⟩ θ)).re with hcdef
  have hc0 : 0 < c := by
    have := back_power h.stack hb pol
    rw [power_tan] at this
    simpa [flux, backM, hcdef] using this
  set A := 2 * (frontScale pol n₀ θ).1 * (frontScale pol n₀ θ).2 with hA
  have hA0 : 0 < ‖A‖ := by
    obtain ⟨α, β, ha, hb, e⟩ := frontScale_pos hn hc pol
    rw [hA, e]
    refine norm_pos_iff.mpr (mul_ne_zero (mul_ne_zero two_ne_zero ?_) ?_)
    · exact Complex.ofReal_ne_zero.mpr ha.ne'
    · exact Complex.ofReal_ne_zero.mpr hb.ne'
  refine ⟨1 - c * (‖A‖ / B) ^ 2 / (n₀ * Real.cos θ), by
    have : 0 < c * (‖A‖ / B) ^ 2 / (n₀ * Real.cos θ) := by positivity
    linarith, fun N d0 db => ?_⟩
  have hPh := h.phys N
  have hsol := h.solve pol N rfl
  have hpw := hPh.power hsol
  rw [← hs, ← hP, ← hMdef, ← hv] at hpw hsol
  refine ⟨_, reflOf pol n₀ θ (P ((M ^ N) v)), transOf pol n₀ θ (P ((M ^ N) v)),
    coh_real hPh.front hPh.nz hPh.lam_pos.ne' d0 db, ?_, ?_⟩
  · rw [← hsol]; clear_value P M v A c B F; cases pol <;> rfl
  have ht : ‖A‖ / B ≤ ‖transOf pol n₀ θ (P ((M ^ N) v))‖ := by
    have : transOf pol n₀ θ (P ((M ^ N) v)) = A / F (P ((M ^ N) v)) := rfl
    rw [this, norm_div]
    exact div_le_div_of_nonneg_left hA0.le (norm_pos_iff.mpr (hne N)) (hbound N)
  have h1 : c * (‖A‖ / B) ^ 2 ≤ n₀ * Real.cos θ * (1 - ‖reflOf pol n₀ θ (P ((M ^ N) v))‖ ^ 2) := by
    refine le_trans ?_ hpw
    refine mul_le_mul_of_nonneg_left ?_ hc0.le
    exact pow_le_pow_left₀ (by positivity) ht 2
  have h2 : c * (‖A‖ / B) ^ 2 / (n₀ * Real.cos θ) ≤ 1 - ‖reflOf pol n₀ θ (P ((M ^ N) v))‖ ^ 2 := by
    rw [div_le_iff₀ (mul_pos hn hc)]
    linarith
  linarith

/-- C157: the Bloch waves of a period of two layers. -/
theorem C157_two_layers {f g : ℂ × ℝ} (h : Periodic pre post [f, g] nb n₀ θ lam) {m m' : Medium}
    (hm : IsFilm ((n₀ : ℂ) * Complex.sin θ) lam f m) (hm' : IsFilm ((n₀ : ℂ) * Complex.sin θ) lam g m') (pol : Pol)
    (κ : ℂ) : (∃ u, BlochWave pol [m, m'] κ u) ↔ κ ^ 2 - 2 * blochCos pol m m' * κ + 1 = 0 := by
  have hcell : List.Forall₂ (IsFilm ((n₀ : ℂ) * Complex.sin θ) lam) [f, g] [m, m'] := .cons hm (.cons hm' .nil)
  obtain ⟨ok, e⟩ := h.cell_eq (pol := pol) hcell
  have hco : ∀ x ∈ [m, m'], coefA pol x.n / (x.n * x.c) = (admittance pol x)⁻¹ ∧
      coefB pol (n₀ * Complex.sin θ) x.n / (x.n * x.c) = admittance pol x := by
    intro x hx
    obtain ⟨h1, h2, h3⟩ := ok x hx
    have hc : x.c ≠ 0 := right_ne_zero_of_mul h3
    cases pol
    · refine ⟨by simp [coefA, admittance], ?_⟩
      simp only [coefB, admittance]
      rw [div_eq_iff h3]
      have : (x.n * x.c) ^ 2 = x.n ^ 2 - (n₀ * Complex.sin θ) ^ 2 := by rw [mul_pow, h2]; field_simp
      rw [← sq, this]
    · constructor
      · simp only [coefA, admittance]; field_simp
      · simp only [coefB, admittance]
        rw [← h2]; field_simp
  obtain ⟨a1, b1⟩ := hco m (by simp)
  obtain ⟨a2, b2⟩ := hco m' (by simp)
  have hv : ∀ v, periodMap pol [f, g] n₀ θ lam v = across pol (n₀ * Complex.sin θ) m.n (m.n * m.c) m.δ
      (across pol (n₀ * Complex.sin θ) m'.n (m'.n * m'.c) m'.δ v) := fun v => (e v).symm
  have htr : (periodMap pol [f, g] n₀ θ lam (1, 0)).1 + (periodMap pol [f, g] n₀ θ lam (0, 1)).2 =
      2 * blochCos pol m m' := by
    rw [hv, hv]
    simp only [across, a1, a2, b1, b2, blochCos]
    have hI := Complex.I_sq
    generalize admittance pol m = η
    generalize admittance pol m' = η'
    simp only [div_eq_mul_inv]
    linear_combination ((Complex.sin m.δ * Complex.sin m'.δ) * (η⁻¹ * η' + η * η'⁻¹)) * hI
  have hun := h.unimod pol
  constructor
  · rintro ⟨u, hu⟩
    obtain ⟨hκ0, hu0, hM⟩ := (h.bloch_iff hcell).mp hu
    rw [← htr]
    obtain ⟨a, b, c, d, hdet, hco⟩ := hun.coords
    rw [hco] at hM
    rw [hco, hco]
    have h1 := congrArg Prod.fst hM
    have h2 := congrArg Prod.snd hM
    simp only [Prod.smul_fst, Prod.smul_snd, smul_eq_mul] at h1 h2
    have k1 : ((a - κ⁻¹) * (d - κ⁻¹) - b * c) * u.1 = 0 := by linear_combination (d - κ⁻¹) * h1 - b * h2
    have k2 : ((a - κ⁻¹) * (d - κ⁻¹) - b * c) * u.2 = 0 := by linear_combination (a - κ⁻¹) * h2 - c * h1
    have k3 : (a - κ⁻¹) * (d - κ⁻¹) - b * c = 0 := by
      by_contra hne
      exact hu0 (Prod.ext ((mul_eq_zero.mp k1).resolve_left hne) ((mul_eq_zero.mp k2).resolve_left hne))
    have hk : κ * κ⁻¹ = 1 := mul_inv_cancel₀ hκ0
    simp only [mul_one, mul_zero, add_zero, zero_add]
    linear_combination κ ^ 2 * k3 - κ ^ 2 * hdet + ((a + d) * κ - (κ * κ⁻¹ + 1)) * hk
  · intro hκ
    rw [← htr] at hκ
    obtain ⟨h1, u, h2, h3⟩ := hun.exists rfl rfl hκ
    exact ⟨u, (h.bloch_iff hcell).mpr ⟨h1, h2, h3⟩⟩

/-- C157: light is attenuated by a period of two layers exactly if the cosine of the Bloch phase is not a real number
from -1 to 1. -/
theorem C157_stop_band {f g : ℂ × ℝ} (h : Periodic pre post [f, g] nb n₀ θ lam) {m m' : Medium}
    (hm : IsFilm ((n₀ : ℂ) * Complex.sin θ) lam f m) (hm' : IsFilm ((n₀ : ℂ) * Complex.sin θ) lam g m') (pol : Pol) :
    (∃ κ u, BlochWave pol [m, m'] κ u ∧ ‖κ‖ < 1) ↔ ¬ ∃ x : ℝ, |x| ≤ 1 ∧ blochCos pol m m' = x := by
  constructor
  · rintro ⟨κ, u, hu, hκ⟩ hx
    have h1 := (C157_two_layers h hm hm' pol κ).mp ⟨u, hu⟩
    exact hκ.ne ((root_lt_one_iff h1).mpr hx)
  · intro hx
    obtain ⟨κ, h1, h2⟩ := quad_root (2 * blochCos pol m m')
    obtain ⟨u, hu⟩ := (C157_two_layers h hm hm' pol κ).mpr h1
    exact ⟨κ, u, hu, lt_of_le_of_ne h2 fun h3 => hx ((root_lt_one_iff h1).mp h3)⟩

end

/-! ### Quarter-wave mirrors -/

/-- Two films whose phases are a quarter of a wave each. -/
theorem quarter_cos (pol : Pol) {m m' : Medium} (h : m.δ = (Real.pi / 2 : ℝ)) (h' : m'.δ = (Real.pi / 2 : ℝ)) :
    blochCos pol m m' = -((admittance pol m / admittance pol m' + admittance pol m' / admittance pol m) / 2) := by
  have e : Complex.cos ((Real.pi / 2 : ℝ) : ℂ) = 0 := by rw [← Complex.ofReal_cos, Real.cos_pi_div_two]; rfl
  have e' : Complex.sin ((Real.pi / 2 : ℝ) : ℂ) = 1 := by rw [← Complex.ofReal_sin, Real.sin_pi_div_two]; rfl
  rw [blochCos, h, h', e, e']
  ring

theorem quarter_film {x lam : ℝ} (hx : 0 < x) (hl : 0 < lam) :
    IsFilm (((1 : ℝ) : ℂ) * Complex.sin ((0 : ℝ) : ℂ)) lam ((x : ℂ), lam / (4 * x)) ⟨x, 1, (Real.pi / 2 : ℝ)⟩ := by
  have hx' : (x : ℂ) ≠ 0 := Complex.ofReal_ne_zero.mpr hx.ne'
  have hl' : (lam : ℂ) ≠ 0 := Complex.ofReal_ne_zero.mpr hl.ne'
  refine ⟨rfl, by simp, ?_⟩
  push_cast
  field_simp
  norm_num

theorem quarter_thin {x lam : ℝ} (hx : 0 < x) (hl : 0 < lam) : Thin 1 0 lam ((x : ℂ), lam / (4 * x)) := by
  have hx' : (x : ℂ) ≠ 0 := Complex.ofReal_ne_zero.mpr hx.ne'
  have hl' : (lam : ℂ) ≠ 0 := Complex.ofReal_ne_zero.mpr hl.ne'
  refine ⟨⟨by simpa using hx, by simp⟩, by positivity, by simpa using hx', fun m hm => ?_⟩
  obtain ⟨h1, h2, h3⟩ := hm
  simp only at h1 h2 h3
  have hδ : m.δ = ((Real.pi / 2 : ℝ) : ℂ) * m.c := by
    rw [h3]; push_cast; field_simp; ring
  have hc : m.c.im = 0 := by
    have h4 : m.c ^ 2 = 1 := by simpa using h2
    have h5 : (m.c - 1) * (m.c + 1) = 0 := by linear_combination h4
    rcases mul_eq_zero.mp h5 with h | h
    · rw [sub_eq_zero.mp h]; simp
    · rw [eq_neg_of_add_eq_zero_left h]; simp
  rw [hδ, Complex.im_ofReal_mul, hc]
  norm_num

/-- C157: a quarter-wave mirror at normal incidence.  The reflectance of `N` periods of films of real indices `x ≠ y`,
each a quarter of the wavelength thick, tends to 1 at the rate of `(x / y) ^ (2 N)`, whatever the backing medium. -/
theorem C157_quarter {x y lam ρ : ℝ} (hx : 0 < x) (hy : 0 < y) (hl : 0 < lam) (hρ : ρ = x / y ∨ ρ = y / x) (hρ1 : ρ < 1)
    {nb : ℂ} (hnb : PassiveIndex nb) (pol : Pol) :
    ∃ C, ∀ N d0 db, ∃ a r t,
      cohTmm (Stack.layers ⟨(1 : ℝ), repeated [((x : ℂ), lam / (4 * x)), ((y : ℂ), lam / (4 * y))] N, nb⟩ d0 db)
        [(((0 : ℝ) : ℂ), lam)] = .ok [a] ∧ a.of pol = some (r, t) ∧ ‖r‖ ≤ 1 ∧ 1 - ‖r‖ ≤ C * ρ ^ (2 * N) := by
  have hpi := Real.pi_pos
  have hP : Periodic [] [] [((x : ℂ), lam / (4 * x)), ((y : ℂ), lam / (4 * y))] nb 1 0 lam := by
    refine ⟨⟨rfl, one_pos, by rw [abs_zero]; positivity, hl, by simp, hnb, by simp, by simp⟩, fun f hf => ?_⟩
    simp only [List.mem_cons, List.not_mem_nil, or_false] at hf
    rcases hf with rfl | rfl
    · exact quarter_thin hx hl
    · exact quarter_thin hy hl
  have hxC : (x : ℂ) ≠ 0 := Complex.ofReal_ne_zero.mpr hx.ne'
  have hyC : (y : ℂ) ≠ 0 := Complex.ofReal_ne_zero.mpr hy.ne'
  have h0 : 0 < ρ := by rcases hρ with rfl | rfl <;> positivity
  obtain ⟨u, hu⟩ := (C157_two_layers hP (quarter_film hx hl) (quarter_film hy hl) pol (-(ρ : ℂ))).mpr (by
    rw [quarter_cos pol rfl rfl]
    cases pol <;> simp only [admittance] <;> rcases hρ with rfl | rfl <;> push_cast <;> field_simp <;> ring)
  have hn : ‖(-(ρ : ℂ))‖ = ρ := by rw [norm_neg, Complex.norm_real, Real.norm_eq_abs, abs_of_pos h0]
  obtain ⟨C, hC⟩ := C157_mirror hP (by simp) (.cons (quarter_film hx hl) (.cons (quarter_film hy hl) .nil)) .nil
    (by simp) (Or.inr (by simpa using hnb.1)) hu (by rw [hn]; exact hρ1)
  refine ⟨C, fun N d0 db => ?_⟩
  have := hC N d0 db
  rw [hn] at this
  simpa [periodic] using this

/-- C157 with numbers: indices 1.5 and 2.5 on a backing that absorbs. -/
example : ∃ C, ∀ N d0 db, ∃ a r t,
    cohTmm (Stack.layers ⟨(1 : ℝ), repeated [(((3 / 2 : ℝ) : ℂ), 600 / (4 * (3 / 2))),
      (((5 / 2 : ℝ) : ℂ), 600 / (4 * (5 / 2)))] N, 3 + I⟩ d0 db) [(((0 : ℝ) : ℂ), 600)] = .ok [a] ∧
      a.of .s = some (r, t) ∧ ‖r‖ ≤ 1 ∧ 1 - ‖r‖ ≤ C * (3 / 5) ^ (2 * N) :=
  C157_quarter (by norm_num) (by norm_num) (by norm_num) (Or.inl (by norm_num)) (by norm_num)
    ⟨by simp, by simp⟩ .s

/-! ### A mirror at oblique incidence -/

/-- Films of `n² = 3/2` and `n² = 9/2`, a quarter of a wave each at 45 degrees. -/
noncomputable def mirrorCell : List (ℂ × ℝ) := [((Real.sqrt (3 / 2) : ℝ), 1), ((Real.sqrt (9 / 2) : ℝ), 1 / 2)]

theorem rad_fortyfive : rad 45 = Real.pi / 4 := by unfold rad; ring

theorem s_fortyfive_sq : (((1 : ℝ) : ℂ) * Complex.sin ((rad 45 : ℝ) : ℂ)) ^ 2 = 1 / 2 := by
  rw [rad_fortyfive, ← Complex.ofReal_sin, Real.sin_pi_div_four, Complex.ofReal_one, one_mul, ← Complex.ofReal_pow,
    div_pow, Real.sq_sqrt (by norm_num)]
  norm_num

/-- The media of these films. -/
noncomputable def mirrorMed (e q : ℝ) : Medium := ⟨(Real.sqrt e : ℝ), (q / Real.sqrt e : ℝ), (Real.pi / 2 : ℝ)⟩

theorem mirror_film {e q d : ℝ} (he : 0 < e) (hq : q ^ 2 = e - 1 / 2) (hd : q * d = 1) :
    IsFilm (((1 : ℝ) : ℂ) * Complex.sin ((rad 45 : ℝ) : ℂ)) 4 ((Real.sqrt e : ℝ), d) (mirrorMed e q) := by
  have hs : 0 < Real.sqrt e := Real.sqrt_pos.mpr he
  have hsC : ((Real.sqrt e : ℝ) : ℂ) ≠ 0 := Complex.ofReal_ne_zero.mpr hs.ne'
  have h2 : ((Real.sqrt e : ℝ) : ℂ) ^ 2 = e := by rw [← Complex.ofReal_pow, Real.sq_sqrt he.le]
  have heC : (e : ℂ) ≠ 0 := Complex.ofReal_ne_zero.mpr he.ne'
  refine ⟨rfl, ?_, ?_⟩
  · simp only [mirrorMed]
    rw [div_pow, s_fortyfive_sq, h2]
    push_cast
    rw [div_pow, h2, show (q : ℂ) ^ 2 = e - 1 / 2 by rw [← Complex.ofReal_pow, hq]; push_cast; rfl]
    field_simp
  · simp only [mirrorMed]
    have hdC : (q : ℂ) * d = 1 := by rw [← Complex.ofReal_mul, hd]; rfl
    push_cast
    field_simp
    linear_combination (-4 : ℂ) * hdC

theorem mirror_thin {e q d : ℝ} (he : 0 < e) (hq : q ^ 2 = e - 1 / 2) (hd : q * d = 1) (hd0 : 0 ≤ d) (hq0 : q ≠ 0) :
    Thin 1 (rad 45) 4 ((Real.sqrt e : ℝ), d) := by
  have hs : 0 < Real.sqrt e := Real.sqrt_pos.mpr he
  have h2 : ((Real.sqrt e : ℝ) : ℂ) ^ 2 = e := by rw [← Complex.ofReal_pow, Real.sq_sqrt he.le]
  refine ⟨⟨by simpa using hs, by simp⟩, hd0, ?_, fun m hm => ?_⟩
  · simp only
    rw [s_fortyfive_sq, h2]
    intro h0
    have h3 : e = 1 / 2 := by
      have := congrArg Complex.re h0
      simpa using this
    rw [h3, sub_self] at hq
    exact hq0 (pow_eq_zero_iff two_ne_zero |>.mp hq)
  · have hf := mirror_film he hq hd
    have hc : m.c = (mirrorMed e q).c ∨ m.c = -(mirrorMed e q).c :=
      sq_eq_sq_iff_eq_or_eq_neg.mp (hm.2.1.trans hf.2.1.symm)
    have hδ : m.δ = (mirrorMed e q).δ ∨ m.δ = -(mirrorMed e q).δ := by
      rcases hc with h | h
      · left; rw [hm.2.2, h, hf.2.2]
      · right; rw [hm.2.2, h, hf.2.2]; ring
    rcases hδ with h | h <;> rw [h] <;> simp only [mirrorMed, Complex.neg_im, Complex.ofReal_im] <;> norm_num

/-- C157 with numbers: psi of the mirror on a backing of index 3 at 45 degrees tends to 45 degrees. -/
example (zs : List Layer → ℝ → ℝ → Bool) (rows : ℕ → List Row)
    (hr : ∀ N, RowsOf (rows N) (periodic [] [] mirrorCell 3 1 N)) : ∃ ψ Δ : ℕ → ℝ,
    (∀ᶠ N in atTop, (deltaPsiTMM zs [45] (rows N) 4 0 false).1 = .ok [(some (ψ N), some (Δ N))]) ∧
    Tendsto ψ atTop (𝓝 45) := by
  have hpi := Real.pi_pos
  have hP : Periodic [] [] mirrorCell 3 1 (rad 45) 4 := by
    refine ⟨⟨rfl, one_pos, by rw [rad_fortyfive, abs_of_pos (by positivity)]; linarith, by norm_num, by simp,
      ⟨by simp, by simp⟩, by simp, by simp⟩, fun f hf => ?_⟩
    simp only [mirrorCell, List.mem_cons, List.not_mem_nil, or_false] at hf
    rcases hf with rfl | rfl
    · exact mirror_thin (q := 1) (by norm_num) (by norm_num) (by norm_num) (by norm_num) (by norm_num)
    · exact mirror_thin (q := 2) (by norm_num) (by norm_num) (by norm_num) (by norm_num) (by norm_num)
  have f1 := mirror_film (e := 3 / 2) (q := 1) (d := 1) (by norm_num) (by norm_num) (by norm_num)
  have f2 := mirror_film (e := 9 / 2) (q := 2) (d := 1 / 2) (by norm_num) (by norm_num) (by norm_num)
  have e1 : ((Real.sqrt (3 / 2) : ℝ) : ℂ) ^ 2 = 3 / 2 := by
    rw [← Complex.ofReal_pow, Real.sq_sqrt (by norm_num)]; norm_num
  have e2 : ((Real.sqrt (9 / 2) : ℝ) : ℂ) ^ 2 = 9 / 2 := by
    rw [← Complex.ofReal_pow, Real.sq_sqrt (by norm_num)]; norm_num
  have n1 : ((Real.sqrt (3 / 2) : ℝ) : ℂ) ≠ 0 := fun h => by rw [h] at e1; norm_num at e1
  have n2 : ((Real.sqrt (9 / 2) : ℝ) : ℂ) ≠ 0 := fun h => by rw [h] at e2; norm_num at e2
  have hbl : ∀ pol, ∃ κ u, BlochWave pol [mirrorMed (3 / 2) 1, mirrorMed (9 / 2) 2] κ u ∧ ‖κ‖ < 1 := by
    intro pol
    refine (C157_stop_band hP f1 f2 pol).mpr ?_
    rintro ⟨x, hx, h⟩
    rw [quarter_cos pol rfl rfl] at h
    have hx' := abs_le.mp hx
    cases pol
    · have a1 : admittance .s (mirrorMed (3 / 2) 1) = 1 := by simp only [admittance, mirrorMed]; push_cast; field_simp
      have a2 : admittance .s (mirrorMed (9 / 2) 2) = 2 := by simp only [admittance, mirrorMed]; push_cast; field_simp
      rw [a1, a2] at h
      have := congrArg Complex.re h
      norm_num at this
      linarith
    · have a1 : admittance .p (mirrorMed (3 / 2) 1) = 2 / 3 := by
        simp only [admittance, mirrorMed]; push_cast
        rw [div_div, ← sq, e1]; norm_num
      have a2 : admittance .p (mirrorMed (9 / 2) 2) = 4 / 9 := by
        simp only [admittance, mirrorMed]; push_cast
        rw [div_div, ← sq, e2]; norm_num
      rw [a1, a2] at h
      have := congrArg Complex.re h
      norm_num at this
      linarith
  choose κ u hu hκ using hbl
  refine C157_psi hP (by simp [mirrorCell]) (.cons f1 (.cons f2 .nil)) .nil (by simp) (Or.inr ?_) hu hκ hr zs 0 false
  have h1 := Real.abs_sin_le_one (rad 45)
  simp only [one_mul]
  refine h1.trans_lt ?_
  norm_num

/-- C157 with numbers: a single layer of index 2 and a quarter of a wave is a cell in a pass band, with factor `i`. -/
example : BlochWave .s [⟨2, 1, (Real.pi / 2 : ℝ)⟩] I (1, 2) ∧ ‖I‖ = 1 ∧ I ^ 2 ≠ 1 := by
  refine ⟨⟨by simp, 1, 0, by simp [tanField], ?_⟩, by simp, by rw [Complex.I_sq]; norm_num⟩
  have e : Complex.exp (I * ((Real.pi / 2 : ℝ) : ℂ)) = I := by
    rw [mul_comm]; push_cast; exact Complex.exp_pi_div_two_mul_I
  simp only [Carries, tanField]
  rw [e]
  ext <;> simp [mul_comm]

/-- C157 with numbers: that layer between air and glass. -/
example : ∃ ρ < 1, ∀ N d0 db, ∃ a r t,
    cohTmm ((periodic [] [] [(((2 : ℝ) : ℂ), 8 / (4 * 2))] (3 / 2) 1 N).layers d0 db) [(((0 : ℝ) : ℂ), 8)] = .ok [a] ∧
      a.of .s = some (r, t) ∧ ‖r‖ ^ 2 ≤ ρ := by
  have hpi := Real.pi_pos
  refine C157_pass (κ := I) (u := (1, 2)) (mcell := [⟨(2 : ℝ), 1, (Real.pi / 2 : ℝ)⟩]) (θ := 0) (lam := 8) ?_ ?_ ?_ ?_
    (by simp) (by rw [Complex.I_sq]; norm_num)
  · refine ⟨⟨rfl, one_pos, by rw [abs_zero]; positivity, by norm_num, by simp, ⟨by norm_num, by norm_num⟩, by simp,
      by simp⟩, fun f hf => ?_⟩
    simp only [List.mem_cons, List.not_mem_nil, or_false] at hf
    subst hf
    exact quarter_thin (x := 2) (by norm_num) (by norm_num)
  · exact .cons (quarter_film (x := 2) (by norm_num) (by norm_num)) .nil
  · right; norm_num
  · refine ⟨by simp, 1, 0, by simp [tanField], ?_⟩
    have e : Complex.exp (I * ((Real.pi / 2 : ℝ) : ℂ)) = I := by
      rw [mul_comm]; push_cast; exact Complex.exp_pi_div_two_mul_I
    simp only [Carries, tanField]
    rw [e]
    ext <;> simp [mul_comm]

/-- C157 with numbers: a metal-like layer of 10 nm and a transparent one, at 30 degrees. -/
example (pol : Pol) : ∃ m m' κ u, IsFilm (((1 : ℝ) : ℂ) * Complex.sin ((rad 30 : ℝ) : ℂ)) 600 (2 + I, 10) m ∧
    IsFilm (((1 : ℝ) : ℂ) * Complex.sin ((rad 30 : ℝ) : ℂ)) 600 (3 / 2, 50) m' ∧ BlochWave pol [m, m'] κ u ∧ ‖κ‖ < 1 := by
  have hpi := Real.pi_pos
  have hpi4 := Real.pi_le_four
  have hs : ‖((1 : ℝ) : ℂ) * Complex.sin ((rad 30 : ℝ) : ℂ)‖ = 1 / 2 := by
    rw [show rad 30 = Real.pi / 6 by unfold rad; ring, ← Complex.ofReal_sin, Real.sin_pi_div_six]
    simp
  have hthin : ∀ f : ℂ × ℝ, PassiveIndex f.1 → 0 ≤ f.2 → f.2 ≤ 50 → ‖f.1‖ ≤ 4 → 1 / 2 < ‖f.1‖ →
      Thin 1 (rad 30) 600 f := by
    intro f hp h0 h50 h4 h1
    refine ⟨hp, h0, fun h => ?_, fun m hm => ?_⟩
    · have := congrArg norm h
      rw [norm_pow, norm_pow, hs] at this
      nlinarith
    · refine (Complex.abs_im_le_norm _).trans ((hm.norm_le hp.ne_zero (by norm_num) h0).trans ?_)
      rw [hs]
      have : 2 * Real.pi * f.2 / 600 ≤ 1 := by
        rw [div_le_one (by norm_num)]
        nlinarith
      have h2 : 0 ≤ 2 * Real.pi * f.2 / 600 := by positivity
      nlinarith
  have hn : ‖(2 + I : ℂ)‖ ^ 2 = 5 := by
    rw [← Complex.normSq_eq_norm_sq, Complex.normSq_apply]; norm_num
  have hn2 : ‖(3 / 2 : ℂ)‖ = 3 / 2 := by norm_num
  have hP : Periodic [] [] [((2 + I : ℂ), (10 : ℝ)), ((3 / 2 : ℂ), (50 : ℝ))] 3 1 (rad 30) 600 := by
    refine ⟨⟨rfl, one_pos, ?_, by norm_num, by simp, ⟨by simp, by simp⟩, by simp, by simp⟩, fun f hf => ?_⟩
    · rw [show rad 30 = Real.pi / 6 by unfold rad; ring, abs_of_pos (by positivity)]; linarith
    · simp only [List.mem_cons, List.not_mem_nil, or_false] at hf
      rcases hf with rfl | rfl
      · exact hthin _ ⟨by simp, by simp⟩ (by norm_num) (by norm_num) (by simp only; nlinarith [norm_nonneg (2 + I : ℂ)])
          (by simp only; nlinarith [norm_nonneg (2 + I : ℂ)])
      · exact hthin _ ⟨by norm_num, by norm_num⟩ (by norm_num) (by norm_num) (by simp only; rw [hn2]; norm_num)
          (by simp only; rw [hn2]; norm_num)
  have f1 := codeMed_isFilm (((1 : ℝ) : ℂ) * Complex.sin ((rad 30 : ℝ) : ℂ)) 600 (2 + I, 10)
  have f2 := codeMed_isFilm (((1 : ℝ) : ℂ) * Complex.sin ((rad 30 : ℝ) : ℂ)) 600 (3 / 2, 50)
  obtain ⟨κ, u, h1, h2⟩ := C157_absorbing hP (.cons f1 (.cons f2 .nil)) (f := (2 + I, 10)) (by simp) (by simp)
    (by norm_num) pol
  exact ⟨_, _, κ, u, f1, f2, h1, h2⟩

end Verif.TMM
