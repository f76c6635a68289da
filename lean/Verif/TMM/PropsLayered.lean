import Verif.TMM.LayeredLimit
import Verif.TMM.PropsGraded
import Verif.EMA.PropsEMA

/-! # A film made of many thin layers (C156) -/

namespace Verif.TMM

open Complex (I)
open Set Filter Topology EMA

/-- A film of thickness `D` made of equal periods, between homogeneous films.  The cell lists the index and the share
of each layer of a period. -/
structure Layered (pre post cell : List (ℂ × ℝ)) (D : ℝ) (nb : ℂ) (n₀ θ lam : ℝ) : Prop where
  stack : Physical ⟨n₀, pre ++ post, nb⟩ n₀ θ lam
  thick : 0 ≤ D
  layers : ∀ c ∈ cell, PassiveIndex c.1 ∧ 0 ≤ c.2
  shares : (cell.map fun c => c.2).sum = 1
  offCritical : ∀ c ∈ cell, c.1 ^ 2 ≠ ((n₀ : ℂ) * Complex.sin θ) ^ 2

/-- The stack with `N` periods. -/
noncomputable def layered (pre post cell : List (ℂ × ℝ)) (D : ℝ) (nb : ℂ) (n₀ : ℝ) (N : ℕ) : Stack :=
  ⟨n₀, pre ++ periods cell (D / N) N ++ post, nb⟩

/-- Film that attenuates by at most 35 nepers and is not critical. -/
def Thin (n₀ θ lam : ℝ) (f : ℂ × ℝ) : Prop :=
  PassiveIndex f.1 ∧ 0 ≤ f.2 ∧ f.1 ^ 2 ≠ ((n₀ : ℂ) * Complex.sin θ) ^ 2 ∧
    ∀ m, IsFilm ((n₀ : ℂ) * Complex.sin θ) lam f m → |m.δ.im| ≤ 35

theorem qCode_ne_zero {s n : ℂ} (hn : n ≠ 0) (hc : n ^ 2 ≠ s ^ 2) : qCode s n ≠ 0 :=
  (fullMed_ok (lam := 1) (f := (n, 0)) hn hc).2.2

theorem mem_periods {cell : List (ℂ × ℝ)} {d : ℝ} {N : ℕ} {f : ℂ × ℝ} (h : f ∈ periods cell d N) :
    ∃ c ∈ cell, f = (c.1, c.2 * d) := by
  unfold periods at h
  obtain ⟨l, hl, hf⟩ := List.mem_flatten.mp h
  obtain ⟨-, rfl⟩ := List.mem_replicate.mp hl
  obtain ⟨c, hc, rfl⟩ := List.mem_map.mp hf
  exact ⟨c, hc, rfl⟩

section
variable {pre post cell : List (ℂ × ℝ)} {D : ℝ} {nb : ℂ} {n₀ θ lam : ℝ}

theorem Layered.thin (h : Layered pre post cell D nb n₀ θ lam) :
    ∀ᶠ N : ℕ in atTop, ∀ f ∈ periods cell (D / N) N, Thin n₀ θ lam f := by
  have hlam := h.stack.lam_pos
  have hpi := Real.pi_pos
  have key : ∀ᶠ N : ℕ in atTop, ∀ c ∈ {c | c ∈ cell}, Thin n₀ θ lam (c.1, c.2 * (D / N)) := by
    refine (eventually_all_finite (List.finite_toSet cell)).mpr fun c hc => ?_
    obtain ⟨hp, hf0⟩ := h.layers c hc
    have hn := hp.ne_zero
    set s : ℂ := (n₀ : ℂ) * Complex.sin θ with hs
    set K := 2 * Real.pi * c.2 / lam * (1 + ‖c.1 ^ 2 - s ^ 2‖) with hK
    have hlim : Tendsto (fun N : ℕ => K * (D / N)) atTop (𝓝 (K * 0)) :=
      (tendsto_const_div_atTop_nhds_zero_nat D).const_mul K
    rw [mul_zero] at hlim
    filter_upwards [hlim.eventually (gt_mem_nhds (by norm_num : (0 : ℝ) < 35))] with N hN
    have hd : 0 ≤ D / N := div_nonneg h.thick (Nat.cast_nonneg N)
    refine ⟨hp, mul_nonneg hf0 hd, h.offCritical c hc, fun m hm => ?_⟩
    obtain ⟨h1, h2, h3⟩ := hm
    simp only at h1 h2 h3
    have hq2 : (c.1 * m.c) ^ 2 = c.1 ^ 2 - s ^ 2 := by rw [mul_pow, h2, ← hs]; field_simp
    have hqn : ‖c.1 * m.c‖ ≤ 1 + ‖c.1 ^ 2 - s ^ 2‖ := by
      rw [← hq2, norm_pow]
      nlinarith [sq_nonneg (‖c.1 * m.c‖ - 1 / 2)]
    have e : m.δ = ((2 * Real.pi * (c.2 * (D / N)) / lam : ℝ) : ℂ) * (c.1 * m.c) := by rw [h3]; push_cast; ring
    calc |m.δ.im| ≤ ‖m.δ‖ := Complex.abs_im_le_norm _
      _ = 2 * Real.pi * (c.2 * (D / N)) / lam * ‖c.1 * m.c‖ := by
          rw [e, norm_mul, Complex.norm_real, Real.norm_eq_abs, abs_of_nonneg (by positivity)]
      _ ≤ 2 * Real.pi * (c.2 * (D / N)) / lam * (1 + ‖c.1 ^ 2 - s ^ 2‖) :=
          mul_le_mul_of_nonneg_left hqn (by positivity)
      _ = K * (D / N) := by rw [hK]; ring
      _ ≤ 35 := hN.le
  filter_upwards [key] with N hN f hf
  obtain ⟨c, hc, rfl⟩ := mem_periods hf
  exact hN c hc

/-- Thin films put between those of a physical stack. -/
theorem physical_insert {mid : List (ℂ × ℝ)} (hs : Physical ⟨n₀, pre ++ post, nb⟩ n₀ θ lam)
    (hm : ∀ f ∈ mid, Thin n₀ θ lam f) : Physical ⟨n₀, pre ++ mid ++ post, nb⟩ n₀ θ lam := by
  have hcase : ∀ f ∈ pre ++ mid ++ post, f ∈ pre ++ post ∨ f ∈ mid := by
    intro f hf
    simp only [List.mem_append] at hf ⊢
    tauto
  refine ⟨rfl, hs.n₀_pos, hs.angle, hs.lam_pos, fun f hf => ?_, hs.back, fun f hf => ?_, fun f hf m hfm => ?_⟩
  · rcases hcase f hf with h1 | h1
    · exact hs.films f h1
    · exact ⟨(hm f h1).1, (hm f h1).2.1⟩
  · rcases hcase f hf with h1 | h1
    · exact hs.offCritical f h1
    · exact (hm f h1).2.2.1
  · rcases hcase f hf with h1 | h1
    · exact hs.mild f h1 m hfm
    · have := (abs_le.mp ((hm f h1).2.2.2 m hfm)).2
      linarith [Real.self_le_sinh_iff.mpr (by norm_num : (0 : ℝ) ≤ 35)]

/-- Field in front of the films behind the layered one, per unit of transmitted amplitude. -/
noncomputable def backField (pol : Pol) (post : List (ℂ × ℝ)) (nb : ℂ) (n₀ θ lam : ℝ) : ℂ × ℂ :=
  acrossAll pol (n₀ * Complex.sin θ) (post.map (codeMed (n₀ * Complex.sin θ) lam))
    (tanField pol ⟨nb, root1m (n₀ * Complex.sin θ / nb), 0⟩ 1 0)

/-- Amplitudes that the code returns, in terms of the field at the front. -/
theorem front_insert {mid : List (ℂ × ℝ)} (hs : Physical ⟨n₀, pre ++ post, nb⟩ n₀ θ lam)
    (hm : ∀ f ∈ mid, Thin n₀ θ lam f) (pol : Pol) {u : ℂ × ℂ}
    (hu : u = acrossAll pol (n₀ * Complex.sin θ) (pre.map (codeMed (n₀ * Complex.sin θ) lam))
      (acrossAll pol (n₀ * Complex.sin θ) (mid.map (fullMed (n₀ * Complex.sin θ) lam)) (backField pol post nb n₀ θ lam))) :
    solveSt pol ⟨n₀, pre ++ mid ++ post, nb⟩ θ lam = some (reflOf pol n₀ θ u, transOf pol n₀ θ u) := by
  have hP := physical_insert hs hm
  obtain ⟨r, t, hr⟩ := hP.solved pol
  rw [hr]
  rw [solveSt_eq] at hr
  have h1 := (solveL_spec hr).1
  rw [fields_iff_through, through_iff (s := (n₀ : ℂ) * Complex.sin θ)] at h1
  swap
  · intro m hm
    obtain ⟨f, hf, rfl⟩ := List.mem_map.mp hm
    exact codeMed_ok (hP.films f hf).1.ne_zero (hP.offCritical f hf)
  have e1 : frontM ⟨n₀, pre ++ mid ++ post, nb⟩ θ = ⟨n₀, Complex.cos θ, 0⟩ := by
    have := hP.front_c
    simp only [frontM] at this ⊢
    rw [this]; push_cast; rfl
  have e2 : ∀ f ∈ mid, codeMed (n₀ * Complex.sin θ) lam f = fullMed (n₀ * Complex.sin θ) lam f := by
    intro f hf
    unfold codeMed fullMed
    congr 1
    apply clip35_of_le
    have := (hm f hf).2.2.2 ⟨f.1, root1m (n₀ * Complex.sin θ / f.1),
      2 * Real.pi * f.1 * root1m (n₀ * Complex.sin θ / f.1) * f.2 / lam⟩ (codeMed_isFilm _ _ _)
    refine le_trans (le_of_eq ?_) (abs_le.mp this).2
    simp only
    congr 1; ring
  rw [e1] at h1
  have h2 : tanField pol ⟨n₀, Complex.cos θ, 0⟩ 1 r = t • u := by
    rw [h1, tan_back_smul, acrossAll_smul]
    congr 1
    simp only [filmsM, List.map_append, acrossAll_append, backM]
    rw [hu, List.map_congr_left e2]
    rfl
  obtain ⟨rfl, rfl⟩ := amps_of_front hs.n₀_pos hs.cos_pos h2
  rfl

/-- The propagator of the uniaxial film. -/
noncomputable def uniMap (pol : Pol) (s : ℂ) (lam D : ℝ) (εo εe : ℂ) : FieldMap :=
  NormedSpace.exp (D • genMap (2 * Real.pi / lam) (uniA pol εo) (uniB pol s εo εe))

/-- Field at the front of the layered film in the limit. -/
noncomputable def limitField (pol : Pol) (pre post cell : List (ℂ × ℝ)) (D : ℝ) (nb : ℂ) (n₀ θ lam : ℝ) : ℂ × ℂ :=
  acrossAll pol (n₀ * Complex.sin θ) (pre.map (codeMed (n₀ * Complex.sin θ) lam))
    (uniMap pol (n₀ * Complex.sin θ) lam D (meanEps cell) (1 / meanInvEps cell) (backField pol post nb n₀ θ lam))

theorem Layered.den (h : Layered pre post cell D nb n₀ θ lam) (pol : Pol) :
    (frontScale pol n₀ θ).2 * (limitField pol pre post cell D nb n₀ θ lam).1 +
      (frontScale pol n₀ θ).1 * (limitField pol pre post cell D nb n₀ θ lam).2 ≠ 0 := by
  have hs := h.stack
  set s : ℂ := (n₀ : ℂ) * Complex.sin θ with hsdef
  set ub := tanField pol ⟨nb, root1m (s / nb), 0⟩ 1 0 with hub
  have ok : ∀ fs : List (ℂ × ℝ), (∀ f ∈ fs, f ∈ pre ++ post) → ∀ m ∈ fs.map (codeMed s lam),
      m.n ≠ 0 ∧ m.c ^ 2 = 1 - (s / m.n) ^ 2 ∧ m.n * m.c ≠ 0 := by
    intro fs hfs m hm
    obtain ⟨f, hf, rfl⟩ := List.mem_map.mp hm
    exact codeMed_ok (hs.films f (hfs f hf)).1.ne_zero (hs.offCritical f (hfs f hf))
  have damps : ∀ fs : List (ℂ × ℝ), (∀ f ∈ fs, f ∈ pre ++ post) → ∀ m ∈ fs.map (codeMed s lam), Damps pol m := by
    intro fs hfs m hm
    obtain ⟨f, hf, rfl⟩ := List.mem_map.mp hm
    exact hs.film_damps pol _ (List.mem_map.mpr ⟨f, hfs f hf, rfl⟩)
  have hpre : ∀ f ∈ pre, f ∈ pre ++ post := fun f hf => List.mem_append_left _ hf
  have hpost : ∀ f ∈ post, f ∈ pre ++ post := fun f hf => List.mem_append_right _ hf
  have hub0 : ub ≠ 0 := by
    intro h0
    have := congrArg Prod.fst h0
    have hb := hs.back.ne_zero
    cases pol <;> simp [hub, tanField] at this
    exact hb this
  have pb : 0 ≤ power ub := by
    rw [hub, power_tan]
    have := kap_re_nonneg hs.back_dir pol
    simp only [flux, add_zero, sub_zero, map_one, mul_one]
    exact this
  have hb : backField pol post nb n₀ θ lam = acrossAll pol s (post.map (codeMed s lam)) ub := rfl
  have p1 := power_through (damps post hpost) ((through_iff (ok post hpost)).mpr hb)
  set V := uniMap pol s lam D (meanEps cell) (1 / meanInvEps cell) (backField pol post nb n₀ θ lam) with hV
  have p2 : power (backField pol post nb n₀ θ lam) ≤ power V := by
    obtain ⟨i1, i2⟩ := mean_im_nonneg h.layers (n₀ * Real.sin θ) pol
    have hsr : s = ((n₀ * Real.sin θ : ℝ) : ℂ) := by rw [hsdef]; push_cast; rfl
    rw [← hsr, (mean_uniaxial h.shares s pol).2] at i2
    rw [(mean_uniaxial h.shares s pol).1] at i1
    have := hs.lam_pos
    exact power_exp h.thick (by positivity) i1 i2 _
  have p3 := power_through (damps pre hpre) ((through_iff (u' := V) (ok pre hpre)).mpr rfl)
  refine den_of_power hs.n₀_pos hs.cos_pos ?_ (pb.trans (p1.trans (p2.trans p3)))
  intro h0
  have h1 := acrossAll_eq_zero (ok pre hpre) h0
  have h2 := exp_eq_zero h1
  exact hub0 (acrossAll_eq_zero (ok post hpost) (hb ▸ h2))

/-- Reading the layer from its back. -/
theorem uniaxial_flip {pol : Pol} {s εo εe : ℂ} {lam D : ℝ} {u : ℝ → ℂ × ℂ} :
    UniaxialFields pol s lam D εo εe u ↔ ∀ τ ∈ Icc 0 D, HasDerivWithinAt (fun τ => u (D - τ))
      (genMap (2 * Real.pi / lam) (uniA pol εo) (uniB pol s εo εe) (u (D - τ))) (Icc 0 D) τ := by
  have maps : MapsTo (fun τ : ℝ => D - τ) (Icc 0 D) (Icc 0 D) := fun τ hτ => ⟨by linarith [hτ.2], by linarith [hτ.1]⟩
  have dn : ∀ τ, HasDerivWithinAt (fun τ : ℝ => D - τ) (-1) (Icc 0 D) τ := fun τ => by
    simpa using (hasDerivWithinAt_id τ (Icc 0 D)).const_sub D
  constructor
  · intro h τ hτ
    have h1 := (h.dX (D - τ) (maps hτ)).scomp τ (dn τ) maps
    have h2 := (h.dY (D - τ) (maps hτ)).scomp τ (dn τ) maps
    refine (h1.prodMk h2).congr_deriv ?_
    simp only [genMap, swapMap_apply, neg_smul, one_smul, neg_mul]
  · intro h
    have key : ∀ z ∈ Icc 0 D, HasDerivWithinAt u
        (-(genMap (2 * Real.pi / lam) (uniA pol εo) (uniB pol s εo εe) (u z))) (Icc 0 D) z := by
      intro z hz
      have h0 : HasDerivWithinAt (fun τ => u (D - τ))
          (genMap (2 * Real.pi / lam) (uniA pol εo) (uniB pol s εo εe) (u z)) (Icc 0 D) (D - z) := by
        have := h (D - z) (maps hz)
        rwa [sub_sub_cancel] at this
      have h1 := h0.scomp z (dn z) maps
      simp only [Function.comp_def, sub_sub_cancel, neg_smul, one_smul] at h1
      exact h1
    refine ⟨fun z hz => ?_, fun z hz => ?_⟩
    · refine ((ContinuousLinearMap.fst ℝ ℂ ℂ).hasFDerivAt.comp_hasDerivWithinAt z (key z hz)).congr_deriv ?_
      simp [genMap, swapMap_apply]
    · refine ((ContinuousLinearMap.snd ℝ ℂ ℂ).hasFDerivAt.comp_hasDerivWithinAt z (key z hz)).congr_deriv ?_
      simp [genMap, swapMap_apply]

/-- The solutions of the boundary value problem. -/
theorem Layered.solves_iff (h : Layered pre post cell D nb n₀ θ lam) {pol : Pol} {mpre mpost : List Medium}
    (hpre : List.Forall₂ (IsFilm ((n₀ : ℂ) * Complex.sin θ) lam) pre mpre)
    (hpost : List.Forall₂ (IsFilm ((n₀ : ℂ) * Complex.sin θ) lam) post mpost)
    (h35 : ∀ m ∈ mpre ++ mpost, |m.δ.im| ≤ 35) (r t : ℂ) :
    UniaxialSolves pol n₀ θ lam D (meanEps cell) (1 / meanInvEps cell) mpre mpost nb (root1m (n₀ * Complex.sin θ / nb))
      r t ↔ r = reflOf pol n₀ θ (limitField pol pre post cell D nb n₀ θ lam) ∧
        t = transOf pol n₀ θ (limitField pol pre post cell D nb n₀ θ lam) := by
  have hden := h.den pol
  have hL : limitField pol pre post cell D nb n₀ θ lam =
    acrossAll pol (n₀ * Complex.sin θ) (pre.map (codeMed (n₀ * Complex.sin θ) lam))
      (uniMap pol (n₀ * Complex.sin θ) lam D (meanEps cell) (1 / meanInvEps cell)
        (backField pol post nb n₀ θ lam)) := rfl
  set L := limitField pol pre post cell D nb n₀ θ lam with hLdef
  set s : ℂ := (n₀ : ℂ) * Complex.sin θ with hsdef
  set ub := backField pol post nb n₀ θ lam with hub
  have hs := h.stack
  have fpre := acrossAll_flip (pol := pol) (s := s) (films_flip hpre fun m hm => h35 m (List.mem_append_left _ hm))
  have fpost := acrossAll_flip (pol := pol) (s := s) (films_flip hpost fun m hm => h35 m (List.mem_append_right _ hm))
  have opre : ∀ m ∈ mpre, m.n ≠ 0 ∧ m.c ^ 2 = 1 - (s / m.n) ^ 2 ∧ m.n * m.c ≠ 0 := by
    intro m hm
    obtain ⟨f, hf, hfm⟩ := forall₂_mem_right hpre m hm
    exact isFilm_ok (hs.films f (List.mem_append_left _ hf)).1.ne_zero
      (hs.offCritical f (List.mem_append_left _ hf)) hfm
  have opost : ∀ m ∈ mpost, m.n ≠ 0 ∧ m.c ^ 2 = 1 - (s / m.n) ^ 2 ∧ m.n * m.c ≠ 0 := by
    intro m hm
    obtain ⟨f, hf, hfm⟩ := forall₂_mem_right hpost m hm
    exact isFilm_ok (hs.films f (List.mem_append_right _ hf)).1.ne_zero
      (hs.offCritical f (List.mem_append_right _ hf)) hfm
  have hbk0 : ∀ t : ℂ, acrossAll pol s mpost (tanField pol ⟨nb, root1m (s / nb), 0⟩ t 0) = t • ub := by
    intro t
    rw [fpost, tan_back_smul, acrossAll_smul]; rfl
  constructor
  · rintro ⟨u, hu, hfr, hbk⟩
    rw [through_iff opre, fpre] at hfr
    rw [through_iff opost, hbk0] at hbk
    have e := exp_unique h.thick (uniaxial_flip.mp hu)
    simp only [sub_self, sub_zero] at e
    rw [hbk] at e
    have e' : u 0 = t • uniMap pol s lam D (meanEps cell) (1 / meanInvEps cell) ub := by
      rw [e, map_smul]; rfl
    rw [e', acrossAll_smul, ← hL] at hfr
    exact amps_of_front hs.n₀_pos hs.cos_pos hfr
  · rintro ⟨rfl, rfl⟩
    set t := transOf pol n₀ θ L with ht
    set G := genMap (2 * Real.pi / lam) (uniA pol (meanEps cell)) (uniB pol s (meanEps cell) (1 / meanInvEps cell)) with hG
    refine ⟨fun z => t • NormedSpace.exp ((D - z) • G) ub, uniaxial_flip.mpr fun τ hτ => ?_, ?_, ?_⟩
    · simp only [sub_sub_cancel]
      refine ((exp_deriv G ub τ).const_smul t).hasDerivWithinAt.congr_deriv ?_
      rw [map_smul]
    · rw [through_iff opre, fpre, front_of_amps hs.n₀_pos hs.cos_pos hden, acrossAll_smul, sub_zero]
      rw [hL]; rfl
    · rw [through_iff opost, hbk0]
      simp [zeroR_smul]

/-- The amplitudes for more and more periods. -/
theorem Layered.amps (h : Layered pre post cell D nb n₀ θ lam) (pol : Pol) : ∃ r t : ℕ → ℂ,
    (∀ᶠ N in atTop, solveSt pol (layered pre post cell D nb n₀ N) θ lam = some (r N, t N)) ∧
      Tendsto r atTop (𝓝 (reflOf pol n₀ θ (limitField pol pre post cell D nb n₀ θ lam))) ∧
      Tendsto t atTop (𝓝 (transOf pol n₀ θ (limitField pol pre post cell D nb n₀ θ lam))) := by
  have hden := h.den pol
  set s : ℂ := (n₀ : ℂ) * Complex.sin θ with hsdef
  set ub := backField pol post nb n₀ θ lam with hub
  have hq : ∀ c ∈ cell, qCode s c.1 ≠ 0 := fun c hc => qCode_ne_zero (h.layers c hc).1.ne_zero (h.offCritical c hc)
  set W : ℕ → ℂ × ℂ := fun N => acrossAll pol s (pre.map (codeMed s lam))
    (acrossAll pol s ((periods cell (D / N) N).map (fullMed s lam)) ub) with hW
  have cW : Tendsto W atTop (𝓝 (limitField pol pre post cell D nb n₀ θ lam)) := by
    have h1 := periods_tendsto (pol := pol) (lam := lam) hq D ub
    rw [(mean_uniaxial h.shares s pol).1, (mean_uniaxial h.shares s pol).2] at h1
    exact ((continuous_acrossAll pol s _).tendsto _).comp h1
  have c1 := (continuous_fst.tendsto _).comp cW
  have c2 := (continuous_snd.tendsto _).comp cW
  refine ⟨fun N => reflOf pol n₀ θ (W N), fun N => transOf pol n₀ θ (W N), ?_, ?_, ?_⟩
  · filter_upwards [h.thin] with N hN
    exact front_insert h.stack hN pol rfl
  · exact ((c1.const_mul _).sub (c2.const_mul _)).div ((c1.const_mul _).add (c2.const_mul _)) hden
  · exact tendsto_const_nhds.div ((c1.const_mul _).add (c2.const_mul _)) hden

theorem code_cb (hs : Physical ⟨n₀, pre ++ post, nb⟩ n₀ θ lam) (htir : ¬ (nb.im = 0 ∧ nb.re < n₀ * Real.sin θ)) {c : ℂ}
    (hc : c ^ 2 = 1 - ((n₀ : ℂ) * Complex.sin θ / nb) ^ 2) (ho : Outgoing nb c) :
    c = root1m (n₀ * Complex.sin θ / nb) := by
  have e : (n₀ : ℂ) * Complex.sin θ = ((n₀ * Real.sin θ : ℝ) : ℂ) := by push_cast; rfl
  rw [e] at hc ⊢
  exact outgoing_unique hs.back htir hc ho

/-- C156 (partial): a film of fixed thickness made of more and more periods of a cell of passive layers, between
homogeneous films in a physical stack.  The amplitudes that the code returns tend to the one solution of Maxwell's
equations for a homogeneous uniaxial film in its place, with the mean of `n²` for fields along the layers and the
inverse of the mean of `1 / n²` for fields across them.  Missing: films (not the thin layers) that attenuate by
more than 35 nepers, layers of exactly critical index. -/
theorem C156_amplitudes_partial (h : Layered pre post cell D nb n₀ θ lam) :
    ∃ cb : ℂ, cb ^ 2 = 1 - ((n₀ : ℂ) * Complex.sin θ / nb) ^ 2 ∧
      (¬ (nb.im = 0 ∧ nb.re < n₀ * Real.sin θ) →
        ∀ c, c ^ 2 = 1 - ((n₀ : ℂ) * Complex.sin θ / nb) ^ 2 → Outgoing nb c → c = cb) ∧
      ∃ R T : Pol → ℂ,
        (∀ pol mpre mpost, List.Forall₂ (IsFilm ((n₀ : ℂ) * Complex.sin θ) lam) pre mpre →
          List.Forall₂ (IsFilm ((n₀ : ℂ) * Complex.sin θ) lam) post mpost → (∀ m ∈ mpre ++ mpost, |m.δ.im| ≤ 35) →
          ∀ r t, UniaxialSolves pol n₀ θ lam D (meanEps cell) (1 / meanInvEps cell) mpre mpost nb cb r t ↔
            r = R pol ∧ t = T pol) ∧
        ∀ d0 db, ∃ r t : Pol → ℕ → ℂ,
          (∀ᶠ N in atTop, cohTmm ((layered pre post cell D nb n₀ N).layers d0 db) [((θ : ℂ), lam)] =
              .ok [⟨some (r .s N, t .s N), some (r .p N, t .p N)⟩]) ∧
          ∀ pol, Tendsto (r pol) atTop (𝓝 (R pol)) ∧ Tendsto (t pol) atTop (𝓝 (T pol)) := by
  refine ⟨root1m (n₀ * Complex.sin θ / nb), root1m_sq _, fun htir c hc ho => code_cb h.stack htir hc ho, _, _,
    fun pol mpre mpost hpre hpost h35 r t => h.solves_iff hpre hpost h35 r t, fun d0 db => ?_⟩
  choose r t hev htr htt using h.amps
  refine ⟨r, t, ?_, fun pol => ⟨htr pol, htt pol⟩⟩
  filter_upwards [hev .s, hev .p, h.thin] with N h1 h2 hN
  have hP : Physical (layered pre post cell D nb n₀ N) n₀ θ lam := physical_insert h.stack hN
  rw [coh_real hP.front hP.nz hP.lam_pos.ne', h1, h2]

/-- Psi and delta of stacks whose amplitudes converge. -/
theorem obs_tendsto {a off n₀ lam : ℝ} {refl : Bool} {st : ℕ → Stack} {rs ts rp tp : ℕ → ℂ} {Rs Rp : ℂ}
    (es : ∀ᶠ N in atTop, solveSt .s (st N) (rad a) lam = some (rs N, ts N))
    (ep : ∀ᶠ N in atTop, solveSt .p (st N) (rad a) lam = some (rp N, tp N))
    (hP : ∀ᶠ N in atTop, Physical (st N) n₀ (rad a) lam) (cs : Tendsto rs atTop (𝓝 Rs)) (cp : Tendsto rp atTop (𝓝 Rp))
    {rows : ℕ → List Row} (hr : ∀ N, RowsOf (rows N) (st N)) (zs : List Layer → ℝ → ℝ → Bool)
    (hRs : Rs ≠ 0) (hRp : Rp ≠ 0) :
    ∃ ψ Δ : ℕ → ℝ,
      (∀ᶠ N in atTop, (deltaPsiTMM zs [a] (rows N) lam off refl).1 = .ok [(some (ψ N), some (Δ N))]) ∧
      Tendsto ψ atTop (𝓝 (Real.arctan (‖Rp‖ / ‖Rs‖) * 180 / Real.pi)) ∧
      Tendsto (fun N => Real.cos (rad (Δ N - off))) atTop (𝓝 (Real.cos (Rs / Rp).arg)) ∧
      (refl = false → Tendsto (fun N => Real.sin (rad (Δ N - off))) atTop (𝓝 (Real.sin (Rs / Rp).arg))) := by
  have hpi := Real.pi_pos
  set σ : ℕ → Bool := fun N => zs ((st N).layers .inf .inf) a lam with hσ
  have ers : ∀ᶠ N in atTop, rs N ≠ 0 := cs.eventually_ne hRs
  have erp : ∀ᶠ N in atTop, rp N ≠ 0 := cp.eventually_ne hRp
  set y : ℕ → ℂ := fun N => -(rs N / rp N) with hy
  have cy : Tendsto y atTop (𝓝 (-(Rs / Rp))) := (cs.div cp hRp).neg
  have hq : Rs / Rp ≠ 0 := div_ne_zero hRs hRp
  have hn0 : ‖-(Rs / Rp)‖ ≠ 0 := by rw [norm_neg]; exact norm_ne_zero_iff.mpr hq
  have erad : ∀ x : ℝ, rad (x * (180 / Real.pi) + off - off) = x := by
    intro x; unfold rad; field_simp; ring
  refine ⟨fun N => Real.arctan ‖rp N / rs N‖ * (180 / Real.pi),
    fun N => reflectRad refl (npAngle (σ N) (y N) + Real.pi) * (180 / Real.pi) + off, ?_, ?_, ?_, ?_⟩
  · filter_upwards [es, ep, ers, erp, hP] with N h1 h2 h3 h4 hP
    rw [deltaPsi_rows (hr N) hP.nz hP.lam_pos.ne']
    simp only [List.map_cons, List.map_nil, h1, h2, psiDelta]
    rw [deltaRad_of_ne h3 h4, psiRad, if_neg h3]
    rfl
  · rw [mul_div_assoc, ← norm_div]
    exact ((Real.continuous_arctan.tendsto _).comp (cp.div cs hRs).norm).mul_const _
  · simp only [erad]
    have c1 : Tendsto (fun N => -((y N).re / ‖y N‖)) atTop (𝓝 (Real.cos (Rs / Rp).arg)) := by
      rw [Complex.cos_arg hq, show (Rs / Rp).re / ‖Rs / Rp‖ = -((-(Rs / Rp)).re / ‖-(Rs / Rp)‖) by
        rw [norm_neg, Complex.neg_re]; ring]
      exact (((Complex.continuous_re.tendsto _).comp cy).div cy.norm hn0).neg
    refine c1.congr' ?_
    filter_upwards [ers, erp] with l h1 h2
    have hyl : y l ≠ 0 := neg_ne_zero.mpr (div_ne_zero h1 h2)
    rw [← (cis_npAngle (σ := σ l) hyl).1, ← Real.cos_add_pi]
    generalize npAngle (σ l) (y l) + Real.pi = z
    unfold reflectRad
    split_ifs
    · rw [Real.cos_two_pi_sub]
    · rfl
    · rfl
  · rintro rfl
    simp only [erad]
    have c1 : Tendsto (fun N => -((y N).im / ‖y N‖)) atTop (𝓝 (Real.sin (Rs / Rp).arg)) := by
      rw [Complex.sin_arg, show (Rs / Rp).im / ‖Rs / Rp‖ = -((-(Rs / Rp)).im / ‖-(Rs / Rp)‖) by
        rw [norm_neg, Complex.neg_im]; ring]
      exact (((Complex.continuous_im.tendsto _).comp cy).div cy.norm hn0).neg
    refine c1.congr' ?_
    filter_upwards [ers, erp] with l h1 h2
    have hyl : y l ≠ 0 := neg_ne_zero.mpr (div_ne_zero h1 h2)
    rw [← (cis_npAngle (σ := σ l) hyl).2, ← Real.sin_add_pi]
    rfl

/-- C156 (partial) for the observables, same restrictions: psi tends to the angle whose tangent is `|r_p / r_s|` of
the uniaxial film, and delta, as an angle, to the argument of `r_s / r_p`. -/
theorem C156_psi_delta_partial {a : ℝ} (h : Layered pre post cell D nb n₀ (rad a) lam) {mpre mpost : List Medium}
    (hpre : List.Forall₂ (IsFilm ((n₀ : ℂ) * Complex.sin (rad a)) lam) pre mpre)
    (hpost : List.Forall₂ (IsFilm ((n₀ : ℂ) * Complex.sin (rad a)) lam) post mpost)
    (h35 : ∀ m ∈ mpre ++ mpost, |m.δ.im| ≤ 35) (htir : ¬ (nb.im = 0 ∧ nb.re < n₀ * Real.sin (rad a))) {cb : ℂ}
    (hcb : cb ^ 2 = 1 - ((n₀ : ℂ) * Complex.sin (rad a) / nb) ^ 2) (hout : Outgoing nb cb) {Rs Ts Rp Tp : ℂ}
    (hs : UniaxialSolves .s n₀ (rad a) lam D (meanEps cell) (1 / meanInvEps cell) mpre mpost nb cb Rs Ts)
    (hp : UniaxialSolves .p n₀ (rad a) lam D (meanEps cell) (1 / meanInvEps cell) mpre mpost nb cb Rp Tp)
    {rows : ℕ → List Row} (hr : ∀ N, RowsOf (rows N) (layered pre post cell D nb n₀ N))
    (zs : List Layer → ℝ → ℝ → Bool) (off : ℝ) (refl : Bool) (hRs : Rs ≠ 0) (hRp : Rp ≠ 0) :
    ∃ ψ Δ : ℕ → ℝ,
      (∀ᶠ N in atTop, (deltaPsiTMM zs [a] (rows N) lam off refl).1 = .ok [(some (ψ N), some (Δ N))]) ∧
      Tendsto ψ atTop (𝓝 (Real.arctan (‖Rp‖ / ‖Rs‖) * 180 / Real.pi)) ∧
      Tendsto (fun N => Real.cos (rad (Δ N - off))) atTop (𝓝 (Real.cos (Rs / Rp).arg)) ∧
      (refl = false → Tendsto (fun N => Real.sin (rad (Δ N - off))) atTop (𝓝 (Real.sin (Rs / Rp).arg))) := by
  obtain rfl := code_cb h.stack htir hcb hout
  obtain ⟨eRs, -⟩ := (h.solves_iff hpre hpost h35 Rs Ts).mp hs
  obtain ⟨eRp, -⟩ := (h.solves_iff hpre hpost h35 Rp Tp).mp hp
  obtain ⟨rs, ts, es, cs, -⟩ := h.amps .s
  obtain ⟨rp, tp, ep, cp, -⟩ := h.amps .p
  rw [← eRs] at cs
  rw [← eRp] at cp
  refine obs_tendsto (n₀ := n₀) es ep ?_ cs cp hr zs hRs hRp
  filter_upwards [h.thin] with N hN using physical_insert h.stack hN

/-- C156: for layers of two materials the index along the layers is that of the linear rule of `overall_ri`, and the
index across them is that of the Maxwell-Garnett rule with depolarisation factor 1. -/
theorem C156_indices (σ τ : Bool × Bool) {A B : ℂ} (hA : PassiveIndex A) (hB : PassiveIndex B) {f : ℝ}
    (hf : 0 ≤ f ∧ f ≤ 1) (L : ℝ) :
    ∃ no ne, overallRi σ A B f "linear" L = .ok no ∧ overallRi τ A B f "maxwell-garnett" 1 = .ok ne ∧
      PassiveIndex no ∧ no ^ 2 = meanEps [(A, 1 - f), (B, f)] ∧ ne ^ 2 = 1 / meanInvEps [(A, 1 - f), (B, f)] := by
  obtain ⟨no, h1, p1⟩ := C30_passive_partial σ (A := A) (B := B) hA hB hf (ema := "linear") (L := 0) (Or.inl rfl)
    ⟨le_rfl, zero_le_one, by simp⟩ (by simp)
  obtain ⟨ne, h2, p2, e2⟩ := C31_garnett_one τ (A := A) (B := B) hA hB hf
  have h1' : overallRi σ A B f "linear" L = .ok no := by simpa [overallRi] using h1
  refine ⟨no, ne, h1', h2, p1, ?_, ?_⟩
  · simp only [overallRi, if_true, Except.ok.injEq] at h1
    rw [← h1, npSqrt_sq]
    simp only [linearE, meanEps, List.map_cons, List.map_nil, List.sum_cons, List.sum_nil]
    push_cast; ring
  · have : meanInvEps [(A, 1 - f), (B, f)] = 1 / ne ^ 2 := by
      rw [e2]
      simp only [meanInvEps, List.map_cons, List.map_nil, List.sum_cons, List.sum_nil]
      push_cast; ring
    rw [this, one_div_one_div]

/-- A film whose propagator is that of the limit. -/
theorem Layered.film (h : Layered pre post cell D nb n₀ θ lam) {nm : ℂ} (hth : Thin n₀ θ lam (nm, D)) (pol : Pol)
    (ha : coefA pol nm = uniA pol (meanEps cell))
    (hb : coefB pol (n₀ * Complex.sin θ) nm = uniB pol (n₀ * Complex.sin θ) (meanEps cell) (1 / meanInvEps cell)) :
    solveSt pol ⟨n₀, pre ++ [(nm, D)] ++ post, nb⟩ θ lam =
      some (reflOf pol n₀ θ (limitField pol pre post cell D nb n₀ θ lam),
        transOf pol n₀ θ (limitField pol pre post cell D nb n₀ θ lam)) := by
  refine front_insert h.stack (by simpa using hth) pol ?_
  unfold limitField uniMap
  rw [← ha, ← hb]
  congr 1
  set s : ℂ := (n₀ : ℂ) * Complex.sin θ with hs
  have hn := hth.1.ne_zero
  have hq := qCode_ne_zero hn hth.2.2.1
  have e := across_exp (pol := pol) (s := s) (n := nm) (q := qCode s nm) (k := 2 * Real.pi / lam) h.thick hn hq
    (by unfold qCode; rw [mul_pow, root1m_sq]; field_simp) (backField pol post nb n₀ θ lam)
  rw [← e]
  show _ = across pol s nm (nm * root1m (s / nm)) (2 * Real.pi * nm * root1m (s / nm) / lam * D) _
  unfold qCode
  congr 1
  push_cast; ring

/-- C156 (partial), mixing rule: for layers of two materials, the amplitudes for s polarisation at any angle, and all
amplitudes at normal incidence, tend to those that the code returns for a single film with the index of the linear
rule of `overall_ri`.  Missing, besides the restrictions above: p polarisation at oblique incidence, for which it is
false (`C156_fails_oblique`); mixed films that attenuate by more than 35 nepers or are exactly critical. -/
theorem C156_linear_partial {A B : ℂ} {f : ℝ} (h : Layered pre post [(A, 1 - f), (B, f)] D nb n₀ θ lam) (σ : Bool × Bool)
    (L : ℝ) {nm : ℂ} (hm : overallRi σ A B f "linear" L = .ok nm) (hc : nm ^ 2 ≠ ((n₀ : ℂ) * Complex.sin θ) ^ 2)
    (h35 : ∀ m, IsFilm ((n₀ : ℂ) * Complex.sin θ) lam (nm, D) m → |m.δ.im| ≤ 35) (d0 db : Thick) :
    ∃ a : Amps, cohTmm (Stack.layers ⟨n₀, pre ++ [(nm, D)] ++ post, nb⟩ d0 db) [((θ : ℂ), lam)] = .ok [a] ∧
      ∃ r t : Pol → ℕ → ℂ,
        (∀ᶠ N in atTop, cohTmm ((layered pre post [(A, 1 - f), (B, f)] D nb n₀ N).layers d0 db) [((θ : ℂ), lam)] =
          .ok [⟨some (r .s N, t .s N), some (r .p N, t .p N)⟩]) ∧
        ∀ pol, pol = .s ∨ Real.sin θ = 0 → ∃ R T, a.of pol = some (R, T) ∧
          Tendsto (r pol) atTop (𝓝 R) ∧ Tendsto (t pol) atTop (𝓝 T) := by
  have hA := (h.layers (A, 1 - f) (by simp))
  have hB := (h.layers (B, f) (by simp))
  have hf : 0 ≤ f ∧ f ≤ 1 := ⟨hB.2, by linarith [hA.2]⟩
  obtain ⟨no, ne, e1, -, hp, ho, -⟩ := C156_indices σ σ hA.1 hB.1 hf L
  rw [hm, Except.ok.injEq] at e1
  subst e1
  have hth : Thin n₀ θ lam (nm, D) := ⟨hp, h.thick, hc, h35⟩
  have hP : Physical ⟨n₀, pre ++ [(nm, D)] ++ post, nb⟩ n₀ θ lam := physical_insert h.stack (by simpa using hth)
  refine ⟨_, coh_real hP.front hP.nz hP.lam_pos.ne' d0 db, ?_⟩
  choose r t hev htr htt using h.amps
  refine ⟨r, t, ?_, fun pol hpol => ?_⟩
  · filter_upwards [hev .s, hev .p, h.thin] with N h1 h2 hN
    have hP : Physical (layered pre post [(A, 1 - f), (B, f)] D nb n₀ N) n₀ θ lam := physical_insert h.stack hN
    rw [coh_real hP.front hP.nz hP.lam_pos.ne', h1, h2]
  · have key := h.film hth pol (by cases pol <;> simp [coefA, uniA, ho]) (by
      rcases hpol with rfl | h0
      · simp [coefB, uniB, ho]
      · have hs0 : (n₀ : ℂ) * Complex.sin θ = 0 := by rw [← Complex.ofReal_sin, h0]; simp
        cases pol <;> simp [coefB, uniB, ho, hs0])
    refine ⟨_, _, ?_, htr pol, htt pol⟩
    rw [← key]
    cases pol <;> rfl

end

end Verif.TMM
