import Verif.TMM.GradedLimit
import Verif.TMM.PropsCont

/-! # Cutting a graded layer into slabs (C155) -/

namespace Verif.TMM

open Complex (I)
open Set Filter Topology

/-- A graded layer (thickness `D`, index `ν z` at depth `z`) between homogeneous films. -/
structure Graded (pre post : List (ℂ × ℝ)) (ν : ℝ → ℂ) (D : ℝ) (nb : ℂ) (n₀ θ lam : ℝ) : Prop where
  stack : Physical ⟨n₀, pre ++ post, nb⟩ n₀ θ lam
  thick : 0 ≤ D
  cont : ContinuousOn ν (Icc 0 D)
  passive : ∀ z ∈ Icc 0 D, PassiveIndex (ν z)

/-- The stack in which the graded layer is replaced by homogeneous slabs. -/
def sliced (pre post : List (ℂ × ℝ)) (ν : ℝ → ℂ) (nb : ℂ) (n₀ : ℝ) (l : List (ℝ × ℝ)) : Stack :=
  ⟨n₀, pre ++ sliceFilms ν l ++ post, nb⟩

theorem slicing_mem {η D : ℝ} : ∀ {l : List (ℝ × ℝ)} {z : ℝ}, Slicing η z l D → 0 ≤ z →
    ∀ p ∈ l, p.2 ∈ Icc 0 D ∧ 0 ≤ p.1 ∧ p.1 ≤ η := by
  intro l
  induction l with
  | nil => intro z _ _ p hp; simp at hp
  | cons a l ih =>
    rintro z ⟨h1, h2, h3, h4⟩ hz p hp
    rcases List.mem_cons.mp hp with rfl | hp
    · have := slicing_le h4
      exact ⟨⟨hz.trans h3.1, h3.2.trans this⟩, h1, h2⟩
    · exact ih h4 (by linarith) p hp

theorem Slicing.mono {η η' D : ℝ} (h : η ≤ η') : ∀ {l : List (ℝ × ℝ)} {z : ℝ}, Slicing η z l D → Slicing η' z l D := by
  intro l
  induction l with
  | nil => intro z hl; exact hl
  | cons p l ih => intro z hl; exact ⟨hl.1, hl.2.1.trans h, hl.2.2.1, ih hl.2.2.2⟩

section
variable {pre post : List (ℂ × ℝ)} {ν : ℝ → ℂ} {D : ℝ} {nb : ℂ} {n₀ θ lam : ℝ}

/-- Thin slabs attenuate little. -/
theorem Graded.thin (h : Graded pre post ν D nb n₀ θ lam) : ∃ η > 0, ∀ l, Slicing η 0 l D →
    ∀ f ∈ sliceFilms ν l, PassiveIndex f.1 ∧ 0 ≤ f.2 ∧
      ∀ m, IsFilm ((n₀ : ℂ) * Complex.sin θ) lam f m → |m.δ.im| ≤ 35 := by
  obtain ⟨C, hC⟩ := coefs_bound (pol := .s) (s := (n₀ : ℂ) * Complex.sin θ) h.cont
    (fun z hz => (h.passive z hz).ne_zero)
  have hlam := h.stack.lam_pos
  have hC1 : (0 : ℝ) < 1 + C := by positivity
  have hpi := Real.pi_pos
  refine ⟨35 * lam / (2 * Real.pi * (1 + C)), by positivity, fun l hl f hf => ?_⟩
  obtain ⟨p, hp, rfl⟩ := List.mem_map.mp hf
  obtain ⟨hz, hd, hη⟩ := slicing_mem hl le_rfl p hp
  refine ⟨h.passive _ hz, hd, fun m hm => ?_⟩
  obtain ⟨h1, h2, h3⟩ := hm
  have hn := (h.passive _ hz).ne_zero
  have hq2 : (ν p.2 * m.c) ^ 2 = coefB .s ((n₀ : ℂ) * Complex.sin θ) (ν p.2) := by
    rw [mul_pow, h2]; simp only [coefB]; field_simp
  have hqn : ‖ν p.2 * m.c‖ ≤ 1 + C := by
    have h4 : ‖ν p.2 * m.c‖ ^ 2 ≤ C := by rw [← norm_pow, hq2]; exact (hC _ hz).2
    nlinarith [norm_nonneg (ν p.2 * m.c), C.2]
  have e : m.δ = ((2 * Real.pi * p.1 / lam : ℝ) : ℂ) * (ν p.2 * m.c) := by rw [h3]; push_cast; ring
  calc |m.δ.im| ≤ ‖m.δ‖ := Complex.abs_im_le_norm _
    _ = 2 * Real.pi * p.1 / lam * ‖ν p.2 * m.c‖ := by
        rw [e, norm_mul, Complex.norm_real, Real.norm_eq_abs, abs_of_nonneg (by positivity)]
    _ ≤ 2 * Real.pi * (35 * lam / (2 * Real.pi * (1 + C))) / lam * (1 + C) := by
        apply mul_le_mul _ hqn (norm_nonneg _) (by positivity)
        gcongr
    _ = 35 := by field_simp

theorem Graded.physical (h : Graded pre post ν D nb n₀ θ lam) {l : List (ℝ × ℝ)}
    (hl : ∀ f ∈ sliceFilms ν l, PassiveIndex f.1 ∧ 0 ≤ f.2 ∧
      ∀ m, IsFilm ((n₀ : ℂ) * Complex.sin θ) lam f m → |m.δ.im| ≤ 35)
    (hc : ∀ p ∈ l, ν p.2 ^ 2 ≠ ((n₀ : ℂ) * Complex.sin θ) ^ 2) :
    Physical (sliced pre post ν nb n₀ l) n₀ θ lam := by
  have hs := h.stack
  have hcase : ∀ f ∈ (sliced pre post ν nb n₀ l).films, f ∈ pre ++ post ∨ f ∈ sliceFilms ν l := by
    intro f hf
    simp only [sliced, List.mem_append] at hf ⊢
    tauto
  refine ⟨rfl, hs.n₀_pos, hs.angle, hs.lam_pos, fun f hf => ?_, hs.back, fun f hf => ?_, fun f hf m hm => ?_⟩
  · rcases hcase f hf with h1 | h1
    · exact hs.films f h1
    · exact ⟨(hl f h1).1, (hl f h1).2.1⟩
  · rcases hcase f hf with h1 | h1
    · exact hs.offCritical f h1
    · obtain ⟨p, hp, rfl⟩ := List.mem_map.mp h1
      exact hc p hp
  · rcases hcase f hf with h1 | h1
    · exact hs.mild f h1 m hm
    · have := (abs_le.mp ((hl f h1).2.2 m hm)).2
      linarith [Real.self_le_sinh_iff.mpr (by norm_num : (0 : ℝ) ≤ 35)]

/-- Directions of the films. -/
theorem codeMed_ok {s : ℂ} {lam : ℝ} {f : ℂ × ℝ} (hn : f.1 ≠ 0) (hc : f.1 ^ 2 ≠ s ^ 2) :
    (codeMed s lam f).n ≠ 0 ∧ (codeMed s lam f).c ^ 2 = 1 - (s / (codeMed s lam f).n) ^ 2 ∧
      (codeMed s lam f).n * (codeMed s lam f).c ≠ 0 :=
  fullMed_ok (lam := lam) hn hc

theorem isFilm_ok {s : ℂ} {lam : ℝ} {f : ℂ × ℝ} {m : Medium} (hn : f.1 ≠ 0) (hc : f.1 ^ 2 ≠ s ^ 2)
    (hm : IsFilm s lam f m) : m.n ≠ 0 ∧ m.c ^ 2 = 1 - (s / m.n) ^ 2 ∧ m.n * m.c ≠ 0 := by
  obtain ⟨h1, h2, -⟩ := hm
  rw [h1]
  refine ⟨hn, h2, mul_ne_zero hn fun h0 => hc ?_⟩
  rw [h0] at h2
  have h3 : (s / f.1) ^ 2 = 1 := by linear_combination h2
  rw [div_pow, div_eq_one_iff_eq (pow_ne_zero 2 hn)] at h3
  exact h3.symm

theorem forall₂_mem_right {α β : Type*} {R : α → β → Prop} {l : List α} {l' : List β} (h : List.Forall₂ R l l') :
    ∀ b ∈ l', ∃ a ∈ l, R a b := by
  induction h with
  | nil => simp
  | cons h _ ih =>
    intro b hb
    rcases List.mem_cons.mp hb with rfl | hb
    · exact ⟨_, by simp, h⟩
    · obtain ⟨a, ha, hr⟩ := ih b hb
      exact ⟨a, by simp [ha], hr⟩

theorem acrossAll_flip {pol : Pol} {s : ℂ} {ms ms' : List Medium}
    (h : List.Forall₂ (fun m m' => m' = m ∨ m' = m.flip) ms ms') (u : ℂ × ℂ) :
    acrossAll pol s ms' u = acrossAll pol s ms u := by
  induction h with
  | nil => rfl
  | @cons a a' l l' ha hl ih =>
    have e : ∀ (m : Medium) (ms : List Medium), acrossAll pol s (m :: ms) u =
      across pol s m.n (m.n * m.c) m.δ (acrossAll pol s ms u) := fun _ _ => rfl
    rw [e, e, ih]
    rcases ha with rfl | rfl
    · rfl
    · simp only [Medium.flip, mul_neg, across_flip]

/-- Fields at the front per unit amplitude: scales of the two tangential fields. -/
noncomputable def frontScale (pol : Pol) (n₀ θ : ℝ) : ℂ × ℂ :=
  match pol with
  | .s => (1, n₀ * Real.cos θ)
  | .p => (n₀, Real.cos θ)

theorem tan_front (pol : Pol) (n₀ θ : ℝ) (v w : ℂ) : tanField pol ⟨n₀, Complex.cos θ, 0⟩ v w =
    ((frontScale pol n₀ θ).1 * (v + w), (frontScale pol n₀ θ).2 * (v - w)) := by
  cases pol <;> simp [tanField, frontScale]

theorem frontScale_pos {n₀ θ : ℝ} (hn : 0 < n₀) (hc : 0 < Real.cos θ) (pol : Pol) :
    ∃ α β : ℝ, 0 < α ∧ 0 < β ∧ frontScale pol n₀ θ = ((α : ℂ), (β : ℂ)) := by
  cases pol
  · exact ⟨1, n₀ * Real.cos θ, one_pos, mul_pos hn hc, by simp [frontScale]⟩
  · exact ⟨n₀, Real.cos θ, hn, hc, rfl⟩

/-- Amplitudes from the field at the front. -/
noncomputable def reflOf (pol : Pol) (n₀ θ : ℝ) (u : ℂ × ℂ) : ℂ :=
  ((frontScale pol n₀ θ).2 * u.1 - (frontScale pol n₀ θ).1 * u.2) /
    ((frontScale pol n₀ θ).2 * u.1 + (frontScale pol n₀ θ).1 * u.2)

noncomputable def transOf (pol : Pol) (n₀ θ : ℝ) (u : ℂ × ℂ) : ℂ :=
  2 * (frontScale pol n₀ θ).1 * (frontScale pol n₀ θ).2 /
    ((frontScale pol n₀ θ).2 * u.1 + (frontScale pol n₀ θ).1 * u.2)

theorem amps_of_front {pol : Pol} (hn : 0 < n₀) (hc : 0 < Real.cos θ) {r t : ℂ} {u : ℂ × ℂ}
    (h : tanField pol ⟨n₀, Complex.cos θ, 0⟩ 1 r = t • u) :
    r = reflOf pol n₀ θ u ∧ t = transOf pol n₀ θ u := by
  obtain ⟨α, β, ha, hb, e⟩ := frontScale_pos hn hc pol
  rw [tan_front] at h
  unfold reflOf transOf
  rw [e] at h ⊢
  have ha' : (α : ℂ) ≠ 0 := Complex.ofReal_ne_zero.mpr ha.ne'
  have hb' : (β : ℂ) ≠ 0 := Complex.ofReal_ne_zero.mpr hb.ne'
  have h1 := congrArg Prod.fst h
  have h2 := congrArg Prod.snd h
  simp only [Prod.smul_fst, Prod.smul_snd, smul_eq_mul] at h1 h2 ⊢
  have h3 : t * (β * u.1 + α * u.2) = 2 * α * β := by linear_combination -β * h1 - α * h2
  have hd : (β * u.1 + α * u.2 : ℂ) ≠ 0 := by
    intro h0
    rw [h0, mul_zero] at h3
    exact mul_ne_zero (mul_ne_zero two_ne_zero ha') hb' h3.symm
  have ht : t ≠ 0 := by
    rintro rfl
    rw [zero_mul] at h3
    exact mul_ne_zero (mul_ne_zero two_ne_zero ha') hb' h3.symm
  constructor
  · rw [eq_div_iff hd]
    have h4 : t * (β * u.1 - α * u.2) = 2 * α * β * r := by linear_combination -β * h1 + α * h2
    apply mul_left_cancel₀ ht
    linear_combination r * h3 - h4
  · rw [eq_div_iff hd, h3]

theorem front_of_amps {pol : Pol} (hn : 0 < n₀) (hc : 0 < Real.cos θ) {u : ℂ × ℂ}
    (hd : (frontScale pol n₀ θ).2 * u.1 + (frontScale pol n₀ θ).1 * u.2 ≠ 0) :
    tanField pol ⟨n₀, Complex.cos θ, 0⟩ 1 (reflOf pol n₀ θ u) = transOf pol n₀ θ u • u := by
  obtain ⟨α, β, ha, hb, e⟩ := frontScale_pos hn hc pol
  rw [tan_front]
  unfold reflOf transOf
  rw [e] at hd ⊢
  simp only at hd ⊢
  ext
  · simp only [Prod.smul_fst, smul_eq_mul]
    field_simp; ring
  · simp only [Prod.smul_snd, smul_eq_mul]
    field_simp; ring

/-- Where power flows in, the front sees an incoming wave. -/
theorem den_of_power {pol : Pol} (hn : 0 < n₀) (hc : 0 < Real.cos θ) {u : ℂ × ℂ} (hu : u ≠ 0) (hp : 0 ≤ power u) :
    (frontScale pol n₀ θ).2 * u.1 + (frontScale pol n₀ θ).1 * u.2 ≠ 0 := by
  obtain ⟨α, β, ha, hb, e⟩ := frontScale_pos hn hc pol
  rw [e]
  simp only
  intro h0
  have hb' : (β : ℂ) ≠ 0 := Complex.ofReal_ne_zero.mpr hb.ne'
  have h1 : u.1 = ((-(α / β) : ℝ) : ℂ) * u.2 := by
    apply mul_left_cancel₀ hb'
    push_cast
    rw [← mul_assoc, mul_neg, mul_div_cancel₀ _ hb']
    linear_combination h0
  have h2 : power u = -(α / β) * Complex.normSq u.2 := by
    unfold power
    rw [h1, mul_assoc, Complex.mul_conj, ← Complex.ofReal_mul, Complex.ofReal_re]
  have h3 : 0 ≤ Complex.normSq u.2 := Complex.normSq_nonneg _
  have h4 : 0 < α / β := div_pos ha hb
  have h5 : Complex.normSq u.2 = 0 := by
    rw [h2] at hp
    nlinarith
  have h6 : u.2 = 0 := Complex.normSq_eq_zero.mp h5
  exact hu (Prod.ext (by rw [h1, h6]; simp) h6)

theorem tan_back_smul (pol : Pol) (m : Medium) (t : ℂ) : tanField pol m t 0 = t • tanField pol m 1 0 := by
  cases pol <;> ext <;> simp [tanField] <;> ring

/-- Field at the front of the graded stack, and of the sliced one, per unit of transmitted amplitude. -/
theorem Graded.sliced_front (h : Graded pre post ν D nb n₀ θ lam) {l : List (ℝ × ℝ)}
    (hl : ∀ f ∈ sliceFilms ν l, PassiveIndex f.1 ∧ 0 ≤ f.2 ∧
      ∀ m, IsFilm ((n₀ : ℂ) * Complex.sin θ) lam f m → |m.δ.im| ≤ 35)
    (hc : ∀ p ∈ l, ν p.2 ^ 2 ≠ ((n₀ : ℂ) * Complex.sin θ) ^ 2) (pol : Pol) {r t : ℂ}
    (hr : solveSt pol (sliced pre post ν nb n₀ l) θ lam = some (r, t)) :
    tanField pol ⟨n₀, Complex.cos θ, 0⟩ 1 r = t • acrossAll pol (n₀ * Complex.sin θ)
      (pre.map (codeMed (n₀ * Complex.sin θ) lam))
      (acrossAll pol (n₀ * Complex.sin θ) ((sliceFilms ν l).map (fullMed (n₀ * Complex.sin θ) lam))
        (acrossAll pol (n₀ * Complex.sin θ) (post.map (codeMed (n₀ * Complex.sin θ) lam))
          (tanField pol ⟨nb, root1m (n₀ * Complex.sin θ / nb), 0⟩ 1 0))) := by
  have hP := h.physical hl hc
  rw [solveSt_eq] at hr
  have h1 := (solveL_spec hr).1
  rw [fields_iff_through, through_iff (s := (n₀ : ℂ) * Complex.sin θ)] at h1
  swap
  · intro m hm
    obtain ⟨f, hf, rfl⟩ := List.mem_map.mp hm
    exact codeMed_ok (hP.films f hf).1.ne_zero (hP.offCritical f hf)
  have e1 : frontM (sliced pre post ν nb n₀ l) θ = ⟨n₀, Complex.cos θ, 0⟩ := by
    have := hP.front_c
    simp only [frontM, sliced] at this ⊢
    rw [this]; push_cast; rfl
  have e2 : ∀ f ∈ sliceFilms ν l, codeMed (n₀ * Complex.sin θ) lam f = fullMed (n₀ * Complex.sin θ) lam f := by
    intro f hf
    unfold codeMed fullMed
    congr 1
    apply clip35_of_le
    have := (hl f hf).2.2 ⟨f.1, root1m (n₀ * Complex.sin θ / f.1),
      2 * Real.pi * f.1 * root1m (n₀ * Complex.sin θ / f.1) * f.2 / lam⟩ (codeMed_isFilm _ _ _)
    refine le_trans (le_of_eq ?_) (abs_le.mp this).2
    simp only
    congr 1; ring
  rw [e1] at h1
  rw [h1, tan_back_smul, acrossAll_smul]
  congr 1
  simp only [filmsM, sliced, List.map_append, acrossAll_append, backM]
  congr 2
  exact List.map_congr_left e2

/-- The field per unit of transmitted amplitude: solution of the equations in the graded layer. -/
theorem Graded.field (h : Graded pre post ν D nb n₀ θ lam) (pol : Pol) : ∃ V : ℝ → ℂ × ℂ,
    V 0 = acrossAll pol (n₀ * Complex.sin θ) (post.map (codeMed (n₀ * Complex.sin θ) lam))
      (tanField pol ⟨nb, root1m (n₀ * Complex.sin θ / nb), 0⟩ 1 0) ∧
    (∀ τ ∈ Icc 0 D, HasDerivWithinAt V
      (gen pol (n₀ * Complex.sin θ) (2 * Real.pi / lam) (ν (D - τ)) (V τ)) (Icc 0 D) τ) ∧
    (let u := acrossAll pol (n₀ * Complex.sin θ) (pre.map (codeMed (n₀ * Complex.sin θ) lam)) (V D)
    (frontScale pol n₀ θ).2 * u.1 + (frontScale pol n₀ θ).1 * u.2 ≠ 0) := by
  have hs := h.stack
  have hn : ∀ z ∈ Icc 0 D, ν z ≠ 0 := fun z hz => (h.passive z hz).ne_zero
  obtain ⟨V, hV0, hV⟩ := graded_exists (pol := pol) (s := (n₀ : ℂ) * Complex.sin θ) h.thick hs.lam_pos h.cont hn
    (acrossAll pol (n₀ * Complex.sin θ) (post.map (codeMed (n₀ * Complex.sin θ) lam))
      (tanField pol ⟨nb, root1m (n₀ * Complex.sin θ / nb), 0⟩ 1 0))
  refine ⟨V, hV0, hV, ?_⟩
  set ub := tanField pol ⟨nb, root1m (n₀ * Complex.sin θ / nb), 0⟩ 1 0 with hub
  have ok : ∀ fs : List (ℂ × ℝ), (∀ f ∈ fs, f ∈ pre ++ post) → ∀ m ∈ fs.map (codeMed (n₀ * Complex.sin θ) lam),
      m.n ≠ 0 ∧ m.c ^ 2 = 1 - (((n₀ : ℂ) * Complex.sin θ) / m.n) ^ 2 ∧ m.n * m.c ≠ 0 := by
    intro fs hfs m hm
    obtain ⟨f, hf, rfl⟩ := List.mem_map.mp hm
    exact codeMed_ok (hs.films f (hfs f hf)).1.ne_zero (hs.offCritical f (hfs f hf))
  have damps : ∀ fs : List (ℂ × ℝ), (∀ f ∈ fs, f ∈ pre ++ post) →
      ∀ m ∈ fs.map (codeMed (n₀ * Complex.sin θ) lam), Damps pol m := by
    intro fs hfs m hm
    obtain ⟨f, hf, rfl⟩ := List.mem_map.mp hm
    exact hs.film_damps pol _ (List.mem_map.mpr ⟨f, hfs f hf, rfl⟩)
  have hpre : ∀ f ∈ pre, f ∈ pre ++ post := fun f hf => List.mem_append_left _ hf
  have hpost : ∀ f ∈ post, f ∈ pre ++ post := fun f hf => List.mem_append_right _ hf
  have hub0 : ub ≠ 0 := by
    intro h0
    have := congrArg Prod.fst h0
    have hb := hs.back.ne_zero
    cases pol <;> simp [hub, tanField] at this
    exact hb this
  have pb : 0 ≤ power ub := by
    rw [hub, power_tan]
    have := kap_re_nonneg hs.back_dir pol
    simp only [flux, add_zero, sub_zero, map_one, mul_one]
    exact this
  have p1 := power_through (damps post hpost) ((through_iff (ok post hpost)).mpr hV0)
  have p2 : power (V 0) ≤ power (V D) := by
    refine power_graded (s := n₀ * Real.sin θ) h.thick hs.lam_pos h.passive (pol := pol) (fun τ hτ => ?_)
    have := hV τ hτ
    rw [show (n₀ : ℂ) * Complex.sin θ = ((n₀ * Real.sin θ : ℝ) : ℂ) by push_cast; rfl] at this
    exact this
  have p3 := power_through (damps pre hpre) ((through_iff (u' := V D) (ok pre hpre)).mpr rfl)
  refine den_of_power hs.n₀_pos hs.cos_pos ?_ (pb.trans (p1.trans (p2.trans p3)))
  intro h0
  have h1 := acrossAll_eq_zero (ok pre hpre) h0
  have h2 := graded_ne_zero h.thick hs.lam_pos h.cont hn hV h1
  rw [hV0] at h2
  exact hub0 (acrossAll_eq_zero (ok post hpost) h2)

/-- Reading the layer from its back. -/
theorem graded_flip {pol : Pol} {s : ℂ} {lam D : ℝ} {ν : ℝ → ℂ} {u : ℝ → ℂ × ℂ} :
    GradedFields pol s lam D ν u ↔ ∀ τ ∈ Icc 0 D, HasDerivWithinAt (fun τ => u (D - τ))
      (gen pol s (2 * Real.pi / lam) (ν (D - τ)) (u (D - τ))) (Icc 0 D) τ := by
  have maps : MapsTo (fun τ : ℝ => D - τ) (Icc 0 D) (Icc 0 D) := fun τ hτ => ⟨by linarith [hτ.2], by linarith [hτ.1]⟩
  have dn : ∀ τ, HasDerivWithinAt (fun τ : ℝ => D - τ) (-1) (Icc 0 D) τ := fun τ => by
    simpa using (hasDerivWithinAt_id τ (Icc 0 D)).const_sub D
  constructor
  · intro h τ hτ
    have h1 := (h.dX (D - τ) (maps hτ)).scomp τ (dn τ) maps
    have h2 := (h.dY (D - τ) (maps hτ)).scomp τ (dn τ) maps
    have h3 := h1.prodMk h2
    refine h3.congr_deriv ?_
    simp only [gen, neg_smul, one_smul]
  · intro h
    have key : ∀ z ∈ Icc 0 D, HasDerivWithinAt u (-(gen pol s (2 * Real.pi / lam) (ν z) (u z))) (Icc 0 D) z := by
      intro z hz
      have h0 : HasDerivWithinAt (fun τ => u (D - τ)) (gen pol s (2 * Real.pi / lam) (ν z) (u z)) (Icc 0 D) (D - z) := by
        have := h (D - z) (maps hz)
        rwa [sub_sub_cancel] at this
      have h1 := h0.scomp z (dn z) maps
      simp only [Function.comp_def, sub_sub_cancel, neg_smul, one_smul] at h1
      exact h1
    refine ⟨fun z hz => ?_, fun z hz => ?_⟩
    · refine ((ContinuousLinearMap.fst ℝ ℂ ℂ).hasFDerivAt.comp_hasDerivWithinAt z (key z hz)).congr_deriv ?_
      simp [gen]
    · refine ((ContinuousLinearMap.snd ℝ ℂ ℂ).hasFDerivAt.comp_hasDerivWithinAt z (key z hz)).congr_deriv ?_
      simp [gen]

/-- Solutions with proportional values at the back are proportional. -/
theorem graded_unique {pol : Pol} {s : ℂ} {lam D : ℝ} {ν : ℝ → ℂ} (hD : 0 ≤ D) (hlam : 0 < lam)
    (hν : ContinuousOn ν (Icc 0 D)) (hn : ∀ z ∈ Icc 0 D, ν z ≠ 0) {V V' : ℝ → ℂ × ℂ}
    (hV : ∀ τ ∈ Icc 0 D, HasDerivWithinAt V (gen pol s (2 * Real.pi / lam) (ν (D - τ)) (V τ)) (Icc 0 D) τ)
    (hV' : ∀ τ ∈ Icc 0 D, HasDerivWithinAt V' (gen pol s (2 * Real.pi / lam) (ν (D - τ)) (V' τ)) (Icc 0 D) τ)
    {t : ℂ} (h : V' 0 = t • V 0) : V' D = t • V D := by
  obtain ⟨C, hC⟩ := coefs_bound (pol := pol) (s := s) hν hn
  have hk : 0 ≤ 2 * Real.pi / lam := by positivity
  have hmem : ∀ τ ∈ Icc (0 : ℝ) D, D - τ ∈ Icc 0 D := fun τ hτ => ⟨by linarith [hτ.2], by linarith [hτ.1]⟩
  have hW : ∀ τ ∈ Icc 0 D, HasDerivWithinAt (fun τ => t • V τ)
      (gen pol s (2 * Real.pi / lam) (ν (D - τ)) (t • V τ)) (Icc 0 D) τ := by
    intro τ hτ
    refine ((hV τ hτ).const_smul t).congr_deriv ?_
    simp only [gen]
    ext <;> simp <;> ring
  have right : ∀ {U : ℝ → ℂ × ℂ} {U' : ℂ × ℂ} {τ : ℝ}, τ ∈ Ico 0 D → HasDerivWithinAt U U' (Icc 0 D) τ →
      HasDerivWithinAt U U' (Ici τ) τ := by
    intro U U' τ hτ hU
    refine hU.mono_of_mem_nhdsWithin ?_
    filter_upwards [self_mem_nhdsWithin, mem_nhdsWithin_of_mem_nhds (Iio_mem_nhds hτ.2)] with x hx hx'
    exact ⟨le_trans hτ.1 hx, le_of_lt hx'⟩
  have := ODE_solution_unique_of_mem_Icc_right (v := fun τ => gen pol s (2 * Real.pi / lam) (ν (D - τ)))
    (s := fun _ => univ) (K := ⟨_, hk⟩ * C) (f := V') (g := fun τ => t • V τ) (a := 0) (b := D)
    (fun τ hτ => (gen_lipschitz hk (hC _ (hmem τ (Ico_subset_Icc_self hτ))).1
      (hC _ (hmem τ (Ico_subset_Icc_self hτ))).2).lipschitzOnWith)
    (fun τ hτ => (hV' τ hτ).continuousWithinAt)
    (fun τ hτ => right hτ (hV' τ (Ico_subset_Icc_self hτ)))
    (fun _ _ => trivial) (fun τ hτ => (hW τ hτ).continuousWithinAt)
    (fun τ hτ => right hτ (hW τ (Ico_subset_Icc_self hτ)))
    (fun _ _ => trivial) h
  exact this (right_mem_Icc.mpr hD)

/-- The solutions of the boundary value problem. -/
theorem Graded.solves_iff (h : Graded pre post ν D nb n₀ θ lam) {pol : Pol} {V : ℝ → ℂ × ℂ} {s : ℂ}
    (hs' : s = n₀ * Complex.sin θ)
    (hV0 : V 0 = acrossAll pol s (post.map (codeMed s lam)) (tanField pol ⟨nb, root1m (s / nb), 0⟩ 1 0))
    (hV : ∀ τ ∈ Icc 0 D, HasDerivWithinAt V (gen pol s (2 * Real.pi / lam) (ν (D - τ)) (V τ)) (Icc 0 D) τ)
    {U : ℂ × ℂ → ℂ × ℂ} (hU : U = acrossAll pol s (pre.map (codeMed s lam)))
    (hden : (frontScale pol n₀ θ).2 * (U (V D)).1 + (frontScale pol n₀ θ).1 * (U (V D)).2 ≠ 0)
    {mpre mpost : List Medium} (hpre : List.Forall₂ (IsFilm s lam) pre mpre)
    (hpost : List.Forall₂ (IsFilm s lam) post mpost) (h35 : ∀ m ∈ mpre ++ mpost, |m.δ.im| ≤ 35) (r t : ℂ) :
    GradedSolves pol n₀ θ lam D ν mpre mpost nb (root1m (s / nb)) r t ↔
      r = reflOf pol n₀ θ (U (V D)) ∧ t = transOf pol n₀ θ (U (V D)) := by
  subst hs' hU
  set s : ℂ := (n₀ : ℂ) * Complex.sin θ with hsdef
  set U := acrossAll pol s (pre.map (codeMed s lam)) with hU
  have hs := h.stack
  have hn : ∀ z ∈ Icc 0 D, ν z ≠ 0 := fun z hz => (h.passive z hz).ne_zero
  have fpre := acrossAll_flip (pol := pol) (s := s) (films_flip hpre fun m hm => h35 m (List.mem_append_left _ hm))
  have fpost := acrossAll_flip (pol := pol) (s := s) (films_flip hpost fun m hm => h35 m (List.mem_append_right _ hm))
  have opre : ∀ m ∈ mpre, m.n ≠ 0 ∧ m.c ^ 2 = 1 - (s / m.n) ^ 2 ∧ m.n * m.c ≠ 0 := by
    intro m hm
    obtain ⟨f, hf, hfm⟩ := forall₂_mem_right hpre m hm
    exact isFilm_ok (hs.films f (List.mem_append_left _ hf)).1.ne_zero
      (hs.offCritical f (List.mem_append_left _ hf)) hfm
  have opost : ∀ m ∈ mpost, m.n ≠ 0 ∧ m.c ^ 2 = 1 - (s / m.n) ^ 2 ∧ m.n * m.c ≠ 0 := by
    intro m hm
    obtain ⟨f, hf, hfm⟩ := forall₂_mem_right hpost m hm
    exact isFilm_ok (hs.films f (List.mem_append_right _ hf)).1.ne_zero
      (hs.offCritical f (List.mem_append_right _ hf)) hfm
  constructor
  · rintro ⟨u, hu, hfr, hbk⟩
    rw [through_iff opre, fpre] at hfr
    rw [through_iff opost, fpost, tan_back_smul, acrossAll_smul, ← hV0] at hbk
    have e := graded_unique h.thick hs.lam_pos h.cont hn hV (graded_flip.mp hu) (t := t) (by simpa using hbk)
    simp only [sub_self] at e
    rw [e, acrossAll_smul] at hfr
    exact amps_of_front hs.n₀_pos hs.cos_pos hfr
  · rintro ⟨rfl, rfl⟩
    set t := transOf pol n₀ θ (U (V D)) with ht
    refine ⟨fun z => t • V (D - z), graded_flip.mpr fun τ hτ => ?_, ?_, ?_⟩
    · simp only [sub_sub_cancel]
      refine ((hV τ hτ).const_smul t).congr_deriv ?_
      simp only [gen]
      ext <;> simp <;> ring
    · rw [through_iff opre, fpre, front_of_amps hs.n₀_pos hs.cos_pos hden, acrossAll_smul, sub_zero]
    · rw [through_iff opost, fpost, tan_back_smul, acrossAll_smul, ← hV0]
      show t • V (D - D) = t • V 0
      rw [sub_self]

/-- The amplitudes of the graded stack exist, are unique, and are the limits of the code's. -/
theorem Graded.amps (h : Graded pre post ν D nb n₀ θ lam) (pol : Pol) : ∃ R T : ℂ,
    (∀ mpre mpost, List.Forall₂ (IsFilm ((n₀ : ℂ) * Complex.sin θ) lam) pre mpre →
      List.Forall₂ (IsFilm ((n₀ : ℂ) * Complex.sin θ) lam) post mpost → (∀ m ∈ mpre ++ mpost, |m.δ.im| ≤ 35) →
      ∀ r t, GradedSolves pol n₀ θ lam D ν mpre mpost nb (root1m (n₀ * Complex.sin θ / nb)) r t ↔ r = R ∧ t = T) ∧
    ∃ r t : List (ℝ × ℝ) → ℂ,
      (∀ᶠ l in finer (n₀ * Complex.sin θ) ν D,
        solveSt pol (sliced pre post ν nb n₀ l) θ lam = some (r l, t l)) ∧
      Tendsto r (finer (n₀ * Complex.sin θ) ν D) (𝓝 R) ∧ Tendsto t (finer (n₀ * Complex.sin θ) ν D) (𝓝 T) := by
  have hs := h.stack
  have hn : ∀ z ∈ Icc 0 D, ν z ≠ 0 := fun z hz => (h.passive z hz).ne_zero
  obtain ⟨V, hV0, hV, hden⟩ := h.field pol
  set s : ℂ := (n₀ : ℂ) * Complex.sin θ with hsdef
  set U := acrossAll pol s (pre.map (codeMed s lam)) with hU
  refine ⟨reflOf pol n₀ θ (U (V D)), transOf pol n₀ θ (U (V D)), ?_, ?_⟩
  · intro mpre mpost hpre hpost h35 r t
    exact h.solves_iff hsdef hV0 hV hU hden hpre hpost h35 r t
  · set W : List (ℝ × ℝ) → ℂ × ℂ := fun l => U (acrossAll pol s ((sliceFilms ν l).map (fullMed s lam)) (V 0)) with hW
    have cW : Tendsto W (finer s ν D) (𝓝 (U (V D))) :=
      ((continuous_acrossAll pol s _).tendsto _).comp (slices_tendsto hs.lam_pos h.cont hn hV)
    have c1 : Tendsto (fun l => (W l).1) (finer s ν D) (𝓝 (U (V D)).1) := (continuous_fst.tendsto _).comp cW
    have c2 : Tendsto (fun l => (W l).2) (finer s ν D) (𝓝 (U (V D)).2) := (continuous_snd.tendsto _).comp cW
    refine ⟨fun l => reflOf pol n₀ θ (W l), fun l => transOf pol n₀ θ (W l), ?_, ?_, ?_⟩
    · obtain ⟨η, hη, hthin⟩ := h.thin
      filter_upwards [eventually_finer hη] with l hl
      obtain ⟨r, t, hrt⟩ := (h.physical (hthin l hl.1) hl.2).solved pol
      have e := h.sliced_front (hthin l hl.1) hl.2 pol hrt
      rw [← hsdef, ← hV0] at e
      obtain ⟨e1, e2⟩ := amps_of_front hs.n₀_pos hs.cos_pos e
      rw [hrt, e1, e2]
    · exact ((c1.const_mul _).sub (c2.const_mul _)).div ((c1.const_mul _).add (c2.const_mul _)) hden
    · exact tendsto_const_nhds.div ((c1.const_mul _).add (c2.const_mul _)) hden

/-- Lipschitz coefficients. -/
theorem coefs_lipschitz {pol : Pol} {s : ℂ} (hν : ContinuousOn ν (Icc 0 D)) (hn : ∀ z ∈ Icc 0 D, ν z ≠ 0) {L : ℝ}
    (hL0 : 0 ≤ L) (hL : ∀ z ∈ Icc 0 D, ∀ w ∈ Icc 0 D, ‖ν z - ν w‖ ≤ L * |z - w|) :
    ∃ K : ℝ, 0 ≤ K ∧ ∀ z ∈ Icc 0 D, ∀ w ∈ Icc 0 D, ‖coefA pol (ν z) - coefA pol (ν w)‖ ≤ K * |z - w| ∧
      ‖coefB pol s (ν z) - coefB pol s (ν w)‖ ≤ K * |z - w| := by
  obtain ⟨M, hM⟩ := isCompact_Icc.exists_bound_of_continuousOn hν
  obtain ⟨M', hM'⟩ := isCompact_Icc.exists_bound_of_continuousOn (hν.inv₀ hn)
  set B := max M 0
  set B' := max M' 0
  have hB : ∀ z ∈ Icc 0 D, ‖ν z‖ ≤ B := fun z hz => (hM z hz).trans (le_max_left _ _)
  have hB' : ∀ z ∈ Icc 0 D, ‖(ν z)⁻¹‖ ≤ B' := fun z hz => (hM' z hz).trans (le_max_left _ _)
  have b0 : 0 ≤ B := le_max_right _ _
  have b0' : 0 ≤ B' := le_max_right _ _
  have hsq : ∀ z ∈ Icc 0 D, ∀ w ∈ Icc 0 D, ‖ν z ^ 2 - ν w ^ 2‖ ≤ 2 * B * L * |z - w| := by
    intro z hz w hw
    rw [show ν z ^ 2 - ν w ^ 2 = (ν z + ν w) * (ν z - ν w) by ring, norm_mul]
    calc ‖ν z + ν w‖ * ‖ν z - ν w‖ ≤ (B + B) * (L * |z - w|) :=
          mul_le_mul ((norm_add_le _ _).trans (add_le_add (hB z hz) (hB w hw))) (hL z hz w hw) (norm_nonneg _)
            (by positivity)
      _ = 2 * B * L * |z - w| := by ring
  have hinv : ∀ z ∈ Icc 0 D, ∀ w ∈ Icc 0 D, ‖(1 - (s / ν z) ^ 2) - (1 - (s / ν w) ^ 2)‖ ≤
      ‖s‖ ^ 2 * (B' ^ 2 * B' ^ 2) * (2 * B * L) * |z - w| := by
    intro z hz w hw
    have h1 := hn z hz
    have h2 := hn w hw
    rw [show (1 - (s / ν z) ^ 2) - (1 - (s / ν w) ^ 2) =
      s ^ 2 * (((ν z)⁻¹) ^ 2 * ((ν w)⁻¹) ^ 2) * (ν z ^ 2 - ν w ^ 2) by field_simp; ring, norm_mul, norm_mul, norm_mul,
      norm_pow, norm_pow, norm_pow, mul_assoc (‖s‖ ^ 2 * _) (2 * B * L)]
    have e1 := pow_le_pow_left₀ (norm_nonneg _) (hB' z hz) 2
    have e2 := pow_le_pow_left₀ (norm_nonneg _) (hB' w hw) 2
    gcongr
    exact hsq z hz w hw
  refine ⟨2 * B * L + ‖s‖ ^ 2 * (B' ^ 2 * B' ^ 2) * (2 * B * L), by positivity, fun z hz w hw => ?_⟩
  have p1 : 0 ≤ 2 * B * L * |z - w| := by positivity
  have p2 : 0 ≤ ‖s‖ ^ 2 * (B' ^ 2 * B' ^ 2) * (2 * B * L) * |z - w| := by positivity
  have q1 := hsq z hz w hw
  have q2 := hinv z hz w hw
  cases pol
  · simp only [coefA, coefB, sub_self, norm_zero, sub_sub_sub_cancel_right]
    constructor <;> nlinarith
  · simp only [coefA, coefB]
    constructor <;> nlinarith

theorem gronwall_linear (K ε x : ℝ) : gronwallBound 0 K ε x = ε * gronwallBound 0 K 1 x := by
  by_cases hK : K = 0
  · simp [hK, gronwallBound_K0]
  · rw [gronwallBound_of_K_ne_0 hK, gronwallBound_of_K_ne_0 hK]; ring

theorem differentiable_acrossAll (pol : Pol) (s : ℂ) (ms : List Medium) :
    Differentiable ℂ (acrossAll pol s ms) := by
  induction ms with
  | nil => exact differentiable_id
  | cons m ms ih =>
    have : Differentiable ℂ (across pol s m.n (m.n * m.c) m.δ) := by unfold across; fun_prop
    exact this.comp ih

/-- An error of the fields of order `e` in the thickness of the slabs is one of the amplitudes. -/
theorem Graded.rate_of (h : Graded pre post ν D nb n₀ θ lam) (pol : Pol) {e : ℕ} (he : e ≠ 0)
    {Q : List (ℝ × ℝ) → Prop}
    (hQ : ∀ V : ℝ → ℂ × ℂ, (∀ τ ∈ Icc 0 D, HasDerivWithinAt V
        (gen pol (n₀ * Complex.sin θ) (2 * Real.pi / lam) (ν (D - τ)) (V τ)) (Icc 0 D) τ) →
      ∃ G, ∀ η, 0 < η → ∀ l, Slicing η 0 l D → Q l → (∀ p ∈ l, ν p.2 ^ 2 ≠ (n₀ * Complex.sin θ) ^ 2) →
        dist (acrossAll pol (n₀ * Complex.sin θ) ((sliceFilms ν l).map (fullMed (n₀ * Complex.sin θ) lam)) (V 0)) (V D)
          ≤ G * η ^ e) : ∃ C η₀ : ℝ, 0 < η₀ ∧
    ∀ η, 0 < η → η ≤ η₀ → ∀ l, Slicing η 0 l D → Q l → (∀ p ∈ l, ν p.2 ^ 2 ≠ (n₀ * Complex.sin θ) ^ 2) →
      ∃ r t, solveSt pol (sliced pre post ν nb n₀ l) θ lam = some (r, t) ∧
      ∀ mpre mpost, List.Forall₂ (IsFilm ((n₀ : ℂ) * Complex.sin θ) lam) pre mpre →
        List.Forall₂ (IsFilm ((n₀ : ℂ) * Complex.sin θ) lam) post mpost → (∀ m ∈ mpre ++ mpost, |m.δ.im| ≤ 35) →
        ∀ R T, GradedSolves pol n₀ θ lam D ν mpre mpost nb (root1m (n₀ * Complex.sin θ / nb)) R T →
          ‖r - R‖ ≤ C * η ^ e ∧ ‖t - T‖ ≤ C * η ^ e := by
  have hs := h.stack
  obtain ⟨V, hV0, hV, hden⟩ := h.field pol
  obtain ⟨G, hG⟩ := hQ V hV
  set s : ℂ := (n₀ : ℂ) * Complex.sin θ with hsdef
  set U := acrossAll pol s (pre.map (codeMed s lam)) with hU
  obtain ⟨η₁, hη₁, hthin⟩ := h.thin
  have dU : Differentiable ℂ U := differentiable_acrossAll pol s _
  have d1 : Differentiable ℂ fun u => (U u).1 := dU.fst
  have d2 : Differentiable ℂ fun u => (U u).2 := dU.snd
  have dd : DifferentiableAt ℂ (fun u => (frontScale pol n₀ θ).2 * (U u).1 + (frontScale pol n₀ θ).1 * (U u).2) (V D) :=
    ((d1 (V D)).const_mul _).add ((d2 (V D)).const_mul _)
  have dn : DifferentiableAt ℂ (fun u => (frontScale pol n₀ θ).2 * (U u).1 - (frontScale pol n₀ θ).1 * (U u).2) (V D) :=
    ((d1 (V D)).const_mul _).sub ((d2 (V D)).const_mul _)
  have di := DifferentiableAt.fun_inv dd hden
  have dr : DifferentiableAt ℂ (fun u => reflOf pol n₀ θ (U u)) (V D) := by
    simp only [reflOf, div_eq_mul_inv]
    exact dn.mul di
  have dt : DifferentiableAt ℂ (fun u => transOf pol n₀ θ (U u)) (V D) := by
    simp only [transOf, div_eq_mul_inv]
    exact di.const_mul _
  obtain ⟨c1, hc1⟩ := dr.isBigO_sub.bound
  obtain ⟨c2, hc2⟩ := dt.isBigO_sub.bound
  obtain ⟨ε, hε, hball⟩ := Metric.eventually_nhds_iff.mp (hc1.and hc2)
  have hbound : ∀ η, 0 < η → ∀ l, Slicing η 0 l D → Q l → (∀ p ∈ l, ν p.2 ^ 2 ≠ s ^ 2) →
      dist (acrossAll pol s ((sliceFilms ν l).map (fullMed s lam)) (V 0)) (V D) ≤ |G| * η ^ e :=
    fun η hη l hl hq hcr => (hG η hη l hl hq hcr).trans
      (mul_le_mul_of_nonneg_right (le_abs_self _) (by positivity))
  refine ⟨max |c1| |c2| * |G|, min η₁ (min 1 (ε / (2 * (|G| + 1)))),
    lt_min hη₁ (lt_min one_pos (by positivity)), fun η hη hle l hl hq hcr => ?_⟩
  have hl1 := hthin l (hl.mono (hle.trans (min_le_left _ _)))
  obtain ⟨r, t, hrt⟩ := (h.physical hl1 hcr).solved pol
  refine ⟨r, t, hrt, fun mpre mpost hpre hpost h35 R T hRT => ?_⟩
  have ef := h.sliced_front hl1 hcr pol hrt
  rw [← hsdef, ← hV0] at ef
  obtain ⟨rfl, rfl⟩ := amps_of_front hs.n₀_pos hs.cos_pos ef
  obtain ⟨rfl, rfl⟩ := (h.solves_iff hsdef hV0 hV hU hden hpre hpost h35 R T).mp hRT
  have hd := hbound η hη l hl hq hcr
  have hlt : dist (acrossAll pol s ((sliceFilms ν l).map (fullMed s lam)) (V 0)) (V D) < ε := by
    refine hd.trans_lt ?_
    have h1 : η ^ e ≤ η := pow_le_of_le_one hη.le (hle.trans ((min_le_right _ _).trans (min_le_left _ _))) he
    have h2 : η ^ e ≤ ε / (2 * (|G| + 1)) := h1.trans (hle.trans ((min_le_right _ _).trans (min_le_right _ _)))
    have h3 : 0 < η ^ e := by positivity
    rw [le_div_iff₀ (by positivity)] at h2
    nlinarith [abs_nonneg G]
  obtain ⟨b1, b2⟩ := hball hlt
  rw [← dist_eq_norm (acrossAll _ _ _ _)] at b1 b2
  have fin : ∀ c x : ℝ, c ≤ max |c1| |c2| → x ≤ c * dist (acrossAll pol s ((sliceFilms ν l).map (fullMed s lam)) (V 0)) (V D) →
      x ≤ max |c1| |c2| * |G| * η ^ e := by
    intro c x hc hx
    calc x ≤ c * dist (acrossAll pol s ((sliceFilms ν l).map (fullMed s lam)) (V 0)) (V D) := hx
      _ ≤ max |c1| |c2| * (|G| * η ^ e) :=
          mul_le_mul hc hd dist_nonneg (le_max_of_le_left (abs_nonneg _))
      _ = _ := by ring
  exact ⟨fin c1 _ ((le_abs_self _).trans (le_max_left _ _)) b1, fin c2 _ ((le_abs_self _).trans (le_max_right _ _)) b2⟩

/-- The error is of the order of the thickness of the slabs. -/
theorem Graded.rate (h : Graded pre post ν D nb n₀ θ lam) {L : ℝ} (hL0 : 0 ≤ L)
    (hL : ∀ z ∈ Icc 0 D, ∀ w ∈ Icc 0 D, ‖ν z - ν w‖ ≤ L * |z - w|) (pol : Pol) : ∃ C η₀ : ℝ, 0 < η₀ ∧
    ∀ η, 0 < η → η ≤ η₀ → ∀ l, Slicing η 0 l D → (∀ p ∈ l, ν p.2 ^ 2 ≠ (n₀ * Complex.sin θ) ^ 2) →
      ∃ r t, solveSt pol (sliced pre post ν nb n₀ l) θ lam = some (r, t) ∧
      ∀ mpre mpost, List.Forall₂ (IsFilm ((n₀ : ℂ) * Complex.sin θ) lam) pre mpre →
        List.Forall₂ (IsFilm ((n₀ : ℂ) * Complex.sin θ) lam) post mpost → (∀ m ∈ mpre ++ mpost, |m.δ.im| ≤ 35) →
        ∀ R T, GradedSolves pol n₀ θ lam D ν mpre mpost nb (root1m (n₀ * Complex.sin θ / nb)) R T →
          ‖r - R‖ ≤ C * η ∧ ‖t - T‖ ≤ C * η := by
  have hn : ∀ z ∈ Icc 0 D, ν z ≠ 0 := fun z hz => (h.passive z hz).ne_zero
  obtain ⟨K, hK0, hK⟩ := coefs_lipschitz (pol := pol) (s := n₀ * Complex.sin θ) h.cont hn hL0 hL
  obtain ⟨C, hC⟩ := coefs_bound (pol := pol) (s := n₀ * Complex.sin θ) h.cont hn
  obtain ⟨C', η₀, h0, H⟩ := h.rate_of pol one_ne_zero (Q := fun _ => True) fun V hV => by
    have hVc : ContinuousOn V (Icc 0 D) := fun τ hτ => (hV τ hτ).continuousWithinAt
    obtain ⟨B, hB⟩ := isCompact_Icc.exists_bound_of_continuousOn hVc
    refine ⟨2 * Real.pi / lam * K * B * gronwallBound 0 (2 * Real.pi / lam * C) 1 D, fun η hη l hl _ hcr => ?_⟩
    have := slices_error (ω := K * η) h.stack.lam_pos hn hC (fun z hz ξ hξ hzξ =>
      ⟨(hK z hz ξ hξ).1.trans (mul_le_mul_of_nonneg_left hzξ hK0),
        (hK z hz ξ hξ).2.trans (mul_le_mul_of_nonneg_left hzξ hK0)⟩) (by positivity) hV hB le_rfl hl hcr
    rw [sub_zero, gronwall_linear] at this
    refine this.trans (le_of_eq ?_)
    ring
  refine ⟨C', η₀, h0, fun η hη hle l hl hcr => ?_⟩
  simpa only [pow_one] using H η hη hle l hl trivial hcr

/-- C155 (partial): a layer whose index varies continuously with depth, between homogeneous films in a physical
stack.  Maxwell's equations for it have exactly one solution, with the backing medium's outgoing wave; the amplitudes
that the code returns for the layer cut into slabs (index taken anywhere in each slab) tend to that solution as
the slabs become thin.  Missing: films (not slabs) that attenuate by more than 35 nepers, slabs of exactly
critical index. -/
theorem C155_amplitudes_partial (h : Graded pre post ν D nb n₀ θ lam) :
    ∃ cb : ℂ, cb ^ 2 = 1 - ((n₀ : ℂ) * Complex.sin θ / nb) ^ 2 ∧
      (¬ (nb.im = 0 ∧ nb.re < n₀ * Real.sin θ) →
        ∀ c, c ^ 2 = 1 - ((n₀ : ℂ) * Complex.sin θ / nb) ^ 2 → Outgoing nb c → c = cb) ∧
      ∃ R T : Pol → ℂ,
        (∀ pol mpre mpost, List.Forall₂ (IsFilm ((n₀ : ℂ) * Complex.sin θ) lam) pre mpre →
          List.Forall₂ (IsFilm ((n₀ : ℂ) * Complex.sin θ) lam) post mpost → (∀ m ∈ mpre ++ mpost, |m.δ.im| ≤ 35) →
          ∀ r t, GradedSolves pol n₀ θ lam D ν mpre mpost nb cb r t ↔ r = R pol ∧ t = T pol) ∧
        ∀ d0 db, ∃ r t : Pol → List (ℝ × ℝ) → ℂ,
          (∀ᶠ l in finer (n₀ * Complex.sin θ) ν D,
            cohTmm ((sliced pre post ν nb n₀ l).layers d0 db) [((θ : ℂ), lam)] =
              .ok [⟨some (r .s l, t .s l), some (r .p l, t .p l)⟩]) ∧
          ∀ pol, Tendsto (r pol) (finer (n₀ * Complex.sin θ) ν D) (𝓝 (R pol)) ∧
            Tendsto (t pol) (finer (n₀ * Complex.sin θ) ν D) (𝓝 (T pol)) := by
  refine ⟨root1m (n₀ * Complex.sin θ / nb), root1m_sq _, fun htir c hc ho => ?_, ?_⟩
  · have e : (n₀ : ℂ) * Complex.sin θ = ((n₀ * Real.sin θ : ℝ) : ℂ) := by push_cast; rfl
    rw [e] at hc ⊢
    exact outgoing_unique h.stack.back htir hc ho
  · choose R T hRT r t hev htr htt using h.amps
    refine ⟨R, T, hRT, fun d0 db => ⟨r, t, ?_, fun pol => ⟨htr pol, htt pol⟩⟩⟩
    obtain ⟨η, hη, hthin⟩ := h.thin
    filter_upwards [hev .s, hev .p, eventually_finer hη] with l h1 h2 hl
    have hP := h.physical (hthin l hl.1) hl.2
    rw [cohTmm_stack _ hP.nz d0 db _ (by simpa using hP.lam_pos.ne')
      (by simp only [List.mem_singleton, forall_eq]; exact assertOk_real n₀ θ)]
    simp only [List.map_cons, List.map_nil, h1, h2]

/-- C155 (partial) for the observables, same restrictions: psi of the sliced layer tends to the angle whose tangent is
`|r_p / r_s|` of the graded layer, and delta, as an angle, to the argument of `r_s / r_p`. -/
theorem C155_psi_delta_partial {a : ℝ} (h : Graded pre post ν D nb n₀ (rad a) lam) {mpre mpost : List Medium}
    (hpre : List.Forall₂ (IsFilm ((n₀ : ℂ) * Complex.sin (rad a)) lam) pre mpre)
    (hpost : List.Forall₂ (IsFilm ((n₀ : ℂ) * Complex.sin (rad a)) lam) post mpost)
    (h35 : ∀ m ∈ mpre ++ mpost, |m.δ.im| ≤ 35) (htir : ¬ (nb.im = 0 ∧ nb.re < n₀ * Real.sin (rad a))) {cb : ℂ}
    (hcb : cb ^ 2 = 1 - ((n₀ : ℂ) * Complex.sin (rad a) / nb) ^ 2) (hout : Outgoing nb cb) {Rs Ts Rp Tp : ℂ}
    (hs : GradedSolves .s n₀ (rad a) lam D ν mpre mpost nb cb Rs Ts)
    (hp : GradedSolves .p n₀ (rad a) lam D ν mpre mpost nb cb Rp Tp)
    {rows : List (ℝ × ℝ) → List Row} (hr : ∀ l, RowsOf (rows l) (sliced pre post ν nb n₀ l))
    (zs : List Layer → ℝ → ℝ → Bool) (off : ℝ) (refl : Bool) (hRs : Rs ≠ 0) (hRp : Rp ≠ 0) :
    ∃ ψ Δ : List (ℝ × ℝ) → ℝ,
      (∀ᶠ l in finer (n₀ * Complex.sin (rad a)) ν D,
        (deltaPsiTMM zs [a] (rows l) lam off refl).1 = .ok [(some (ψ l), some (Δ l))]) ∧
      Tendsto ψ (finer (n₀ * Complex.sin (rad a)) ν D) (𝓝 (Real.arctan (‖Rp‖ / ‖Rs‖) * 180 / Real.pi)) ∧
      Tendsto (fun l => Real.cos (rad (Δ l - off))) (finer (n₀ * Complex.sin (rad a)) ν D)
        (𝓝 (Real.cos (Rs / Rp).arg)) ∧
      (refl = false → Tendsto (fun l => Real.sin (rad (Δ l - off))) (finer (n₀ * Complex.sin (rad a)) ν D)
        (𝓝 (Real.sin (Rs / Rp).arg))) := by
  have hpi := Real.pi_pos
  have hcode : cb = root1m (n₀ * Complex.sin (rad a) / nb) := by
    have e : (n₀ : ℂ) * Complex.sin (rad a) = ((n₀ * Real.sin (rad a) : ℝ) : ℂ) := by push_cast; rfl
    rw [e] at hcb ⊢
    exact outgoing_unique h.stack.back htir hcb hout
  obtain ⟨R1, T1, u1, rs, ts, es, cs, -⟩ := h.amps .s
  obtain ⟨R2, T2, u2, rp, tp, ep, cp, -⟩ := h.amps .p
  subst hcode
  obtain ⟨rfl, rfl⟩ := (u1 mpre mpost hpre hpost h35 Rs Ts).mp hs
  obtain ⟨rfl, rfl⟩ := (u2 mpre mpost hpre hpost h35 Rp Tp).mp hp
  obtain ⟨η, hη, hthin⟩ := h.thin
  set F := finer (n₀ * Complex.sin (rad a)) ν D with hF
  set σ : List (ℝ × ℝ) → Bool := fun l => zs ((sliced pre post ν nb n₀ l).layers .inf .inf) a lam with hσ
  have ers : ∀ᶠ l in F, rs l ≠ 0 := cs.eventually_ne hRs
  have erp : ∀ᶠ l in F, rp l ≠ 0 := cp.eventually_ne hRp
  set y : List (ℝ × ℝ) → ℂ := fun l => -(rs l / rp l) with hy
  have cy : Tendsto y F (𝓝 (-(Rs / Rp))) := (cs.div cp hRp).neg
  have hq : Rs / Rp ≠ 0 := div_ne_zero hRs hRp
  have hn0 : ‖-(Rs / Rp)‖ ≠ 0 := by rw [norm_neg]; exact norm_ne_zero_iff.mpr hq
  have erad : ∀ x : ℝ, rad (x * (180 / Real.pi) + off - off) = x := by
    intro x; unfold rad; field_simp; ring
  refine ⟨fun l => Real.arctan ‖rp l / rs l‖ * (180 / Real.pi),
    fun l => reflectRad refl (npAngle (σ l) (y l) + Real.pi) * (180 / Real.pi) + off, ?_, ?_, ?_, ?_⟩
  · filter_upwards [es, ep, ers, erp, eventually_finer hη] with l h1 h2 h3 h4 hl
    have hP := h.physical (hthin l hl.1) hl.2
    rw [deltaPsi_rows (hr l) hP.nz hP.lam_pos.ne']
    simp only [List.map_cons, List.map_nil, h1, h2, psiDelta]
    rw [deltaRad_of_ne h3 h4, psiRad, if_neg h3]
    rfl
  · rw [mul_div_assoc, ← norm_div]
    exact ((Real.continuous_arctan.tendsto _).comp (cp.div cs hRs).norm).mul_const _
  · simp only [erad]
    have c1 : Tendsto (fun l => -((y l).re / ‖y l‖)) F (𝓝 (Real.cos (Rs / Rp).arg)) := by
      rw [Complex.cos_arg hq, show (Rs / Rp).re / ‖Rs / Rp‖ = -((-(Rs / Rp)).re / ‖-(Rs / Rp)‖) by
        rw [norm_neg, Complex.neg_re]; ring]
      exact (((Complex.continuous_re.tendsto _).comp cy).div cy.norm hn0).neg
    refine c1.congr' ?_
    filter_upwards [ers, erp] with l h1 h2
    have hyl : y l ≠ 0 := neg_ne_zero.mpr (div_ne_zero h1 h2)
    rw [← (cis_npAngle (σ := σ l) hyl).1, ← Real.cos_add_pi]
    generalize npAngle (σ l) (y l) + Real.pi = z
    unfold reflectRad
    split_ifs
    · rw [Real.cos_two_pi_sub]
    · rfl
    · rfl
  · rintro rfl
    simp only [erad]
    have c1 : Tendsto (fun l => -((y l).im / ‖y l‖)) F (𝓝 (Real.sin (Rs / Rp).arg)) := by
      rw [Complex.sin_arg, show (Rs / Rp).im / ‖Rs / Rp‖ = -((-(Rs / Rp)).im / ‖-(Rs / Rp)‖) by
        rw [norm_neg, Complex.neg_im]; ring]
      exact (((Complex.continuous_im.tendsto _).comp cy).div cy.norm hn0).neg
    refine c1.congr' ?_
    filter_upwards [ers, erp] with l h1 h2
    have hyl : y l ≠ 0 := neg_ne_zero.mpr (div_ne_zero h1 h2)
    rw [← (cis_npAngle (σ := σ l) hyl).2, ← Real.sin_add_pi]
    rfl

/-- Slabs of one thickness. -/
theorem slicing_equal {d : ℝ} (hd : 0 ≤ d) (f : ℕ → ℝ) (N : ℕ) :
    ∀ k : ℕ, (∀ j, k ≤ j → j < k + N → f j ∈ Icc (j * d) (j * d + d)) →
      Slicing d (k * d) ((List.range' k N).map fun j => (d, f j)) ((k + N : ℕ) * d) := by
  induction N with
  | zero => intro k _; simp [Slicing]
  | succ N ih =>
    intro k hf
    rw [List.range'_succ]
    refine ⟨hd, le_rfl, hf k le_rfl (by omega), ?_⟩
    have := ih (k + 1) (fun j h1 h2 => hf j (by omega) (by omega))
    rw [show (k + 1 + N : ℕ) = k + (N + 1) by omega] at this
    convert this using 1
    push_cast; ring

/-- C155: cutting the layer into more and more slabs of one thickness, with the index taken in the middle of each,
is a case of finer and finer slabs if the index is nowhere exactly critical. -/
theorem C155_equal {s : ℂ} (hD : 0 ≤ D) (hc : ∀ z ∈ Icc 0 D, ν z ^ 2 ≠ s ^ 2) :
    Tendsto (equalSlices D) atTop (finer s ν D) := by
  unfold finer
  refine tendsto_iInf.mpr fun η => tendsto_iInf.mpr fun hη => tendsto_principal.mpr ?_
  have hη : 0 < η := hη
  obtain ⟨M, hM⟩ := exists_nat_gt (D / η)
  filter_upwards [eventually_ge_atTop (M + 1)] with N hN
  have hN0 : (0 : ℝ) < N := by
    have : 0 < N := by omega
    exact_mod_cast this
  have hNM : (M : ℝ) ≤ N := by exact_mod_cast (by omega : M ≤ N)
  have hd : 0 ≤ D / N := by positivity
  have hle : D / N ≤ η := by
    rw [div_le_iff₀ hN0]
    rw [div_lt_iff₀ hη] at hM
    nlinarith
  have h1 := slicing_equal hd (fun j => (j + 1 / 2) * (D / N)) N 0
    (fun j _ _ => ⟨by nlinarith, by nlinarith⟩)
  rw [Nat.cast_zero, zero_mul, zero_add, mul_div_cancel₀ _ hN0.ne', ← List.range_eq_range'] at h1
  have h2 : Slicing η 0 (equalSlices D N) D := by
    unfold equalSlices
    exact h1.mono hle
  exact ⟨h2, fun p hp => hc _ (slicing_mem h2 le_rfl p hp).1⟩

/-- C155: there are such slabs, however thin, if the index is not critical on a whole interval of depths. -/
theorem C155_slices {s : ℂ} (hD : 0 < D) (hc : ∀ x y, 0 ≤ x → x < y → y ≤ D → ∃ z ∈ Icc x y, ν z ^ 2 ≠ s ^ 2) :
    (finer s ν D).NeBot := by
  have key : ∀ η > 0, ∃ l, Slicing η 0 l D ∧ ∀ p ∈ l, ν p.2 ^ 2 ≠ s ^ 2 := by
    intro η hη
    obtain ⟨M, hM⟩ := exists_nat_gt (D / η)
    have hN0 : (0 : ℝ) < (M + 1 : ℕ) := by positivity
    set N := M + 1 with hN
    have hNM : (M : ℝ) ≤ N := by exact_mod_cast (by omega : M ≤ N)
    set d := D / N with hd'
    have hd : 0 < d := by positivity
    have hDN : N * d = D := mul_div_cancel₀ _ hN0.ne'
    have hle : d ≤ η := by
      rw [hd', div_le_iff₀ hN0]
      rw [div_lt_iff₀ hη] at hM
      nlinarith
    have hex : ∀ j : ℕ, j < N → ∃ z ∈ Icc (j * d) (j * d + d), ν z ^ 2 ≠ s ^ 2 := by
      intro j hj
      refine hc _ _ (by positivity) (by linarith) ?_
      have : (j : ℝ) + 1 ≤ N := by exact_mod_cast hj
      rw [← hDN]; nlinarith
    have : ∃ f : ℕ → ℝ, ∀ j < N, f j ∈ Icc (j * d) (j * d + d) ∧ ν (f j) ^ 2 ≠ s ^ 2 := by
      choose f hf using hex
      classical
      exact ⟨fun j => if h : j < N then f j h else 0, fun j hj => by simp only [dif_pos hj]; exact hf j hj⟩
    obtain ⟨f, hf⟩ := this
    refine ⟨(List.range' 0 N).map fun j => (d, f j), ?_, fun p hp => ?_⟩
    · have h1 := slicing_equal hd.le f N 0 (fun j _ hj => (hf j (by omega)).1)
      rw [Nat.cast_zero, zero_mul, zero_add, hDN] at h1
      exact h1.mono hle
    · obtain ⟨j, hj, rfl⟩ := List.mem_map.mp hp
      exact (hf j (by simpa using List.mem_range'_1.mp hj)).2
  unfold finer
  rw [iInf_subtype']
  have : Nonempty (Ioi (0 : ℝ)) := ⟨⟨1, mem_Ioi.mpr one_pos⟩⟩
  refine iInf_neBot_of_directed' ?_ ?_
  · rintro ⟨η, hη⟩ ⟨η', hη'⟩
    refine ⟨⟨min η η', mem_Ioi.mpr (lt_min hη hη')⟩, ?_, ?_⟩
    · exact principal_mono.mpr fun l hl => ⟨hl.1.mono (min_le_left _ _), hl.2⟩
    · exact principal_mono.mpr fun l hl => ⟨hl.1.mono (min_le_right _ _), hl.2⟩
  · rintro ⟨η, hη⟩
    exact principal_neBot_iff.mpr (key η hη)

/-- C155 (partial), rate: if the index changes by at most `L` per nm, the error of the amplitudes is at most
proportional to the thickness of the slabs.  Same restrictions. -/
theorem C155_rate_partial (h : Graded pre post ν D nb n₀ θ lam) {L : ℝ} (hL0 : 0 ≤ L)
    (hL : ∀ z ∈ Icc 0 D, ∀ w ∈ Icc 0 D, ‖ν z - ν w‖ ≤ L * |z - w|) :
    ∃ cb : ℂ, cb ^ 2 = 1 - ((n₀ : ℂ) * Complex.sin θ / nb) ^ 2 ∧
      (¬ (nb.im = 0 ∧ nb.re < n₀ * Real.sin θ) →
        ∀ c, c ^ 2 = 1 - ((n₀ : ℂ) * Complex.sin θ / nb) ^ 2 → Outgoing nb c → c = cb) ∧
      ∃ C η₀ : ℝ, 0 < η₀ ∧ ∀ η, 0 < η → η ≤ η₀ → ∀ l, Slicing η 0 l D →
        (∀ p ∈ l, ν p.2 ^ 2 ≠ (n₀ * Complex.sin θ) ^ 2) → ∀ d0 db, ∃ a,
        cohTmm ((sliced pre post ν nb n₀ l).layers d0 db) [((θ : ℂ), lam)] = .ok [a] ∧ ∀ pol, ∃ r t,
          a.of pol = some (r, t) ∧ ∀ mpre mpost, List.Forall₂ (IsFilm ((n₀ : ℂ) * Complex.sin θ) lam) pre mpre →
            List.Forall₂ (IsFilm ((n₀ : ℂ) * Complex.sin θ) lam) post mpost →
            (∀ m ∈ mpre ++ mpost, |m.δ.im| ≤ 35) →
            ∀ R T, GradedSolves pol n₀ θ lam D ν mpre mpost nb cb R T → ‖r - R‖ ≤ C * η ∧ ‖t - T‖ ≤ C * η := by
  refine ⟨root1m (n₀ * Complex.sin θ / nb), root1m_sq _, fun htir c hc ho => ?_, ?_⟩
  · have e : (n₀ : ℂ) * Complex.sin θ = ((n₀ * Real.sin θ : ℝ) : ℂ) := by push_cast; rfl
    rw [e] at hc ⊢
    exact outgoing_unique h.stack.back htir hc ho
  · obtain ⟨C1, η1, h1, H1⟩ := h.rate hL0 hL .s
    obtain ⟨C2, η2, h2, H2⟩ := h.rate hL0 hL .p
    obtain ⟨η3, h3, hthin⟩ := h.thin
    refine ⟨max C1 C2, min η3 (min η1 η2), lt_min h3 (lt_min h1 h2), fun η hη hle l hl hcr d0 db => ?_⟩
    have hP := h.physical (hthin l (hl.mono (hle.trans (min_le_left _ _)))) hcr
    refine ⟨_, coh_real hP.front hP.nz hP.lam_pos.ne' d0 db, fun pol => ?_⟩
    have i1 := hle.trans ((min_le_right _ _).trans (min_le_left _ _))
    have i2 := hle.trans ((min_le_right _ _).trans (min_le_right _ _))
    have m1 : C1 * η ≤ max C1 C2 * η := mul_le_mul_of_nonneg_right (le_max_left _ _) hη.le
    have m2 : C2 * η ≤ max C1 C2 * η := mul_le_mul_of_nonneg_right (le_max_right _ _) hη.le
    cases pol
    · obtain ⟨r, t, e, H⟩ := H1 η hη i1 l hl hcr
      exact ⟨r, t, e, fun mpre mpost a b c R T hRT => ((H mpre mpost a b c R T hRT).imp (·.trans m1) (·.trans m1))⟩
    · obtain ⟨r, t, e, H⟩ := H2 η hη i2 l hl hcr
      exact ⟨r, t, e, fun mpre mpost a b c R T hRT => ((H mpre mpost a b c R T hRT).imp (·.trans m2) (·.trans m2))⟩

theorem nondeg_mem {pol : Pol} : ∀ {ms : List Medium} {m0 b : Medium}, Nondeg pol m0 (ms ++ [b]) →
    ∀ m ∈ ms, m.n * m.c ≠ 0 := by
  intro ms
  induction ms with
  | nil => intro _ _ _ m hm; simp at hm
  | cons a ms ih =>
    rintro m0 b ⟨-, h⟩ m hm
    rcases List.mem_cons.mp hm with rfl | hm
    · cases ms with
      | nil => exact h.1.2
      | cons c ms => exact h.1.2
    · exact ih h m hm

/-- C155 fails for slabs of exactly critical index (`n = n₀ sin θ`), however thin: the code divides by zero and has no
result, though the graded layer reflects like any other. -/
theorem C155_fails_critical {st : Stack} (hf : st.front = n₀) (hnz : st.NZ) (hlam : lam ≠ 0) {f : ℂ × ℝ}
    (hm : f ∈ st.films) (hc : f.1 ^ 2 = (st.front * Complex.sin θ) ^ 2) (d0 db : Thick) :
    ∃ a, cohTmm (st.layers d0 db) [((θ : ℂ), lam)] = .ok [a] ∧ ∀ pol, a.of pol = none := by
  refine ⟨_, coh_real hf hnz hlam d0 db, fun pol => ?_⟩
  have key : solveSt pol st θ lam = none := by
    by_contra h0
    obtain ⟨⟨r, t⟩, hrt⟩ := Option.ne_none_iff_exists'.mp h0
    rw [solveSt_eq] at hrt
    have h1 : Nondeg pol (frontM st θ) (filmsM st θ lam ++ [backM st θ]) := by
      cases hL : filmsM st θ lam ++ [backM st θ] with
      | nil => simp at hL
      | cons m1 rest =>
        rw [hL] at hrt
        exact (solve_eq_some.mp hrt).1
    refine nondeg_mem h1 _ (List.mem_map.mpr ⟨f, hm, rfl⟩) ?_
    have hn := hnz.2.1 f hm
    have h2 : root1m (st.front * Complex.sin θ / f.1) ^ 2 = 0 := by
      rw [root1m_sq, div_pow, ← hc, div_self (pow_ne_zero 2 hn), sub_self]
    show f.1 * root1m (st.front * Complex.sin θ / f.1) = 0
    rw [pow_eq_zero_iff two_ne_zero |>.mp h2, mul_zero]
  cases pol <;> exact key

end

/-! ### Non-vacuity: an index rising from 1.5 to 2 over 100 nm, below a film, on an absorbing substrate -/

theorem graded_example_film {m : Medium}
    (hm : IsFilm (((1 : ℝ) : ℂ) * Complex.sin ((Real.pi / 3 : ℝ) : ℂ)) 500 (1.46, 10) m) : m.δ.im = 0 := by
  have hsr : ((1 : ℝ) : ℂ) * Complex.sin ((Real.pi / 3 : ℝ) : ℂ) = ((Real.sqrt 3 / 2 : ℝ) : ℂ) := by
    rw [← Complex.ofReal_sin, Real.sin_pi_div_three]; simp
  have h3 : Real.sqrt 3 ^ 2 = 3 := Real.sq_sqrt (by norm_num)
  have h46 : (1.46 : ℂ) = ((1.46 : ℝ) : ℂ) := by norm_num
  obtain ⟨h1, h2, h3'⟩ := hm
  simp only [hsr, h46] at h1 h2 h3'
  have hc2 : m.c ^ 2 = ((1 - (Real.sqrt 3 / 2 / 1.46) ^ 2 : ℝ) : ℂ) := by rw [h2]; push_cast; ring
  have hnn : 0 < 1 - (Real.sqrt 3 / 2 / 1.46) ^ 2 := by rw [div_pow, div_pow, h3]; norm_num
  have him : m.c.im = 0 := by
    have e1 := congrArg Complex.re hc2
    have e2 := congrArg Complex.im hc2
    rw [Complex.ofReal_re, sq, Complex.mul_re] at e1
    rw [Complex.ofReal_im, sq, Complex.mul_im] at e2
    have : m.c.re * m.c.im = 0 := by linarith
    rcases mul_eq_zero.mp this with h | h
    · rw [h] at e1; nlinarith [sq_nonneg m.c.im]
    · exact h
  have e : m.δ = ((2 * Real.pi * 1.46 * 10 / 500 : ℝ) : ℂ) * m.c := by rw [h3']; push_cast; ring
  rw [e, Complex.im_ofReal_mul, him, mul_zero]

theorem graded_example : Graded [(1.46, 10)] [] (fun z => ((1.5 + z / 200 : ℝ) : ℂ)) 100 (4 + I) 1 (rad 60) 500 := by
  have h60 : rad 60 = Real.pi / 3 := by unfold rad; ring
  have hpi := Real.pi_pos
  have hsr : ((1 : ℝ) : ℂ) * Complex.sin ((Real.pi / 3 : ℝ) : ℂ) = ((Real.sqrt 3 / 2 : ℝ) : ℂ) := by
    rw [← Complex.ofReal_sin, Real.sin_pi_div_three]; simp
  have h3 : Real.sqrt 3 ^ 2 = 3 := Real.sq_sqrt (by norm_num)
  have h46 : (1.46 : ℂ) = ((1.46 : ℝ) : ℂ) := by norm_num
  rw [h60]
  refine ⟨⟨rfl, one_pos, by rw [abs_of_pos (by positivity)]; linarith, by norm_num, ?_, ?_, ?_, ?_⟩, by norm_num,
    ?_, ?_⟩
  · intro f hf
    simp only [List.append_nil, List.mem_singleton] at hf
    subst hf
    refine ⟨?_, by norm_num⟩
    simp only [h46]
    exact ⟨by rw [Complex.ofReal_re]; norm_num, by rw [Complex.ofReal_im]⟩
  · constructor <;> simp
  · intro f hf
    simp only [List.append_nil, List.mem_singleton] at hf
    subst hf
    simp only [hsr, h46, ← Complex.ofReal_pow]
    intro h0
    have := Complex.ofReal_injective h0
    rw [div_pow, h3] at this
    norm_num at this
  · intro f hf m hm
    simp only [List.append_nil, List.mem_singleton] at hf
    subst hf
    rw [graded_example_film hm]
    exact Real.sinh_nonneg_iff.mpr (by norm_num)
  · exact (Complex.continuous_ofReal.comp (by fun_prop)).continuousOn
  · intro z hz
    exact ⟨by rw [Complex.ofReal_re]; linarith [hz.1], by rw [Complex.ofReal_im]⟩

theorem graded_example_critical : ∀ z ∈ Icc (0 : ℝ) 100, ((1.5 + z / 200 : ℝ) : ℂ) ^ 2 ≠
    (((1 : ℝ) : ℂ) * Complex.sin (rad 60)) ^ 2 := by
  intro z hz h0
  rw [← Complex.ofReal_sin, ← Complex.ofReal_mul, ← Complex.ofReal_pow, ← Complex.ofReal_pow] at h0
  have h1 := Complex.ofReal_injective h0
  have h2 := Real.sin_sq_le_one (rad 60)
  nlinarith [hz.1]

/-- C155 with these numbers: Maxwell's solution for the graded layer, to which the results of the code for `N` slabs
tend. -/
example : ∃ R T : Pol → ℂ, ∃ m cb, IsFilm (((1 : ℝ) : ℂ) * Complex.sin (rad 60)) 500 (1.46, 10) m ∧
    (∀ pol r t, GradedSolves pol 1 (rad 60) 500 100 (fun z => ((1.5 + z / 200 : ℝ) : ℂ)) [m] [] (4 + I) cb r t ↔
      r = R pol ∧ t = T pol) ∧
    ∃ r t : Pol → ℕ → ℂ,
      (∀ᶠ N in atTop, cohTmm ((sliced [(1.46, 10)] [] (fun z => ((1.5 + z / 200 : ℝ) : ℂ)) (4 + I) 1
        (equalSlices 100 N)).layers .inf .inf) [((rad 60 : ℝ), 500)] =
          .ok [⟨some (r .s N, t .s N), some (r .p N, t .p N)⟩]) ∧
      ∀ pol, Tendsto (r pol) atTop (𝓝 (R pol)) ∧ Tendsto (t pol) atTop (𝓝 (T pol)) := by
  obtain ⟨cb, -, -, R, T, hRT, H⟩ := C155_amplitudes_partial graded_example
  obtain ⟨r, t, hev, hlim⟩ := H .inf .inf
  have ht := C155_equal (by norm_num) graded_example_critical
  refine ⟨R, T, _, cb, codeMed_isFilm _ _ _, fun pol r t => ?_, fun pol N => r pol (equalSlices 100 N),
    fun pol N => t pol (equalSlices 100 N), ht.eventually hev,
    fun pol => ⟨(hlim pol).1.comp ht, (hlim pol).2.comp ht⟩⟩
  refine hRT pol _ [] (.cons (codeMed_isFilm _ _ _) .nil) .nil ?_ r t
  intro m hm
  simp only [List.append_nil, List.mem_singleton] at hm
  have h60 : rad 60 = Real.pi / 3 := by unfold rad; ring
  have hf := codeMed_isFilm (((1 : ℝ) : ℂ) * Complex.sin (rad 60)) 500 (1.46, 10)
  rw [← hm] at hf
  rw [graded_example_film (by rw [← h60]; exact hf)]
  norm_num

/-! ### A gradient with a closed solution: `n(z)² = (2 - z)² + i` from 0 to 1 nm, `λ = 2π` nm, normal incidence -/

theorem exactGradient_fields {pol : Pol} {T : ℂ} : GradedFields pol (((1 : ℝ) : ℂ) * Complex.sin ((rad 0 : ℝ) : ℂ))
    (2 * Real.pi) 1 (fun z => Complex.sqrt (((2 - z : ℝ) : ℂ) ^ 2 + I)) (fun z =>
      let e := T * Complex.exp (I * ((2 * z - z ^ 2 / 2 : ℝ) : ℂ))
      match pol with
      | .s => (e, ((2 - z : ℝ) : ℂ) * e)
      | .p => (((2 - z : ℝ) : ℂ) * e, e)) := by
  have hk : (((2 * Real.pi / (2 * Real.pi) : ℝ)) : ℂ) = 1 := by
    rw [div_self (by positivity)]; simp
  have hs : ((1 : ℝ) : ℂ) * Complex.sin ((rad 0 : ℝ) : ℂ) = 0 := by simp [rad]
  have d0 : ∀ z : ℝ, HasDerivAt (fun z : ℝ => ((2 - z : ℝ) : ℂ)) (-1) z := fun z => by
    have := ((hasDerivAt_id z).const_sub 2).ofReal_comp
    simpa using this
  have d1 : ∀ z : ℝ, HasDerivAt (fun z : ℝ => T * Complex.exp (I * ((2 * z - z ^ 2 / 2 : ℝ) : ℂ)))
      (I * ((2 - z : ℝ) : ℂ) * (T * Complex.exp (I * ((2 * z - z ^ 2 / 2 : ℝ) : ℂ)))) z := by
    intro z
    have h1 : HasDerivAt (fun z : ℝ => 2 * z - z ^ 2 / 2) (2 - z) z := by
      have := ((hasDerivAt_id z).const_mul 2).sub (((hasDerivAt_id z).pow 2).div_const 2)
      refine this.congr_deriv ?_
      simp
    have h2 := ((h1.ofReal_comp.const_mul I).cexp.const_mul T)
    refine h2.congr_deriv ?_
    ring
  have d2 : ∀ z : ℝ, HasDerivAt (fun z : ℝ => ((2 - z : ℝ) : ℂ) *
      (T * Complex.exp (I * ((2 * z - z ^ 2 / 2 : ℝ) : ℂ))))
      (I * (((2 - z : ℝ) : ℂ) ^ 2 + I) * (T * Complex.exp (I * ((2 * z - z ^ 2 / 2 : ℝ) : ℂ)))) z := by
    intro z
    refine ((d0 z).mul (d1 z)).congr_deriv ?_
    linear_combination (-(T * Complex.exp (I * ((2 * z - z ^ 2 / 2 : ℝ) : ℂ)))) * Complex.I_mul_I
  rw [hs]
  cases pol
  · refine ⟨fun z _ => ?_, fun z _ => ?_⟩
    · refine (d1 z).hasDerivWithinAt.congr_deriv ?_
      rw [hk]; simp only [coefA]; ring
    · refine (d2 z).hasDerivWithinAt.congr_deriv ?_
      rw [hk]; simp only [coefB, csqrt_sq]; ring
  · refine ⟨fun z _ => ?_, fun z _ => ?_⟩
    · refine (d2 z).hasDerivWithinAt.congr_deriv ?_
      rw [hk]; simp only [coefA, csqrt_sq]; ring
    · refine (d1 z).hasDerivWithinAt.congr_deriv ?_
      rw [hk]; simp only [coefB]; ring

theorem exactGradient_solves (pol : Pol) : GradedSolves pol 1 (rad 0) (2 * Real.pi) 1
    (fun z => Complex.sqrt (((2 - z : ℝ) : ℂ) ^ 2 + I)) [] [] 1 1
    (match pol with | .s => -1 / 3 | .p => 1 / 3) (2 / 3 * Complex.exp (I * ((3 / 2 : ℝ) : ℂ))) := by
  refine ⟨_, exactGradient_fields (T := 2 / 3), ?_, ?_⟩
  · have h0 : Complex.cos ((rad 0 : ℝ) : ℂ) = 1 := by simp [rad]
    rw [h0]
    cases pol
    · simp only [Carries, tanField]; norm_num
    · simp only [Carries, tanField]; norm_num
  · cases pol
    · simp only [Carries, tanField]; norm_num
    · simp only [Carries, tanField]; norm_num

theorem exactGradient_index (z : ℝ) : (((2 - z : ℝ) : ℂ) ^ 2 + I).re = (2 - z) ^ 2 ∧
    (((2 - z : ℝ) : ℂ) ^ 2 + I).im = 1 ∧ PassiveIndex (Complex.sqrt (((2 - z : ℝ) : ℂ) ^ 2 + I)) := by
  have h1 : (((2 - z : ℝ) : ℂ) ^ 2 + I).re = (2 - z) ^ 2 := by
    rw [← Complex.ofReal_pow, Complex.add_re, Complex.ofReal_re, Complex.I_re, add_zero]
  have h2 : (((2 - z : ℝ) : ℂ) ^ 2 + I).im = 1 := by
    rw [← Complex.ofReal_pow, Complex.add_im, Complex.ofReal_im, Complex.I_im, zero_add]
  refine ⟨h1, h2, lt_of_le_of_ne (csqrt_re_nonneg _) fun h0 => ?_, csqrt_im_nonneg (by rw [h2]; norm_num)⟩
  have h3 := congrArg Complex.im (csqrt_sq (((2 - z : ℝ) : ℂ) ^ 2 + I))
  rw [h2, sq, Complex.mul_im, ← h0] at h3
  norm_num at h3

theorem exactGradient_graded : Graded [] [] (fun z => Complex.sqrt (((2 - z : ℝ) : ℂ) ^ 2 + I)) 1 1 1 (rad 0)
    (2 * Real.pi) := by
  have hpi := Real.pi_pos
  have h0 : rad 0 = 0 := by simp [rad]
  refine ⟨⟨by simp, one_pos, by rw [h0, abs_zero]; positivity, by positivity, by simp, ?_, by simp, by simp⟩, zero_le_one,
    ?_, fun z _ => (exactGradient_index z).2.2⟩
  · exact ⟨by simp, by simp⟩
  · intro z _
    refine ContinuousAt.continuousWithinAt ?_
    unfold Complex.sqrt
    refine ContinuousAt.cpow (by fun_prop) continuousAt_const (Or.inr ?_)
    rw [(exactGradient_index z).2.1]; norm_num

/-- C155: for this gradient the results of the code for thin slabs tend to psi = 45 degrees, delta = 180 degrees. -/
example {rows : List (ℝ × ℝ) → List Row}
    (hr : ∀ l, RowsOf (rows l) (sliced [] [] (fun z => Complex.sqrt (((2 - z : ℝ) : ℂ) ^ 2 + I)) 1 1 l))
    (zs : List Layer → ℝ → ℝ → Bool) : ∃ ψ Δ : ℕ → ℝ,
      (∀ᶠ N in atTop, (deltaPsiTMM zs [0] (rows (equalSlices 1 N)) (2 * Real.pi) 0 false).1 =
        .ok [(some (ψ N), some (Δ N))]) ∧
      Tendsto ψ atTop (𝓝 45) ∧ Tendsto (fun N => Real.cos (rad (Δ N))) atTop (𝓝 (-1)) := by
  have hs0 : ((1 : ℝ) : ℂ) * Complex.sin ((rad 0 : ℝ) : ℂ) = 0 := by simp [rad]
  obtain ⟨ψ, Δ, h1, h2, h3, -⟩ := C155_psi_delta_partial exactGradient_graded (mpre := []) (mpost := []) .nil .nil
    (by simp) (by simp [rad]) (cb := 1) (by rw [hs0]; simp) (.inr ⟨by simp, by simp⟩)
    (exactGradient_solves .s) (exactGradient_solves .p) hr zs 0 false (by norm_num) (by norm_num)
  have ht := C155_equal (D := 1) (ν := fun z => Complex.sqrt (((2 - z : ℝ) : ℂ) ^ 2 + I))
    (s := ((1 : ℝ) : ℂ) * Complex.sin ((rad 0 : ℝ) : ℂ)) zero_le_one (fun z _ h0 => by
      rw [hs0, csqrt_sq] at h0
      have := congrArg Complex.im h0
      rw [(exactGradient_index z).2.1] at this
      norm_num at this)
  refine ⟨_, _, ht.eventually h1, ?_, ?_⟩
  · have h4 := h2.comp ht
    have e : Real.arctan (‖(1 / 3 : ℂ)‖ / ‖(-1 / 3 : ℂ)‖) * 180 / Real.pi = 45 := by
      rw [neg_div, norm_neg, div_self (by norm_num), Real.arctan_one]
      have := Real.pi_pos
      field_simp; norm_num
    rw [e] at h4
    exact h4
  · have h4 := h3.comp ht
    have e : Real.cos (((-1 / 3 : ℂ) / (1 / 3 : ℂ)).arg) = -1 := by
      rw [show ((-1 / 3 : ℂ) / (1 / 3 : ℂ)) = -1 by norm_num, Complex.arg_neg_one, Real.cos_pi]
    rw [e] at h4
    simpa only [Function.comp_def, sub_zero] using h4

/-- C155, rate, for the first example. -/
example : ∃ cb m, ∃ C η₀ : ℝ, IsFilm (((1 : ℝ) : ℂ) * Complex.sin (rad 60)) 500 (1.46, 10) m ∧ 0 < η₀ ∧
    ∀ η, 0 < η → η ≤ η₀ → ∀ l, Slicing η 0 l 100 → ∃ a,
      cohTmm ((sliced [(1.46, 10)] [] (fun z => ((1.5 + z / 200 : ℝ) : ℂ)) (4 + I) 1 l).layers .inf .inf)
        [((rad 60 : ℝ), 500)] = .ok [a] ∧ ∀ pol, ∃ r t, a.of pol = some (r, t) ∧ ∀ R T,
        GradedSolves pol 1 (rad 60) 500 100 (fun z => ((1.5 + z / 200 : ℝ) : ℂ)) [m] [] (4 + I) cb R T →
        ‖r - R‖ ≤ C * η ∧ ‖t - T‖ ≤ C * η := by
  obtain ⟨cb, -, -, C, η₀, h0, H⟩ := C155_rate_partial graded_example (L := 1 / 200) (by norm_num) (fun z _ w _ => by
    rw [← Complex.ofReal_sub, Complex.norm_real, Real.norm_eq_abs,
      show (1.5 + z / 200 - (1.5 + w / 200) : ℝ) = 1 / 200 * (z - w) by ring, abs_mul]
    norm_num)
  have hf := codeMed_isFilm (((1 : ℝ) : ℂ) * Complex.sin (rad 60)) 500 (1.46, 10)
  refine ⟨cb, _, C, η₀, hf, h0, fun η h1 h2 l hl => ?_⟩
  obtain ⟨a, ha, hp⟩ := H η h1 h2 l hl (fun p hp => graded_example_critical _ (slicing_mem hl le_rfl p hp).1) .inf .inf
  refine ⟨a, ha, fun pol => ?_⟩
  obtain ⟨r, t, hrt, K⟩ := hp pol
  refine ⟨r, t, hrt, K _ [] (.cons hf .nil) .nil fun m hm => ?_⟩
  simp only [List.append_nil, List.mem_singleton] at hm
  have h60 : rad 60 = Real.pi / 3 := by unfold rad; ring
  rw [← hm] at hf
  rw [graded_example_film (by rw [← h60]; exact hf)]
  norm_num

/-- C155 fails: a slab of index 1 below a medium of index 2, at 30 degrees. -/
example (d : ℝ) : ∃ a, cohTmm ((⟨2, [(1, d)], 3⟩ : Stack).layers .inf .inf) [((Real.pi / 6 : ℝ), 500)] = .ok [a] ∧
    ∀ pol, a.of pol = none := by
  refine C155_fails_critical (n₀ := 2) (f := (1, d)) (by simp) ⟨by norm_num, by simp, by norm_num⟩ (by norm_num) (by simp) ?_ _ _
  rw [← Complex.ofReal_sin, Real.sin_pi_div_six]
  norm_num

end Verif.TMM
