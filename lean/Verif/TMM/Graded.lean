import Verif.TMM.GradedSpec
import Verif.TMM.PropsMaxwell
import Verif.LinODE
import Mathlib.Analysis.SpecialFunctions.Trigonometric.Deriv

/-! # Lemmas on graded layers (C155) -/

namespace Verif.TMM

open Complex (I)
open Set Filter Topology
open scoped ComplexConjugate

theorem tangential_iff_tan {pol : Pol} {m m' : Medium} {v w v' w' : ℂ} :
    Tangential pol m m' v w v' w' ↔ tanField pol m v w = tanField pol m' v' w' := by
  cases pol <;> simp [Tangential, tanField, Prod.ext_iff]

/-- The specification of graded layers extends that of homogeneous films. -/
theorem fields_iff_through {pol : Pol} {b : Medium} {t : ℂ} : ∀ {ms : List Medium} {m : Medium} {v w : ℂ},
    Fields pol m v w (ms ++ [b]) t ↔ Carries pol (tanField pol m v w) ms (tanField pol b t 0) := by
  intro ms
  induction ms with
  | nil => intro m v w; exact tangential_iff_tan
  | cons m' ms ih =>
    intro m v w
    rw [List.cons_append, fields_cons (by simp)]
    simp only [Carries, tangential_iff_tan, ih]

theorem through_append {pol : Pol} {u' : ℂ × ℂ} {ms' : List Medium} : ∀ {ms : List Medium} {u : ℂ × ℂ},
    Carries pol u (ms ++ ms') u' ↔ ∃ x, Carries pol u ms x ∧ Carries pol x ms' u' := by
  intro ms
  induction ms with
  | nil => intro u; simp [Carries]
  | cons m ms ih =>
    intro u
    simp only [List.cons_append, Carries, ih]
    constructor
    · rintro ⟨v, w, h1, x, h2, h3⟩
      exact ⟨x, ⟨v, w, h1, h2⟩, h3⟩
    · rintro ⟨x, ⟨v, w, h1, h2⟩, h3⟩
      exact ⟨v, w, h1, x, h2, h3⟩

/-- Field in front of a film of index `n`, `q = n cos`, phase `δ`, from the field behind it. -/
noncomputable def across (pol : Pol) (s n q δ : ℂ) (u : ℂ × ℂ) : ℂ × ℂ :=
  (Complex.cos δ * u.1 - I * (coefA pol n / q) * Complex.sin δ * u.2,
   Complex.cos δ * u.2 - I * (coefB pol s n / q) * Complex.sin δ * u.1)

theorem coefAB {s n q : ℂ} (hn : n ≠ 0) (hq : q ^ 2 = n ^ 2 - s ^ 2) (pol : Pol) :
    coefA pol n * coefB pol s n = q ^ 2 := by
  cases pol
  · simp [coefA, coefB, hq]
  · simp only [coefA, coefB, hq]; field_simp

/-- Amplitudes and tangential fields. -/
theorem tan_scale {s : ℂ} {m : Medium} (hn : m.n ≠ 0) (hc : m.c ^ 2 = 1 - (s / m.n) ^ 2) (hq : m.n * m.c ≠ 0)
    (pol : Pol) : ∃ α β : ℂ, α ≠ 0 ∧ β ≠ 0 ∧ (∀ v w, tanField pol m v w = (α * (v + w), β * (v - w))) ∧
      coefA pol m.n / (m.n * m.c) = α / β ∧ coefB pol s m.n / (m.n * m.c) = β / α := by
  have hc0 := right_ne_zero_of_mul hq
  have hq2 : (m.n * m.c) ^ 2 = m.n ^ 2 - s ^ 2 := by rw [mul_pow, hc]; field_simp
  cases pol
  · refine ⟨1, m.n * m.c, one_ne_zero, hq, fun v w => by simp [tanField], by simp [coefA], ?_⟩
    simp only [coefB]
    rw [← hq2]; field_simp
  · refine ⟨m.n, m.c, hn, hc0, fun v w => rfl, ?_, ?_⟩
    · simp only [coefA]; field_simp
    · simp only [coefB]; rw [← hc]; field_simp

theorem exp_cos_sin (δ : ℂ) : Complex.exp (I * δ) = Complex.cos δ + I * Complex.sin δ ∧
    Complex.exp (-(I * δ)) = Complex.cos δ - I * Complex.sin δ := by
  constructor
  · rw [mul_comm I δ, Complex.exp_mul_I]; ring
  · rw [show -(I * δ) = (-δ) * I by ring, Complex.exp_mul_I, Complex.cos_neg, Complex.sin_neg]; ring

theorem across_tan {s : ℂ} {m : Medium} (hn : m.n ≠ 0) (hc : m.c ^ 2 = 1 - (s / m.n) ^ 2) (hq : m.n * m.c ≠ 0)
    (pol : Pol) (v w : ℂ) :
    across pol s m.n (m.n * m.c) m.δ
      (tanField pol m (v * Complex.exp (I * m.δ)) (w * Complex.exp (-(I * m.δ)))) = tanField pol m v w := by
  obtain ⟨α, β, ha, hb, ht, h1, h2⟩ := tan_scale hn hc hq pol
  obtain ⟨e1, e2⟩ := exp_cos_sin m.δ
  have hcs := Complex.sin_sq_add_cos_sq m.δ
  unfold across
  rw [ht, ht, h1, h2, e1, e2]
  ext
  · simp only
    rw [show I * (α / β) * Complex.sin m.δ * (β * (v * (Complex.cos m.δ + I * Complex.sin m.δ)
      - w * (Complex.cos m.δ - I * Complex.sin m.δ))) = I * α * Complex.sin m.δ * (v * (Complex.cos m.δ + I * Complex.sin m.δ)
      - w * (Complex.cos m.δ - I * Complex.sin m.δ)) by field_simp]
    linear_combination α * (v + w) * hcs - α * (v + w) * Complex.sin m.δ ^ 2 * Complex.I_sq
  · simp only
    rw [show I * (β / α) * Complex.sin m.δ * (α * (v * (Complex.cos m.δ + I * Complex.sin m.δ)
      + w * (Complex.cos m.δ - I * Complex.sin m.δ))) = I * β * Complex.sin m.δ * (v * (Complex.cos m.δ + I * Complex.sin m.δ)
      + w * (Complex.cos m.δ - I * Complex.sin m.δ)) by field_simp]
    linear_combination β * (v - w) * hcs - β * (v - w) * Complex.sin m.δ ^ 2 * Complex.I_sq

/-- Every field in a film is that of two waves. -/
theorem tan_surj {s : ℂ} {m : Medium} (hn : m.n ≠ 0) (hc : m.c ^ 2 = 1 - (s / m.n) ^ 2) (hq : m.n * m.c ≠ 0)
    (pol : Pol) (u : ℂ × ℂ) : ∃ v w, u = tanField pol m (v * Complex.exp (I * m.δ)) (w * Complex.exp (-(I * m.δ))) := by
  obtain ⟨α, β, ha, hb, ht, -, -⟩ := tan_scale hn hc hq pol
  refine ⟨(u.1 / α + u.2 / β) / 2 * Complex.exp (-(I * m.δ)), (u.1 / α - u.2 / β) / 2 * Complex.exp (I * m.δ), ?_⟩
  rw [ht, mul_assoc, mul_assoc, ← Complex.exp_add, ← Complex.exp_add]
  ext
  · simp; field_simp; ring
  · simp; field_simp; ring

/-- Field in front of a list of films. -/
noncomputable def acrossAll (pol : Pol) (s : ℂ) (ms : List Medium) (u : ℂ × ℂ) : ℂ × ℂ :=
  ms.foldr (fun m u => across pol s m.n (m.n * m.c) m.δ u) u

theorem through_iff {pol : Pol} {s : ℂ} {u' : ℂ × ℂ} : ∀ {ms : List Medium},
    (∀ m ∈ ms, m.n ≠ 0 ∧ m.c ^ 2 = 1 - (s / m.n) ^ 2 ∧ m.n * m.c ≠ 0) → ∀ {u : ℂ × ℂ},
    Carries pol u ms u' ↔ u = acrossAll pol s ms u' := by
  intro ms
  induction ms with
  | nil => intro _ u; rfl
  | cons m ms ih =>
    intro h u
    obtain ⟨hn, hc, hq⟩ := h m (by simp)
    have ih' := fun {x} => ih (fun m hm => h m (by simp [hm])) (u := x)
    simp only [Carries, ih', acrossAll, List.foldr_cons]
    constructor
    · rintro ⟨v, w, rfl, h2⟩
      rw [← across_tan hn hc hq pol v w, h2]
    · intro h1
      obtain ⟨v, w, h2⟩ := tan_surj hn hc hq pol (acrossAll pol s ms u')
      refine ⟨v, w, ?_, h2.symm⟩
      rw [← across_tan hn hc hq pol v w, ← h2, h1]; rfl

theorem across_flip (pol : Pol) (s n q δ : ℂ) (u : ℂ × ℂ) : across pol s n (-q) (-δ) u = across pol s n q δ u := by
  simp only [across, Complex.cos_neg, Complex.sin_neg, div_neg]
  ext <;> simp

theorem acrossAll_append (pol : Pol) (s : ℂ) (ms ms' : List Medium) (u : ℂ × ℂ) :
    acrossAll pol s (ms ++ ms') u = acrossAll pol s ms (acrossAll pol s ms' u) := by
  simp [acrossAll, List.foldr_append]

theorem across_smul (pol : Pol) (s n q δ t : ℂ) (u : ℂ × ℂ) :
    across pol s n q δ (t • u) = t • across pol s n q δ u := by
  simp only [across]; ext <;> simp <;> ring

theorem acrossAll_smul (pol : Pol) (s : ℂ) (ms : List Medium) (t : ℂ) (u : ℂ × ℂ) :
    acrossAll pol s ms (t • u) = t • acrossAll pol s ms u := by
  induction ms with
  | nil => rfl
  | cons m ms ih =>
    have : ∀ x, acrossAll pol s (m :: ms) x = across pol s m.n (m.n * m.c) m.δ (acrossAll pol s ms x) := fun _ => rfl
    rw [this, ih, across_smul, this]

theorem continuous_across (pol : Pol) (s n q δ : ℂ) : Continuous (across pol s n q δ) := by
  unfold across; fun_prop

theorem continuous_acrossAll (pol : Pol) (s : ℂ) (ms : List Medium) : Continuous (acrossAll pol s ms) := by
  induction ms with
  | nil => exact continuous_id
  | cons m ms ih => exact (continuous_across pol s m.n (m.n * m.c) m.δ).comp ih

/-! ### The equations of motion, counted from the back -/

/-- Right-hand side of Maxwell's equations, for a coordinate that grows towards the front. -/
noncomputable def gen (pol : Pol) (s : ℂ) (k : ℝ) (n : ℂ) (u : ℂ × ℂ) : ℂ × ℂ :=
  (-(I * k * coefA pol n * u.2), -(I * k * coefB pol s n * u.1))

theorem gen_sub (pol : Pol) (s : ℂ) (k : ℝ) (n : ℂ) (u v : ℂ × ℂ) :
    gen pol s k n u - gen pol s k n v = gen pol s k n (u - v) := by
  simp only [gen]; ext <;> simp <;> ring

theorem norm_gen_le {pol : Pol} {s n : ℂ} {k C : ℝ} (hk : 0 ≤ k) (ha : ‖coefA pol n‖ ≤ C) (hb : ‖coefB pol s n‖ ≤ C)
    (u : ℂ × ℂ) : ‖gen pol s k n u‖ ≤ k * C * ‖u‖ := by
  have hC : 0 ≤ C := (norm_nonneg _).trans ha
  have h1 : ‖u.1‖ ≤ ‖u‖ := norm_fst_le u
  have h2 : ‖u.2‖ ≤ ‖u‖ := norm_snd_le u
  rw [Prod.norm_def]
  simp only [gen, norm_neg, norm_mul, Complex.norm_I, one_mul, Complex.norm_real, Real.norm_eq_abs, abs_of_nonneg hk]
  apply max_le
  · exact mul_le_mul (mul_le_mul_of_nonneg_left ha hk) h2 (norm_nonneg _) (by positivity)
  · exact mul_le_mul (mul_le_mul_of_nonneg_left hb hk) h1 (norm_nonneg _) (by positivity)

theorem norm_gen_diff_le {pol : Pol} {s n n' : ℂ} {k ω : ℝ} (hk : 0 ≤ k) (ha : ‖coefA pol n - coefA pol n'‖ ≤ ω)
    (hb : ‖coefB pol s n - coefB pol s n'‖ ≤ ω) (u : ℂ × ℂ) :
    ‖gen pol s k n u - gen pol s k n' u‖ ≤ k * ω * ‖u‖ := by
  have hC : 0 ≤ ω := (norm_nonneg _).trans ha
  have h1 : ‖u.1‖ ≤ ‖u‖ := norm_fst_le u
  have h2 : ‖u.2‖ ≤ ‖u‖ := norm_snd_le u
  have e : gen pol s k n u - gen pol s k n' u =
      (-(I * k * (coefA pol n - coefA pol n') * u.2), -(I * k * (coefB pol s n - coefB pol s n') * u.1)) := by
    simp only [gen]; ext <;> simp <;> ring
  rw [e, Prod.norm_def]
  simp only [norm_neg, norm_mul, Complex.norm_I, one_mul, Complex.norm_real, Real.norm_eq_abs, abs_of_nonneg hk]
  apply max_le
  · exact mul_le_mul (mul_le_mul_of_nonneg_left ha hk) h2 (norm_nonneg _) (by positivity)
  · exact mul_le_mul (mul_le_mul_of_nonneg_left hb hk) h1 (norm_nonneg _) (by positivity)

theorem gen_lipschitz {pol : Pol} {s n : ℂ} {k : ℝ} {C : NNReal} (hk : 0 ≤ k) (ha : ‖coefA pol n‖ ≤ C)
    (hb : ‖coefB pol s n‖ ≤ C) : LipschitzWith (⟨k, hk⟩ * C) (gen pol s k n) := by
  refine LipschitzWith.of_dist_le_mul fun u v => ?_
  rw [dist_eq_norm, gen_sub, dist_eq_norm]
  exact norm_gen_le hk ha hb _

/-- A film grows from the back according to Maxwell's equations. -/
theorem across_deriv {pol : Pol} {s n q : ℂ} {k : ℝ} (hn : n ≠ 0) (hq0 : q ≠ 0) (hq : q ^ 2 = n ^ 2 - s ^ 2)
    (u : ℂ × ℂ) (x : ℝ) : HasDerivAt (fun x : ℝ => across pol s n q (k * q * x) u)
      (gen pol s k n (across pol s n q (k * q * x) u)) x := by
  have hab := coefAB hn hq pol
  have hδ : HasDerivAt (fun x : ℝ => k * q * (x : ℂ)) (k * q) x := by
    simpa using (Complex.ofRealCLM.hasDerivAt (x := x)).const_mul ((k : ℂ) * q)
  have hcos := (Complex.hasDerivAt_cos (k * q * x)).comp x hδ
  have hsin := (Complex.hasDerivAt_sin (k * q * x)).comp x hδ
  have h1 := (hcos.mul_const u.1).sub (((hsin.const_mul (I * (coefA pol n / q))).mul_const u.2))
  have h2 := (hcos.mul_const u.2).sub (((hsin.const_mul (I * (coefB pol s n / q))).mul_const u.1))
  have h := h1.prodMk h2
  refine h.congr_deriv ?_
  generalize hA : coefA pol n = A at *
  generalize hB : coefB pol s n = B at *
  simp only [gen, across, hA, hB]
  have e1 : B / q * A = q := by rw [div_mul_eq_mul_div, div_eq_iff hq0]; linear_combination hab
  have e2 : A / q * B = q := by rw [div_mul_eq_mul_div, div_eq_iff hq0]; linear_combination hab
  have e3 : A / q * q = A := div_mul_cancel₀ _ hq0
  have e4 : B / q * q = B := div_mul_cancel₀ _ hq0
  generalize A / q = a at *
  generalize B / q = b at *
  ext
  · simp only
    linear_combination (-I * Complex.cos (k * q * x) * k * u.2) * e3
      + (-I * I * k * Complex.sin (k * q * x) * u.1) * e1 - k * q * Complex.sin (k * q * x) * u.1 * Complex.I_sq 
  · simp only
    linear_combination (-I * Complex.cos (k * q * x) * k * u.1) * e4
      + (-I * I * k * Complex.sin (k * q * x) * u.2) * e2 - k * q * Complex.sin (k * q * x) * u.2 * Complex.I_sq

/-! ### The error of a slicing -/

theorem gronwallBound_add (δ K ε x y : ℝ) :
    gronwallBound (gronwallBound δ K ε x) K ε y = gronwallBound δ K ε (x + y) := by
  by_cases hK : K = 0
  · subst hK
    simp only [gronwallBound_K0]; ring
  · simp only [gronwallBound_of_K_ne_0 hK, mul_add, Real.exp_add]
    field_simp
    ring

/-- The medium of a film, with the direction chosen by the code, and its full phase. -/
noncomputable def fullMed (s : ℂ) (lam : ℝ) (f : ℂ × ℝ) : Medium :=
  ⟨f.1, root1m (s / f.1), 2 * Real.pi * f.1 * root1m (s / f.1) / lam * f.2⟩

theorem fullMed_ok {s : ℂ} {lam : ℝ} {f : ℂ × ℝ} (hn : f.1 ≠ 0) (hc : f.1 ^ 2 ≠ s ^ 2) :
    (fullMed s lam f).n ≠ 0 ∧ (fullMed s lam f).c ^ 2 = 1 - (s / (fullMed s lam f).n) ^ 2 ∧
      (fullMed s lam f).n * (fullMed s lam f).c ≠ 0 := by
  refine ⟨hn, root1m_sq _, mul_ne_zero hn fun h => hc ?_⟩
  have := root1m_sq (s / f.1)
  rw [show root1m (s / f.1) = 0 from h] at this
  have h2 : (s / f.1) ^ 2 = 1 := by linear_combination this
  rw [div_pow, div_eq_one_iff_eq (pow_ne_zero 2 hn)] at h2
  exact h2.symm

theorem slicing_le {η D : ℝ} : ∀ {l : List (ℝ × ℝ)} {z : ℝ}, Slicing η z l D → z ≤ D := by
  intro l
  induction l with
  | nil => intro z h; exact le_of_eq h
  | cons p l ih =>
    intro z h
    have := ih h.2.2.2
    linarith [h.1]

theorem slices_error {pol : Pol} {s : ℂ} {lam D η ω B : ℝ} {C : NNReal} {ν : ℝ → ℂ} {V : ℝ → ℂ × ℂ}
    (hlam : 0 < lam) (hn : ∀ z ∈ Icc 0 D, ν z ≠ 0)
    (hC : ∀ z ∈ Icc 0 D, ‖coefA pol (ν z)‖ ≤ C ∧ ‖coefB pol s (ν z)‖ ≤ C)
    (hω : ∀ z ∈ Icc 0 D, ∀ ξ ∈ Icc 0 D, |z - ξ| ≤ η →
      ‖coefA pol (ν z) - coefA pol (ν ξ)‖ ≤ ω ∧ ‖coefB pol s (ν z) - coefB pol s (ν ξ)‖ ≤ ω) (hω0 : 0 ≤ ω)
    (hV : ∀ τ ∈ Icc 0 D, HasDerivWithinAt V (gen pol s (2 * Real.pi / lam) (ν (D - τ)) (V τ)) (Icc 0 D) τ)
    (hB : ∀ τ ∈ Icc 0 D, ‖V τ‖ ≤ B) : ∀ {l : List (ℝ × ℝ)} {z : ℝ}, 0 ≤ z → Slicing η z l D →
    (∀ p ∈ l, ν p.2 ^ 2 ≠ s ^ 2) →
    dist (acrossAll pol s ((sliceFilms ν l).map (fullMed s lam)) (V 0)) (V (D - z)) ≤
      gronwallBound 0 (2 * Real.pi / lam * C) (2 * Real.pi / lam * ω * B) (D - z) := by
  have hk : 0 ≤ 2 * Real.pi / lam := by positivity
  intro l
  induction l with
  | nil =>
    intro z _ h _
    have : z = D := h
    subst this
    simp [sliceFilms, acrossAll, gronwallBound_x0]
  | cons p l ih =>
    intro z hz h hcrit
    obtain ⟨d, ξ⟩ := p
    obtain ⟨h1, h2, h3, h4⟩ := h
    simp only at h1 h2 h3 h4
    have hle := slicing_le h4
    have i := ih (by linarith) h4 (fun p hp => hcrit p (by simp [hp]))
    have hξ : ξ ∈ Icc 0 D := ⟨by linarith [h3.1], by linarith [h3.2]⟩
    have hn0 := hn ξ hξ
    obtain ⟨-, o2, o3⟩ := fullMed_ok (lam := lam) (f := (ν ξ, d)) hn0 (hcrit (d, ξ) (by simp))
    set W := acrossAll pol s ((sliceFilms ν l).map (fullMed s lam)) (V 0) with hW
    set q := ν ξ * root1m (s / ν ξ) with hq
    have hq2 : q ^ 2 = ν ξ ^ 2 - s ^ 2 := by rw [hq, mul_pow, root1m_sq]; field_simp
    set a := D - (z + d) with ha
    have ha0 : 0 ≤ a := by rw [ha]; linarith
    have had : a + d = D - z := by rw [ha]; ring
    have hsub : Icc a (a + d) ⊆ Icc 0 D := Icc_subset_Icc ha0 (by rw [had]; linarith)
    have hf : ∀ τ, HasDerivAt (fun τ : ℝ => across pol s (ν ξ) q ((2 * Real.pi / lam : ℝ) * q * ((τ - a : ℝ) : ℂ)) W)
        (gen pol s (2 * Real.pi / lam) (ν ξ)
          (across pol s (ν ξ) q ((2 * Real.pi / lam : ℝ) * q * ((τ - a : ℝ) : ℂ)) W)) τ := by
      intro τ
      have := (across_deriv (pol := pol) (k := 2 * Real.pi / lam) hn0 (q := q) o3 hq2 W (τ - a)).scomp τ
        ((hasDerivAt_id τ).sub_const a)
      simpa [Function.comp_def] using this
    have hVc : ContinuousOn V (Icc a (a + d)) := fun τ hτ => ((hV τ (hsub hτ)).continuousWithinAt).mono hsub
    have key := dist_le_of_approx_trajectories_ODE (v := fun _ => gen pol s (2 * Real.pi / lam) (ν ξ))
      (K := ⟨2 * Real.pi / lam, hk⟩ * C)
      (f := fun τ : ℝ => across pol s (ν ξ) q ((2 * Real.pi / lam : ℝ) * q * ((τ - a : ℝ) : ℂ)) W)
      (g := V) (a := a) (b := a + d) (εf := 0) (εg := 2 * Real.pi / lam * ω * B)
      (f' := fun τ => gen pol s (2 * Real.pi / lam) (ν ξ)
          (across pol s (ν ξ) q ((2 * Real.pi / lam : ℝ) * q * ((τ - a : ℝ) : ℂ)) W))
      (g' := fun τ => gen pol s (2 * Real.pi / lam) (ν (D - τ)) (V τ))
      (δ := gronwallBound 0 (2 * Real.pi / lam * C) (2 * Real.pi / lam * ω * B) a)
      (fun _ => gen_lipschitz hk (hC ξ hξ).1 (hC ξ hξ).2)
      (fun τ _ => (hf τ).continuousAt.continuousWithinAt) (fun τ _ => (hf τ).hasDerivWithinAt)
      (fun τ _ => by simp) hVc
      (fun τ hτ => by
        have hτ' : τ ∈ Icc a (a + d) := Ico_subset_Icc_self hτ
        refine (hV τ (hsub hτ')).mono_of_mem_nhdsWithin ?_
        have hτD : τ < D := by have := hτ.2; rw [had] at this; linarith
        filter_upwards [self_mem_nhdsWithin, mem_nhdsWithin_of_mem_nhds (Iio_mem_nhds hτD)] with x hx hx'
        exact ⟨(hsub hτ').1.trans hx, le_of_lt hx'⟩)
      (fun τ hτ => by
        have hτ' : τ ∈ Icc a (a + d) := Ico_subset_Icc_self hτ
        have hz' : D - τ ∈ Icc z (z + d) := by
          constructor
          · have := hτ'.2; rw [had] at this; linarith
          · have := hτ'.1; rw [ha] at this; linarith
        have hzD : D - τ ∈ Icc 0 D := ⟨by linarith [hz'.1], by linarith [hz'.2]⟩
        have habs : |D - τ - ξ| ≤ η := by
          rw [abs_le]
          constructor
          · linarith [hz'.1, h3.2]
          · linarith [hz'.2, h3.1]
        rw [dist_eq_norm]
        obtain ⟨w1, w2⟩ := hω (D - τ) hzD ξ hξ habs
        refine (norm_gen_diff_le hk w1 w2 (V τ)).trans ?_
        exact mul_le_mul_of_nonneg_left (hB τ (hsub hτ')) (by positivity))
      (by simpa [across] using i) (a + d) ⟨by linarith, le_rfl⟩
    have e1 : acrossAll pol s ((sliceFilms ν ((d, ξ) :: l)).map (fullMed s lam)) (V 0) =
        across pol s (ν ξ) q ((2 * Real.pi / lam : ℝ) * q * ((a + d - a : ℝ) : ℂ)) W := by
      have : acrossAll pol s ((sliceFilms ν ((d, ξ) :: l)).map (fullMed s lam)) (V 0) =
        across pol s (ν ξ) (ν ξ * root1m (s / ν ξ)) (2 * Real.pi * ν ξ * root1m (s / ν ξ) / lam * d) W := rfl
      rw [this, ← hq]
      congr 1
      rw [hq]; push_cast; ring
    rw [e1, ← had]
    refine key.trans (le_of_eq ?_)
    rw [zero_add]
    have : (((⟨2 * Real.pi / lam, hk⟩ * C : NNReal)) : ℝ) = 2 * Real.pi / lam * C := rfl
    rw [this, gronwallBound_add]
    congr 1
    ring

end Verif.TMM
