import Verif.Disp.PropsCausal

/-!
# Property C140: causality of the models without absorption

docs/faq.rst says that neither Cauchy nor Sellmeier is Kramers-Kronig consistent.  For Cauchy this is so; a Sellmeier
model is the limit of Lorentz oscillators without damping, and is.
-/

namespace Verif.Disp
open Complex Filter Topology

/-- C140, Cauchy: unless the index is constant, no causal function (whatever its limit `einf` at infinity) has the
square of the index as its boundary values. -/
theorem C140_cauchy (z : SqrtOracle) (wl A : ℝ) {B C : ℝ} (hBC : B ≠ 0 ∨ C ≠ 0) {einf : ℝ} {G : ℂ → ℂ}
    (hG : Causal G einf) {g : ℝ → ℂ} (hg : ∀ x, Boundary G x (g x)) :
    ∃ w e N, 0 < w ∧ nmEV w = some e ∧ (Scat.cauchy wl A B C).complex z (some w) = some N ∧ g e ≠ N ^ 2 := by
  by_contra hcon
  push Not at hcon
  have key : ∀ e : ℝ, 0 < e → g e = ((A + B * (e / 1.239841984055) ^ 2 + C * (e / 1.239841984055) ^ 4 : ℝ) : ℂ) ^ 2 := by
    intro e he
    have hw : 0 < 1239.841984055 / e := by positivity
    rw [hcon _ e _ hw ?_ (C49_cauchy z wl A B C hw)]
    · congr 1
      apply Complex.ext
      · simp only [Complex.ofReal_re]
        field_simp
        ring
      · rw [Complex.ofReal_im]
    · rw [nmEV, rdiv_of_ne hw.ne']
      congr 1
      field_simp
  have hc := (causal_unique hG (Causal.const einf) hg (fun _ => tendsto_const_nhds) Set.finite_empty fun x hx _ => by
    rw [key x hx, ← Complex.ofReal_pow, Complex.ofReal_im, Complex.ofReal_im]).1
  have val : ∀ t : ℝ, 0 < t → (A + B * t + C * t ^ 2) ^ 2 = einf := by
    intro t ht
    have h1 := key (1.239841984055 * Real.sqrt t) (by positivity)
    rw [congrFun hc, ← Complex.ofReal_pow, Complex.ofReal_inj] at h1
    have h2 : (1.239841984055 * Real.sqrt t / 1.239841984055) = Real.sqrt t := by field_simp
    have h3 : Real.sqrt t ^ 4 = t ^ 2 := by
      rw [show (4 : ℕ) = 2 * 2 from rfl, pow_mul, Real.sq_sqrt ht.le]
    rw [h2, Real.sq_sqrt ht.le, h3] at h1
    exact h1.symm
  have v1 := val 1 (by norm_num)
  have v2 := val 2 (by norm_num)
  have v3 := val 3 (by norm_num)
  have v4 := val 4 (by norm_num)
  have v5 := val 5 (by norm_num)
  have hC : C = 0 := by
    have : 24 * C ^ 2 = 0 := by linear_combination v5 - 4 * v4 + 6 * v3 - 4 * v2 + v1
    simpa using this
  have hB : B = 0 := by
    rw [hC] at v1 v2 v3
    have : 2 * B ^ 2 = 0 := by linear_combination v3 - 2 * v2 + v1
    simpa using this
  exact hBC.elim (fun h => h hB) fun h => h hC

/-- C140, Sellmeier: there is one function, holomorphic above the real axis, real in the time domain and tending to
`Einf`, whose boundary value is the square of the index at every wavelength at which there is one. -/
theorem C140_sellmeier (z : SqrtOracle) (wl Am P einf : ℝ) {En : ℝ} (hE : En ≠ 0) :
    ∃ F, Causal F einf ∧ ∀ w e N, 0 < w → nmEV w = some e →
      (Scat.sellmeier wl Am En P einf).complex z (some w) = some N → Boundary F e (N ^ 2) := by
  obtain ⟨F, hF, hb, -⟩ := lorentz_exists (osc := [(Am * 1.239841984055 ^ 2 / En ^ 2, 0, 1.239841984055 / En),
    (P * 1.239841984055 ^ 2, 0, 0)]) (by simp) einf
  refine ⟨F, hF, fun w e N hw he hN => hb e _ ?_⟩
  have hu : w / 1000 ≠ 0 := by positivity
  have hne : (w / 1000) ^ 2 ≠ En ^ 2 := by
    intro h
    rw [(C50_square z wl Am En P einf hw.ne' rfl rfl).2.2 h] at hN
    simp at hN
  have hpos : 0 ≤ einf + Am * (w / 1000) ^ 2 / ((w / 1000) ^ 2 - En ^ 2) - P * (w / 1000) ^ 2 := by
    by_contra h
    rw [(C50_square z wl Am En P einf hw.ne' rfl rfl).2.1 hne (not_le.mp h)] at hN
    simp at hN
  obtain ⟨N', hN', -, -, hsq⟩ := (C50_square z wl Am En P einf hw.ne' rfl rfl).1 hne hpos
  rw [hN, Option.some.injEq] at hN'
  rw [hN', hsq]
  have he' : e = 1239.841984055 / w := by
    rw [nmEV, rdiv_of_ne hw.ne', Option.some.injEq] at he
    exact he.symm
  have hepos : 0 < e := by rw [he']; positivity
  obtain ⟨u, hu'⟩ : ∃ u : ℝ, u = w / 1000 := ⟨_, rfl⟩
  have hue : u = 1.239841984055 / e := by rw [hu', he']; field_simp; norm_num
  rw [← hu'] at hne hu ⊢
  have hd1 : ((1.239841984055 / En : ℝ) : ℂ) ^ 2 - (e : ℂ) ^ 2 - I * (0 : ℝ) * e ≠ 0 := by
    intro h
    rw [Complex.ofReal_zero, mul_zero, zero_mul, sub_zero] at h
    norm_cast at h
    apply hne
    rw [hue, div_pow, div_eq_iff (by positivity)]
    have h3 := sub_eq_zero.mp h
    rw [div_pow, div_eq_iff (by positivity)] at h3
    linarith
  have hd2 : ((0 : ℝ) : ℂ) ^ 2 - (e : ℂ) ^ 2 - I * (0 : ℝ) * e ≠ 0 := by
    simp [hepos.ne']
  simp only [lorentzEps, List.map_cons, List.map_nil, sumO, lorentzTerm, cdiv_of_ne hd1, cdiv_of_ne hd2]
  simp only [Option.pure_def, Option.bind_eq_bind, Option.bind_some, Option.some.injEq, Complex.ofReal_zero, mul_zero,
    zero_mul, sub_zero, add_zero]
  norm_cast
  have hx1 : u ^ 2 - En ^ 2 ≠ 0 := sub_ne_zero.mpr hne
  have hk : (1.239841984055 : ℝ) = u * e := by rw [hue]; field_simp
  have he0 := hepos.ne'
  have hd3 : (u * e / En) ^ 2 - e ^ 2 ≠ 0 := by
    have : (u * e / En) ^ 2 - e ^ 2 = e ^ 2 / En ^ 2 * (u ^ 2 - En ^ 2) := by field_simp
    rw [this]
    positivity
  rw [hk]
  have e1 : Am * (u * e) ^ 2 / En ^ 2 / ((u * e / En) ^ 2 - e ^ 2) = Am * u ^ 2 / (u ^ 2 - En ^ 2) := by
    rw [div_div, div_eq_div_iff (mul_ne_zero (pow_ne_zero 2 hE) hd3) hx1]
    field_simp
  have e2 : P * (u * e) ^ 2 / (((0 ^ 2 : ℕ) : ℝ) - e ^ 2) = -(P * u ^ 2) := by
    simp only [ne_eq, OfNat.ofNat_ne_zero, not_false_eq_true, zero_pow, Nat.cast_zero, zero_sub]
    rw [div_neg, mul_pow, ← mul_assoc, mul_div_assoc, div_self (pow_ne_zero 2 he0), mul_one]
  rw [e1, e2]
  ring

/-- Non-vacuity: BK7-like glass has an index at 600 nm, and a Cauchy film is not constant. -/
example (z : SqrtOracle) : (∃ N, (Scat.sellmeier 658 1.27 0.1 0.01 1).complex z (some 600) = some N) ∧
    ((0.005 : ℝ) ≠ 0 ∨ (0 : ℝ) ≠ 0) := by
  refine ⟨?_, .inl (by norm_num)⟩
  obtain ⟨N, hN, -⟩ := (C50_square z 658 1.27 0.1 0.01 1 (w := 600) (by norm_num) rfl rfl).1 (by norm_num)
    (by norm_num)
  exact ⟨N, hN⟩

end Verif.Disp
