import Verif.Disp.PropsKK
import Verif.Disp.PropsSampled

/-! # C137 between the knots of the grid -/

namespace Verif.Disp

open MeasureTheory

theorem lerp_mix {a b x : ℝ} (hab : a < b) (p q : ℝ) :
    lerp a p b q x = (1 - (x - a) / (b - a)) * p + (x - a) / (b - a) * q := by
  have : b - a ≠ 0 := by linarith
  unfold lerp
  field_simp
  ring

/-- The integral of the Kramers-Kronig transform exists. -/
theorem kk_split {f f1 : ℝ → ℝ} {τ e : ℝ} (h1 : ∀ x, HasDerivAt f (f1 x) x) (c1 : Continuous f1)
    (hf : ∀ x, 20 ≤ |x| → |f x| ≤ τ * Real.exp (-(|x| - 20))) (he : |e| ≤ 10) :
    IntegrableOn (fun y => (f (e + y) - f (e - y)) / y) (Set.Ioc 0 40) ∧
    IntegrableOn (fun y => (f (e + y) - f (e - y)) / y) (Set.Ioi 40) ∧
    kkTransform f e = 1 / Real.pi * ((∫ y in Set.Ioc 0 40, (f (e + y) - f (e - y)) / y) +
      ∫ y in Set.Ioi 40, (f (e + y) - f (e - y)) / y) := by
  have hc : Continuous f := continuous_iff_continuousAt.2 fun x => (h1 x).continuousAt
  have d1 : ∀ y, HasDerivAt (fun y => f (e + y) - f (e - y)) (f1 (e + y) + f1 (e - y)) y := fun y =>
    (((h1 (e + y)).comp_const_add e y).fun_sub ((h1 (e - y)).comp_const_sub e y)).congr_deriv (by ring)
  have hcont : Continuous (avg fun y => f1 (e + y) + f1 (e - y)) := avg_continuous (by fun_prop)
  have hi : IntegrableOn (fun y => (f (e + y) - f (e - y)) / y) (Set.Ioc 0 40) := by
    have : IntegrableOn (avg fun y => f1 (e + y) + f1 (e - y)) (Set.Ioc 0 40) :=
      (hcont.intervalIntegrable 0 40).1
    refine this.congr_fun (fun y hy => ?_) measurableSet_Ioc
    exact avg_eq d1 (by fun_prop) (by simp) hy.1.ne'
  obtain ⟨t1, -⟩ := tail (P := 40) hc hf he le_rfl
  refine ⟨hi, t1, ?_⟩
  unfold kkTransform
  rw [← Set.Ioc_union_Ioi_eq_Ioi (show (0 : ℝ) ≤ 40 by norm_num),
    setIntegral_union (Set.Ioc_disjoint_Ioi le_rfl) measurableSet_Ioi hi t1]

/-- The chord of a Kramers-Kronig transform. -/
theorem kk_chord {f f1 f2 f3 : ℝ → ℝ} {M τ a b e : ℝ} (h1 : ∀ x, HasDerivAt f (f1 x) x)
    (h2 : ∀ x, HasDerivAt f1 (f2 x) x) (h3 : ∀ x, HasDerivAt f2 (f3 x) x) (hM : ∀ x, |f3 x| ≤ M)
    (hf : ∀ x, 20 ≤ |x| → |f x| ≤ τ * Real.exp (-(|x| - 20))) (ha : |a| ≤ 10) (hb : |b| ≤ 10) (hab : a < b)
    (h4 : a ≤ e) (h5 : e ≤ b) :
    |lerp a (kkTransform f a) b (kkTransform f b) e - kkTransform f e| ≤
      1 / Real.pi * (40 * (M / 4 * (b - a) ^ 2) + τ / 10) := by
  have hc : Continuous f := continuous_iff_continuousAt.2 fun x => (h1 x).continuousAt
  have c1 : Continuous f1 := continuous_iff_continuousAt.2 fun x => (h2 x).continuousAt
  have he : |e| ≤ 10 := by
    rw [abs_le] at ha hb ⊢
    constructor <;> linarith [ha.1, hb.2]
  have hM0 : 0 ≤ M := (abs_nonneg _).trans (hM 0)
  obtain ⟨ia, ja, ka⟩ := kk_split h1 c1 hf ha
  obtain ⟨ib, jb, kb⟩ := kk_split h1 c1 hf hb
  obtain ⟨ie, je, ke⟩ := kk_split h1 c1 hf he
  have ta := (tail (P := 40) hc hf ha le_rfl).2
  have tb := (tail (P := 40) hc hf hb le_rfl).2
  have te := (tail (P := 40) hc hf he le_rfl).2
  obtain ⟨t, ht⟩ : ∃ t, t = (e - a) / (b - a) := ⟨_, rfl⟩
  have hba : 0 < b - a := by linarith
  have ht0 : 0 ≤ t := by rw [ht]; exact div_nonneg (by linarith) hba.le
  have ht1 : t ≤ 1 := by rw [ht, div_le_one hba]; linarith
  have hmix : ∀ p q y, (1 - t) * p + t * q = lerp (a + y) p (b + y) q (e + y) := fun p q y => by
    rw [lerp_mix (by linarith : a + y < b + y), ht]
    congr 2
    · congr 2; · ring
      · ring
    · congr 1; · ring
      · ring
  have hδ1 : ∀ y, |(1 - t) * f1 (a + y) + t * f1 (b + y) - f1 (e + y)| ≤ M / 8 * (b - a) ^ 2 := fun y => by
    rw [hmix _ _ y]
    have := chord_error (M := M) (f := f1) (a := a + y) (b := b + y) (x := e + y) (by linarith)
      (bends_of_deriv (fun x _ => h2 x) (fun x _ => h3 x) fun x _ => hM x) ⟨by linarith, by linarith⟩
    refine this.trans ?_
    have h6 : (e + y - (a + y)) * (b + y - (e + y)) ≤ (b - a) ^ 2 / 4 := by nlinarith [sq_nonneg (a + b - 2 * e)]
    nlinarith [mul_le_mul_of_nonneg_left h6 (by linarith : 0 ≤ M / 2)]
  have hδd : ∀ y, HasDerivAt (fun y => (1 - t) * f (a + y) + t * f (b + y) - f (e + y))
      ((1 - t) * f1 (a + y) + t * f1 (b + y) - f1 (e + y)) y := fun y =>
    ((((h1 (a + y)).comp_const_add a y).const_mul (1 - t)).fun_add
      (((h1 (b + y)).comp_const_add b y).const_mul t)).fun_sub ((h1 (e + y)).comp_const_add e y)
  have near : |∫ y in Set.Ioc (0 : ℝ) 40, ((1 - t) * ((f (a + y) - f (a - y)) / y) + t * ((f (b + y) - f (b - y)) / y) -
      (f (e + y) - f (e - y)) / y)| ≤ 40 * (M / 4 * (b - a) ^ 2) := by
    have := norm_setIntegral_le_of_norm_le_const (μ := volume) (s := Set.Ioc (0 : ℝ) 40) (C := M / 4 * (b - a) ^ 2)
      (f := fun y => (1 - t) * ((f (a + y) - f (a - y)) / y) + t * ((f (b + y) - f (b - y)) / y) -
        (f (e + y) - f (e - y)) / y) (by simp) (fun y hy => by
        have hy0 : 0 < y := hy.1
        have hl := lip_of_deriv hδd hδ1 (-y) y
        rw [show |y - -y| = 2 * y by rw [abs_of_pos (by linarith)]; ring] at hl
        simp only [← sub_eq_add_neg] at hl
        rw [Real.norm_eq_abs, show (1 - t) * ((f (a + y) - f (a - y)) / y) + t * ((f (b + y) - f (b - y)) / y) -
          (f (e + y) - f (e - y)) / y = ((1 - t) * f (a + y) + t * f (b + y) - f (e + y) -
            ((1 - t) * f (a - y) + t * f (b - y) - f (e - y))) / y by ring, abs_div, abs_of_pos hy0, div_le_iff₀ hy0]
        linarith)
    rw [Real.norm_eq_abs] at this
    refine this.trans (le_of_eq ?_)
    simp
    ring
  have hi2 : Integrable (fun y => (1 - t) * ((f (a + y) - f (a - y)) / y) + t * ((f (b + y) - f (b - y)) / y))
      (volume.restrict (Set.Ioc 0 40)) := (ia.const_mul _).add (ib.const_mul _)
  rw [integral_sub hi2 ie, integral_add (ia.const_mul _) (ib.const_mul _), integral_const_mul,
    integral_const_mul] at near
  rw [lerp_mix hab, ← ht, ka, kb, ke]
  generalize (∫ y in Set.Ioc (0 : ℝ) 40, (f (a + y) - f (a - y)) / y) = Na at near ⊢
  generalize (∫ y in Set.Ioc (0 : ℝ) 40, (f (b + y) - f (b - y)) / y) = Nb at near ⊢
  generalize (∫ y in Set.Ioc (0 : ℝ) 40, (f (e + y) - f (e - y)) / y) = Ne at near ⊢
  generalize (∫ y in Set.Ioi (40 : ℝ), (f (a + y) - f (a - y)) / y) = Ta at ta ⊢
  generalize (∫ y in Set.Ioi (40 : ℝ), (f (b + y) - f (b - y)) / y) = Tb at tb ⊢
  generalize (∫ y in Set.Ioi (40 : ℝ), (f (e + y) - f (e - y)) / y) = Te at te ⊢
  rw [show (1 - t) * (1 / Real.pi * (Na + Ta)) + t * (1 / Real.pi * (Nb + Tb)) - 1 / Real.pi * (Ne + Te) =
    1 / Real.pi * ((1 - t) * Na + t * Nb - Ne + ((1 - t) * Ta + t * Tb - Te)) by ring, abs_mul,
    abs_of_pos (one_div_pos.2 Real.pi_pos)]
  refine mul_le_mul_of_nonneg_left ?_ (one_div_pos.2 Real.pi_pos).le
  rw [abs_le] at *
  constructor <;> nlinarith [mul_le_mul_of_nonneg_left ta.1 (by linarith : 0 ≤ 1 - t),
    mul_le_mul_of_nonneg_left ta.2 (by linarith : 0 ≤ 1 - t), mul_le_mul_of_nonneg_left tb.1 ht0,
    mul_le_mul_of_nonneg_left tb.2 ht0]

theorem mix_bound {t p q kp kq kx c T A B : ℝ} (ht0 : 0 ≤ t) (ht1 : 0 ≤ 1 - t)
    (h0 : |p - (c + kp)| ≤ T + 1 / 80 * A + 1 / 10 ^ 9 * B) (h1 : |q - (c + kq)| ≤ T + 1 / 80 * A + 1 / 10 ^ 9 * B)
    (h2 : |(1 - t) * kp + t * kq - kx| ≤ 1 / 80 * A + 1 / 10 ^ 9 * B) :
    |(1 - t) * p + t * q - (c + kx)| ≤ T + 1 / 40 * A + 2 / 10 ^ 9 * B := by
  have e : (1 - t) * p + t * q - (c + kx) = (1 - t) * (p - (c + kp)) + t * (q - (c + kq)) +
      ((1 - t) * kp + t * kq - kx) := by ring
  rw [e]
  refine (abs_add_le _ _).trans ?_
  have h3 := abs_add_le ((1 - t) * (p - (c + kp))) (t * (q - (c + kq)))
  rw [abs_mul, abs_mul, abs_of_nonneg ht0, abs_of_nonneg ht1] at h3
  have h4 := mul_le_mul_of_nonneg_left h0 ht1
  have h5 := mul_le_mul_of_nonneg_left h1 ht0
  linarith

/-- C137, partial: at every energy up to 9.98 eV, for Gaussians of widths up to 2 eV centred up to 10 eV, the integral
of the Kramers-Kronig transform exists, and the real part differs from `Einf` plus the transform of the documented
imaginary part by at most 1/450 of the first moment of the absorption about a knot less than a step of the grid away
(in eV², as sampled on the grid), and `|A| / 40 σ³` for each oscillator, and `2·10⁻⁹ |A|`.  Missing: equality
(`C137_fails`). -/
theorem C137_between_partial {osc : List (ℝ × ℝ × ℝ)} {einf : ℝ} {v : ℕ → ℂ} {e : ℝ} {w : ℂ}
    (hosc : ∀ o ∈ osc, 0 < bellWidth o.2.1 ∧ bellWidth o.2.1 ≤ 2 ∧ |o.2.2| ≤ 10)
    (h : ∀ j : ℕ, j < 2048 → gaussEps osc einf (-20 + 40 * j / 2047) = some (v j))
    (he : |e| ≤ 9.98) (hw : gaussEps osc einf e = some w) :
    IntegrableOn (fun y => (absorption osc (e + y) - absorption osc (e - y)) / y) (Set.Ioi 0) ∧
    ∃ n : ℕ, n < 2048 ∧ |-20 + 40 * (n : ℝ) / 2047 - e| ≤ 40 / 2047 ∧
    |w.re - (einf + kkTransform (absorption osc) e)| ≤
      1 / 450 * ∑ m ∈ (Finset.range 2048).filter (fun m => Odd (n + m)),
        80 / 2047 * |(v m).im| * |(-20 + 40 * m / 2047 : ℝ) - (-20 + 40 * n / 2047)| +
      1 / 40 * (osc.map fun o => |o.1| / bellWidth o.2.1 ^ 3).sum + 2 / 10 ^ 9 * (osc.map fun o => |o.1|).sum := by
  obtain ⟨f1, f2, f3, a1, a2, a3, a4, a5⟩ := absorption_tame hosc
  have hA : 0 ≤ (osc.map fun o => |o.1| / bellWidth o.2.1 ^ 3).sum := by
    refine List.sum_nonneg fun x hx => ?_
    obtain ⟨o, ho, rfl⟩ := List.mem_map.1 hx
    have := (hosc o ho).1
    positivity
  have hB : 0 ≤ (osc.map fun o => |o.1|).sum := by
    refine List.sum_nonneg fun x hx => ?_
    obtain ⟨o, ho, rfl⟩ := List.mem_map.1 hx
    positivity
  obtain ⟨he1, he2⟩ := abs_le.1 he
  norm_num at he1 he2
  have he10 : |e| ≤ 10 := he.trans (by norm_num)
  obtain ⟨i1, i2, -⟩ := kk_split a1 (continuous_iff_continuousAt.2 fun x => (a2 x).continuousAt) a5 he10
  refine ⟨by rw [← Set.Ioc_union_Ioi_eq_Ioi (show (0 : ℝ) ≤ 40 by norm_num)]; exact i1.union i2, ?_⟩
  obtain ⟨k, hk⟩ : ∃ k, k = ⌊(e + 20) * 2047 / 40⌋₊ := ⟨_, rfl⟩
  have hk1 : (k : ℝ) ≤ (e + 20) * 2047 / 40 := hk ▸ Nat.floor_le (by linarith)
  have hk2 : (e + 20) * 2047 / 40 < k + 1 := hk ▸ Nat.lt_floor_add_one _
  have hk3 : k + 1 < 2048 := by
    have : (k : ℝ) < 2047 := by linarith
    have : k < 2047 := by exact_mod_cast this
    omega
  have q1 : knot k ≤ e := by unfold knot; linarith
  have q2 : e ≤ knot (k + 1) := by unfold knot; push_cast; linarith
  have q3 : knot (k + 1) - knot k = 40 / 2047 := by unfold knot; push_cast; ring
  have b0 : |knot k| ≤ 10 := by rw [abs_le]; constructor <;> linarith
  have b1 : |knot (k + 1)| ≤ 10 := by rw [abs_le]; constructor <;> linarith
  have hlt : knot k < knot (k + 1) := by linarith
  obtain ⟨e1, e2, g1, -, g3, -⟩ := gaussEps_some hw
  have hre : w.re = lerp (knot k) (v k).re (knot (k + 1)) (v (k + 1)).re e := by
    have hv : ∀ j, j < 2048 → (v j).re = e1 j + einf := fun j hj => by
      obtain ⟨e1', -, g1', -, g3', -⟩ := gaussEps_some (h j hj)
      obtain rfl : e1' = e1 := Option.some.inj (g1'.symm.trans g1)
      have := gridInterp_knot (fun j => e1' j + einf) hj
      exact Option.some.inj (g3'.symm.trans this)
    have := gridInterp_seg (fun j => e1 j + einf) hk3 (e := e) q1 q2
    rw [g3, Option.some.injEq] at this
    rw [this, hv k (by omega), hv (k + 1) hk3]
    rfl
  obtain ⟨-, c0⟩ := C137_close_partial hosc h (n := k) (by omega) (e := knot k) rfl b0
  obtain ⟨-, c1⟩ := C137_close_partial hosc h (n := k + 1) hk3 (e := knot (k + 1)) rfl b1
  have hch := kk_chord a1 a2 a3 a4 a5 b0 b1 hlt q1 q2
  rw [q3] at hch
  obtain ⟨S, hS⟩ : ∃ S : ℕ → ℝ, S = fun n => ∑ m ∈ (Finset.range 2048).filter (fun m => Odd (n + m)),
    80 / 2047 * |(v m).im| * |-20 + 40 * m / 2047 - knot n| := ⟨_, rfl⟩
  have hS' : ∀ n, ∑ m ∈ (Finset.range 2048).filter (fun m => Odd (n + m)),
    80 / 2047 * |(v m).im| * |-20 + 40 * m / 2047 - knot n| = S n := fun n => by rw [hS]
  rw [hS'] at c0 c1
  have hlast : 1 / Real.pi * (40 * (10 * (osc.map fun o => |o.1| / bellWidth o.2.1 ^ 3).sum / 4 * (40 / 2047) ^ 2) +
      2 * Real.exp (-25) * (osc.map fun o => |o.1|).sum / 10) ≤
      1 / 80 * (osc.map fun o => |o.1| / bellWidth o.2.1 ^ 3).sum + 1 / 10 ^ 9 * (osc.map fun o => |o.1|).sum := by
    have hp : 1 / Real.pi ≤ 1 / 3.14 := one_div_le_one_div_of_le (by norm_num) Real.pi_gt_d2.le
    have hx := exp25
    have hE := (Real.exp_pos (-25)).le
    generalize (osc.map fun o => |o.1| / bellWidth o.2.1 ^ 3).sum = A at hA ⊢
    generalize (osc.map fun o => |o.1|).sum = B at hB ⊢
    generalize Real.exp (-25) = E at hx hE ⊢
    have h2 : E * B ≤ 1 / 10 ^ 10 * B := mul_le_mul_of_nonneg_right hx hB
    refine (mul_le_mul_of_nonneg_right hp (by positivity)).trans ?_
    norm_num at h2 ⊢
    nlinarith
  have hch := hch.trans hlast
  have main : ∀ T, S k ≤ T → S (k + 1) ≤ T → |w.re - (einf + kkTransform (absorption osc) e)| ≤ 1 / 450 * T +
      1 / 40 * (osc.map fun o => |o.1| / bellWidth o.2.1 ^ 3).sum + 2 / 10 ^ 9 * (osc.map fun o => |o.1|).sum := by
    intro T hT0 hT1
    rw [lerp_mix hlt] at hch hre
    obtain ⟨t, ht⟩ : ∃ t, t = (e - knot k) / (knot (k + 1) - knot k) := ⟨_, rfl⟩
    have ht0 : 0 ≤ t := by rw [ht]; exact div_nonneg (by linarith) (by linarith)
    have ht1 : 0 ≤ 1 - t := by rw [ht, sub_nonneg, div_le_one (by linarith)]; linarith
    rw [← ht] at hch hre
    rw [hre]
    exact mix_bound ht0 ht1 (c0.trans (by linarith)) (c1.trans (by linarith)) hch
  have hSe : ∀ n, S n = ∑ m ∈ (Finset.range 2048).filter (fun m => Odd (n + m)),
      80 / 2047 * |(v m).im| * |(-20 + 40 * m / 2047 : ℝ) - (-20 + 40 * n / 2047)| := fun n => by rw [hS]; rfl
  rcases le_total (S k) (S (k + 1)) with hle | hle
  · refine ⟨k + 1, hk3, ?_, ?_⟩
    · have : |knot (k + 1) - e| ≤ 40 / 2047 := by rw [abs_le]; constructor <;> linarith
      exact this
    · rw [← hSe]
      exact main _ hle le_rfl
  · refine ⟨k, by omega, ?_, ?_⟩
    · have : |knot k - e| ≤ 40 / 2047 := by rw [abs_le]; constructor <;> linarith
      exact this
    · rw [← hSe]
      exact main _ le_rfl hle

/-- A Gaussian of width 2 eV at 8 eV meets the hypotheses at 3.3 eV, which is not a knot. -/
example : (∀ n : ℕ, (-20 + 40 * n / 2047 : ℝ) ≠ 3.3) ∧
    ∃ (v : ℕ → ℂ) (w : ℂ), (∀ o ∈ [((4 : ℝ), 4 * Real.sqrt (Real.log 2), (8 : ℝ))],
      0 < bellWidth o.2.1 ∧ bellWidth o.2.1 ≤ 2 ∧ |o.2.2| ≤ 10) ∧
    (∀ j : ℕ, j < 2048 → gaussEps [(4, 4 * Real.sqrt (Real.log 2), 8)] 1 (-20 + 40 * j / 2047) = some (v j)) ∧
    |(3.3 : ℝ)| ≤ 9.98 ∧ gaussEps [(4, 4 * Real.sqrt (Real.log 2), 8)] 1 3.3 = some w := by
  have hsq : 0 < Real.sqrt (Real.log 2) := Real.sqrt_pos.mpr (Real.log_pos (by norm_num))
  have hfin := fun e => C54_finite (osc := [((4 : ℝ), 4 * Real.sqrt (Real.log 2), (8 : ℝ))]) 1 e (by
    intro o h
    rw [List.mem_singleton] at h
    subst h
    positivity)
  choose g hg using hfin
  refine ⟨fun n hn => ?_, fun j => g (-20 + 40 * j / 2047), g 3.3, ?_, fun j _ => hg _, by norm_num [abs_of_pos], hg _⟩
  · have : (n : ℝ) * 400 = 233 * 2047 := by linarith
    have : n * 400 = 233 * 2047 := by exact_mod_cast this
    omega
  · intro o h
    rw [List.mem_singleton] at h
    subst h
    simp only [width_two]
    norm_num

end Verif.Disp
