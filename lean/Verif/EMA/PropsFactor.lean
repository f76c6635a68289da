import Verif.EMA.PropsFraction

/-! # What the depolarisation factor does to a mixture (C154) -/

namespace Verif.EMA

/-- Depolarisation factor of a mixture of dielectric constant `e`, solved from the equation of each rule. -/
noncomputable def factor (ema : String) (ea eb e : ℂ) (f : ℝ) : ℂ :=
  if ema = "maxwell-garnett" then (f * ea / (e - ea) - ea / (eb - ea)) / (1 - f)
  else e * (e - ((1 - f) * ea + f * eb)) / ((e - ea) * (e - eb))

/-- C154, partial: for any two different passive materials, mixed in earnest by a rule which uses the depolarisation
factor, this factor can be computed back from the index.  Missing: the factor 1 under the Bruggeman rule
(`C154_fails_one`), and the linear rule (`C154_fails_linear`). -/
theorem C154_factor_partial (σ : Bool × Bool) {A B : ℂ} (hA : PassiveRi A) (hB : PassiveRi B) (hAB : A ≠ B) {f : ℝ}
    (hf : 0 < f ∧ f < 1) {ema : String} (he : ema = "maxwell-garnett" ∨ ema = "bruggeman") {L : ℝ}
    (hL : GoodL ema L) :
    ∃ N, overallRi σ A B f ema L = .ok N ∧ factor ema (A ^ 2) (B ^ 2) (N ^ 2) f = L := by
  have hd : B ^ 2 - A ^ 2 ≠ 0 := fun h => hAB (hA.ext_sq hB (sub_eq_zero.mp h).symm)
  have ha := sq_up hA.1 hA.2
  have hb := sq_up hB.1 hB.2
  have hf0 : (f : ℂ) ≠ 0 := by exact_mod_cast hf.1.ne'
  have hf1 : (1 - f : ℂ) ≠ 0 := by
    have : (1 - f : ℝ) ≠ 0 := by linarith [hf.2]
    exact_mod_cast this
  obtain ⟨hL0, hL1, hLb⟩ := hL
  unfold overallRi factor
  rcases he with rfl | rfl
  · refine ⟨npSqrt σ.2 (garnettE (A ^ 2) (B ^ 2) f L), by simp, ?_⟩
    have hB := (garnett_bottom_up ha hb ⟨hf.1.le, hf.2.le⟩ ⟨hL0, hL1⟩).ne_zero
    simp only [if_true, npSqrt_sq, garnett_eq hB]
    have ha0 := ha.ne_zero
    generalize A ^ 2 = ea at *
    generalize hdd : B ^ 2 - ea = d at *
    have h3 : ea * ((ea + (L * (1 - f) + f) * d) / (ea + L * (1 - f) * d)) - ea
        = ea * f * d / (ea + L * (1 - f) * d) := by
      rw [eq_div_iff hB, sub_mul, mul_assoc, div_mul_cancel₀ _ hB]
      ring
    rw [h3, div_div_eq_mul_div, div_eq_iff hf1, sub_eq_iff_eq_add, div_eq_iff (by positivity)]
    field_simp
    ring
  · have hL' := hLb rfl
    refine ⟨npSqrt σ.2 (bruggemanE σ.1 (A ^ 2) (B ^ 2) f L), by simp, ?_⟩
    have hq := bruggeman_quadratic (ne_of_lt hL') (npSqrt_sq σ.1 _) (bruggeman_eq σ.1 (Ea := A ^ 2) (Eb := B ^ 2) (f := f)
      (ne_of_lt hL'))
    simp only [show ("bruggeman" : String) ≠ "maxwell-garnett" by decide, if_false, npSqrt_sq]
    have ha0 := ha.ne_zero
    have hb0 := hb.ne_zero
    generalize bruggemanE σ.1 (A ^ 2) (B ^ 2) f L = e at *
    generalize A ^ 2 = ea at *
    generalize B ^ 2 = eb at *
    unfold bruggemanB at hq
    have h1 : e - ea ≠ 0 := fun h => by
      obtain rfl := sub_eq_zero.mp h
      exact mul_ne_zero (mul_ne_zero hf0 ha0) hd (by linear_combination -hq)
    have h2 : e - eb ≠ 0 := fun h => by
      obtain rfl := sub_eq_zero.mp h
      exact mul_ne_zero (mul_ne_zero hf1 hb0) hd (by linear_combination hq)
    rw [div_eq_iff (mul_ne_zero h1 h2)]
    linear_combination hq

/-- Silver in water under the Bruggeman rule, spheres. -/
example (σ : Bool × Bool) : ∃ N, overallRi σ ⟨0.06, 4⟩ 1.33 0.3 "bruggeman" (1 / 3 : ℝ) = .ok N ∧
    factor "bruggeman" (⟨0.06, 4⟩ ^ 2) (1.33 ^ 2) (N ^ 2) 0.3 = ((1 / 3 : ℝ) : ℂ) :=
  C154_factor_partial σ ⟨by norm_num, by norm_num⟩ ⟨by norm_num, by norm_num⟩
    (by intro h; have := congrArg Complex.im h; norm_num at this) (by norm_num) (Or.inr rfl)
    ⟨by norm_num, by norm_num, by intro; norm_num⟩

theorem garR_strictAnti {x y f L M : ℝ} (hx : 0 < x) (hy : 0 < y) (hxy : x ≠ y) (hf : 0 < f ∧ f < 1) (hL : 0 ≤ L)
    (hM : M ≤ 1) (h : L < M) : garR x y f M < garR x y f L := by
  have hb1 := gar_bot_pos hx hy ⟨hf.1.le, hf.2.le⟩ ⟨hL, h.le.trans hM⟩
  have hb2 := gar_bot_pos hx hy ⟨hf.1.le, hf.2.le⟩ ⟨hL.trans h.le, hM⟩
  unfold garR
  refine mul_lt_mul_of_pos_left ?_ hx
  rw [div_lt_div_iff₀ hb2 hb1, ← sub_pos]
  have hd : 0 < (y - x) ^ 2 := by have := sub_ne_zero.mpr (Ne.symm hxy); positivity
  have h1 : 0 < 1 - f := by linarith [hf.2]
  have h2 : 0 < M - L := by linarith
  have : 0 < f * (1 - f) * (M - L) * (y - x) ^ 2 := mul_pos (mul_pos (mul_pos hf.1 h1) h2) hd
  linarith [this, show (x + (L * (1 - f) + f) * (y - x)) * (x + M * (1 - f) * (y - x))
    - (x + (M * (1 - f) + f) * (y - x)) * (x + L * (1 - f) * (y - x))
    = f * (1 - f) * (M - L) * (y - x) ^ 2 by ring]

theorem garR_arith {x y f : ℝ} (hx : 0 < x) : garR x y f 0 = linR x y f := by
  unfold garR linR
  have := hx.ne'
  simp only [zero_mul, zero_add, add_zero]
  field_simp
  ring

theorem garR_harm {x y f : ℝ} (hx : 0 < x) (hy : 0 < y) (hf : 0 ≤ f ∧ f ≤ 1) :
    garR x y f 1 = 1 / ((1 - f) / x + f / y) := by
  have hb := gar_bot_pos hx hy hf (L := 1) (by norm_num)
  have hb' : 0 < (1 - f) * y + f * x := by linarith [hb]
  unfold garR
  have h1 : (1 - f) / x + f / y = ((1 - f) * y + f * x) / (x * y) := by field_simp
  rw [h1, one_div_div]
  rw [show x + 1 * (1 - f) * (y - x) = (1 - f) * y + f * x by ring,
    show x + (1 * (1 - f) + f) * (y - x) = y by ring, mul_div_assoc']

/-- The Bruggeman equation for transparent materials. -/
theorem bruR_root {x y f L : ℝ} (hx : 0 < x) (hy : 0 < y) (hL : 0 ≤ L) (hL1 : L < 1) :
    (1 - L) * bruR x y f L ^ 2 - bB x y f L * bruR x y f L - L * (x * y) = 0 := by
  have h1 : 0 < 1 - L := by linarith
  have hs : Real.sqrt (bB x y f L ^ 2 + 4 * L * (1 - L) * (x * y)) ^ 2
      = bB x y f L ^ 2 + 4 * L * (1 - L) * (x * y) := Real.sq_sqrt (by positivity)
  have he : bruR x y f L * (2 * (1 - L)) = bB x y f L + Real.sqrt (bB x y f L ^ 2 + 4 * L * (1 - L) * (x * y)) := by
    unfold bruR
    rw [div_mul_cancel₀ _ (by positivity)]
  have h4 : 4 * (1 - L) * ((1 - L) * bruR x y f L ^ 2 - bB x y f L * bruR x y f L - L * (x * y)) = 0 := by
    rw [← sub_eq_iff_eq_add'] at he
    rw [← he] at hs
    linear_combination hs
  rcases mul_eq_zero.mp h4 with h | h
  · linarith
  · exact h

/-- The positive root of the Bruggeman equation lies above every positive number at which the quadratic is
negative ... -/
theorem lt_bruR {x y f L e : ℝ} (hx : 0 < x) (hy : 0 < y) (hL : 0 ≤ L) (hL1 : L < 1) (hp : 0 < bruR x y f L)
    (h : (1 - L) * e ^ 2 - bB x y f L * e - L * (x * y) < 0) : e < bruR x y f L := by
  have hr := bruR_root (f := f) hx hy hL hL1
  by_contra hle
  push Not at hle
  have h1 : 0 < 1 - L := by linarith
  have h2 : 0 ≤ L * (x * y) := by positivity
  generalize bruR x y f L = r at *
  generalize bB x y f L = b at *
  have hb : (1 - L) * r - b ≥ 0 := by
    by_contra hn
    push Not at hn
    nlinarith
  nlinarith [mul_nonneg (sub_nonneg.mpr hle) hb, mul_nonneg (sub_nonneg.mpr hle) (mul_pos h1 (hp.trans_le hle)).le]

/-- ... and not above those at which it is not. -/
theorem bruR_le {x y f L e : ℝ} (hx : 0 < x) (hy : 0 < y) (hL : 0 ≤ L) (hL1 : L < 1) (he : 0 < e)
    (hp : 0 < bruR x y f L) (h : 0 ≤ (1 - L) * e ^ 2 - bB x y f L * e - L * (x * y)) : bruR x y f L ≤ e := by
  have hr := bruR_root (f := f) hx hy hL hL1
  by_contra hlt
  push Not at hlt
  have h1 : 0 < 1 - L := by linarith
  have h2 : 0 ≤ L * (x * y) := by positivity
  generalize bruR x y f L = r at *
  generalize bB x y f L = b at *
  have hb : (1 - L) * e - b ≥ 0 := by
    by_contra hn
    push Not at hn
    nlinarith
  nlinarith [mul_nonneg (sub_nonneg.mpr hlt.le) hb, mul_pos (sub_pos.mpr hlt) (mul_pos h1 hp)]

theorem bruR_pos {x y f L : ℝ} (hx : 0 < x) (hy : 0 < y) (hf : 0 ≤ f ∧ f ≤ 1) (hL : 0 ≤ L) (hL1 : L < 1) :
    0 < bruR x y f L := by
  rcases le_total x y with h | h
  · have := bruR_mono (f := 0) hx hy hL hL1 h hf.1
    rw [bruR_zero hx hy hL hL1] at this
    linarith
  · have := bruR_anti (g := 1) hx hy hL hL1 h hf.2
    rw [bruR_one hx hy hL hL1] at this
    linarith

/-- The mixture is strictly between the two materials: the quadratic at `e` splits. -/
theorem bru_split (x y f L e : ℝ) : (1 - L) * e ^ 2 - bB x y f L * e - L * (x * y)
    = e * (e - linR x y f) - L * ((e - x) * (e - y)) := by
  unfold bB linR; ring

theorem bruR_strictAnti {x y f L M : ℝ} (hx : 0 < x) (hy : 0 < y) (hxy : x ≠ y) (hf : 0 < f ∧ f < 1) (hL : 0 ≤ L)
    (hM : M < 1) (h : L < M) : bruR x y f M < bruR x y f L := by
  have hL1 := h.trans hM
  have hpL := bruR_pos hx hy ⟨hf.1.le, hf.2.le⟩ hL hL1
  have hpM := bruR_pos hx hy ⟨hf.1.le, hf.2.le⟩ (hL.trans h.le) hM
  have hrM := bruR_root (f := f) hx hy (hL.trans h.le) hM
  rw [bru_split] at hrM
  refine lt_bruR hx hy hL hL1 hpL ?_
  rw [bru_split]
  have h1 : 0 < 1 - f := by linarith [hf.2]
  have hd : 0 < (y - x) ^ 2 := by have := sub_ne_zero.mpr (Ne.symm hxy); positivity
  -- the mixture is strictly between the materials
  have hs : (bruR x y f M - x) * (bruR x y f M - y) < 0 := by
    generalize bruR x y f M = e at *
    by_contra hn
    push Not at hn
    have hne : (e - x) * (e - y) ≠ 0 := by
      intro h0
      rw [h0] at hrM
      have : e - linR x y f = 0 := by
        rcases mul_eq_zero.mp (by linarith : e * (e - linR x y f) = 0) with h | h
        · linarith
        · exact h
      have he : e = linR x y f := by linarith
      have : (e - x) * (e - y) = -(f * (1 - f) * (y - x) ^ 2) := by rw [he]; unfold linR; ring
      have := mul_pos (mul_pos hf.1 h1) hd
      linarith
    have hp : 0 < (e - x) * (e - y) := lt_of_le_of_ne hn (Ne.symm hne)
    have hM0 : 0 < M := hL.trans_lt h
    -- then e lies on one side of both
    rcases lt_or_ge x e with hx' | hx'
    · have hy' : y < e := by nlinarith
      -- e (e - lin) = M (e-x)(e-y) < (e-x)(e-y)
      have : e * (e - linR x y f) > (e - x) * (e - y) := by
        unfold linR
        have := mul_pos hf.1 (mul_pos hy hx)
        nlinarith [mul_pos hf.1 (mul_pos hx (sub_pos.mpr hy')), mul_pos h1 (mul_pos hy (sub_pos.mpr hx')),
          mul_pos hx (sub_pos.mpr hy'), mul_pos hy (sub_pos.mpr hx')]
      nlinarith
    · have hx'' : e < x := lt_of_le_of_ne hx' (fun h0 => by rw [h0] at hp; simp at hp)
      have hy' : e < y := by nlinarith
      have : e * (e - linR x y f) < 0 := by
        apply mul_neg_of_pos_of_neg hpM
        unfold linR
        nlinarith
      nlinarith [mul_pos hM0 hp]
  have : L * ((bruR x y f M - x) * (bruR x y f M - y)) > M * ((bruR x y f M - x) * (bruR x y f M - y)) :=
    mul_lt_mul_of_neg_right h hs
  linarith

theorem bruR_arith {x y f : ℝ} (hx : 0 < x) (hy : 0 < y) (hf : 0 ≤ f ∧ f ≤ 1) : bruR x y f 0 = linR x y f := by
  unfold bruR bB linR
  have : 0 ≤ x * (1 - f) + y * f := add_nonneg (mul_nonneg hx.le (by linarith [hf.2])) (mul_nonneg hy.le hf.1)
  simp only [sub_zero, mul_zero, zero_mul, add_zero, Real.sqrt_sq this]
  ring

theorem harm_le_bruR {x y f L : ℝ} (hx : 0 < x) (hy : 0 < y) (hf : 0 ≤ f ∧ f ≤ 1) (hL : 0 ≤ L) (hL1 : L < 1) :
    1 / ((1 - f) / x + f / y) ≤ bruR x y f L := by
  have hp := bruR_pos hx hy hf hL hL1
  have hr := bruR_root (f := f) hx hy hL hL1
  have h1 : 0 ≤ 1 - f := by linarith [hf.2]
  have hb : 0 < (1 - f) * y + f * x := by
    rcases h1.lt_or_eq with h | h
    · have := mul_pos h hy
      have := mul_nonneg hf.1 hx.le
      linarith
    · have : f = 1 := by linarith
      rw [this]; linarith
  have h2 : (1 - f) / x + f / y = ((1 - f) * y + f * x) / (x * y) := by field_simp
  rw [h2, one_div_div, div_le_iff₀ hb]
  by_contra hlt
  push Not at hlt
  unfold bB at hr
  generalize bruR x y f L = e at *
  have h3 : 0 < 1 - L := by linarith
  -- (1-L) e (e - (1-f) x - f y) + ... ; the quadratic is negative below the harmonic mean
  have key : (1 - L) * e ^ 2 - (x * (1 - f - L) + y * (f - L)) * e - L * (x * y)
      = -(L * (x * y - e * ((1 - f) * y + f * x))) - (1 - L) * e * ((1 - f) * x + f * y - e) := by ring
  rw [key] at hr
  have h4 : e < (1 - f) * x + f * y := by
    have hc : x * y ≤ ((1 - f) * x + f * y) * ((1 - f) * y + f * x) := by
      nlinarith [mul_nonneg (mul_nonneg hf.1 h1) (sq_nonneg (x - y))]
    by_contra hn
    push Not at hn
    have := mul_le_mul_of_nonneg_right hn hb.le
    linarith
  have := mul_nonneg hL (sub_pos.mpr hlt).le
  have := mul_pos (mul_pos h3 hp) (sub_pos.mpr h4)
  linarith

/-- C154: the index of a mixture of two transparent materials falls strictly as the depolarisation factor grows, and
always lies between the series and the parallel arrangement: the dielectric constant is at most the mean of those of
the two materials and at least their harmonic mean. -/
theorem C154_order (σ τ : Bool × Bool) {a b f L M : ℝ} (ha : 0 < a) (hb : 0 < b) (hab : a ≠ b) (hf : 0 < f ∧ f < 1)
    {ema : String} (he : ema = "maxwell-garnett" ∨ ema = "bruggeman") (hL : GoodL ema L) (hM : GoodL ema M)
    (h : L < M) :
    ∃ N P : ℝ, overallRi σ a b f ema L = .ok (N : ℂ) ∧ overallRi τ a b f ema M = .ok (P : ℂ) ∧ 0 < P ∧ P < N ∧
      N ^ 2 ≤ (1 - f) * a ^ 2 + f * b ^ 2 ∧ 1 / ((1 - f) / a ^ 2 + f / b ^ 2) ≤ P ^ 2 := by
  have hk : Known ema := Or.inr he
  obtain ⟨h1, p1⟩ := overallRi_real σ hk ha hb ⟨hf.1.le, hf.2.le⟩ hL
  obtain ⟨h2, p2⟩ := overallRi_real τ hk ha hb ⟨hf.1.le, hf.2.le⟩ hM
  have ha2 : 0 < a ^ 2 := by positivity
  have hb2 : 0 < b ^ 2 := by positivity
  have hab2 : a ^ 2 ≠ b ^ 2 := fun h => hab ((sq_eq_sq₀ ha.le hb.le).mp h)
  refine ⟨_, _, h1, h2, Real.sqrt_pos.mpr p2, ?_, ?_, ?_⟩
  · apply Real.sqrt_lt_sqrt p2.le
    rcases he with rfl | rfl
    · simpa [mixR] using garR_strictAnti ha2 hb2 hab2 hf hL.1 hM.2.1 h
    · simpa [mixR] using bruR_strictAnti ha2 hb2 hab2 hf hL.1 (hM.2.2 rfl) h
  · rw [Real.sq_sqrt p1.le]
    rcases he with rfl | rfl
    · simp only [mixR, show ("maxwell-garnett" : String) ≠ "linear" by decide, if_false, if_true]
      rw [show (1 - f) * a ^ 2 + f * b ^ 2 = linR (a ^ 2) (b ^ 2) f from rfl, ← garR_arith ha2]
      rcases hL.1.lt_or_eq with h0 | h0
      · exact (garR_strictAnti ha2 hb2 hab2 hf le_rfl hL.2.1 h0).le
      · rw [← h0]
    · simp only [mixR, show ("bruggeman" : String) ≠ "linear" by decide,
        show ("bruggeman" : String) ≠ "maxwell-garnett" by decide, if_false]
      rw [show (1 - f) * a ^ 2 + f * b ^ 2 = linR (a ^ 2) (b ^ 2) f from rfl, ← bruR_arith ha2 hb2 ⟨hf.1.le, hf.2.le⟩]
      rcases hL.1.lt_or_eq with h0 | h0
      · exact (bruR_strictAnti ha2 hb2 hab2 hf le_rfl (hL.2.2 rfl) h0).le
      · rw [← h0]
  · rw [Real.sq_sqrt p2.le]
    rcases he with rfl | rfl
    · simp only [mixR, show ("maxwell-garnett" : String) ≠ "linear" by decide, if_false, if_true]
      rw [← garR_harm ha2 hb2 ⟨hf.1.le, hf.2.le⟩]
      rcases hM.2.1.lt_or_eq with h0 | h0
      · exact (garR_strictAnti ha2 hb2 hab2 hf hM.1 le_rfl h0).le
      · rw [← h0]
    · simp only [mixR, show ("bruggeman" : String) ≠ "linear" by decide,
        show ("bruggeman" : String) ≠ "maxwell-garnett" by decide, if_false]
      exact harm_le_bruR ha2 hb2 ⟨hf.1.le, hf.2.le⟩ hM.1 (hM.2.2 rfl)

/-- Needles against spheres of silica in air. -/
example (σ τ : Bool × Bool) : ∃ N P : ℝ, overallRi σ (1 : ℝ) (1.46 : ℝ) 0.4 "bruggeman" 0.1 = .ok (N : ℂ) ∧
    overallRi τ (1 : ℝ) (1.46 : ℝ) 0.4 "bruggeman" (1 / 3) = .ok (P : ℂ) ∧ P < N := by
  obtain ⟨N, P, h1, h2, -, h3, -⟩ := C154_order σ τ (a := 1) (b := 1.46) (f := 0.4) (L := 0.1) (M := 1 / 3) (by norm_num)
    (by norm_num) (by norm_num) (by norm_num) (Or.inr rfl) ⟨by norm_num, by norm_num, by intro; norm_num⟩
    ⟨by norm_num, by norm_num, by intro; norm_num⟩ (by norm_num)
  exact ⟨N, P, h1, h2, h3⟩

/-- C154 is false of the code for the Bruggeman rule at factor 1: metals are mixed to the same index, 0, with the
factors 0 and 1. -/
theorem C154_fails_one (σ : Bool × Bool) {A B : ℂ} (hA : PassiveRi A) (hm : A.re < A.im) :
    ∃ f, 0 < f ∧ f < 1 ∧ overallRi σ A B f "bruggeman" 0 = overallRi σ A B f "bruggeman" 1 := by
  obtain ⟨g, h0, h1, h⟩ := C143_fails σ (B := B) hA hm
  exact ⟨g / 2, by linarith, by linarith, by
    rw [h (g / 2) (by linarith) (by linarith), C32_fails_bruggeman_one]⟩

example (σ : Bool × Bool) : ∃ f, 0 < f ∧ f < 1 ∧
    overallRi σ ⟨0.06, 4⟩ 1.33 f "bruggeman" 0 = overallRi σ ⟨0.06, 4⟩ 1.33 f "bruggeman" 1 :=
  C154_fails_one σ ⟨by norm_num, by norm_num⟩ (by norm_num)

/-- C154 is false of the linear rule, which ignores the depolarisation factor. -/
theorem C154_fails_linear (σ : Bool × Bool) (A B : ℂ) (f L M : ℝ) :
    overallRi σ A B f "linear" L = overallRi σ A B f "linear" M := by
  simp [overallRi]

end Verif.EMA
