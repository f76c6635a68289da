import Verif.EMA.PropsRules

/-! # Reading the composition off the index (C143) -/

namespace Verif.EMA

/-- Volume fraction of material `b` in a mixture of dielectric constant `e`, solved from the equation of each rule
(`MixEq`). -/
noncomputable def fraction (ema : String) (ea eb e : ℂ) (L : ℝ) : ℂ :=
  if ema = "linear" then (e - ea) / (eb - ea)
  else if ema = "maxwell-garnett" then
    (e - ea) / (ea + L * (e - ea)) * ((ea + L * (eb - ea)) / (eb - ea))
  else (e - ea) * (e + L * (eb - e)) / (e * (eb - ea))

/-- Rules, materials and depolarisation factors for which the composition can be read off: every rule with a
depolarisation factor in range, except `L = 0` for metals under the Bruggeman rule. -/
def Readable (ema : String) (A B : ℂ) (L : ℝ) : Prop :=
  GoodL ema L ∧ (ema = "bruggeman" → 0 < L ∨ (Dielectric A ∧ Dielectric B))

theorem bruggemanE_ne_zero (σ : Bool) {A B : ℂ} (hA : PassiveRi A) (hB : PassiveRi B) {f L : ℝ}
    (hf : 0 ≤ f ∧ f ≤ 1) (hL : 0 ≤ L ∧ L < 1) (h : 0 < L ∨ (Dielectric A ∧ Dielectric B)) :
    bruggemanE σ (A ^ 2) (B ^ 2) f L ≠ 0 := by
  intro h0
  rcases h with h | h
  · have hq := bruggeman_quadratic (ne_of_lt hL.2) (npSqrt_sq σ _) (bruggeman_eq σ (Ea := A ^ 2) (Eb := B ^ 2) (f := f)
      (ne_of_lt hL.2))
    rw [h0] at hq
    have h1 : (L : ℂ) ≠ 0 := by exact_mod_cast h.ne'
    have h2 := (sq_up hA.1 hA.2).ne_zero
    have h3 := (sq_up hB.1 hB.2).ne_zero
    apply mul_ne_zero h1 (mul_ne_zero h2 h3)
    linear_combination -hq
  · have := (bruggemanE_quadrant σ (h.1.sq hA) (h.2.sq hB) hf hL).1
    rw [h0] at this
    simp at this

/-- C143, partial: the volume fraction can be computed back from the mixed index, for any two different passive
materials and any volume fraction between 0 and 1.  Missing: metals under the Bruggeman rule with depolarisation
factor 0 (`C143_fails`), and factor 1 under this rule (`C32_fails_bruggeman_one`). -/
theorem C143_fraction_partial (σ : Bool × Bool) {A B : ℂ} (hA : PassiveRi A) (hB : PassiveRi B) (hAB : A ≠ B) {f : ℝ}
    (hf : 0 ≤ f ∧ f ≤ 1) {ema : String} (he : Known ema) {L : ℝ} (hL : Readable ema A B L) :
    ∃ N, overallRi σ A B f ema L = .ok N ∧ fraction ema (A ^ 2) (B ^ 2) (N ^ 2) L = f := by
  have hd : B ^ 2 - A ^ 2 ≠ 0 := fun h => hAB (hA.ext_sq hB (sub_eq_zero.mp h).symm)
  have ha := sq_up hA.1 hA.2
  have hb := sq_up hB.1 hB.2
  obtain ⟨⟨hL0, hL1, hLb⟩, hr⟩ := hL
  unfold overallRi fraction
  rcases he with rfl | rfl | rfl
  · refine ⟨npSqrt σ.2 (linearE (A ^ 2) (B ^ 2) f), by simp, ?_⟩
    simp only [if_true, npSqrt_sq, linearE]
    rw [div_eq_iff hd]
    ring
  · refine ⟨npSqrt σ.2 (garnettE (A ^ 2) (B ^ 2) f L), by simp, ?_⟩
    have hB := (garnett_bottom_up ha hb hf ⟨hL0, hL1⟩).ne_zero
    have h2 : A ^ 2 + L * (B ^ 2 - A ^ 2) ≠ 0 := by
      have := (garnett_bottom_up ha hb (f := 0) (by norm_num) ⟨hL0, hL1⟩).ne_zero
      simpa using this
    simp only [show ("maxwell-garnett" : String) ≠ "linear" by decide, if_false, if_true, npSqrt_sq, garnett_eq hB]
    have ha0 := ha.ne_zero
    generalize A ^ 2 = ea at *
    generalize hdd : B ^ 2 - ea = d at *
    have hB' : ea + d * L * (1 - f) ≠ 0 := by convert hB using 1; ring
    have h2' : ea + d * L ≠ 0 := by convert h2 using 1; ring
    have h3 : ea * ((ea + (L * (1 - f) + f) * d) / (ea + L * (1 - f) * d)) - ea = ea * f * d / (ea + L * (1 - f) * d) := by
      field_simp
      ring
    rw [h3]
    have h4 : ea + L * (ea * f * d / (ea + L * (1 - f) * d)) = ea * (ea + L * d) / (ea + L * (1 - f) * d) := by
      rw [mul_div_assoc', eq_div_iff hB, add_mul, div_mul_cancel₀ _ hB]
      ring
    rw [h4]
    field_simp
  · have hL' := hLb rfl
    refine ⟨npSqrt σ.2 (bruggemanE σ.1 (A ^ 2) (B ^ 2) f L), by simp, ?_⟩
    have h0 := bruggemanE_ne_zero σ.1 hA hB hf ⟨hL0, hL'⟩ (hr rfl)
    have hq := bruggeman_quadratic (ne_of_lt hL') (npSqrt_sq σ.1 _) (bruggeman_eq σ.1 (Ea := A ^ 2) (Eb := B ^ 2) (f := f)
      (ne_of_lt hL'))
    simp only [show ("bruggeman" : String) ≠ "linear" by decide, show ("bruggeman" : String) ≠ "maxwell-garnett" by decide,
      if_false, npSqrt_sq]
    generalize bruggemanE σ.1 (A ^ 2) (B ^ 2) f L = e at *
    rw [div_eq_iff (mul_ne_zero h0 hd)]
    unfold bruggemanB at hq
    linear_combination hq

/-- C143, partial: so different volume fractions give different indices.  Missing as for `C143_fraction_partial`. -/
theorem C143_distinct_partial (σ τ : Bool × Bool) {A B : ℂ} (hA : PassiveRi A) (hB : PassiveRi B) (hAB : A ≠ B)
    {f g : ℝ} (hf : 0 ≤ f ∧ f ≤ 1) (hg : 0 ≤ g ∧ g ≤ 1) {ema : String} (he : Known ema) {L : ℝ}
    (hL : Readable ema A B L) (h : overallRi σ A B f ema L = overallRi τ A B g ema L) : f = g := by
  obtain ⟨N, h1, h2⟩ := C143_fraction_partial σ hA hB hAB hf he hL
  obtain ⟨M, h3, h4⟩ := C143_fraction_partial τ hA hB hAB hg he hL
  rw [h1, h3, Except.ok.injEq] at h
  rw [h, h4] at h2
  exact_mod_cast h2.symm

/-- Silver in water, at the default depolarisation factor. -/
example (σ τ : Bool × Bool) (h : overallRi σ ⟨0.06, 4⟩ 1.33 0.3 "bruggeman" (1 / 3)
    = overallRi τ ⟨0.06, 4⟩ 1.33 0.4 "bruggeman" (1 / 3)) : False := by
  have := C143_distinct_partial σ τ (A := ⟨0.06, 4⟩) (B := 1.33) ⟨by norm_num, by norm_num⟩
    ⟨by norm_num, by norm_num⟩ (by intro h; have := congrArg Complex.im h; norm_num at this)
    (by norm_num) (by norm_num) (Or.inr (Or.inr rfl)) ⟨⟨by norm_num, by norm_num, by intro; norm_num⟩,
      fun _ => Or.inl (by norm_num)⟩ h
  norm_num at this

/-- C143 is false of the code for metals with depolarisation factor 0 under the Bruggeman rule: over a whole range
of compositions the index is 0. -/
theorem C143_fails (σ : Bool × Bool) {A B : ℂ} (hA : PassiveRi A) (hm : A.re < A.im) :
    ∃ g, 0 < g ∧ g ≤ 1 ∧ ∀ f, 0 ≤ f → f < g → overallRi σ A B f "bruggeman" 0 = .ok 0 := by
  have ha : (A ^ 2).re < 0 := by
    have := hA.1
    simp only [sq, Complex.mul_re]; nlinarith
  obtain ⟨x, hx⟩ : ∃ x, x = (A ^ 2).re := ⟨_, rfl⟩
  obtain ⟨y, hy⟩ : ∃ y, y = (B ^ 2).re := ⟨_, rfl⟩
  rw [← hx] at ha
  have hD : 0 < |y| - x := by linarith [abs_nonneg y]
  refine ⟨-x / (|y| - x), div_pos (by linarith) hD, (div_le_one hD).mpr (by linarith [abs_nonneg y]), fun f h0 h1 => ?_⟩
  rw [lt_div_iff₀ hD] at h1
  refine (C31_fails_bruggeman_zero σ ?_).1
  have : ((1 - f) * A ^ 2 + f * B ^ 2 : ℂ).re = (1 - f) * x + f * y := by
    rw [hx, hy, Complex.add_re, ← Complex.ofReal_one, ← Complex.ofReal_sub, Complex.re_ofReal_mul, Complex.re_ofReal_mul]
  rw [this]
  have := mul_le_mul_of_nonneg_left (le_abs_self y) h0
  nlinarith

example : PassiveRi ⟨0.06, 4⟩ ∧ (⟨0.06, 4⟩ : ℂ).re < (⟨0.06, 4⟩ : ℂ).im := by
  refine ⟨⟨by norm_num, by norm_num⟩, by norm_num⟩

end Verif.EMA
