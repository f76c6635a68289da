import Verif.EMA.RealLemmas

/-!
# C24 - C32: effective medium mixing

`σ` ranges over the two possible IEEE signs of zero at each square root.
-/

namespace Verif.EMA

/-! ### C24 / C25: end points -/

/-- C24 (partial): with no solvent the index is the material's own, for every rule.  Missing: for
the Bruggeman rule the real part of `(1-L) A² + L B²` has to be positive (it is not for metals);
`C24_fails_bruggeman` shows the condition is necessary. -/
theorem C24_dry_partial (σ : Bool × Bool) {A B : ℂ} (hA : PassiveRi A) (hB : PassiveRi B)
    {ema : String} (he : Known ema) {L : ℝ} (hL : GoodL ema L)
    (hbr : ema = "bruggeman" → 0 < ((1 - L) * A ^ 2 + L * B ^ 2).re) :
    overallRi σ A B 0 ema L = .ok A := by
  obtain ⟨h0, h1, h2⟩ := hL
  unfold overallRi
  rcases he with rfl | rfl | rfl
  · simp [linearE, npSqrt_of_sq_re_pos _ hA.1]
  · have hne := (garnett_bottom_up (sq_up hA.1 hA.2) (sq_up hB.1 hB.2) (f := 0) (by norm_num)
      ⟨h0, h1⟩).ne_zero
    simp only [show ("maxwell-garnett" : String) ≠ "linear" by decide, if_false, if_true]
    rw [garnett_eq hne]
    simp only [Complex.ofReal_zero, add_zero] at hne ⊢
    rw [div_self hne, mul_one, npSqrt_of_sq_re_pos _ hA.1]
  · simp only [show ("bruggeman" : String) ≠ "linear" by decide,
      show ("bruggeman" : String) ≠ "maxwell-garnett" by decide, if_false, if_true]
    have hL1 := h2 rfl
    rw [bruggeman_of_sq _ hL1.ne (hbr rfl) (bruggeman_D0 _ _ _)]
    have hc : (1 - L : ℂ) ≠ 0 := by exact_mod_cast (by linarith : (1 - L : ℝ) ≠ 0)
    have : (bruggemanB (A ^ 2) (B ^ 2) 0 L + ((1 - L) * A ^ 2 + L * B ^ 2)) / (2 * (1 - L))
        = A ^ 2 := by
      unfold bruggemanB
      push_cast
      field_simp
      ring
    rw [this, npSqrt_of_sq_re_pos _ hA.1]

/-- Gold-like film in water, Maxwell-Garnett; and a dielectric film under Bruggeman. -/
example (σ : Bool × Bool) : overallRi σ ⟨0.2, 3⟩ 1.33 0 "maxwell-garnett" (1 / 3)
    = .ok ⟨0.2, 3⟩ :=
  C24_dry_partial σ ⟨by norm_num, by norm_num⟩ ⟨by norm_num, by norm_num⟩ (by simp [Known])
    (by norm_num [GoodL]) (by simp)

example (σ : Bool × Bool) : overallRi σ ⟨1.5, 0.01⟩ 1.33 0 "bruggeman" (1 / 3)
    = .ok ⟨1.5, 0.01⟩ :=
  C24_dry_partial σ ⟨by norm_num, by norm_num⟩ ⟨by norm_num, by norm_num⟩ (by simp [Known])
    ⟨by norm_num, by norm_num, by norm_num⟩ (by intro; norm_num [sq])

/-- C24 is false of the code for the Bruggeman rule: whenever the real part of `(1-L) A² + L B²` is
negative, a layer containing no solvent at all does *not* keep its index; it gets the unphysical
root `-L B² / (1-L)`. -/
theorem C24_fails_bruggeman (σ : Bool × Bool) {A B : ℂ} {L : ℝ} (hL : 0 ≤ L ∧ L < 1)
    (hneg : ((1 - L) * A ^ 2 + L * B ^ 2).re < 0) :
    ∃ N, overallRi σ A B 0 "bruggeman" L = .ok N ∧ N ≠ A ∧ N ^ 2 = -(L / (1 - L)) * B ^ 2 := by
  have hc : (1 - L : ℂ) ≠ 0 := by exact_mod_cast (by linarith [hL.2] : (1 - L : ℝ) ≠ 0)
  have hv : bruggemanE σ.1 (A ^ 2) (B ^ 2) 0 L = -(L / (1 - L)) * B ^ 2 := by
    rw [bruggeman_of_sq_neg _ hL.2.ne hneg (bruggeman_D0 _ _ _)]
    unfold bruggemanB
    push_cast
    field_simp
    ring
  refine ⟨npSqrt σ.2 (bruggemanE σ.1 (A ^ 2) (B ^ 2) 0 L), by simp [overallRi], ?_, ?_⟩
  · intro h
    have h2 : A ^ 2 = -(L / (1 - L)) * B ^ 2 := by
      rw [← hv, ← npSqrt_sq σ.2 (bruggemanE σ.1 (A ^ 2) (B ^ 2) 0 L), h]
    have h3 : (1 - L) * A ^ 2 + L * B ^ 2 = 0 := by
      rw [h2]; field_simp; ring
    rw [h3] at hneg
    simp at hneg
  · rw [npSqrt_sq, hv]

/-- Concrete case: dry gold-like film (n = 0.2, k = 3) in water, default depolarisation factor. -/
example : ∃ A B : ℂ, PassiveRi A ∧ PassiveRi B ∧ ∀ σ,
    overallRi σ A B 0 "bruggeman" (1 / 3 : ℝ) ≠ .ok A := by
  refine ⟨⟨0.2, 3⟩, ⟨1.33, 0⟩, ⟨by norm_num, by norm_num⟩, ⟨by norm_num, by norm_num⟩, ?_⟩
  intro σ h
  obtain ⟨N, hN, hne, -⟩ := C24_fails_bruggeman σ (A := ⟨0.2, 3⟩) (B := ⟨1.33, 0⟩) (L := 1 / 3)
    ⟨by norm_num, by norm_num⟩ (by norm_num [sq])
  rw [h] at hN
  exact hne (Except.ok.inj hN).symm

/-- C25 (partial): with volume fraction 1 the index is the solvent's, for every rule.  Missing: the
Bruggeman rule needs the real part of `(1-L) B² + L A²` to be positive
(`C25_fails_bruggeman`). -/
theorem C25_wet_partial (σ : Bool × Bool) {A B : ℂ} (hA : PassiveRi A) (hB : PassiveRi B)
    {ema : String} (he : Known ema) {L : ℝ} (hL : GoodL ema L)
    (hbr : ema = "bruggeman" → 0 < ((1 - L) * B ^ 2 + L * A ^ 2).re) :
    overallRi σ A B 1 ema L = .ok B := by
  obtain ⟨h0, h1, h2⟩ := hL
  unfold overallRi
  rcases he with rfl | rfl | rfl
  · simp [linearE, npSqrt_of_sq_re_pos _ hB.1]
  · have hne := (garnett_bottom_up (sq_up hA.1 hA.2) (sq_up hB.1 hB.2) (f := 1) (by norm_num)
      ⟨h0, h1⟩).ne_zero
    have hAne : A ^ 2 ≠ 0 := (sq_up hA.1 hA.2).ne_zero
    simp only [show ("maxwell-garnett" : String) ≠ "linear" by decide, if_false, if_true]
    rw [garnett_eq hne]
    have : A ^ 2 * ((A ^ 2 + (L * (1 - (1 : ℝ)) + (1 : ℝ)) * (B ^ 2 - A ^ 2)) /
        (A ^ 2 + L * (1 - (1 : ℝ)) * (B ^ 2 - A ^ 2))) = B ^ 2 := by
      push_cast
      rw [show A ^ 2 + (L * (1 - 1) + 1) * (B ^ 2 - A ^ 2) = B ^ 2 by ring,
        show A ^ 2 + L * (1 - 1) * (B ^ 2 - A ^ 2) = A ^ 2 by ring, mul_div_cancel₀ _ hAne]
    rw [this, npSqrt_of_sq_re_pos _ hB.1]
  · simp only [show ("bruggeman" : String) ≠ "linear" by decide,
      show ("bruggeman" : String) ≠ "maxwell-garnett" by decide, if_false, if_true]
    have hL1 := h2 rfl
    rw [bruggeman_of_sq _ hL1.ne (hbr rfl) (bruggeman_D1 _ _ _)]
    have hc : (1 - L : ℂ) ≠ 0 := by exact_mod_cast (by linarith : (1 - L : ℝ) ≠ 0)
    have : (bruggemanB (A ^ 2) (B ^ 2) 1 L + ((1 - L) * B ^ 2 + L * A ^ 2)) / (2 * (1 - L))
        = B ^ 2 := by
      unfold bruggemanB
      push_cast
      field_simp
      ring
    rw [this, npSqrt_of_sq_re_pos _ hB.1]

example (σ : Bool × Bool) : overallRi σ ⟨1.5, 0.01⟩ 1.33 1 "bruggeman" (1 / 3) = .ok 1.33 :=
  C25_wet_partial σ ⟨by norm_num, by norm_num⟩ ⟨by norm_num, by norm_num⟩ (by simp [Known])
    ⟨by norm_num, by norm_num, by norm_num⟩ (by intro; norm_num [sq])

/-- C25 is false of the code for the Bruggeman rule when the real part of `(1-L) B² + L A²` is
negative: the result solves `N² = -L A² / (1-L)`. -/
theorem C25_fails_bruggeman (σ : Bool × Bool) {A B : ℂ} {L : ℝ} (hL : 0 ≤ L ∧ L < 1)
    (hneg : ((1 - L) * B ^ 2 + L * A ^ 2).re < 0) :
    ∃ N, overallRi σ A B 1 "bruggeman" L = .ok N ∧ N ≠ B ∧ N ^ 2 = -(L / (1 - L)) * A ^ 2 := by
  have hc : (1 - L : ℂ) ≠ 0 := by exact_mod_cast (by linarith [hL.2] : (1 - L : ℝ) ≠ 0)
  have hv : bruggemanE σ.1 (A ^ 2) (B ^ 2) 1 L = -(L / (1 - L)) * A ^ 2 := by
    rw [bruggeman_of_sq_neg _ hL.2.ne hneg (bruggeman_D1 _ _ _)]
    unfold bruggemanB
    push_cast
    field_simp
    ring
  refine ⟨npSqrt σ.2 (bruggemanE σ.1 (A ^ 2) (B ^ 2) 1 L), by simp [overallRi], ?_, ?_⟩
  · intro h
    have h2 : B ^ 2 = -(L / (1 - L)) * A ^ 2 := by
      rw [← hv, ← npSqrt_sq σ.2 (bruggemanE σ.1 (A ^ 2) (B ^ 2) 1 L), h]
    have h3 : (1 - L) * B ^ 2 + L * A ^ 2 = 0 := by
      rw [h2]; field_simp; ring
    rw [h3] at hneg
    simp at hneg
  · rw [npSqrt_sq, hv]

example : ((1 - (1 / 3 : ℝ)) * (⟨0.2, 3⟩ : ℂ) ^ 2 + (1 / 3 : ℝ) * (1.33 : ℂ) ^ 2).re < 0 := by
  norm_num [sq]

/-! ### C26: self mixing -/

/-- C26 (partial): mixing a material with itself leaves it unchanged.  Missing: the Bruggeman rule
needs `k < n` (`C26_fails_bruggeman`).  For the Maxwell-Garnett and linear rules any `n > 0`. -/
theorem C26_self_partial (σ : Bool × Bool) {A : ℂ} (hA : 0 < A.re) {ema : String}
    (he : Known ema) (f : ℝ) {L : ℝ} (hL : ema = "bruggeman" → L ≠ 1)
    (hbr : ema = "bruggeman" → |A.im| < A.re) :
    overallRi σ A A f ema L = .ok A := by
  unfold overallRi
  have hAne : A ^ 2 ≠ 0 := by
    intro h
    have : A = 0 := by simpa using h
    rw [this] at hA; simp at hA
  rcases he with rfl | rfl | rfl
  · have : linearE (A ^ 2) (A ^ 2) f = A ^ 2 := by unfold linearE; ring
    simp [this, npSqrt_of_sq_re_pos _ hA]
  · simp only [show ("maxwell-garnett" : String) ≠ "linear" by decide, if_false, if_true]
    rw [garnett_eq (by simpa using hAne)]
    simp only [sub_self, mul_zero, add_zero]
    rw [div_self hAne, mul_one, npSqrt_of_sq_re_pos _ hA]
  · simp only [show ("bruggeman" : String) ≠ "linear" by decide,
      show ("bruggeman" : String) ≠ "maxwell-garnett" by decide, if_false, if_true]
    have hre : 0 < (A ^ 2).re := by
      have := sq_lt_sq' (by linarith [hbr rfl, abs_nonneg A.im]) (hbr rfl)
      rw [sq_abs] at this
      simp only [sq, Complex.mul_re] at this ⊢
      linarith
    rw [bruggeman_of_sq _ (hL rfl) hre (bruggeman_Dself _ _ _)]
    have hc : (1 - L : ℂ) ≠ 0 := by
      exact_mod_cast (sub_ne_zero.mpr (Ne.symm (hL rfl)) : (1 - L : ℝ) ≠ 0)
    have : (bruggemanB (A ^ 2) (A ^ 2) f L + A ^ 2) / (2 * (1 - L)) = A ^ 2 := by
      unfold bruggemanB
      field_simp
      ring
    rw [this, npSqrt_of_sq_re_pos _ hA]

example (σ : Bool × Bool) : overallRi σ ⟨1.5, 0.01⟩ ⟨1.5, 0.01⟩ 0.3 "bruggeman" (1 / 3)
    = .ok ⟨1.5, 0.01⟩ :=
  C26_self_partial σ (by norm_num) (by simp [Known]) _ (by norm_num)
    (by intro; norm_num [abs_of_pos])

/-- C26 is false of the code for the Bruggeman rule and any material with `n < k`. -/
theorem C26_fails_bruggeman (σ : Bool × Bool) {A : ℂ} (hA : 0 < A.re) (hk : A.re < A.im) (f : ℝ)
    {L : ℝ} (hL : L ≠ 1) : overallRi σ A A f "bruggeman" L ≠ .ok A := by
  have hre : (A ^ 2).re < 0 := by
    simp only [sq, Complex.mul_re]; nlinarith
  have hc : (1 - L : ℂ) ≠ 0 := by
    exact_mod_cast (sub_ne_zero.mpr (Ne.symm hL) : (1 - L : ℝ) ≠ 0)
  intro h
  have hv := bruggeman_of_sq_neg σ.1 hL hre (bruggeman_Dself (A ^ 2) f L)
  have h1 : npSqrt σ.2 (bruggemanE σ.1 (A ^ 2) (A ^ 2) f L) = A := by
    simpa [overallRi] using h
  have h2 : bruggemanE σ.1 (A ^ 2) (A ^ 2) f L = A ^ 2 := by
    rw [← npSqrt_sq σ.2 (bruggemanE σ.1 (A ^ 2) (A ^ 2) f L), h1]
  rw [hv] at h2
  unfold bruggemanB at h2
  have hAne : A ^ 2 ≠ 0 := by
    intro h; rw [h] at hre; simp at hre
  have h3 : A ^ 2 * (-2 * L) = A ^ 2 * (2 * (1 - L)) := by
    field_simp at h2
    linear_combination h2
  have h4 := mul_left_cancel₀ hAne h3
  have : (2 : ℂ) = 0 := by linear_combination -h4
  norm_num at this

example : (0 : ℝ) < (⟨0.2, 3⟩ : ℂ).re ∧ (⟨0.2, 3⟩ : ℂ).re < (⟨0.2, 3⟩ : ℂ).im := by norm_num

/-! ### C27: symmetry -/

/-- C27: exchanging the materials and the volume fraction does not change linear or Bruggeman
mixing, for any complex indices and any real `f`, `L`. -/
theorem C27_symmetric (σ : Bool × Bool) (A B : ℂ) (f L : ℝ) {ema : String}
    (he : ema = "linear" ∨ ema = "bruggeman") :
    overallRi σ A B f ema L = overallRi σ B A (1 - f) ema L := by
  unfold overallRi
  rcases he with rfl | rfl
  · have : linearE (A ^ 2) (B ^ 2) f = linearE (B ^ 2) (A ^ 2) (1 - f) := by
      unfold linearE; push_cast; ring
    simp [this]
  · have h1 : bruggemanB (A ^ 2) (B ^ 2) f L = bruggemanB (B ^ 2) (A ^ 2) (1 - f) L := by
      unfold bruggemanB; push_cast; ring
    have h2 : bruggemanD (A ^ 2) (B ^ 2) f L = bruggemanD (B ^ 2) (A ^ 2) (1 - f) L := by
      unfold bruggemanD; rw [h1]; ring
    have h3 : bruggemanE σ.1 (A ^ 2) (B ^ 2) f L = bruggemanE σ.1 (B ^ 2) (A ^ 2) (1 - f) L := by
      unfold bruggemanE; rw [h1, h2]
    simp [h3]

/-- The Maxwell-Garnett rule is not symmetric, so C27 does not extend to it: exchanging the
materials (indices 1 and 2, half each, `L = 1`) changes the value. -/
theorem C27_garnett_not_symmetric :
    ∃ (A B : ℂ) (f L : ℝ), PassiveRi A ∧ PassiveRi B ∧ 0 ≤ f ∧ f ≤ 1 ∧ 0 ≤ L ∧ L < 1 ∧
      ∀ σ τ, overallRi σ A B f "maxwell-garnett" L
        ≠ overallRi τ B A (1 - f) "maxwell-garnett" L := by
  refine ⟨1, 2, 1 / 2, 1 / 2, ⟨by norm_num, by norm_num⟩, ⟨by norm_num, by norm_num⟩,
    by norm_num, by norm_num, by norm_num, by norm_num, ?_⟩
  intro σ τ h
  simp only [overallRi, show ("maxwell-garnett" : String) ≠ "linear" by decide, if_false,
    if_true, Except.ok.injEq] at h
  have h2 := congrArg (· ^ 2) h
  simp only [npSqrt_sq] at h2
  rw [garnett_eq (by push_cast; norm_num), garnett_eq (by push_cast; norm_num)] at h2
  push_cast at h2
  norm_num at h2

/-! ### C28: Bruggeman equation -/

/-- C28: the square of the returned index solves the Bruggeman equation. -/
theorem C28_bruggeman_equation (σ : Bool × Bool) (A B : ℂ) (f : ℝ) {L : ℝ} (hL : L ≠ 1) :
    ∃ N, overallRi σ A B f "bruggeman" L = .ok N ∧
      (N ^ 2 + L * (A ^ 2 - N ^ 2) ≠ 0 → N ^ 2 + L * (B ^ 2 - N ^ 2) ≠ 0 →
        BruggemanEq (A ^ 2) (B ^ 2) f L (N ^ 2)) := by
  refine ⟨npSqrt σ.2 (bruggemanE σ.1 (A ^ 2) (B ^ 2) f L), by simp [overallRi], ?_⟩
  rw [npSqrt_sq]
  intro h1 h2
  have hq := bruggeman_quadratic hL (npSqrt_sq σ.1 _) (bruggeman_eq σ.1 (Ea := A ^ 2)
    (Eb := B ^ 2) (f := f) hL)
  set e := bruggemanE σ.1 (A ^ 2) (B ^ 2) f L
  unfold BruggemanEq
  unfold bruggemanB at hq
  rw [mul_div_assoc', mul_div_assoc', div_add_div _ _ h1 h2, div_eq_zero_iff]
  left
  linear_combination -hq

/-- The denominators do not vanish for, e.g., two transparent materials and `0 ≤ L < 1`. -/
example (σ : Bool × Bool) : ∃ N, overallRi σ 1 2 (1 / 2) "bruggeman" (0 : ℝ) = .ok N ∧
    BruggemanEq (1 ^ 2) (2 ^ 2) (1 / 2) 0 (N ^ 2) := by
  obtain ⟨N, hN, h⟩ := C28_bruggeman_equation σ 1 2 (1 / 2) (L := 0) (by norm_num)
  obtain ⟨h1, h2⟩ := overallRi_real σ (a := 1) (b := 2) (f := 1 / 2) (L := 0)
    (ema := "bruggeman") (by simp [Known]) (by norm_num) (by norm_num) (by norm_num)
    ⟨by norm_num, by norm_num, by norm_num⟩
  have hN2 : N ≠ 0 := by
    push_cast at h1
    rw [hN] at h1
    rw [Except.ok.inj h1]
    have := Real.sqrt_pos.mpr h2
    exact_mod_cast this.ne'
  refine ⟨N, hN, h ?_ ?_⟩ <;> simpa using hN2

/-! ### C29: bounds and monotonicity for transparent materials -/

/-- C29: mixing transparent materials gives a real index between the two. -/
theorem C29_between (σ : Bool × Bool) {a b : ℝ} (ha : 0 < a) (hb : 0 < b) {f : ℝ}
    (hf : 0 ≤ f ∧ f ≤ 1) {ema : String} (he : Known ema) {L : ℝ} (hL : GoodL ema L) :
    ∃ n : ℝ, overallRi σ a b f ema L = .ok (n : ℂ) ∧ min a b ≤ n ∧ n ≤ max a b := by
  obtain ⟨h1, h2⟩ := overallRi_real σ he ha hb hf hL
  refine ⟨_, h1, ?_⟩
  have ha2 : 0 < a ^ 2 := by positivity
  have hb2 : 0 < b ^ 2 := by positivity
  rcases le_total a b with h | h
  · have hs : a ^ 2 ≤ b ^ 2 := by gcongr
    have l1 := mixR_mono (f := 0) he ha2 hb2 (by norm_num) hf hL hs hf.1
    have l2 := mixR_mono (g := 1) he ha2 hb2 hf (by norm_num) hL hs hf.2
    rw [mixR_zero he ha2 hb2 hL] at l1
    rw [mixR_one he ha2 hb2 hL] at l2
    rw [min_eq_left h, max_eq_right h]
    exact ⟨Real.le_sqrt_of_sq_le l1, Real.sqrt_le_iff.mpr ⟨hb.le, l2⟩⟩
  · have hs : b ^ 2 ≤ a ^ 2 := by gcongr
    have l1 := mixR_anti (f := 0) he ha2 hb2 (by norm_num) hf hL hs hf.1
    have l2 := mixR_anti (g := 1) he ha2 hb2 hf (by norm_num) hL hs hf.2
    rw [mixR_zero he ha2 hb2 hL] at l1
    rw [mixR_one he ha2 hb2 hL] at l2
    rw [min_eq_right h, max_eq_left h]
    exact ⟨Real.le_sqrt_of_sq_le l2, Real.sqrt_le_iff.mpr ⟨ha.le, l1⟩⟩

/-- C29: more solvent moves the index towards the solvent's index, for every rule. -/
theorem C29_monotone (σ τ : Bool × Bool) {a b : ℝ} (ha : 0 < a) (hb : 0 < b) {f g : ℝ}
    (hf : 0 ≤ f) (hfg : f ≤ g) (hg : g ≤ 1) {ema : String} (he : Known ema) {L : ℝ}
    (hL : GoodL ema L) :
    ∃ m n : ℝ, overallRi σ a b f ema L = .ok (m : ℂ) ∧ overallRi τ a b g ema L = .ok (n : ℂ) ∧
      (a ≤ b → m ≤ n) ∧ (b ≤ a → n ≤ m) := by
  obtain ⟨h1, -⟩ := overallRi_real σ he ha hb ⟨hf, hfg.trans hg⟩ hL
  obtain ⟨h2, -⟩ := overallRi_real τ he ha hb ⟨hf.trans hfg, hg⟩ hL
  refine ⟨_, _, h1, h2, ?_, ?_⟩
  · intro h
    have hs : a ^ 2 ≤ b ^ 2 := by gcongr
    exact Real.sqrt_le_sqrt (mixR_mono he (by positivity) (by positivity) ⟨hf, hfg.trans hg⟩
      ⟨hf.trans hfg, hg⟩ hL hs hfg)
  · intro h
    have hs : b ^ 2 ≤ a ^ 2 := by gcongr
    exact Real.sqrt_le_sqrt (mixR_anti he (by positivity) (by positivity) ⟨hf, hfg.trans hg⟩
      ⟨hf.trans hfg, hg⟩ hL hs hfg)

example : Known "bruggeman" ∧ GoodL "bruggeman" (1 / 3) ∧ Known "maxwell-garnett" ∧
    GoodL "maxwell-garnett" 1 := by
  refine ⟨by simp [Known], ⟨by norm_num, by norm_num, by norm_num⟩, by simp [Known],
    ⟨by norm_num, by norm_num, by simp⟩⟩

/-! ### C30: passivity -/

/-- C30 (partial): mixing two passive materials gives a passive material.  Missing: under the
Bruggeman rule both materials need `k < n` (`C30_fails_bruggeman` shows that metals can produce
gain). -/
theorem C30_passive_partial (σ : Bool × Bool) {A B : ℂ} (hA : PassiveRi A) (hB : PassiveRi B)
    {f : ℝ} (hf : 0 ≤ f ∧ f ≤ 1) {ema : String} (he : Known ema) {L : ℝ} (hL : GoodL ema L)
    (hbr : ema = "bruggeman" → A.im < A.re ∧ B.im < B.re) :
    ∃ N, overallRi σ A B f ema L = .ok N ∧ PassiveRi N := by
  obtain ⟨h0, h1, h2⟩ := hL
  have ha := sq_up hA.1 hA.2
  have hb := sq_up hB.1 hB.2
  unfold overallRi
  rcases he with rfl | rfl | rfl
  · refine ⟨_, by simp; rfl, npSqrt_up _ ?_⟩
    have : linearE (A ^ 2) (B ^ 2) f = ((1 - f : ℝ) : ℂ) * A ^ 2 + f * B ^ 2 := by
      unfold linearE; push_cast; ring
    rw [this]
    exact ha.comb hb (by linarith [hf.2]) hf.1 (by linarith)
  · refine ⟨_, by simp; rfl, npSqrt_up _ (garnett_up ha hb hf ⟨h0, h1⟩)⟩
  · refine ⟨_, by simp; rfl, npSqrt_up _ ?_⟩
    have hreA : 0 < (A ^ 2).re := by
      have := (hbr rfl).1
      have := hA.1
      have := hA.2
      simp only [sq, Complex.mul_re]; nlinarith
    have hreB : 0 < (B ^ 2).re := by
      have := (hbr rfl).2
      have := hB.1
      have := hB.2
      simp only [sq, Complex.mul_re]; nlinarith
    have hL1 := h2 rfl
    rcases h0.lt_or_eq with h | h
    · obtain ⟨t, p, q, ht, hp, hq, hpq, e⟩ := bruggeman_first_quadrant σ.1
        ⟨hreA, ha.im_nonneg⟩ ⟨hreB, hb.im_nonneg⟩ hf ⟨h, hL1⟩
      rw [e]
      have e2 : (t : ℂ) * (p * A ^ 2 + q * B ^ 2)
          = ((t * p : ℝ) : ℂ) * A ^ 2 + ((t * q : ℝ) : ℂ) * B ^ 2 := by push_cast; ring
      rw [e2]
      refine ha.comb hb (by positivity) (by positivity) ?_
      rw [← mul_add]; positivity
    · subst h
      have e : (1 - f : ℂ) * A ^ 2 + f * B ^ 2 = ((1 - f : ℝ) : ℂ) * A ^ 2 + f * B ^ 2 := by
        push_cast; ring
      have hup : Up (((1 - f : ℝ) : ℂ) * A ^ 2 + f * B ^ 2) :=
        ha.comb hb (by linarith [hf.2]) hf.1 (by linarith)
      have hre : 0 < ((1 - f : ℂ) * A ^ 2 + f * B ^ 2).re := by
        rw [e, Complex.add_re, Complex.re_ofReal_mul, Complex.re_ofReal_mul]
        rcases hf.1.lt_or_eq with h | h
        · have := mul_pos h hreB
          have := mul_nonneg (by linarith [hf.2] : 0 ≤ 1 - f) hreA.le
          linarith
        · rw [← h]; simpa using hreA
      rw [bruggeman_of_sq _ (by norm_num) hre (bruggeman_DL0 _ _ _)]
      have : (bruggemanB (A ^ 2) (B ^ 2) f 0 + ((1 - f) * A ^ 2 + f * B ^ 2))
          / (2 * (1 - (0 : ℝ))) = ((1 - f : ℝ) : ℂ) * A ^ 2 + f * B ^ 2 := by
        unfold bruggemanB
        push_cast
        ring
      rw [this]
      exact hup

example (σ : Bool × Bool) : ∃ N, overallRi σ ⟨1.6, 0.5⟩ ⟨1.4, 0.1⟩ 0.3 "bruggeman" (1 / 3 : ℝ)
    = .ok N ∧ PassiveRi N :=
  C30_passive_partial σ ⟨by norm_num, by norm_num⟩ ⟨by norm_num, by norm_num⟩ (by norm_num)
    (by simp [Known]) ⟨by norm_num, by norm_num, by norm_num⟩ (by intro; norm_num)

/-- C30 is false of the code for the Bruggeman rule: two passive materials can give an index with
`k < 0` (an amplifying layer), here even at volume fraction 0. -/
theorem C30_fails_bruggeman : ∃ (A B : ℂ) (f L : ℝ), PassiveRi A ∧ PassiveRi B ∧
    (0 ≤ f ∧ f ≤ 1) ∧ (0 ≤ L ∧ L < 1) ∧
    ∀ σ, ∃ N, overallRi σ A B f "bruggeman" L = .ok N ∧ N.im < 0 := by
  refine ⟨⟨1, 2⟩, ⟨1, 1 / 2⟩, 0, 1 / 2, ⟨by norm_num, by norm_num⟩, ⟨by norm_num, by norm_num⟩,
    by norm_num, by norm_num, ?_⟩
  intro σ
  obtain ⟨N, hN, -, hsq⟩ := C24_fails_bruggeman σ (A := ⟨1, 2⟩) (B := ⟨1, 1 / 2⟩) (L := 1 / 2)
    ⟨by norm_num, by norm_num⟩ (by norm_num [sq])
  refine ⟨N, hN, ?_⟩
  have hre : 0 ≤ N.re := by
    have : N = npSqrt σ.2 (bruggemanE σ.1 ((⟨1, 2⟩ : ℂ) ^ 2) (⟨1, 1 / 2⟩ ^ 2) 0 (1 / 2)) := by
      simpa [overallRi] using hN.symm
    rw [this]; exact npSqrt_re_nonneg _ _
  have him := congrArg Complex.im hsq
  have : (-(((1 / 2 : ℝ) : ℂ) / (1 - ((1 / 2 : ℝ) : ℂ))) * (⟨1, 1 / 2⟩ : ℂ) ^ 2).im = -1 := by
    have : (((1 / 2 : ℝ) : ℂ) / (1 - ((1 / 2 : ℝ) : ℂ))) = 1 := by push_cast; norm_num
    rw [this]; norm_num [sq]
  rw [this] at him
  simp only [sq, Complex.mul_im] at him
  by_contra hc
  push Not at hc
  have := mul_nonneg hre hc
  linarith

/-! ### C31: limiting depolarisation factors -/

/-- C31: `L = 0` turns Maxwell-Garnett into linear mixing. -/
theorem C31_garnett_zero (σ : Bool × Bool) {A : ℂ} (hA : A ≠ 0) (B : ℂ) (f : ℝ) :
    overallRi σ A B f "maxwell-garnett" 0 = overallRi σ A B f "linear" 0 := by
  have h : A ^ 2 ≠ 0 := pow_ne_zero 2 hA
  have : garnettE (A ^ 2) (B ^ 2) f 0 = linearE (A ^ 2) (B ^ 2) f := by
    rw [garnett_eq (by simpa using h)]
    unfold linearE
    push_cast
    rw [show A ^ 2 + 0 * (1 - (f : ℂ)) * (B ^ 2 - A ^ 2) = A ^ 2 by ring, mul_div_cancel₀ _ h]
    ring
  simp [overallRi, this]

/-- C31 (partial): `L = 0` turns Bruggeman into linear mixing.  Missing: the linear mixture has to
have a positive real dielectric constant; otherwise `C31_fails_bruggeman_zero`. -/
theorem C31_bruggeman_zero_partial (σ : Bool × Bool) {A B : ℂ} {f : ℝ}
    (hre : 0 < ((1 - f) * A ^ 2 + f * B ^ 2).re) :
    overallRi σ A B f "bruggeman" 0 = overallRi σ A B f "linear" 0 := by
  have : bruggemanE σ.1 (A ^ 2) (B ^ 2) f 0 = linearE (A ^ 2) (B ^ 2) f := by
    rw [bruggeman_of_sq _ (by norm_num) hre (bruggeman_DL0 _ _ _)]
    unfold bruggemanB linearE
    push_cast
    ring
  simp [overallRi, this]

example : 0 < ((1 - (0.3 : ℝ)) * (1.5 : ℂ) ^ 2 + (0.3 : ℝ) * (1.33 : ℂ) ^ 2).re := by
  norm_num [sq]

/-- With a negative real part the Bruggeman rule at `L = 0` returns index 0. -/
theorem C31_fails_bruggeman_zero (σ : Bool × Bool) {A B : ℂ} {f : ℝ}
    (hre : ((1 - f) * A ^ 2 + f * B ^ 2).re < 0) :
    overallRi σ A B f "bruggeman" 0 = .ok 0 ∧ overallRi σ A B f "linear" 0 ≠ .ok 0 := by
  constructor
  · have : bruggemanE σ.1 (A ^ 2) (B ^ 2) f 0 = 0 := by
      rw [bruggeman_of_sq_neg _ (by norm_num) hre (bruggeman_DL0 _ _ _)]
      unfold bruggemanB
      push_cast
      ring
    have h0 : npSqrt σ.2 0 = 0 := by simpa using npSqrt_sq σ.2 0
    simp [overallRi, this, h0]
  · intro h
    have h1 : npSqrt σ.2 (linearE (A ^ 2) (B ^ 2) f) = 0 := by simpa [overallRi] using h
    have h2 := npSqrt_sq σ.2 (linearE (A ^ 2) (B ^ 2) f)
    rw [h1] at h2
    unfold linearE at h2
    rw [← h2] at hre
    simp at hre

example : ((1 - (0.1 : ℝ)) * (⟨0.2, 3⟩ : ℂ) ^ 2 + (0.1 : ℝ) * (1.33 : ℂ) ^ 2).re < 0 := by
  norm_num [sq]

/-- C31: `L = 1` turns Maxwell-Garnett into the harmonic (layers in series) mixture
`1/e = (1-f)/ea + f/eb`. -/
theorem C31_garnett_one (σ : Bool × Bool) {A B : ℂ} (hA : PassiveRi A) (hB : PassiveRi B) {f : ℝ}
    (hf : 0 ≤ f ∧ f ≤ 1) :
    ∃ N, overallRi σ A B f "maxwell-garnett" 1 = .ok N ∧ N ≠ 0 ∧
      1 / N ^ 2 = (1 - f) / A ^ 2 + f / B ^ 2 := by
  have ha := sq_up hA.1 hA.2
  have hb := sq_up hB.1 hB.2
  have hne := (garnett_bottom_up ha hb hf (L := 1) (by norm_num)).ne_zero
  have hA0 := ha.ne_zero
  have hB0 := hb.ne_zero
  have hup := garnett_up ha hb hf (L := 1) (by norm_num)
  refine ⟨npSqrt σ.2 (garnettE (A ^ 2) (B ^ 2) f 1), by simp [overallRi], ?_, ?_⟩
  · intro h
    have := npSqrt_sq σ.2 (garnettE (A ^ 2) (B ^ 2) f 1)
    rw [h] at this
    exact hup.ne_zero (by simpa using this.symm)
  · rw [npSqrt_sq, garnett_eq hne]
    push_cast at hne ⊢
    have e1 : A ^ 2 + (1 * (1 - (f : ℂ)) + f) * (B ^ 2 - A ^ 2) = B ^ 2 := by ring
    rw [e1]
    have hA1 : A ≠ 0 := by simpa using hA0
    have hB1 : B ≠ 0 := by simpa using hB0
    field_simp
    ring

example : PassiveRi ⟨0.2, 3⟩ ∧ PassiveRi ⟨1.33, 0⟩ := by
  constructor <;> constructor <;> norm_num

/-! ### C32: usable index for admissible depolarisation factors -/

/-- C32 (partial): for transparent materials, the mixed index is non-zero for every depolarisation
factor accepted by the setter (`[0, 1]`).  Missing: the Bruggeman rule at `L = 1`, where
`C32_fails_bruggeman_one`. -/
theorem C32_usable_partial (σ : Bool × Bool) {a b : ℝ} (ha : 0 < a) (hb : 0 < b) {f : ℝ}
    (hf : 0 ≤ f ∧ f ≤ 1) {ema : String} (he : Known ema) {L : ℝ} (hL : GoodL ema L) :
    ∃ N : ℂ, overallRi σ a b f ema L = .ok N ∧ N ≠ 0 := by
  obtain ⟨n, h1, h2, -⟩ := C29_between σ ha hb hf he hL
  refine ⟨n, h1, ?_⟩
  have : 0 < n := (lt_min ha hb).trans_le h2
  exact_mod_cast this.ne'

/-- C32 is false of the code for the Bruggeman rule at the admissible value `L = 1`: every pair of
materials is mixed to index 0. -/
theorem C32_fails_bruggeman_one (σ : Bool × Bool) (A B : ℂ) (f : ℝ) :
    overallRi σ A B f "bruggeman" 1 = .ok 0 := by
  have : bruggemanE σ.1 (A ^ 2) (B ^ 2) f 1 = 0 := by
    unfold bruggemanE
    simp [cdiv_zero]
  have h0 : npSqrt σ.2 0 = 0 := by simpa using npSqrt_sq σ.2 0
  simp [overallRi, this, h0]

/-- C32: `overall_ri` raises exactly for unknown rule names, and then a `RuntimeError`. -/
theorem C32_unknown_rule (σ : Bool × Bool) (A B : ℂ) (f : ℝ) (ema : String) (L : ℝ) :
    (overallRi σ A B f ema L = .error .runtimeError ↔ ¬ Known ema) ∧
    (Known ema → ∃ N, overallRi σ A B f ema L = .ok N) := by
  unfold overallRi Known
  by_cases h1 : ema = "linear"
  · simp [h1]
  by_cases h2 : ema = "maxwell-garnett"
  · simp [h2]
  by_cases h3 : ema = "bruggeman"
  · simp [h3]
  simp [h1, h2, h3]

example : ¬ Known "lorentz-lorenz" := by simp [Known]

end Verif.EMA
