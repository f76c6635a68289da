import Verif.EMA.PropsRules
import Mathlib.Analysis.SpecialFunctions.Pow.Continuity

/-! # Mixtures change gradually with their composition (C144) -/

namespace Verif.EMA

open Filter Topology

theorem Up.slit {z : ℂ} (h : Up z) : z ∈ Complex.slitPlane := by
  rcases h with h | h
  · exact Or.inr h.ne'
  · exact Or.inl h.2

theorem quadrant_slit {z : ℂ} (h : 0 < z.re ∧ 0 ≤ z.im) : z ∈ Complex.slitPlane := Or.inl h.1

/-- Off the negative axis the sign of zero does not matter. -/
theorem npSqrt_slit (σ : Bool) {z : ℂ} (h : z ∈ Complex.slitPlane) : npSqrt σ z = Complex.sqrt z := by
  unfold npSqrt
  rw [if_neg]
  rintro ⟨h1, h2⟩
  rcases h with h | h
  · linarith
  · exact h h1

/-- numpy's root of a continuous function is continuous off the negative axis, whatever the signs of zero. -/
theorem npSqrt_continuousAt {X : Type*} [TopologicalSpace X] (σ : X → Bool) {g : X → ℂ} {x : X} (hg : ContinuousAt g x)
    (h : g x ∈ Complex.slitPlane) : ContinuousAt (fun y => npSqrt (σ y) (g y)) x := by
  have he : ∀ᶠ y in 𝓝 x, g y ∈ Complex.slitPlane := hg.eventually (Complex.isOpen_slitPlane.mem_nhds h)
  have hs : ContinuousAt (fun y => Complex.sqrt (g y)) x := by
    unfold Complex.sqrt
    exact (continuousAt_id.comp hg).cpow continuousAt_const h
  refine hs.congr ?_
  filter_upwards [he] with y hy
  rw [npSqrt_slit _ hy]

/-- The two roots of the Bruggeman quadratic are not both in the first quadrant. -/
theorem not_both_quadrant {ea eb e E : ℂ} (ha : 0 < ea.re ∧ 0 ≤ ea.im) (hb : 0 < eb.re ∧ 0 ≤ eb.im)
    (he : 0 < e.re ∧ 0 ≤ e.im) (hE : 0 < E.re ∧ 0 ≤ E.im) {L : ℝ} (hL : 0 ≤ L ∧ L < 1)
    (h3 : ((1 - L : ℝ) : ℂ) * (e * E) = -((L : ℝ) * (ea * eb))) : False := by
  have hre := congrArg Complex.re h3
  have him := congrArg Complex.im h3
  simp only [Complex.mul_re, Complex.mul_im, Complex.neg_re,
    Complex.neg_im, Complex.ofReal_re, Complex.ofReal_im, zero_mul, sub_zero, add_zero] at hre him
  have hl : 0 < 1 - L := by linarith [hL.2]
  have a1 : 0 ≤ e.re * E.im := mul_nonneg he.1.le hE.2
  have a2 : 0 ≤ e.im * E.re := mul_nonneg he.2 hE.1.le
  have a3 : 0 ≤ ea.re * eb.im := mul_nonneg ha.1.le hb.2
  have a4 : 0 ≤ ea.im * eb.re := mul_nonneg ha.2 hb.1.le
  have b1 : (1 - L) * (e.re * E.im + e.im * E.re) = 0 := by
    have := mul_nonneg hl.le (add_nonneg a1 a2)
    have := mul_nonneg hL.1 (add_nonneg a3 a4)
    linarith
  have b2 : L * (ea.re * eb.im + ea.im * eb.re) = 0 := by linarith
  have b3 : e.re * E.im + e.im * E.re = 0 := (mul_eq_zero.mp b1).resolve_left hl.ne'
  have c1 : E.im = 0 := by
    have : e.re * E.im = 0 := by linarith
    exact (mul_eq_zero.mp this).resolve_left he.1.ne'
  have c2 : e.im = 0 := by
    have : e.im * E.re = 0 := by linarith
    exact (mul_eq_zero.mp this).resolve_right hE.1.ne'
  rw [c1, c2] at hre
  have d1 := mul_pos hl (mul_pos he.1 hE.1)
  rcases hL.1.lt_or_eq with h0 | h0
  · have b4 := (mul_eq_zero.mp b2).resolve_left h0.ne'
    have c3 : eb.im = 0 := by
      have : ea.re * eb.im = 0 := by linarith
      exact (mul_eq_zero.mp this).resolve_left ha.1.ne'
    rw [c3] at hre
    have d2 := mul_pos h0 (mul_pos ha.1 hb.1)
    nlinarith
  · rw [← h0] at hre
    nlinarith

/-- The argument of the root stays off the negative axis for dielectrics. -/
theorem bruggemanD_slit {ea eb : ℂ} (ha : 0 < ea.re ∧ 0 ≤ ea.im) (hb : 0 < eb.re ∧ 0 ≤ eb.im) {f L : ℝ}
    (hf : 0 ≤ f ∧ f ≤ 1) (hL : 0 ≤ L ∧ L < 1) : bruggemanD ea eb f L ∈ Complex.slitPlane := by
  by_contra hc
  have hE := bruggemanE_quadrant true ha hb hf hL
  have hE' := bruggemanE_quadrant false ha hb hf hL
  have hL' : L ≠ 1 := hL.2.ne
  have hl : 0 < 1 - L := by linarith [hL.2]
  have hlc : (1 - L : ℂ) ≠ 0 := by exact_mod_cast hl.ne'
  have hsq : npSqrt false (bruggemanD ea eb f L) = -npSqrt true (bruggemanD ea eb f L) := by
    rw [Complex.mem_slitPlane_iff, not_or, not_lt, not_not] at hc
    rcases hc.1.lt_or_eq with h | h
    · unfold npSqrt
      simp [hc.2, h]
    · have h0 : bruggemanD ea eb f L = 0 := Complex.ext h hc.2
      have z : ∀ σ, npSqrt σ 0 = 0 := fun σ => by simpa using npSqrt_sq σ 0
      rw [h0, z, z, neg_zero]
  refine not_both_quadrant ha hb hE' hE hL ?_
  rw [bruggeman_eq _ hL', bruggeman_eq _ hL', hsq]
  have h2 := npSqrt_sq true (bruggemanD ea eb f L)
  generalize npSqrt true (bruggemanD ea eb f L) = s at h2
  unfold bruggemanD at h2
  generalize bruggemanB ea eb f L = b at h2
  push_cast
  field_simp
  linear_combination -h2

/-- C144, partial: the mixed index is a continuous function of the two indices, the volume fraction and the
depolarisation factor together, at any passive materials and any admissible volume fraction and factor, whatever
the signs of zero.  Missing: metals under the Bruggeman rule (`C144_fails`). -/
theorem C144_continuous_partial (σ : ℂ × ℂ × ℝ × ℝ → Bool × Bool) {A B : ℂ} (hA : PassiveRi A) (hB : PassiveRi B) {f : ℝ}
    (hf : 0 ≤ f ∧ f ≤ 1) {ema : String} (he : Known ema) {L : ℝ} (hL : GoodL ema L)
    (hd : ema = "bruggeman" → Dielectric A ∧ Dielectric B) :
    ∃ N : ℂ × ℂ × ℝ × ℝ → ℂ, (∀ x, overallRi (σ x) x.1 x.2.1 x.2.2.1 ema x.2.2.2 = .ok (N x)) ∧
      ContinuousAt N (A, B, f, L) := by
  have ha := sq_up hA.1 hA.2
  have hb := sq_up hB.1 hB.2
  obtain ⟨hL0, hL1, hLb⟩ := hL
  rcases he with rfl | rfl | rfl
  · refine ⟨fun x => npSqrt (σ x).2 (linearE (x.1 ^ 2) (x.2.1 ^ 2) x.2.2.1), fun x => by simp [overallRi], ?_⟩
    refine npSqrt_continuousAt (fun x => (σ x).2) ?_ ?_
    · unfold linearE
      fun_prop
    · have := Up.comb ha hb (x := 1 - f) (y := f) (by linarith [hf.2]) hf.1 (by linarith)
      have := this.slit
      push_cast at this
      exact this
  · refine ⟨fun x => npSqrt (σ x).2 (garnettE (x.1 ^ 2) (x.2.1 ^ 2) x.2.2.1 x.2.2.2), fun x => by simp [overallRi], ?_⟩
    have hbot := (garnett_bottom_up ha hb hf ⟨hL0, hL1⟩).ne_zero
    refine npSqrt_continuousAt (fun x => (σ x).2) ?_ (garnett_up ha hb hf ⟨hL0, hL1⟩).slit
    have hc : ContinuousAt (fun x : ℂ × ℂ × ℝ × ℝ =>
        x.1 ^ 2 + (x.2.2.2 : ℂ) * (1 - x.2.2.1) * (x.2.1 ^ 2 - x.1 ^ 2)) (A, B, f, L) := by fun_prop
    have hc2 : ContinuousAt (fun x : ℂ × ℂ × ℝ × ℝ =>
        x.1 ^ 2 + ((x.2.2.2 : ℂ) * (1 - x.2.2.1) + x.2.2.1) * (x.2.1 ^ 2 - x.1 ^ 2)) (A, B, f, L) := by fun_prop
    have hc3 : ContinuousAt (fun x : ℂ × ℂ × ℝ × ℝ => x.1 ^ 2) (A, B, f, L) := by fun_prop
    refine (hc3.mul (hc2.div hc hbot)).congr ?_
    filter_upwards [hc.eventually_ne hbot] with x hx
    rw [garnett_eq hx]
    rfl
  · have hL' := hLb rfl
    obtain ⟨dA, dB⟩ := hd rfl
    have qa := dA.sq hA
    have qb := dB.sq hB
    refine ⟨fun x => npSqrt (σ x).2 (bruggemanE (σ x).1 (x.1 ^ 2) (x.2.1 ^ 2) x.2.2.1 x.2.2.2),
      fun x => by simp [overallRi], ?_⟩
    refine npSqrt_continuousAt (fun x => (σ x).2) ?_ (quadrant_slit (bruggemanE_quadrant _ qa qb hf ⟨hL0, hL'⟩))
    have hl : (2 * (1 - L) : ℂ) ≠ 0 := by
      have : (1 - L : ℝ) ≠ 0 := by linarith
      have : (1 - L : ℂ) ≠ 0 := by exact_mod_cast this
      simp [this]
    have hc : ContinuousAt (fun x : ℂ × ℂ × ℝ × ℝ => bruggemanB (x.1 ^ 2) (x.2.1 ^ 2) x.2.2.1 x.2.2.2) (A, B, f, L) := by
      unfold bruggemanB
      fun_prop
    have hD : ContinuousAt (fun x : ℂ × ℂ × ℝ × ℝ => bruggemanD (x.1 ^ 2) (x.2.1 ^ 2) x.2.2.1 x.2.2.2) (A, B, f, L) := by
      unfold bruggemanD bruggemanB
      fun_prop
    have hs := npSqrt_continuousAt (fun x => (σ x).1) hD (bruggemanD_slit qa qb hf ⟨hL0, hL'⟩)
    have hlc : ContinuousAt (fun x : ℂ × ℂ × ℝ × ℝ => (2 * (1 - (x.2.2.2 : ℂ)))) (A, B, f, L) := by fun_prop
    refine ((hc.add hs).div hlc hl).congr ?_
    filter_upwards [hlc.eventually_ne hl] with x hx
    have hx1 : x.2.2.2 ≠ 1 := by
      intro h
      rw [h] at hx
      simp at hx
    rw [bruggeman_eq _ hx1]
    rfl

/-- A porous dielectric at the default depolarisation factor. -/
example (σ : ℂ × ℂ × ℝ × ℝ → Bool × Bool) : ∃ N : ℂ × ℂ × ℝ × ℝ → ℂ,
    (∀ x, overallRi (σ x) x.1 x.2.1 x.2.2.1 "bruggeman" x.2.2.2 = .ok (N x)) ∧
      ContinuousAt N (⟨1.6, 0.5⟩, 1.33, 0.3, 1 / 3) :=
  C144_continuous_partial σ ⟨by norm_num, by norm_num⟩ ⟨by norm_num, by norm_num⟩ (by norm_num) (Or.inr (Or.inr rfl))
    ⟨by norm_num, by norm_num, by intro; norm_num⟩ (fun _ => ⟨by norm_num [Dielectric], by norm_num [Dielectric]⟩)

/-- C144 is false of the code for metals under the Bruggeman rule: in a material of index `3 + 4i` with pores of air
(depolarisation factor 1/2) the extinction coefficient jumps from below -1 to above 1 as the porosity passes 1/4. -/
theorem C144_fails (σ : Bool × Bool) {f : ℝ} (h1 : 23 / 100 ≤ f) (h2 : f ≤ 27 / 100) :
    PassiveRi ⟨3, 4⟩ ∧ PassiveRi 1 ∧ ∃ N, overallRi σ ⟨3, 4⟩ 1 f "bruggeman" (1 / 2) = .ok N ∧
      (f < 1 / 4 → N.im < -1) ∧ (1 / 4 < f → 1 < N.im) := by
  refine ⟨⟨by norm_num, by norm_num⟩, ⟨by norm_num, by norm_num⟩,
    npSqrt σ.2 (bruggemanE σ.1 (⟨3, 4⟩ ^ 2) (1 ^ 2) f (1 / 2)), by simp [overallRi], ?_⟩
  obtain ⟨x, hx⟩ : ∃ x, x = 1 / 2 - f := ⟨_, rfl⟩
  have hf : f = 1 / 2 - x := by linarith
  subst hf
  have hb : bruggemanB (⟨3, 4⟩ ^ 2) (1 ^ 2) (1 / 2 - x) (1 / 2) = ⟨-8 * x, 24 * x⟩ := by
    unfold bruggemanB
    apply Complex.ext <;> simp [sq] <;> ring
  have hD : bruggemanD (⟨3, 4⟩ ^ 2) (1 ^ 2) (1 / 2 - x) (1 / 2) = ⟨-512 * x ^ 2 - 7, 24 - 384 * x ^ 2⟩ := by
    unfold bruggemanD
    rw [hb]
    apply Complex.ext <;> simp [sq] <;> ring
  have hE := bruggeman_eq σ.1 (Ea := ⟨3, 4⟩ ^ 2) (Eb := 1 ^ 2) (f := 1 / 2 - x) (L := 1 / 2) (by norm_num)
  rw [hb, hD] at hE
  have hs2 := npSqrt_sq σ.1 ⟨-512 * x ^ 2 - 7, 24 - 384 * x ^ 2⟩
  have hs0 := npSqrt_re_nonneg σ.1 ⟨-512 * x ^ 2 - 7, 24 - 384 * x ^ 2⟩
  obtain ⟨s, hs⟩ : ∃ s, s = npSqrt σ.1 ⟨-512 * x ^ 2 - 7, 24 - 384 * x ^ 2⟩ := ⟨_, rfl⟩
  rw [← hs] at hs2 hs0 hE
  have r1 : s.re ^ 2 - s.im ^ 2 = -512 * x ^ 2 - 7 := by
    have := congrArg Complex.re hs2
    simp only [sq, Complex.mul_re] at this
    simp only [sq]; linarith
  have r2 : 2 * (s.re * s.im) = 24 - 384 * x ^ 2 := by
    have := congrArg Complex.im hs2
    simp only [sq, Complex.mul_im] at this
    simp only [sq]; linarith
  have hE' : bruggemanE σ.1 (⟨3, 4⟩ ^ 2) (1 ^ 2) (1 / 2 - x) (1 / 2) = ⟨-8 * x + s.re, 24 * x + s.im⟩ := by
    rw [hE]
    apply Complex.ext <;> push_cast <;> norm_num
  have hN2 := npSqrt_sq σ.2 (bruggemanE σ.1 (⟨3, 4⟩ ^ 2) (1 ^ 2) (1 / 2 - x) (1 / 2))
  have hN0 := npSqrt_re_nonneg σ.2 (bruggemanE σ.1 (⟨3, 4⟩ ^ 2) (1 ^ 2) (1 / 2 - x) (1 / 2))
  rw [hE'] at hN2 hN0
  rw [hE']
  generalize npSqrt σ.2 ⟨-8 * x + s.re, 24 * x + s.im⟩ = N at *
  have n1 : N.re ^ 2 - N.im ^ 2 = -8 * x + s.re := by
    have := congrArg Complex.re hN2
    simp only [sq, Complex.mul_re] at this
    simp only [sq]; linarith
  have n2 : 2 * (N.re * N.im) = 24 * x + s.im := by
    have := congrArg Complex.im hN2
    simp only [sq, Complex.mul_im] at this
    linarith
  -- the root is nearly imaginary
  have hx1 : 23 / 100 ≤ x := by linarith
  have hx2 : x ≤ 27 / 100 := by linarith
  have hxx1 : 0.0529 ≤ x ^ 2 := by nlinarith
  have hxx2 : x ^ 2 ≤ 0.0729 := by nlinarith
  have him : 34 ≤ s.im ^ 2 := by nlinarith [sq_nonneg s.re]
  have hre : s.re < 1 / 2 := by
    by_contra hc
    push Not at hc
    have e1 : (2 * (s.re * s.im)) ^ 2 = 4 * s.re ^ 2 * s.im ^ 2 := by ring
    rw [r2] at e1
    have e2 : 1 / 4 ≤ s.re ^ 2 := by nlinarith
    have e3 : (24 - 384 * x ^ 2) ^ 2 ≤ 4 ^ 2 := by
      apply sq_le_sq'
      · linarith
      · linarith
    nlinarith
  have hNim : 1 < N.im ^ 2 := by nlinarith [sq_nonneg N.re]
  constructor
  · intro h
    have hx3 : 1 / 16 < x ^ 2 := by nlinarith
    have s1 : s.im < 0 := by
      by_contra hc
      push Not at hc
      have := mul_nonneg hs0 hc
      linarith
    have s2 : s.im < -(24 * x) := by
      by_contra hc
      push Not at hc
      have : s.im ^ 2 ≤ (24 * x) ^ 2 := sq_le_sq' (by linarith) (by linarith)
      nlinarith [sq_nonneg s.re]
    have : N.im < 0 := by
      by_contra hc
      push Not at hc
      have := mul_nonneg hN0 hc
      linarith
    by_contra hc
    push Not at hc
    have : N.im ^ 2 ≤ 1 ^ 2 := sq_le_sq' (by linarith) (by linarith)
    linarith
  · intro h
    have hx3 : x ^ 2 < 1 / 16 := by nlinarith
    have s1 : 0 < s.im := by
      by_contra hc
      push Not at hc
      have := mul_nonpos_of_nonneg_of_nonpos hs0 hc
      linarith
    have : 0 < N.im := by
      by_contra hc
      push Not at hc
      have := mul_nonpos_of_nonneg_of_nonpos hN0 hc
      linarith
    by_contra hc
    push Not at hc
    have : N.im ^ 2 ≤ 1 ^ 2 := sq_le_sq' (by linarith) (by linarith)
    linarith

end Verif.EMA
