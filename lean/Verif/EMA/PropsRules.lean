import Verif.EMA.PropsEMA

/-! # Each rule solves its own equation, and there is only one answer (C122) -/

namespace Verif.EMA

theorem Dielectric.sq {n : ℂ} (hp : PassiveRi n) (h : Dielectric n) : 0 < (n ^ 2).re ∧ 0 ≤ (n ^ 2).im := by
  have h1 := hp.1
  have h2 := hp.2
  unfold Dielectric at h
  constructor
  · simp only [pow_two, Complex.mul_re]; nlinarith
  · simp only [pow_two, Complex.mul_im]; nlinarith

theorem PassiveRi.ext_sq {n m : ℂ} (hn : PassiveRi n) (hm : PassiveRi m) (h : n ^ 2 = m ^ 2) : n = m := by
  rcases sq_eq_sq_iff_eq_or_eq_neg.mp h with h | h
  · exact h
  · have h1 := hn.1
    have h2 := hm.1
    rw [h, Complex.neg_re] at h1
    linarith

/-- Maxwell-Garnett: the equation has exactly one solution, the code's. -/
theorem garnett_iff {ea eb : ℂ} (ha : Up ea) (hb : Up eb) {f L : ℝ} (hf : 0 ≤ f ∧ f ≤ 1) (hL : 0 ≤ L ∧ L ≤ 1)
    {e : ℂ} (he : Up e) : GarnettEq ea eb f L e ↔ e = garnettE ea eb f L := by
  have hB := (garnett_bottom_up ha hb hf hL).ne_zero
  have h1 : ea + L * (e - ea) ≠ 0 := by
    have := (garnett_bottom_up ha he (f := 0) (by norm_num) hL).ne_zero
    simpa using this
  have h2 : ea + L * (eb - ea) ≠ 0 := by
    have := (garnett_bottom_up ha hb (f := 0) (by norm_num) hL).ne_zero
    simpa using this
  rw [garnett_eq hB, GarnettEq, mul_div_assoc', mul_div_assoc', div_eq_div_iff h1 h2, eq_div_iff hB]
  constructor
  · intro h; linear_combination h
  · intro h; linear_combination h

/-- Where the Bruggeman equation is not singular it is a quadratic equation. -/
theorem bruggemanEq_iff {ea eb : ℂ} {f L : ℝ} {e : ℂ} (h1 : e + L * (ea - e) ≠ 0) (h2 : e + L * (eb - e) ≠ 0) :
    BruggemanEq ea eb f L e ↔ (1 - L) * e ^ 2 - bruggemanB ea eb f L * e - L * (ea * eb) = 0 := by
  unfold BruggemanEq bruggemanB
  rw [mul_div_assoc', mul_div_assoc', div_add_div _ _ h1 h2, div_eq_zero_iff, or_iff_left (mul_ne_zero h1 h2)]
  constructor
  · intro h; linear_combination -h
  · intro h; linear_combination -h

theorem quad_den {L : ℝ} (hL : 0 ≤ L ∧ L < 1) {x e : ℂ} (hx : 0 < x.re) (he : 0 < e.re) :
    e + L * (x - e) ≠ 0 := by
  intro h
  have := congrArg Complex.re h
  simp only [Complex.add_re, Complex.re_ofReal_mul, Complex.sub_re, Complex.zero_re] at this
  have h1 := mul_nonneg hL.1 hx.le
  have h2 := mul_pos (by linarith [hL.2] : 0 < 1 - L) he
  nlinarith

theorem bruggemanE_quadrant (σ : Bool) {ea eb : ℂ} (ha : 0 < ea.re ∧ 0 ≤ ea.im) (hb : 0 < eb.re ∧ 0 ≤ eb.im)
    {f L : ℝ} (hf : 0 ≤ f ∧ f ≤ 1) (hL : 0 ≤ L ∧ L < 1) :
    0 < (bruggemanE σ ea eb f L).re ∧ 0 ≤ (bruggemanE σ ea eb f L).im := by
  have hcomb : ∀ p q : ℝ, 0 ≤ p → 0 ≤ q → 0 < p + q →
      0 < ((p : ℂ) * ea + q * eb).re ∧ 0 ≤ ((p : ℂ) * ea + q * eb).im := by
    intro p q hp hq hpq
    rw [Complex.add_re, Complex.add_im, Complex.re_ofReal_mul, Complex.re_ofReal_mul, Complex.im_ofReal_mul,
      Complex.im_ofReal_mul]
    have i1 := mul_nonneg hp ha.2
    have i2 := mul_nonneg hq hb.2
    refine ⟨?_, by linarith⟩
    rcases hp.lt_or_eq with h | h
    · have := mul_pos h ha.1
      have := mul_nonneg hq hb.1.le
      linarith
    · rw [← h] at hpq ⊢
      have := mul_pos (by linarith : 0 < q) hb.1
      linarith
  rcases hL.1.lt_or_eq with h | h
  · obtain ⟨t, p, q, ht, hp, hq, hpq, e⟩ := bruggeman_first_quadrant σ ha hb hf ⟨h, hL.2⟩
    rw [e, Complex.re_ofReal_mul, Complex.im_ofReal_mul]
    have := hcomb p q hp hq hpq
    exact ⟨mul_pos ht this.1, mul_nonneg ht.le this.2⟩
  · subst h
    have := hcomb (1 - f) f (by linarith [hf.2]) hf.1 (by linarith)
    push_cast at this
    rw [bruggeman_of_sq _ (by norm_num) this.1 (bruggeman_DL0 _ _ _)]
    have e : (bruggemanB ea eb f 0 + ((1 - f) * ea + f * eb)) / (2 * (1 - ((0 : ℝ) : ℂ))) =
        (1 - f) * ea + f * eb := by
      unfold bruggemanB
      push_cast
      ring
    rw [e]
    exact this

/-- Bruggeman: among dielectric constants in the first quadrant the equation has exactly one solution, the
code's. -/
theorem bruggeman_iff (σ : Bool) {ea eb : ℂ} (ha : 0 < ea.re ∧ 0 ≤ ea.im) (hb : 0 < eb.re ∧ 0 ≤ eb.im)
    {f L : ℝ} (hf : 0 ≤ f ∧ f ≤ 1) (hL : 0 ≤ L ∧ L < 1) {e : ℂ} (he : 0 < e.re ∧ 0 ≤ e.im) :
    BruggemanEq ea eb f L e ↔ e = bruggemanE σ ea eb f L := by
  rw [bruggemanEq_iff (quad_den hL ha.1 he.1) (quad_den hL hb.1 he.1)]
  have hE := bruggemanE_quadrant σ ha hb hf hL
  have hq := bruggeman_quadratic hL.2.ne (npSqrt_sq σ _) (bruggeman_eq σ (Ea := ea) (Eb := eb) (f := f) hL.2.ne)
  set E := bruggemanE σ ea eb f L
  constructor
  · intro h
    by_contra hne
    have h1 : (e - E) * ((1 - L) * (e + E) - bruggemanB ea eb f L) = 0 := by linear_combination h - hq
    have h2 := (mul_eq_zero.mp h1).resolve_left (sub_ne_zero.mpr hne)
    have h3 : ((1 - L : ℝ) : ℂ) * (e * E) = -((L : ℝ) * (ea * eb)) := by
      push_cast; linear_combination E * h2 - hq
    have hre := congrArg Complex.re h3
    have him := congrArg Complex.im h3
    simp only [Complex.mul_re, Complex.mul_im, Complex.neg_re,
      Complex.neg_im, Complex.ofReal_re, Complex.ofReal_im, zero_mul, sub_zero, add_zero] at hre him
    have hl : 0 < 1 - L := by linarith [hL.2]
    have a1 : 0 ≤ e.re * E.im := mul_nonneg he.1.le hE.2
    have a2 : 0 ≤ e.im * E.re := mul_nonneg he.2 hE.1.le
    have a3 : 0 ≤ ea.re * eb.im := mul_nonneg ha.1.le hb.2
    have a4 : 0 ≤ ea.im * eb.re := mul_nonneg ha.2 hb.1.le
    have b1 : (1 - L) * (e.re * E.im + e.im * E.re) = 0 := by
      have := mul_nonneg hl.le (add_nonneg a1 a2)
      have := mul_nonneg hL.1 (add_nonneg a3 a4)
      linarith
    have b2 : L * (ea.re * eb.im + ea.im * eb.re) = 0 := by linarith
    have b3 : e.re * E.im + e.im * E.re = 0 := (mul_eq_zero.mp b1).resolve_left hl.ne'
    have c1 : E.im = 0 := by
      have : e.re * E.im = 0 := by linarith
      exact (mul_eq_zero.mp this).resolve_left he.1.ne'
    have c2 : e.im = 0 := by
      have : e.im * E.re = 0 := by linarith
      exact (mul_eq_zero.mp this).resolve_right hE.1.ne'
    rw [c1, c2] at hre
    have d1 := mul_pos hl (mul_pos he.1 hE.1)
    rcases hL.1.lt_or_eq with h0 | h0
    · have b4 := (mul_eq_zero.mp b2).resolve_left h0.ne'
      have c3 : eb.im = 0 := by
        have : ea.re * eb.im = 0 := by linarith
        exact (mul_eq_zero.mp this).resolve_left ha.1.ne'
      rw [c3] at hre
      have d2 := mul_pos h0 (mul_pos ha.1 hb.1)
      nlinarith
    · rw [← h0] at hre
      nlinarith
  · rintro h
    rw [h]
    exact hq

/-- C122, partial: for passive materials the mixed index is passive and is the only passive index whose square
solves the equation of the rule.  Missing: metals (`k ≥ n`) under the Bruggeman rule, where the code may return
a solution that amplifies (`C122_fails`), and `L = 1` under this rule (`C32_fails_bruggeman_one`). -/
theorem C122_unique_partial (σ : Bool × Bool) {A B : ℂ} (hA : PassiveRi A) (hB : PassiveRi B) {f : ℝ}
    (hf : 0 ≤ f ∧ f ≤ 1) {ema : String} (he : Known ema) {L : ℝ} (hL : GoodL ema L)
    (hbr : ema = "bruggeman" → Dielectric A ∧ Dielectric B) :
    ∃ N, overallRi σ A B f ema L = .ok N ∧ PassiveRi N ∧ (ema = "bruggeman" → Dielectric N) ∧
      ∀ n, PassiveRi n → (ema = "bruggeman" → Dielectric n) →
        (MixEq ema (A ^ 2) (B ^ 2) f L (n ^ 2) ↔ n = N) := by
  obtain ⟨N, hN, hp⟩ := C30_passive_partial σ hA hB hf he hL hbr
  have key : ∀ n, PassiveRi n → ∀ E, N ^ 2 = E → (n ^ 2 = E ↔ n = N) := by
    intro n hn E hE
    rw [← hE]
    exact ⟨hn.ext_sq hp, fun h => by rw [h]⟩
  have hups : ∀ n, PassiveRi n → Up (n ^ 2) := fun n hn => sq_up hn.1 hn.2
  rcases he with rfl | rfl | rfl
  · refine ⟨N, hN, hp, by simp, fun n hn _ => ?_⟩
    have hE : N ^ 2 = (1 - f) * A ^ 2 + f * B ^ 2 := by
      simp only [overallRi, if_true, Except.ok.injEq] at hN
      rw [← hN, npSqrt_sq]; rfl
    simp only [MixEq, forall_const, show ("linear" : String) ≠ "maxwell-garnett" by decide,
      show ("linear" : String) ≠ "bruggeman" by decide, false_imp_iff, and_true]
    exact key n hn _ hE
  · refine ⟨N, hN, hp, by simp, fun n hn _ => ?_⟩
    have hE : N ^ 2 = garnettE (A ^ 2) (B ^ 2) f L := by
      simp only [overallRi, show ("maxwell-garnett" : String) ≠ "linear" by decide, if_false, if_true,
        Except.ok.injEq] at hN
      rw [← hN, npSqrt_sq]
    simp only [MixEq, forall_const, show ("maxwell-garnett" : String) ≠ "linear" by decide,
      show ("maxwell-garnett" : String) ≠ "bruggeman" by decide, false_imp_iff, and_true, true_and]
    rw [garnett_iff (hups A hA) (hups B hB) hf ⟨hL.1, hL.2.1⟩ (hups n hn)]
    exact key n hn _ hE
  · have hE : N ^ 2 = bruggemanE σ.1 (A ^ 2) (B ^ 2) f L := by
      simp only [overallRi, show ("bruggeman" : String) ≠ "linear" by decide,
        show ("bruggeman" : String) ≠ "maxwell-garnett" by decide, if_false, if_true, Except.ok.injEq] at hN
      rw [← hN, npSqrt_sq]
    have hL' : 0 ≤ L ∧ L < 1 := ⟨hL.1, hL.2.2 rfl⟩
    have ha := (hbr rfl).1.sq hA
    have hb := (hbr rfl).2.sq hB
    refine ⟨N, hN, hp, fun _ => ?_, fun n hn hd => ?_⟩
    · have hq := (bruggemanE_quadrant σ.1 ha hb hf hL').1
      rw [← hE] at hq
      have h1 := hp.1
      have h2 := hp.2
      simp only [pow_two, Complex.mul_re] at hq
      unfold Dielectric
      nlinarith
    · simp only [MixEq, forall_const, show ("bruggeman" : String) ≠ "linear" by decide,
        show ("bruggeman" : String) ≠ "maxwell-garnett" by decide, false_imp_iff, true_and]
      rw [bruggeman_iff σ.1 ha hb hf hL' ((hd rfl).sq hn)]
      exact key n hn _ hE

/-- C122 fails for metals under the Bruggeman rule: a layer of index 1 + 2i without any solvent.  Its own
index solves the equation; the code returns an index with negative `k`. -/
theorem C122_fails : ∃ (A B : ℂ) (f L : ℝ), PassiveRi A ∧ PassiveRi B ∧ (0 ≤ f ∧ f ≤ 1) ∧ GoodL "bruggeman" L ∧
    MixEq "bruggeman" (A ^ 2) (B ^ 2) f L (A ^ 2) ∧
    ∀ σ, ∃ N, overallRi σ A B f "bruggeman" L = .ok N ∧ N ≠ A ∧ N.im < 0 := by
  refine ⟨⟨1, 2⟩, ⟨1, 1 / 2⟩, 0, 1 / 2, ⟨by norm_num, by norm_num⟩, ⟨by norm_num, by norm_num⟩,
    by norm_num, ⟨by norm_num, by norm_num, by norm_num⟩, ?_, ?_⟩
  · refine ⟨by simp, by simp, fun _ => ?_⟩
    simp [BruggemanEq]
  · intro σ
    obtain ⟨N, hN, hne, hsq⟩ := C24_fails_bruggeman σ (A := ⟨1, 2⟩) (B := ⟨1, 1 / 2⟩) (L := 1 / 2)
      ⟨by norm_num, by norm_num⟩ (by norm_num [sq])
    refine ⟨N, hN, hne, ?_⟩
    have hre : 0 ≤ N.re := by
      have : N = npSqrt σ.2 (bruggemanE σ.1 ((⟨1, 2⟩ : ℂ) ^ 2) (⟨1, 1 / 2⟩ ^ 2) 0 (1 / 2)) := by
        simpa [overallRi] using hN.symm
      rw [this]; exact npSqrt_re_nonneg _ _
    have him := congrArg Complex.im hsq
    have : (-(((1 / 2 : ℝ) : ℂ) / (1 - ((1 / 2 : ℝ) : ℂ))) * (⟨1, 1 / 2⟩ : ℂ) ^ 2).im = -1 := by
      have : (((1 / 2 : ℝ) : ℂ) / (1 - ((1 / 2 : ℝ) : ℂ))) = 1 := by push_cast; norm_num
      rw [this]; norm_num [sq]
    rw [this] at him
    simp only [sq, Complex.mul_im] at him
    by_contra hc
    push Not at hc
    have := mul_nonneg hre hc
    linarith

/-- The Bruggeman formula in the documentation of `StructureSE.slabs` (structureSE.py:583-588), with the volume
fraction once more under the root, for real dielectric constants. -/
noncomputable def slabsDoc (x y f L : ℝ) : ℝ :=
  let b := x * ((1 - f) - L) + y * (f - L)
  (b + Real.sqrt (b ^ 2 - 4 * (L - 1) * (f * x * y * L))) / (2 * (1 - L))

/-- C122: the formula documented at `StructureSE.slabs` is not that of the code (nor a solution of the Bruggeman
equation): between transparent materials it gives a smaller dielectric constant, unless the volume fraction is 1. -/
theorem C122_fails_docstring (σ : Bool × Bool) {a b : ℝ} (ha : 0 < a) (hb : 0 < b) {f L : ℝ} (hf : 0 ≤ f ∧ f < 1)
    (hL : 0 < L ∧ L < 1) : ∃ n : ℝ, overallRi σ a b f "bruggeman" L = .ok (n : ℂ) ∧
      MixEq "bruggeman" ((a : ℂ) ^ 2) ((b : ℂ) ^ 2) f L ((n : ℂ) ^ 2) ∧ slabsDoc (a ^ 2) (b ^ 2) f L < n ^ 2 := by
  have hg : GoodL "bruggeman" L := ⟨hL.1.le, hL.2.le, fun _ => hL.2⟩
  obtain ⟨h1, h2⟩ := overallRi_real σ (ema := "bruggeman") (.inr (.inr rfl)) ha hb ⟨hf.1, hf.2.le⟩ hg
  have hpa : PassiveRi (a : ℂ) := ⟨by simpa using ha, by simp⟩
  have hpb : PassiveRi (b : ℂ) := ⟨by simpa using hb, by simp⟩
  obtain ⟨N, g1, g2, g3, g4⟩ := C122_unique_partial σ hpa hpb ⟨hf.1, hf.2.le⟩ (.inr (.inr rfl)) hg
    (fun _ => ⟨by simpa [Dielectric] using ha, by simpa [Dielectric] using hb⟩)
  rw [h1, Except.ok.injEq] at g1
  refine ⟨_, h1, ?_, ?_⟩
  · rw [g1]
    exact (g4 N g2 g3).mpr rfl
  · rw [Real.sq_sqrt h2.le]
    have h3 : 0 < 1 - L := by linarith [hL.2]
    simp only [mixR, slabsDoc, bruR, bB, show ("bruggeman" : String) ≠ "linear" by decide,
      show ("bruggeman" : String) ≠ "maxwell-garnett" by decide, if_false]
    have key : 0 < L * (1 - L) * (a ^ 2 * b ^ 2) * (1 - f) := by
      have : 0 < 1 - f := by linarith [hf.2]
      have := hL.1
      positivity
    gcongr
    · have h4 : 0 ≤ (1 - L) * (f * a ^ 2 * b ^ 2 * L) := by
        have := hL.1
        have := hf.1
        positivity
      have h5 := sq_nonneg (a ^ 2 * (1 - f - L) + b ^ 2 * (f - L))
      nlinarith
    · nlinarith

/-- Half solvent in a layer: the documented value is off. -/
example : (0 : ℝ) ≤ 1 / 2 ∧ (1 / 2 : ℝ) < 1 ∧ (0 : ℝ) < 1 / 3 ∧ (1 / 3 : ℝ) < 1 := by norm_num

/-- Non-vacuity of C122: a lossy polymer in an absorbing solvent, all three rules. -/
example (σ : Bool × Bool) {ema : String} (he : Known ema) :
    ∃ N, overallRi σ ⟨1.6, 0.5⟩ ⟨1.4, 0.1⟩ 0.3 ema (1 / 3 : ℝ) = .ok N ∧ PassiveRi N := by
  obtain ⟨N, h1, h2, -⟩ := C122_unique_partial σ (A := ⟨1.6, 0.5⟩) (B := ⟨1.4, 0.1⟩) (f := 0.3) (L := 1 / 3)
    ⟨by norm_num, by norm_num⟩ ⟨by norm_num, by norm_num⟩ (by norm_num) he
    ⟨by norm_num, by norm_num, fun _ => by norm_num⟩ (fun _ => ⟨by norm_num [Dielectric], by norm_num [Dielectric]⟩)
  exact ⟨N, h1, h2⟩

end Verif.EMA
