import Verif.EMA.Model
import Mathlib.Tactic.LinearCombination
import Mathlib.Tactic.Linarith
import Mathlib.Tactic.FieldSimp
import Mathlib.Tactic.Positivity

/-! # Helper lemmas for the mixing rules -/

namespace Verif.EMA

open ComplexConjugate

/-- Upper half plane together with the positive real axis. -/
def Up (z : ℂ) : Prop := 0 < z.im ∨ (z.im = 0 ∧ 0 < z.re)

theorem Up.ne_zero {z : ℂ} (h : Up z) : z ≠ 0 := by
  rintro rfl; rcases h with h | h <;> simp at h

theorem Up.im_nonneg {z : ℂ} (h : Up z) : 0 ≤ z.im := by
  rcases h with h | h
  · exact h.le
  · exact h.1.ge

theorem sq_up {A : ℂ} (hn : 0 < A.re) (hk : 0 ≤ A.im) : Up (A ^ 2) := by
  rcases hk.lt_or_eq with h | h
  · left; simp [sq]; positivity
  · right; simp [sq, ← h, hn]

theorem Up.comb {a b : ℂ} (ha : Up a) (hb : Up b) {x y : ℝ} (hx : 0 ≤ x) (hy : 0 ≤ y)
    (hxy : 0 < x + y) : Up (x * a + y * b) := by
  have e1 : ((x : ℂ) * a + y * b).im = x * a.im + y * b.im := by simp
  have e2 : ((x : ℂ) * a + y * b).re = x * a.re + y * b.re := by simp
  have i1 := mul_nonneg hx ha.im_nonneg
  have i2 := mul_nonneg hy hb.im_nonneg
  unfold Up
  rw [e1, e2]
  rcases (add_nonneg i1 i2).lt_or_eq with h | h
  · exact .inl h
  · right
    refine ⟨h.symm, ?_⟩
    have h1 : x * a.im = 0 := by linarith
    have h2 : y * b.im = 0 := by linarith
    have k1 : x = 0 ∨ 0 < a.re := by
      rcases mul_eq_zero.mp h1 with h | h
      · exact .inl h
      · rcases ha with h' | h'
        · linarith
        · exact .inr h'.2
    have k2 : y = 0 ∨ 0 < b.re := by
      rcases mul_eq_zero.mp h2 with h | h
      · exact .inl h
      · rcases hb with h' | h'
        · linarith
        · exact .inr h'.2
    rcases k1 with k1 | k1
    · rcases k2 with k2 | k2
      · linarith
      · subst k1
        have : 0 < y := by linarith
        simp; positivity
    · rcases k2 with k2 | k2
      · subst k2
        have : 0 < x := by linarith
        simp; positivity
      · rcases hx.lt_or_eq with hx' | hx'
        · have := mul_pos hx' k1
          have := mul_nonneg hy k2.le
          linarith
        · subst hx'
          have : 0 < y := by linarith
          simp; positivity

theorem npSqrt_up (σ : Bool) {z : ℂ} (h : Up z) :
    0 < (npSqrt σ z).re ∧ 0 ≤ (npSqrt σ z).im := by
  have hne : ¬ (z.im = 0 ∧ z.re < 0) := by
    rintro ⟨h1, h2⟩
    rcases h with h | h
    · linarith
    · linarith [h.2]
  have e : npSqrt σ z = Complex.sqrt z := by unfold npSqrt; rw [if_neg hne]
  rw [e]
  refine ⟨?_, csqrt_im_nonneg h.im_nonneg⟩
  rcases (csqrt_re_nonneg z).lt_or_eq with h1 | h1
  · exact h1
  · exfalso
    have h2 := csqrt_sq z
    have h3 : z.im = 0 := by rw [← h2]; simp [sq, ← h1]
    have h4 : z.re ≤ 0 := by
      rw [← h2]; simp [sq, ← h1]; nlinarith [sq_nonneg (Complex.sqrt z).im]
    rcases h with h | h
    · linarith
    · linarith [h.2]

theorem garnett_bottom_up {Ea Eb : ℂ} (ha : Up Ea) (hb : Up Eb) {f L : ℝ} (hf : 0 ≤ f ∧ f ≤ 1)
    (hL : 0 ≤ L ∧ L ≤ 1) : Up (Ea + L * (1 - f) * (Eb - Ea)) := by
  have e : Ea + (L : ℂ) * (1 - f) * (Eb - Ea)
      = ((1 - L * (1 - f) : ℝ) : ℂ) * Ea + ((L * (1 - f) : ℝ) : ℂ) * Eb := by
    push_cast; ring
  rw [e]
  have h1 : 0 ≤ 1 - f := by linarith [hf.2]
  have h2 : 0 ≤ L * (1 - f) := mul_nonneg hL.1 h1
  have h3 : L * (1 - f) ≤ 1 := mul_le_one₀ hL.2 h1 (by linarith [hf.1])
  exact ha.comb hb (by linarith) h2 (by linarith)

theorem garnett_eq {Ea Eb : ℂ} {f L : ℝ} (h : Ea + (L : ℂ) * (1 - f) * (Eb - Ea) ≠ 0) :
    garnettE Ea Eb f L
      = Ea * ((Ea + (L * (1 - f) + f) * (Eb - Ea)) / (Ea + L * (1 - f) * (Eb - Ea))) := by
  unfold garnettE
  simp only [cdiv_of_ne h]

theorem harmonic_up {Ea Eb : ℂ} (ha : Up Ea) (hb : Up Eb) {α : ℝ} (h2 : 0 ≤ α) (h3 : α ≤ 1) :
    Up (Ea * Eb / (Ea + α * (Eb - Ea))) := by
  have hB : Ea + α * (Eb - Ea) ≠ 0 := by
    have e : Ea + α * (Eb - Ea) = ((1 - α : ℝ) : ℂ) * Ea + (α : ℂ) * Eb := by push_cast; ring
    rw [e]
    exact (ha.comb hb (by linarith) h2 (by linarith)).ne_zero
  set B := Ea + α * (Eb - Ea) with hBd
  have hN : 0 < Complex.normSq B := Complex.normSq_pos.mpr hB
  have ha' : 0 < Complex.normSq Ea := Complex.normSq_pos.mpr ha.ne_zero
  have hb' : 0 < Complex.normSq Eb := Complex.normSq_pos.mpr hb.ne_zero
  have e : Ea * Eb / B
      = ((α * Complex.normSq Eb / Complex.normSq B : ℝ) : ℂ) * Ea
        + (((1 - α) * Complex.normSq Ea / Complex.normSq B : ℝ) : ℂ) * Eb := by
    push_cast
    rw [← Complex.mul_conj, ← Complex.mul_conj, ← Complex.mul_conj]
    have hBc : conj B ≠ 0 := by simpa using hB
    have hc : conj B = conj Ea + α * (conj Eb - conj Ea) := by
      rw [hBd]; simp
    field_simp
    rw [hc]; ring
  rw [e]
  refine ha.comb hb (by positivity) (div_nonneg (mul_nonneg (by linarith) ha'.le) hN.le) ?_
  rw [← add_div]
  apply div_pos _ hN
  rcases h2.lt_or_eq with h | h
  · have := mul_pos h hb'
    have := mul_nonneg (by linarith : 0 ≤ 1 - α) ha'.le
    linarith
  · rw [← h]; simpa using ha'

theorem garnett_up {Ea Eb : ℂ} (ha : Up Ea) (hb : Up Eb) {f L : ℝ} (hf : 0 ≤ f ∧ f ≤ 1)
    (hL : 0 ≤ L ∧ L ≤ 1) : Up (garnettE Ea Eb f L) := by
  have hB := (garnett_bottom_up ha hb hf hL).ne_zero
  rw [garnett_eq hB]
  set α := L * (1 - f) with hα
  have h1 : 0 ≤ 1 - f := by linarith [hf.2]
  have h2 : 0 ≤ α := mul_nonneg hL.1 h1
  have h3 : α ≤ 1 := mul_le_one₀ hL.2 h1 (by linarith [hf.1])
  have hcast : ((L : ℂ) * (1 - f)) = (α : ℂ) := by rw [hα]; push_cast; ring
  rw [hcast] at hB ⊢
  have h6 : 0 ≤ 1 - α - f := by rw [hα]; nlinarith [hL.2, hf.2]
  rcases h3.lt_or_eq with h4 | h4
  · have h5 : 0 < 1 - α := by linarith
    have h5c : (1 - α : ℂ) ≠ 0 := by exact_mod_cast h5.ne'
    have e : Ea * ((Ea + (α + f) * (Eb - Ea)) / (Ea + α * (Eb - Ea)))
        = (((1 - α - f) / (1 - α) : ℝ) : ℂ) * Ea
          + ((f / (1 - α) : ℝ) : ℂ) * (Ea * Eb / (Ea + α * (Eb - Ea))) := by
      push_cast
      field_simp
      ring
    rw [e]
    refine ha.comb (harmonic_up ha hb h2 h3) (div_nonneg h6 h5.le) (div_nonneg hf.1 h5.le) ?_
    rw [← add_div]
    apply div_pos _ h5
    linarith
  · have hf0 : f = 0 := by linarith [hf.1]
    rw [hf0] at *
    simp only [Complex.ofReal_zero, add_zero]
    rw [div_self hB, mul_one]
    exact ha

/-! ### Bruggeman -/

theorem bruggeman_eq (σ : Bool) {Ea Eb : ℂ} {f L : ℝ} (h : L ≠ 1) :
    bruggemanE σ Ea Eb f L
      = (bruggemanB Ea Eb f L + npSqrt σ (bruggemanD Ea Eb f L)) / (2 * (1 - L)) := by
  have : (2 * (1 - L) : ℂ) ≠ 0 := by
    have : (1 - L : ℝ) ≠ 0 := fun h' => h (by linarith)
    have : (1 - L : ℂ) ≠ 0 := by exact_mod_cast this
    simp [this]
  unfold bruggemanE
  simp only [cdiv_of_ne this]

/-- The quadratic solved by both signs of the root. -/
theorem bruggeman_quadratic {Ea Eb : ℂ} {f L : ℝ} (h : L ≠ 1) {s : ℂ}
    (hs : s ^ 2 = bruggemanD Ea Eb f L) {e : ℂ}
    (he : e = (bruggemanB Ea Eb f L + s) / (2 * (1 - L))) :
    (1 - L) * e ^ 2 - bruggemanB Ea Eb f L * e - L * (Ea * Eb) = 0 := by
  have h1 : (1 - L : ℂ) ≠ 0 := by
    have : (1 - L : ℝ) ≠ 0 := fun h' => h (by linarith)
    exact_mod_cast this
  have h2 : s = 2 * (1 - L) * e - bruggemanB Ea Eb f L := by
    rw [he]; field_simp; ring
  rw [h2] at hs
  unfold bruggemanD at hs
  have : 4 * (1 - L) * ((1 - L) * e ^ 2 - bruggemanB Ea Eb f L * e - L * (Ea * Eb)) = 0 := by
    linear_combination hs
  rcases mul_eq_zero.mp this with h' | h'
  · simp [h1] at h'
  · exact h'

/-- `sqrt(disc)` is known when `disc` is the square of a number in the right half plane. -/
theorem bruggeman_of_sq (σ : Bool) {Ea Eb : ℂ} {f L : ℝ} (h : L ≠ 1) {w : ℂ} (hw : 0 < w.re)
    (hd : bruggemanD Ea Eb f L = w ^ 2) :
    bruggemanE σ Ea Eb f L = (bruggemanB Ea Eb f L + w) / (2 * (1 - L)) := by
  rw [bruggeman_eq σ h, hd, npSqrt_of_sq_re_pos σ hw]

/-- ... or the opposite of one. -/
theorem bruggeman_of_sq_neg (σ : Bool) {Ea Eb : ℂ} {f L : ℝ} (h : L ≠ 1) {w : ℂ} (hw : w.re < 0)
    (hd : bruggemanD Ea Eb f L = w ^ 2) :
    bruggemanE σ Ea Eb f L = (bruggemanB Ea Eb f L - w) / (2 * (1 - L)) := by
  rw [bruggeman_of_sq σ h (w := -w) (by simpa using hw) (by rw [hd]; ring)]
  ring

theorem bruggeman_D0 (Ea Eb : ℂ) (L : ℝ) : bruggemanD Ea Eb 0 L = ((1 - L) * Ea + L * Eb) ^ 2 := by
  unfold bruggemanD bruggemanB; push_cast; ring

theorem bruggeman_D1 (Ea Eb : ℂ) (L : ℝ) : bruggemanD Ea Eb 1 L = ((1 - L) * Eb + L * Ea) ^ 2 := by
  unfold bruggemanD bruggemanB; push_cast; ring

theorem bruggeman_Dself (Ea : ℂ) (f L : ℝ) : bruggemanD Ea Ea f L = Ea ^ 2 := by
  unfold bruggemanD bruggemanB; ring

theorem bruggeman_DL0 (Ea Eb : ℂ) (f : ℝ) :
    bruggemanD Ea Eb f 0 = ((1 - f) * Ea + f * Eb) ^ 2 := by
  unfold bruggemanD bruggemanB; push_cast; ring

/-- Every root of the Bruggeman quadratic is a real multiple of a non-negative combination of the
two dielectric constants. -/
theorem bruggeman_root_cone {Ea Eb : ℂ} (ha : 0 < Ea.re ∧ 0 ≤ Ea.im) (hb : 0 < Eb.re ∧ 0 ≤ Eb.im)
    {f L : ℝ} (hf : 0 ≤ f ∧ f ≤ 1) (hL : 0 < L ∧ L < 1) {e : ℂ}
    (he : (1 - L) * e ^ 2 - bruggemanB Ea Eb f L * e - L * (Ea * Eb) = 0) :
    ∃ t p q : ℝ, 0 ≤ p ∧ 0 ≤ q ∧ 0 < p + q ∧ e = t * (p * Ea + q * Eb) := by
  have hL1 : (1 - L : ℂ) ≠ 0 := by
    have : (1 - L : ℝ) ≠ 0 := by linarith [hL.2]
    exact_mod_cast this
  by_cases hDa : (1 - L) * e + L * Ea = 0
  · refine ⟨-L / (1 - L), 1, 0, by norm_num, by norm_num, by norm_num, ?_⟩
    push_cast
    field_simp
    linear_combination hDa
  by_cases hDb : (1 - L) * e + L * Eb = 0
  · refine ⟨-L / (1 - L), 0, 1, by norm_num, by norm_num, by norm_num, ?_⟩
    push_cast
    field_simp
    linear_combination hDb
  set Da := (1 - L) * e + L * Ea with hDad
  set Db := (1 - L) * e + L * Eb with hDbd
  have hna : 0 < Complex.normSq Da := Complex.normSq_pos.mpr hDa
  have hnb : 0 < Complex.normSq Db := Complex.normSq_pos.mpr hDb
  have key : Da * Db = e * ((1 - f) * Db + f * Da) := by
    unfold bruggemanB at he
    rw [hDad, hDbd]
    linear_combination (-L : ℂ) * he
  set p := (1 - f) * Complex.normSq Db with hp
  set q := f * Complex.normSq Da with hq
  have hp0 : 0 ≤ p := mul_nonneg (by linarith [hf.2]) hnb.le
  have hq0 : 0 ≤ q := mul_nonneg hf.1 hna.le
  have hpq : 0 < p + q := by
    rcases hf.1.lt_or_eq with h | h
    · have := mul_pos h hna
      linarith
    · have : p = Complex.normSq Db := by rw [hp, ← h]; ring
      linarith
  -- imaginary part of the identity multiplied by the conjugates
  have him : (e * conj (p * Ea + q * Eb)).im = 0 := by
    have h1 : ((Complex.normSq Da * Complex.normSq Db : ℝ) : ℂ)
        = (1 - f) * Complex.normSq Db * (e * conj Da)
          + f * Complex.normSq Da * (e * conj Db) := by
      push_cast
      rw [← Complex.mul_conj, ← Complex.mul_conj]
      linear_combination (conj Da * conj Db) * key
    have h2 : (e * conj Da) = (1 - L) * (Complex.normSq e : ℂ) + L * (e * conj Ea) := by
      rw [hDad, ← Complex.mul_conj]; simp; ring
    have h3 : (e * conj Db) = (1 - L) * (Complex.normSq e : ℂ) + L * (e * conj Eb) := by
      rw [hDbd, ← Complex.mul_conj]; simp; ring
    have h4 := congrArg Complex.im h1
    rw [Complex.ofReal_im] at h4
    have i2 : (e * conj Da).im = L * (e * conj Ea).im := by
      rw [h2]; simp
    have i3 : (e * conj Db).im = L * (e * conj Eb).im := by
      rw [h3]; simp
    have h5 : (((1 - f : ℝ) : ℂ) * Complex.normSq Db * (e * conj Da)
          + f * Complex.normSq Da * (e * conj Db)).im
        = p * (e * conj Da).im + q * (e * conj Db).im := by
      rw [hp, hq]
      rw [← Complex.ofReal_mul, ← Complex.ofReal_mul, Complex.add_im, Complex.im_ofReal_mul,
        Complex.im_ofReal_mul]
    have h6 : p * (e * conj Da).im + q * (e * conj Db).im = 0 := by
      rw [← h5]; push_cast; exact h4.symm
    rw [i2, i3] at h6
    have h7 : L * (p * (e * conj Ea).im + q * (e * conj Eb).im) = 0 := by linarith
    have h8 := (mul_eq_zero.mp h7).resolve_left hL.1.ne'
    rw [← h8]
    simp
    ring
  set w := p * Ea + q * Eb with hw
  have hwre : 0 < w.re := by
    have : w.re = p * Ea.re + q * Eb.re := by rw [hw]; simp
    rw [this]
    rcases hp0.lt_or_eq with h | h
    · have := mul_pos h ha.1
      have := mul_nonneg hq0 hb.1.le
      linarith
    · have : 0 < q := by linarith
      have := mul_pos this hb.1
      rw [← h]; linarith
  have hwne : w ≠ 0 := by
    intro h; rw [h] at hwre; simp at hwre
  refine ⟨(e * conj w).re / Complex.normSq w, p, q, hp0, hq0, hpq, ?_⟩
  have h9 : e * conj w = ((e * conj w).re : ℂ) := by
    apply Complex.ext
    · simp
    · rw [him]; simp
  push_cast
  rw [← h9, ← Complex.mul_conj, ← hw]
  have : conj w ≠ 0 := by simpa using hwne
  field_simp

/-- The root chosen by the code lies in the first quadrant when both dielectric constants do. -/
theorem bruggeman_first_quadrant (σ : Bool) {Ea Eb : ℂ} (ha : 0 < Ea.re ∧ 0 ≤ Ea.im)
    (hb : 0 < Eb.re ∧ 0 ≤ Eb.im) {f L : ℝ} (hf : 0 ≤ f ∧ f ≤ 1) (hL : 0 < L ∧ L < 1) :
    ∃ t p q : ℝ, 0 < t ∧ 0 ≤ p ∧ 0 ≤ q ∧ 0 < p + q ∧
      bruggemanE σ Ea Eb f L = t * (p * Ea + q * Eb) := by
  have hL' : L ≠ 1 := hL.2.ne
  have hL1 : 0 < 1 - L := by linarith [hL.2]
  have hL1c : (1 - L : ℂ) ≠ 0 := by exact_mod_cast hL1.ne'
  have hane : Ea ≠ 0 := by rintro rfl; simp at ha
  have hbne : Eb ≠ 0 := by rintro rfl; simp at hb
  set s := npSqrt σ (bruggemanD Ea Eb f L) with hs
  have hs2 : s ^ 2 = bruggemanD Ea Eb f L := npSqrt_sq _ _
  have hsre : 0 ≤ s.re := npSqrt_re_nonneg _ _
  set b := bruggemanB Ea Eb f L with hb'
  have h1 := bruggeman_quadratic hL' hs2 (e := (b + s) / (2 * (1 - L))) rfl
  have h2 := bruggeman_quadratic hL' (s := -s) (by rw [← hs2]; ring)
    (e := (b + -s) / (2 * (1 - L))) rfl
  obtain ⟨t, p, q, hp, hq, hpq, he⟩ := bruggeman_root_cone ha hb hf hL h1
  obtain ⟨t', p', q', hp', hq', hpq', he'⟩ := bruggeman_root_cone ha hb hf hL h2
  rw [bruggeman_eq σ hL']
  refine ⟨t, p, q, ?_, hp, hq, hpq, he⟩
  have cone_re : ∀ {p q : ℝ}, 0 ≤ p → 0 ≤ q → 0 < p + q →
      0 < ((p : ℂ) * Ea + q * Eb).re := by
    intro p q hp hq hpq
    have : ((p : ℂ) * Ea + q * Eb).re = p * Ea.re + q * Eb.re := by simp
    rw [this]
    rcases hp.lt_or_eq with h | h
    · have := mul_pos h ha.1
      have := mul_nonneg hq hb.1.le
      linarith
    · have : 0 < q := by linarith
      have := mul_pos this hb.1
      rw [← h]; linarith
  have hw := cone_re hp hq hpq
  have hw' := cone_re hp' hq' hpq'
  -- product of the roots
  have hprod : (b + s) / (2 * (1 - L)) * ((b + -s) / (2 * (1 - L)))
      = -((L / (1 - L) : ℝ) : ℂ) * (Ea * Eb) := by
    have : s ^ 2 = b ^ 2 - 4 * (L - 1) * (Ea * Eb * L) := by rw [hs2]; rfl
    push_cast
    field_simp
    linear_combination -this
  have hdiff : ((b + s) / (2 * (1 - L))).re - ((b + -s) / (2 * (1 - L))).re = s.re / (1 - L) := by
    rw [← Complex.sub_re]
    have : (b + s) / (2 * (1 - L)) - (b + -s) / (2 * (1 - L)) = s / ((1 - L : ℝ) : ℂ) := by
      push_cast; field_simp; ring
    rw [this, Complex.div_ofReal_re]
  by_contra hneg
  have hκ : 0 < L / (1 - L) := div_pos hL.1 hL1
  have hne1 : t ≠ 0 := by
    rintro rfl
    rw [he] at hprod
    simp only [Complex.ofReal_zero, zero_mul] at hprod
    have : ((L / (1 - L) : ℝ) : ℂ) ≠ 0 := by exact_mod_cast hκ.ne'
    have := mul_ne_zero (neg_ne_zero.mpr this) (mul_ne_zero hane hbne)
    exact this hprod.symm
  have ht : t < 0 := lt_of_le_of_ne (not_lt.mp hneg) hne1
  have ht' : t' < 0 := by
    by_contra hc
    push Not at hc
    rw [he, he', Complex.re_ofReal_mul, Complex.re_ofReal_mul] at hdiff
    have a1 := mul_neg_of_neg_of_pos ht hw
    have a2 := mul_nonneg hc hw'.le
    have a3 : 0 ≤ s.re / (1 - L) := div_nonneg hsre hL1.le
    linarith
  rw [he, he'] at hprod
  -- divide by Ea Eb
  have htt : 0 < t * t' := mul_pos_of_neg_of_neg ht ht'
  have hz : ((t * t' * (p * p') : ℝ) : ℂ) * (Ea / Eb)
      + ((t * t' * (p * q' + p' * q) + L / (1 - L) : ℝ) : ℂ)
      + ((t * t' * (q * q') : ℝ) : ℂ) * (Eb / Ea) = 0 := by
    have : (Ea * Eb) * (((t * t' * (p * p') : ℝ) : ℂ) * (Ea / Eb)
      + ((t * t' * (p * q' + p' * q) + L / (1 - L) : ℝ) : ℂ)
      + ((t * t' * (q * q') : ℝ) : ℂ) * (Eb / Ea)) = 0 := by
      have k : (Ea * Eb) * (((t * t' * (p * p') : ℝ) : ℂ) * (Ea / Eb)
        + ((t * t' * (p * q' + p' * q) + L / (1 - L) : ℝ) : ℂ)
        + ((t * t' * (q * q') : ℝ) : ℂ) * (Eb / Ea))
        = (t * (p * Ea + q * Eb)) * (t' * (p' * Ea + q' * Eb))
          + ((L / (1 - L) : ℝ) : ℂ) * (Ea * Eb) := by
        push_cast
        field_simp
        ring
      rw [k, hprod]; ring
    exact (mul_eq_zero.mp this).resolve_left (mul_ne_zero hane hbne)
  have hre := congrArg Complex.re hz
  rw [Complex.add_re, Complex.add_re, Complex.re_ofReal_mul, Complex.re_ofReal_mul,
    Complex.ofReal_re, Complex.zero_re] at hre
  have hda : 0 < (Ea / Eb).re := by
    rw [Complex.div_re, ← add_div]
    apply div_pos _ (Complex.normSq_pos.mpr hbne)
    have := mul_pos ha.1 hb.1
    have := mul_nonneg ha.2 hb.2
    linarith
  have hdb : 0 < (Eb / Ea).re := by
    rw [Complex.div_re, ← add_div]
    apply div_pos _ (Complex.normSq_pos.mpr hane)
    have := mul_pos hb.1 ha.1
    have := mul_nonneg hb.2 ha.2
    linarith
  have c1 : 0 ≤ t * t' * (p * p') * (Ea / Eb).re := by positivity
  have c2 : 0 ≤ t * t' * (p * q' + p' * q) := by positivity
  have c3 : 0 ≤ t * t' * (q * q') * (Eb / Ea).re := by positivity
  linarith

end Verif.EMA
