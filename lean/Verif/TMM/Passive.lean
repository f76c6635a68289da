import Verif.TMM.Flux
import Mathlib.Analysis.SpecialFunctions.Trigonometric.Bounds

/-! Passive stacks: no zero denominators, power inequality. -/

namespace Verif.TMM

open Complex (I)
open scoped ComplexConjugate

/-- Direction of `n cos θ` in a passive medium: to the right of the imaginary axis, or on it on
the side selected by the sign of `s`, or zero. -/
def Fwd (s : ℝ) (z : ℂ) : Prop := 0 < z.re ∨ (z.re = 0 ∧ z.im * s < 0) ∨ z = 0

theorem Fwd.re_nonneg {s : ℝ} {z : ℂ} (h : Fwd s z) : 0 ≤ z.re := by
  rcases h with h | h | h
  · exact h.le
  · exact h.1.ge
  · simp [h]

theorem Fwd.add_ne_zero {s : ℝ} {x y : ℂ} (hx : Fwd s x) (hy : Fwd s y) (h0 : x ≠ 0) :
    x + y ≠ 0 := by
  intro h
  have hre := congrArg Complex.re h
  have him := congrArg Complex.im h
  simp only [Complex.add_re, Complex.add_im, Complex.zero_re, Complex.zero_im] at hre him
  have hx0 := hx.re_nonneg
  have hy0 := hy.re_nonneg
  rcases hx with hx | ⟨hx, hx'⟩ | hx
  · linarith
  · rcases hy with hy | ⟨hy, hy'⟩ | hy
    · linarith
    · have : (x.im + y.im) * s < 0 := by rw [add_mul]; linarith
      rw [him] at this; simp at this
    · rw [hy] at him; simp at him
      rw [him] at hx'; simp at hx'
  · exact h0 hx

theorem qOf_fwd {n : ℂ} (hn : PassiveIndex n) (s : ℝ) : Fwd s (qOf s n) := by
  rcases qOf_cases hn s with h | ⟨_, _, h⟩ | ⟨_, _, h⟩ | ⟨_, h1, h2, h3⟩ | ⟨_, h1, h2, h3⟩
  · exact Or.inl h.1
  · exact Or.inr (Or.inr h)
  · exact Or.inr (Or.inr h)
  · refine Or.inr (Or.inl ⟨h2, mul_neg_of_neg_of_pos h3 ?_⟩); linarith [hn.1]
  · refine Or.inr (Or.inl ⟨h2, mul_neg_of_pos_of_neg h3 ?_⟩); linarith [hn.1]

/-- `q * |n|^4 / n^2` in terms of `q` and `s`. -/
theorem eta_eq {n q : ℂ} {s : ℝ} (hn : n ≠ 0) (hq : q ^ 2 = n ^ 2 - s ^ 2) :
    q / n ^ 2 = ((q.re * (Complex.normSq q + s ^ 2) / Complex.normSq n ^ 2 : ℝ) : ℂ) +
      ((q.im * (s ^ 2 - Complex.normSq q) / Complex.normSq n ^ 2 : ℝ) : ℂ) * I := by
  have hN : (Complex.normSq n : ℂ) = n * conj n := (Complex.mul_conj n).symm
  have hN' : (Complex.normSq n : ℂ) ≠ 0 := by
    simpa using hn
  have hcn : conj n ≠ 0 := by simpa using hn
  have hn2 : n ^ 2 = q ^ 2 + s ^ 2 := by rw [hq]; ring
  have hcn2 : conj n ^ 2 = conj q ^ 2 + s ^ 2 := by
    have := congrArg conj hn2
    simpa using this
  have hQ : (Complex.normSq q : ℂ) = q * conj q := (Complex.mul_conj q).symm
  have hre : (q.re : ℂ) = (q + conj q) / 2 := by rw [Complex.re_eq_add_conj]
  have him : (q.im : ℂ) * I = (q - conj q) / 2 := by
    rw [Complex.im_eq_sub_conj]; field_simp
  have e1 : q / n ^ 2 = q * conj n ^ 2 / (Complex.normSq n : ℂ) ^ 2 := by
    rw [hN]; field_simp
  rw [e1, hcn2]
  push_cast
  rw [hQ]
  have : (q.im : ℂ) * (s ^ 2 - q * conj q) / (Complex.normSq n : ℂ) ^ 2 * I
      = ((q.im : ℂ) * I) * (s ^ 2 - q * conj q) / (Complex.normSq n : ℂ) ^ 2 := by ring
  rw [this, him, hre]
  field_simp
  ring

theorem eta_re {n q : ℂ} {s : ℝ} (hn : n ≠ 0) (hq : q ^ 2 = n ^ 2 - s ^ 2) :
    (q / n ^ 2).re = q.re * (Complex.normSq q + s ^ 2) / Complex.normSq n ^ 2 := by
  rw [eta_eq hn hq]; simp [-Complex.ofReal_div, -Complex.ofReal_mul]

theorem eta_im {n q : ℂ} {s : ℝ} (hn : n ≠ 0) (hq : q ^ 2 = n ^ 2 - s ^ 2) :
    (q / n ^ 2).im = q.im * (s ^ 2 - Complex.normSq q) / Complex.normSq n ^ 2 := by
  rw [eta_eq hn hq]; simp [-Complex.ofReal_div, -Complex.ofReal_mul]

theorem eta_fwd {n : ℂ} (hn : PassiveIndex n) (s : ℝ) : Fwd s (qOf s n / n ^ 2) := by
  have hn0 := hn.ne_zero
  have hN : 0 < Complex.normSq n := Complex.normSq_pos.mpr hn0
  have hq := qOf_sq s hn0
  have imag : ∀ {i : ℝ}, n.im = 0 → (qOf s n).re = 0 → (qOf s n).im * i < 0 →
      (qOf s n / n ^ 2).re = 0 ∧ (qOf s n / n ^ 2).im * i < 0 := by
    intro i h1 h2 h3
    have e : qOf s n / n ^ 2 = ((qOf s n).im / n.re ^ 2 : ℝ) * I := by
      rw [ofReal_of_im_zero h1]
      have : qOf s (n.re : ℂ) = ((qOf s (n.re : ℂ)).im : ℂ) * I := by
        rw [← ofReal_of_im_zero h1]
        apply Complex.ext <;> simp [h2]
      nth_rw 1 [this]
      push_cast
      simp
      ring
    rw [e]
    constructor
    · simp [-Complex.ofReal_div]
    · simp only [Complex.mul_im, Complex.ofReal_re, Complex.I_im, mul_one, Complex.ofReal_im,
        Complex.I_re, mul_zero, add_zero]
      rw [div_mul_eq_mul_div]
      exact div_neg_of_neg_of_pos h3 (pow_pos hn.1 2)
  rcases qOf_cases hn s with h | ⟨_, _, h⟩ | ⟨_, _, h⟩ | ⟨h0, h1, h2, h3⟩ | ⟨h0, h1, h2, h3⟩
  · left
    rw [eta_re hn0 hq]
    have : 0 < Complex.normSq (qOf s n) := by
      apply Complex.normSq_pos.mpr
      intro h0; rw [h0] at h; simp at h
    have := h.1
    positivity
  · right; right; rw [h]; simp
  · right; right; rw [h]; simp
  · exact Or.inr (Or.inl (imag h0 h2 (mul_neg_of_neg_of_pos h3 (by linarith [hn.1]))))
  · exact Or.inr (Or.inl (imag h0 h2 (mul_neg_of_pos_of_neg h3 (by linarith [hn.1]))))

/-- A medium with the direction chosen by the code. -/
def CodeDir (s : ℝ) (m : Medium) : Prop := PassiveIndex m.n ∧ m.c = root1m (s / m.n)

theorem CodeDir.q {s : ℝ} {m : Medium} (h : CodeDir s m) : m.n * m.c = qOf s m.n := by
  rw [h.2, qOf]

theorem den_ne_zero {s : ℝ} {m m' : Medium} (h : CodeDir s m) (h' : CodeDir s m')
    (hq : m.n * m.c ≠ 0) (pol : Pol) : den pol m m' ≠ 0 := by
  have hn := h.1.ne_zero
  have hn' := h'.1.ne_zero
  cases pol
  · simp only [den]
    rw [h.q, h'.q]
    rw [h.q] at hq
    exact (qOf_fwd h.1 s).add_ne_zero (qOf_fwd h'.1 s) hq
  · simp only [den]
    have e : m'.n * m.c + m.n * m'.c =
        m.n * m'.n * (qOf s m.n / m.n ^ 2 + qOf s m'.n / m'.n ^ 2) := by
      rw [← h.q, ← h'.q]; field_simp
    rw [e]
    refine mul_ne_zero (mul_ne_zero hn hn') ?_
    apply (eta_fwd h.1 s).add_ne_zero (eta_fwd h'.1 s)
    rw [← h.q]
    exact div_ne_zero hq (pow_ne_zero 2 hn)

theorem nondeg_of_codeDir {s : ℝ} {ms : List Medium} {b : Medium}
    (hms : ∀ m ∈ ms, CodeDir s m ∧ m.n * m.c ≠ 0) (hb : CodeDir s b) (pol : Pol) :
    ∀ {m : Medium}, CodeDir s m → m.n * m.c ≠ 0 → Nondeg pol m (ms ++ [b]) := by
  induction ms with
  | nil => intro m hm hq; exact ⟨⟨den_ne_zero hm hb hq pol, hq⟩, trivial⟩
  | cons a ms ih =>
    intro m hm hq
    have ha := hms a List.mem_cons_self
    exact ⟨⟨den_ne_zero hm ha.1 hq pol, hq⟩,
      ih (fun m hm => hms m (List.mem_cons_of_mem _ hm)) ha.1 ha.2⟩

/-! ### Flux coefficients of the code's media -/

theorem kap_s {s : ℝ} {m : Medium} (h : CodeDir s m) : kap .s m = conj (qOf s m.n) := by
  rw [kap, h.q]

theorem kap_p {s : ℝ} {m : Medium} (h : CodeDir s m) :
    (kap .p m).re = (qOf s m.n).re *
      ((Complex.normSq (qOf s m.n) + s ^ 2) / Complex.normSq m.n) ∧
    (kap .p m).im = (qOf s m.n).im *
      ((Complex.normSq (qOf s m.n) - s ^ 2) / Complex.normSq m.n) := by
  have hn := h.1.ne_zero
  have hN : (Complex.normSq m.n : ℝ) ≠ 0 := by simpa using hn
  have e : kap .p m = (Complex.normSq m.n : ℂ) * conj (qOf s m.n / m.n ^ 2) := by
    rw [kap, ← h.q, ← Complex.mul_conj]
    have hcn : conj m.n ≠ 0 := by simpa using hn
    simp only [map_div₀, map_mul, map_pow]
    field_simp
  have hq := qOf_sq s hn
  rw [e, Complex.re_ofReal_mul, Complex.im_ofReal_mul, Complex.conj_re, Complex.conj_im,
    eta_re hn hq, eta_im hn hq]
  constructor
  · field_simp
  · field_simp
    ring

theorem kap_re_nonneg {s : ℝ} {m : Medium} (h : CodeDir s m) (pol : Pol) : 0 ≤ (kap pol m).re := by
  have hr := (qOf_fwd h.1 s).re_nonneg
  cases pol
  · rw [kap_s h]; simpa using hr
  · rw [(kap_p h).1]
    apply mul_nonneg hr
    exact div_nonneg (add_nonneg (Complex.normSq_nonneg _) (sq_nonneg _)) (Complex.normSq_nonneg _)

/-- A factor `A ≥ 0` relating flux coefficient and `n cos θ`. -/
theorem kap_bound {s : ℝ} {m : Medium} (h : CodeDir s m) (pol : Pol) :
    ∃ A : ℝ, 0 ≤ A ∧ (kap pol m).re = (qOf s m.n).re * A ∧
      |(kap pol m).im| ≤ |(qOf s m.n).im| * A := by
  cases pol
  · exact ⟨1, zero_le_one, by rw [kap_s h]; simp, by rw [kap_s h]; simp⟩
  · have hN : 0 < Complex.normSq m.n := Complex.normSq_pos.mpr h.1.ne_zero
    have hQ := Complex.normSq_nonneg (qOf s m.n)
    refine ⟨_, ?_, (kap_p h).1, ?_⟩
    · positivity
    · rw [(kap_p h).2, abs_mul]
      apply mul_le_mul_of_nonneg_left _ (abs_nonneg _)
      rw [abs_div, abs_of_pos hN]
      apply div_le_div_of_nonneg_right _ hN.le
      rw [abs_le]
      constructor <;> nlinarith [sq_nonneg s]

theorem damps_of_film {s : ℝ} {m : Medium} (h : CodeDir s m) {x : ℝ} (hx : 0 ≤ x)
    (hδ : m.δ = clip35 (x * qOf s m.n)) (hc : x * (qOf s m.n).im ≤ Real.sinh 35) (pol : Pol) :
    Damps pol m := by
  obtain ⟨A, hA, hre, him⟩ := kap_bound h pol
  have ha : m.δ.re = x * (qOf s m.n).re := by rw [hδ, clip35]; simp
  have hb : m.δ.im = min (x * (qOf s m.n).im) 35 := by rw [hδ, clip35]; simp
  unfold Damps
  rw [hre, ha, hb]
  set q := qOf s m.n
  have hr := (qOf_fwd h.1 s).re_nonneg
  rcases hr.lt_or_eq with hr | hr
  · have hi : 0 ≤ q.im := by
      rcases qOf_cases h.1 s with h' | ⟨_, _, h'⟩ | ⟨_, _, h'⟩ | ⟨_, _, h', _⟩ | ⟨_, _, h', _⟩
      · exact h'.2
      · rw [h'] at hr; simp at hr
      · rw [h'] at hr; simp at hr
      · linarith
      · linarith
    rw [abs_of_nonneg hi] at him
    have hsin : |Real.sin (x * q.re)| ≤ x * q.re := by
      have h0 : 0 ≤ x * q.re := mul_nonneg hx hr.le
      have := Real.abs_sin_le_abs (x := x * q.re)
      rwa [abs_of_nonneg h0] at this
    have hs : x * q.im ≤ Real.sinh (min (x * q.im) 35) := by
      rcases le_total (x * q.im) 35 with h' | h'
      · rw [min_eq_left h']
        exact Real.self_le_sinh_iff.mpr (mul_nonneg hx hi)
      · rw [min_eq_right h']; exact hc
    calc |(kap pol m).im| * |Real.sin (x * q.re)| ≤ (q.im * A) * (x * q.re) := by
          apply mul_le_mul him hsin (abs_nonneg _); positivity
      _ = (q.re * A) * (x * q.im) := by ring
      _ ≤ (q.re * A) * Real.sinh (min (x * q.im) 35) := by
          apply mul_le_mul_of_nonneg_left hs; positivity
  · rw [← hr]; simp

/-- From no field at all nothing is transmitted. -/
theorem fields_zero {pol : Pol} {ms : List Medium} {b : Medium} {t : ℂ}
    (hms : ∀ m ∈ ms, m.n * m.c ≠ 0) (hb : b.n ≠ 0) : ∀ {m : Medium},
    Fields pol m 0 0 (ms ++ [b]) t → t = 0 := by
  induction ms with
  | nil =>
    intro m hf
    cases pol
    · have := (show _ ∧ _ from hf).1; simpa using this.symm
    · have := (show _ ∧ _ from hf).1
      simp only [add_zero, mul_zero] at this
      rcases mul_eq_zero.mp this.symm with h | h
      · exact absurd h hb
      · exact h
  | cons a ms ih =>
    intro m hf
    rw [List.cons_append, fields_cons (by simp)] at hf
    obtain ⟨v', w', ht, hf⟩ := hf
    have hne := hms a List.mem_cons_self
    have hn : a.n ≠ 0 := left_ne_zero_of_mul hne
    have hc : a.c ≠ 0 := right_ne_zero_of_mul hne
    have h0 : v' + w' = 0 ∧ v' - w' = 0 := by
      cases pol
      · obtain ⟨h1, h2⟩ := ht
        simp only [add_zero, sub_zero, mul_zero] at h1 h2
        exact ⟨h1.symm, (mul_eq_zero.mp h2.symm).resolve_left hne⟩
      · obtain ⟨h1, h2⟩ := ht
        simp only [add_zero, sub_zero, mul_zero] at h1 h2
        exact ⟨(mul_eq_zero.mp h1.symm).resolve_left hn, (mul_eq_zero.mp h2.symm).resolve_left hc⟩
    have hv : v' = 0 := by linear_combination (h0.1 + h0.2) / 2
    have hw : w' = 0 := by linear_combination (h0.1 - h0.2) / 2
    rw [hv, hw, zero_mul, zero_mul] at hf
    exact ih (fun m hm => hms m (List.mem_cons_of_mem _ hm)) hf

/-- A passive calculation always has a finite result, and power does not grow. -/
theorem solveL_passive {s : ℝ} {pol : Pol} {m0 b : Medium} {ms : List Medium}
    (h0 : CodeDir s m0) (hk0 : 0 < (kap pol m0).re) (hq0 : m0.n * m0.c ≠ 0)
    (hms : ∀ m ∈ ms, CodeDir s m ∧ m.n * m.c ≠ 0) (hd : ∀ m ∈ ms, Damps pol m)
    (hb : CodeDir s b) :
    ∃ r t, solveL pol m0 (ms ++ [b]) = some (r, t) := by
  have hnd := nondeg_of_codeDir hms hb pol h0 hq0
  obtain ⟨m1, rest, hL⟩ : ∃ m1 rest, ms ++ [b] = m1 :: rest := by
    cases ms <;> exact ⟨_, _, rfl⟩
  have ha : (prod pol m0 (ms ++ [b])).a ≠ 0 := by
    intro ha
    have hf : Fields pol m0 0 ((prod pol m0 (ms ++ [b])).c) (ms ++ [b]) 1 := by
      rw [hL] at hnd ha ⊢
      rw [fields_iff hnd, ha]; simp
    have h1 := fields_flux_le hd hf
    rw [flux_forward, flux_expand] at h1
    have h2 := kap_re_nonneg hb pol
    have h3 : Complex.normSq ((prod pol m0 (ms ++ [b])).c) ≤ 0 := by
      simp only [map_one, mul_one, map_zero, zero_sub, mul_neg, zero_mul, Complex.zero_im,
        mul_zero, add_zero] at h1
      by_contra hc
      have := mul_pos hk0 (not_le.mp hc)
      linarith
    have h4 : (prod pol m0 (ms ++ [b])).c = 0 :=
      Complex.normSq_eq_zero.mp (le_antisymm h3 (Complex.normSq_nonneg _))
    rw [h4] at hf
    have := fields_zero (fun m hm => (hms m hm).2) hb.1.ne_zero hf
    exact one_ne_zero this
  rw [hL] at hnd ha ⊢
  exact ⟨_, _, solve_eq_some.mpr ⟨hnd, ha, rfl, rfl⟩⟩

end Verif.TMM
