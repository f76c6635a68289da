import Verif.Disp.Fractions
import Verif.Disp.PropsUser

/-! # C171: the parameters of a dispersion law can be read off the index -/

namespace Verif.Disp

open Polynomial

/-! ### Spec -/

/-- The total amplitude of the oscillators with broadening and energy `k`. -/
noncomputable def strength (osc : List (ℝ × ℝ × ℝ)) (k : ℝ × ℝ) : ℝ :=
  open Classical in (osc.map fun o => if o.2 = k then o.1 else 0).sum

/-- No two oscillators share broadening and energy, and none has amplitude 0. -/
def Distinct (osc : List (ℝ × ℝ × ℝ)) : Prop :=
  (osc.map (·.2)).Nodup ∧ ∀ o ∈ osc, o.1 ≠ 0

/-- Every oscillator oscillates: its broadening is not negative and less than twice its energy. -/
def Underdamped (osc : List (ℝ × ℝ × ℝ)) : Prop :=
  ∀ o ∈ osc, 0 ≤ o.2.1 ∧ o.2.1 < 2 * o.2.2

/-! ### Lists of oscillators -/

theorem strength_cons (o : ℝ × ℝ × ℝ) (osc : List (ℝ × ℝ × ℝ)) (k : ℝ × ℝ) :
    strength (o :: osc) k = (open Classical in if o.2 = k then o.1 else 0) + strength osc k := by
  simp [strength]

theorem sum_by_key {osc : List (ℝ × ℝ × ℝ)} {s : Finset (ℝ × ℝ)} (hs : ∀ o ∈ osc, o.2 ∈ s) (g : ℝ × ℝ → ℂ) :
    (osc.map fun o => (o.1 : ℂ) * g o.2).sum = ∑ k ∈ s, (strength osc k : ℂ) * g k := by
  classical
  induction osc with
  | nil => simp [strength]
  | cons o osc ih =>
    rw [List.map_cons, List.sum_cons, ih fun o ho => hs o (List.mem_cons_of_mem _ ho)]
    simp only [strength_cons, Complex.ofReal_add, add_mul, Finset.sum_add_distrib]
    congr 1
    rw [Finset.sum_eq_single o.2]
    · simp
    · intro k _ hk; simp [hk.symm]
    · exact fun h => absurd (hs o (by simp)) h

theorem strength_absent {osc : List (ℝ × ℝ × ℝ)} {k : ℝ × ℝ} (h : ∀ o ∈ osc, o.2 ≠ k) : strength osc k = 0 := by
  unfold strength
  refine List.sum_eq_zero fun x hx => ?_
  obtain ⟨o, ho, rfl⟩ := List.mem_map.mp hx
  simp [h o ho]

theorem strength_of_mem {osc : List (ℝ × ℝ × ℝ)} (h : (osc.map (·.2)).Nodup) {o : ℝ × ℝ × ℝ} (ho : o ∈ osc) :
    strength osc o.2 = o.1 := by
  induction osc with
  | nil => simp at ho
  | cons p osc ih =>
    rw [List.map_cons, List.nodup_cons] at h
    rw [strength_cons]
    rcases List.mem_cons.mp ho with rfl | ho
    · rw [strength_absent fun p hp heq => h.1 (List.mem_map.mpr ⟨p, hp, heq⟩)]
      simp
    · have : p.2 ≠ o.2 := fun heq => h.1 (List.mem_map.mpr ⟨o, ho, heq.symm⟩)
      rw [ih h.2 ho]; simp [this]

theorem perm_of_strength {osc osc' : List (ℝ × ℝ × ℝ)} (h : Distinct osc) (h' : Distinct osc')
    (hs : ∀ k, strength osc k = strength osc' k) : osc.Perm osc' := by
  have key : ∀ {a b : List (ℝ × ℝ × ℝ)}, Distinct a → Distinct b → (∀ k, strength a k = strength b k) →
      ∀ o ∈ a, o ∈ b := by
    intro a b ha hb hs o ho
    have h1 := strength_of_mem ha.1 ho
    rw [hs] at h1
    by_cases hex : ∃ p ∈ b, p.2 = o.2
    · obtain ⟨p, hp, hpo⟩ := hex
      have h2 := strength_of_mem hb.1 hp
      rw [hpo, h1] at h2
      have : o = p := Prod.ext h2 hpo.symm
      exact this ▸ hp
    · push Not at hex
      rw [strength_absent hex] at h1
      exact absurd h1.symm (ha.2 o ho)
  refine (List.perm_ext_iff_of_nodup h.1.of_map h'.1.of_map).mpr fun o => ⟨key h h' hs o, ?_⟩
  exact key h' h (fun k => (hs k).symm) o

/-! ### Cauchy -/

/-- C171: three wavelengths determine the Cauchy parameters. -/
theorem C171_cauchy {A B C A' B' C' wl wl' : ℝ} (z z' : SqrtOracle) {T : Finset ℝ} (hT : 3 ≤ T.card)
    (h0 : ∀ w ∈ T, 0 < w)
    (h : ∀ w ∈ T, (Scat.cauchy wl A B C).complex z (some w) = (Scat.cauchy wl' A' B' C').complex z' (some w)) :
    A = A' ∧ B = B' ∧ C = C' := by
  classical
  set x : ℝ → ℝ := fun w => 1 / (w / 1000) ^ 2 with hx
  have hinj : Set.InjOn x T := by
    intro v hv w hw hvw
    have hv0 := h0 v hv
    have hw0 := h0 w hw
    simp only [hx] at hvw
    have h1 : (v / 1000) ^ 2 = (w / 1000) ^ 2 := by
      have := congrArg (fun y : ℝ => y⁻¹) hvw
      simpa using this
    have h2 := (pow_left_inj₀ (by positivity) (by positivity) (by norm_num)).mp h1
    linarith
  set p : ℝ[X] := Polynomial.C (A - A') + Polynomial.C (B - B') * X + Polynomial.C (C - C') * X ^ 2 with hp
  have hp0 : p = 0 := by
    refine eq_zero_of_natDegree_lt_card_of_eval_eq_zero' p (T.image x) ?_ ?_
    · intro y hy
      obtain ⟨w, hw, rfl⟩ := Finset.mem_image.mp hy
      have hw0 := h0 w hw
      have h1 := h w hw
      rw [C49_cauchy z wl A B C hw0, C49_cauchy z' wl' A' B' C' hw0] at h1
      have h2 := congrArg Complex.re (Option.some.inj h1)
      simp only at h2
      simp only [hp, hx, eval_add, eval_mul, eval_C, eval_X, eval_pow]
      have h3 : ∀ b : ℝ, b / (w / 1000) ^ 2 = b * (1 / (w / 1000) ^ 2) := fun b => by ring
      have h4 : ∀ c : ℝ, c / (w / 1000) ^ 4 = c * (1 / (w / 1000) ^ 2) ^ 2 := fun c => by
        field_simp
      rw [h3, h3, h4, h4] at h2
      linear_combination h2
    · rw [Finset.card_image_of_injOn hinj]
      have : p.natDegree ≤ 2 := by rw [hp]; compute_degree
      omega
  have hc : ∀ n, p.coeff n = 0 := fun n => by rw [hp0, coeff_zero]
  have e0 := hc 0
  have e1 := hc 1
  have e2 := hc 2
  simp [hp, coeff_X, coeff_C, coeff_X_pow, -map_sub] at e0 e1 e2
  exact ⟨by linarith, by linarith, by linarith⟩

/-- Three wavelengths in the visible. -/
example : 3 ≤ ({400, 500, 600} : Finset ℝ).card ∧ ∀ w ∈ ({400, 500, 600} : Finset ℝ), 0 < w := by
  constructor
  · rw [Finset.card_insert_of_notMem (by norm_num), Finset.card_insert_of_notMem (by norm_num)]
    simp
  · intro w hw
    simp only [Finset.mem_insert, Finset.mem_singleton] at hw
    rcases hw with rfl | rfl | rfl <;> norm_num

/-! ### Sellmeier -/

theorem sellmeier_some {wl Am En P einf : ℝ} {z : SqrtOracle} {w : ℝ} (hw : 0 < w) {N : ℂ}
    (h : (Scat.sellmeier wl Am En P einf).complex z (some w) = some N) :
    (w / 1000) ^ 2 ≠ En ^ 2 ∧
    N ^ 2 = ((einf + Am * (w / 1000) ^ 2 / ((w / 1000) ^ 2 - En ^ 2) - P * (w / 1000) ^ 2 : ℝ) : ℂ) := by
  obtain ⟨h1, h2, h3⟩ := C50_square z wl Am En P einf (w := w) hw.ne' rfl rfl
  have hne : (w / 1000) ^ 2 ≠ En ^ 2 := by
    intro hc
    rw [h3 hc] at h
    simp at h
  refine ⟨hne, ?_⟩
  rcases le_or_gt 0 (einf + Am * (w / 1000) ^ 2 / ((w / 1000) ^ 2 - En ^ 2) - P * (w / 1000) ^ 2) with hε | hε
  · obtain ⟨M, hM, -, -, hM2⟩ := h1 hne hε
    rw [hM] at h
    rw [← Option.some.inj h]
    exact hM2
  · rw [h2 hne hε] at h
    simp at h

/-- C171: four wavelengths determine the Sellmeier parameters, if there is a resonance at all. -/
theorem C171_sellmeier {Am En P einf Am' En' P' einf' wl wl' : ℝ} (hA : Am ≠ 0) (hE : 0 < En) (hE' : 0 < En')
    (z z' : SqrtOracle) {T : Finset ℝ} (hT : 4 ≤ T.card) (h0 : ∀ w ∈ T, 0 < w) {N : ℝ → ℂ}
    (h : ∀ w ∈ T, (Scat.sellmeier wl Am En P einf).complex z (some w) = some (N w))
    (h' : ∀ w ∈ T, (Scat.sellmeier wl' Am' En' P' einf').complex z' (some w) = some (N w)) :
    Am = Am' ∧ En = En' ∧ P = P' ∧ einf = einf' := by
  classical
  set x : ℝ → ℝ := fun w => (w / 1000) ^ 2 with hx
  have hinj : Set.InjOn x T := by
    intro v hv w hw hvw
    have hv0 := h0 v hv
    have hw0 := h0 w hw
    have h2 := (pow_left_inj₀ (by positivity) (by positivity) (by norm_num)).mp hvw
    linarith
  set q : ℝ → ℝ[X] := fun k => X - Polynomial.C k with hq
  set c : ℝ → ℝ[X] := fun k => Polynomial.C ((if k = En ^ 2 then Am * En ^ 2 else 0) -
    (if k = En' ^ 2 then Am' * En' ^ 2 else 0)) with hc
  set Q : ℝ[X] := Polynomial.C (einf + Am - einf' - Am') + Polynomial.C (P' - P) * X with hQ
  set s : Finset ℝ := {En ^ 2, En' ^ 2} with hs
  have hcard : s.card ≤ 2 := Finset.card_le_two
  have hmem : En ^ 2 ∈ s ∧ En' ^ 2 ∈ s := by simp [hs]
  obtain ⟨hr, hz⟩ := fractions_zero (s := s) (q := q) (c := c) (P := Q) (a := 1) (d := 1) (Z := T.image x)
    (fun k _ => by simp only [hq]; compute_degree) (fun k _ => by simp only [hc]; simp)
    (by rw [hQ]; compute_degree)
    (by rw [Finset.card_image_of_injOn hinj]; omega)
    (by
      intro y hy k hk
      obtain ⟨w, hw, rfl⟩ := Finset.mem_image.mp hy
      simp only [hq, eval_sub, eval_X, eval_C, hx, sub_ne_zero]
      rcases Finset.mem_insert.mp hk with rfl | hk
      · exact (sellmeier_some (h0 w hw) (h w hw)).1
      · rw [Finset.mem_singleton.mp hk]
        exact (sellmeier_some (h0 w hw) (h' w hw)).1)
    (by
      intro y hy
      obtain ⟨w, hw, rfl⟩ := Finset.mem_image.mp hy
      obtain ⟨n1, e1⟩ := sellmeier_some (h0 w hw) (h w hw)
      obtain ⟨n2, e2⟩ := sellmeier_some (h0 w hw) (h' w hw)
      rw [e2] at e1
      have e3 := Complex.ofReal_injective e1
      have hsum : ∑ k ∈ s, (c k).eval (x w) / (q k).eval (x w)
          = Am * En ^ 2 / (x w - En ^ 2) - Am' * En' ^ 2 / (x w - En' ^ 2) := by
        simp only [hc, hq, eval_C, eval_sub, eval_X, sub_div, Finset.sum_sub_distrib]
        congr 1
        · rw [Finset.sum_eq_single (En ^ 2)]
          · simp
          · intro k _ hk; simp [hk]
          · exact fun hn => absurd hmem.1 hn
        · rw [Finset.sum_eq_single (En' ^ 2)]
          · simp
          · intro k _ hk; simp [hk]
          · exact fun hn => absurd hmem.2 hn
      rw [hsum]
      simp only [hQ, eval_add, eval_mul, eval_C, eval_X]
      have m1 : x w - En ^ 2 ≠ 0 := sub_ne_zero.mpr n1
      have m2 : x w - En' ^ 2 ≠ 0 := sub_ne_zero.mpr n2
      change einf' + Am' * x w / (x w - En' ^ 2) - P' * x w = einf + Am * x w / (x w - En ^ 2) - P * x w at e3
      have s1 : Am * En ^ 2 / (x w - En ^ 2) = Am * x w / (x w - En ^ 2) - Am := by field_simp; ring
      have s2 : Am' * En' ^ 2 / (x w - En' ^ 2) = Am' * x w / (x w - En' ^ 2) - Am' := by field_simp; ring
      rw [s1, s2]
      linear_combination -e3)
  have hck : ∀ k ∈ s, (if k = En ^ 2 then Am * En ^ 2 else 0) - (if k = En' ^ 2 then Am' * En' ^ 2 else 0) = 0 := by
    intro k hk
    have := hr k hk k (by simp [hq]) (fun j _ hj => by simpa [hq, sub_ne_zero] using hj.symm)
    simpa [hc] using this
  have hQ0 : Q = 0 := hz fun k hk => by simp only [hc]; rw [hck k hk, map_zero]
  have k1 := hck _ hmem.1
  have hEE : En ^ 2 = En' ^ 2 := by
    by_contra hne
    rw [if_pos rfl, if_neg hne, sub_zero] at k1
    rcases mul_eq_zero.mp k1 with h1 | h1
    · exact hA h1
    · exact absurd h1 (by positivity)
  have hEn : En = En' := (pow_left_inj₀ hE.le hE'.le (by norm_num)).mp hEE
  rw [if_pos rfl, if_pos hEE, ← hEE, ← sub_mul] at k1
  have hAm : Am = Am' := by
    rcases mul_eq_zero.mp k1 with h1 | h1
    · linarith
    · exact absurd h1 (by positivity)
  have q0 : Q.coeff 0 = 0 := by rw [hQ0, coeff_zero]
  have q1 : Q.coeff 1 = 0 := by rw [hQ0, coeff_zero]
  simp [hQ, coeff_C] at q0 q1
  exact ⟨hAm, hEn, by linarith, by linarith⟩

/-- C171 needs the resonance: with `En = 0` amplitude and `einf` cannot be told apart. -/
theorem C171_fails_sellmeier (z : SqrtOracle) (wl P : ℝ) {a b a' b' : ℝ} (hab : a + b = a' + b') {w : ℝ} (hw : 0 < w) :
    (Scat.sellmeier wl a 0 P b).complex z (some w) = (Scat.sellmeier wl a' 0 P b').complex z (some w) := by
  have h1 : (w * 1e-3) ^ 2 ≠ 0 := by positivity
  have h2 : ∀ a b : ℝ, sellmeierReal a 0 P b w = some (a + b - P * (w * 1e-3) ^ 2) := by
    intro a b
    simp only [sellmeierReal, ne_eq, OfNat.ofNat_ne_zero, not_false_eq_true, zero_pow, sub_zero,
      rdiv_of_ne h1, Option.pure_def, Option.bind_eq_bind, Option.bind_some, Option.some.injEq]
    rw [mul_div_cancel_right₀ _ h1]; ring
  simp only [Scat.complex, Scat.at, Scat.ownWav, pick_ne hw.ne', h2, hab]

/-- Four wavelengths at which a Sellmeier model has an index. -/
example (z : SqrtOracle) : ∃ N : ℝ → ℂ, 4 ≤ ({400, 500, 600, 700} : Finset ℝ).card ∧
    ∀ w ∈ ({400, 500, 600, 700} : Finset ℝ), 0 < w ∧
      (Scat.sellmeier 658 2 0.1 0 1).complex z (some w) = some (N w) := by
  have h : ∀ w ∈ ({400, 500, 600, 700} : Finset ℝ), ∃ N, 0 < w ∧
      (Scat.sellmeier 658 2 0.1 0 1).complex z (some w) = some N := by
    intro w hw
    have hw4 : 400 ≤ w := by
      simp only [Finset.mem_insert, Finset.mem_singleton] at hw
      rcases hw with rfl | rfl | rfl | rfl <;> norm_num
    have h1 : (0.16 : ℝ) ≤ (w / 1000) ^ 2 := by
      have : (0.4 : ℝ) ≤ w / 1000 := by linarith
      nlinarith
    have h2 : (0 : ℝ) < (w / 1000) ^ 2 - 0.1 ^ 2 := by norm_num at h1 ⊢; linarith
    obtain ⟨N, hN, -⟩ := (C50_square z 658 2 0.1 0 1 (w := w) (by linarith) rfl rfl).1 (by
      intro hc; linarith) (by
      have h3 : 0 ≤ 2 * (w / 1000) ^ 2 / ((w / 1000) ^ 2 - 0.1 ^ 2) := div_nonneg (by positivity) h2.le
      linarith)
    exact ⟨N, by linarith, hN⟩
  choose! N hN using h
  refine ⟨N, ?_, hN⟩
  rw [Finset.card_insert_of_notMem (by norm_num), Finset.card_insert_of_notMem (by norm_num),
    Finset.card_insert_of_notMem (by norm_num)]
  simp

/-! ### Lorentz -/

/-- The denominator of the oscillator with broadening `k.1` and energy `k.2`. -/
noncomputable def lq (k : ℝ × ℝ) : ℂ[X] :=
  Polynomial.C ((k.2 : ℂ) ^ 2) - X ^ 2 - Polynomial.C (Complex.I * k.1) * X

theorem lq_eval (k : ℝ × ℝ) (x : ℂ) : (lq k).eval x = (k.2 : ℂ) ^ 2 - x ^ 2 - Complex.I * k.1 * x := by
  simp [lq]

/-- A root of this denominator. -/
noncomputable def lroot (k : ℝ × ℝ) : ℂ := ⟨Real.sqrt (k.2 ^ 2 - k.1 ^ 2 / 4), -(k.1 / 2)⟩

theorem lroot_re {k : ℝ × ℝ} (hk : 0 ≤ k.1 ∧ k.1 < 2 * k.2) :
    0 < (lroot k).re ∧ (lroot k).re ^ 2 = k.2 ^ 2 - k.1 ^ 2 / 4 := by
  have h : 0 < k.2 ^ 2 - k.1 ^ 2 / 4 := by nlinarith [hk.1, hk.2]
  exact ⟨Real.sqrt_pos.mpr h, Real.sq_sqrt h.le⟩

theorem lq_root {j k : ℝ × ℝ} (hk : 0 ≤ k.1 ∧ k.1 < 2 * k.2) (hj : 0 ≤ j.1 ∧ j.1 < 2 * j.2) :
    (lq j).eval (lroot k) = 0 ↔ j = k := by
  obtain ⟨h1, h2⟩ := lroot_re hk
  have hre : ((lq j).eval (lroot k)).re = j.2 ^ 2 - ((lroot k).re ^ 2 - (k.1 / 2) ^ 2) - j.1 * k.1 / 2 := by
    rw [lq_eval]
    simp [pow_two, lroot]
    ring
  have him : ((lq j).eval (lroot k)).im = (lroot k).re * (k.1 - j.1) := by
    rw [lq_eval]
    simp [pow_two, lroot]
    ring
  constructor
  · intro h
    rw [h] at hre him
    simp only [Complex.zero_re, Complex.zero_im] at hre him
    have e1 : j.1 = k.1 := by
      rcases mul_eq_zero.mp him.symm with h3 | h3
      · exact absurd h3 h1.ne'
      · linarith
    rw [h2, e1] at hre
    have e2 : j.2 ^ 2 = k.2 ^ 2 := by linarith
    exact Prod.ext e1 ((pow_left_inj₀ (by linarith [hj.1, hj.2]) (by linarith [hk.1, hk.2]) (by norm_num)).mp e2)
  · rintro rfl
    apply Complex.ext
    · rw [hre, h2]; simp; ring
    · rw [him]; simp

theorem lorentz_some {osc : List (ℝ × ℝ × ℝ)} {einf e : ℝ} {v : ℂ} (h : lorentzEps osc einf e = some v) :
    (∀ o ∈ osc, (lq o.2).eval (e : ℂ) ≠ 0) ∧
    v = (osc.map fun o => (o.1 : ℂ) * ((lq o.2).eval (e : ℂ))⁻¹).sum + einf := by
  unfold lorentzEps at h
  cases hs : sumO (osc.map (lorentzTerm e)) with
  | none => simp [hs] at h
  | some y =>
    simp only [hs, Option.pure_def, Option.bind_eq_bind, Option.bind_some, Option.some.injEq] at h
    have key : ∀ {osc : List (ℝ × ℝ × ℝ)} {y : ℂ}, sumO (osc.map (lorentzTerm e)) = some y →
        (∀ o ∈ osc, (lq o.2).eval (e : ℂ) ≠ 0) ∧
        y = (osc.map fun o => (o.1 : ℂ) * ((lq o.2).eval (e : ℂ))⁻¹).sum := by
      intro osc
      induction osc with
      | nil => intro y hy; simpa [sumO, eq_comm] using hy
      | cons o osc ih =>
        intro y hy
        cases ht : lorentzTerm e o with
        | none => simp [sumO, ht] at hy
        | some t =>
          cases hr : sumO (osc.map (lorentzTerm e)) with
          | none => simp [sumO, ht, hr] at hy
          | some r =>
            obtain ⟨i1, i2⟩ := ih hr
            obtain ⟨t1, t2⟩ := cdiv_eq_some.mp ht
            have hd : (lq o.2).eval (e : ℂ) = (o.2.2 : ℂ) ^ 2 - e ^ 2 - Complex.I * o.2.1 * e := lq_eval _ _
            simp [sumO, ht, hr] at hy
            refine ⟨?_, ?_⟩
            · intro p hp
              rcases List.mem_cons.mp hp with rfl | hp
              · rw [hd]; exact t1
              · exact i1 p hp
            · rw [← hy, List.map_cons, List.sum_cons, i2, t2, hd]
              rfl
    obtain ⟨k1, k2⟩ := key hs
    exact ⟨k1, by rw [← h, k2]⟩

theorem lq_conj (k : ℝ × ℝ) (e : ℝ) :
    (lq k).eval (-(e : ℂ)) = (starRingEnd ℂ) ((lq k).eval (e : ℂ)) := by
  rw [lq_eval, lq_eval]
  simp

/-- Equal dielectric functions at more energies than there are oscillators. -/
theorem lorentz_unique {osc osc' : List (ℝ × ℝ × ℝ)} (h : Underdamped osc) (h' : Underdamped osc') {einf einf' : ℝ}
    {T : Finset ℝ} (hT : osc.length + osc'.length < T.card) (h0 : ∀ e ∈ T, 0 < e) {v : ℝ → ℂ}
    (hv : ∀ e ∈ T, lorentzEps osc einf e = some (v e)) (hv' : ∀ e ∈ T, lorentzEps osc' einf' e = some (v e)) :
    einf = einf' ∧ ∀ k, strength osc k = strength osc' k := by
  classical
  set s : Finset (ℝ × ℝ) := ((osc ++ osc').map (·.2)).toFinset with hs
  have hsk : ∀ k ∈ s, 0 ≤ k.1 ∧ k.1 < 2 * k.2 := by
    intro k hk
    rw [hs, List.mem_toFinset, List.mem_map] at hk
    obtain ⟨o, ho, rfl⟩ := hk
    rcases List.mem_append.mp ho with ho | ho
    · exact h o ho
    · exact h' o ho
  have hm : ∀ o ∈ osc, o.2 ∈ s := fun o ho => by
    rw [hs, List.mem_toFinset]; exact List.mem_map.mpr ⟨o, List.mem_append_left _ ho, rfl⟩
  have hm' : ∀ o ∈ osc', o.2 ∈ s := fun o ho => by
    rw [hs, List.mem_toFinset]; exact List.mem_map.mpr ⟨o, List.mem_append_right _ ho, rfl⟩
  have hcard : s.card ≤ osc.length + osc'.length := by
    refine (List.toFinset_card_le _).trans ?_
    simp
  have hne : ∀ e ∈ T, ∀ k ∈ s, (lq k).eval (e : ℂ) ≠ 0 := by
    intro e he k hk
    rw [hs, List.mem_toFinset, List.mem_map] at hk
    obtain ⟨o, ho, rfl⟩ := hk
    rcases List.mem_append.mp ho with ho | ho
    · exact (lorentz_some (hv e he)).1 o ho
    · exact (lorentz_some (hv' e he)).1 o ho
  have hz : ∀ e ∈ T, ((einf - einf' : ℝ) : ℂ)
      + ∑ k ∈ s, ((strength osc k - strength osc' k : ℝ) : ℂ) / (lq k).eval (e : ℂ) = 0 := by
    intro e he
    have e1 := (lorentz_some (hv e he)).2
    have e2 := (lorentz_some (hv' e he)).2
    rw [sum_by_key hm fun k => ((lq k).eval (e : ℂ))⁻¹] at e1
    rw [sum_by_key hm' fun k => ((lq k).eval (e : ℂ))⁻¹] at e2
    simp only [div_eq_mul_inv, Complex.ofReal_sub, sub_mul, Finset.sum_sub_distrib]
    linear_combination e2 - e1
  set Z : Finset ℂ := T.image (fun e : ℝ => (e : ℂ)) ∪ T.image (fun e : ℝ => -(e : ℂ)) with hZ
  have hZc : Z.card = 2 * T.card := by
    rw [hZ, Finset.card_union_of_disjoint, Finset.card_image_of_injective, Finset.card_image_of_injective]
    · ring
    · intro a b hab; simpa using hab
    · exact Complex.ofReal_injective
    · rw [Finset.disjoint_left]
      intro x hx hx'
      obtain ⟨a, ha, rfl⟩ := Finset.mem_image.mp hx
      obtain ⟨b, hb, hab⟩ := Finset.mem_image.mp hx'
      have : -b = a := by exact_mod_cast hab
      linarith [h0 a ha, h0 b hb]
  obtain ⟨hr, hP⟩ := fractions_zero (s := s) (q := lq)
    (c := fun k => Polynomial.C ((strength osc k - strength osc' k : ℝ) : ℂ))
    (P := Polynomial.C ((einf - einf' : ℝ) : ℂ)) (a := 0) (d := 2) (Z := Z)
    (fun k _ => by unfold lq; compute_degree) (fun k _ => by simp only [natDegree_C]; omega) (by simp only [natDegree_C]; omega)
    (by rw [hZc]; omega)
    (by
      intro x hx k hk
      rcases Finset.mem_union.mp hx with hx | hx
      · obtain ⟨e, he, rfl⟩ := Finset.mem_image.mp hx
        exact hne e he k hk
      · obtain ⟨e, he, rfl⟩ := Finset.mem_image.mp hx
        rw [lq_conj]
        exact (map_ne_zero _).mpr (hne e he k hk))
    (by
      intro x hx
      simp only [eval_C]
      rcases Finset.mem_union.mp hx with hx | hx
      · obtain ⟨e, he, rfl⟩ := Finset.mem_image.mp hx
        exact hz e he
      · obtain ⟨e, he, rfl⟩ := Finset.mem_image.mp hx
        have := congrArg (starRingEnd ℂ) (hz e he)
        rw [map_add, map_sum, map_zero, Complex.conj_ofReal] at this
        rw [← this]
        congr 1
        refine Finset.sum_congr rfl fun k _ => ?_
        rw [map_div₀, Complex.conj_ofReal, lq_conj])
  have hst : ∀ k ∈ s, strength osc k - strength osc' k = 0 := by
    intro k hk
    have := hr k hk (lroot k) ((lq_root (hsk k hk) (hsk k hk)).mpr rfl)
      (fun j hj hjk hc => hjk ((lq_root (hsk k hk) (hsk j hj)).mp hc))
    simpa only [eval_C, Complex.ofReal_eq_zero] using this
  refine ⟨?_, fun k => ?_⟩
  · have := hP fun k hk => by rw [hst k hk]; simp
    rw [Polynomial.C_eq_zero, Complex.ofReal_eq_zero] at this
    linarith
  · by_cases hk : k ∈ s
    · linarith [hst k hk]
    · rw [strength_absent (k := k) fun o ho hc => hk (hc ▸ hm o ho),
        strength_absent (k := k) fun o ho hc => hk (hc ▸ hm' o ho)]

/-- C171, partial: the index at more wavelengths than the two models have oscillators determines the parameters of a
Lorentz model of underdamped oscillators, up to the order of the oscillators.  Missing: overdamped oscillators
(`C171_fails`). -/
theorem C171_lorentz_partial {osc osc' : List (ℝ × ℝ × ℝ)} (h : Underdamped osc) (h' : Underdamped osc')
    {wl wl' einf einf' : ℝ} (z z' : SqrtOracle) {T : Finset ℝ} (hT : osc.length + osc'.length < T.card)
    (h0 : ∀ w ∈ T, 0 < w) {N : ℝ → ℂ} (hN : ∀ w ∈ T, (Scat.lorentz wl osc einf).complex z (some w) = some (N w))
    (hN' : ∀ w ∈ T, (Scat.lorentz wl' osc' einf').complex z' (some w) = some (N w)) :
    einf = einf' ∧ (∀ k, strength osc k = strength osc' k) ∧ (Distinct osc → Distinct osc' → osc.Perm osc') := by
  classical
  have hinj : Set.InjOn (fun w : ℝ => 1239.841984055 / w) T := by
    intro v hv w hw hvw
    have hv0 := (h0 v hv).ne'
    have hw0 := (h0 w hw).ne'
    simp only at hvw
    rw [div_eq_div_iff hv0 hw0] at hvw
    linarith
  have hback : ∀ w ∈ T, 1239.841984055 / (1239.841984055 / w) = w := by
    intro w hw
    have := (h0 w hw).ne'
    field_simp
  obtain ⟨h1, h2⟩ := lorentz_unique h h' (einf := einf) (einf' := einf')
    (T := T.image fun w => 1239.841984055 / w) (v := fun e => N (1239.841984055 / e) ^ 2)
    (by rwa [Finset.card_image_of_injOn hinj])
    (by
      intro e he
      obtain ⟨w, hw, rfl⟩ := Finset.mem_image.mp he
      have := h0 w hw
      positivity)
    (by
      intro e he
      obtain ⟨w, hw, rfl⟩ := Finset.mem_image.mp he
      have := C160_oscillators_partial z (s := .lorentz wl osc einf) (Or.inl ⟨_, _, _, rfl⟩) (h0 w hw).ne'
      rw [hN w hw] at this
      simp only [hback w hw]
      exact this.symm)
    (by
      intro e he
      obtain ⟨w, hw, rfl⟩ := Finset.mem_image.mp he
      have := C160_oscillators_partial z' (s := .lorentz wl' osc' einf') (Or.inl ⟨_, _, _, rfl⟩) (h0 w hw).ne'
      rw [hN' w hw] at this
      simp only [hback w hw]
      exact this.symm)
  exact ⟨h1, h2, fun d d' => perm_of_strength d d' h2⟩

/-- The hypotheses hold for a model of two oscillators. -/
example : Underdamped [(2, 0.5, 4), (1, 0, 7)] ∧ Distinct [(2, 0.5, 4), (1, 0, 7)] := by
  refine ⟨?_, ?_, ?_⟩
  · intro o ho
    simp only [List.mem_cons, List.not_mem_nil, or_false] at ho
    rcases ho with rfl | rfl <;> norm_num
  · simp
  · intro o ho
    simp only [List.mem_cons, List.not_mem_nil, or_false] at ho
    rcases ho with rfl | rfl <;> norm_num

/-- C171 is false of overdamped Lorentz oscillators: a model of two and a model of one have the same index at every
wavelength (for square roots that treat both models alike). -/
theorem C171_fails (z : SqrtOracle) (wl einf : ℝ)
    (hz : ∀ s s' w, z s w = z s' w) {w : ℝ} (hw : 0 < w) :
    (Scat.lorentz wl [(1, 3, Real.sqrt 2), (1, 5, Real.sqrt 6)] einf).complex z (some w)
      = (Scat.lorentz wl [(2, 4, Real.sqrt 3)] einf).complex z (some w) ∧
    ((Scat.lorentz wl [(2, 4, Real.sqrt 3)] einf).complex z (some w)).isSome := by
  set e : ℝ := 1239.841984055 / w with he
  have he0 : 0 < e := by positivity
  have hd : ∀ a : ℝ, (a : ℂ) - Complex.I * e ≠ 0 := by
    intro a hc
    have := congrArg Complex.im hc
    simp at this
    exact he0.ne' this
  have hq : ∀ {b n a c : ℝ}, a + c = b → a * c = n → 0 ≤ n →
      ((Real.sqrt n : ℂ)) ^ 2 - (e : ℂ) ^ 2 - Complex.I * b * e
        = ((a : ℂ) - Complex.I * e) * ((c : ℂ) - Complex.I * e) := by
    intro b n a c hb hn h0
    have h1 : ((Real.sqrt n : ℝ) : ℂ) ^ 2 = (n : ℂ) := by
      rw [← Complex.ofReal_pow, Real.sq_sqrt h0]
    rw [h1, ← hb, ← hn]
    push_cast
    linear_combination (-(e : ℂ) ^ 2) * Complex.I_sq
  have h1 := hd 1
  have h2 := hd 2
  have h3 := hd 3
  have t1 : lorentzTerm e (1, 3, Real.sqrt 2) = some (1 / (((1 : ℝ) - Complex.I * e) * ((2 : ℝ) - Complex.I * e))) := by
    unfold lorentzTerm
    simp only
    rw [hq (a := 1) (c := 2) (by norm_num) (by norm_num) (by norm_num), cdiv_of_ne (mul_ne_zero h1 h2)]
    simp
  have t2 : lorentzTerm e (1, 5, Real.sqrt 6) = some (1 / (((2 : ℝ) - Complex.I * e) * ((3 : ℝ) - Complex.I * e))) := by
    unfold lorentzTerm
    simp only
    rw [hq (a := 2) (c := 3) (by norm_num) (by norm_num) (by norm_num), cdiv_of_ne (mul_ne_zero h2 h3)]
    simp
  have t3 : lorentzTerm e (2, 4, Real.sqrt 3) = some (2 / (((1 : ℝ) - Complex.I * e) * ((3 : ℝ) - Complex.I * e))) := by
    unfold lorentzTerm
    simp only
    rw [hq (a := 1) (c := 3) (by norm_num) (by norm_num) (by norm_num), cdiv_of_ne (mul_ne_zero h1 h3)]
    simp
  have hE : lorentzEps [(1, 3, Real.sqrt 2), (1, 5, Real.sqrt 6)] einf e
      = lorentzEps [(2, 4, Real.sqrt 3)] einf e := by
    simp only [lorentzEps, List.map_cons, List.map_nil, sumO, t1, t2, t3, Option.pure_def, Option.bind_eq_bind,
      Option.bind_some, Option.some.injEq, add_zero]
    congr 1
    field_simp
    push_cast
    ring
  have hn : nmEV w = some e := rdiv_of_ne hw.ne'
  constructor
  · simp only [Scat.complex, Scat.at, Scat.ownWav, pick_ne hw.ne', hn, Scat.epsilon, Option.bind_eq_bind,
      Option.bind_some, Option.pure_def, Option.getD_some]
    rw [hE, hz]
  · simp [Scat.complex, Scat.at, Scat.ownWav, pick_ne hw.ne', hn, Scat.epsilon, lorentzEps, sumO, t3]

/-! ### Tauc-Lorentz -/

/-- The denominator of the Tauc-Lorentz oscillator with broadening `k.1` and energy `k.2`. -/
noncomputable def tq (k : ℝ × ℝ) : ℂ[X] :=
  (X ^ 2 - Polynomial.C ((k.2 : ℂ) ^ 2)) ^ 2 + Polynomial.C ((k.1 : ℂ) ^ 2) * X ^ 2

theorem tq_eval (k : ℝ × ℝ) (x : ℂ) :
    (tq k).eval x = (x ^ 2 - (k.2 : ℂ) ^ 2) ^ 2 + (k.1 : ℂ) ^ 2 * x ^ 2 := by
  simp [tq]

theorem tq_root {j k : ℝ × ℝ} (hk : 0 < k.1 ∧ k.1 < 2 * k.2) (hj : 0 < j.1 ∧ j.1 < 2 * j.2) :
    (tq j).eval (lroot k) = 0 ↔ j = k := by
  obtain ⟨h1, h2⟩ := lroot_re ⟨hk.1.le, hk.2⟩
  set a := (lroot k).re with ha
  have hsq : lroot k ^ 2 = ⟨a ^ 2 - (k.1 / 2) ^ 2, -(a * k.1)⟩ := by
    apply Complex.ext
    · simp [pow_two, lroot, ha]
    · simp [pow_two, lroot, ha]; ring
  have hre : ((tq j).eval (lroot k)).re
      = (a ^ 2 - (k.1 / 2) ^ 2 - j.2 ^ 2) ^ 2 - (a * k.1) ^ 2 + j.1 ^ 2 * (a ^ 2 - (k.1 / 2) ^ 2) := by
    rw [tq_eval, hsq]
    simp [pow_two]
  have him : ((tq j).eval (lroot k)).im
      = -(a * k.1) * (2 * (a ^ 2 - (k.1 / 2) ^ 2 - j.2 ^ 2) + j.1 ^ 2) := by
    rw [tq_eval, hsq]
    simp [pow_two]
    ring
  constructor
  · intro h
    rw [h] at hre him
    simp only [Complex.zero_re, Complex.zero_im] at hre him
    have e1 : j.1 ^ 2 = 2 * (j.2 ^ 2 - a ^ 2 + (k.1 / 2) ^ 2) := by
      rcases mul_eq_zero.mp him.symm with h3 | h3
      · exact absurd h3 (neg_ne_zero.mpr (mul_pos h1 hk.1).ne')
      · linarith
    have e2 : (j.2 ^ 2) ^ 2 = (k.2 ^ 2) ^ 2 := by
      rw [e1] at hre
      have : k.2 ^ 2 = a ^ 2 + k.1 ^ 2 / 4 := by linarith
      rw [this]
      linear_combination -hre
    have hj2 : 0 < j.2 := by linarith [hj.1, hj.2]
    have hk2 : 0 < k.2 := by linarith [hk.1, hk.2]
    have e3 : j.2 = k.2 := (pow_left_inj₀ hj2.le hk2.le (by norm_num)).mp
      ((pow_left_inj₀ (sq_nonneg _) (sq_nonneg _) (by norm_num)).mp e2)
    have e4 : j.1 ^ 2 = k.1 ^ 2 := by rw [e1, e3, h2]; ring
    exact Prod.ext ((pow_left_inj₀ hj.1.le hk.1.le (by norm_num)).mp e4) e3
  · rintro rfl
    apply Complex.ext
    · rw [hre]; simp only [Complex.zero_re]; rw [h2]; linear_combination (-j.1 ^ 2) * h2
    · rw [him]; simp only [Complex.zero_im]; rw [h2]; ring

theorem tq_neg (k : ℝ × ℝ) (x : ℂ) : (tq k).eval (-x) = (tq k).eval x := by
  rw [tq_eval, tq_eval]; ring

/-- Equal Tauc-Lorentz dielectric functions at enough energies at which they absorb. -/
theorem tauc_unique {osc osc' : List (ℝ × ℝ × ℝ)} (h : ∀ o ∈ osc, 0 < o.2.1 ∧ 0 < o.2.2)
    (h' : ∀ o ∈ osc', 0 < o.2.1 ∧ 0 < o.2.2) (hd : Distinct osc) (hd' : Distinct osc') {Eg Eg' einf einf' : ℝ}
    {T : Finset ℝ} (hT : 4 * (osc.length + osc'.length) < T.card) (h0 : ∀ e ∈ T, 0 < e) {v : ℝ → ℂ}
    (hv : ∀ e ∈ T, tlEps osc Eg einf e = some (v e)) (hv' : ∀ e ∈ T, tlEps osc' Eg' einf' e = some (v e))
    (ha : ∀ e ∈ T, (v e).im ≠ 0) :
    osc.Perm osc' ∧ Eg = Eg' ∧ einf = einf' := by
  classical
  obtain ⟨e₀, he₀⟩ := Finset.card_pos.mp (lt_of_le_of_lt (Nat.zero_le _) hT)
  have hu : ∀ {osc : List (ℝ × ℝ × ℝ)} {Eg einf : ℝ}, (∀ o ∈ osc, 0 < o.2.1 ∧ 0 < o.2.2) →
      (∃ v, tlEps osc Eg einf e₀ = some v) → ∀ o ∈ osc, 0 < o.2.1 ∧ o.2.1 < 2 * o.2.2 := by
    intro osc Eg einf h hv o ho
    obtain ⟨v, hv⟩ := hv
    refine ⟨(h o ho).1, ?_⟩
    by_contra hc
    rw [C53_fails_broad ho (by nlinarith [(h o ho).1, (h o ho).2]) Eg einf e₀] at hv
    simp at hv
  have hU := hu h ⟨_, hv e₀ he₀⟩
  have hU' := hu h' ⟨_, hv' e₀ he₀⟩
  set s : Finset (ℝ × ℝ) := ((osc ++ osc').map (·.2)).toFinset with hs
  have hsk : ∀ k ∈ s, 0 < k.1 ∧ k.1 < 2 * k.2 := by
    intro k hk
    rw [hs, List.mem_toFinset, List.mem_map] at hk
    obtain ⟨o, ho, rfl⟩ := hk
    rcases List.mem_append.mp ho with ho | ho
    · exact hU o ho
    · exact hU' o ho
  have hm : ∀ o ∈ osc, o.2 ∈ s := fun o ho => by
    rw [hs, List.mem_toFinset]; exact List.mem_map.mpr ⟨o, List.mem_append_left _ ho, rfl⟩
  have hm' : ∀ o ∈ osc', o.2 ∈ s := fun o ho => by
    rw [hs, List.mem_toFinset]; exact List.mem_map.mpr ⟨o, List.mem_append_right _ ho, rfl⟩
  have hcard : s.card ≤ osc.length + osc'.length := by
    refine (List.toFinset_card_le _).trans ?_
    simp
  have hq : ∀ (k : ℝ × ℝ) (e : ℝ), (tq k).eval (e : ℂ) = (((e ^ 2 - k.2 ^ 2) ^ 2 + k.1 ^ 2 * e ^ 2 : ℝ) : ℂ) := by
    intro k e
    rw [tq_eval]; push_cast; ring
  have hne : ∀ e ∈ T, ∀ k ∈ s, (tq k).eval (e : ℂ) ≠ 0 := by
    intro e he k hk
    rw [hq, Complex.ofReal_ne_zero]
    have h1 := (hsk k hk).1
    have h2 := h0 e he
    positivity
  -- the imaginary part, arranged by oscillator
  have him : ∀ {osc : List (ℝ × ℝ × ℝ)} {Eg einf : ℝ}, (∀ o ∈ osc, o.2 ∈ s) → ∀ e ∈ T,
      tlEps osc Eg einf e = some (v e) →
      (((v e).im * e : ℝ) : ℂ) = ∑ k ∈ s, (strength osc k : ℂ) * ((k.2 * k.1 : ℝ) : ℂ) * ((e : ℂ) - Eg) ^ 2 /
        (tq k).eval (e : ℂ) := by
    intro osc Eg einf hm e he hv
    have hc := C52_epsilon (wl := 0) hv
    have hgt : Eg < e := by
      by_contra hle
      exact ha e he (hc.1 (not_lt.mp hle))
    have he0 := (h0 e he).ne'
    have h1 := hc.2.1 hgt
    have h2 : (((v e).im * e : ℝ) : ℂ)
        = (osc.map fun o => (o.1 : ℂ) * (((o.2.2 * o.2.1 : ℝ) : ℂ) * ((e : ℂ) - Eg) ^ 2 / (tq o.2).eval (e : ℂ))).sum := by
      rw [h1, ← List.sum_map_mul_right, ← Complex.ofRealHom_eq_coe, map_list_sum, List.map_map]
      congr 1
      refine List.map_congr_left fun o ho => ?_
      have hpos := hne e he o.2 (hm o ho)
      rw [hq] at hpos ⊢
      have hpos' := Complex.ofReal_ne_zero.mp hpos
      simp only [Function.comp_apply, Complex.ofRealHom_eq_coe]
      have : o.1 * o.2.2 * o.2.1 * (e - Eg) ^ 2 / (e * ((e ^ 2 - o.2.2 ^ 2) ^ 2 + o.2.1 ^ 2 * e ^ 2)) * e
          = o.1 * ((o.2.2 * o.2.1) * (e - Eg) ^ 2 / ((e ^ 2 - o.2.2 ^ 2) ^ 2 + o.2.1 ^ 2 * e ^ 2)) := by
        field_simp
      rw [this]
      push_cast
      rfl
    rw [h2, sum_by_key hm fun k => ((k.2 * k.1 : ℝ) : ℂ) * ((e : ℂ) - Eg) ^ 2 / (tq k).eval (e : ℂ)]
    exact Finset.sum_congr rfl fun k _ => by ring
  set c : ℝ × ℝ → ℂ[X] := fun k =>
    Polynomial.C ((strength osc k : ℂ) * ((k.2 * k.1 : ℝ) : ℂ)) * (X - Polynomial.C (Eg : ℂ)) ^ 2
      - Polynomial.C ((strength osc' k : ℂ) * ((k.2 * k.1 : ℝ) : ℂ)) * (X - Polynomial.C (Eg' : ℂ)) ^ 2 with hc
  obtain ⟨hr, -⟩ := fractions_zero (s := s) (q := tq) (c := c) (P := 0) (a := 0) (d := 4)
    (Z := T.image fun e : ℝ => (e : ℂ))
    (fun k _ => by unfold tq; compute_degree) (fun k _ => by simp only [hc]; compute_degree!) (by simp)
    (by rw [Finset.card_image_of_injective _ Complex.ofReal_injective]; omega)
    (by
      intro x hx k hk
      obtain ⟨e, he, rfl⟩ := Finset.mem_image.mp hx
      exact hne e he k hk)
    (by
      intro x hx
      obtain ⟨e, he, rfl⟩ := Finset.mem_image.mp hx
      have h1 := him hm e he (hv e he)
      have h2 := him hm' e he (hv' e he)
      rw [eval_zero, zero_add]
      have : ∀ k, (c k).eval (e : ℂ) / (tq k).eval (e : ℂ)
          = (strength osc k : ℂ) * ((k.2 * k.1 : ℝ) : ℂ) * ((e : ℂ) - Eg) ^ 2 / (tq k).eval (e : ℂ)
            - (strength osc' k : ℂ) * ((k.2 * k.1 : ℝ) : ℂ) * ((e : ℂ) - Eg') ^ 2 / (tq k).eval (e : ℂ) := by
        intro k
        simp only [hc, eval_sub, eval_mul, eval_C, eval_pow, eval_X, sub_div]
      simp only [this, Finset.sum_sub_distrib]
      rw [← h1, ← h2, sub_self])
  -- both roots of a denominator
  have hboth : ∀ k ∈ s, strength osc k = strength osc' k ∧ strength osc k * Eg = strength osc' k * Eg' := by
    intro k hk
    have hkk := hsk k hk
    have r1 := hr k hk (lroot k) ((tq_root hkk hkk).mpr rfl)
      (fun j hj hjk hc => hjk ((tq_root hkk (hsk j hj)).mp hc))
    have r2 := hr k hk (-lroot k) (by rw [tq_neg]; exact (tq_root hkk hkk).mpr rfl)
      (fun j hj hjk hc => hjk ((tq_root hkk (hsk j hj)).mp (by rwa [tq_neg] at hc)))
    simp only [hc, eval_sub, eval_mul, eval_C, eval_pow, eval_X] at r1 r2
    have hw : ((k.2 * k.1 : ℝ) : ℂ) ≠ 0 := by
      rw [Complex.ofReal_ne_zero]
      have : 0 < k.2 := by linarith [hkk.1, hkk.2]
      exact (mul_pos this hkk.1).ne'
    have hr0 : lroot k ≠ 0 := by
      intro hz
      have := (lroot_re ⟨hkk.1.le, hkk.2⟩).1
      rw [hz] at this
      simp at this
    have g1 : (strength osc k : ℂ) * Eg = strength osc' k * Eg' := by
      refine mul_left_cancel₀ (mul_ne_zero hw hr0) ?_
      linear_combination (1 / 4 : ℂ) * (r2 - r1)
    have g2 : (strength osc k : ℂ) * (lroot k ^ 2 + Eg ^ 2) = strength osc' k * (lroot k ^ 2 + Eg' ^ 2) := by
      refine mul_left_cancel₀ hw ?_
      linear_combination (1 / 2 : ℂ) * (r2 + r1)
    have g3 := congrArg Complex.im g2
    have hri : (lroot k ^ 2).im = -((lroot k).re * k.1) := by
      simp [pow_two, lroot]; ring
    have hEi : ∀ x : ℝ, ((x : ℂ) ^ 2).im = 0 := fun x => by
      rw [← Complex.ofReal_pow, Complex.ofReal_im]
    rw [Complex.im_ofReal_mul, Complex.im_ofReal_mul, Complex.add_im, Complex.add_im, hEi, hEi, add_zero, hri] at g3
    have hpos := mul_pos (lroot_re ⟨hkk.1.le, hkk.2⟩).1 hkk.1
    exact ⟨mul_right_cancel₀ (neg_ne_zero.mpr hpos.ne') g3, by exact_mod_cast g1⟩
  have hst : ∀ k, strength osc k = strength osc' k := by
    intro k
    by_cases hk : k ∈ s
    · exact (hboth k hk).1
    · rw [strength_absent (k := k) fun o ho hc => hk (hc ▸ hm o ho),
        strength_absent (k := k) fun o ho hc => hk (hc ▸ hm' o ho)]
  have hperm := perm_of_strength hd hd' hst
  have hEg : Eg = Eg' := by
    cases hosc : osc with
    | nil =>
      have h1 := him hm e₀ he₀ (hv e₀ he₀)
      have h2 : ∀ k, strength osc k = 0 := fun k => strength_absent (by simp [hosc])
      simp only [h2, Complex.ofReal_zero, zero_mul, zero_div, Finset.sum_const_zero,
        Complex.ofReal_eq_zero, mul_eq_zero] at h1
      rcases h1 with h1 | h1
      · exact absurd h1 (ha e₀ he₀)
      · exact absurd h1 (h0 e₀ he₀).ne'
    | cons o t =>
      have ho : o ∈ osc := by simp [hosc]
      have h1 := (hboth o.2 (hm o ho)).2
      rw [← hst, strength_of_mem hd.1 ho] at h1
      exact mul_left_cancel₀ (hd.2 o ho) h1
  refine ⟨hperm, hEg, ?_⟩
  have h1 := hv e₀ he₀
  have h2 := hv' e₀ he₀
  have h3 : sumO (osc'.map fun o => tlE1 o Eg e₀) = sumO (osc.map fun o => tlE1 o Eg e₀) :=
    sumO_perm (hperm.symm.map _)
  rw [← hEg] at h2
  simp only [tlEps, tlParts] at h1 h2
  rw [h3] at h2
  cases hx : sumO (osc.map fun o => tlE1 o Eg e₀) with
  | none => simp [hx] at h1
  | some x =>
    simp only [hx, Option.map_some] at h1 h2
    obtain ⟨a, ha1, h1⟩ := bind_some h1
    obtain ⟨b, hb1, h1⟩ := bind_some h1
    obtain ⟨a', ha2, h2⟩ := bind_some h2
    obtain ⟨b', hb2, h2⟩ := bind_some h2
    simp only [Option.pure_def, Option.some.injEq] at h1 h2 ha1 ha2
    have := congrArg Complex.re (h1.trans h2.symm)
    simp only at this
    linarith

/-- C171: the index at enough wavelengths at which the material absorbs determines all parameters of a Tauc-Lorentz
model, up to the order of the oscillators. -/
theorem C171_tauc {osc osc' : List (ℝ × ℝ × ℝ)} (h : ∀ o ∈ osc, 0 < o.2.1 ∧ 0 < o.2.2)
    (h' : ∀ o ∈ osc', 0 < o.2.1 ∧ 0 < o.2.2) (hd : Distinct osc) (hd' : Distinct osc') {wl wl' Eg Eg' einf einf' : ℝ}
    (z z' : SqrtOracle) {T : Finset ℝ} (hT : 4 * (osc.length + osc'.length) < T.card) (h0 : ∀ w ∈ T, 0 < w)
    {N : ℝ → ℂ} (hN : ∀ w ∈ T, (Scat.tauc wl osc Eg einf).complex z (some w) = some (N w))
    (hN' : ∀ w ∈ T, (Scat.tauc wl' osc' Eg' einf').complex z' (some w) = some (N w))
    (ha : ∀ w ∈ T, (N w).re ≠ 0 ∧ (N w).im ≠ 0) :
    osc.Perm osc' ∧ Eg = Eg' ∧ einf = einf' := by
  classical
  have hinj : Set.InjOn (fun w : ℝ => 1239.841984055 / w) T := by
    intro v hv w hw hvw
    have hv0 := (h0 v hv).ne'
    have hw0 := (h0 w hw).ne'
    simp only at hvw
    rw [div_eq_div_iff hv0 hw0] at hvw
    linarith
  have hback : ∀ w ∈ T, 1239.841984055 / (1239.841984055 / w) = w := by
    intro w hw
    have := (h0 w hw).ne'
    field_simp
  refine tauc_unique h h' hd hd' (T := T.image fun w => 1239.841984055 / w)
    (v := fun e => N (1239.841984055 / e) ^ 2) (by rwa [Finset.card_image_of_injOn hinj]) ?_ ?_ ?_ ?_
  · intro e he
    obtain ⟨w, hw, rfl⟩ := Finset.mem_image.mp he
    have := h0 w hw
    positivity
  · intro e he
    obtain ⟨w, hw, rfl⟩ := Finset.mem_image.mp he
    have := C160_oscillators_partial z (s := .tauc wl osc Eg einf) (Or.inr (Or.inr ⟨_, _, _, _, rfl⟩)) (h0 w hw).ne'
    rw [hN w hw] at this
    simp only [hback w hw]
    exact this.symm
  · intro e he
    obtain ⟨w, hw, rfl⟩ := Finset.mem_image.mp he
    have := C160_oscillators_partial z' (s := .tauc wl' osc' Eg' einf') (Or.inr (Or.inr ⟨_, _, _, _, rfl⟩))
      (h0 w hw).ne'
    rw [hN' w hw] at this
    simp only [hback w hw]
    exact this.symm
  · intro e he
    obtain ⟨w, hw, rfl⟩ := Finset.mem_image.mp he
    simp only [hback w hw]
    have : (N w ^ 2).im = 2 * ((N w).re * (N w).im) := by
      rw [pow_two, Complex.mul_im]; ring
    rw [this]
    exact mul_ne_zero two_ne_zero (mul_ne_zero (ha w hw).1 (ha w hw).2)

/-- A Tauc-Lorentz model has an index with absorption at every wavelength with an energy above the gap: enough
wavelengths always exist. -/
example (z : SqrtOracle) {w : ℝ} (hw : 0 < w) (hg : 1.5 < 1239.841984055 / w) :
    ∃ N, (Scat.tauc 658 [(100, 2, 3.5)] 1.5 1).complex z (some w) = some N ∧ N.re ≠ 0 ∧ N.im ≠ 0 := by
  have he0 : 0 < 1239.841984055 / w := by positivity
  obtain ⟨v, hv⟩ := C53_finite_partial (osc := [(100, 2, 3.5)]) (Eg := 1.5) (by norm_num)
    (by intro o ho; rw [List.mem_singleton.mp ho]; norm_num) 1 he0 hg.ne'
  have hsq := C160_oscillators_partial z (s := .tauc 658 [(100, 2, 3.5)] 1.5 1) (Or.inr (Or.inr ⟨_, _, _, _, rfl⟩)) hw.ne'
  have him := (C52_epsilon (wl := 658) hv).2.1 hg
  have hpos : 0 < v.im := by
    rw [him, List.map_singleton, List.sum_singleton]
    have : 0 < 1239.841984055 / w - 1.5 := by linarith
    positivity
  change _ = tlEps [(100, 2, 3.5)] 1.5 1 (1239.841984055 / w) at hsq
  rw [hv] at hsq
  obtain ⟨N, hN, hN2⟩ := Option.map_eq_some_iff.mp hsq
  refine ⟨N, hN, ?_⟩
  rw [← hN2] at hpos
  have : (N ^ 2).im = 2 * (N.re * N.im) := by
    rw [pow_two, Complex.mul_im]; ring
  rw [this] at hpos
  constructor
  · intro hz; rw [hz] at hpos; simp at hpos
  · intro hz; rw [hz] at hpos; simp at hpos

end Verif.Disp
