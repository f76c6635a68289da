import Verif.TMM.PropsSym

/-!
# C13, second exception: an evanescent film that the clip reaches at one sign of the angle only
-/

namespace Verif.TMM
open Complex (I)

/-- A gap of index 1 and thickness 40 between two media of index 2. -/
noncomputable def gapStack : Stack := ⟨(2 : ℝ), [(1, 40)], (2 : ℝ)⟩

/-- The rows of the same sample (thickness in Angstrom). -/
noncomputable def gapRows : List Row := [⟨0, some 2, 0, 0⟩, ⟨400, some 1, 0, 0⟩, ⟨0, some 2, 0, 0⟩]

theorem gapRows_of : RowsOf gapRows gapStack :=
  ⟨_, [⟨400, some 1, 0, 0⟩], _, 2, rfl, rfl, by simp [gapStack],
    .cons ⟨by simp, by norm_num⟩ .nil, by simp [gapStack]⟩

theorem sqrt2_facts : (Real.sqrt 2) ^ 2 = 2 ∧ 1 < Real.sqrt 2 ∧ Real.sqrt (Real.sqrt 2 ^ 2 - 1) = 1 := by
  have h2 : (Real.sqrt 2 : ℝ) ^ 2 = 2 := Real.sq_sqrt (by norm_num)
  refine ⟨h2, ?_, by rw [h2]; norm_num⟩
  rw [Real.lt_sqrt] <;> norm_num

theorem gap_s : gapStack.front * Complex.sin ((Real.pi / 4 : ℝ) : ℂ) = ((Real.sqrt 2 : ℝ) : ℂ) := by
  rw [← Complex.ofReal_sin, Real.sin_pi_div_four]
  simp only [gapStack]
  push_cast; ring

theorem gap_s' : gapStack.front * Complex.sin ((-(Real.pi / 4) : ℝ) : ℂ) = ((-Real.sqrt 2 : ℝ) : ℂ) := by
  rw [← Complex.ofReal_sin, Real.sin_neg, Real.sin_pi_div_four]
  simp only [gapStack]
  push_cast; ring

theorem gap_physical : Physical gapStack 2 (Real.pi / 4) (2 * Real.pi) := by
  have hpi := Real.pi_pos
  obtain ⟨h2, _, _⟩ := sqrt2_facts
  have h2c : ((Real.sqrt 2 : ℝ) : ℂ) ^ 2 = 2 := by exact_mod_cast congrArg Complex.ofReal h2
  refine ⟨rfl, two_pos, ?_, by positivity, by simp [gapStack, PassiveIndex],
    by simp [gapStack, PassiveIndex], ?_, ?_⟩
  · rw [abs_of_pos (by positivity)]; linarith
  · intro f hf
    simp only [gapStack, List.mem_singleton] at hf
    subst hf
    rw [gap_s, h2c]; norm_num
  · intro f hf m hm
    simp only [gapStack, List.mem_singleton] at hf
    subst hf
    obtain ⟨hn, hc, hδ⟩ := hm
    rw [gap_s] at hc
    simp only [div_one, h2c] at hc
    have hcI : m.c = I ∨ m.c = -I := by
      have : (m.c - I) * (m.c + I) = 0 := by
        linear_combination hc - Complex.I_sq
      rcases mul_eq_zero.mp this with h | h
      · left; linear_combination h
      · right; linear_combination h
    have h40 : (40 : ℝ) ≤ Real.sinh 35 := by
      have h1 : (36 : ℝ) ≤ Real.exp 35 := by have := Real.add_one_le_exp (35 : ℝ); linarith
      have h3 : (1296 : ℝ) ≤ Real.exp 70 := by
        have : Real.exp 70 = Real.exp 35 ^ 2 := by rw [← Real.exp_nat_mul]; norm_num
        rw [this]; nlinarith
      have h0 : (1 + 17.5 : ℝ) ≤ Real.exp 17.5 := by have := Real.add_one_le_exp (17.5 : ℝ); linarith
      have h4 : (324 : ℝ) ≤ Real.exp 35 := by
        have : Real.exp 35 = Real.exp 17.5 ^ 2 := by rw [← Real.exp_nat_mul]; norm_num
        rw [this]; nlinarith
      have h5 : Real.exp (-35) ≤ 1 := Real.exp_le_one_iff.mpr (by norm_num)
      rw [Real.sinh_eq]; linarith
    have e : m.δ = m.c * 40 := by
      rw [hδ]
      have : (Real.pi : ℂ) ≠ 0 := Complex.ofReal_ne_zero.mpr hpi.ne'
      push_cast
      field_simp
    rcases hcI with h | h <;> rw [e, h] <;> simp
    · exact h40
    · linarith

/-- The film equations between two equal media, solved for the reflection amplitude. -/
theorem gap_r {κ r x y t e e' : ℂ} (h1 : 1 + r = x + y) (h2 : κ * (1 - r) = I * (x - y))
    (h3 : x * e + y * e' = t) (h4 : I * (x * e - y * e') = κ * t) (he : e * e' = 1) :
    r * ((κ + I) ^ 2 - e ^ 2 * (κ - I) ^ 2) = (1 - e ^ 2) * (κ ^ 2 + 1) := by
  have hI := Complex.I_sq
  have h5 : x * e ^ 2 * (I - κ) = y * (κ + I) := by
    have : I * (x * e - y * e') = κ * (x * e + y * e') := by rw [h3]; exact h4
    have e2 : e * (I * (x * e - y * e')) = e * (κ * (x * e + y * e')) := by rw [this]
    linear_combination e2 + (y * I + κ * y) * he
  have hx : 2 * x = (1 + r) - I * κ * (1 - r) := by
    linear_combination -h1 + I * h2 + (x - y) * hI
  have hy : 2 * y = (1 + r) + I * κ * (1 - r) := by
    linear_combination -h1 - I * h2 - (x - y) * hI
  have h6 : ((1 + r) - I * κ * (1 - r)) * e ^ 2 * (I - κ) = ((1 + r) + I * κ * (1 - r)) * (κ + I) := by
    rw [← hx, ← hy]; linear_combination 2 * h5
  linear_combination (-I) * h6 + (-((1 - r) * κ ^ 2 + (1 - r) * κ * I + 1)
    + e ^ 2 * ((1 - r) * κ ^ 2 - (1 - r) * κ * I + 1)) * hI

theorem gap_film : codeMed (gapStack.front * Complex.sin ((Real.pi / 4 : ℝ) : ℂ)) (2 * Real.pi) (1, 40) =
    ⟨1, -I, -(40 * I)⟩ := by
  obtain ⟨h2, hgt, hone⟩ := sqrt2_facts
  have hpi : (Real.pi : ℂ) ≠ 0 := Complex.ofReal_ne_zero.mpr Real.pi_pos.ne'
  have hr : root1m (((Real.sqrt 2 : ℝ) : ℂ) / 1) = -I := by
    rw [div_one, root1m_ofReal_gt hgt, hone]; simp
  have hd : 2 * (Real.pi : ℂ) * 1 * (-I) / ((2 * Real.pi : ℝ) : ℂ) * ((40 : ℝ) : ℂ) = -(40 * I) := by
    push_cast; field_simp
  rw [gap_s, codeMed, hr, hd, clip35_of_le (by simp; norm_num)]

theorem gap_film' : codeMed (gapStack.front * Complex.sin ((-(Real.pi / 4) : ℝ) : ℂ)) (2 * Real.pi) (1, 40) =
    ⟨1, I, 35 * I⟩ := by
  obtain ⟨h2, hgt, hone⟩ := sqrt2_facts
  have hpi : (Real.pi : ℂ) ≠ 0 := Complex.ofReal_ne_zero.mpr Real.pi_pos.ne'
  have hr : root1m (((-Real.sqrt 2 : ℝ) : ℂ) / 1) = I := by
    rw [div_one, root1m_ofReal_lt (by linarith), neg_sq, hone]; simp
  have hd : 2 * (Real.pi : ℂ) * 1 * I / ((2 * Real.pi : ℝ) : ℂ) * ((40 : ℝ) : ℂ) = 40 * I := by
    push_cast; field_simp
  rw [gap_s', codeMed, hr, hd]
  have : clip35 (40 * I) = 35 * I := by
    apply Complex.ext <;> simp [clip35]
    norm_num
  rw [this]

theorem gap_ends {θ : ℝ} (hc : Real.cos θ = Real.sqrt 2 / 2) (h : Physical gapStack 2 θ (2 * Real.pi)) :
    frontM gapStack θ = ⟨2, ((Real.sqrt 2 : ℝ) : ℂ) / 2, 0⟩ ∧
    backM gapStack θ = ⟨2, ((Real.sqrt 2 : ℝ) : ℂ) / 2, 0⟩ := by
  have h1 : frontM gapStack θ = ⟨2, ((Real.sqrt 2 : ℝ) : ℂ) / 2, 0⟩ := by
    have := h.front_c
    rw [hc] at this
    simp only [frontM] at this ⊢
    rw [this]
    simp [gapStack]
  refine ⟨h1, ?_⟩
  simp only [frontM, Medium.mk.injEq, and_true] at h1
  simp only [backM, Medium.mk.injEq, and_true]
  refine ⟨by simp [gapStack], ?_⟩
  rw [← h1.2]
  congr 1
  simp [gapStack]

/-- The reflection amplitudes at either sign of the angle, as functions of the attenuation. -/
theorem gap_amps {θ : ℝ} (hc : Real.cos θ = Real.sqrt 2 / 2) (h : Physical gapStack 2 θ (2 * Real.pi))
    {b : ℝ} (hb : filmsM gapStack θ (2 * Real.pi) = [⟨1, I, b * I⟩] ∨
      filmsM gapStack θ (2 * Real.pi) = [⟨1, -I, -(b * I)⟩]) :
    ∃ rs ts rp tp, solveSt .s gapStack θ (2 * Real.pi) = some (rs, ts) ∧
      solveSt .p gapStack θ (2 * Real.pi) = some (rp, tp) ∧
      rs * (((Real.sqrt 2 : ℝ) + I) ^ 2 - Real.exp (-(2 * b)) * ((Real.sqrt 2 : ℝ) - I) ^ 2) =
        3 * (1 - Real.exp (-(2 * b))) ∧
      rp * (((Real.sqrt 2 : ℝ) + 4 * I) ^ 2 - Real.exp (-(2 * b)) * ((Real.sqrt 2 : ℝ) - 4 * I) ^ 2) =
        18 * (1 - Real.exp (-(2 * b))) := by
  obtain ⟨rs, ts, h1⟩ := h.solved .s
  obtain ⟨rp, tp, h3⟩ := h.solved .p
  refine ⟨rs, ts, rp, tp, h1, h3, ?_⟩
  obtain ⟨hf, hk⟩ := gap_ends hc h
  set q : ℂ := ((Real.sqrt 2 : ℝ) : ℂ) with hq
  have hqq : q ^ 2 = 2 := by
    rw [hq]; exact_mod_cast congrArg Complex.ofReal sqrt2_facts.1
  have hI := Complex.I_sq
  set e : ℂ := Complex.exp (-b) with hee
  set e' : ℂ := Complex.exp b with hee'
  have he : e * e' = 1 := by rw [hee, hee', ← Complex.exp_add]; simp
  have hE : ((Real.exp (-(2 * b)) : ℝ) : ℂ) = e ^ 2 := by
    rw [hee, ← Complex.exp_nat_mul]; push_cast; congr 1; ring
  rw [hE]
  have fs := (solveL_spec (by rw [← solveSt_eq]; exact h1)).1
  have fp := (solveL_spec (by rw [← solveSt_eq]; exact h3)).1
  have key : ∃ x y x' y', (1 + rs = x + y ∧ q * (1 - rs) = I * (x - y) ∧ x * e + y * e' = ts ∧
      I * (x * e - y * e') = q * ts) ∧
      (2 * (1 + rp) = x' + y' ∧ q / 2 * (1 - rp) = I * (x' - y') ∧ x' * e + y' * e' = 2 * tp ∧
      I * (x' * e - y' * e') = q / 2 * tp) := by
    rcases hb with hb | hb
    · rw [hb, hf, hk] at fs fp
      obtain ⟨x, y, ⟨a1, a2⟩, a3, a4⟩ := fs
      obtain ⟨x', y', ⟨b1, b2⟩, b3, b4⟩ := fp
      have k1 : Complex.exp (I * (b * I)) = e := by
        rw [hee]; congr 1; linear_combination (b : ℂ) * hI
      have k2 : Complex.exp (-(I * (b * I))) = e' := by
        rw [hee']; congr 1; linear_combination -(b : ℂ) * hI
      simp only [k1, k2] at a3 a4 b3 b4
      exact ⟨x, y, x', y', ⟨a1, by linear_combination a2, by linear_combination a3, by linear_combination a4⟩,
        by linear_combination b1, by linear_combination b2, by linear_combination b3, by linear_combination b4⟩
    · rw [hb, hf, hk] at fs fp
      obtain ⟨x, y, ⟨a1, a2⟩, a3, a4⟩ := fs
      obtain ⟨x', y', ⟨b1, b2⟩, b3, b4⟩ := fp
      have k1 : Complex.exp (I * -(b * I)) = e' := by
        rw [hee']; congr 1; linear_combination -(b : ℂ) * hI
      have k2 : Complex.exp (-(I * -(b * I))) = e := by
        rw [hee]; congr 1; linear_combination (b : ℂ) * hI
      simp only [k1, k2] at a3 a4 b3 b4
      exact ⟨y, x, y', x', ⟨by linear_combination a1, by linear_combination a2, by linear_combination a3,
        by linear_combination a4⟩,
        by linear_combination b1, by linear_combination b2, by linear_combination b3, by linear_combination b4⟩
  obtain ⟨x, y, x', y', ⟨a1, a2, a3, a4⟩, b1, b2, b3, b4⟩ := key
  have r1 := gap_r a1 a2 a3 a4 he
  have r2 := gap_r (κ := q / 4) (x := x' / 2) (y := y' / 2) (t := tp) (e := e) (e' := e') (r := rp)
    (by linear_combination b1 / 2) (by linear_combination b2 / 2) (by linear_combination b3 / 2)
    (by linear_combination b4 / 2) he
  constructor
  · linear_combination r1 + (1 - e ^ 2) * hqq
  · linear_combination 16 * r2 + (1 - e ^ 2) * hqq

/-- C13 fails also if a film beyond its critical angle attenuates by more than e^-35: light tunnelling
through a gap of index 1 between media of index 2, at +45 and -45 degrees.  The clip acts at the
negative angle only. -/
theorem C13_fails_clip (zs : List Layer → ℝ → ℝ → Bool) :
    ∃ x y, (deltaPsiTMM zs [45] gapRows (2 * Real.pi) 0 false).1 = .ok [x] ∧
      (deltaPsiTMM zs [-45] gapRows (2 * Real.pi) 0 false).1 = .ok [y] ∧ ¬ SamePD x y := by
  have hp := gap_physical
  have h45 : rad 45 = Real.pi / 4 := by rw [rad]; ring
  have hm45 : rad (-45) = -(Real.pi / 4) := by rw [rad]; ring
  have hlam : (2 * Real.pi : ℝ) ≠ 0 := by positivity
  obtain ⟨rs, ts, rp, tp, h1, h3, e1, e2⟩ := gap_amps (θ := Real.pi / 4) (b := 40) Real.cos_pi_div_four hp
    (Or.inr (by
      have := gap_film
      simp only [filmsM, gapStack, List.map_cons, List.map_nil] at this ⊢
      rw [this]; push_cast; rfl))
  obtain ⟨rs', ts', rp', tp', h1', h3', e1', e2'⟩ := gap_amps (θ := -(Real.pi / 4)) (b := 35)
    (by rw [Real.cos_neg, Real.cos_pi_div_four]) hp.neg
    (Or.inl (by
      have := gap_film'
      simp only [filmsM, gapStack, List.map_cons, List.map_nil] at this ⊢
      rw [this]; push_cast; rfl))
  set q : ℂ := ((Real.sqrt 2 : ℝ) : ℂ) with hq
  have hqq : q ^ 2 = 2 := by
    rw [hq]; exact_mod_cast congrArg Complex.ofReal sqrt2_facts.1
  have hI := Complex.I_sq
  have hlt : ∀ b : ℝ, 0 < b → (1 : ℂ) - ((Real.exp (-(2 * b)) : ℝ) : ℂ) ≠ 0 := by
    intro b hb h
    have : Real.exp (-(2 * b)) < 1 := by
      have := Real.exp_lt_exp.mpr (show -(2 * b) < 0 by linarith)
      rwa [Real.exp_zero] at this
    have h' : (1 : ℝ) - Real.exp (-(2 * b)) = 0 := by exact_mod_cast h
    linarith
  have hne : ((Real.exp (-(2 * 40)) : ℝ) : ℂ) - ((Real.exp (-(2 * 35)) : ℝ) : ℂ) ≠ 0 := by
    intro h
    have : Real.exp (-(2 * 40)) < Real.exp (-(2 * 35)) := Real.exp_lt_exp.mpr (by norm_num)
    have h' : Real.exp (-(2 * 40)) - Real.exp (-(2 * 35)) = 0 := by exact_mod_cast h
    linarith
  have hE := hlt 40 (by norm_num)
  have hE' := hlt 35 (by norm_num)
  generalize ((Real.exp (-(2 * 40)) : ℝ) : ℂ) = E at *
  generalize ((Real.exp (-(2 * 35)) : ℝ) : ℂ) = E' at *
  have nz : ∀ {r D c x : ℂ}, r * D = c * x → c ≠ 0 → x ≠ 0 → r ≠ 0 := by
    rintro r D c x h hc hx rfl
    rw [zero_mul] at h
    exact mul_ne_zero hc hx h.symm
  have hrs := nz e1 (by norm_num) hE
  have hrp := nz e2 (by norm_num) hE
  have hrs' := nz e1' (by norm_num) hE'
  have hrp' := nz e2' (by norm_num) hE'
  have fin : ∀ (σ : Bool) {rs rp ts tp : ℂ}, rs ≠ 0 → rp ≠ 0 → ∃ ψ Δ,
      psiDelta σ false 0 ⟨some (rs, ts), some (rp, tp)⟩ = (some ψ, some Δ) := by
    intro σ rs rp ts tp hs hp
    have hq : -rp / rs ≠ 0 := div_ne_zero (neg_ne_zero.mpr hp) hs
    simp only [psiDelta, psiRad, if_neg hs, deltaRad, cdiv_of_ne hs, cdiv_of_ne hq,
      Option.bind_eq_bind, Option.bind_some, Option.map_some]
    exact ⟨_, _, rfl⟩
  rw [deltaPsi_rows gapRows_of hp.nz hlam, deltaPsi_rows gapRows_of hp.nz hlam]
  simp only [List.map_cons, List.map_nil, h45, hm45, h1, h3, h1', h3']
  obtain ⟨ψ, Δ, p1⟩ := fin (zs (gapStack.layers .inf .inf) 45 (2 * Real.pi)) (ts := ts) (tp := tp) hrs hrp
  obtain ⟨ψ', Δ', p2⟩ := fin (zs (gapStack.layers .inf .inf) (-45) (2 * Real.pi)) (ts := ts') (tp := tp')
    hrs' hrp'
  refine ⟨_, _, rfl, rfl, ?_⟩
  rw [p1, p2]
  intro hpd
  have hρ := ratio_of_samePD hrs hrs' p1 p2 hpd
  rw [div_eq_div_iff hrs hrs'] at hρ
  -- the denominators have the same ratio, hence the attenuations are equal
  have hm : rp * rs' ≠ 0 := mul_ne_zero hrp hrs'
  have hD : ((q + 4 * I) ^ 2 - E * (q - 4 * I) ^ 2) * ((q + I) ^ 2 - E' * (q - I) ^ 2) =
      ((q + 4 * I) ^ 2 - E' * (q - 4 * I) ^ 2) * ((q + I) ^ 2 - E * (q - I) ^ 2) := by
    apply mul_left_cancel₀ hm
    have a : rp * rs' * (((q + 4 * I) ^ 2 - E * (q - 4 * I) ^ 2) * ((q + I) ^ 2 - E' * (q - I) ^ 2)) =
        (18 * (1 - E)) * (3 * (1 - E')) := by rw [← e2, ← e1']; ring
    have b : rp' * rs * (((q + 4 * I) ^ 2 - E' * (q - 4 * I) ^ 2) * ((q + I) ^ 2 - E * (q - I) ^ 2)) =
        (18 * (1 - E')) * (3 * (1 - E)) := by rw [← e2', ← e1]; ring
    rw [a, hρ, b]; ring
  have h6 : (E - E') * (q * I) = 0 := by
    have e3 : ((q + 4 * I) ^ 2 - E * (q - 4 * I) ^ 2) * ((q + I) ^ 2 - E' * (q - I) ^ 2) -
      ((q + 4 * I) ^ 2 - E' * (q - 4 * I) ^ 2) * ((q + I) ^ 2 - E * (q - I) ^ 2) =
      12 * (E - E') * (q * I) * (q ^ 2 - 4 * I ^ 2) := by ring
    have : 12 * (E - E') * (q * I) * (q ^ 2 - 4 * I ^ 2) = 0 := by rw [← e3, hD]; ring
    rw [hqq, hI] at this
    linear_combination (1 / 72) * this
  have hq0 : q ≠ 0 := by
    intro h; rw [h] at hqq; norm_num at hqq
  exact mul_ne_zero hne (mul_ne_zero hq0 Complex.I_ne_zero) h6

end Verif.TMM
