import Verif.TMM.PropsCont
import Verif.TMM.PropsSign

/-!
# C116, second exception: an evanescent film that the clip reaches as soon as it absorbs
-/

namespace Verif.TMM
open Complex (I)
open Filter Topology

/-- The gap of `gapStack`, absorbing. -/
noncomputable def lossyGap (k : ℝ) : Stack := ⟨(2 : ℝ), [(1 + I * (k : ℂ), 40)], (2 : ℝ)⟩

/-- The rows of the same sample (thickness in Angstrom). -/
noncomputable def lossyRows (k : ℝ) : List Row :=
  [⟨0, some 2, 0, 0⟩, ⟨400, some (1 + I * (k : ℂ)), 0, 0⟩, ⟨0, some 2, 0, 0⟩]

theorem lossyRows_of (k : ℝ) : RowsOf (lossyRows k) (lossyGap k) :=
  ⟨_, [⟨400, some (1 + I * (k : ℂ)), 0, 0⟩], _, 2, rfl, rfl, by simp [lossyGap],
    .cons ⟨by simp, by norm_num⟩ .nil, by simp [lossyGap]⟩

theorem lossy_s (k : ℝ) : (lossyGap k).front * Complex.sin ((Real.pi / 4 : ℝ) : ℂ) = ((Real.sqrt 2 : ℝ) : ℂ) := gap_s

theorem lossyGap_zero : lossyGap 0 = gapStack := by simp [lossyGap, gapStack]

theorem lossyRows_zero : lossyRows 0 = gapRows := by simp [lossyRows, gapRows]

theorem eighty_le_sinh : (80 : ℝ) ≤ Real.sinh 35 := by
  have h0 : (1 + 17.5 : ℝ) ≤ Real.exp 17.5 := by have := Real.add_one_le_exp (17.5 : ℝ); linarith
  have h4 : (324 : ℝ) ≤ Real.exp 35 := by
    have : Real.exp 35 = Real.exp 17.5 ^ 2 := by rw [← Real.exp_nat_mul]; norm_num
    rw [this]; nlinarith
  have h5 : Real.exp (-35) ≤ 1 := Real.exp_le_one_iff.mpr (by norm_num)
  rw [Real.sinh_eq]; linarith

theorem lossy_physical {k : ℝ} (hk : 0 ≤ k) (hk1 : k ≤ 1) : Physical (lossyGap k) 2 (Real.pi / 4) (2 * Real.pi) := by
  have hpi := Real.pi_pos
  have h2c : ((Real.sqrt 2 : ℝ) : ℂ) ^ 2 = 2 := by exact_mod_cast congrArg Complex.ofReal sqrt2_facts.1
  have hn : (1 + I * (k : ℂ)) ≠ 0 := by
    intro h
    have := congrArg Complex.re h
    simp at this
  refine ⟨rfl, two_pos, ?_, by positivity, ?_, by simp [lossyGap, PassiveIndex], ?_, ?_⟩
  · rw [abs_of_pos (by positivity)]; linarith
  · intro f hf
    simp only [lossyGap, List.mem_singleton] at hf
    subst hf
    exact ⟨⟨by simp, by simpa using hk⟩, by norm_num⟩
  · intro f hf
    simp only [lossyGap, List.mem_singleton] at hf
    subst hf
    rw [lossy_s, h2c]
    intro h
    have := congrArg Complex.re h
    simp [sq] at this
    nlinarith
  · intro f hf m hm
    simp only [lossyGap, List.mem_singleton] at hf
    subst hf
    obtain ⟨-, hc, hδ⟩ := hm
    rw [lossy_s] at hc
    simp only [div_pow, h2c] at hc
    have e : m.δ = ((1 + I * (k : ℂ)) * m.c) * 40 := by
      rw [hδ]
      have : (Real.pi : ℂ) ≠ 0 := Complex.ofReal_ne_zero.mpr hpi.ne'
      push_cast
      field_simp
    have e2 : ((1 + I * (k : ℂ)) * m.c) ^ 2 = -1 - (k : ℂ) ^ 2 + 2 * I * k := by
      rw [mul_pow, hc, mul_sub, mul_one, mul_div_assoc', mul_div_cancel_left₀ _ (pow_ne_zero 2 hn)]
      linear_combination (k : ℂ) ^ 2 * Complex.I_sq
    have e3 : ‖(1 + I * (k : ℂ)) * m.c‖ ^ 2 ≤ 4 := by
      rw [← norm_pow, e2]
      calc ‖-1 - (k : ℂ) ^ 2 + 2 * I * k‖ ≤ ‖(-1 : ℂ)‖ + ‖(k : ℂ) ^ 2‖ + ‖2 * I * (k : ℂ)‖ :=
            (norm_add_le _ _).trans (by gcongr; exact norm_sub_le _ _)
        _ = 1 + k ^ 2 + 2 * k := by simp [abs_of_nonneg hk]
        _ ≤ 4 := by nlinarith
    have e4 : ‖(1 + I * (k : ℂ)) * m.c‖ ≤ 2 := by nlinarith [norm_nonneg ((1 + I * (k : ℂ)) * m.c)]
    have e5 : m.δ.im ≤ 80 := by
      refine (Complex.abs_im_le_norm _ |> le_of_abs_le).trans ?_
      rw [e, norm_mul]
      simp only [Complex.norm_ofNat]
      linarith
    exact e5.trans eighty_le_sinh

/-- Above the real axis the principal root is the root of the opposite number, turned. -/
theorem sqrt_upper {w : ℂ} (h : 0 < w.im) : Complex.sqrt w = I * Complex.sqrt (-w) := by
  have h2 := csqrt_sq (-w)
  have h3 : (Complex.sqrt (-w)).im < 0 := by
    refine lt_of_le_of_ne (csqrt_im_nonpos (by simpa using h)) fun h0 => ?_
    have := congrArg Complex.im h2
    rw [sq, Complex.mul_im, h0, Complex.neg_im] at this
    linarith
  have := csqrt_of_sq_re_pos (w := I * Complex.sqrt (-w)) (by simpa using h3)
  rw [← this, mul_pow, h2, Complex.I_sq]
  congr 1; ring

/-- The film of the code for an absorbing gap, continued to the transparent gap. -/
noncomputable def lossyMed (k : ℝ) : Medium :=
  let n : ℂ := 1 + I * (k : ℂ)
  let c := I * Complex.sqrt (2 / n ^ 2 - 1)
  ⟨n, c, clip35 (n * c * 40)⟩

theorem lossyMed_zero : lossyMed 0 = ⟨1, I, 35 * I⟩ := by
  have h1 : Complex.sqrt ((2 : ℂ) - 1) = 1 := by
    have := csqrt_ofReal_nonneg (x := 1) zero_le_one
    norm_num at this ⊢
  have h2 : clip35 (I * 40) = 35 * I := by
    apply Complex.ext <;> simp [clip35]
    norm_num
  simp [lossyMed, h1, h2]

theorem lossyMed_cont : ContMed lossyMed 0 := by
  have hn : ContinuousAt (fun k : ℝ => (1 + I * (k : ℂ))) 0 := by fun_prop
  have hs : ContinuousAt (fun k : ℝ => Complex.sqrt (2 / (1 + I * (k : ℂ)) ^ 2 - 1)) 0 := by
    unfold Complex.sqrt
    refine ContinuousAt.cpow ?_ continuousAt_const ?_
    · exact ((continuousAt_const.div (hn.pow 2) (by simp))).sub continuousAt_const
    · left; norm_num
  have hc := (continuousAt_const (y := I)).mul hs
  exact ⟨hn, hc, ContinuousAt.comp (g := clip35) continuous_clip35.continuousAt ((hn.mul hc).mul continuousAt_const)⟩

theorem lossyMed_eq {k : ℝ} (hk : 0 < k) :
    codeMed ((lossyGap k).front * Complex.sin ((Real.pi / 4 : ℝ) : ℂ)) (2 * Real.pi) (1 + I * (k : ℂ), 40) = lossyMed k := by
  have h2c : ((Real.sqrt 2 : ℝ) : ℂ) ^ 2 = 2 := by exact_mod_cast congrArg Complex.ofReal sqrt2_facts.1
  have hpi : (Real.pi : ℂ) ≠ 0 := Complex.ofReal_ne_zero.mpr Real.pi_pos.ne'
  have hN : 0 < 1 + k ^ 2 := by positivity
  have hNC : (1 : ℂ) + (k : ℂ) ^ 2 ≠ 0 := by exact_mod_cast hN.ne'
  have hn : (1 + I * (k : ℂ)) ≠ 0 := by
    intro h
    have := congrArg Complex.re h
    simp at this
  have hz : ((Real.sqrt 2 : ℝ) : ℂ) / (1 + I * (k : ℂ)) =
      ((Real.sqrt 2 / (1 + k ^ 2) : ℝ) : ℂ) + ((-(Real.sqrt 2 * k / (1 + k ^ 2)) : ℝ) : ℂ) * I := by
    rw [div_eq_iff hn]
    push_cast
    field_simp
    linear_combination (k : ℂ) ^ 2 * Complex.I_sq
  have hs2 : 0 < Real.sqrt 2 := by positivity
  have him : (((Real.sqrt 2 : ℝ) : ℂ) / (1 + I * (k : ℂ))).im < 0 := by
    rw [hz]
    simp only [Complex.add_im, Complex.ofReal_im, Complex.mul_im, Complex.ofReal_re, Complex.I_im, Complex.I_re]
    have : 0 < Real.sqrt 2 * k / (1 + k ^ 2) := by positivity
    linarith
  have hre : 0 < (((Real.sqrt 2 : ℝ) : ℂ) / (1 + I * (k : ℂ))).re := by
    rw [hz]
    simp only [Complex.add_re, Complex.ofReal_im, Complex.mul_re, Complex.ofReal_re, Complex.I_im, Complex.I_re]
    have : 0 < Real.sqrt 2 / (1 + k ^ 2) := by positivity
    linarith
  have hr : root1m (((Real.sqrt 2 : ℝ) : ℂ) / (1 + I * (k : ℂ))) = I * Complex.sqrt (2 / (1 + I * (k : ℂ)) ^ 2 - 1) := by
    unfold root1m
    rw [if_neg (fun h => him.ne h.1), sqrt_upper]
    · rw [div_pow, h2c]; congr 2; ring
    · rw [Complex.sub_im, sq, Complex.mul_im, Complex.one_im]
      nlinarith [mul_pos hre (neg_pos.mpr him)]
  rw [lossy_s, codeMed, hr, lossyMed]
  simp only [Medium.mk.injEq, true_and]
  congr 1
  push_cast
  field_simp

theorem lossy_films {k : ℝ} (hk : 0 < k) : filmsM (lossyGap k) ((Real.pi / 4 : ℝ) : ℂ) (2 * Real.pi) = [lossyMed k] := by
  rw [← lossyMed_eq hk]
  rfl

/-- C116 fails at a transparent film beyond its critical angle (index 1 between media of index 2, 45 degrees) that
attenuates by 40 nepers: psi or delta, even as an angle, jumps as soon as the film absorbs the least bit, because the
clip acts on absorbing films only. -/
theorem C116_fails_clip (zs : List Layer → ℝ → ℝ → Bool) : ∃ ψ Δ : ℝ → ℝ,
    (∀ᶠ k : ℝ in 𝓝[≥] 0, (deltaPsiTMM zs [45] [⟨0, some 2, 0, 0⟩, ⟨400, some (1 + I * (k : ℂ)), 0, 0⟩, ⟨0, some 2, 0, 0⟩]
      (2 * Real.pi) 0 false).1 = .ok [(some (ψ k), some (Δ k))]) ∧
    ¬ (ContinuousWithinAt ψ (Set.Ici 0) 0 ∧ ContinuousWithinAt (fun k => Real.cos (rad (Δ k))) (Set.Ici 0) 0 ∧
      ContinuousWithinAt (fun k => Real.sin (rad (Δ k))) (Set.Ici 0) 0) := by
  have hpi := Real.pi_pos
  have h45 : rad 45 = Real.pi / 4 := by rw [rad]; ring
  have hlam : (2 * Real.pi : ℝ) ≠ 0 := by positivity
  have hp := gap_physical
  -- the transparent gap, and the limit of the absorbing ones
  obtain ⟨rs, ts, rp, tp, h1, h3, e1, e2⟩ := gap_amps (θ := Real.pi / 4) (b := 40) Real.cos_pi_div_four hp
    (Or.inr (by
      have := gap_film
      simp only [filmsM, gapStack, List.map_cons, List.map_nil] at this ⊢
      rw [this]; push_cast; rfl))
  have hf' : filmsM gapStack ((-(Real.pi / 4) : ℝ) : ℂ) (2 * Real.pi) = [⟨1, I, ((35 : ℝ) : ℂ) * I⟩] := by
    have := gap_film'
    simp only [filmsM, gapStack, List.map_cons, List.map_nil] at this ⊢
    rw [this]; push_cast; rfl
  obtain ⟨rs', ts', rp', tp', h1', h3', e1', e2'⟩ := gap_amps (θ := -(Real.pi / 4)) (b := 35)
    (by rw [Real.cos_neg, Real.cos_pi_div_four]) hp.neg (Or.inl hf')
  set fr : Medium := ⟨2, ((Real.sqrt 2 : ℝ) : ℂ) / 2, 0⟩ with hfr
  obtain ⟨hF, hB⟩ := gap_ends Real.cos_pi_div_four hp
  obtain ⟨hF', hB'⟩ := gap_ends (by rw [Real.cos_neg, Real.cos_pi_div_four]) hp.neg
  have hfq : fr.n * fr.c ≠ 0 := by
    have : ((Real.sqrt 2 : ℝ) : ℂ) ≠ 0 := by
      have : Real.sqrt 2 ≠ 0 := by positivity
      exact_mod_cast this
    simp [hfr]
  have hP : ∀ pol, ContMat (fun k => prod pol fr ([lossyMed, fun _ => fr].map fun m => m k)) 0 := fun pol =>
    contMat_prod (m := fun _ => fr) ⟨continuousAt_const, continuousAt_const, continuousAt_const⟩
      (by
        intro m hm
        simp only [List.mem_cons, List.not_mem_nil, or_false] at hm
        rcases hm with rfl | rfl
        · exact lossyMed_cont
        · exact ⟨continuousAt_const, continuousAt_const, continuousAt_const⟩)
      hfq
      (by
        intro m hm
        simp only [List.dropLast_cons_cons, List.dropLast_singleton, List.mem_singleton] at hm
        rw [hm, lossyMed_zero]
        simp)
  simp only [List.map_cons, List.map_nil] at hP
  have sol0 : ∀ pol r t, solveSt pol gapStack ((-(Real.pi / 4) : ℝ) : ℂ) (2 * Real.pi) = some (r, t) →
      (prod pol fr [lossyMed 0, fr]).a ≠ 0 ∧ r = (prod pol fr [lossyMed 0, fr]).c / (prod pol fr [lossyMed 0, fr]).a := by
    intro pol r t h
    rw [solveSt_eq, hf', hF', hB'] at h
    have := (solve_eq_some.mp h).2
    rw [lossyMed_zero]
    push_cast at this
    exact ⟨this.1, this.2.1⟩
  have solk : ∀ {k : ℝ}, 0 < k → k ≤ 1 → ∀ pol, ∃ t, solveSt pol (lossyGap k) ((Real.pi / 4 : ℝ) : ℂ) (2 * Real.pi) =
      some ((prod pol fr [lossyMed k, fr]).c / (prod pol fr [lossyMed k, fr]).a, t) := by
    intro k hk hk1 pol
    obtain ⟨r, t, h⟩ := (lossy_physical hk.le hk1).solved pol
    have h' := h
    rw [solveSt_eq, lossy_films hk, show frontM (lossyGap k) ((Real.pi / 4 : ℝ) : ℂ) = fr from hF,
      show backM (lossyGap k) ((Real.pi / 4 : ℝ) : ℂ) = fr from hB] at h'
    have := (solve_eq_some.mp h').2
    exact ⟨t, by rw [h, this.2.1]; rfl⟩
  have lim : ∀ pol r t, solveSt pol gapStack ((-(Real.pi / 4) : ℝ) : ℂ) (2 * Real.pi) = some (r, t) →
      Tendsto (fun k => (prod pol fr [lossyMed k, fr]).c / (prod pol fr [lossyMed k, fr]).a) (𝓝[>] 0) (𝓝 r) := by
    intro pol r t h
    obtain ⟨ha, hr⟩ := sol0 pol r t h
    rw [hr]
    exact ((hP pol).c.div (hP pol).a ha).tendsto.mono_left nhdsWithin_le_nhds
  have ls := lim .s _ _ h1'
  have lp := lim .p _ _ h3'
  set Rs : ℝ → ℂ := fun k => (prod .s fr [lossyMed k, fr]).c / (prod .s fr [lossyMed k, fr]).a
  set Rp : ℝ → ℂ := fun k => (prod .p fr [lossyMed k, fr]).c / (prod .p fr [lossyMed k, fr]).a
  set q : ℂ := ((Real.sqrt 2 : ℝ) : ℂ) with hq
  have hqq : q ^ 2 = 2 := by
    rw [hq]; exact_mod_cast congrArg Complex.ofReal sqrt2_facts.1
  have hI := Complex.I_sq
  have hlt : ∀ b : ℝ, 0 < b → (1 : ℂ) - ((Real.exp (-(2 * b)) : ℝ) : ℂ) ≠ 0 := by
    intro b hb h
    have : Real.exp (-(2 * b)) < 1 := by
      have := Real.exp_lt_exp.mpr (show -(2 * b) < 0 by linarith)
      rwa [Real.exp_zero] at this
    have h' : (1 : ℝ) - Real.exp (-(2 * b)) = 0 := by exact_mod_cast h
    linarith
  have hne : ((Real.exp (-(2 * 40)) : ℝ) : ℂ) - ((Real.exp (-(2 * 35)) : ℝ) : ℂ) ≠ 0 := by
    intro h
    have : Real.exp (-(2 * 40)) < Real.exp (-(2 * 35)) := Real.exp_lt_exp.mpr (by norm_num)
    have h' : Real.exp (-(2 * 40)) - Real.exp (-(2 * 35)) = 0 := by exact_mod_cast h
    linarith
  have hE := hlt 40 (by norm_num)
  have hE' := hlt 35 (by norm_num)
  generalize ((Real.exp (-(2 * 40)) : ℝ) : ℂ) = E at *
  generalize ((Real.exp (-(2 * 35)) : ℝ) : ℂ) = E' at *
  have nz : ∀ {r D c x : ℂ}, r * D = c * x → c ≠ 0 → x ≠ 0 → r ≠ 0 := by
    rintro r D c x h hc hx rfl
    rw [zero_mul] at h
    exact mul_ne_zero hc hx h.symm
  have hrs := nz e1 (by norm_num) hE
  have hrp := nz e2 (by norm_num) hE
  have hrs' := nz e1' (by norm_num) hE'
  have hrp' := nz e2' (by norm_num) hE'
  have fin : ∀ (σ : Bool) {rs rp ts tp : ℂ}, rs ≠ 0 → rp ≠ 0 → ∃ ψ Δ,
      psiDelta σ false 0 ⟨some (rs, ts), some (rp, tp)⟩ = (some ψ, some Δ) := by
    intro σ rs rp ts tp hs hp
    have hq : -rp / rs ≠ 0 := div_ne_zero (neg_ne_zero.mpr hp) hs
    simp only [psiDelta, psiRad, if_neg hs, deltaRad, cdiv_of_ne hs, cdiv_of_ne hq,
      Option.bind_eq_bind, Option.bind_some, Option.map_some]
    exact ⟨_, _, rfl⟩
  -- what the code returns
  have res : ∀ {k : ℝ} {a b c d : ℂ}, 0 ≤ k → k ≤ 1 → a ≠ 0 → c ≠ 0 →
      solveSt .s (lossyGap k) ((Real.pi / 4 : ℝ) : ℂ) (2 * Real.pi) = some (a, b) →
      solveSt .p (lossyGap k) ((Real.pi / 4 : ℝ) : ℂ) (2 * Real.pi) = some (c, d) → ∃ p δ,
      (deltaPsiTMM zs [45] (lossyRows k) (2 * Real.pi) 0 false).1 = .ok [(some p, some δ)] ∧
      (Real.tan (rad p) : ℂ) * Complex.exp (-(I * (rad δ : ℝ))) = c / a ∧ 0 < p ∧ p < 90 := by
    intro k a b c d hk hk1 ha hc hs hp
    rw [deltaPsi_rows (lossyRows_of k) (lossy_physical hk hk1).nz hlam]
    simp only [List.map_cons, List.map_nil, h45, hs, hp]
    obtain ⟨p, δ, hpd⟩ := fin (zs ((lossyGap k).layers .inf .inf) 45 (2 * Real.pi)) (ts := b) (tp := d) ha hc
    refine ⟨p, δ, by rw [hpd], ?_, (psiDelta_encodes hpd).2.1, (psiDelta_encodes hpd).2.2.1⟩
    have he := (psiDelta_encodes hpd).1
    rw [sub_zero] at he
    rw [eq_div_iff ha, he]; ring
  have hmain : ∀ᶠ k in 𝓝[>] 0, ∃ p δ, (deltaPsiTMM zs [45] (lossyRows k) (2 * Real.pi) 0 false).1 =
      .ok [(some p, some δ)] ∧ (Real.tan (rad p) : ℂ) * Complex.exp (-(I * (rad δ : ℝ))) = Rp k / Rs k := by
    filter_upwards [ls.eventually_ne hrs', lp.eventually_ne hrp', self_mem_nhdsWithin,
      nhdsWithin_le_nhds (Iic_mem_nhds (show (0 : ℝ) < 1 by norm_num))] with k i1 i2 i3 i4
    obtain ⟨t, h⟩ := solk i3 i4 .s
    obtain ⟨t', h'⟩ := solk i3 i4 .p
    obtain ⟨p, δ, j1, j2, -⟩ := res (Set.mem_Ioi.mp i3).le i4 i1 i2 h h'
    exact ⟨p, δ, j1, j2⟩
  obtain ⟨p0, δ0, j1, j2, j3, j4⟩ := res le_rfl zero_le_one hrs hrp (by rw [lossyGap_zero]; exact h1)
    (by rw [lossyGap_zero]; exact h3)
  choose! ψ Δ hψΔ using fun k (h : ∃ p δ, (deltaPsiTMM zs [45] (lossyRows k) (2 * Real.pi) 0 false).1 =
      .ok [(some p, some δ)] ∧ (0 < k → (Real.tan (rad p) : ℂ) * Complex.exp (-(I * (rad δ : ℝ))) = Rp k / Rs k)) => h
  obtain ⟨z1, -⟩ := hψΔ 0 ⟨p0, δ0, j1, fun h => absurd h (lt_irrefl 0)⟩
  have zz := j1.symm.trans z1
  simp only [Except.ok.injEq, List.cons.injEq, Prod.mk.injEq, Option.some.injEq, and_true] at zz
  obtain ⟨zp, zd⟩ := zz
  refine ⟨ψ, Δ, ?_, ?_⟩
  · rw [← Set.Ioi_insert, nhdsWithin_insert, eventually_sup]
    refine ⟨by simp only [eventually_pure]; exact z1, ?_⟩
    filter_upwards [hmain] with k ⟨p, δ, k1, k2⟩
    exact (hψΔ k ⟨p, δ, k1, fun _ => k2⟩).1
  rintro ⟨cψ, cc, cs⟩
  set ρ : ℝ → ℂ := fun k => (Real.tan (rad (ψ k)) : ℂ) * Complex.exp (-(I * (rad (Δ k) : ℝ))) with hρd
  have hcosψ : Real.cos (rad (ψ 0)) ≠ 0 := by
    rw [← zp]
    refine (Real.cos_pos_of_mem_Ioo ⟨?_, ?_⟩).ne'
    · have : 0 < rad p0 := by unfold rad; positivity
      linarith
    · unfold rad
      calc p0 * (Real.pi / 180) < 90 * (Real.pi / 180) := by gcongr
        _ = Real.pi / 2 := by ring
  have cρ : ContinuousWithinAt ρ (Set.Ici 0) 0 := by
    have c1 : ContinuousWithinAt (fun k => rad (ψ k)) (Set.Ici 0) 0 := cψ.mul continuousWithinAt_const
    have e : ∀ k, Complex.exp (-(I * (rad (Δ k) : ℝ))) =
        ((Real.cos (rad (Δ k)) : ℝ) : ℂ) - ((Real.sin (rad (Δ k)) : ℝ) : ℂ) * I := by
      intro k
      rw [show -(I * ((rad (Δ k) : ℝ) : ℂ)) = ((-(rad (Δ k)) : ℝ) : ℂ) * I by push_cast; ring,
        Complex.exp_mul_I, ← Complex.ofReal_cos, ← Complex.ofReal_sin, Real.cos_neg, Real.sin_neg]
      push_cast
      ring
    refine ContinuousWithinAt.mul ?_ ?_
    · exact Complex.continuous_ofReal.continuousAt.comp_continuousWithinAt
        (ContinuousAt.comp_continuousWithinAt (f := fun k => rad (ψ k)) (g := Real.tan)
          (Real.continuousAt_tan.mpr hcosψ) c1)
    · simp only [e]
      exact (Complex.continuous_ofReal.continuousAt.comp_continuousWithinAt cc).sub
        ((Complex.continuous_ofReal.continuousAt.comp_continuousWithinAt cs).mul continuousWithinAt_const)
  have l1 : Tendsto ρ (𝓝[>] 0) (𝓝 (ρ 0)) := cρ.mono_left (nhdsWithin_mono _ Set.Ioi_subset_Ici_self)
  have l2 : Tendsto ρ (𝓝[>] 0) (𝓝 (rp' / rs')) := by
    refine (lp.div ls hrs').congr' ?_
    filter_upwards [hmain, self_mem_nhdsWithin] with k ⟨p, δ, k1, k2⟩ k3
    exact ((hψΔ k ⟨p, δ, k1, fun _ => k2⟩).2 k3).symm
  have hρ : rp / rs = rp' / rs' := by
    have := tendsto_nhds_unique l1 l2
    rw [← this, hρd]
    simp only [← zp, ← zd]
    exact j2.symm
  rw [div_eq_div_iff hrs hrs'] at hρ
  have hm : rp * rs' ≠ 0 := mul_ne_zero hrp hrs'
  have hD : ((q + 4 * I) ^ 2 - E * (q - 4 * I) ^ 2) * ((q + I) ^ 2 - E' * (q - I) ^ 2) =
      ((q + 4 * I) ^ 2 - E' * (q - 4 * I) ^ 2) * ((q + I) ^ 2 - E * (q - I) ^ 2) := by
    apply mul_left_cancel₀ hm
    have a : rp * rs' * (((q + 4 * I) ^ 2 - E * (q - 4 * I) ^ 2) * ((q + I) ^ 2 - E' * (q - I) ^ 2)) =
        (18 * (1 - E)) * (3 * (1 - E')) := by rw [← e2, ← e1']; ring
    have b : rp' * rs * (((q + 4 * I) ^ 2 - E' * (q - 4 * I) ^ 2) * ((q + I) ^ 2 - E * (q - I) ^ 2)) =
        (18 * (1 - E')) * (3 * (1 - E)) := by rw [← e2', ← e1]; ring
    rw [a, hρ, b]; ring
  have h6 : (E - E') * (q * I) = 0 := by
    have e3 : ((q + 4 * I) ^ 2 - E * (q - 4 * I) ^ 2) * ((q + I) ^ 2 - E' * (q - I) ^ 2) -
      ((q + 4 * I) ^ 2 - E' * (q - 4 * I) ^ 2) * ((q + I) ^ 2 - E * (q - I) ^ 2) =
      12 * (E - E') * (q * I) * (q ^ 2 - 4 * I ^ 2) := by ring
    have : 12 * (E - E') * (q * I) * (q ^ 2 - 4 * I ^ 2) = 0 := by rw [← e3, hD]; ring
    rw [hqq, hI] at this
    linear_combination (1 / 72) * this
  have hq0 : q ≠ 0 := by
    intro h; rw [h] at hqq; norm_num at hqq
  exact mul_ne_zero hne (mul_ne_zero hq0 Complex.I_ne_zero) h6

end Verif.TMM
