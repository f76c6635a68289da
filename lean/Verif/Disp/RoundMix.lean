import Verif.Disp.RoundOps

/-! # Mixing rules in the arithmetic of a machine (for C153) -/

namespace Verif.Disp

open Filter Topology Asymptotics EMA

/-- Numbers without imaginary part, eventually. -/
def RealF (F : Mach × ℝ → ℂ) : Prop := ∀ᶠ p in fine, (F p).im = 0

theorem ofReal_of_im {z : ℂ} (h : z.im = 0) : z = (z.re : ℂ) := Complex.ext (by simp) (by simp [h])

section
variable {F G : Mach × ℝ → ℂ}

theorem RealF.ofReal (f : Mach × ℝ → ℝ) : RealF fun p => (f p : ℂ) := Eventually.of_forall fun _ => by simp

theorem RealF.add (h : RealF F) (h' : RealF G) : RealF fun p => p.1.add (F p) (G p) := by
  filter_upwards [fine_within, h, h'] with p hp h1 h2
  rw [ofReal_of_im h1, ofReal_of_im h2]
  exact hp.add_real _ _

theorem RealF.sub (h : RealF F) (h' : RealF G) : RealF fun p => p.1.sub (F p) (G p) := by
  filter_upwards [fine_within, h, h'] with p hp h1 h2
  rw [ofReal_of_im h1, ofReal_of_im h2]
  exact hp.sub_real _ _

theorem RealF.mul (h : RealF F) (h' : RealF G) : RealF fun p => p.1.mul (F p) (G p) := by
  filter_upwards [fine_within, h, h'] with p hp h1 h2
  rw [ofReal_of_im h1, ofReal_of_im h2]
  exact hp.mul_real _ _

theorem RealF.sq (h : RealF F) : RealF fun p => p.1.sq (F p) := by
  filter_upwards [fine_within, h] with p hp h1
  rw [ofReal_of_im h1]
  exact hp.sq_real _

theorem RealF.div (h : RealF F) (h' : RealF G) : RealF fun p => p.1.div (F p) (G p) := by
  filter_upwards [fine_within, h, h'] with p hp h1 h2
  rw [ofReal_of_im h1, ofReal_of_im h2]
  exact hp.div_real _ _

/-- A number without imaginary part is the limit of such numbers only. -/
theorem RealF.lim [NeBot fine] {z : ℂ} (h : RealF F) (hn : Near F z) : z.im = 0 := by
  have h1 : Near (fun p => (F p).im) z.im := hn.diff (g := fun x : ℂ => x.im) Complex.imCLM.differentiableAt
  refine tendsto_nhds_unique (h1.tendsto.congr' h) tendsto_const_nhds

theorem RealF.sqrt [NeBot fine] {z : ℂ} (h : RealF F) (hn : Near F z) (hz : z ∈ Complex.slitPlane) :
    RealF fun p => p.1.sqrt (F p) := by
  have h0 : 0 < z.re := hz.resolve_right (not_not.mpr (h.lim hn))
  have h1 : Near (fun p => (F p).re) z.re := hn.diff (g := fun x : ℂ => x.re) Complex.reCLM.differentiableAt
  filter_upwards [fine_within, h, h1.tendsto.eventually (lt_mem_nhds h0)] with p hp h2 h3
  rw [ofReal_of_im h2]
  exact hp.sqrt_real _ h3.le

end

instance : NeBot fine := by
  have h : Tendsto (fun _ : ℕ => (Mach.exact true, (0 : ℝ))) atTop fine := by
    refine tendsto_inf.mpr ⟨tendsto_principal.mpr (Eventually.of_forall fun _ => Mach.exact_within true), ?_⟩
    exact tendsto_comap_iff.mpr tendsto_const_nhds
  exact h.neBot

/-- `overall_ri` of indices that are themselves rounded. -/
theorem near_mix (σ : Bool × Bool) {A B : ℂ} (hA : PassiveRi A) (hB : PassiveRi B) {f : ℝ}
    (hf : 0 ≤ f ∧ f ≤ 1) {ema : String} (he : Known ema) {L : ℝ} (hL : GoodL ema L)
    (hd : ema = "bruggeman" → Dielectric A ∧ Dielectric B) {N : ℂ} (hN : overallRi σ A B f ema L = .ok N)
    {a b : Mach × ℝ → ℂ} (ha' : Near a A) (hb' : Near b B) :
    ∃ G, Near G N ∧ (∀ p : Mach × ℝ, p.1.mix (a p) (b p) f ema L = .ok (G p)) ∧ (RealF a → RealF b → RealF G) := by
  have ha := sq_up hA.1 hA.2
  have hb := sq_up hB.1 hB.2
  have na := ha'.msq
  have nb := hb'.msq
  have nf : Near (fun _ : Mach × ℝ => f) f := near_const f
  have nL : Near (fun _ : Mach × ℝ => L) L := near_const L
  have n1 : Near (fun p : Mach × ℝ => p.1.rsub 1 f) (1 - f) := (near_const 1).mrsub nf
  obtain ⟨hL0, hL1, hLb⟩ := hL
  rcases he with rfl | rfl | rfl
  · obtain rfl : npSqrt σ.2 (linearE (A ^ 2) (B ^ 2) f) = N := by simpa [overallRi] using hN
    have h1 := (n1.ofReal.mmul na).madd (nf.ofReal.mmul nb)
    have e : ((1 - f : ℝ) : ℂ) * A ^ 2 + (f : ℂ) * B ^ 2 = linearE (A ^ 2) (B ^ 2) f := by
      unfold linearE; push_cast; ring
    have hs : linearE (A ^ 2) (B ^ 2) f ∈ Complex.slitPlane := by
      rw [← e]
      exact (Up.comb ha hb (x := 1 - f) (y := f) (by linarith [hf.2]) hf.1 (by linarith)).slit
    rw [e] at h1
    refine ⟨_, h1.msqrt σ.2 hs, fun p => by simp [Mach.mix], fun ra rb => ?_⟩
    exact RealF.sqrt (((RealF.ofReal _).mul ra.sq).add ((RealF.ofReal _).mul rb.sq)) h1 hs
  · obtain rfl : npSqrt σ.2 (garnettE (A ^ 2) (B ^ 2) f L) = N := by simpa [overallRi] using hN
    have hbot := (garnett_bottom_up ha hb hf ⟨hL0, hL1⟩).ne_zero
    have hs := (garnett_up ha hb hf ⟨hL0, hL1⟩).slit
    have nt := na.madd (((nL.mrmul n1).mradd nf).ofReal.mmul (nb.msub na))
    have nbo := na.madd ((nL.mrmul n1).ofReal.mmul (nb.msub na))
    have e1 : A ^ 2 + ((L * (1 - f) + f : ℝ) : ℂ) * (B ^ 2 - A ^ 2) =
        A ^ 2 + ((L : ℂ) * (1 - f) + f) * (B ^ 2 - A ^ 2) := by push_cast; ring
    have e2 : A ^ 2 + ((L * (1 - f) : ℝ) : ℂ) * (B ^ 2 - A ^ 2) =
        A ^ 2 + (L : ℂ) * (1 - f) * (B ^ 2 - A ^ 2) := by push_cast; ring
    rw [e1] at nt
    rw [e2] at nbo
    obtain ⟨V, hV, eV⟩ := nt.mcquot nbo hbot
    have hV' := hV.congr (G := fun p : Mach × ℝ => ((p.1.cquot (p.1.add (p.1.sq (a p))
        (p.1.mul (p.1.radd (p.1.rmul L (p.1.rsub 1 f)) f : ℝ) (p.1.sub (p.1.sq (b p)) (p.1.sq (a p)))))
        (p.1.add (p.1.sq (a p)) (p.1.mul (p.1.rmul L (p.1.rsub 1 f) : ℝ)
          (p.1.sub (p.1.sq (b p)) (p.1.sq (a p)))))).getD 0)) (eV.mono fun _ hp => congrArg (fun o => Option.getD o 0) hp)
    have h1 := na.mmul hV'
    rw [← garnett_eq hbot] at h1
    refine ⟨_, h1.msqrt σ.2 hs, fun p => by simp [Mach.mix], fun ra rb => ?_⟩
    refine RealF.sqrt (RealF.mul ra.sq ?_) h1 hs
    have := RealF.div (ra.sq.add ((RealF.ofReal fun p => (p.1.radd (p.1.rmul L (p.1.rsub 1 f)) f)).mul (rb.sq.sub ra.sq)))
      (ra.sq.add ((RealF.ofReal fun p => (p.1.rmul L (p.1.rsub 1 f))).mul (rb.sq.sub ra.sq)))
    filter_upwards [this, nbo.ne hbot] with p h2 h3
    rw [Mach.cquot, if_neg h3]
    exact h2
  · have hL' := hLb rfl
    obtain ⟨dA, dB⟩ := hd rfl
    have qa := dA.sq hA
    have qb := dB.sq hB
    obtain rfl : npSqrt σ.2 (bruggemanE σ.1 (A ^ 2) (B ^ 2) f L) = N := by simpa [overallRi] using hN
    have hs := quadrant_slit (bruggemanE_quadrant σ.1 qa qb hf ⟨hL0, hL'⟩)
    have hD := bruggemanD_slit qa qb hf ⟨hL0, hL'⟩
    have nb' := (na.mmul ((n1.mrsub nL).ofReal)).madd (nb.mmul (nf.mrsub nL).ofReal)
    have e1 : A ^ 2 * ((1 - f - L : ℝ) : ℂ) + B ^ 2 * ((f - L : ℝ) : ℂ) = bruggemanB (A ^ 2) (B ^ 2) f L := by
      unfold bruggemanB; push_cast; ring
    rw [e1] at nb'
    have nd := nb'.msq.msub (((near_const 4).mrmul (nL.mrsub (near_const 1))).ofReal.mmul ((na.mmul nb).mmul nL.ofReal))
    have e2 : bruggemanB (A ^ 2) (B ^ 2) f L ^ 2 - ((4 * (L - 1) : ℝ) : ℂ) * (A ^ 2 * B ^ 2 * (L : ℂ)) =
        bruggemanD (A ^ 2) (B ^ 2) f L := by unfold bruggemanD; push_cast; ring
    rw [e2] at nd
    have nv := nb'.madd (nd.msqrt σ.1 hD)
    have nl : Near (fun p : Mach × ℝ => ((p.1.rmul 2 (p.1.rsub 1 L) : ℝ) : ℂ)) ((2 * (1 - L) : ℝ) : ℂ) :=
      ((near_const 2).mrmul ((near_const 1).mrsub nL)).ofReal
    have hl : ((2 * (1 - L) : ℝ) : ℂ) ≠ 0 := by
      rw [Complex.ofReal_ne_zero]
      linarith
    obtain ⟨V, hV, eV⟩ := nv.mcquot nl hl
    have hV' := hV.congr (G := fun p : Mach × ℝ => ((p.1.cquot (p.1.add
        (p.1.add (p.1.mul (p.1.sq (a p)) (p.1.rsub (p.1.rsub 1 f) L : ℝ)) (p.1.mul (p.1.sq (b p)) (p.1.rsub f L : ℝ)))
        (p.1.sqrt (p.1.sub (p.1.sq (p.1.add (p.1.mul (p.1.sq (a p)) (p.1.rsub (p.1.rsub 1 f) L : ℝ))
          (p.1.mul (p.1.sq (b p)) (p.1.rsub f L : ℝ))))
          (p.1.mul (p.1.rmul 4 (p.1.rsub L 1) : ℝ) (p.1.mul (p.1.mul (p.1.sq (a p)) (p.1.sq (b p))) L)))))
        (p.1.rmul 2 (p.1.rsub 1 L) : ℝ)).getD 0)) (eV.mono fun _ hp => congrArg (fun o => Option.getD o 0) hp)
    have e3 : (bruggemanB (A ^ 2) (B ^ 2) f L + npSqrt σ.1 (bruggemanD (A ^ 2) (B ^ 2) f L)) / ((2 * (1 - L) : ℝ) : ℂ) =
        bruggemanE σ.1 (A ^ 2) (B ^ 2) f L := by
      rw [bruggeman_eq _ hL'.ne]; push_cast; ring
    rw [e3] at hV'
    refine ⟨_, hV'.msqrt σ.2 hs, fun p => by simp [Mach.mix], fun ra rb => ?_⟩
    have rb' := (ra.sq.mul (RealF.ofReal fun p => p.1.rsub (p.1.rsub 1 f) L)).add
      (rb.sq.mul (RealF.ofReal fun p => p.1.rsub f L))
    have rd := rb'.sq.sub ((RealF.ofReal fun p => p.1.rmul 4 (p.1.rsub L 1)).mul
      ((ra.sq.mul rb.sq).mul (RealF.ofReal fun _ => L)))
    have rv := (rb'.add (RealF.sqrt rd nd hD)).div (RealF.ofReal fun p => p.1.rmul 2 (p.1.rsub 1 L))
    refine RealF.sqrt ?_ hV' hs
    filter_upwards [rv, nl.ne hl] with p h2 h3
    rw [Mach.cquot, if_neg h3]
    exact h2

end Verif.Disp
