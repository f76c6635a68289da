import Verif.Disp.PropsOsc
import Mathlib.Analysis.SpecialFunctions.ImproperIntegrals
import Mathlib.MeasureTheory.Function.JacobianOneDim

/-! # C159: sum rules of the Lorentz model -/

namespace Verif.Disp

open MeasureTheory Set Filter Topology

/-- The line shape, in terms of `e - c / e`. -/
noncomputable def shape (c B e : ℝ) : ℝ := B / ((e - c / e) ^ 2 + B ^ 2)

theorem shape_pos {c B : ℝ} (hB : 0 < B) (e : ℝ) : 0 < shape c B e := by unfold shape; positivity

theorem image_reflect {c : ℝ} (hc : 0 < c) : (fun e : ℝ => c / e) '' Ioi 0 = Ioi 0 := by
  ext x
  simp only [mem_image, mem_Ioi]
  constructor
  · rintro ⟨e, he, rfl⟩; positivity
  · intro hx; exact ⟨c / x, by positivity, by field_simp⟩

theorem image_stretch {c B : ℝ} (hc : 0 < c) (hB : 0 < B) : (fun e : ℝ => (e - c / e) / B) '' Ioi 0 = univ := by
  ext y
  simp only [mem_image, mem_Ioi, mem_univ, iff_true]
  have hs : 0 ≤ (B * y) ^ 2 + 4 * c := by positivity
  have hlt : |B * y| < Real.sqrt ((B * y) ^ 2 + 4 * c) := by
    apply Real.lt_sqrt_of_sq_lt
    rw [sq_abs]; linarith
  set r := Real.sqrt ((B * y) ^ 2 + 4 * c) with hr
  have hr2 : r ^ 2 = (B * y) ^ 2 + 4 * c := Real.sq_sqrt hs
  have hpos : 0 < B * y + r := by linarith [neg_abs_le (B * y)]
  refine ⟨(B * y + r) / 2, by positivity, ?_⟩
  rw [div_eq_iff hB.ne']
  field_simp
  nlinarith

theorem reflect_deriv {c e : ℝ} (he : 0 < e) : HasDerivAt (fun e : ℝ => c / e) (-(c / e ^ 2)) e := by
  have := (hasDerivAt_inv he.ne').const_mul c
  simp only [div_eq_mul_inv]
  refine this.congr_deriv (by ring)

theorem stretch_deriv {c B e : ℝ} (he : 0 < e) :
    HasDerivAt (fun e : ℝ => (e - c / e) / B) ((1 + c / e ^ 2) / B) e := by
  refine (((hasDerivAt_id e).sub (reflect_deriv (c := c) he)).div_const B).congr_deriv (by simp)

theorem shape_integrals {c B : ℝ} (hc : 0 < c) (hB : 0 < B) :
    (IntegrableOn (shape c B) (Ioi 0) ∧ ∫ e in Ioi 0, shape c B e = Real.pi / 2) ∧
    (IntegrableOn (fun e => c / e ^ 2 * shape c B e) (Ioi 0) ∧
      ∫ e in Ioi 0, c / e ^ 2 * shape c B e = Real.pi / 2) := by
  -- the sum of the two, by the substitution `y = (e - c / e) / B`
  have inj1 : InjOn (fun e : ℝ => (e - c / e) / B) (Ioi 0) := by
    intro x hx y hy h
    simp only [mem_Ioi] at hx hy
    simp only [div_left_inj' hB.ne'] at h
    have : (x - y) * (1 + c / (x * y)) = 0 := by
      field_simp at h ⊢
      nlinarith
    rcases mul_eq_zero.mp this with h | h
    · linarith
    · have : 0 < 1 + c / (x * y) := by positivity
      linarith
  have hd1 : ∀ e ∈ Ioi (0 : ℝ), HasDerivWithinAt (fun e : ℝ => (e - c / e) / B) ((1 + c / e ^ 2) / B) (Ioi 0) e :=
    fun e he => (stretch_deriv he).hasDerivWithinAt
  have e1 : ∀ e ∈ Ioi (0 : ℝ), |(1 + c / e ^ 2) / B| • (1 + ((e - c / e) / B) ^ 2)⁻¹ =
      shape c B e + c / e ^ 2 * shape c B e := by
    intro e he
    have he' : 0 < e := he
    rw [abs_of_pos (by positivity), smul_eq_mul, div_pow,
      show (1 : ℝ) + (e - c / e) ^ 2 / B ^ 2 = ((e - c / e) ^ 2 + B ^ 2) / B ^ 2 by field_simp; ring, inv_div]
    unfold shape
    have : 0 < (e - c / e) ^ 2 + B ^ 2 := by positivity
    field_simp
  have I1 : IntegrableOn (fun e => shape c B e + c / e ^ 2 * shape c B e) (Ioi 0) := by
    have := (integrableOn_image_iff_integrableOn_abs_deriv_smul measurableSet_Ioi hd1 inj1
      fun y => (1 + y ^ 2)⁻¹).mp (by rw [image_stretch hc hB]; exact integrable_inv_one_add_sq.integrableOn)
    exact this.congr_fun e1 measurableSet_Ioi
  have V1 : ∫ e in Ioi 0, (shape c B e + c / e ^ 2 * shape c B e) = Real.pi := by
    have := integral_image_eq_integral_abs_deriv_smul measurableSet_Ioi hd1 inj1 fun y => (1 + y ^ 2)⁻¹
    rw [image_stretch hc hB, setIntegral_univ, integral_univ_inv_one_add_sq] at this
    rw [this]
    exact (setIntegral_congr_fun measurableSet_Ioi e1).symm
  -- the two are equal, by the substitution `e -> c / e`
  have inj2 : InjOn (fun e : ℝ => c / e) (Ioi 0) := by
    intro x hx y hy h
    simp only [mem_Ioi] at hx hy
    simp only at h
    rw [div_eq_div_iff hx.ne' hy.ne'] at h
    exact (mul_left_cancel₀ hc.ne' h).symm
  have hd2 : ∀ e ∈ Ioi (0 : ℝ), HasDerivWithinAt (fun e : ℝ => c / e) (-(c / e ^ 2)) (Ioi 0) e :=
    fun e he => (reflect_deriv he).hasDerivWithinAt
  have e2 : ∀ e ∈ Ioi (0 : ℝ), |-(c / e ^ 2)| • shape c B (c / e) = c / e ^ 2 * shape c B e := by
    intro e he
    have he' : 0 < e := he
    rw [abs_neg, abs_of_pos (by positivity), smul_eq_mul]
    congr 1
    unfold shape
    congr 2
    field_simp
    ring
  have V2 : ∫ e in Ioi 0, shape c B e = ∫ e in Ioi 0, c / e ^ 2 * shape c B e := by
    have := integral_image_eq_integral_abs_deriv_smul measurableSet_Ioi hd2 inj2 (shape c B)
    rw [image_reflect hc] at this
    rw [this]
    exact setIntegral_congr_fun measurableSet_Ioi e2
  have meas : Measurable (shape c B) := by unfold shape; fun_prop
  have I2 : IntegrableOn (shape c B) (Ioi 0) := by
    refine I1.mono' meas.aestronglyMeasurable ?_
    filter_upwards [self_mem_ae_restrict measurableSet_Ioi] with e he
    have he' : 0 < e := he
    have := shape_pos (c := c) hB e
    rw [Real.norm_eq_abs, abs_of_pos this]
    have : 0 ≤ c / e ^ 2 * shape c B e := by positivity
    linarith
  have I3 : IntegrableOn (fun e => c / e ^ 2 * shape c B e) (Ioi 0) :=
    (I1.sub I2).congr_fun (fun e _ => by simp) measurableSet_Ioi
  rw [integral_add I2 I3] at V1
  exact ⟨⟨I2, by linarith⟩, I3, by linarith⟩

/-- One term of the model, wherever it is defined. -/
noncomputable def lorTerm (o : ℝ × ℝ × ℝ) (e : ℝ) : ℂ := (o.1 : ℂ) / ((o.2.2 : ℂ) ^ 2 - e ^ 2 - Complex.I * o.2.1 * e)

theorem lor_den {o : ℝ × ℝ × ℝ} (hB : 0 < o.2.1) {e : ℝ} (he : 0 < e ∨ o.2.2 ≠ 0) :
    (o.2.2 : ℂ) ^ 2 - e ^ 2 - Complex.I * o.2.1 * e ≠ 0 := by
  intro h
  have h1 := congrArg Complex.im h
  have h2 := congrArg Complex.re h
  simp [sq] at h1 h2
  rcases h1 with h1 | h1
  · exact hB.ne' h1
  · rw [h1] at h2
    rcases he with he | he
    · exact he.ne' h1
    · exact he (by simpa using h2)

theorem lor_eps {osc : List (ℝ × ℝ × ℝ)} (einf : ℝ) {e : ℝ} (h : ∀ o ∈ osc, 0 < o.2.1 ∧ (0 < e ∨ o.2.2 ≠ 0)) :
    lorentzEps osc einf e = some ((osc.map fun o => lorTerm o e).sum + einf) := by
  have : sumO (osc.map (lorentzTerm e)) = some ((osc.map fun o => lorTerm o e).sum) := by
    induction osc with
    | nil => rfl
    | cons o osc ih =>
      simp only [List.map_cons, sumO, List.sum_cons]
      rw [ih fun p hp => h p (by simp [hp]), lorentzTerm, cdiv_of_ne (lor_den (h o (by simp)).1 (h o (by simp)).2)]
      rfl
  simp [lorentzEps, this]

theorem lor_parts {A B E e : ℝ} (hB : 0 < B) (he : 0 < e) :
    e * (lorTerm (A, B, E) e).im = A * shape (E ^ 2) B e ∧
    (lorTerm (A, B, E) e).re = A / B * (E ^ 2 / e ^ 2 * shape (E ^ 2) B e - shape (E ^ 2) B e) := by
  have hd : 0 < (e - E ^ 2 / e) ^ 2 + B ^ 2 := by positivity
  have hd' : 0 < (E ^ 2 - e ^ 2) ^ 2 + (B * e) ^ 2 := by positivity
  have hn : Complex.normSq ((E : ℂ) ^ 2 - e ^ 2 - Complex.I * B * e) = (E ^ 2 - e ^ 2) ^ 2 + (B * e) ^ 2 := by
    rw [Complex.normSq_apply]
    simp [sq]
  have hre : ((E : ℂ) ^ 2 - e ^ 2 - Complex.I * B * e).re = E ^ 2 - e ^ 2 := by simp [sq]
  have him : ((E : ℂ) ^ 2 - e ^ 2 - Complex.I * B * e).im = -(B * e) := by simp [sq]
  have es : shape (E ^ 2) B e = B * e ^ 2 / ((E ^ 2 - e ^ 2) ^ 2 + (B * e) ^ 2) := by
    unfold shape
    rw [div_eq_div_iff hd.ne' hd'.ne']
    field_simp
    ring
  rw [es]
  unfold lorTerm
  constructor
  · rw [Complex.div_im, hn, hre, him]
    simp only [Complex.ofReal_re, Complex.ofReal_im]
    field_simp
    ring
  · rw [Complex.div_re, hn, hre, him]
    simp only [Complex.ofReal_re, Complex.ofReal_im]
    field_simp
    ring

/-- A free carrier term (`En = 0`). -/
theorem shape_zero {B : ℝ} (hB : 0 < B) :
    IntegrableOn (shape 0 B) (Ioi 0) ∧ ∫ e in Ioi 0, shape 0 B e = Real.pi / 2 := by
  have e : ∀ x, shape 0 B x = B⁻¹ * (1 + (x * B⁻¹) ^ 2)⁻¹ := fun x => by
    unfold shape
    rw [zero_div, sub_zero]
    field_simp
    ring
  have hB' : 0 < B⁻¹ := inv_pos.mpr hB
  constructor
  · have : Integrable fun x : ℝ => (1 + (x * B⁻¹) ^ 2)⁻¹ := integrable_inv_one_add_sq.comp_mul_right' hB'.ne'
    exact ((this.const_mul B⁻¹).congr (ae_of_all _ fun x => (e x).symm)).integrableOn
  · simp only [e]
    rw [integral_const_mul, integral_comp_mul_right_Ioi (fun x => (1 + x ^ 2)⁻¹) 0 hB', zero_mul,
      integral_Ioi_inv_one_add_sq, Real.arctan_zero, inv_inv, smul_eq_mul]
    field_simp
    ring

theorem shape_all {c B : ℝ} (hc : 0 ≤ c) (hB : 0 < B) :
    IntegrableOn (shape c B) (Ioi 0) ∧ ∫ e in Ioi 0, shape c B e = Real.pi / 2 := by
  rcases hc.eq_or_lt with rfl | hc
  · exact shape_zero hB
  · exact (shape_integrals hc hB).1

/-- Sums of integrable terms. -/
theorem sum_integral {osc : List (ℝ × ℝ × ℝ)} {F : ℝ × ℝ × ℝ → ℝ → ℝ} {V : ℝ × ℝ × ℝ → ℝ}
    (h : ∀ o ∈ osc, IntegrableOn (F o) (Ioi 0) ∧ ∫ e in Ioi 0, F o e = V o) :
    IntegrableOn (fun e => (osc.map fun o => F o e).sum) (Ioi 0) ∧
      ∫ e in Ioi 0, (osc.map fun o => F o e).sum = (osc.map V).sum := by
  induction osc with
  | nil => simp
  | cons o osc ih =>
    obtain ⟨i1, i2⟩ := ih fun p hp => h p (by simp [hp])
    obtain ⟨j1, j2⟩ := h o (by simp)
    simp only [List.map_cons, List.sum_cons]
    exact ⟨j1.add i1, by rw [integral_add j1 i1, i2, j2]⟩

/-- A linear functional of the dielectric function, term by term. -/
theorem lor_linear {osc : List (ℝ × ℝ × ℝ)} (h : ∀ o ∈ osc, 0 < o.2.1) {einf : ℝ} {e : ℝ} (he : 0 < e) {v : ℂ}
    (hv : lorentzEps osc einf e = some v) (L : ℂ →+ ℝ) :
    L (v - einf) = (osc.map fun o => L (lorTerm o e)).sum := by
  rw [lor_eps einf fun o ho => ⟨h o ho, .inl he⟩, Option.some.injEq] at hv
  rw [← hv, add_sub_cancel_right, map_list_sum, List.map_map]
  rfl

/-- The integral of a linear functional of the dielectric function. -/
theorem lor_integral {osc : List (ℝ × ℝ × ℝ)} (h : ∀ o ∈ osc, 0 < o.2.1) {einf : ℝ} {ε : ℝ → ℂ}
    (hε : ∀ e, 0 < e → lorentzEps osc einf e = some (ε e)) (L : ℝ → ℂ →+ ℝ) {F : ℝ × ℝ × ℝ → ℝ → ℝ}
    {V : ℝ × ℝ × ℝ → ℝ} (hF : ∀ o ∈ osc, IntegrableOn (F o) (Ioi 0) ∧ ∫ e in Ioi 0, F o e = V o)
    (hL : ∀ o ∈ osc, ∀ e, 0 < e → L e (lorTerm o e) = F o e) :
    IntegrableOn (fun e => L e (ε e - einf)) (Ioi 0) ∧ ∫ e in Ioi 0, L e (ε e - einf) = (osc.map V).sum := by
  have key := sum_integral hF
  have e : ∀ x ∈ Ioi (0 : ℝ), (osc.map fun o => F o x).sum = L x (ε x - einf) := by
    intro x hx
    rw [lor_linear h hx (hε x hx)]
    congr 1
    exact List.map_congr_left fun o ho => (hL o ho x hx).symm
  exact ⟨key.1.congr_fun e measurableSet_Ioi, by rw [← key.2]; exact (setIntegral_congr_fun measurableSet_Ioi e).symm⟩

/-- C159, f-sum rule: the integral of `E Im ε` over all energies is `π/2` times the sum of the amplitudes, whatever
the widths and energies of the oscillators (free carriers, `En = 0`, included). -/
theorem C159_f_sum {osc : List (ℝ × ℝ × ℝ)} (h : ∀ o ∈ osc, 0 < o.2.1) {einf : ℝ} {ε : ℝ → ℂ}
    (hε : ∀ e, 0 < e → lorentzEps osc einf e = some (ε e)) :
    IntegrableOn (fun e => e * (ε e).im) (Ioi 0) ∧
      ∫ e in Ioi 0, e * (ε e).im = Real.pi / 2 * (osc.map fun o => o.1).sum := by
  have := lor_integral h hε (fun e => (AddMonoidHom.mulLeft e).comp Complex.imAddGroupHom)
    (F := fun o e => o.1 * shape (o.2.2 ^ 2) o.2.1 e) (V := fun o => Real.pi / 2 * o.1) (fun o ho => by
      obtain ⟨j1, j2⟩ := shape_all (sq_nonneg o.2.2) (h o ho)
      exact ⟨j1.const_mul o.1, by rw [integral_const_mul, j2]; ring⟩) (fun o ho e he => (lor_parts (h o ho) he).1)
  simpa [List.sum_map_mul_left] using this

/-- C159: the dielectric function at zero energy is `Einf` plus the sum of `A / En²`, and its excess over `Einf` is
`2/π` times the integral of `Im ε / E`: all of it comes from the absorption. -/
theorem C159_static {osc : List (ℝ × ℝ × ℝ)} (h : ∀ o ∈ osc, 0 < o.2.1 ∧ o.2.2 ≠ 0) {einf : ℝ} {ε : ℝ → ℂ}
    (hε : ∀ e, 0 ≤ e → lorentzEps osc einf e = some (ε e)) :
    ε 0 = ((einf + (osc.map fun o => o.1 / o.2.2 ^ 2).sum : ℝ) : ℂ) ∧ IntegrableOn (fun e => (ε e).im / e) (Ioi 0) ∧
      ∫ e in Ioi 0, (ε e).im / e = Real.pi / 2 * ((ε 0).re - einf) := by
  have e0 : ε 0 = ((einf + (osc.map fun o => o.1 / o.2.2 ^ 2).sum : ℝ) : ℂ) := by
    have := hε 0 le_rfl
    rw [lor_eps einf fun o ho => ⟨(h o ho).1, .inr (h o ho).2⟩, Option.some.injEq] at this
    rw [← this, add_comm, Complex.ofReal_add]
    congr 1
    clear this hε h
    induction osc with
    | nil => simp
    | cons o osc ih =>
      simp only [List.map_cons, List.sum_cons, Complex.ofReal_add, ih]
      simp [lorTerm]
  refine ⟨e0, ?_⟩
  have := lor_integral (fun o ho => (h o ho).1) (fun e he => hε e he.le)
    (fun e => (AddMonoidHom.mulLeft e⁻¹).comp Complex.imAddGroupHom)
    (F := fun o e => o.1 / o.2.2 ^ 2 * (o.2.2 ^ 2 / e ^ 2 * shape (o.2.2 ^ 2) o.2.1 e))
    (V := fun o => Real.pi / 2 * (o.1 / o.2.2 ^ 2)) (fun o ho => by
      have hE : 0 < o.2.2 ^ 2 := by have := (h o ho).2; positivity
      obtain ⟨-, j1, j2⟩ := shape_integrals hE (h o ho).1
      exact ⟨j1.const_mul _, by rw [integral_const_mul, j2]; ring⟩) (fun o ho e he => by
      have h1 := (lor_parts (A := o.1) (E := o.2.2) (h o ho).1 he).1
      have hE := (h o ho).2
      change e⁻¹ * (lorTerm o e).im = _
      have h2 : (lorTerm o e).im = o.1 * shape (o.2.2 ^ 2) o.2.1 e / e := by
        rw [eq_div_iff he.ne', mul_comm]; exact h1
      rw [h2]
      field_simp)
  rw [e0, Complex.ofReal_re, add_sub_cancel_left]
  simpa [List.sum_map_mul_left, div_eq_inv_mul] using this

/-- C159: the deviation of the real part from `Einf` averages to zero over all energies. -/
theorem C159_mean {osc : List (ℝ × ℝ × ℝ)} (h : ∀ o ∈ osc, 0 < o.2.1 ∧ o.2.2 ≠ 0) {einf : ℝ} {ε : ℝ → ℂ}
    (hε : ∀ e, 0 < e → lorentzEps osc einf e = some (ε e)) :
    IntegrableOn (fun e => (ε e).re - einf) (Ioi 0) ∧ ∫ e in Ioi 0, ((ε e).re - einf) = 0 := by
  have := lor_integral (fun o ho => (h o ho).1) hε (fun _ => Complex.reAddGroupHom)
    (F := fun o e => o.1 / o.2.1 * (o.2.2 ^ 2 / e ^ 2 * shape (o.2.2 ^ 2) o.2.1 e - shape (o.2.2 ^ 2) o.2.1 e))
    (V := fun _ => 0) (fun o ho => by
      have hE : 0 < o.2.2 ^ 2 := by have := (h o ho).2; positivity
      obtain ⟨⟨i1, i2⟩, j1, j2⟩ := shape_integrals hE (h o ho).1
      exact ⟨(j1.sub i1).const_mul _, by rw [integral_const_mul, integral_sub j1 i1, j2, i2]; ring⟩)
    (fun o ho e he => (lor_parts (h o ho).1 he).2)
  simpa using this

/-- C159: at high energies the material responds like free electrons: `E² (ε - Einf)` tends to minus the sum of the
amplitudes, the same sum as in the f-sum rule. -/
theorem C159_high {osc : List (ℝ × ℝ × ℝ)} (h : ∀ o ∈ osc, 0 < o.2.1) {einf : ℝ} {ε : ℝ → ℂ}
    (hε : ∀ e, 0 < e → lorentzEps osc einf e = some (ε e)) :
    Tendsto (fun e : ℝ => (e : ℂ) ^ 2 * (ε e - einf)) atTop (𝓝 (-(((osc.map fun o => o.1).sum : ℝ) : ℂ))) := by
  have hinv : Tendsto (fun e : ℝ => ((e⁻¹ : ℝ) : ℂ)) atTop (𝓝 0) := by
    have := (Complex.continuous_ofReal.tendsto 0).comp tendsto_inv_atTop_zero
    rwa [Complex.ofReal_zero] at this
  have one : ∀ o : ℝ × ℝ × ℝ, Tendsto (fun e : ℝ => (e : ℂ) ^ 2 * lorTerm o e) atTop (𝓝 (-(o.1 : ℂ))) := by
    intro o
    have hd : Tendsto (fun e : ℝ => (o.2.2 : ℂ) ^ 2 * ((e⁻¹ : ℝ) : ℂ) ^ 2 - 1 - Complex.I * o.2.1 * ((e⁻¹ : ℝ) : ℂ)) atTop
        (𝓝 (-1)) := by
      have := (((hinv.pow 2).const_mul ((o.2.2 : ℂ) ^ 2)).sub_const 1).sub (hinv.const_mul (Complex.I * o.2.1))
      simpa using this
    have := (tendsto_const_nhds (x := (o.1 : ℂ))).div hd (by simp)
    rw [div_neg, div_one] at this
    refine this.congr' ?_
    filter_upwards [eventually_gt_atTop 0] with e he
    have hne : (e : ℂ) ≠ 0 := by exact_mod_cast he.ne'
    have e1 : (o.2.2 : ℂ) ^ 2 * ((e⁻¹ : ℝ) : ℂ) ^ 2 - 1 - Complex.I * o.2.1 * ((e⁻¹ : ℝ) : ℂ) =
        ((o.2.2 : ℂ) ^ 2 - e ^ 2 - Complex.I * o.2.1 * e) / (e : ℂ) ^ 2 := by
      push_cast
      field_simp
    simp only [Pi.div_apply, e1, lorTerm]
    rw [div_div_eq_mul_div, mul_comm, mul_div_assoc]
  have key : Tendsto (fun e : ℝ => (osc.map fun o => (e : ℂ) ^ 2 * lorTerm o e).sum) atTop
      (𝓝 (-(((osc.map fun o => o.1).sum : ℝ) : ℂ))) := by
    clear hε h
    induction osc with
    | nil => simp
    | cons o osc ih =>
      simp only [List.map_cons, List.sum_cons, Complex.ofReal_add, neg_add]
      exact (one o).add ih
  refine key.congr' ?_
  filter_upwards [eventually_gt_atTop 0] with e he
  have := hε e he
  rw [lor_eps einf fun o ho => ⟨h o ho, .inl he⟩, Option.some.injEq] at this
  rw [← this, add_sub_cancel_right, List.sum_map_mul_left]

/-- The two documented oscillators, at any energy. -/
example : (∀ o ∈ [((5 : ℝ), (0.25 : ℝ), (2 : ℝ)), (10, 0.5, 4)], 0 < o.2.1 ∧ o.2.2 ≠ 0) ∧
    ∃ ε : ℝ → ℂ, ∀ e, lorentzEps [(5, 0.25, 2), (10, 0.5, 4)] 2 e = some (ε e) := by
  have h : ∀ o ∈ [((5 : ℝ), (0.25 : ℝ), (2 : ℝ)), (10, 0.5, 4)], 0 < o.2.1 ∧ o.2.2 ≠ 0 := by
    simp; norm_num
  exact ⟨h, _, fun e => lor_eps 2 fun o ho => ⟨(h o ho).1, .inr (h o ho).2⟩⟩

/-- A free carrier term breaks the rule for the mean of the real part (`C159_mean` needs `En ≠ 0`), not the f-sum
rule: its deviation from `Einf` is `-A / (E² + B²)`. -/
theorem C159_free {A B einf e : ℝ} (hB : 0 < B) (he : 0 < e) :
    ∃ v, lorentzEps [(A, B, 0)] einf e = some v ∧ v.re = einf - A / (e ^ 2 + B ^ 2) := by
  refine ⟨_, lor_eps einf fun o ho => ⟨?_, .inl he⟩, ?_⟩
  · rw [List.mem_singleton] at ho; subst ho; exact hB
  · simp only [List.map_cons, List.map_nil, List.sum_cons, List.sum_nil, add_zero, Complex.add_re, Complex.ofReal_re]
    rw [(lor_parts hB he).2]
    unfold shape
    have : 0 < e ^ 2 + B ^ 2 := by positivity
    simp
    field_simp
    ring

end Verif.Disp
