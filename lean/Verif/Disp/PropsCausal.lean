import Verif.Disp.CausalLemmas
import Verif.Disp.CausalUnique
import Verif.Disp.PropsOsc

/-!
# Property C106: oscillator models are causal

Lorentz and Tauc-Lorentz dielectric functions satisfy the Kramers-Kronig relations: real and imaginary part
belong to one function that is holomorphic above the real axis.  For Tauc-Lorentz the code computes the two
parts from separate formulas, the real part from five terms with logarithms and arctangents.
-/

namespace Verif.Disp
open Complex Filter Topology

/-! ### Sums -/

theorem Causal.const (c : ℝ) : Causal (fun _ => (c : ℂ)) c where
  holo := differentiableOn_const _
  atInf := tendsto_const_nhds
  real := fun _ _ => (Complex.conj_ofReal c).symm

theorem Causal.add {F G : ℂ → ℂ} {a b : ℝ} (hF : Causal F a) (hG : Causal G b) :
    Causal (fun z => F z + G z) (a + b) where
  holo := hF.holo.add hG.holo
  atInf := by simpa using hF.atInf.add hG.atInf
  real := fun z hz => by simp only [hF.real z hz, hG.real z hz, map_add]

theorem Causal.smul {F : ℂ → ℂ} (hF : Causal F 0) (c : ℝ) : Causal (fun z => c * F z) 0 where
  holo := hF.holo.const_mul _
  atInf := by simpa using hF.atInf.const_mul (c : ℂ)
  real := fun z hz => by simp only [hF.real z hz, map_mul, Complex.conj_ofReal]

theorem causal_sum_aux {f : (ℝ × ℝ × ℝ) → ℝ → Option ℂ} {ok : ℝ → Prop} {o : ℝ × ℝ × ℝ}
    {osc : List (ℝ × ℝ × ℝ)} {F G : ℂ → ℂ}
    (hF : ∀ e v, ok e → f o e = some v → Boundary F e v)
    (hG : ∀ e v, ok e → sumO (osc.map fun o => f o e) = some v → Boundary G e v) {e : ℝ} {v : ℂ} (hok : ok e)
    (hv : sumO ((o :: osc).map fun o => f o e) = some v) : Boundary (fun z => F z + G z) e v := by
  simp only [List.map_cons, sumO, Option.bind_eq_bind, Option.bind_eq_some_iff, Option.pure_def,
    Option.some.injEq] at hv
  obtain ⟨t, ht, r, hr, rfl⟩ := hv
  exact (hF e t hok ht).add (hG e r hok hr)

/-- A sum of oscillators. -/
theorem causal_sum {f : (ℝ × ℝ × ℝ) → ℝ → Option ℂ} {ok : ℝ → Prop} {full : Prop} : ∀ {osc : List (ℝ × ℝ × ℝ)},
    (∀ o ∈ osc, ∃ F, Causal F 0 ∧ (∀ e v, ok e → f o e = some v → Boundary F e v) ∧
      (full → ∀ x, ∃ v, Boundary F x v)) →
    ∃ F, Causal F 0 ∧ (∀ e v, ok e → sumO (osc.map fun o => f o e) = some v → Boundary F e v) ∧
      (full → ∀ x, ∃ v, Boundary F x v)
  | [], _ => ⟨fun _ => 0, by simpa using Causal.const 0, fun e v _ h => by
      simp only [List.map_nil, sumO, Option.some.injEq] at h
      rw [← h]; exact tendsto_const_nhds, fun _ _ => ⟨0, tendsto_const_nhds⟩⟩
  | o :: osc, h => by
    obtain ⟨F, hF, hFb, hFx⟩ := h o (by simp)
    obtain ⟨G, hG, hGb, hGx⟩ := causal_sum (ok := ok) (f := f) (full := full) (osc := osc)
      fun o ho => h o (by simp [ho])
    refine ⟨fun z => F z + G z, by simpa using hF.add hG, fun e v hok hv => ?_, fun hf x => ?_⟩
    · exact causal_sum_aux hFb hGb hok hv
    · obtain ⟨a, ha⟩ := hFx hf x
      obtain ⟨b, hb⟩ := hGx hf x
      exact ⟨a + b, ha.add hb⟩

/-! ### Lorentz -/

theorem lorentz_den_ne {B E : ℝ} (hB : 0 ≤ B) {z : ℂ} (hz : z ∈ upper) :
    (E : ℂ) ^ 2 - z ^ 2 - I * B * z ≠ 0 := by
  intro h
  have hz' : 0 < z.im := hz
  have hre := congrArg Complex.re h
  have him := congrArg Complex.im h
  simp [sq] at hre him
  have hx : z.re = 0 := by
    have : z.re * (2 * z.im + B) = 0 := by linarith
    rcases mul_eq_zero.mp this with h | h
    · exact h
    · linarith
  rw [hx] at hre
  nlinarith [mul_nonneg hB hz'.le, mul_pos hz' hz', mul_self_nonneg E]

theorem lorentz_atInf (A : ℝ) {B : ℝ} (hB : 0 ≤ B) (E : ℝ) :
    Tendsto (fun z : ℂ => (A : ℂ) / ((E : ℂ) ^ 2 - z ^ 2 - I * B * z)) (cocompact ℂ ⊓ 𝓟 upper) (𝓝 0) := by
  have hn : Tendsto (fun z : ℂ => ‖z‖) (cocompact ℂ ⊓ 𝓟 upper) atTop :=
    tendsto_norm_cocompact_atTop.mono_left inf_le_left
  refine squeeze_zero_norm' (a := fun z : ℂ => |A| / ‖z‖) ?_ (tendsto_const_nhds.div_atTop hn)
  filter_upwards [hn.eventually_ge_atTop (1 + B + |E| ^ 2)] with z hz
  have hE := sq_nonneg |E|
  have h1 : 1 ≤ ‖z‖ := by linarith
  have h2 : ‖z‖ ≤ ‖(E : ℂ) ^ 2 - z ^ 2 - I * B * z‖ := by
    have e1 : ‖(E : ℂ) ^ 2‖ = |E| ^ 2 := by rw [norm_pow, Complex.norm_real, Real.norm_eq_abs]
    have e2 : ‖I * (B : ℂ) * z‖ = B * ‖z‖ := by
      rw [norm_mul, norm_mul, Complex.norm_I, one_mul, Complex.norm_real, Real.norm_eq_abs,
        abs_of_nonneg hB]
    have e3 : ‖z ^ 2‖ = ‖z‖ ^ 2 := norm_pow _ _
    have t1 : ‖z ^ 2‖ - ‖(E : ℂ) ^ 2‖ ≤ ‖(E : ℂ) ^ 2 - z ^ 2‖ := by
      rw [norm_sub_rev]; exact norm_sub_norm_le _ _
    have t2 := norm_sub_norm_le ((E : ℂ) ^ 2 - z ^ 2) (I * B * z)
    rw [e1, e3] at t1
    rw [e2] at t2
    have t3 : 1 * |E| ^ 2 ≤ ‖z‖ * (‖z‖ - B - 1) := by gcongr; linarith
    linarith [show ‖z‖ * (‖z‖ - B - 1) = ‖z‖ ^ 2 - B * ‖z‖ - ‖z‖ by ring]
  rw [norm_div, Complex.norm_real, Real.norm_eq_abs]
  gcongr

theorem lorentz_causal (A : ℝ) {B : ℝ} (hB : 0 ≤ B) (E : ℝ) :
    Causal (fun z => (A : ℂ) / ((E : ℂ) ^ 2 - z ^ 2 - I * B * z)) 0 where
  holo := DifferentiableOn.div (differentiableOn_const _) (by fun_prop) fun z hz => lorentz_den_ne hB hz
  atInf := by simpa using lorentz_atInf A hB E
  real := fun z _ => by
    rw [map_div₀, map_sub, map_sub, map_mul, map_mul, map_pow, map_pow, Complex.conj_ofReal,
      Complex.conj_ofReal, Complex.conj_ofReal, Complex.conj_I]
    congr 1
    ring

theorem lorentz_boundary {A B E e : ℝ} (hd : (E : ℂ) ^ 2 - (e : ℂ) ^ 2 - I * B * e ≠ 0) :
    Boundary (fun z => (A : ℂ) / ((E : ℂ) ^ 2 - z ^ 2 - I * B * z)) e
      ((A : ℂ) / ((E : ℂ) ^ 2 - (e : ℂ) ^ 2 - I * B * e)) := by
  refine Tendsto.mono_left ?_ nhdsWithin_le_nhds
  exact ContinuousAt.tendsto (f := fun z : ℂ => (A : ℂ) / ((E : ℂ) ^ 2 - z ^ 2 - I * B * z))
    (ContinuousAt.div (by fun_prop) (by fun_prop) hd)

theorem lorentz_exists {osc : List (ℝ × ℝ × ℝ)} (h : ∀ o ∈ osc, 0 ≤ o.2.1) (einf : ℝ) :
    ∃ F, Causal F einf ∧ (∀ e v, lorentzEps osc einf e = some v → Boundary F e v) ∧
      ((∀ o ∈ osc, o.2.1 ≠ 0 ∧ o.2.2 ≠ 0) → ∀ x, ∃ v, Boundary F x v) := by
  obtain ⟨F, hF, hb, hx⟩ := causal_sum (f := fun o e => lorentzTerm e o) (ok := fun _ => True)
    (full := ∀ o ∈ osc, o.2.1 ≠ 0 ∧ o.2.2 ≠ 0) (osc := osc)
    fun o ho => ⟨_, lorentz_causal o.1 (h o ho) o.2.2, fun e v _ hv => by
      unfold lorentzTerm at hv
      have hd : (o.2.2 : ℂ) ^ 2 - (e : ℂ) ^ 2 - I * o.2.1 * e ≠ 0 := by
        intro h0
        simp [cdiv, h0] at hv
      rw [cdiv_of_ne hd, Option.some.injEq] at hv
      rw [← hv]
      exact lorentz_boundary hd, fun hf x => by
      obtain ⟨hB, hE⟩ := hf o ho
      refine ⟨_, lorentz_boundary fun h0 => ?_⟩
      have hre := congrArg Complex.re h0
      have him := congrArg Complex.im h0
      simp [sq] at hre him
      rcases him with him | him
      · exact hB him
      · rw [him] at hre; simp at hre; exact hE hre⟩
  refine ⟨fun z => F z + einf, by simpa using hF.add (Causal.const einf), fun e v hv => ?_, fun hf x => ?_⟩
  · unfold lorentzEps at hv
    cases hs : sumO (osc.map (lorentzTerm e)) with
    | none => simp [hs] at hv
    | some u =>
      simp [hs] at hv
      rw [← hv]
      exact (hb e u trivial hs).add tendsto_const_nhds
  · obtain ⟨v, hv⟩ := hx hf x
    exact ⟨v + einf, hv.add tendsto_const_nhds⟩

/-- C106, Lorentz: for non-negative broadenings there is one function, holomorphic above the real axis, real
in the time domain and tending to `Einf`, whose boundary value is the dielectric function at every energy
where this is finite. -/
theorem C106_lorentz {osc : List (ℝ × ℝ × ℝ)} (h : ∀ o ∈ osc, 0 ≤ o.2.1) (einf : ℝ) :
    ∃ F, Causal F einf ∧ ∀ e v, lorentzEps osc einf e = some v → Boundary F e v := by
  obtain ⟨F, hF, hb, _⟩ := lorentz_exists h einf
  exact ⟨F, hF, hb⟩

/-! ### Tauc-Lorentz -/

/-- The real part of one oscillator, written out. -/
theorem tlE1_eq {A C Ei Eg e : ℝ} (hEg : 0 ≤ Eg) (hC : 0 < C) (hC2 : C ^ 2 ≤ 2 * Ei ^ 2) (hEi : 0 < Ei)
    (he : 0 < e) (hne : e ≠ Eg) {al : ℝ} (hal : al = Real.sqrt (4 * Ei ^ 2 - C ^ 2)) :
    tlE1 (A, C, Ei) Eg e = some (-(A * Ei * C / Real.pi) *
      (((e - Eg) ^ 2 * Real.log |e - Eg| - (e + Eg) ^ 2 * Real.log (e + Eg)
        + e * (tlP0 Eg al C + tlP1 Eg al C * e ^ 2)) /
        (e * ((e ^ 2 - (al ^ 2 + C ^ 2) / 4) ^ 2 + C ^ 2 * e ^ 2)))) := by
  have hal0 : 0 < 4 * Ei ^ 2 - C ^ 2 := by nlinarith
  have hga0 : 0 ≤ Ei ^ 2 - C ^ 2 / 2 := by linarith
  have halpos : 0 < al := hal ▸ Real.sqrt_pos.mpr hal0
  have halsq : al ^ 2 = 4 * Ei ^ 2 - C ^ 2 := by rw [hal]; exact Real.sq_sqrt hal0.le
  set ga := Real.sqrt (Ei ^ 2 - C ^ 2 / 2) with hga
  have hgasq : ga ^ 2 = Ei ^ 2 - C ^ 2 / 2 := Real.sq_sqrt hga0
  have hW : (al ^ 2 + C ^ 2) / 4 = Ei ^ 2 := by rw [halsq]; ring
  have hG : (al ^ 2 - C ^ 2) / 4 = ga ^ 2 := by rw [halsq, hgasq]; ring
  have hz : 0 < (e ^ 2 - ga ^ 2) ^ 2 + 0.25 * al ^ 2 * C ^ 2 := by positivity
  have hzz : (e ^ 2 - ga ^ 2) ^ 2 + 0.25 * al ^ 2 * C ^ 2 =
      (e ^ 2 - Ei ^ 2) ^ 2 + C ^ 2 * e ^ 2 := by rw [halsq, hgasq]; ring
  have hM : Ei ^ 2 + Eg ^ 2 - al * Eg = (Eg - al / 2) ^ 2 + (C / 2) ^ 2 := by rw [← hW]; ring
  have hP : Ei ^ 2 + Eg ^ 2 + al * Eg = (Eg + al / 2) ^ 2 + (C / 2) ^ 2 := by rw [← hW]; ring
  have hMp : 0 < (Eg - al / 2) ^ 2 + (C / 2) ^ 2 := by positivity
  have hPp : 0 < (Eg + al / 2) ^ 2 + (C / 2) ^ 2 := by positivity
  have hden1 : 0 < Ei ^ 2 + Eg ^ 2 - al * Eg := hM ▸ hMp
  have hl1 : 0 < (Ei ^ 2 + Eg ^ 2 + al * Eg) / (Ei ^ 2 + Eg ^ 2 - al * Eg) :=
    div_pos (hP ▸ hPp) hden1
  have habs : 0 < |e - Eg| := abs_pos.mpr (sub_ne_zero.mpr hne)
  have hsum : 0 < e + Eg := by linarith
  have hRR : (Ei ^ 2 - Eg ^ 2) ^ 2 + Eg ^ 2 * C ^ 2 =
      ((Eg - al / 2) ^ 2 + (C / 2) ^ 2) * ((Eg + al / 2) ^ 2 + (C / 2) ^ 2) := by
    rw [← hM, ← hP]
    linear_combination Eg ^ 2 * halsq
  have hroot : 0 < Real.sqrt ((Ei ^ 2 - Eg ^ 2) ^ 2 + Eg ^ 2 * C ^ 2) := by
    apply Real.sqrt_pos.mpr
    rw [hRR]; positivity
  have hl4 : 0 < |e - Eg| / (e + Eg) := by positivity
  have hl5 : 0 < |e - Eg| * (e + Eg) /
      Real.sqrt ((Ei ^ 2 - Eg ^ 2) ^ 2 + Eg ^ 2 * C ^ 2) := by positivity
  have n1 : ((e ^ 2 - ga ^ 2) ^ 2 + 0.25 * al ^ 2 * C ^ 2) * al * Ei ≠ 0 := by positivity
  have n2 : ((e ^ 2 - ga ^ 2) ^ 2 + 0.25 * al ^ 2 * C ^ 2) * Ei ≠ 0 := by positivity
  have n3 : ((e ^ 2 - ga ^ 2) ^ 2 + 0.25 * al ^ 2 * C ^ 2) * al ≠ 0 := by positivity
  have n4 : ((e ^ 2 - ga ^ 2) ^ 2 + 0.25 * al ^ 2 * C ^ 2) * e ≠ 0 := by positivity
  have n5 : al * C ≠ 0 := by positivity
  unfold tlE1
  simp only [rsqrt_of_nonneg hal0.le, rsqrt_of_nonneg hga0, Option.pure_def,
    Option.bind_eq_bind, Option.bind_some, ← hal, ← hga, rdiv_of_ne hden1.ne',
    rlog_of_pos hl1, rdiv_of_ne n1, rdiv_of_ne n2, rdiv_of_ne n3, rdiv_of_ne n4,
    rdiv_of_ne n5, rdiv_of_ne hC.ne', rdiv_of_ne hsum.ne', rlog_of_pos hl4, rdiv_of_ne hz.ne',
    rdiv_of_ne hroot.ne', rlog_of_pos hl5, Option.some.injEq]
  -- the logarithms and arctangents
  have E1 : Real.log ((Ei ^ 2 + Eg ^ 2 + al * Eg) / (Ei ^ 2 + Eg ^ 2 - al * Eg)) =
      2 * (tlLb Eg al C - tlLa Eg al C) := by
    rw [Real.log_div (by rw [hP]; exact hPp.ne') hden1.ne', hP, hM, tlLa, tlLb]; ring
  have E4 : Real.log (|e - Eg| / (e + Eg)) = Real.log |e - Eg| - Real.log (e + Eg) :=
    Real.log_div habs.ne' hsum.ne'
  have E5 : Real.log (|e - Eg| * (e + Eg) / Real.sqrt ((Ei ^ 2 - Eg ^ 2) ^ 2 + Eg ^ 2 * C ^ 2)) =
      Real.log |e - Eg| + Real.log (e + Eg) - (tlLa Eg al C + tlLb Eg al C) := by
    rw [Real.log_div (by positivity) hroot.ne', Real.log_mul habs.ne' hsum.ne', hRR,
      Real.log_sqrt (by positivity), Real.log_mul hMp.ne' hPp.ne', tlLa, tlLb]; ring
  have ET : Real.pi - Real.arctan ((2 * Eg + al) / C) + Real.arctan ((al - 2 * Eg) / C) =
      tlB Eg al C - tlA Eg al C := by
    rw [tlA, tlB, show (al - 2 * Eg) / C = -((2 * Eg - al) / C) by ring, Real.arctan_neg]; ring
  have ES : Real.pi + 2 * Real.arctan (2 * (ga ^ 2 - Eg ^ 2) / (al * C)) =
      -2 * (tlA Eg al C + tlB Eg al C) := by
    have hx : 0 < (2 * Eg + al) / C + (al - 2 * Eg) / C := by
      rw [← add_div]; apply div_pos _ hC; linarith
    have := arctan_add_eq hx
    have hq : ((2 * Eg + al) / C * ((al - 2 * Eg) / C) - 1) / ((2 * Eg + al) / C + (al - 2 * Eg) / C) =
        2 * (ga ^ 2 - Eg ^ 2) / (al * C) := by
      have e1 : (2 * Eg + al) / C + (al - 2 * Eg) / C = 2 * al / C := by field_simp; ring
      rw [e1, ← hG]
      field_simp
      ring
    rw [hq, show (al - 2 * Eg) / C = -((2 * Eg - al) / C) by ring, Real.arctan_neg] at this
    rw [tlA, tlB]
    linarith
  rw [E1, E4, E5, ET, ES, tlP0, tlP1, hW, hG, hzz]
  rw [hzz] at hz
  set Z := (e ^ 2 - Ei ^ 2) ^ 2 + C ^ 2 * e ^ 2
  set la := tlLa Eg al C
  set lb := tlLb Eg al C
  set a := tlA Eg al C
  set b := tlB Eg al C
  set x := Real.log |e - Eg|
  set y := Real.log (e + Eg)
  have hpi := Real.pi_pos
  field_simp
  ring

/-- The function of one oscillator. -/
theorem tl_causal {g al C : ℝ} (ha : 0 < al) (hC : 0 < C) : Causal (tlF g al C) 0 where
  holo := tlF_differentiable hC
  atInf := by simpa using tlF_atInf ha hC
  real := fun _ hz => tlF_conj ha hC hz

/-- Real and imaginary part of one oscillator. -/
noncomputable def tlTerm (o : ℝ × ℝ × ℝ) (Eg e : ℝ) : Option ℂ := do
  return ⟨← tlE1 o Eg e, ← tlE2 o Eg e⟩

theorem tlSum {Eg e : ℝ} : ∀ {osc : List (ℝ × ℝ × ℝ)} {a b : ℝ},
    sumO (osc.map fun o => tlE1 o Eg e) = some a → sumO (osc.map fun o => tlE2 o Eg e) = some b →
    sumO (osc.map fun o => tlTerm o Eg e) = some ⟨a, b⟩
  | [], a, b, h1, h2 => by
    simp only [List.map_nil, sumO, Option.some.injEq] at h1 h2 ⊢
    subst h1 h2; rfl
  | o :: osc, a, b, h1, h2 => by
    simp only [List.map_cons, sumO, Option.bind_eq_bind, Option.bind_eq_some_iff, Option.pure_def,
      Option.some.injEq] at h1 h2 ⊢
    obtain ⟨x, hx, y, hy, rfl⟩ := h1
    obtain ⟨x', hx', y', hy', rfl⟩ := h2
    exact ⟨⟨x, x'⟩, by simp [tlTerm, hx, hx'], ⟨y, y'⟩, tlSum hy hy', rfl⟩

theorem tl_boundary {A C Ei Eg : ℝ} (hEg : 0 ≤ Eg) (hC : 0 < C) (hC2 : C ^ 2 ≤ 2 * Ei ^ 2) (hEi : 0 < Ei)
    {e : ℝ} (he : 0 < e) {v : ℂ} (hv : tlTerm (A, C, Ei) Eg e = some v) :
    Boundary (fun z => (-(A * Ei * C / Real.pi) : ℝ) * tlF Eg (Real.sqrt (4 * Ei ^ 2 - C ^ 2)) C z)
      e v := by
  have hne : e ≠ Eg := by
    rintro rfl
    simp [tlTerm, tlE1_gap] at hv
  have hal0 : 0 < 4 * Ei ^ 2 - C ^ 2 := by nlinarith
  obtain ⟨al, hal⟩ : ∃ al, al = Real.sqrt (4 * Ei ^ 2 - C ^ 2) := ⟨_, rfl⟩
  have halpos : 0 < al := hal ▸ Real.sqrt_pos.mpr hal0
  have halsq : al ^ 2 = 4 * Ei ^ 2 - C ^ 2 := by rw [hal]; exact Real.sq_sqrt hal0.le
  rw [← hal]
  have hb := (tlF_boundary halpos hC hEg he hne).const_mul ((-(A * Ei * C / Real.pi) : ℝ) : ℂ)
  refine (show _ = v from ?_) ▸ hb
  have hZ : 0 < e * ((e ^ 2 - (al ^ 2 + C ^ 2) / 4) ^ 2 + C ^ 2 * e ^ 2) := by positivity
  have hd : e * ((e ^ 2 - Ei ^ 2) ^ 2 + (C * e) ^ 2) =
      e * ((e ^ 2 - (al ^ 2 + C ^ 2) / 4) ^ 2 + C ^ 2 * e ^ 2) := by rw [halsq]; ring
  simp only [tlTerm, tlE1_eq hEg hC hC2 hEi he hne hal, tlE2, hd, rdiv_of_ne hZ.ne', Option.bind_eq_bind,
    Option.bind_some, Option.pure_def, Option.some.injEq] at hv
  rw [← hv, tlD_real]
  set Z := e * ((e ^ 2 - (al ^ 2 + C ^ 2) / 4) ^ 2 + C ^ 2 * e ^ 2) with hZd
  rw [← mul_div_assoc]
  have hcast : tlNe Eg al C e = ((((e - Eg) ^ 2 * Real.log |e - Eg| - (e + Eg) ^ 2 * Real.log (e + Eg)
        + e * (tlP0 Eg al C + tlP1 Eg al C * e ^ 2)) : ℝ) : ℂ) +
      ((-((e - Eg) ^ 2 * (heaviside (e - Eg) * Real.pi)) : ℝ) : ℂ) * I := by
    unfold tlNe heaviside
    by_cases h : Eg < e
    · rw [if_pos h, if_pos (by linarith)]; push_cast; ring
    · rw [if_neg h, if_neg (by linarith)]; push_cast; ring
  rw [hcast]
  have hpi := Real.pi_pos.ne'
  generalize ((e - Eg) ^ 2 * Real.log |e - Eg| - (e + Eg) ^ 2 * Real.log (e + Eg)
        + e * (tlP0 Eg al C + tlP1 Eg al C * e ^ 2)) = N1
  have him : -(A * Ei * C / Real.pi) * -((e - Eg) ^ 2 * (heaviside (e - Eg) * Real.pi)) / Z =
      A * Ei * C * (e - Eg) ^ 2 / Z * heaviside (e - Eg) := by
    field_simp
  rw [← him]
  generalize -((e - Eg) ^ 2 * (heaviside (e - Eg) * Real.pi)) = N2
  generalize -(A * Ei * C / Real.pi) = K
  apply Complex.ext
  · rw [Complex.div_ofReal_re]
    simp [mul_div_assoc]
  · rw [Complex.div_ofReal_im]
    simp

theorem tl_full {Eg al C : ℝ} (hEg : 0 < Eg) (ha : 0 < al) (hC : 0 < C) (x : ℝ) :
    ∃ v, Boundary (tlF Eg al C) x v := by
  have hpos : ∀ y : ℝ, 0 < y → ∃ v, Boundary (tlF Eg al C) y v := by
    intro y hy
    by_cases h : y = Eg
    · rw [h]; exact tlF_boundary_gap ha hC hEg
    · exact ⟨_, tlF_boundary ha hC hEg.le hy h⟩
  rcases lt_trichotomy x 0 with h | h | h
  · obtain ⟨v, hv⟩ := hpos (-x) (by linarith)
    have := (tl_causal (g := Eg) ha hC).boundary_neg hv
    rw [neg_neg] at this
    exact ⟨_, this⟩
  · rw [h]; exact tlF_boundary_zero ha hC hEg
  · exact hpos x h

theorem tauc_exists {osc : List (ℝ × ℝ × ℝ)} {Eg : ℝ} (hEg : 0 ≤ Eg)
    (h : ∀ o ∈ osc, 0 < o.2.1 ∧ 0 < o.2.2) (einf : ℝ) :
    ∃ F, Causal F einf ∧ (∀ e v, 0 < e → tlEps osc Eg einf e = some v → Boundary F e v) ∧
      (0 < Eg → ∀ x, ∃ v, Boundary F x v) := by
  obtain ⟨F, hF, hb, hx⟩ := causal_sum (f := fun o e => tlTerm o Eg e) (ok := fun e => 0 < e)
    (full := 0 < Eg) (osc := osc) (by
    rintro ⟨A, C, Ei⟩ ho
    obtain ⟨hC, hEi⟩ := h _ ho
    simp only at hC hEi
    by_cases hC2 : C ^ 2 ≤ 2 * Ei ^ 2
    · have hal0 : 0 < 4 * Ei ^ 2 - C ^ 2 := by nlinarith
      refine ⟨_, (tl_causal (g := Eg) (Real.sqrt_pos.mpr hal0) hC).smul (-(A * Ei * C / Real.pi)),
        fun e v he hv => tl_boundary hEg hC hC2 hEi he hv, fun hEg' x => ?_⟩
      obtain ⟨v, hv⟩ := tl_full hEg' (Real.sqrt_pos.mpr hal0) hC x
      exact ⟨_, hv.const_mul _⟩
    · refine ⟨fun _ => 0, by simpa using Causal.const 0, fun e v _ hv => ?_,
        fun _ _ => ⟨0, tendsto_const_nhds⟩⟩
      simp [tlTerm, tlE1_broad (o := (A, C, Ei)) (by simpa using hC2)] at hv)
  refine ⟨fun z => F z + einf, by simpa using hF.add (Causal.const einf), fun e v he hv => ?_,
    fun hE x => ?_⟩
  · simp only [tlEps, tlParts, Option.bind_eq_bind, Option.bind_eq_some_iff, Option.map_eq_some_iff,
      Option.pure_def, Option.some.injEq] at hv
    obtain ⟨_, ⟨a, ha, rfl⟩, b, hbb, rfl⟩ := hv
    have := (hb e _ he (tlSum ha hbb)).add (tendsto_const_nhds (x := (einf : ℂ)))
    have hs : (⟨a, b⟩ : ℂ) + einf = ⟨a + einf, b⟩ := by apply Complex.ext <;> simp
    rwa [hs] at this
  · obtain ⟨v, hv⟩ := hx hE x
    exact ⟨v + einf, hv.add tendsto_const_nhds⟩

/-- C106, Tauc-Lorentz: for oscillators of positive width and energy and a gap `Eg ≥ 0` there is one function,
holomorphic above the real axis, real in the time domain and tending to `Einf`, whose boundary value is the
dielectric function at every positive energy where this is finite (see C53). -/
theorem C106_tauc_lorentz {osc : List (ℝ × ℝ × ℝ)} {Eg : ℝ} (hEg : 0 ≤ Eg)
    (h : ∀ o ∈ osc, 0 < o.2.1 ∧ 0 < o.2.2) (einf : ℝ) :
    ∃ F, Causal F einf ∧ ∀ e v, 0 < e → tlEps osc Eg einf e = some v → Boundary F e v := by
  obtain ⟨F, hF, hb, _⟩ := tauc_exists hEg h einf
  exact ⟨F, hF, hb⟩

/-- C106, Tauc-Lorentz: the real part the code computes is the only one that causality admits.  If `G` is any
causal function with boundary values everywhere and the imaginary part of `epsilon`, then its boundary value
is `epsilon`, real part included (for a positive gap, in the range of C53). -/
theorem C106_tauc_lorentz_unique {osc : List (ℝ × ℝ × ℝ)} {Eg : ℝ} (hEg : 0 < Eg)
    (h : ∀ o ∈ osc, 0 < o.2.1 ∧ o.2.1 ^ 2 ≤ 2 * o.2.2 ^ 2 ∧ 0 < o.2.2) {einf : ℝ} {G : ℂ → ℂ}
    (hG : Causal G einf) {g : ℝ → ℂ} (hg : ∀ x, Boundary G x (g x))
    (him : ∀ e v, 0 < e → tlEps osc Eg einf e = some v → (g e).im = v.im) {e : ℝ} (he : 0 < e) {v : ℂ}
    (hv : tlEps osc Eg einf e = some v) : g e = v := by
  obtain ⟨F, hF, hb, hx⟩ := tauc_exists hEg.le (fun o ho => ⟨(h o ho).1, (h o ho).2.2⟩) einf
  choose f hf using hx hEg
  have := (causal_unique hF hG hf hg (Set.finite_singleton Eg) fun x hx hne => by
    obtain ⟨u, hu⟩ := C53_finite_partial hEg.le h einf hx (by simpa using hne)
    rw [boundary_unique (hf x) (hb x u hx hu), him x u hx hu]).1
  rw [← this]
  exact boundary_unique (hf e) (hb e v he hv)

/-- C106, Lorentz: likewise, for positive broadenings and energies. -/
theorem C106_lorentz_unique {osc : List (ℝ × ℝ × ℝ)} (h : ∀ o ∈ osc, 0 < o.2.1 ∧ o.2.2 ≠ 0) {einf : ℝ}
    {G : ℂ → ℂ} (hG : Causal G einf) {g : ℝ → ℂ} (hg : ∀ x, Boundary G x (g x))
    (him : ∀ e v, 0 < e → lorentzEps osc einf e = some v → (g e).im = v.im) {e : ℝ} {v : ℂ}
    (hv : lorentzEps osc einf e = some v) : g e = v := by
  obtain ⟨F, hF, hb, hx⟩ := lorentz_exists (fun o ho => (h o ho).1.le) einf
  choose f hf using hx fun o ho => ⟨(h o ho).1.ne', (h o ho).2⟩
  have := (causal_unique hF hG hf hg Set.finite_empty fun x hx _ => by
    obtain ⟨u, hu⟩ := C51_finite (osc := osc) einf (e := x) fun o ho hc =>
      absurd hc.2 (mul_ne_zero (h o ho).1.ne' hx.ne')
    rw [boundary_unique (hf x) (hb x u hu), him x u hx hu]).1
  rw [← this]
  exact boundary_unique (hf e) (hb e v hv)

/-- Non-vacuity: amorphous silicon (Jellison and Modine) meets the hypotheses, and the dielectric function is
finite at every positive energy but the gap. -/
example : ∃ F, Causal F 1.15 ∧ ∀ e : ℝ, 0 < e → e ≠ 1.2 →
    ∃ v, tlEps [(122, 2.54, 3.45)] 1.2 1.15 e = some v ∧ Boundary F e v := by
  have h : ∀ o ∈ ([(122, 2.54, 3.45)] : List (ℝ × ℝ × ℝ)),
      0 < o.2.1 ∧ o.2.1 ^ 2 ≤ 2 * o.2.2 ^ 2 ∧ 0 < o.2.2 := by
    simp; norm_num
  obtain ⟨F, hF, hb⟩ := C106_tauc_lorentz (Eg := 1.2) (by norm_num)
    (fun o ho => ⟨(h o ho).1, (h o ho).2.2⟩) 1.15
  refine ⟨F, hF, fun e he hne => ?_⟩
  obtain ⟨v, hv⟩ := C53_finite_partial (by norm_num) h 1.15 he hne
  exact ⟨v, hv, hb e v he hv⟩

/-- Non-vacuity of the uniqueness statement: for the same material there is a causal `G` with boundary values
everywhere and the imaginary part of `epsilon`. -/
example : ∃ (G : ℂ → ℂ) (g : ℝ → ℂ), Causal G 1.15 ∧ (∀ x, Boundary G x (g x)) ∧
    ∀ e v, 0 < e → tlEps [(122, 2.54, 3.45)] 1.2 1.15 e = some v → (g e).im = v.im := by
  obtain ⟨F, hF, hb, hx⟩ := tauc_exists (osc := [(122, 2.54, 3.45)]) (Eg := 1.2) (by norm_num)
    (by simp; norm_num) 1.15
  choose f hf using hx (by norm_num)
  exact ⟨F, f, hF, hf, fun e v he hv => by rw [boundary_unique (hf e) (hb e v he hv)]⟩

/-- Non-vacuity, Lorentz: one oscillator, finite everywhere, with a causal extension that has boundary values
everywhere. -/
example : ∃ (G : ℂ → ℂ) (g : ℝ → ℂ), Causal G 1 ∧ (∀ x, Boundary G x (g x)) ∧
    (∀ e v, lorentzEps [(5, 1, 4)] 1 e = some v → g e = v) ∧ ∃ v, lorentzEps [(5, 1, 4)] 1 4 = some v := by
  obtain ⟨F, hF, hb, hx⟩ := lorentz_exists (osc := [(5, 1, 4)]) (by simp) 1
  choose f hf using hx (by simp)
  exact ⟨F, f, by simpa using hF, hf, fun e v hv => boundary_unique (hf e) (hb e v hv),
    C51_finite (osc := [(5, 1, 4)]) 1 (e := 4) (by simp)⟩

end Verif.Disp
