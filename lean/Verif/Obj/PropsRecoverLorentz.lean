import Verif.Obj.PropsRecoverAbsorb
import Verif.EMA.PropsContinuity

/-! # C181: the parameters of a Lorentz oscillator from noisy measurements -/

namespace Verif.Obj
open Verif.Struct Verif.TMM Verif.RModel Verif.Data Verif.Disp Filter Topology MeasureTheory ProbabilityTheory

/-- Spec: the permittivity of a Lorentz oscillator of amplitude `a`, broadening `b` and energy `c` above `d`. -/
noncomputable def lorEps (a b c d : PId) (v : Vals) (w : ℝ) : ℂ :=
  v a / ((v c : ℂ) ^ 2 - (1239.841984055 / w : ℝ) ^ 2 - Complex.I * v b * (1239.841984055 / w : ℝ)) + v d

/-- Spec: its index, the root in the first quadrant. -/
noncomputable def lorN (a b c d : PId) (v : Vals) (w : ℝ) : ℂ := Complex.sqrt (lorEps a b c d v w)

section
variable {env : Env} {o : Objective} {st : St} {m n : ℕ} {cs : List Comp} {n₀ : ℝ → ℝ}
  {pl : Fin m → ℝ × ℝ} {K : Set (Fin n → ℝ)} {a b c d : PId} {v : Vals} {w wl : ℝ}

theorem lorEps_im (h : 0 < (lorN a b c d v w).re ∧ 0 < (lorN a b c d v w).im) : 0 < (lorEps a b c d v w).im := by
  rw [← csqrt_sq (lorEps a b c d v w)]
  change 0 < (lorN a b c d v w ^ 2).im
  rw [sq, Complex.mul_im]
  have := mul_pos h.1 h.2
  linarith

theorem lorN_at (z : SqrtOracle) (hw : 0 < w) (h : 0 < (lorN a b c d v w).re ∧ 0 < (lorN a b c d v w).im) :
    (Scat.lorentz wl [(v a, v b, v c)] (v d)).at z w = some (lorN a b c d v w) := by
  have him := lorEps_im h
  have hne : (v c : ℂ) ^ 2 - (1239.841984055 / w : ℝ) ^ 2 - Complex.I * v b * (1239.841984055 / w : ℝ) ≠ 0 := by
    intro e
    rw [lorEps, e, div_zero, zero_add, Complex.ofReal_im] at him
    exact lt_irrefl _ him
  have he : lorentzEps [(v a, v b, v c)] (v d) (1239.841984055 / w) = some (lorEps a b c d v w) := by
    simp only [lorentzEps, List.map_cons, List.map_nil, lorentzTerm, cdiv_of_ne hne, sumO,
      Option.pure_def, Option.bind_eq_bind, Option.bind_some, lorEps]
    simp
  simp only [Scat.at, Scat.epsilon, nmEV, rdiv_of_ne hw.ne', Option.bind_eq_bind, Option.bind_some, he, Option.pure_def]
  rw [EMA.npSqrt_slit _ (.inr him.ne')]
  rfl

/-- A positive amplitude and broadening absorb. -/
theorem lorN_absorbs (hw : 0 < w) (ha : 0 < v a) (hb : 0 < v b) :
    0 < (lorN a b c d v w).re ∧ 0 < (lorN a b c d v w).im := by
  have hE : (0 : ℝ) < 1239.841984055 / w := by positivity
  have him : 0 < (lorEps a b c d v w).im := by
    rw [lorEps, Complex.add_im, Complex.ofReal_im, add_zero, Complex.div_im]
    set D : ℂ := (v c : ℂ) ^ 2 - (1239.841984055 / w : ℝ) ^ 2 - Complex.I * v b * (1239.841984055 / w : ℝ) with hD
    have h1 : D.im = -(v b * (1239.841984055 / w)) := by
      rw [hD, ← Complex.ofReal_pow, ← Complex.ofReal_pow, Complex.sub_im, Complex.sub_im, Complex.ofReal_im,
        Complex.ofReal_im, mul_assoc, ← Complex.ofReal_mul, Complex.I_mul_im, Complex.ofReal_re]
      ring
    have h2 : D ≠ 0 := by
      intro e
      rw [e, Complex.zero_im] at h1
      linarith [mul_pos hb hE]
    have h3 := Complex.normSq_pos.mpr h2
    rw [Complex.ofReal_im, Complex.ofReal_re, zero_mul, zero_div, zero_sub, h1]
    rw [show -(v a * -(v b * (1239.841984055 / w)) / Complex.normSq D) =
      v a * (v b * (1239.841984055 / w)) / Complex.normSq D by ring]
    positivity
  have hsq := csqrt_sq (lorEps a b c d v w)
  have hre := csqrt_re_nonneg (lorEps a b c d v w)
  change lorN a b c d v w ^ 2 = _ at hsq
  change 0 ≤ (lorN a b c d v w).re at hre
  rw [← hsq, sq, Complex.mul_im] at him
  have h4 : 0 < (lorN a b c d v w).re := by
    rcases hre.lt_or_eq with e | e
    · exact e
    · rw [← e] at him
      simp at him
  exact ⟨h4, by nlinarith⟩

/-- A bare substrate with one Lorentz oscillator of amplitude `a`, broadening `b`, energy `c` and permittivity `d` at high
energy, of which some or all are fitted, at three or more wavelengths.  All parameters in `K` have a positive amplitude and
an oscillator that absorbs and oscillates. -/
structure MeasuresLorentz (env : Env) (o : Objective) (st : St) (cs : List Comp) (n₀ : ℝ → ℝ) (wl : ℝ) (a b c d : PId)
    (pl : Fin m → ℝ × ℝ) (K : Set (Fin n → ℝ)) : Prop where
  float : env.dt = .float
  size : n = (varying env o st).length
  fits : ∀ p ∈ varying env o st, p = a ∨ p = b ∨ p = c ∨ p = d
  offset : (st.models o.model).rm.off ∉ [a, b, c, d] ∧ st.vals (st.models o.model).rm.off = 0
  plain : Plain (st.structs (st.models o.model).str) cs
  bare : ∀ i v nb, MaterialAt env.ext.zs (pl i).1 (.lorentz wl [(v a, v b, v c)] (v d)) nb →
    Sees env.ext.zs v (st.structs (st.models o.model).str) cs (pl i).1 ⟨(n₀ (pl i).1 : ℂ), [], nb⟩
  places : ∀ i, 0 < (pl i).1 ∧ 0 < n₀ (pl i).1 ∧ 0 < (pl i).2 ∧ (pl i).2 < 90
  three : 3 ≤ (wavs (readings pl zeros)).card
  oscillates : ∀ x ∈ K, 0 < valsAt env o st (List.ofFn x) a ∧ 0 < valsAt env o st (List.ofFn x) b ∧
    valsAt env o st (List.ofFn x) b < 2 * valsAt env o st (List.ofFn x) c

theorem MeasuresLorentz.absorber (h : MeasuresLorentz env o st cs n₀ wl a b c d pl K) :
    MeasuresAbsorber env o st cs n₀ (fun x => lorN a b c d (valsAt env o st (List.ofFn x))) pl K where
  float := h.float
  size := h.size
  fixed := fun hp => h.offset.1 (by simpa using h.fits _ hp)
  zero := h.offset.2
  plain := h.plain
  places := h.places
  index := fun i x hx => by
    obtain ⟨h1, h2, -⟩ := h.oscillates x hx
    have him := lorEps_im (lorN_absorbs (c := c) (d := d) (h.places i).1 h1 h2)
    have ca := continuous_valsAt (env := env) (o := o) (st := st) h.size a
    have cb := continuous_valsAt (env := env) (o := o) (st := st) h.size b
    have cc := continuous_valsAt (env := env) (o := o) (st := st) h.size c
    have cd := continuous_valsAt (env := env) (o := o) (st := st) h.size d
    have hne : (valsAt env o st (List.ofFn x) c : ℂ) ^ 2 - (1239.841984055 / (pl i).1 : ℝ) ^ 2 -
        Complex.I * valsAt env o st (List.ofFn x) b * (1239.841984055 / (pl i).1 : ℝ) ≠ 0 := by
      intro e
      rw [lorEps, e, div_zero, zero_add, Complex.ofReal_im] at him
      exact lt_irrefl _ him
    have hε : ContinuousAt (fun x : Fin n → ℝ => lorEps a b c d (valsAt env o st (List.ofFn x)) (pl i).1) x := by
      unfold lorEps
      have k1 : Continuous fun x : Fin n → ℝ => (valsAt env o st (List.ofFn x) a : ℂ) := Complex.continuous_ofReal.comp ca
      have k2 : Continuous fun x : Fin n → ℝ => (valsAt env o st (List.ofFn x) b : ℂ) := Complex.continuous_ofReal.comp cb
      have k3 : Continuous fun x : Fin n → ℝ => (valsAt env o st (List.ofFn x) c : ℂ) := Complex.continuous_ofReal.comp cc
      have k4 : Continuous fun x : Fin n → ℝ => (valsAt env o st (List.ofFn x) d : ℂ) := Complex.continuous_ofReal.comp cd
      exact (k1.continuousAt.div (((k3.pow 2).sub continuous_const).sub
        ((continuous_const.mul k2).mul continuous_const)).continuousAt hne).add k4.continuousAt
    unfold lorN Complex.sqrt
    exact (continuousAt_id.comp hε).cpow continuousAt_const (.inr him.ne')
  absorbs := fun i x hx => lorN_absorbs (h.places i).1 (h.oscillates x hx).1 (h.oscillates x hx).2.1
  sees := fun i x h1 h2 => h.bare i _ _ ⟨⟨wl, rfl⟩, lorN_at _ (h.places i).1 ⟨h1, h2⟩, h1, h2.le⟩

theorem MeasuresLorentz.known (h : MeasuresLorentz env o st cs n₀ wl a b c d pl K) : ∀ x ∈ K, ∀ y ∈ K,
    (∀ i, lorN a b c d (valsAt env o st (List.ofFn x)) (pl i).1 = lorN a b c d (valsAt env o st (List.ofFn y)) (pl i).1) →
    x = y := by
  intro x hx y hy he
  have hw : ∀ w ∈ wavs (readings pl (zeros : Outcome m)), ∃ i, w = (pl i).1 := by
    intro w hw
    classical
    rw [wavs, List.mem_toFinset, List.mem_map] at hw
    obtain ⟨pt, hpt, rfl⟩ := hw
    obtain ⟨i, rfl⟩ := (List.mem_ofFn' _ _).mp hpt
    exact ⟨i, rfl⟩
  obtain ⟨x1, x2, x3⟩ := h.oscillates x hx
  obtain ⟨y1, y2, y3⟩ := h.oscillates y hy
  obtain ⟨e4, -, hperm⟩ := C171_lorentz_partial (wl := wl) (wl' := wl)
    (osc := [(valsAt env o st (List.ofFn x) a, valsAt env o st (List.ofFn x) b, valsAt env o st (List.ofFn x) c)])
    (osc' := [(valsAt env o st (List.ofFn y) a, valsAt env o st (List.ofFn y) b, valsAt env o st (List.ofFn y) c)])
    (einf := valsAt env o st (List.ofFn x) d) (einf' := valsAt env o st (List.ofFn y) d)
    (by simp [Underdamped, x2.le, x3]) (by simp [Underdamped, y2.le, y3]) env.ext.zs env.ext.zs
    (T := wavs (readings pl zeros)) h.three
    (fun w hw' => by obtain ⟨i, rfl⟩ := hw w hw'; exact (h.places i).1)
    (N := fun w => lorN a b c d (valsAt env o st (List.ofFn x)) w)
    (fun w hw' => by
      obtain ⟨i, rfl⟩ := hw w hw'
      simp only [Scat.complex, Scat.ownWav, pick_ne (h.places i).1.ne']
      exact lorN_at _ (h.places i).1 (lorN_absorbs (h.places i).1 x1 x2))
    (fun w hw' => by
      obtain ⟨i, rfl⟩ := hw w hw'
      simp only [Scat.complex, Scat.ownWav, pick_ne (h.places i).1.ne']
      rw [he i]
      exact lorN_at _ (h.places i).1 (lorN_absorbs (h.places i).1 y1 y2))
  have e' := List.perm_singleton.mp (hperm (by simp [Distinct, x1.ne']) (by simp [Distinct, y1.ne']))
  simp only [List.cons.injEq, Prod.mk.injEq, and_true] at e'
  refine valsAt_inj h.size fun p hp => ?_
  rcases h.fits p hp with rfl | rfl | rfl | rfl
  · exact e'.1
  · exact e'.2.1
  · exact e'.2.2
  · exact e4

variable {Ω : Type*} [MeasurableSpace Ω] {P : Measure Ω} [IsProbabilityMeasure P] {Y : ℕ → Ω → Outcome m}

/-- C181: a substrate with a Lorentz oscillator.  Almost surely all best fits of the first `k` measurements approach the
true parameters. -/
theorem C181_lorentz (h : MeasuresLorentz env o st cs n₀ wl a b c d pl K) (hK : IsCompact K)
    (hY : ∀ k, Measurable (Y k)) (hind : Pairwise fun i j => IndepFun (Y i) (Y j) P)
    (hdist : ∀ k, IdentDistrib (Y k) (Y 0) P P) (hhalf : ∀ i, ∀ᵐ ω ∂P, ((Y 0 ω i).2 : ℝ) ≤ 180)
    {x0 : Fin n → ℝ} (hx0 : x0 ∈ K)
    (hu : Unbiased env o st P pl (Y 0) x0) {H : ℕ → Ω → Data.Heap} {D : ℕ → Ω → DS}
    (hD : ∀ k ω, Presents (H k ω) (D k ω) (readingsN pl (fun k => Y k ω) k)) :
    ∀ᵐ ω ∂P, ∀ b : ℕ → Fin n → ℝ, (∀ k, b k ∈ K) →
      (∀ k, ∀ x ∈ K, ∀ u v : ℝ,
        (chisqr env { o with data := D k ω } (some (List.ofFn (b k))) { st with heap := H k ω }).1 = .ok (some u) →
        (chisqr env { o with data := D k ω } (some (List.ofFn x)) { st with heap := H k ω }).1 = .ok (some v) → u ≤ v) →
      Tendsto b atTop (𝓝 x0) :=
  C181_fit h.absorber hK h.known hY hind hdist hhalf hx0 hu hD

end

/-! ### A substrate with an oscillator at three wavelengths -/

/-- A substrate of a `Lorentz` dispersion with the parameters 4, 5, 6, 8. -/
noncomputable def lorComps : List Comp :=
  [dry (.const 658 1 0), .slab 0 (fun v => .lorentz 658 [(v 4, v 5, v 6)] (v 8)) 1 2 true]

/-- A world with a model of that structure in which the four parameters are fitted. -/
noncomputable def lorSt : St where
  vals := fun p => if p = 4 then 1 else if p = 5 then 1 / 2 else if p = 6 then 3 else if p = 8 then 2 else 0
  vary := fun p => p == 4 || p == 5 || p == 6 || p == 8
  models := fun _ => ⟨⟨7, false⟩, 0⟩
  structs := fun _ => { data := lorComps.map .comp }
  heap := ⟨fun _ => ⟨false, []⟩, 4⟩

/-- The parameters that are searched: `Am` from 1/2 to 2, `Br` from 1/10 to 1, `En` from 2 to 4, `einf` from 1 to 3. -/
def lorK : Set (Fin 4 → ℝ) := Set.Icc ![1 / 2, 1 / 10, 2, 1] ![2, 1, 4, 3]

theorem lor_mem {x : Fin 4 → ℝ} : x ∈ lorK ↔ (1 / 2 ≤ x 0 ∧ 1 / 10 ≤ x 1 ∧ 2 ≤ x 2 ∧ 1 ≤ x 3) ∧
    x 0 ≤ 2 ∧ x 1 ≤ 1 ∧ x 2 ≤ 4 ∧ x 3 ≤ 3 := by
  simp [lorK, Set.mem_Icc, Pi.le_def, Fin.forall_fin_succ]

theorem lor_varying (env : Env) (hpars : env.pars (lorComps.map .comp) none = [1, 2, 4, 5, 6, 8]) :
    varying env subObj lorSt = [4, 5, 6, 8] := by
  simp [varying, flatParams, lorSt, subObj, hpars, unique]

theorem lor_measures (env : Env) (hdt : env.dt = .float)
    (hpars : env.pars (lorComps.map .comp) none = [1, 2, 4, 5, 6, 8]) :
    MeasuresLorentz env subObj lorSt lorComps (fun _ => 1) 658 4 5 6 8 glassPl lorK := by
  have hvar := lor_varying env hpars
  have hpi := Real.pi_pos
  have hgt := Real.arcsin_pos.mpr (by norm_num : (0 : ℝ) < 3 / 5)
  have hlt := Real.arcsin_lt_pi_div_two.mpr (by norm_num : (3 / 5 : ℝ) < 1)
  have haoi : 0 < filmAoi ∧ filmAoi < 90 := by
    constructor
    · unfold filmAoi; positivity
    · have h1 := film_rad
      unfold rad at h1
      by_contra h2
      push Not at h2
      have : 90 * (Real.pi / 180) ≤ filmAoi * (Real.pi / 180) := mul_le_mul_of_nonneg_right h2 (by positivity)
      linarith
  have hpl : ∀ i, 0 < (glassPl i).1 ∧ (glassPl i).2 = filmAoi := by
    intro i
    fin_cases i <;> simp [glassPl]
  have hval : ∀ x : Fin 4 → ℝ, valsAt env subObj lorSt (List.ofFn x) 4 = x 0 ∧
      valsAt env subObj lorSt (List.ofFn x) 5 = x 1 ∧ valsAt env subObj lorSt (List.ofFn x) 6 = x 2 := by
    intro x
    rw [valsAt, hvar, show List.ofFn x = [x 0, x 1, x 2, x 3] by simp [List.ofFn_succ]]
    simp [assign]
  refine ⟨hdt, by rw [hvar]; rfl, by rw [hvar]; simp, ⟨by simp [lorSt], by simp [lorSt]⟩, plain_of rfl (by simp [lorComps])
      (by simp [lorComps, dry, Comp.isSlab, Comp.dflt]) le_rfl (.inl rfl), fun i v nb hm => ?_, fun i => ?_, ?_,
      fun x hx => ?_⟩
  · exact ⟨_, [], _, ⟨1, 0⟩, _, rfl, .slab (const_material _ _ one_pos), by simp, .slab hm, rfl, .nil⟩
  · rw [(hpl i).2]
    exact ⟨(hpl i).1, one_pos, haoi⟩
  · classical
    have : wavs (readings glassPl zeros) = {400, 500, 600} := by
      ext w; simp [wavs, readings, glassPl, List.ofFn_succ]
    rw [this, Finset.card_insert_of_notMem (by norm_num), Finset.card_insert_of_notMem (by norm_num)]
    simp
  · obtain ⟨⟨h1, h2, h3, -⟩, -, h4, -⟩ := lor_mem.mp hx
    rw [(hval x).1, (hval x).2.1, (hval x).2.2]
    exact ⟨by linarith, by linarith, by linarith⟩

/-- Non-vacuity of `C181_lorentz` and `C181_fit`: for all true parameters in the box there is noise without bias, and the
best fits approach the truth for every such noise. -/
example (env : Env) (hdt : env.dt = .float) (hpars : env.pars (lorComps.map .comp) none = [1, 2, 4, 5, 6, 8])
    (x0 : Fin 4 → ℝ) (hx0 : x0 ∈ lorK) :
    (∃ ν : Measure (Outcome 3), IsProbabilityMeasure ν ∧ (∀ y, ν {y} ≠ 1) ∧ (∀ i, ∀ᵐ y ∂ν, ((y i).2 : ℝ) ≤ 180) ∧
      Unbiased env subObj lorSt ν glassPl id x0) ∧
    ∀ ν : Measure (Outcome 3), IsProbabilityMeasure ν → (∀ i, ∀ᵐ y ∂ν, ((y i).2 : ℝ) ≤ 180) →
    Unbiased env subObj lorSt ν glassPl id x0 →
    ∀ᵐ ω ∂(Measure.infinitePi fun _ : ℕ => ν), ∀ b : ℕ → Fin 4 → ℝ, (∀ k, b k ∈ lorK) →
      (∀ k, ∀ x ∈ lorK, ∀ u v : ℝ,
        (chisqr env { subObj with data := colData (readingsN glassPl ω k) } (some (List.ofFn (b k)))
          { lorSt with heap := colHeap (readingsN glassPl ω k) }).1 = .ok (some u) →
        (chisqr env { subObj with data := colData (readingsN glassPl ω k) } (some (List.ofFn x))
          { lorSt with heap := colHeap (readingsN glassPl ω k) }).1 = .ok (some v) → u ≤ v) →
      Tendsto b atTop (𝓝 x0) := by
  have hM := lor_measures env hdt hpars
  refine ⟨hM.absorber.noise 0 hx0, fun ν hν hhalf hu => ?_⟩
  obtain ⟨hY, hind, hid, -⟩ := rand_iid ν
  exact C181_lorentz (Y := fun k (ω : ℕ → Outcome 3) => ω k) hM isCompact_Icc hY hind hid
    (fun i => (measurePreserving_eval_infinitePi (fun _ : ℕ => ν) 0).quasiMeasurePreserving.ae (hhalf i)) hx0 hu.repeated
    (H := fun k ω => colHeap (readingsN glassPl ω k)) (D := fun k ω => colData (readingsN glassPl ω k))
    fun k ω => col_presents _

/-- Non-vacuity of `C181_posterior`: priors of positive density exactly within the box, and truth inside it.  The mean of
the energy of the oscillator over the posterior approaches the truth. -/
example (env : Env) (hdt : env.dt = .float) (hpars : env.pars (lorComps.map .comp) none = [1, 2, 4, 5, 6, 8])
    (hden : ∀ v : ℝ, priorDensity env 4 v = (Set.Icc (1 / 2) 2).indicator (fun _ => 2 / 3) v ∧
      priorDensity env 5 v = (Set.Icc (1 / 10) 1).indicator (fun _ => 10 / 9) v ∧
      priorDensity env 6 v = (Set.Icc 2 4).indicator (fun _ => 1 / 2) v ∧
      priorDensity env 8 v = (Set.Icc 1 3).indicator (fun _ => 1 / 2) v)
    (x0 : Fin 4 → ℝ) (hx0 : x0 ∈ interior lorK) (ν : Measure (Outcome 3)) (hν : IsProbabilityMeasure ν)
    (hhalf : ∀ i, ∀ᵐ y ∂ν, ((y i).2 : ℝ) ≤ 180) (hu : Unbiased env subObj lorSt ν glassPl id x0) :
    ∀ᵐ ω ∂(Measure.infinitePi fun _ : ℕ => ν),
      Tendsto (fun k => (∫ x : Fin 4 → ℝ, x 2 * densityN env subObj lorSt
          (fun k => colHeap (readingsN glassPl ω k)) (fun k => colData (readingsN glassPl ω k)) k x) /
        ∫ x : Fin 4 → ℝ, densityN env subObj lorSt
          (fun k => colHeap (readingsN glassPl ω k)) (fun k => colData (readingsN glassPl ω k)) k x) atTop (𝓝 (x0 2)) := by
  have hM := lor_measures env hdt hpars
  have hvar := lor_varying env hpars
  obtain ⟨hY, hind, hid, -⟩ := rand_iid ν
  have hpr : ∀ x : Fin 4 → ℝ, prior env subObj lorSt x ≠ 0 ↔ x ∈ lorK := by
    intro x
    rw [prior, hvar, lor_mem, Fin.prod_univ_four]
    change priorDensity env 4 (x 0) * priorDensity env 5 (x 1) * priorDensity env 6 (x 2) * priorDensity env 8 (x 3) ≠ 0 ↔ _
    rw [(hden _).1, (hden _).2.1, (hden _).2.2.1, (hden _).2.2.2]
    simp only [Set.indicator_apply, Set.mem_Icc, ne_eq, mul_eq_zero, ite_eq_right_iff, not_or]
    norm_num
    tauto
  have hproper : ∀ q ∈ varying env subObj lorSt, Integrable (priorDensity env q) := by
    rw [hvar]
    intro q hq
    simp only [List.mem_cons, List.not_mem_nil, or_false] at hq
    have hI : ∀ l u r : ℝ, Integrable ((Set.Icc l u).indicator fun _ => r) := fun l u r =>
      (integrableOn_const (hs := isCompact_Icc.measure_lt_top.ne)).integrable_indicator measurableSet_Icc
    rcases hq with rfl | rfl | rfl | rfl
    · rw [funext fun v => (hden v).1]; exact hI _ _ _
    · rw [funext fun v => (hden v).2.1]; exact hI _ _ _
    · rw [funext fun v => (hden v).2.2.1]; exact hI _ _ _
    · rw [funext fun v => (hden v).2.2.2]; exact hI _ _ _
  have hp := prior_integrable hM.size hproper
  have hpost := C181_posterior (Y := fun k (ω : ℕ → Outcome 3) => ω k) hM.absorber isCompact_Icc rfl hM.known hY hind hid
    (fun i => (measurePreserving_eval_infinitePi (fun _ : ℕ => ν) 0).quasiMeasurePreserving.ae (hhalf i))
    (interior_subset hx0) hu.repeated
    (H := fun k ω => colHeap (readingsN glassPl ω k)) (D := fun k ω => colData (readingsN glassPl ω k))
    (fun k ω => col_presents _) (fun _ _ => rfl) hproper (fun x => (hpr x).mp)
    (fun U hU => mass_of_nhds hM.size hproper (by
      filter_upwards [isOpen_interior.mem_nhds hx0] with x hx using (hpr x).mpr (interior_subset hx)) hU)
  filter_upwards [hpost] with ω hω
  refine hω (fun x => x 2) ?_ (continuous_apply _).continuousAt
  refine (hp.const_mul 4).mono' ((continuous_apply _).measurable.aestronglyMeasurable.mul hp.aestronglyMeasurable)
    (Eventually.of_forall fun x => ?_)
  rw [norm_mul, Real.norm_of_nonneg (prior_nonneg _ _ _ x)]
  by_cases h : prior env subObj lorSt x = 0
  · rw [h, mul_zero, mul_zero]
  · refine mul_le_mul_of_nonneg_right ?_ (prior_nonneg _ _ _ x)
    obtain ⟨⟨-, -, h1, -⟩, -, -, h2, -⟩ := lor_mem.mp ((hpr x).mp h)
    rw [Real.norm_eq_abs, abs_le]
    exact ⟨by linarith, h2⟩

end Verif.Obj
