import Verif.Obj.PropsExact
import Verif.Obj.PropsNoise
import Verif.Obj.PropsProbable

/-! # C175: how noise enters the fitted parameters

Near parameters that reproduce the data, chi-squared is the quadratic form of the sensitivities of psi and delta. -/

namespace Verif.Obj
open Matrix Verif.Struct Verif.TMM Verif.RModel Verif.Data Filter Topology Asymptotics

variable {p : ℕ} {env : Env} {o : Objective}

/-- Spec: near `x0`, the values of the varying parameters, the model gives `ψ` and, up to whole turns, `Δ` at the data points. -/
def Tracks (env : Env) (o : Objective) (st : St) (pts : List Pt) (x0 : Fin p → ℝ)
    (ψ Δ : (Fin p → ℝ) → Fin pts.length → ℝ) : Prop :=
  ∀ᶠ x in 𝓝 x0, ∃ δ : Fin pts.length → ℝ, (∀ i, ∃ k : ℤ, δ i = Δ x i + 360 * k) ∧
    Values env o (setp env o (some (List.ofFn x)) st).2 pts (List.ofFn fun i => (some (ψ x i), some (δ i)))

/-- Spec: the data are what `ψ` and `Δ` give at `x0`. -/
def Reproduces (pts : List Pt) (x0 : Fin p → ℝ) (ψ Δ : (Fin p → ℝ) → Fin pts.length → ℝ) : Prop :=
  ∀ i, pts[i].2.2.1 = ψ x0 i ∧ ∃ k : ℤ, pts[i].2.2.2 = Δ x0 i + 360 * k

/-- Spec: deltas of the data between half a turn below and one and a half turns above the offset that `x` sets. -/
def InRange (env : Env) (o : Objective) (st : St) (x : Fin p → ℝ) (pts : List Pt) : Prop :=
  ∀ pt ∈ pts, (setp env o (some (List.ofFn x)) st).2.vals (st.models o.model).rm.off - 180 ≤ pt.2.2.2 ∧
    pt.2.2.2 ≤ (setp env o (some (List.ofFn x)) st).2.vals (st.models o.model).rm.off + 540

/-- Spec: what the sensitivities `A` of psi and `B` of delta make of a change of the parameters: the sum of the squares of
the changes of all psi and delta, to first order. -/
def form {N : ℕ} (A B : Matrix (Fin N) (Fin p) ℝ) (v : Fin p → ℝ) : ℝ :=
  v ⬝ᵥ ((Aᵀ * A + Bᵀ * B) *ᵥ v)

theorem form_eq {N : ℕ} (A B : Matrix (Fin N) (Fin p) ℝ) (v : Fin p → ℝ) :
    form A B v = ∑ i, ((A *ᵥ v) i ^ 2 + (B *ᵥ v) i ^ 2) := by
  have h : ∀ M : Matrix (Fin N) (Fin p) ℝ, v ⬝ᵥ ((Mᵀ * M) *ᵥ v) = ∑ i, (M *ᵥ v) i ^ 2 := by
    intro M
    rw [← Matrix.mulVec_mulVec, Matrix.dotProduct_mulVec, Matrix.vecMul_transpose, dotProduct]
    exact Finset.sum_congr rfl fun i _ => (sq _).symm
  rw [form, Matrix.add_mulVec, dotProduct_add, h, h, Finset.sum_add_distrib]

/-- The sum of the squares of the changes of all psi and delta. -/
def spread {N : ℕ} (ψ Δ : (Fin p → ℝ) → Fin N → ℝ) (x0 x : Fin p → ℝ) : ℝ :=
  ∑ i, ((ψ x i - ψ x0 i) ^ 2 + (Δ x i - Δ x0 i) ^ 2)

theorem sum_zip_ofFn {pts : List Pt} (F : Pt → ℝ × ℝ → ℝ) (m : Fin pts.length → ℝ × ℝ) :
    ((pts.zip (List.ofFn m)).map fun y => F y.1 y.2).sum = ∑ i, F pts[i] (m i) := by
  rw [← List.sum_ofFn]
  congr 1
  apply List.ext_getElem
  · simp
  · intro i h1 h2
    simp

theorem near_chisqr {st : St} {pts : List Pt} (hp : Presents st.heap o.data pts) (hdt : env.dt = .float)
    (hn : p = (varying env o st).length) {x0 : Fin p → ℝ} {ψ Δ : (Fin p → ℝ) → Fin pts.length → ℝ}
    (hm : Tracks env o st pts x0 ψ Δ) (hr : Reproduces pts x0 ψ Δ) (hc : ContinuousAt Δ x0)
    (hin : ∀ᶠ x in 𝓝 x0, InRange env o st x pts) :
    ∀ᶠ x in 𝓝 x0, (chisqr env o (some (List.ofFn x)) st).1 = .ok (some (spread ψ Δ x0 x)) := by
  have hclose : ∀ᶠ x in 𝓝 x0, ∀ i, |Δ x i - Δ x0 i| ≤ 180 := by
    rw [eventually_all]
    intro i
    have h1 : ContinuousAt (fun x => Δ x i) x0 := (continuous_apply i).continuousAt.comp hc
    have h2 : Tendsto (fun x => |Δ x i - Δ x0 i|) (𝓝 x0) (𝓝 0) := by
      have := (h1.tendsto.sub_const (Δ x0 i)).abs
      simpa using this
    exact h2.eventually (Iic_mem_nhds (by norm_num))
  filter_upwards [hm, hclose, hin] with x hx hcl hi
  obtain ⟨δ, hδ, hv⟩ := hx
  have hl : (List.ofFn x).length = (varying env o st).length := by simpa using hn
  have hset : setp env o (some (List.ofFn x)) st =
      (.ok (), { st with vals := assign (varying env o st) (List.ofFn x) st.vals }) := by
    rw [setp, if_pos hl]
  rw [chisqr_set hl]
  unfold InRange at hi
  rw [hset] at hv hi ⊢
  set st' : St := { st with vals := assign (varying env o st) (List.ofFn x) st.vals } with hst'
  have hp' : Presents st'.heap o.data pts := hp
  have hcells : (List.ofFn fun i => ((some (ψ x i), some (δ i)) : Cell)) = cellsOf (List.ofFn fun i => (ψ x i, δ i)) := by
    simp [cellsOf, List.map_ofFn, Function.comp_def]
  rw [hcells] at hv
  refine (chisqr_iff hp').mpr ⟨_, hv, ?_⟩
  rw [sum_zip_ofFn, spread]
  refine Finset.sum_congr rfl fun i _ => ?_
  rw [values_iff] at hv
  have hpv := (List.forall₂_iff_get.mp hv).2 i i.2 (by simp [cellsOf])
  simp only [cellsOf, List.get_eq_getElem, List.getElem_map, List.getElem_ofFn, Fin.eta] at hpv
  rw [hdt] at hpv
  have hrange := delta_range hpv (d := δ i) rfl
  obtain ⟨i1, i2⟩ := hi pts[i] (List.getElem_mem _)
  obtain ⟨h1, k, h2⟩ := hr i
  obtain ⟨k', h3⟩ := hδ i
  have habs : |δ i - pts[i].2.2.2| ≤ 3 / 2 * 360 := by
    rw [abs_le]
    change st'.vals (st.models o.model).rm.off ≤ δ i ∧ δ i ≤ st'.vals (st.models o.model).rm.off + 360 at hrange
    constructor <;> linarith [hrange.1, hrange.2]
  have hd : δ i - pts[i].2.2.2 + 360 * ((k - k' : ℤ) : ℝ) = Δ x i - Δ x0 i := by
    rw [h2, h3]; push_cast; ring
  have hcd : circDist 360 (δ i) pts[i].2.2.2 = |Δ x i - Δ x0 i| := by
    rw [circDist_eq (k - k') (by rw [hd]; linarith [hcl i]), hd]
  simp only [sqTerm]
  rw [← sq_abs (circularDistance _ _ _), C80_abs_partial habs, hcd, sq_abs, h1]

/-- The spread is the form of the sensitivities up to terms of higher order. -/
theorem spread_form {N : ℕ} {ψ Δ : (Fin p → ℝ) → Fin N → ℝ} {x0 : Fin p → ℝ} {A B : Matrix (Fin N) (Fin p) ℝ}
    (hA : IsJacobian ψ x0 A) (hB : IsJacobian Δ x0 B) :
    (fun x => spread ψ Δ x0 x - form A B (x - x0)) =o[𝓝 x0] fun x => ‖x - x0‖ ^ 2 := by
  have one : ∀ {f : (Fin p → ℝ) → Fin N → ℝ} {M : Matrix (Fin N) (Fin p) ℝ}, IsJacobian f x0 M → ∀ i,
      (fun x => (f x i - f x0 i) ^ 2 - (M *ᵥ (x - x0)) i ^ 2) =o[𝓝 x0] fun x => ‖x - x0‖ ^ 2 := by
    intro f M hM i
    have h1 : (fun x => f x i - f x0 i - (M *ᵥ (x - x0)) i) =o[𝓝 x0] fun x => x - x0 := by
      have := (hM.row i).isLittleO
      refine this.congr_left fun x => ?_
      simp
    have h2 : (fun x => (M *ᵥ (x - x0)) i) =O[𝓝 x0] fun x => x - x0 := by
      have := ((ContinuousLinearMap.proj (R := ℝ) (φ := fun _ : Fin N => ℝ) i).comp
        (LinearMap.toContinuousLinearMap (Matrix.toLin' M))).isBigO_comp (fun x : Fin p → ℝ => x - x0) (𝓝 x0)
      simpa using this
    have h3 : (fun x => f x i - f x0 i + (M *ᵥ (x - x0)) i) =O[𝓝 x0] fun x => x - x0 := by
      refine ((h1.isBigO.add (h2.add h2))).congr_left fun x => ?_
      ring
    have h4 := h1.norm_right.mul_isBigO h3.norm_right
    refine h4.congr (fun x => ?_) fun x => ?_
    · ring
    · rw [sq]
  have hs := IsLittleO.sum (s := Finset.univ) fun i _ => (one hA i).add (one hB i)
  refine hs.congr_left fun x => ?_
  rw [form_eq, spread, ← Finset.sum_sub_distrib, Finset.sum_apply]
  exact Finset.sum_congr rfl fun i _ => by ring

/-- C175: near parameters that reproduce the data, chi-squared is the quadratic form of the sensitivities of psi and delta,
up to terms of higher than second order (also where delta wraps around). -/
theorem C175_chisqr {st : St} {pts : List Pt} (hp : Presents st.heap o.data pts) (hdt : env.dt = .float)
    (hn : p = (varying env o st).length) {x0 : Fin p → ℝ} {ψ Δ : (Fin p → ℝ) → Fin pts.length → ℝ}
    (hm : Tracks env o st pts x0 ψ Δ) (hr : Reproduces pts x0 ψ Δ) (hin : ∀ᶠ x in 𝓝 x0, InRange env o st x pts)
    {A B : Matrix (Fin pts.length) (Fin p) ℝ} (hA : IsJacobian ψ x0 A) (hB : IsJacobian Δ x0 B) :
    ∃ c : (Fin p → ℝ) → ℝ, (∀ᶠ x in 𝓝 x0, (chisqr env o (some (List.ofFn x)) st).1 = .ok (some (c x))) ∧
      c x0 = 0 ∧ (fun x => c x - form A B (x - x0)) =o[𝓝 x0] fun x => ‖x - x0‖ ^ 2 :=
  ⟨spread ψ Δ x0, near_chisqr hp hdt hn hm hr hB.continuousAt hin, by simp [spread], spread_form hA hB⟩

theorem norm_sq_le_dot (v : Fin p → ℝ) : ‖v‖ ^ 2 ≤ v ⬝ᵥ v := by
  have h0 : 0 ≤ v ⬝ᵥ v := Finset.sum_nonneg fun i _ => mul_self_nonneg _
  have h1 : ‖v‖ ≤ Real.sqrt (v ⬝ᵥ v) := by
    rw [pi_norm_le_iff_of_nonneg (Real.sqrt_nonneg _)]
    intro i
    rw [Real.norm_eq_abs]
    apply Real.abs_le_sqrt
    rw [sq]
    exact Finset.single_le_sum (f := fun i => v i * v i) (fun i _ => mul_self_nonneg _) (Finset.mem_univ i)
  calc ‖v‖ ^ 2 ≤ Real.sqrt (v ⬝ᵥ v) ^ 2 := by gcongr
    _ = _ := Real.sq_sqrt h0

/-- If no direction is without effect to first order, there is a positive bound on the effects. -/
theorem form_bound {N : ℕ} {A B : Matrix (Fin N) (Fin p) ℝ} (h : ∀ v, A *ᵥ v = 0 → B *ᵥ v = 0 → v = 0) :
    ∃ s > 0, ∀ v, s ^ 2 * (v ⬝ᵥ v) ≤ form A B v := by
  have hcont : Continuous (form A B) := by
    simp only [funext (form_eq A B), Matrix.mulVec, dotProduct]
    fun_prop
  have hnn : ∀ v, 0 ≤ form A B v := fun v => by rw [form_eq]; positivity
  have hpos : ∀ v, v ≠ 0 → 0 < form A B v := by
    intro v hv
    refine lt_of_le_of_ne (hnn v) fun h0 => hv ?_
    rw [form_eq, eq_comm, Finset.sum_eq_zero_iff_of_nonneg fun i _ => by positivity] at h0
    refine h v ?_ ?_ <;>
    · ext i
      have := h0 i (Finset.mem_univ i)
      simp only [Pi.zero_apply]
      nlinarith [sq_nonneg ((A *ᵥ v) i), sq_nonneg ((B *ᵥ v) i)]
  have hdot : ∀ v : Fin p → ℝ, v ⬝ᵥ v ≤ (p + 1) * ‖v‖ ^ 2 := by
    intro v
    have h1 : v ⬝ᵥ v ≤ ∑ _i : Fin p, ‖v‖ ^ 2 := Finset.sum_le_sum fun i _ => by
      rw [← sq, ← sq_abs, ← Real.norm_eq_abs]
      have := norm_le_pi_norm v i
      gcongr
    rw [Finset.sum_const, Finset.card_univ, Fintype.card_fin, nsmul_eq_mul] at h1
    nlinarith [sq_nonneg ‖v‖]
  obtain ⟨m, hm0, hm⟩ : ∃ m > 0, ∀ v : Fin p → ℝ, ‖v‖ = 1 → m ≤ form A B v := by
    rcases (Metric.sphere (0 : Fin p → ℝ) 1).eq_empty_or_nonempty with he | hne
    · refine ⟨1, one_pos, fun v hv => ?_⟩
      have : v ∈ Metric.sphere (0 : Fin p → ℝ) 1 := by simpa using hv
      rw [he] at this
      exact this.elim
    · obtain ⟨w, hw, hmin⟩ := (isCompact_sphere (0 : Fin p → ℝ) 1).exists_isMinOn hne hcont.continuousOn
      have hw1 : ‖w‖ = 1 := by simpa using hw
      refine ⟨_, hpos w fun h0 => ?_, fun v hv => hmin (by simpa using hv)⟩
      rw [h0, norm_zero] at hw1
      exact zero_ne_one hw1
  refine ⟨Real.sqrt (m / (p + 1)), Real.sqrt_pos.mpr (by positivity), fun v => ?_⟩
  rw [Real.sq_sqrt (by positivity)]
  rcases eq_or_ne v 0 with rfl | hv
  · simpa using hnn 0
  have hn : 0 < ‖v‖ := norm_pos_iff.mpr hv
  have h1 := hm (‖v‖⁻¹ • v) (by rw [norm_smul, norm_inv, norm_norm, inv_mul_cancel₀ hn.ne'])
  have h2 : form A B (‖v‖⁻¹ • v) = (‖v‖⁻¹) ^ 2 * form A B v := by
    simp only [form_eq, Matrix.mulVec_smul, Pi.smul_apply, smul_eq_mul, Finset.mul_sum]
    exact Finset.sum_congr rfl fun i _ => by ring
  rw [h2, inv_pow, inv_mul_eq_div, le_div_iff₀ (by positivity)] at h1
  calc m / (p + 1) * (v ⬝ᵥ v) ≤ m / (p + 1) * ((p + 1) * ‖v‖ ^ 2) := by
        gcongr
        exact hdot v
    _ = m * ‖v‖ ^ 2 := by field_simp
    _ ≤ _ := h1

theorem spread_ge {N : ℕ} {ψ Δ : (Fin p → ℝ) → Fin N → ℝ} {x0 : Fin p → ℝ} {A B : Matrix (Fin N) (Fin p) ℝ}
    (hA : IsJacobian ψ x0 A) (hB : IsJacobian Δ x0 B) {s σ : ℝ} (hσ : 0 ≤ σ) (hs : σ < s)
    (hf : ∀ v, s ^ 2 * (v ⬝ᵥ v) ≤ form A B v) :
    ∀ᶠ x in 𝓝 x0, σ ^ 2 * ((x - x0) ⬝ᵥ (x - x0)) ≤ spread ψ Δ x0 x := by
  have hpos : 0 < s ^ 2 - σ ^ 2 := by nlinarith
  filter_upwards [(spread_form hA hB).def hpos] with x hx
  rw [Real.norm_eq_abs, Real.norm_of_nonneg (by positivity)] at hx
  have h1 := (abs_le.mp hx).1
  have h2 := hf (x - x0)
  have h3 := mul_le_mul_of_nonneg_left (norm_sq_le_dot (x - x0)) hpos.le
  nlinarith

/-- C175: if no direction is without effect on psi and delta to first order, parameters that reproduce the data are the only
ones near by that do. -/
theorem C175_isolated {st : St} {pts : List Pt} (hp : Presents st.heap o.data pts) (hdt : env.dt = .float)
    (hn : p = (varying env o st).length) {x0 : Fin p → ℝ} {ψ Δ : (Fin p → ℝ) → Fin pts.length → ℝ}
    (hm : Tracks env o st pts x0 ψ Δ) (hr : Reproduces pts x0 ψ Δ) (hin : ∀ᶠ x in 𝓝 x0, InRange env o st x pts)
    {A B : Matrix (Fin pts.length) (Fin p) ℝ} (hA : IsJacobian ψ x0 A) (hB : IsJacobian Δ x0 B)
    (hAB : ∀ v, A *ᵥ v = 0 → B *ᵥ v = 0 → v = 0) :
    (chisqr env o (some (List.ofFn x0)) st).1 = .ok (some 0) ∧
      ∀ᶠ x in 𝓝 x0, (chisqr env o (some (List.ofFn x)) st).1 = .ok (some 0) → x = x0 := by
  have hc := near_chisqr hp hdt hn hm hr hB.continuousAt hin
  obtain ⟨s, hs0, hs⟩ := form_bound hAB
  refine ⟨by rw [hc.self_of_nhds]; simp [spread], ?_⟩
  filter_upwards [hc, spread_ge hA hB (σ := s / 2) (by positivity) (by linarith) hs] with x h1 h2 h3
  rw [h1, Except.ok.injEq, Option.some.injEq] at h3
  rw [h3] at h2
  have h4 : (x - x0) ⬝ᵥ (x - x0) ≤ 0 := by
    by_contra h
    have := mul_pos (by positivity : 0 < (s / 2) ^ 2) (not_le.mp h)
    linarith
  have h5 := (norm_sq_le_dot (x - x0)).trans h4
  have h6 : ‖x - x0‖ = 0 := by nlinarith [norm_nonneg (x - x0)]
  exact sub_eq_zero.mp (norm_eq_zero.mp h6)

/-- C175: if all changes of the parameters by a unit change psi and delta by more than `σ` to first order, then parameters
near `x0` that fit noisy data (`h'`, `d'`) at least as well as `x0` does, are no further from it than `2 / σ` times the noise. -/
theorem C175_noise {st : St} {pts : List Pt} (hp : Presents st.heap o.data pts) (hdt : env.dt = .float)
    (hn : p = (varying env o st).length) {x0 : Fin p → ℝ} {ψ Δ : (Fin p → ℝ) → Fin pts.length → ℝ}
    (hm : Tracks env o st pts x0 ψ Δ) (hr : Reproduces pts x0 ψ Δ) (hin : ∀ᶠ x in 𝓝 x0, InRange env o st x pts)
    {A B : Matrix (Fin pts.length) (Fin p) ℝ} (hA : IsJacobian ψ x0 A) (hB : IsJacobian Δ x0 B) {s σ : ℝ} (hσ : 0 ≤ σ)
    (hlt : σ < s) (hs : ∀ v, s ^ 2 * (v ⬝ᵥ v) ≤ form A B v) :
    ∀ᶠ x in 𝓝 x0, ∀ h' d' pts', Presents h' d' pts' → SamePlaces pts pts' → InRange env o st x0 pts' →
      InRange env o st x pts' → ∀ u w, (chisqr env { o with data := d' } (some (List.ofFn x)) { st with heap := h' }).1 =
        .ok (some u) → (chisqr env { o with data := d' } (some (List.ofFn x0)) { st with heap := h' }).1 = .ok (some w) →
      u ≤ w → σ * Real.sqrt ((x - x0) ⬝ᵥ (x - x0)) ≤ 2 * Real.sqrt (noise pts pts') := by
  have hc := near_chisqr hp hdt hn hm hr hB.continuousAt hin
  filter_upwards [hc, spread_ge hA hB hσ hlt hs, hin] with x h1 h2 hix h' d' pts' hp' hpl hr0 hrx u w hu hw huw
  have mis : ∀ (y : Fin p → ℝ) (a b : ℝ), InRange env o st y pts → InRange env o st y pts' →
      (chisqr env o (some (List.ofFn y)) st).1 = .ok (some a) →
      (chisqr env { o with data := d' } (some (List.ofFn y)) { st with heap := h' }).1 = .ok (some b) →
      |Real.sqrt b - Real.sqrt a| ≤ Real.sqrt (noise pts pts') := by
    intro y a b i1 i2 ha hb
    have hl : (List.ofFn y).length = (varying env o st).length := by simpa using hn
    have hv : varying env { o with data := d' } { st with heap := h' } = varying env o st := rfl
    have hset : setp env o (some (List.ofFn y)) st =
        (.ok (), { st with vals := assign (varying env o st) (List.ofFn y) st.vals }) := by
      rw [setp, if_pos hl]
    have hset' : setp env { o with data := d' } (some (List.ofFn y)) { st with heap := h' } =
        (.ok (), { st with heap := h', vals := assign (varying env o st) (List.ofFn y) st.vals }) := by
      rw [setp, if_pos (by rw [hv]; exact hl), hv]
    rw [chisqr_set hl, hset] at ha
    rw [chisqr_set (by rw [hv]; exact hl), hset'] at hb
    unfold InRange at i1 i2
    rw [hset] at i1 i2
    obtain ⟨b', hb', hle⟩ := C168_misfit (o := o) (o' := { o with data := d' })
      (st := { st with vals := assign (varying env o st) (List.ofFn y) st.vals })
      (st' := { st with heap := h', vals := assign (varying env o st) (List.ofFn y) st.vals }) hdt ⟨rfl, rfl, rfl⟩ hp hp' hpl
      (fun pt hpt => (List.mem_append.mp hpt).elim (i1 pt) (i2 pt)) ha
    rw [hb', Except.ok.injEq, Option.some.injEq] at hb
    rwa [← hb]
  have e1 := mis x _ _ hix hrx h1 hu
  have e0 := mis x0 _ _ hin.self_of_nhds hr0 hc.self_of_nhds hw
  have z0 : spread ψ Δ x0 x0 = 0 := by simp [spread]
  rw [z0, Real.sqrt_zero, sub_zero] at e0
  have k1 := (abs_le.mp e1).1
  have k2 := (le_abs_self _).trans e0
  have k3 := Real.sqrt_le_sqrt huw
  have k4 := Real.sqrt_le_sqrt h2
  rw [Real.sqrt_mul (sq_nonneg σ), Real.sqrt_sq hσ] at k4
  linarith

/-- C175: with flat priors and `x0` between the bounds, the log-posterior is that of a normal distribution with the inverse
covariance of the sensitivities, up to terms of higher than second order. -/
theorem C175_logpost {st : St} {pts : List Pt} (hp : Presents st.heap o.data pts) (hdt : env.dt = .float)
    (hln : o.lnsigma = none) (hn : p = (varying env o st).length) {x0 : Fin p → ℝ}
    {ψ Δ : (Fin p → ℝ) → Fin pts.length → ℝ}
    (hm : Tracks env o st pts x0 ψ Δ) (hr : Reproduces pts x0 ψ Δ) (hin : ∀ᶠ x in 𝓝 x0, InRange env o st x pts)
    {A B : Matrix (Fin pts.length) (Fin p) ℝ} (hA : IsJacobian ψ x0 A) (hB : IsJacobian Δ x0 B) {lo hi : PId → ℝ}
    (hf : Flat env o st lo hi)
    (hb : ∀ i : Fin p, lo ((varying env o st).getD i 0) < x0 i ∧ x0 i < hi ((varying env o st).getD i 0)) :
    ∃ l : (Fin p → ℝ) → ℝ, (∀ᶠ x in 𝓝 x0, (logpost env o (some (List.ofFn x)) st).1 = .ok (some (l x))) ∧
      (fun x => l x - (l x0 - form A B (x - x0) / 2)) =o[𝓝 x0] fun x => ‖x - x0‖ ^ 2 := by
  obtain ⟨K, hK⟩ := flat_logpost hp hln hf
  have hc := near_chisqr hp hdt hn hm hr hB.continuousAt hin
  have hw : ∀ᶠ x in 𝓝 x0, Within env o st lo hi (List.ofFn x) := by
    have : ∀ᶠ x : Fin p → ℝ in 𝓝 x0, ∀ i : Fin p,
        lo ((varying env o st).getD i 0) ≤ x i ∧ x i ≤ hi ((varying env o st).getD i 0) := by
      rw [eventually_all]
      intro i
      have h1 : Tendsto (fun x : Fin p → ℝ => x i) (𝓝 x0) (𝓝 (x0 i)) := (continuous_apply i).continuousAt
      exact (h1.eventually (Ici_mem_nhds (hb i).1)).and (h1.eventually (Iic_mem_nhds (hb i).2))
    filter_upwards [this] with x hx
    exact (within_iff hn).mpr ⟨fun i => (hx i).1, fun i => (hx i).2⟩
  refine ⟨fun x => K - spread ψ Δ x0 x / 2, ?_, ?_⟩
  · filter_upwards [hc, hw] with x h1 h2
    exact ((hK (List.ofFn x) (by simpa using hn)).1 h2 _).mpr ⟨_, h1, rfl⟩
  · refine ((spread_form hA hB).const_mul_left (-(1 / 2))).congr_left fun x => ?_
    have z0 : spread ψ Δ x0 x0 = 0 := by simp [spread]
    simp only [z0]
    ring

/-! Two points at delta 185: the offset 5 reproduces them. -/

/-- The two points. -/
def sensPts (d : ℝ) : List Pt := [(600, 0, 45, d), (600, 0, 45, d)]

theorem sens_presents (v d : ℝ) : Presents (barSt v [d, d]).heap (probObj none).data (sensPts d) :=
  (bar_presents v false d d).2

theorem sens_values (ext : Ext) (zs : List Layer → ℝ → ℝ → Bool) (v d : ℝ) :
    Values (probEnv ext zs) (probObj none) (barSt v [d, d]) (sensPts d) (cellsOf [(45, 180 + v), (45, 180 + v)]) :=
  bar_values (probEnv ext zs) rfl (probObj none) v [d, d] [d, d]

theorem sens_set (ext : Ext) (zs : List Layer → ℝ → ℝ → Bool) (d : ℝ) (x : Fin 1 → ℝ) :
    setp (probEnv ext zs) (probObj none) (some (List.ofFn x)) (barSt 3 [d, d]) = (.ok (), barSt (x 0) [d, d]) := by
  rw [show List.ofFn x = [x 0] by simp, prob_set ext zs (prob_varying ext zs 3 _).1]

theorem sens_tracks (ext : Ext) (zs : List Layer → ℝ → ℝ → Bool) :
    Tracks (probEnv ext zs) (probObj none) (barSt 3 [185, 185]) (sensPts 185) (fun _ : Fin 1 => (5 : ℝ)) (fun _ _ => 45)
      (fun x _ => 180 + x 0) := by
  refine Eventually.of_forall fun x => ⟨fun _ => 180 + x 0, fun _ => ⟨0, by simp⟩, ?_⟩
  rw [sens_set]
  exact sens_values ext zs (x 0) 185

theorem sens_reproduces : Reproduces (sensPts 185) (fun _ : Fin 1 => (5 : ℝ)) (fun _ _ => 45) (fun x _ => 180 + x 0) := by
  intro i
  fin_cases i <;> exact ⟨rfl, 0, by norm_num [sensPts]⟩

theorem sens_range (ext : Ext) (zs : List Layer → ℝ → ℝ → Bool) : ∀ᶠ x : Fin 1 → ℝ in 𝓝 fun _ => 5, ∀ d, 185 ≤ d → d ≤ 190 →
    InRange (probEnv ext zs) (probObj none) (barSt 3 [185, 185]) x (sensPts d) := by
  have h : Tendsto (fun x : Fin 1 → ℝ => x 0) (𝓝 fun _ => 5) (𝓝 5) := (continuous_apply (0 : Fin 1)).continuousAt
  filter_upwards [h.eventually (Icc_mem_nhds (a := 0) (b := 10) (by norm_num) (by norm_num))] with x hx d h1 h2 pt hpt
  rw [sens_set]
  simp only [sensPts, List.mem_cons, List.not_mem_nil, or_false, or_self] at hpt
  subst hpt
  simp only [barSt, Function.update_self]
  constructor <;> linarith [hx.1, hx.2]

theorem sens_psi : IsJacobian (fun (_ : Fin 1 → ℝ) (_ : Fin (sensPts 185).length) => (45 : ℝ)) (fun _ => 5) 0 := by
  refine (hasFDerivAt_const (𝕜 := ℝ) _ _).congr_fderiv ?_
  ext
  simp

theorem sens_delta : IsJacobian (fun (x : Fin 1 → ℝ) (_ : Fin (sensPts 185).length) => 180 + x 0) (fun _ => 5)
    (Matrix.of fun _ _ => 1) := by
  have h : (fun (x : Fin 1 → ℝ) (_ : Fin (sensPts 185).length) => 180 + x 0) =
      fun x => LinearMap.toContinuousLinearMap (Matrix.toLin' (Matrix.of
        fun (_ : Fin (sensPts 185).length) (_ : Fin 1) => (1 : ℝ))) x +
        fun _ => 180 := by
    funext x i
    simp [mulVec, dotProduct, add_comm]
  rw [h]
  exact (ContinuousLinearMap.hasFDerivAt _).add_const _

theorem sens_form (v : Fin 1 → ℝ) :
    form (0 : Matrix (Fin (sensPts 185).length) (Fin 1) ℝ) (Matrix.of fun _ _ => 1) v = 2 * v 0 ^ 2 := by
  rw [form_eq, show (2 : ℝ) * v 0 ^ 2 = ∑ _i : Fin (sensPts 185).length, v 0 ^ 2 by
    rw [Finset.sum_const, Finset.card_univ, Fintype.card_fin]; simp [sensPts]]
  exact Finset.sum_congr rfl fun i _ => by simp [mulVec, dotProduct, Matrix.of_apply]

theorem sens_len (ext : Ext) (zs : List Layer → ℝ → ℝ → Bool) (ds : List ℝ) :
    1 = (varying (probEnv ext zs) (probObj none) (barSt 3 ds)).length := by
  rw [(prob_varying ext zs 3 _).1]; rfl

example (ext : Ext) (zs : List Layer → ℝ → ℝ → Bool) : ∃ c : (Fin 1 → ℝ) → ℝ,
    (∀ᶠ x in 𝓝 fun _ => 5,
      (chisqr (probEnv ext zs) (probObj none) (some (List.ofFn x)) (barSt 3 [185, 185])).1 = .ok (some (c x))) ∧
    (fun x => c x - 2 * (x 0 - 5) ^ 2) =o[𝓝 fun _ => 5] fun x => ‖x - fun _ => 5‖ ^ 2 := by
  obtain ⟨c, h1, -, h2⟩ := C175_chisqr (o := probObj none) (sens_presents 3 185) rfl (sens_len ext zs _)
    (sens_tracks ext zs) sens_reproduces ((sens_range ext zs).mono fun x h => h 185 le_rfl (by norm_num)) sens_psi sens_delta
  exact ⟨c, h1, by simpa only [sens_form, Pi.sub_apply] using h2⟩

example (ext : Ext) (zs : List Layer → ℝ → ℝ → Bool) : ∀ᶠ x : Fin 1 → ℝ in 𝓝 fun _ => 5,
    (chisqr (probEnv ext zs) (probObj none) (some (List.ofFn x)) (barSt 3 [185, 185])).1 = .ok (some 0) →
      x = fun _ => 5 :=
  (C175_isolated (o := probObj none) (sens_presents 3 185) rfl (sens_len ext zs _)
    (sens_tracks ext zs) sens_reproduces ((sens_range ext zs).mono fun x h => h 185 le_rfl (by norm_num)) sens_psi
    sens_delta (fun v _ h => by
      ext i
      fin_cases i
      have := congrFun h ⟨0, by decide⟩
      simpa [mulVec, dotProduct] using this)).2

/-- Noise may be what a slightly different offset gives, which then fits best. -/
example (ext : Ext) (zs : List Layer → ℝ → ℝ → Bool) : ∀ᶠ x : Fin 1 → ℝ in 𝓝 fun _ => 5, 5 ≤ x 0 → x 0 ≤ 10 →
    1 * Real.sqrt ((x - fun _ => 5) ⬝ᵥ (x - fun _ => 5)) ≤
      2 * Real.sqrt (noise (sensPts 185) (sensPts (180 + x 0))) := by
  have h2 : (1 : ℝ) < Real.sqrt 2 := Real.lt_sqrt_of_sq_lt (by norm_num)
  have key := C175_noise (o := probObj none) (sens_presents 3 185) rfl (sens_len ext zs _)
    (sens_tracks ext zs) sens_reproduces ((sens_range ext zs).mono fun x h => h 185 le_rfl (by norm_num)) sens_psi sens_delta
    (σ := 1) (s := Real.sqrt 2) (by norm_num) h2 (fun v => by
      rw [sens_form, Real.sq_sqrt (by norm_num)]
      simp [dotProduct, sq])
  filter_upwards [key, sens_range ext zs] with x hx hr h5 h10
  have e : ∀ y : Fin 1 → ℝ, 0 ≤ y 0 → y 0 ≤ 10 →
      (chisqr (probEnv ext zs) (probObj none) (some (List.ofFn y)) (barSt 3 [180 + x 0, 180 + x 0])).1 =
        .ok (some (2 * (y 0 - x 0) ^ 2)) := by
    intro y hy hy'
    rw [chisqr_set (by simpa using sens_len ext zs _), sens_set,
      chisqr_iff (o := probObj none) (sens_presents (y 0) (180 + x 0))]
    refine ⟨_, sens_values ext zs (y 0) (180 + x 0), ?_⟩
    have e1 := prob_dist (a := 180 + x 0) ⟨hy, hy'⟩ ⟨by linarith, by linarith⟩
    simp only [List.zip_cons_cons, List.zip_nil_right, List.map_cons, List.map_nil, List.sum_cons, List.sum_nil, sqTerm, e1, sensPts]
    ring
  refine hx (barSt 3 [180 + x 0, 180 + x 0]).heap (probObj none).data (sensPts (180 + x 0))
    (sens_presents 3 (180 + x 0)) (.cons ⟨rfl, rfl⟩ (.cons ⟨rfl, rfl⟩ .nil))
    ((sens_range ext zs).self_of_nhds _ (by linarith) (by linarith)) (hr _ (by linarith) (by linarith)) _ _
    (e x (by linarith) h10) (e (fun _ => 5) (by norm_num) (by norm_num)) (by nlinarith [sq_nonneg (5 - x 0)])

example (ext : Ext) (zs : List Layer → ℝ → ℝ → Bool) : ∃ l : (Fin 1 → ℝ) → ℝ,
    (∀ᶠ x in 𝓝 fun _ => 5,
      (logpost (probEnv ext zs) (probObj none) (some (List.ofFn x)) (barSt 3 [185, 185])).1 = .ok (some (l x))) ∧
    (fun x => l x - (l (fun _ => 5) - (x 0 - 5) ^ 2)) =o[𝓝 fun _ => 5] fun x => ‖x - fun _ => 5‖ ^ 2 := by
  obtain ⟨l, h1, h2⟩ := C175_logpost (o := probObj none) (sens_presents 3 185) rfl rfl (sens_len ext zs _)
    (sens_tracks ext zs) sens_reproduces ((sens_range ext zs).mono fun x h => h 185 le_rfl (by norm_num)) sens_psi sens_delta
    (prob_flat ext zs none 3 _) (fun _ => by norm_num)
  refine ⟨l, h1, h2.congr_left fun x => ?_⟩
  rw [sens_form]
  simp only [Pi.sub_apply]
  ring

end Verif.Obj
