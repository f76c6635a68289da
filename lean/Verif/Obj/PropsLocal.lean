import Verif.Obj.PropsDetermined
import Verif.Obj.PropsSubstrateNoise

/-! # C184: where the data respond to all parameters, noisy data find them locally -/

namespace Verif.Obj
open Matrix Verif.Struct Verif.TMM Verif.RModel Verif.Data Verif.Disp Filter Topology MeasureTheory ProbabilityTheory

section
variable {env : Env} {o : Objective} {st : St} {m n : ℕ} {pl : Fin m → ℝ × ℝ} {y0 : Outcome m} {cs : List Comp}

/-- An isolated perfect fit is determined by exact data within some distance. -/
theorem isolated_determined (hn : n = (varying env o st).length) (hdt : env.dt = .float)
    (hoff : (st.models o.model).rm.off ∉ varying env o st ∧ st.vals (st.models o.model).rm.off = 0)
    (hp : Presents st.heap o.data (readings pl y0)) {x0 : Fin n → ℝ}
    (hdef : ∀ᶠ x in 𝓝 x0, Deforms env o (fun p : Fin n → ℝ => (setp env o (some (List.ofFn p)) st).2) (readings pl y0)
      (st.models o.model) (st.structs (st.models o.model).str) cs x)
    (h0 : (chisqr env o (some (List.ofFn x0)) st).1 = .ok (some 0))
    (hiso : ∀ᶠ x in 𝓝 x0, (chisqr env o (some (List.ofFn x)) st).1 = .ok (some 0) → x = x0) :
    ∃ η, 0 < η ∧ ∃ c0, Searches env o (fun p : Fin n → ℝ => (setp env o (some (List.ofFn p)) st).2) (readings pl y0)
      (st.models o.model) (st.structs (st.models o.model).str) cs (Metric.closedBall x0 η) c0 ∧
      Determined env o st pl (Metric.closedBall x0 η) x0 := by
  have hz : ∀ p : Fin n → ℝ, (setp env o (some (List.ofFn p)) st).2.vals (st.models o.model).rm.off = 0 := fun p => by
    rw [setp_valsAt hn]
    exact (assign_not_mem _ _ _ hoff.1).trans hoff.2
  have hz' : ∀ p : Fin n → ℝ, (setp env o (some (List.ofFn p)) st).2.vals
      ((setp env o (some (List.ofFn p)) st).2.models o.model).rm.off = 0 := fun p => by
    rw [setp_valsAt hn]
    exact (assign_not_mem _ _ _ hoff.1).trans hoff.2
  have hrange : ∀ p : Fin n → ℝ, ∀ pt ∈ readings pl y0,
      (setp env o (some (List.ofFn p)) st).2.vals (st.models o.model).rm.off - 180 ≤ pt.2.2.2 ∧
      pt.2.2.2 ≤ (setp env o (some (List.ofFn p)) st).2.vals (st.models o.model).rm.off + 540 := by
    intro p pt hpt
    obtain ⟨i, rfl⟩ := (List.mem_ofFn' _ _).mp hpt
    rw [hz]
    constructor <;> linarith [(y0 i).2.2.1, (y0 i).2.2.2]
  have hset : ∀ x : Fin n → ℝ, (chisqr env o (some (List.ofFn x)) st).1 =
      (chisqr env o none (setp env o (some (List.ofFn x)) st).2).1 := fun x => by
    rw [chisqr_set (by rw [List.length_ofFn]; exact hn)]
  obtain ⟨C, hC, -, -⟩ := C121_chisqr_partial hdef.self_of_nhds (Eventually.of_forall hrange) (by rw [← hset]; exact h0)
  obtain ⟨η, hη, hball⟩ := Metric.nhds_basis_closedBall.eventually_iff.mp (hdef.and (hC.and hiso))
  refine ⟨η, hη, C, ⟨fun x hx => (hball hx).1, fun x _ => Eventually.of_forall hrange, fun x hx => (hball hx).2.1⟩, ?_⟩
  intro H D pts' hD hp' g0 x hx g1
  obtain ⟨q', rfl⟩ : ∃ q' : Fin m → ℝ × ℝ, pts' = List.ofFn fun i => ((pl i).1, (pl i).2, q' i) := by
    have hl : m = pts'.length := by
      have := congrArg List.length hp'
      simpa using this.symm
    subst hl
    refine ⟨fun i => (pts'.get i).2.2, ?_⟩
    conv_lhs => rw [← List.ofFn_get pts']
    congr 1
    funext i
    have := congrArg (fun l : List (ℝ × ℝ) => l[(i : ℕ)]?) hp'
    simp only [List.getElem?_map, List.getElem?_ofFn, i.2, List.getElem?_eq_getElem, Option.map_some, dite_true,
      Option.some.injEq] at this
    rw [← this]
    rfl
  obtain ⟨v, hv, e⟩ := zero_cells (q := fun i => (((y0 i).1 : ℝ), ((y0 i).2 : ℝ))) (H := st.heap) (D := o.data) hn hp h0
  obtain ⟨v0, hv0, e0⟩ := zero_cells hn hD g0
  obtain ⟨v1, hv1, e1⟩ := zero_cells hn hD g1
  have hv0v : v0 = v := by
    have h4 : cellsOf (List.ofFn v0) = cellsOf (List.ofFn v) := by
      have := hv0.symm.trans hv
      simpa using this
    refine List.ofFn_injective (List.map_injective_iff.mpr (fun a b hab => ?_) h4)
    simpa [Prod.ext_iff] using hab
  subst hv0v
  have r0 := cells_range hdt (hz' x0) hv
  have r1 := cells_range hdt (hz' x) hv1
  have hchi := chi_at (ψ := fun i => (v1 i).1) (Δ := fun i => (v1 i).2) (q := fun i => (((y0 i).1 : ℝ), ((y0 i).2 : ℝ)))
    (H := st.heap) (D := o.data) hn hv1 hp
  rw [Finset.sum_eq_zero (fun i _ => by
    obtain ⟨a1, j, a2⟩ := e0 i
    obtain ⟨b1, l, b2⟩ := e1 i
    obtain ⟨c1, r, c2⟩ := e i
    simp only at c1 c2
    rw [b1, ← a1, c1, same_turn (r1 i) (a := (v1 i).2) (b := ((y0 i).2 : ℝ)) ⟨(y0 i).2.2.1, (y0 i).2.2.2⟩ (k := l - j + r)
      (by rw [b2, show (q' i).2 = (v0 i).2 - 360 * j by rw [a2]; ring, c2]; push_cast; ring)
      ⟨(y0 i).2.2.1, (y0 i).2.2.2⟩]
    simp [circularDistance])] at hchi
  exact (hball hx).2.2 hchi

variable {Ω : Type*} [MeasurableSpace Ω]

/-- C184: any structure.  If exact data are fitted perfectly by `x0` and by no other parameters near by, and the model deforms
continuously there, then within some distance of `x0` measurements with errors of delta below 90 degrees and without bias find
it: almost surely all best fits approach it. -/
theorem C184_isolated (hn : n = (varying env o st).length) (hdt : env.dt = .float)
    (hoff : (st.models o.model).rm.off ∉ varying env o st ∧ st.vals (st.models o.model).rm.off = 0)
    (hp : Presents st.heap o.data (readings pl y0)) {x0 : Fin n → ℝ}
    (hdef : ∀ᶠ x in 𝓝 x0, Deforms env o (fun p : Fin n → ℝ => (setp env o (some (List.ofFn p)) st).2) (readings pl y0)
      (st.models o.model) (st.structs (st.models o.model).str) cs x)
    (h0 : (chisqr env o (some (List.ofFn x0)) st).1 = .ok (some 0))
    (hiso : ∀ᶠ x in 𝓝 x0, (chisqr env o (some (List.ofFn x)) st).1 = .ok (some 0) → x = x0) :
    ∃ η, 0 < η ∧ ∀ (P : Measure Ω) [IsProbabilityMeasure P] (Y : ℕ → Ω → Outcome m), (∀ k, Measurable (Y k)) →
      (Pairwise fun i j => IndepFun (Y i) (Y j) P) → (∀ k, IdentDistrib (Y k) (Y 0) P P) →
      SmallErrors env o st P pl (Y 0) x0 → ∀ (H : ℕ → Ω → Data.Heap) (D : ℕ → Ω → DS),
      (∀ k ω, Presents (H k ω) (D k ω) (readingsN pl (fun k => Y k ω) k)) →
      ∀ᵐ ω ∂P, ∀ b : ℕ → Fin n → ℝ, (∀ k, b k ∈ Metric.closedBall x0 η) →
        (∀ k, ∀ x ∈ Metric.closedBall x0 η, ∀ u v : ℝ,
          (chisqr env { o with data := D k ω } (some (List.ofFn (b k))) { st with heap := H k ω }).1 = .ok (some u) →
          (chisqr env { o with data := D k ω } (some (List.ofFn x)) { st with heap := H k ω }).1 = .ok (some v) → u ≤ v) →
        Tendsto b atTop (𝓝 x0) := by
  obtain ⟨η, hη, c0, hS, hd⟩ := isolated_determined hn hdt hoff hp hdef h0 hiso
  exact ⟨η, hη, fun P _ Y hY hind hdist hu H D hD => C183_fit hn hdt hS (isCompact_closedBall x0 η) hoff
    (Metric.mem_closedBall_self hη.le) hd hY hind hdist hu hD⟩

/-- C184: it suffices that no change of the parameters is without effect on psi and delta to first order. -/
theorem C184_sensitive (hn : n = (varying env o st).length) (hdt : env.dt = .float)
    (hoff : (st.models o.model).rm.off ∉ varying env o st ∧ st.vals (st.models o.model).rm.off = 0)
    (hp : Presents st.heap o.data (readings pl y0)) {x0 : Fin n → ℝ}
    (hdef : ∀ᶠ x in 𝓝 x0, Deforms env o (fun p : Fin n → ℝ => (setp env o (some (List.ofFn p)) st).2) (readings pl y0)
      (st.models o.model) (st.structs (st.models o.model).str) cs x)
    {ψ Δ : (Fin n → ℝ) → Fin (readings pl y0).length → ℝ} (hm : Tracks env o st (readings pl y0) x0 ψ Δ)
    (hr : Reproduces (readings pl y0) x0 ψ Δ) {A B : Matrix (Fin (readings pl y0).length) (Fin n) ℝ}
    (hA : IsJacobian ψ x0 A) (hB : IsJacobian Δ x0 B) (hAB : ∀ v, A *ᵥ v = 0 → B *ᵥ v = 0 → v = 0) :
    ∃ η, 0 < η ∧ ∀ (P : Measure Ω) [IsProbabilityMeasure P] (Y : ℕ → Ω → Outcome m), (∀ k, Measurable (Y k)) →
      (Pairwise fun i j => IndepFun (Y i) (Y j) P) → (∀ k, IdentDistrib (Y k) (Y 0) P P) →
      SmallErrors env o st P pl (Y 0) x0 → ∀ (H : ℕ → Ω → Data.Heap) (D : ℕ → Ω → DS),
      (∀ k ω, Presents (H k ω) (D k ω) (readingsN pl (fun k => Y k ω) k)) →
      ∀ᵐ ω ∂P, ∀ b : ℕ → Fin n → ℝ, (∀ k, b k ∈ Metric.closedBall x0 η) →
        (∀ k, ∀ x ∈ Metric.closedBall x0 η, ∀ u v : ℝ,
          (chisqr env { o with data := D k ω } (some (List.ofFn (b k))) { st with heap := H k ω }).1 = .ok (some u) →
          (chisqr env { o with data := D k ω } (some (List.ofFn x)) { st with heap := H k ω }).1 = .ok (some v) → u ≤ v) →
        Tendsto b atTop (𝓝 x0) := by
  have hin : ∀ x : Fin n → ℝ, InRange env o st x (readings pl y0) := fun x =>
    (inRange_iff hn hoff.1 x _).mpr fun pt hpt => by
      obtain ⟨i, rfl⟩ := (List.mem_ofFn' _ _).mp hpt
      rw [hoff.2]
      constructor <;> linarith [(y0 i).2.2.1, (y0 i).2.2.2]
  obtain ⟨h0, hiso⟩ := C175_isolated hp hdt hn hm hr (Eventually.of_forall hin) hA hB hAB
  exact C184_isolated hn hdt hoff hp hdef h0 hiso

variable {n₀ : ℝ → ℝ} {sub : ScatObj} {pts : List Pt} {X : Set (List ℝ)}

/-- The bare substrate deforms continuously. -/
theorem FitsSubstrate.deforms (h : FitsSubstrate env o st cs n₀ sub pts X) (hn : n = (varying env o st).length)
    {x0 : Fin n → ℝ} (hX : ∀ᶠ x in 𝓝 x0, List.ofFn x ∈ X) {nb : ℝ → (Fin n → ℝ) → ℂ}
    (hm : SmoothIndex env o st n₀ sub pts x0 nb) :
    ∀ᶠ x in 𝓝 x0, Deforms env o (fun p : Fin n → ℝ => (setp env o (some (List.ofFn p)) st).2) pts
      (st.models o.model) (st.structs (st.models o.model).str) cs x := by
  have hall : ∀ {q : Pt → (Fin n → ℝ) → Prop}, (∀ pt ∈ pts, ∀ᶠ x in 𝓝 x0, q pt x) → ∀ᶠ x in 𝓝 x0, ∀ pt ∈ pts, q pt x :=
    fun {q} hq => (Filter.eventually_all_finite (List.finite_toSet pts)).mpr hq
  have hidx := hall fun pt hpt => eventually_eventually_nhds.mpr (hm.index pt hpt)
  have hcont := hall fun pt hpt => ((hm.smooth pt hpt).eventually (by simp)).mono fun x hx => hx.continuousAt
  have hreg := hall (q := fun pt x => (nb pt.1 x).im ≠ 0 ∨ |n₀ pt.1 * Real.sin (rad pt.2.1)| < (nb pt.1 x).re) fun pt hpt => by
    have hc := (hm.smooth pt hpt).continuousAt
    rcases hm.regular pt hpt with h1 | h1
    · exact ((Complex.continuous_im.continuousAt.comp hc).eventually_ne h1).mono fun x hx => .inl hx
    · exact ((Complex.continuous_re.continuousAt.comp hc).eventually (Ioi_mem_nhds h1)).mono fun x hx => .inr hx
  filter_upwards [eventually_eventually_nhds.mpr hX, hidx, hcont, hreg] with x hXx hix hcx hrx
  simp only [setp_valsAt hn]
  refine ⟨h.float, fun _ => rfl, fun _ => rfl, h.plain, ?_, fun _ => h.data, fun pt hpt => ?_⟩
  · have : ∀ p : Fin n → ℝ, valsAt env o st (List.ofFn p) (st.models o.model).rm.off = st.vals (st.models o.model).rm.off :=
      fun p => assign_not_mem _ _ _ h.off
    simp only [this]
    exact continuousAt_const
  · obtain ⟨hw, hn0, ha, -⟩ := h.oblique pt hpt
    have hsee : ∀ᶠ p in 𝓝 x, Physical ⟨(n₀ pt.1 : ℂ), [], nb pt.1 p⟩ (n₀ pt.1) (rad pt.2.1) pt.1 ∧
        Sees env.ext.zs (valsAt env o st (List.ofFn p)) (st.structs (st.models o.model).str) cs pt.1
          ⟨(n₀ pt.1 : ℂ), [], nb pt.1 p⟩ := by
      filter_upwards [hXx, hix pt hpt] with p hp hi
      obtain ⟨c, ⟨-, hat, hpass⟩, hs⟩ := h.sees _ hp pt hpt
      have e : nb pt.1 p = c := by rw [hi] at hat; simpa using hat
      rw [e]
      exact ⟨⟨rfl, hn0, ha, hw, by simp, hpass, by simp, by simp⟩, hs⟩
    exact ⟨fun _ => n₀ pt.1, [], nb pt.1, ⟨continuousAt_const, continuousAt_const, continuousAt_const, by simp,
      hcx pt hpt, hsee.mono fun _ hp => hp.1, by simp, .inl ((hrx pt hpt).imp id .inl)⟩, hsee.mono fun _ hp => hp.2⟩

/-- C184: the material of a bare substrate, given by any differentiable law.  If no change of the parameters leaves the
index unchanged to first order at all measured wavelengths, noisy data find them locally. -/
theorem C184_substrate (h : FitsSubstrate env o st cs n₀ sub (readings pl y0) X) (hn : n = (varying env o st).length)
    (hoff : st.vals (st.models o.model).rm.off = 0) {x0 : Fin n → ℝ}
    (hX : ∀ᶠ x in 𝓝 x0, List.ofFn x ∈ X) (hperf : Perfect env o st (List.ofFn x0))
    (hends : ∀ pt ∈ readings pl y0, ∀ k : ℤ, pt.2.2.2 ≠ (if (st.models o.model).rm.flip then 180 else 360) * k)
    {nb : ℝ → (Fin n → ℝ) → ℂ} (hm : SmoothIndex env o st n₀ sub (readings pl y0) x0 nb)
    (hdir : ∀ v, (∀ pt ∈ readings pl y0, fderiv ℝ (nb pt.1) x0 v = 0) → v = 0) :
    ∃ η, 0 < η ∧ ∀ (P : Measure Ω) [IsProbabilityMeasure P] (Y : ℕ → Ω → Outcome m), (∀ k, Measurable (Y k)) →
      (Pairwise fun i j => IndepFun (Y i) (Y j) P) → (∀ k, IdentDistrib (Y k) (Y 0) P P) →
      SmallErrors env o st P pl (Y 0) x0 → ∀ (H : ℕ → Ω → Data.Heap) (D : ℕ → Ω → DS),
      (∀ k ω, Presents (H k ω) (D k ω) (readingsN pl (fun k => Y k ω) k)) →
      ∀ᵐ ω ∂P, ∀ b : ℕ → Fin n → ℝ, (∀ k, b k ∈ Metric.closedBall x0 η) →
        (∀ k, ∀ x ∈ Metric.closedBall x0 η, ∀ u v : ℝ,
          (chisqr env { o with data := D k ω } (some (List.ofFn (b k))) { st with heap := H k ω }).1 = .ok (some u) →
          (chisqr env { o with data := D k ω } (some (List.ofFn x)) { st with heap := H k ω }).1 = .ok (some v) → u ≤ v) →
        Tendsto b atTop (𝓝 x0) := by
  choose ψ Δ ψ' Δ' k hv h1 h2 h3 h4 h5 using fun i : Fin (readings pl y0).length =>
    h.respond hX hperf (by simpa only [hoff, sub_zero] using hends) hm (List.getElem_mem i.2)
  obtain ⟨A, hA, eA⟩ := jacobian_pi (f := fun x i => ψ i x) h3
  obtain ⟨B, hB, eB⟩ := jacobian_pi (f := fun x i => Δ i x) h4
  have htr : Tracks env o st (readings pl y0) x0 (fun x i => ψ i x) (fun x i => Δ i x) := by
    filter_upwards [eventually_all.mpr hv] with x hx
    refine ⟨fun i => Δ i x, fun i => ⟨0, by simp⟩, ?_⟩
    rw [values_iff, setp, if_pos (by simpa using hn)]
    unfold PointValues
    rw [List.forall₂_iff_get]
    refine ⟨by simp, fun i hi hi' => ?_⟩
    have := hx ⟨i, hi⟩
    rw [h.float]
    simpa [valsAt] using this
  exact C184_sensitive hn h.float ⟨h.off, hoff⟩ h.data (h.deforms hn hX hm) htr (fun i => ⟨h1 i, k i, h2 i⟩) hA hB
    fun v a b => hdir v fun pt hpt => by
      obtain ⟨i, hi, rfl⟩ := List.getElem_of_mem hpt
      exact h5 ⟨i, hi⟩ v (by rw [← eA, a]; rfl) (by rw [← eB, b]; rfl)

end

theorem cells_psi {env : Env} {o : Objective} {st : St} {m : ℕ} {pl : Fin m → ℝ × ℝ} (hdt : env.dt = .float)
    {v : Fin m → ℝ × ℝ} (hv : Values env o st (readings pl zeros) (cellsOf (List.ofFn v))) (i : Fin m) :
    0 ≤ (v i).1 ∧ (v i).1 ≤ 90 := by
  have := (List.forall₂_iff_get.mp (values_iff.mp hv)).2 i (by simp [readings]) (by simp [cellsOf])
  rw [hdt] at this
  exact psi_range this (d := (v i).1) (by simp [cellsOf])

/-- Non-vacuity of `C184_substrate`, and so of the others: the fit of `A`, `B`, `C` of a Cauchy substrate with `A > 1` and
`B, C > 0`, measured at three wavelengths with errors of 80 degrees. -/
example (env : Env) (hdt : env.dt = .float) (hpars : env.pars (subComps.map .comp) none = [1, 2, 4, 5, 6])
    {A B C : ℝ} (hA : 1 < A) (hB : 0 < B) (hC : 0 < C) :
    ∃ (st : St) (pl : Fin 3 → ℝ × ℝ) (ν : Measure (Outcome 3)) (η : ℝ), IsProbabilityMeasure ν ∧ (∀ y, ν {y} ≠ 1) ∧ 0 < η ∧
    ∀ᵐ ω ∂(Measure.infinitePi fun _ : ℕ => ν), ∀ b : ℕ → Fin 3 → ℝ, (∀ k, b k ∈ Metric.closedBall ![A, B, C] η) →
      (∀ k, ∀ x ∈ Metric.closedBall ![A, B, C] η, ∀ u v : ℝ,
        (chisqr env { subObj with data := colData (readingsN pl ω k) } (some (List.ofFn (b k)))
          { st with heap := colHeap (readingsN pl ω k) }).1 = .ok (some u) →
        (chisqr env { subObj with data := colData (readingsN pl ω k) } (some (List.ofFn x))
          { st with heap := colHeap (readingsN pl ω k) }).1 = .ok (some v) → u ≤ v) →
      Tendsto b atTop (𝓝 ![A, B, C]) := by
  obtain ⟨ψ, ψ', ψ'', hperf⟩ := sub_perfect env hdt hpars hA hB.le hC.le
  have hfit := sub_fits env hdt hpars ψ ψ' ψ''
  have hn : 3 = (varying env subObj (subSt ψ ψ' ψ'')).length := by rw [sub_varying env hpars]; rfl
  have ho : (subSt ψ ψ' ψ'').vals ((subSt ψ ψ' ψ'').models subObj.model).rm.off = 0 := by simp [subSt]
  have hlist : List.ofFn ![A, B, C] = [A, B, C] := by simp
  set pl : Fin 3 → ℝ × ℝ := ![(400, filmAoi), (500, filmAoi), (600, filmAoi)] with hpl
  -- the exact data as a result of measuring
  have hpts : subPts ψ ψ' ψ'' = List.ofFn fun i => ((pl i).1, (pl i).2, (![(ψ, 180), (ψ', 180), (ψ'', 180)] : Fin 3 → ℝ × ℝ) i) := by
    simp [subPts, hpl, List.ofFn_succ]
  obtain ⟨v, hv, e⟩ := zero_cells (o := subObj) (st := subSt ψ ψ' ψ'') (H := (subSt ψ ψ' ψ'').heap) (D := subObj.data) hn
    (x := ![A, B, C]) (hpts ▸ hfit.data) (by rw [hlist]; exact hperf)
  have hb : ∀ i, (0 ≤ (v i).1 ∧ (v i).1 ≤ 90) ∧ 0 ≤ (v i).2 ∧ (v i).2 ≤ 360 := fun i =>
    ⟨cells_psi hdt hv i, cells_range hdt (by rw [setp_valsAt hn]; exact (assign_not_mem _ _ _ hfit.off).trans ho) hv i⟩
  let y0 : Outcome 3 := fun i => (⟨(v i).1, (hb i).1⟩, ⟨180, by norm_num⟩)
  have hy0 : subPts ψ ψ' ψ'' = readings pl y0 := by
    rw [hpts]
    unfold readings
    congr 1
    funext i
    have := (e i).1
    simp only [y0, this]
    fin_cases i <;> rfl
  have hpt : ∀ pt ∈ subPts ψ ψ' ψ'', 0 < pt.1 ∧ pt.2.1 = filmAoi ∧ pt.2.2.2 = 180 := by
    intro pt hpt
    simp only [subPts, List.mem_cons, List.not_mem_nil, or_false] at hpt
    rcases hpt with rfl | rfl | rfl <;> norm_num
  have hwav : ∀ w ∈ [(400 : ℝ), 500, 600], ∃ pt ∈ readings pl y0, pt.1 = w := by
    intro w hw
    rw [← hy0]
    simp only [List.mem_cons, List.not_mem_nil, or_false] at hw
    rcases hw with rfl | rfl | rfl <;> simp [subPts]
  rw [hy0] at hfit hpt
  obtain ⟨η, hη, hloc⟩ := C184_substrate (Ω := ℕ → Outcome 3) (x0 := ![A, B, C]) (nb := fun w x => cauchyMap w x) hfit hn ho (by
      have h0 : Tendsto (fun x : Fin 3 → ℝ => x 0) (𝓝 ![A, B, C]) (𝓝 A) := (continuous_apply (0 : Fin 3)).continuousAt
      have h1 : Tendsto (fun x : Fin 3 → ℝ => x 1) (𝓝 ![A, B, C]) (𝓝 B) := (continuous_apply (1 : Fin 3)).continuousAt
      have h2 : Tendsto (fun x : Fin 3 → ℝ => x 2) (𝓝 ![A, B, C]) (𝓝 C) := (continuous_apply (2 : Fin 3)).continuousAt
      filter_upwards [h0.eventually (Ioi_mem_nhds hA), h1.eventually (Ioi_mem_nhds hB), h2.eventually (Ioi_mem_nhds hC)]
        with x e0 e1 e2
      exact ⟨x 0, x 1, x 2, by simp [List.ofFn_succ], e0, le_of_lt e1, le_of_lt e2⟩)
    (by rw [hlist]; exact hperf) (fun pt h k => by
      rw [(hpt pt h).2.2, show ((subSt ψ ψ' ψ'').models subObj.model).rm.flip = false from rfl]
      simp only [Bool.false_eq_true, if_false]
      intro hk
      have h1 : (1 : ℝ) = 2 * k := by linarith
      have h2 : (1 : ℤ) = 2 * k := by exact_mod_cast h1
      omega)
    ⟨fun pt h => Eventually.of_forall fun x => by
        have e : List.ofFn x = [x 0, x 1, x 2] := by simp [List.ofFn_succ]
        rw [e, sub_at env hpars, cauchyMap_apply]
        have h1 := C49_cauchy env.ext.zs 658 (x 0) (x 1) (x 2) (hpt pt h).1
        simp only [Scat.complex, Scat.ownWav, pick_ne (hpt pt h).1.ne'] at h1
        simp only [if_true]
        exact h1,
      fun pt _ => (cauchyMap pt.1).contDiff.contDiffAt,
      fun pt h => .inr (by
        rw [(hpt pt h).2.1, film_angle.2.2.1, cauchyMap_apply, Complex.ofReal_re]
        have h1 : 0 ≤ B / (pt.1 / 1000) ^ 2 := by positivity
        have h2 : 0 ≤ C / (pt.1 / 1000) ^ 4 := by positivity
        have h3 : |(1 : ℝ) * (3 / 5)| = 3 / 5 := by rw [one_mul, abs_of_pos (by norm_num)]
        rw [h3]
        simp only [Matrix.cons_val_zero, Matrix.cons_val_one, Matrix.cons_val]
        linarith)⟩
    (fun v hv => by
      have key : ∀ w ∈ [(400 : ℝ), 500, 600], v 0 + v 1 / (w / 1000) ^ 2 + v 2 / (w / 1000) ^ 4 = 0 := by
        intro w hw
        obtain ⟨pt, h2, rfl⟩ := hwav w hw
        have h3 := hv pt h2
        rw [ContinuousLinearMap.fderiv, cauchyMap_apply] at h3
        exact_mod_cast h3
      have k1 := key 400 (by simp)
      have k2 := key 500 (by simp)
      have k3 := key 600 (by simp)
      norm_num at k1 k2 k3
      ext i
      fin_cases i <;> simp <;> linarith)
  obtain ⟨ν, hν, ⟨w, U, hw, hU⟩, hone⟩ := errors_of (ψ := fun i => (v i).1) (Δ := fun i => (v i).2) hv hb (e := 80)
    (by norm_num) (by norm_num)
  obtain ⟨hY, hind, hid, hlaw⟩ := rand_iid ν
  refine ⟨_, pl, ν, η, hν, hone 0, hη, hloc (Measure.infinitePi fun _ : ℕ => ν) (fun k (ω : ℕ → Outcome 3) => ω k) hY hind hid
    ⟨w, fun i ω => U i (ω 0), hw, fun i => ⟨(hU i).1.comp (hY 0), ?_, ?_, ?_⟩⟩
    (fun k ω => colHeap (readingsN pl ω k)) (fun k ω => colData (readingsN pl ω k)) fun k ω => col_presents _⟩
  · rw [hlaw _ (hU i).1]
    exact (hU i).2.1
  · rw [hlaw (fun y => ((y i).1 : ℝ)) (by fun_prop)]
    exact (hU i).2.2.1
  · exact (measurePreserving_eval_infinitePi (fun _ : ℕ => ν) 0).quasiMeasurePreserving.ae (hU i).2.2.2

end Verif.Obj
