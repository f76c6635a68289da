import Verif.Obj.PropsLocal

/-! # C185: the dispersion law of any bare substrate from noisy measurements -/

namespace Verif.Obj
open Matrix Verif.Struct Verif.TMM Verif.RModel Verif.Data Verif.Disp Filter Topology MeasureTheory ProbabilityTheory

section
variable {env : Env} {o : Objective} {st : St} {m n : ℕ} {pl : Fin m → ℝ × ℝ} {y0 : Outcome m} {cs : List Comp}
  {n₀ : ℝ → ℝ} {sub : ScatObj} {pts pts' : List Pt} {X : Set (List ℝ)} {K : Set (Fin n → ℝ)} {nb : ℝ → (Fin n → ℝ) → ℂ}

/-- Spec: near all parameters in `K`, `nb w` is the index of the material at `w`, continuous there; light enters it at any
angle below the critical one, or it absorbs. -/
structure SteadyIndex (env : Env) (o : Objective) (st : St) (n₀ : ℝ → ℝ) (sub : ScatObj) (pts : List Pt)
    (K : Set (Fin n → ℝ)) (nb : ℝ → (Fin n → ℝ) → ℂ) : Prop where
  index : ∀ pt ∈ pts, ∀ x ∈ K, ∀ᶠ p in 𝓝 x, (sub (valsAt env o st (List.ofFn p))).at env.ext.zs pt.1 = some (nb pt.1 p)
  steady : ∀ pt ∈ pts, ∀ x ∈ K, ContinuousAt (nb pt.1) x
  regular : ∀ pt ∈ pts, ∀ x ∈ K, (nb pt.1 x).im ≠ 0 ∨ |n₀ pt.1 * Real.sin (rad pt.2.1)| < (nb pt.1 x).re

theorem FitsSubstrate.other (h : FitsSubstrate env o st cs n₀ sub pts X)
    (hpl : pts'.map (fun p => (p.1, p.2.1)) = pts.map (fun p => (p.1, p.2.1))) {H : Data.Heap} {D : DS}
    (hD : Presents H D pts') : FitsSubstrate env { o with data := D } { st with heap := H } cs n₀ sub pts' X := by
  have hsame : ∀ pt ∈ pts', ∃ pt' ∈ pts, pt'.1 = pt.1 ∧ pt'.2.1 = pt.2.1 := by
    intro pt hpt
    have : (pt.1, pt.2.1) ∈ pts.map (fun p => (p.1, p.2.1)) := hpl ▸ List.mem_map_of_mem hpt
    obtain ⟨pt', h1, h2⟩ := List.mem_map.mp this
    simp only [Prod.mk.injEq] at h2
    exact ⟨pt', h1, h2⟩
  refine ⟨hD, h.float, h.off, h.plain, h.length, fun x hx pt hpt => ?_, fun pt hpt => ?_⟩
  · obtain ⟨pt', h1, h2, -⟩ := hsame pt hpt
    rw [← h2]
    exact h.sees x hx pt' h1
  · obtain ⟨pt', h1, h2, h3⟩ := hsame pt hpt
    rw [← h2, ← h3]
    exact h.oblique pt' h1

/-- The bare substrate deforms continuously. -/
theorem FitsSubstrate.deforms_at (h : FitsSubstrate env o st cs n₀ sub pts X) (hn : n = (varying env o st).length)
    (hI : SteadyIndex env o st n₀ sub pts K nb) {x : Fin n → ℝ} (hx : x ∈ K) (hX : ∀ᶠ p in 𝓝 x, List.ofFn p ∈ X) :
    Deforms env o (fun p : Fin n → ℝ => (setp env o (some (List.ofFn p)) st).2) pts
      (st.models o.model) (st.structs (st.models o.model).str) cs x := by
  simp only [setp_valsAt hn]
  refine ⟨h.float, fun _ => rfl, fun _ => rfl, h.plain, ?_, fun _ => h.data, fun pt hpt => ?_⟩
  · have : ∀ p : Fin n → ℝ, valsAt env o st (List.ofFn p) (st.models o.model).rm.off = st.vals (st.models o.model).rm.off :=
      fun p => assign_not_mem _ _ _ h.off
    simp only [this]
    exact continuousAt_const
  · obtain ⟨hw, hn0, ha, -⟩ := h.oblique pt hpt
    have hsee : ∀ᶠ p in 𝓝 x, Physical ⟨(n₀ pt.1 : ℂ), [], nb pt.1 p⟩ (n₀ pt.1) (rad pt.2.1) pt.1 ∧
        Sees env.ext.zs (valsAt env o st (List.ofFn p)) (st.structs (st.models o.model).str) cs pt.1
          ⟨(n₀ pt.1 : ℂ), [], nb pt.1 p⟩ := by
      filter_upwards [hX, hI.index pt hpt x hx] with p hp hi
      obtain ⟨c, ⟨-, hat, hpass⟩, hs⟩ := h.sees _ hp pt hpt
      have e : nb pt.1 p = c := by rw [hi] at hat; simpa using hat
      rw [e]
      exact ⟨⟨rfl, hn0, ha, hw, by simp, hpass, by simp, by simp⟩, hs⟩
    exact ⟨fun _ => n₀ pt.1, [], nb pt.1, ⟨continuousAt_const, continuousAt_const, continuousAt_const, by simp,
      hI.steady pt hpt x hx, hsee.mono fun _ hp => hp.1, by simp, .inl ((hI.regular pt hpt x hx).imp id .inl)⟩,
      hsee.mono fun _ hp => hp.2⟩

theorem FitsSubstrate.searches (h : FitsSubstrate env o st cs n₀ sub (readings pl y0) X) (hn : n = (varying env o st).length)
    (hoff : st.vals (st.models o.model).rm.off = 0) (hI : SteadyIndex env o st n₀ sub (readings pl y0) K nb)
    (hX : ∀ x ∈ K, ∀ᶠ p in 𝓝 x, List.ofFn p ∈ X)
    (hfin : ∀ x ∈ K, ∃ u, (chisqr env o (some (List.ofFn x)) st).1 = .ok (some u)) :
    ∃ c0, Searches env o (fun p : Fin n → ℝ => (setp env o (some (List.ofFn p)) st).2) (readings pl y0)
      (st.models o.model) (st.structs (st.models o.model).str) cs K c0 := by
  choose! c0 hc0 using hfin
  refine ⟨c0, fun x hx => h.deforms_at hn hI hx (hX x hx), fun x _ => Eventually.of_forall fun p pt hpt => ?_,
    fun x hx => ?_⟩
  · obtain ⟨i, rfl⟩ := (List.mem_ofFn' _ _).mp hpt
    rw [setp_valsAt hn]
    simp only
    rw [show valsAt env o st (List.ofFn p) (st.models o.model).rm.off = 0 from (assign_not_mem _ _ _ h.off).trans hoff]
    constructor <;> linarith [(y0 i).2.2.1, (y0 i).2.2.2]
  · rw [← hc0 x hx, chisqr_set (by rw [List.length_ofFn]; exact hn)]

theorem FitsSubstrate.determined (h : FitsSubstrate env o st cs n₀ sub (readings pl y0) X)
    (hX : ∀ x ∈ K, List.ofFn x ∈ X)
    (hid : ∀ x ∈ K, ∀ y ∈ K, (∀ i, (sub (valsAt env o st (List.ofFn x))).complex env.ext.zs (some (pl i).1) =
      (sub (valsAt env o st (List.ofFn y))).complex env.ext.zs (some (pl i).1)) → x = y) {x0 : Fin n → ℝ} (hx0 : x0 ∈ K) :
    Determined env o st pl K x0 := by
  intro H D pts' hD hp' g0 x hx g1
  have hpl : pts'.map (fun p => (p.1, p.2.1)) = (readings pl y0).map (fun p => (p.1, p.2.1)) := by
    rw [hp', readings_map]
  have hidx := C172_index (h.other hpl hD) (hX x hx) (hX x0 hx0) g1 g0
  refine hid x hx x0 hx0 fun i => ?_
  have hmem : ((pl i).1, (pl i).2) ∈ pts'.map (fun p => (p.1, p.2.1)) := by
    rw [hp']
    exact (List.mem_ofFn' _ _).mpr ⟨i, rfl⟩
  obtain ⟨pt, hpt, e⟩ := List.mem_map.mp hmem
  simp only [Prod.mk.injEq] at e
  obtain ⟨c, h1, h2⟩ := hidx pt hpt
  rw [e.1] at h1 h2
  exact h1.trans h2.symm

variable {Ω : Type*} [MeasurableSpace Ω] {P : Measure Ω} [IsProbabilityMeasure P] {Y : ℕ → Ω → Outcome m}

/-- C185: any bare substrate, absorbing or not, measured obliquely below the critical angle.  If the indices at the measured
wavelengths determine the parameters in a compact set, measurements with errors of delta below 90 degrees and without bias
find them: almost surely all best fits of the first `k` measurements approach the truth. -/
theorem C185_fit (h : FitsSubstrate env o st cs n₀ sub (readings pl y0) X) (hn : n = (varying env o st).length)
    (hoff : st.vals (st.models o.model).rm.off = 0) (hI : SteadyIndex env o st n₀ sub (readings pl y0) K nb)
    (hK : IsCompact K) (hX : ∀ x ∈ K, ∀ᶠ p in 𝓝 x, List.ofFn p ∈ X)
    (hfin : ∀ x ∈ K, ∃ u, (chisqr env o (some (List.ofFn x)) st).1 = .ok (some u))
    (hid : ∀ x ∈ K, ∀ y ∈ K, (∀ i, (sub (valsAt env o st (List.ofFn x))).complex env.ext.zs (some (pl i).1) =
      (sub (valsAt env o st (List.ofFn y))).complex env.ext.zs (some (pl i).1)) → x = y)
    (hY : ∀ k, Measurable (Y k)) (hind : Pairwise fun i j => IndepFun (Y i) (Y j) P)
    (hdist : ∀ k, IdentDistrib (Y k) (Y 0) P P) {x0 : Fin n → ℝ} (hx0 : x0 ∈ K) (hu : SmallErrors env o st P pl (Y 0) x0)
    {H : ℕ → Ω → Data.Heap} {D : ℕ → Ω → DS}
    (hD : ∀ k ω, Presents (H k ω) (D k ω) (readingsN pl (fun k => Y k ω) k)) :
    ∀ᵐ ω ∂P, ∀ b : ℕ → Fin n → ℝ, (∀ k, b k ∈ K) →
      (∀ k, ∀ x ∈ K, ∀ u v : ℝ,
        (chisqr env { o with data := D k ω } (some (List.ofFn (b k))) { st with heap := H k ω }).1 = .ok (some u) →
        (chisqr env { o with data := D k ω } (some (List.ofFn x)) { st with heap := H k ω }).1 = .ok (some v) → u ≤ v) →
      Tendsto b atTop (𝓝 x0) := by
  obtain ⟨c0, hS⟩ := h.searches hn hoff hI hX hfin
  exact C183_fit hn h.float hS hK ⟨h.off, hoff⟩ hx0 (h.determined (fun x hx => (hX x hx).self_of_nhds) hid hx0) hY hind hdist
    hu hD

/-- C185: and so does the posterior, for all proper priors within the set that do not exclude the truth. -/
theorem C185_posterior (h : FitsSubstrate env o st cs n₀ sub (readings pl y0) X) (hn : n = (varying env o st).length)
    (hoff : st.vals (st.models o.model).rm.off = 0) (hs : o.lnsigma = none)
    (hI : SteadyIndex env o st n₀ sub (readings pl y0) K nb)
    (hK : IsCompact K) (hX : ∀ x ∈ K, ∀ᶠ p in 𝓝 x, List.ofFn p ∈ X)
    (hfin : ∀ x ∈ K, ∃ u, (chisqr env o (some (List.ofFn x)) st).1 = .ok (some u))
    (hid : ∀ x ∈ K, ∀ y ∈ K, (∀ i, (sub (valsAt env o st (List.ofFn x))).complex env.ext.zs (some (pl i).1) =
      (sub (valsAt env o st (List.ofFn y))).complex env.ext.zs (some (pl i).1)) → x = y)
    (hY : ∀ k, Measurable (Y k)) (hind : Pairwise fun i j => IndepFun (Y i) (Y j) P)
    (hdist : ∀ k, IdentDistrib (Y k) (Y 0) P P) {x0 : Fin n → ℝ} (hx0 : x0 ∈ K) (hu : SmallErrors env o st P pl (Y 0) x0)
    {H : ℕ → Ω → Data.Heap} {D : ℕ → Ω → DS}
    (hD : ∀ k ω, Presents (H k ω) (D k ω) (readingsN pl (fun k => Y k ω) k))
    (hw : ∀ k ω, (D k ω).weighted = o.data.weighted)
    (hprop : ∀ q ∈ varying env o st, Integrable (priorDensity env q)) (hsupp : ∀ x : Fin n → ℝ, prior env o st x ≠ 0 → x ∈ K)
    (hmass : ∀ U ∈ 𝓝 x0, 0 < ∫ x in U, prior env o st x) :
    ∀ᵐ ω ∂P, ∀ g : (Fin n → ℝ) → ℝ, Integrable (fun x => g x * prior env o st x) → ContinuousAt g x0 →
      Tendsto (fun k => (∫ x, g x * densityN env o st (fun k => H k ω) (fun k => D k ω) k x) /
        ∫ x : Fin n → ℝ, densityN env o st (fun k => H k ω) (fun k => D k ω) k x) atTop (𝓝 (g x0)) := by
  obtain ⟨c0, hS⟩ := h.searches hn hoff hI hX hfin
  exact C183_posterior hn h.float hs hS hK ⟨h.off, hoff⟩ hx0
    (h.determined (fun x hx => (hX x hx).self_of_nhds) hid hx0) hY hind hdist hu hD hw hprop hsupp hmass

/-- The index of a Cauchy law. -/
noncomputable def cauchyIdx (env : Env) (o : Objective) (st : St) (a b c : PId) (w : ℝ) (x : Fin n → ℝ) : ℂ :=
  ((valsAt env o st (List.ofFn x) a + valsAt env o st (List.ofFn x) b / (w / 1000) ^ 2 +
    valsAt env o st (List.ofFn x) c / (w / 1000) ^ 4 : ℝ) : ℂ)

theorem FitsSubstrate.cauchy_steady {wl : ℝ} {a b c : PId}
    (h : FitsSubstrate env o st cs n₀ (fun v => .cauchy wl (v a) (v b) (v c)) (readings pl y0) X)
    (hn : n = (varying env o st).length)
    (hcrit : ∀ x ∈ K, ∀ i, |n₀ (pl i).1 * Real.sin (rad (pl i).2)| < valsAt env o st (List.ofFn x) a +
      valsAt env o st (List.ofFn x) b / ((pl i).1 / 1000) ^ 2 + valsAt env o st (List.ofFn x) c / ((pl i).1 / 1000) ^ 4) :
    SteadyIndex env o st n₀ (fun v => .cauchy wl (v a) (v b) (v c)) (readings pl y0) K (cauchyIdx env o st a b c) := by
  refine ⟨fun pt hpt x hx => Eventually.of_forall fun p => ?_, fun pt hpt x hx => ?_, fun pt hpt x hx => ?_⟩
  · have hw := (h.oblique pt hpt).1
    have h1 := C49_cauchy env.ext.zs wl (valsAt env o st (List.ofFn p) a) (valsAt env o st (List.ofFn p) b)
      (valsAt env o st (List.ofFn p) c) hw
    simp only [Scat.complex, Scat.ownWav, pick_ne hw.ne'] at h1
    exact h1
  · refine Complex.continuous_ofReal.continuousAt.comp (Continuous.continuousAt ?_)
    exact ((continuous_valsAt hn a).add ((continuous_valsAt hn b).div_const _)).add ((continuous_valsAt hn c).div_const _)
  · obtain ⟨i, rfl⟩ := (List.mem_ofFn' _ _).mp hpt
    exact .inr (by rw [cauchyIdx, Complex.ofReal_re]; exact hcrit x hx i)

theorem FitsSubstrate.cauchy_id {wl : ℝ} {a b c : PId}
    (h : FitsSubstrate env o st cs n₀ (fun v => .cauchy wl (v a) (v b) (v c)) (readings pl y0) X)
    (hv : ∀ p ∈ varying env o st, p = a ∨ p = b ∨ p = c) (hw : 3 ≤ (wavs (readings pl y0)).card)
    (hn : n = (varying env o st).length) {x y : Fin n → ℝ}
    (he : ∀ i, (Scat.cauchy wl (valsAt env o st (List.ofFn x) a) (valsAt env o st (List.ofFn x) b)
        (valsAt env o st (List.ofFn x) c)).complex env.ext.zs (some (pl i).1) =
      (Scat.cauchy wl (valsAt env o st (List.ofFn y) a) (valsAt env o st (List.ofFn y) b)
        (valsAt env o st (List.ofFn y) c)).complex env.ext.zs (some (pl i).1)) : x = y := by
  have hpos : ∀ i, 0 < (pl i).1 := fun i => (h.oblique _ ((List.mem_ofFn' _ _).mpr ⟨i, rfl⟩)).1
  have hwav : ∀ w ∈ wavs (readings pl y0), ∃ i, w = (pl i).1 := by
    intro w hw
    classical
    rw [wavs, List.mem_toFinset, List.mem_map] at hw
    obtain ⟨pt, hpt, rfl⟩ := hw
    obtain ⟨i, rfl⟩ := (List.mem_ofFn' _ _).mp hpt
    exact ⟨i, rfl⟩
  obtain ⟨e1, e2, e3⟩ := C171_cauchy env.ext.zs env.ext.zs hw
    (fun w hw => by obtain ⟨i, rfl⟩ := hwav w hw; exact hpos i)
    (fun w hw => by obtain ⟨i, rfl⟩ := hwav w hw; exact he i)
  refine valsAt_inj hn fun p hp => ?_
  rcases hv p hp with rfl | rfl | rfl
  · exact e1
  · exact e2
  · exact e3

/-- C185: a Cauchy law at three or more wavelengths, of which some or all parameters are fitted. -/
theorem C185_cauchy {wl : ℝ} {a b c : PId}
    (h : FitsSubstrate env o st cs n₀ (fun v => .cauchy wl (v a) (v b) (v c)) (readings pl y0) X)
    (hv : ∀ p ∈ varying env o st, p = a ∨ p = b ∨ p = c) (hw : 3 ≤ (wavs (readings pl y0)).card)
    (hn : n = (varying env o st).length) (hoff : st.vals (st.models o.model).rm.off = 0) (hK : IsCompact K)
    (hX : ∀ x ∈ K, ∀ᶠ p in 𝓝 x, List.ofFn p ∈ X)
    (hcrit : ∀ x ∈ K, ∀ i, |n₀ (pl i).1 * Real.sin (rad (pl i).2)| < valsAt env o st (List.ofFn x) a +
      valsAt env o st (List.ofFn x) b / ((pl i).1 / 1000) ^ 2 + valsAt env o st (List.ofFn x) c / ((pl i).1 / 1000) ^ 4)
    (hfin : ∀ x ∈ K, ∃ u, (chisqr env o (some (List.ofFn x)) st).1 = .ok (some u))
    (hY : ∀ k, Measurable (Y k)) (hind : Pairwise fun i j => IndepFun (Y i) (Y j) P)
    (hdist : ∀ k, IdentDistrib (Y k) (Y 0) P P) {x0 : Fin n → ℝ} (hx0 : x0 ∈ K) (hu : SmallErrors env o st P pl (Y 0) x0)
    {H : ℕ → Ω → Data.Heap} {D : ℕ → Ω → DS}
    (hD : ∀ k ω, Presents (H k ω) (D k ω) (readingsN pl (fun k => Y k ω) k)) :
    ∀ᵐ ω ∂P, ∀ b : ℕ → Fin n → ℝ, (∀ k, b k ∈ K) →
      (∀ k, ∀ x ∈ K, ∀ u v : ℝ,
        (chisqr env { o with data := D k ω } (some (List.ofFn (b k))) { st with heap := H k ω }).1 = .ok (some u) →
        (chisqr env { o with data := D k ω } (some (List.ofFn x)) { st with heap := H k ω }).1 = .ok (some v) → u ≤ v) →
      Tendsto b atTop (𝓝 x0) := by
  exact C185_fit h hn hoff (h.cauchy_steady hn hcrit) hK hX hfin (fun x _ y _ he => h.cauchy_id hv hw hn he) hY hind hdist hx0
    hu hD

end

/-! ### A Cauchy substrate at three wavelengths -/

section Box
variable {env : Env} {lo hi : Fin 3 → ℝ}

/-- The results the state `subSt 0 0 0` holds. -/
noncomputable def boxY : Outcome 3 := fun _ => (⟨0, by norm_num⟩, ⟨180, by norm_num⟩)

theorem box_fits (hdt : env.dt = .float) (hpars : env.pars (subComps.map .comp) none = [1, 2, 4, 5, 6]) :
    FitsSubstrate env subObj (subSt 0 0 0) subComps (fun _ => 1) (fun v => .cauchy 658 (v 4) (v 5) (v 6))
      (readings glassPl boxY) {x | ∃ A B C : ℝ, x = [A, B, C] ∧ 1 < A ∧ 0 ≤ B ∧ 0 ≤ C} := by
  have hfit := sub_fits env hdt hpars 0 0 0
  rwa [show subPts 0 0 0 = readings glassPl boxY by simp [subPts, readings, glassPl, boxY, List.ofFn_succ]] at hfit

theorem box_list (x : Fin 3 → ℝ) : List.ofFn x = [x 0, x 1, x 2] := by simp [List.ofFn_succ]

theorem box_cells (hdt : env.dt = .float) (hpars : env.pars (subComps.map .comp) none = [1, 2, 4, 5, 6]) {x : Fin 3 → ℝ}
    (h0 : 1 < x 0) (h1 : 0 ≤ x 1) (h2 : 0 ≤ x 2) : ∃ v : Fin 3 → ℝ × ℝ,
    Values env subObj (setp env subObj (some (List.ofFn x)) (subSt 0 0 0)).2 (readings glassPl zeros)
      (cellsOf (List.ofFn v)) := by
  have hn : 3 = (varying env subObj (subSt 0 0 0)).length := by rw [sub_varying env hpars]; rfl
  obtain ⟨ψ, ψ', ψ'', hperf⟩ := sub_perfect env hdt hpars h0 h1 h2
  have hpts : subPts ψ ψ' ψ'' =
      List.ofFn fun i => ((glassPl i).1, (glassPl i).2, (![(ψ, 180), (ψ', 180), (ψ'', 180)] : Fin 3 → ℝ × ℝ) i) := by
    simp [subPts, glassPl, List.ofFn_succ]
  obtain ⟨v, hv, -⟩ := zero_cells (o := subObj) (st := subSt 0 0 0) (H := (subSt ψ ψ' ψ'').heap) (D := subObj.data) hn
    (x := x) (hpts ▸ (sub_fits env hdt hpars ψ ψ' ψ'').data) (by rw [box_list]; exact hperf)
  exact ⟨v, hv⟩

theorem box_near (h0 : 1 < lo 0) (h1 : 0 < lo 1) (h2 : 0 < lo 2) : ∀ x ∈ Set.Icc lo hi, ∀ᶠ p in 𝓝 x,
    List.ofFn p ∈ {x | ∃ A B C : ℝ, x = [A, B, C] ∧ 1 < A ∧ 0 ≤ B ∧ 0 ≤ C} := by
  intro x hx
  have t : ∀ i : Fin 3, Tendsto (fun p : Fin 3 → ℝ => p i) (𝓝 x) (𝓝 (x i)) := fun i => (continuous_apply i).continuousAt
  filter_upwards [(t 0).eventually (Ioi_mem_nhds (h0.trans_le (hx.1 0))), (t 1).eventually (Ioi_mem_nhds (h1.trans_le (hx.1 1))),
    (t 2).eventually (Ioi_mem_nhds (h2.trans_le (hx.1 2)))] with p e0 e1 e2
  exact ⟨p 0, p 1, p 2, box_list p, e0, le_of_lt e1, le_of_lt e2⟩

theorem box_crit (hpars : env.pars (subComps.map .comp) none = [1, 2, 4, 5, 6]) (h0 : 1 < lo 0) (h1 : 0 < lo 1) (h2 : 0 < lo 2) :
    ∀ x ∈ Set.Icc lo hi, ∀ i, |(1 : ℝ) * Real.sin (rad (glassPl i).2)| < valsAt env subObj (subSt 0 0 0) (List.ofFn x) 4 +
      valsAt env subObj (subSt 0 0 0) (List.ofFn x) 5 / ((glassPl i).1 / 1000) ^ 2 +
      valsAt env subObj (subSt 0 0 0) (List.ofFn x) 6 / ((glassPl i).1 / 1000) ^ 4 := by
  intro x hx i
  have e0 := h0.trans_le (hx.1 0)
  have e1 := h1.trans_le (hx.1 1)
  have e2 := h2.trans_le (hx.1 2)
  have ha : (glassPl i).2 = filmAoi := by fin_cases i <;> rfl
  rw [ha, film_angle.2.2.1, box_list, sub_at env hpars, one_mul, abs_of_pos (by norm_num)]
  have k1 : 0 ≤ x 1 / ((glassPl i).1 / 1000) ^ 2 := by positivity
  have k2 : 0 ≤ x 2 / ((glassPl i).1 / 1000) ^ 4 := by positivity
  norm_num
  linarith

theorem box_finite (hdt : env.dt = .float) (hpars : env.pars (subComps.map .comp) none = [1, 2, 4, 5, 6]) (h0 : 1 < lo 0)
    (h1 : 0 < lo 1) (h2 : 0 < lo 2) :
    ∀ x ∈ Set.Icc lo hi, ∃ u, (chisqr env subObj (some (List.ofFn x)) (subSt 0 0 0)).1 = .ok (some u) := by
  intro x hx
  have hn : 3 = (varying env subObj (subSt 0 0 0)).length := by rw [sub_varying env hpars]; rfl
  obtain ⟨v, hv⟩ := box_cells hdt hpars (h0.trans_le (hx.1 0)) (h1.trans_le (hx.1 1)).le (h2.trans_le (hx.1 2)).le
  exact ⟨_, chi_at (o := subObj) (st := subSt 0 0 0) (H := (subSt 0 0 0).heap) (D := subObj.data) hn
    (ψ := fun i => (v i).1) (Δ := fun i => (v i).2) hv (q := fun i => ((boxY i).1, (boxY i).2)) (box_fits hdt hpars).data⟩

theorem box_wavs : 3 ≤ (wavs (readings glassPl boxY)).card := by
  classical
  have : wavs (readings glassPl boxY) = {400, 500, 600} := by ext; simp [wavs, readings, glassPl, List.ofFn_succ]
  rw [this]
  norm_num

theorem box_noise (hdt : env.dt = .float) (hpars : env.pars (subComps.map .comp) none = [1, 2, 4, 5, 6]) {x0 : Fin 3 → ℝ}
    (h0 : 1 < x0 0) (h1 : 0 ≤ x0 1) (h2 : 0 ≤ x0 2) : ∃ ν : Measure (Outcome 3), IsProbabilityMeasure ν ∧ (∀ y, ν {y} ≠ 1) ∧
    SmallErrors env subObj (subSt 0 0 0) (Measure.infinitePi fun _ : ℕ => ν) glassPl (fun ω : ℕ → Outcome 3 => ω 0) x0 := by
  have hn : 3 = (varying env subObj (subSt 0 0 0)).length := by rw [sub_varying env hpars]; rfl
  have ho : (subSt 0 0 0).vals ((subSt 0 0 0).models subObj.model).rm.off = 0 := by simp [subSt]
  obtain ⟨v, hv⟩ := box_cells hdt hpars h0 h1 h2
  have hb : ∀ i, (0 ≤ (v i).1 ∧ (v i).1 ≤ 90) ∧ 0 ≤ (v i).2 ∧ (v i).2 ≤ 360 := fun i =>
    ⟨cells_psi hdt hv i, cells_range hdt (by
      rw [setp_valsAt hn]; exact (assign_not_mem _ _ _ (box_fits hdt hpars).off).trans ho) hv i⟩
  obtain ⟨ν, hν, ⟨w, U, hw, hU⟩, hone⟩ := errors_of (ψ := fun i => (v i).1) (Δ := fun i => (v i).2) hv hb (e := 80)
    (by norm_num) (by norm_num)
  obtain ⟨hY, -, -, hlaw⟩ := rand_iid ν
  refine ⟨ν, hν, hone 0, w, fun i ω => U i (ω 0), hw, fun i => ⟨(hU i).1.comp (hY 0), ?_, ?_, ?_⟩⟩
  · rw [hlaw _ (hU i).1]
    exact (hU i).2.1
  · rw [hlaw (fun y => ((y i).1 : ℝ)) (by fun_prop)]
    exact (hU i).2.2.1
  · exact (measurePreserving_eval_infinitePi (fun _ : ℕ => ν) 0).quasiMeasurePreserving.ae (hU i).2.2.2

theorem box_varying (hpars : env.pars (subComps.map .comp) none = [1, 2, 4, 5, 6]) :
    ∀ p ∈ varying env subObj (subSt 0 0 0), p = 4 ∨ p = 5 ∨ p = 6 := by
  intro p hp
  rw [sub_varying env hpars] at hp
  simpa using hp

/-- Non-vacuity of `C185_cauchy` and `C185_fit`: whatever the box of parameters and the truth in it, there is noise of 80 degrees
with which the best fits find the truth. -/
example (hdt : env.dt = .float) (hpars : env.pars (subComps.map .comp) none = [1, 2, 4, 5, 6])
    {x0 : Fin 3 → ℝ} (h0 : 1 < lo 0) (h1 : 0 < lo 1) (h2 : 0 < lo 2) (hx0 : x0 ∈ Set.Icc lo hi) :
    ∃ ν : Measure (Outcome 3), IsProbabilityMeasure ν ∧ (∀ y, ν {y} ≠ 1) ∧
    ∀ᵐ ω ∂(Measure.infinitePi fun _ : ℕ => ν), ∀ b : ℕ → Fin 3 → ℝ, (∀ k, b k ∈ Set.Icc lo hi) →
      (∀ k, ∀ x ∈ Set.Icc lo hi, ∀ u v : ℝ,
        (chisqr env { subObj with data := colData (readingsN glassPl ω k) } (some (List.ofFn (b k)))
          { subSt 0 0 0 with heap := colHeap (readingsN glassPl ω k) }).1 = .ok (some u) →
        (chisqr env { subObj with data := colData (readingsN glassPl ω k) } (some (List.ofFn x))
          { subSt 0 0 0 with heap := colHeap (readingsN glassPl ω k) }).1 = .ok (some v) → u ≤ v) →
      Tendsto b atTop (𝓝 x0) := by
  obtain ⟨ν, hν, hone, hu⟩ := box_noise hdt hpars (h0.trans_le (hx0.1 0)) (h1.trans_le (hx0.1 1)).le (h2.trans_le (hx0.1 2)).le
  obtain ⟨hY, hind, hid, -⟩ := rand_iid ν
  exact ⟨ν, hν, hone, C185_cauchy (Y := fun k (ω : ℕ → Outcome 3) => ω k) (box_fits hdt hpars) (box_varying hpars) box_wavs
    (by rw [sub_varying env hpars]; rfl) (by simp [subSt]) isCompact_Icc (box_near h0 h1 h2) (box_crit hpars h0 h1 h2)
    (box_finite hdt hpars h0 h1 h2) hY hind hid hx0 hu
    (H := fun k ω => colHeap (readingsN glassPl ω k)) (D := fun k ω => colData (readingsN glassPl ω k))
    fun k ω => col_presents _⟩

/-- Non-vacuity of `C185_posterior`: uniform priors over the box and the truth inside it.  The posterior probability of all
neighbourhoods of the truth tends to 1. -/
example (hdt : env.dt = .float) (hpars : env.pars (subComps.map .comp) none = [1, 2, 4, 5, 6])
    {x0 : Fin 3 → ℝ} (h0 : 1 < lo 0) (h1 : 0 < lo 1) (h2 : 0 < lo 2) (hx0 : x0 ∈ interior (Set.Icc lo hi))
    (hprior : ∀ (i : Fin 3) (v : ℝ), env.logp (i + 4) v =
      (open Classical in if lo i ≤ v ∧ v ≤ hi i then some (-Real.log (hi i - lo i)) else none)) :
    ∃ ν : Measure (Outcome 3), IsProbabilityMeasure ν ∧ (∀ y, ν {y} ≠ 1) ∧
    ∀ᵐ ω ∂(Measure.infinitePi fun _ : ℕ => ν), ∀ U : Set (Fin 3 → ℝ), U ∈ 𝓝 x0 → MeasurableSet U →
      Tendsto (fun k => (∫ x, U.indicator 1 x * densityN env subObj (subSt 0 0 0)
          (fun k => colHeap (readingsN glassPl ω k)) (fun k => colData (readingsN glassPl ω k)) k x) /
        ∫ x : Fin 3 → ℝ, densityN env subObj (subSt 0 0 0)
          (fun k => colHeap (readingsN glassPl ω k)) (fun k => colData (readingsN glassPl ω k)) k x) atTop (𝓝 1) := by
  have hxK := interior_subset hx0
  have hvar := sub_varying env hpars 0 0 0
  have hn : 3 = (varying env subObj (subSt 0 0 0)).length := by rw [hvar]; rfl
  have hden : ∀ (i : Fin 3) (v : ℝ), priorDensity env (i + 4) v =
      (Set.Icc (lo i) (hi i)).indicator (fun _ => Real.exp (-Real.log (hi i - lo i))) v := by
    intro i v
    simp only [priorDensity, hprior, Set.indicator_apply, Set.mem_Icc]
    by_cases h : lo i ≤ v ∧ v ≤ hi i
    · rw [if_pos h, if_pos h]
    · rw [if_neg h, if_neg h]
  have hpr : ∀ x : Fin 3 → ℝ, prior env subObj (subSt 0 0 0) x ≠ 0 ↔ x ∈ Set.Icc lo hi := by
    intro x
    rw [prior, hvar, Fin.prod_univ_three]
    change priorDensity env ((0 : Fin 3) + 4) (x 0) * priorDensity env ((1 : Fin 3) + 4) (x 1) *
      priorDensity env ((2 : Fin 3) + 4) (x 2) ≠ 0 ↔ _
    rw [hden, hden, hden]
    simp only [Set.indicator_apply, Set.mem_Icc, ne_eq, mul_eq_zero, ite_eq_right_iff, Real.exp_ne_zero, imp_false, not_or,
      not_not, Pi.le_def, Fin.forall_fin_succ, Fin.forall_fin_zero]
    simp
    tauto
  have hproper : ∀ q ∈ varying env subObj (subSt 0 0 0), Integrable (priorDensity env q) := by
    intro q hq
    have : ∃ i : Fin 3, q = i + 4 := by
      rcases box_varying hpars q hq with rfl | rfl | rfl
      · exact ⟨0, rfl⟩
      · exact ⟨1, rfl⟩
      · exact ⟨2, rfl⟩
    obtain ⟨i, rfl⟩ := this
    rw [funext (hden i)]
    exact (integrableOn_const (hs := isCompact_Icc.measure_lt_top.ne)).integrable_indicator measurableSet_Icc
  have hp := prior_integrable hn hproper
  obtain ⟨ν, hν, hone, hu⟩ := box_noise hdt hpars (h0.trans_le (hxK.1 0)) (h1.trans_le (hxK.1 1)).le (h2.trans_le (hxK.1 2)).le
  obtain ⟨hY, hind, hid, -⟩ := rand_iid ν
  have hfit := box_fits hdt hpars
  have hpost := C185_posterior (Y := fun k (ω : ℕ → Outcome 3) => ω k) hfit hn (by simp [subSt]) rfl
    (hfit.cauchy_steady hn (box_crit hpars h0 h1 h2)) isCompact_Icc (box_near h0 h1 h2) (box_finite hdt hpars h0 h1 h2)
    (fun x _ y _ he => hfit.cauchy_id (box_varying hpars) box_wavs hn he) hY hind hid hxK hu
    (H := fun k ω => colHeap (readingsN glassPl ω k)) (D := fun k ω => colData (readingsN glassPl ω k))
    (fun k ω => col_presents _) (fun _ _ => rfl) hproper (fun x => (hpr x).mp)
    (fun U hU => mass_of_nhds hn hproper (by
      filter_upwards [isOpen_interior.mem_nhds hx0] with x hx using (hpr x).mpr (interior_subset hx)) hU)
  refine ⟨ν, hν, hone, ?_⟩
  filter_upwards [hpost] with ω hω U hU hmU
  have hone' : U.indicator (1 : (Fin 3 → ℝ) → ℝ) x0 = 1 := Set.indicator_of_mem (mem_of_mem_nhds hU) _
  rw [← hone']
  refine hω (U.indicator 1) ?_ ?_
  · refine (hp.indicator hmU).congr (Eventually.of_forall fun x => ?_)
    by_cases hx : x ∈ U <;> simp [hx]
  · refine continuousAt_const (y := (1 : ℝ)) |>.congr ?_
    filter_upwards [hU] with x hx
    simp [hx]

end Box

end Verif.Obj
