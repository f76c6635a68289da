import Verif.Obj.PropsSmallErrors

/-! # C183: what exact data determine, noisy data find -/

namespace Verif.Obj
open Verif.Struct Verif.TMM Verif.RModel Verif.Data Filter Topology MeasureTheory ProbabilityTheory

/-- Spec: exact data at these places determine the parameters `x0` among those in `K`: if chi-squared of some data is 0 at
`x0`, it is 0 nowhere else. -/
def Determined {m n : ℕ} (env : Env) (o : Objective) (st : St) (pl : Fin m → ℝ × ℝ) (K : Set (Fin n → ℝ))
    (x0 : Fin n → ℝ) : Prop :=
  ∀ (H : Data.Heap) (D : DS) (pts : List Pt), Presents H D pts → pts.map (fun p => (p.1, p.2.1)) = List.ofFn pl →
    (chisqr env { o with data := D } (some (List.ofFn x0)) { st with heap := H }).1 = .ok (some 0) →
    ∀ x ∈ K, (chisqr env { o with data := D } (some (List.ofFn x)) { st with heap := H }).1 = .ok (some 0) → x = x0

section
variable {env : Env} {o : Objective} {st : St} {m n : ℕ} {pl : Fin m → ℝ × ℝ} {K : Set (Fin n → ℝ)}
  {c : Outcome m → (Fin n → ℝ) → ℝ} {M : MObj} {s : Structure} {cs : List Comp} {c0 : (Fin n → ℝ) → ℝ} {y0 : Outcome m}

/-- Where chi-squared has a value, so have psi and delta. -/
theorem chiOf_cells (hn : n = (varying env o st).length) (hc : ChiOf env o st pl K c) :
    ∃ ψ Δ : (Fin n → ℝ) → Fin m → ℝ, ∀ x ∈ K, Values env o (setp env o (some (List.ofFn x)) st).2 (readings pl zeros)
      (cellsOf (List.ofFn fun i => (ψ x i, Δ x i))) := by
  have hex : ∀ x : Fin n → ℝ, ∃ v : Fin m → ℝ × ℝ, x ∈ K →
      Values env o (setp env o (some (List.ofFn x)) st).2 (readings pl zeros) (cellsOf (List.ofFn v)) := by
    intro x
    by_cases hx : x ∈ K
    · have h := hc zeros x hx _ _ (col_presents _)
      rw [chisqr_set (o := { o with data := colData (readings pl zeros) }) (by rw [List.length_ofFn]; exact hn),
        setp_other hn] at h
      obtain ⟨ms, hv, -⟩ := (chisqr_iff (env := env) (o := { o with data := colData (readings pl zeros) })
        (st := { (setp env o (some (List.ofFn x)) st).2 with heap := colHeap (readings pl zeros) }) (col_presents _)).mp h
      have hl : m = ms.length := by
        have := hv.length_eq
        simpa [readings, cellsOf] using this
      subst hl
      exact ⟨ms.get, fun _ => by rw [List.ofFn_get]; exact hv⟩
    · exact ⟨fun _ => (0, 0), fun h => absurd h hx⟩
  choose v hv using hex
  exact ⟨fun x i => (v x i).1, fun x i => (v x i).2, hv⟩

theorem cells_range (hdt : env.dt = .float) {v : Fin m → ℝ × ℝ} {st : St} (h0 : st.vals (st.models o.model).rm.off = 0)
    (hv : Values env o st (readings pl zeros) (cellsOf (List.ofFn v))) (i : Fin m) : 0 ≤ (v i).2 ∧ (v i).2 ≤ 360 := by
  have h := (List.forall₂_iff_get.mp (values_iff.mp hv)).2 i (by simp [readings]) (by simp [cellsOf])
  rw [hdt] at h
  have := delta_range h (d := (v i).2) (by simp [cellsOf])
  rw [h0] at this
  simpa using this

/-- Chi-squared of any data at these places. -/
theorem chi_at (hn : n = (varying env o st).length) {ψ Δ : Fin m → ℝ} {x : Fin n → ℝ}
    (hv : Values env o (setp env o (some (List.ofFn x)) st).2 (readings pl zeros)
      (cellsOf (List.ofFn fun i => (ψ i, Δ i)))) {H : Data.Heap} {D : DS} {q : Fin m → ℝ × ℝ}
    (hD : Presents H D (List.ofFn fun i => ((pl i).1, (pl i).2, q i))) :
    (chisqr env { o with data := D } (some (List.ofFn x)) { st with heap := H }).1 =
      .ok (some (∑ i, ((ψ i - (q i).1) ^ 2 + circularDistance (Δ i) (q i).2 360 ^ 2))) := by
  rw [chisqr_set (o := { o with data := D }) (by rw [List.length_ofFn]; exact hn), setp_other hn,
    chisqr_iff (o := { o with data := D })
      (st := { (setp env o (some (List.ofFn x)) st).2 with heap := H }) hD]
  refine ⟨List.ofFn fun i => (ψ i, Δ i), ?_, ?_⟩
  · unfold Values at hv ⊢
    rw [readings_map] at hv
    rw [show (List.ofFn fun i => ((pl i).1, (pl i).2, q i)).map (fun p => (p.1, p.2.1)) = List.ofFn pl by
      simp [List.map_ofFn, Function.comp_def]]
    exact hv
  · rw [show (List.ofFn fun i => ((pl i).1, (pl i).2, q i)).zip (List.ofFn fun i => (ψ i, Δ i)) = List.ofFn fun i =>
      (((pl i).1, (pl i).2, q i), (ψ i, Δ i)) by apply List.ext_get <;> simp, List.map_ofFn, List.sum_ofFn]
    rfl

/-- Data with chi-squared 0 are those of the model, up to whole turns. -/
theorem zero_cells (hn : n = (varying env o st).length) {x : Fin n → ℝ} {H : Data.Heap} {D : DS} {q : Fin m → ℝ × ℝ}
    (hD : Presents H D (List.ofFn fun i => ((pl i).1, (pl i).2, q i)))
    (h : (chisqr env { o with data := D } (some (List.ofFn x)) { st with heap := H }).1 = .ok (some 0)) :
    ∃ v : Fin m → ℝ × ℝ, Values env o (setp env o (some (List.ofFn x)) st).2 (readings pl zeros) (cellsOf (List.ofFn v)) ∧
      ∀ i, (v i).1 = (q i).1 ∧ ∃ k : ℤ, (v i).2 = (q i).2 + 360 * k := by
  rw [chisqr_set (o := { o with data := D }) (by rw [List.length_ofFn]; exact hn), setp_other hn,
    chisqr_iff (o := { o with data := D })
      (st := { (setp env o (some (List.ofFn x)) st).2 with heap := H }) hD] at h
  obtain ⟨ms, hv, hsum⟩ := h
  have hl : m = ms.length := by
    have := hv.length_eq
    simpa [cellsOf] using this
  subst hl
  refine ⟨ms.get, ?_, fun i => ?_⟩
  · rw [List.ofFn_get]
    unfold Values at hv ⊢
    rw [readings_map]
    rw [show (List.ofFn fun i => ((pl i).1, (pl i).2, q i)).map (fun p => (p.1, p.2.1)) = List.ofFn pl by
      simp [List.map_ofFn, Function.comp_def]] at hv
    exact hv
  · rw [show (List.ofFn fun i => ((pl i).1, (pl i).2, q i)).zip ms = List.ofFn fun i =>
      (((pl i).1, (pl i).2, q i), ms.get i) by apply List.ext_get <;> simp, List.map_ofFn, List.sum_ofFn] at hsum
    have h5 := (Finset.sum_eq_zero_iff_of_nonneg (fun i _ => by simp only [Function.comp, sqTerm]; positivity)).mp
      hsum.symm i (Finset.mem_univ i)
    simp only [Function.comp, sqTerm] at h5
    obtain ⟨e1, e2⟩ := (add_eq_zero_iff_of_nonneg (sq_nonneg _) (sq_nonneg _)).mp h5
    exact ⟨by linarith [pow_eq_zero_iff two_ne_zero |>.mp e1], circular_zero (pow_eq_zero_iff two_ne_zero |>.mp e2)⟩

theorem same_turn {a b : ℝ} (ha : 0 ≤ a ∧ a ≤ 360) (hb : 0 ≤ b ∧ b ≤ 360) {k : ℤ} (h : a = b + 360 * k) {y : ℝ}
    (hy : 0 ≤ y ∧ y ≤ 360) : circularDistance a y 360 = circularDistance b y 360 := by
  obtain ⟨w, j, hw, hj⟩ := half_turn (b - y)
  rw [circular_turns (w := w) (k := j) (by linarith) hj (abs_le.mpr ⟨by linarith, by linarith⟩),
    circular_turns (w := w) (k := j + k) (by linarith) (by rw [h]; push_cast; linarith)
      (abs_le.mpr ⟨by linarith, by linarith⟩)]

variable {Ω : Type*} [MeasurableSpace Ω] {P : Measure Ω} [IsProbabilityMeasure P] {Y : ℕ → Ω → Outcome m}

/-- The truth is the only minimum of the mean of chi-squared. -/
theorem Determined.minimum (hn : n = (varying env o st).length) (hdt : env.dt = .float)
    (hoff : ∀ x ∈ K, valsAt env o st (List.ofFn x) (st.models o.model).rm.off = 0) (hc : ChiOf env o st pl K c)
    (hY : Measurable (Y 0)) {x0 : Fin n → ℝ} (hx0 : x0 ∈ K) (hd : Determined env o st pl K x0)
    (hu : SmallErrors env o st P pl (Y 0) x0) :
    ∀ x ∈ K, x ≠ x0 → ∫ ω, c (Y 0 ω) x0 ∂P < ∫ ω, c (Y 0 ω) x ∂P := by
  obtain ⟨ψ, Δ, hv⟩ := chiOf_cells hn hc
  have hr : ∀ x ∈ K, ∀ i, 0 ≤ Δ x i ∧ Δ x i ≤ 360 := fun x hx i =>
    cells_range (v := fun i => (ψ x i, Δ x i)) hdt (by rw [setp_valsAt hn]; exact hoff x hx) (hv x hx) i
  refine C182_truth hn hc hY hv hr hx0 hu fun x hx hne => ?_
  by_contra hcon
  push Not at hcon
  have hz : ∀ x ∈ K, (∀ i, ψ x i = ψ x0 i ∧ ∃ k : ℤ, Δ x i = Δ x0 i + 360 * k) →
      ∑ i, ((ψ x i - ψ x0 i) ^ 2 + circularDistance (Δ x i) (Δ x0 i) 360 ^ 2) = 0 := by
    intro x hx h
    refine Finset.sum_eq_zero fun i _ => ?_
    obtain ⟨e1, k, e2⟩ := h i
    rw [e1, same_turn (hr x hx i) (hr x0 hx0 i) e2 (hr x0 hx0 i)]
    simp [circularDistance]
  refine hne (hd _ _ (List.ofFn fun i => ((pl i).1, (pl i).2, ψ x0 i, Δ x0 i)) (col_presents _)
    (by simp [List.map_ofFn, Function.comp_def]) ?_ x hx ?_)
  · rw [chi_at (q := fun i => (ψ x0 i, Δ x0 i)) hn (hv x0 hx0) (col_presents _), hz x0 hx0 fun i => ⟨rfl, 0, by simp⟩]
  · rw [chi_at (q := fun i => (ψ x0 i, Δ x0 i)) hn (hv x hx) (col_presents _), hz x hx hcon]

/-- C183: any structure, film or substrate.  If exact data determine the parameters within a compact set along which the
model deforms continuously, then measurements with errors of delta below 90 degrees and without bias find them: almost
surely all best fits of the first `k` measurements approach the truth. -/
theorem C183_fit (hn : n = (varying env o st).length) (hdt : env.dt = .float)
    (hS : Searches env o (fun p => (setp env o (some (List.ofFn p)) st).2) (readings pl y0) M s cs K c0) (hK : IsCompact K)
    (hoff : (st.models o.model).rm.off ∉ varying env o st ∧ st.vals (st.models o.model).rm.off = 0)
    {x0 : Fin n → ℝ} (hx0 : x0 ∈ K) (hd : Determined env o st pl K x0)
    (hY : ∀ k, Measurable (Y k)) (hind : Pairwise fun i j => IndepFun (Y i) (Y j) P)
    (hdist : ∀ k, IdentDistrib (Y k) (Y 0) P P) (hu : SmallErrors env o st P pl (Y 0) x0)
    {H : ℕ → Ω → Data.Heap} {D : ℕ → Ω → DS}
    (hD : ∀ k ω, Presents (H k ω) (D k ω) (readingsN pl (fun k => Y k ω) k)) :
    ∀ᵐ ω ∂P, ∀ b : ℕ → Fin n → ℝ, (∀ k, b k ∈ K) →
      (∀ k, ∀ x ∈ K, ∀ u v : ℝ,
        (chisqr env { o with data := D k ω } (some (List.ofFn (b k))) { st with heap := H k ω }).1 = .ok (some u) →
        (chisqr env { o with data := D k ω } (some (List.ofFn x)) { st with heap := H k ω }).1 = .ok (some v) → u ≤ v) →
      Tendsto b atTop (𝓝 x0) := by
  obtain ⟨c, hc⟩ := Searches.chiOf hn hS
  have hz : ∀ p : Fin n → ℝ, valsAt env o st (List.ofFn p) (st.models o.model).rm.off = 0 := fun p =>
    (assign_not_mem _ _ _ hoff.1).trans hoff.2
  refine C177_fit hn hS hK (fun x hx => Eventually.of_forall fun p => ?_) hc hY hind hdist hx0
    (hd.minimum hn hdt (fun x _ => hz x) hc (hY 0) hx0 hu) hD
  have hM : M = st.models o.model := by
    have := (hS.deforms x hx).model p
    rw [setp_valsAt hn] at this
    exact this.symm
  rw [setp_valsAt hn, hM]
  simp only [hz]
  norm_num

/-- C183: and so does the posterior, for all proper priors within the set that do not exclude the truth. -/
theorem C183_posterior (hn : n = (varying env o st).length) (hdt : env.dt = .float) (hs : o.lnsigma = none)
    (hS : Searches env o (fun p => (setp env o (some (List.ofFn p)) st).2) (readings pl y0) M s cs K c0) (hK : IsCompact K)
    (hoff : (st.models o.model).rm.off ∉ varying env o st ∧ st.vals (st.models o.model).rm.off = 0)
    {x0 : Fin n → ℝ} (hx0 : x0 ∈ K) (hd : Determined env o st pl K x0)
    (hY : ∀ k, Measurable (Y k)) (hind : Pairwise fun i j => IndepFun (Y i) (Y j) P)
    (hdist : ∀ k, IdentDistrib (Y k) (Y 0) P P) (hu : SmallErrors env o st P pl (Y 0) x0)
    {H : ℕ → Ω → Data.Heap} {D : ℕ → Ω → DS}
    (hD : ∀ k ω, Presents (H k ω) (D k ω) (readingsN pl (fun k => Y k ω) k))
    (hw : ∀ k ω, (D k ω).weighted = o.data.weighted)
    (hprop : ∀ q ∈ varying env o st, Integrable (priorDensity env q)) (hsupp : ∀ x : Fin n → ℝ, prior env o st x ≠ 0 → x ∈ K)
    (hmass : ∀ U ∈ 𝓝 x0, 0 < ∫ x in U, prior env o st x) :
    ∀ᵐ ω ∂P, ∀ g : (Fin n → ℝ) → ℝ, Integrable (fun x => g x * prior env o st x) → ContinuousAt g x0 →
      Tendsto (fun k => (∫ x, g x * densityN env o st (fun k => H k ω) (fun k => D k ω) k x) /
        ∫ x : Fin n → ℝ, densityN env o st (fun k => H k ω) (fun k => D k ω) k x) atTop (𝓝 (g x0)) := by
  obtain ⟨c, hc⟩ := Searches.chiOf hn hS
  have hz : ∀ p : Fin n → ℝ, valsAt env o st (List.ofFn p) (st.models o.model).rm.off = 0 := fun p =>
    (assign_not_mem _ _ _ hoff.1).trans hoff.2
  refine C177_posterior hn hs hS hK (fun x hx => Eventually.of_forall fun p => ?_) hc hY hind hdist hx0
    (hd.minimum hn hdt (fun x _ => hz x) hc (hY 0) hx0 hu) hD hw hprop hsupp hmass
  have hM : M = st.models o.model := by
    have := (hS.deforms x hx).model p
    rw [setp_valsAt hn] at this
    exact this.symm
  rw [setp_valsAt hn, hM]
  simp only [hz]
  norm_num

/-- C183: conversely, what exact data do not determine no data find.  If chi-squared of exact data is 0 at `x1` too, then it
is the same at both for all data with deltas from 0 to 360, however many. -/
theorem C183_converse (hn : n = (varying env o st).length) (hdt : env.dt = .float)
    (hoff : (st.models o.model).rm.off ∉ varying env o st ∧ st.vals (st.models o.model).rm.off = 0)
    {x0 x1 : Fin n → ℝ} {H : Data.Heap} {D : DS} {q : Fin m → ℝ × ℝ}
    (hD : Presents H D (List.ofFn fun i => ((pl i).1, (pl i).2, q i)))
    (h0 : (chisqr env { o with data := D } (some (List.ofFn x0)) { st with heap := H }).1 = .ok (some 0))
    (h1 : (chisqr env { o with data := D } (some (List.ofFn x1)) { st with heap := H }).1 = .ok (some 0))
    {H' : Data.Heap} {D' : DS} {y : ℕ → Outcome m} {k : ℕ} (hD' : Presents H' D' (readingsN pl y k)) :
    (chisqr env { o with data := D' } (some (List.ofFn x0)) { st with heap := H' }).1 =
      (chisqr env { o with data := D' } (some (List.ofFn x1)) { st with heap := H' }).1 := by
  obtain ⟨v0, hv0, e0⟩ := zero_cells hn hD h0
  obtain ⟨v1, hv1, e1⟩ := zero_cells hn hD h1
  have hz : ∀ p : Fin n → ℝ, (setp env o (some (List.ofFn p)) st).2.vals
      ((setp env o (some (List.ofFn p)) st).2.models o.model).rm.off = 0 := fun p => by
    rw [setp_valsAt hn]
    exact (assign_not_mem _ _ _ hoff.1).trans hoff.2
  have r0 := cells_range hdt (hz x0) hv0
  have r1 := cells_range hdt (hz x1) hv1
  have hc : ∀ (x : Fin n → ℝ) (v : Fin m → ℝ × ℝ),
      Values env o (setp env o (some (List.ofFn x)) st).2 (readings pl zeros) (cellsOf (List.ofFn v)) →
      ChiOf env o st pl {x} fun y _ => ∑ i, (((v i).1 - (y i).1) ^ 2 + circularDistance (v i).2 (y i).2 360 ^ 2) := by
    intro x v hv y x' hx' H D hD
    rw [Set.mem_singleton_iff] at hx'
    subst hx'
    exact chi_at (q := fun i => (((y i).1 : ℝ), ((y i).2 : ℝ))) hn hv hD
  rw [chisqr_readingsN hn (hc x0 v0 hv0) y hD' rfl, chisqr_readingsN hn (hc x1 v1 hv1) y hD' rfl]
  congr 2
  refine Finset.sum_congr rfl fun k _ => Finset.sum_congr rfl fun i _ => ?_
  obtain ⟨a1, j, a2⟩ := e0 i
  obtain ⟨b1, l, b2⟩ := e1 i
  rw [a1, b1, same_turn (r0 i) (r1 i) (k := j - l) (by rw [a2, b2]; push_cast; ring) (y k i).2.2]

end

/-! ### The thickness of a film -/

section
variable {env : Env} {o : Objective} {st : St} {t : PId} {cs : List Comp} {n₀ n : ℝ → ℝ} {nb : ℝ → ℂ} {m : ℕ}
  {pl : Fin m → ℝ × ℝ} {pts pts' : List Pt}

theorem FitsFilm.other (h : FitsFilm env o st t cs n₀ n nb pts)
    (hpl : pts'.map (fun p => (p.1, p.2.1)) = pts.map (fun p => (p.1, p.2.1))) {H : Data.Heap} {D : DS}
    (hD : Presents H D pts') :
    FitsFilm env { o with data := D } { st with heap := H } t cs n₀ n nb pts' := by
  have hsame : ∀ pt ∈ pts', ∃ pt' ∈ pts, pt'.1 = pt.1 ∧ pt'.2.1 = pt.2.1 := by
    intro pt hpt
    have : (pt.1, pt.2.1) ∈ pts.map (fun p => (p.1, p.2.1)) := hpl ▸ List.mem_map_of_mem hpt
    obtain ⟨pt', h1, h2⟩ := List.mem_map.mp this
    simp only [Prod.mk.injEq] at h2
    exact ⟨pt', h1, h2⟩
  refine ⟨hD, h.float, h.one, h.off_ne, h.plain, fun d hd pt hpt => ?_, fun pt hpt => ?_⟩
  · obtain ⟨pt', h1, h2, -⟩ := hsame pt hpt
    rw [← h2]
    exact h.sees d hd pt' h1
  · obtain ⟨pt', h1, h2, h3⟩ := hsame pt hpt
    have := h.sound pt' h1
    unfold shotOf at this ⊢
    rw [h2, h3] at this
    exact ⟨this.front, this.film, this.ne_front, this.back, this.ne_back, this.angle, this.oblique, this.wav_pos, this.below⟩

theorem FitsFilm.set (h : FitsFilm env o st t cs n₀ n nb pts) (x : Fin 1 → ℝ) :
    (setp env o (some (List.ofFn x)) st).2 = { st with vals := Function.update st.vals t (x 0) } := by
  rw [show List.ofFn x = [x 0] by simp, setp, if_pos (by rw [h.one]; rfl), h.one]
  rfl

/-- A positive thickness deforms the model. -/
theorem FitsFilm.deforms_set (h : FitsFilm env o st t cs n₀ n nb pts) {x : Fin 1 → ℝ} (hx : 0 < x 0) :
    Deforms env o (fun p : Fin 1 → ℝ => (setp env o (some (List.ofFn p)) st).2) pts (st.models o.model)
      (st.structs (st.models o.model).str) cs x := by
  simp only [h.set]
  refine ⟨h.float, fun _ => rfl, fun _ => rfl, h.plain, ?_, fun _ => h.data, fun pt hpt => ?_⟩
  · simp only [Function.update_of_ne h.off_ne]
    exact continuousAt_const
  · have hs := h.sound pt hpt
    have hcont : Continuous fun p : Fin 1 → ℝ => |p 0 / 10| := continuous_abs.comp ((continuous_apply 0).div_const 10)
    refine ⟨fun _ => n₀ pt.1, [(fun _ => (n pt.1 : ℂ), fun p => |p 0 / 10|)], fun _ => nb pt.1,
      ⟨continuousAt_const, continuousAt_const, continuousAt_const, ?_, continuousAt_const, ?_, ?_, ?_⟩, ?_⟩
    · intro f hf
      rw [List.mem_singleton] at hf
      subst hf
      exact ⟨continuousAt_const, hcont.continuousAt⟩
    · exact Eventually.of_forall fun d => physical_film hs.front hs.film hs.back (rad_lt hs.angle) hs.wav_pos hs.below
        (abs_nonneg _)
    · intro f hf
      rw [List.mem_singleton] at hf
      subst hf
      exact .inl (.inr (.inr (.inl (Eventually.of_forall fun _ => ⟨rfl, rfl⟩))))
    · exact .inl (.inr (.inr (.inl (Eventually.of_forall fun _ => ⟨rfl, rfl⟩))))
    · filter_upwards [(continuous_apply (0 : Fin 1)).continuousAt.eventually (Ioi_mem_nhds hx)] with p hp
      have hp' : (0 : ℝ) < p 0 := hp
      have := h.sees |p 0 / 10| (abs_nonneg _) pt hpt
      rw [abs_of_pos (by positivity), mul_div_cancel₀ _ (by norm_num : (10 : ℝ) ≠ 0)] at this
      simp only [stackAt, List.map_cons, List.map_nil]
      rw [abs_of_pos (by positivity)]
      exact this

/-- Where chi-squared has a value, so have psi and delta, and these are within their ranges. -/
theorem film_cells (h : FitsFilm env o st t cs n₀ n nb pts) (hpl : pts.map (fun p => (p.1, p.2.1)) = List.ofFn pl)
    (hoff : st.vals (st.models o.model).rm.off = 0) {d0 u0 : ℝ}
    (hval : (chisqr env o (some [10 * d0]) st).1 = .ok (some u0)) :
    ∃ q : Fin m → ℝ × ℝ, Values env o (setp env o (some (List.ofFn fun _ : Fin 1 => 10 * d0)) st).2 (readings pl zeros)
      (cellsOf (List.ofFn q)) ∧ ∀ i, (0 ≤ (q i).1 ∧ (q i).1 ≤ 90) ∧ 0 ≤ (q i).2 ∧ (q i).2 ≤ 360 := by
  obtain ⟨q, hq⟩ : ∃ q : Fin m → ℝ × ℝ, Values env o (setp env o (some (List.ofFn fun _ : Fin 1 => 10 * d0)) st).2
      (readings pl zeros) (cellsOf (List.ofFn q)) := by
    rw [chisqr_one h.one, chisqr_iff (o := o) (st := { st with vals := Function.update st.vals t (10 * d0) }) h.data]
      at hval
    obtain ⟨ms, hv, -⟩ := hval
    have hl : m = ms.length := by
      have h1 := hv.length_eq
      have h2 := congrArg List.length hpl
      simp only [List.length_map, List.length_ofFn] at h2
      rw [cellsOf, List.length_map] at h1
      omega
    subst hl
    refine ⟨ms.get, ?_⟩
    rw [List.ofFn_get, h.set]
    unfold Values at hv ⊢
    rw [readings_map]
    rw [hpl] at hv
    exact hv
  have hn : 1 = (varying env o st).length := by rw [h.one]; rfl
  refine ⟨q, hq, fun i => ⟨?_, cells_range h.float ?_ hq i⟩⟩
  · have := (List.forall₂_iff_get.mp (values_iff.mp hq)).2 i (by simp [readings]) (by simp [cellsOf])
    rw [h.float] at this
    exact psi_range this (d := (q i).1) (by simp [cellsOf])
  · rw [setp_valsAt hn]
    exact (assign_not_mem _ _ _ (by rw [h.one]; simpa using h.off_ne)).trans hoff

/-- Points at whole periods from finitely many are isolated. -/
theorem isolated {L : ℝ} (hL : 0 < L) (d0 : ℝ) (ds : List ℝ) :
    ∃ η, 0 < η ∧ ∀ d' ∈ ds, ∀ k : ℤ, |d' + k * L - d0| ≤ η → d' + k * L = d0 := by
  induction ds with
  | nil => exact ⟨1, one_pos, by simp⟩
  | cons e ds ih =>
    obtain ⟨η, h1, h2⟩ := ih
    set j : ℤ := round ((d0 - e) / L) with hj
    have hr : |e + j * L - d0| ≤ L / 2 := by
      have := abs_sub_round ((d0 - e) / L)
      rw [← hj] at this
      rw [show e + j * L - d0 = -(L * ((d0 - e) / L - j)) by field_simp; ring, abs_neg, abs_mul, abs_of_pos hL]
      nlinarith
    have one : ∃ ε, 0 < ε ∧ ∀ k : ℤ, |e + k * L - d0| ≤ ε → e + k * L = d0 := by
      have far : ∀ k : ℤ, k ≠ j → L / 2 ≤ |e + k * L - d0| := by
        intro k hk
        have h3 : (1 : ℝ) ≤ |((k - j : ℤ) : ℝ)| := by
          rw [← Int.cast_abs]
          exact_mod_cast Int.one_le_abs (sub_ne_zero.mpr hk)
        have h4 : |((k - j : ℤ) : ℝ) * L| = |((k - j : ℤ) : ℝ)| * L := by rw [abs_mul, abs_of_pos hL]
        have h5 : ((k - j : ℤ) : ℝ) * L = (e + k * L - d0) - (e + j * L - d0) := by push_cast; ring
        have h6 := abs_sub (e + k * L - d0) (e + j * L - d0)
        rw [← h5, h4] at h6
        nlinarith
      by_cases he : e + j * L = d0
      · refine ⟨L / 4, by positivity, fun k hk => ?_⟩
        by_cases hkj : k = j
        · rw [hkj]; exact he
        · linarith [far k hkj]
      · have hpos := abs_pos.mpr (sub_ne_zero.mpr he)
        refine ⟨min (L / 4) (|e + j * L - d0| / 2), lt_min (by positivity) (by positivity), fun k hk => ?_⟩
        by_cases hkj : k = j
        · rw [hkj] at hk
          linarith [hk.trans (min_le_right _ _)]
        · linarith [far k hkj, hk.trans (min_le_left _ _)]
    obtain ⟨ε, h3, h4⟩ := one
    refine ⟨min ε η, lt_min h3 h1, fun d' hd k hk => ?_⟩
    rcases List.mem_cons.mp hd with rfl | hd
    · exact h4 k (hk.trans (min_le_left _ _))
    · exact h2 d' hd k (hk.trans (min_le_right _ _))

/-- C183: the thickness of a film between two media.  If psi and delta have values for the true thickness, then within some
distance of it measurements with errors of delta below 90 degrees and without bias find it: almost surely all best fits
approach it.  Further away there may be thicknesses with the same psi and delta (`C166_periodic`). -/
theorem C183_film (h : FitsFilm env o st t cs n₀ n nb pts) (hpl : pts.map (fun p => (p.1, p.2.1)) = List.ofFn pl)
    (hm : 0 < m) (hoff : st.vals (st.models o.model).rm.off = 0) {d0 u0 : ℝ} (hd0 : 0 < d0)
    (hval : (chisqr env o (some [10 * d0]) st).1 = .ok (some u0)) {Ω : Type*} [MeasurableSpace Ω] :
    ∃ η, 0 < η ∧ ∀ (P : Measure Ω) [IsProbabilityMeasure P] (Y : ℕ → Ω → Outcome m), (∀ k, Measurable (Y k)) →
      (Pairwise fun i j => IndepFun (Y i) (Y j) P) → (∀ k, IdentDistrib (Y k) (Y 0) P P) →
      SmallErrors env o st P pl (Y 0) (fun _ : Fin 1 => 10 * d0) → ∀ (H : ℕ → Ω → Data.Heap) (D : ℕ → Ω → DS),
      (∀ k ω, Presents (H k ω) (D k ω) (readingsN pl (fun k => Y k ω) k)) →
      ∀ᵐ ω ∂P, ∀ b : ℕ → ℝ, (∀ k, |b k - d0| ≤ η) →
        (∀ k, ∀ d, |d - d0| ≤ η → ∀ u v : ℝ,
          (chisqr env { o with data := D k ω } (some [10 * b k]) { st with heap := H k ω }).1 = .ok (some u) →
          (chisqr env { o with data := D k ω } (some [10 * d]) { st with heap := H k ω }).1 = .ok (some v) → u ≤ v) →
        Tendsto b atTop (𝓝 d0) := by
  have hn : 1 = (varying env o st).length := by rw [h.one]; rfl
  have hoff' : (st.models o.model).rm.off ∉ varying env o st ∧ st.vals (st.models o.model).rm.off = 0 := by
    rw [h.one]
    exact ⟨by simpa using h.off_ne, hoff⟩
  set x0 : Fin 1 → ℝ := fun _ => 10 * d0 with hx0
  have hlist : ∀ d : ℝ, List.ofFn (fun _ : Fin 1 => 10 * d) = [10 * d] := fun d => by simp
  have hx00 : 0 < x0 0 := by simp only [hx0]; positivity
  obtain ⟨q, hq, hqr⟩ := film_cells h hpl hoff hval
  have hz0 : ∀ p : Fin 1 → ℝ, (setp env o (some (List.ofFn p)) st).2.vals
      ((setp env o (some (List.ofFn p)) st).2.models o.model).rm.off = 0 := fun p => by
    rw [setp_valsAt hn]
    exact (assign_not_mem _ _ _ hoff'.1).trans hoff'.2
  have r0 := fun i => (hqr i).2
  -- exact data
  set ptsq : List Pt := List.ofFn fun i => ((pl i).1, (pl i).2, q i) with hptsq
  have hplq : ptsq.map (fun p => (p.1, p.2.1)) = pts.map (fun p => (p.1, p.2.1)) := by
    rw [hpl, hptsq]
    simp [List.map_ofFn, Function.comp_def]
  have hq' := h.other hplq (col_presents ptsq)
  obtain ⟨ds, -, hds⟩ := C166_finitely_many hq'
  let i0 : Fin m := ⟨0, hm⟩
  have hmem : ((pl i0).1, (pl i0).2, q i0) ∈ ptsq := (List.mem_ofFn' _ _).mpr ⟨i0, rfl⟩
  have hL := (hq'.sound _ hmem).period_pos
  obtain ⟨η1, hη1, hiso⟩ := isolated hL d0 ds
  -- values near the true thickness
  have hplz : (readings pl (zeros : Outcome m)).map (fun p => (p.1, p.2.1)) = pts.map (fun p => (p.1, p.2.1)) := by
    rw [hpl, readings_map]
  have hz := h.other hplz (col_presents (readings pl (zeros : Outcome m)))
  set oz : Objective := { o with data := colData (readings pl (zeros : Outcome m)) } with hoz
  set sz : St := { st with heap := colHeap (readings pl (zeros : Outcome m)) } with hsz
  have hrange : ∀ p : Fin 1 → ℝ, ∀ pt ∈ readings pl (zeros : Outcome m),
      (setp env oz (some (List.ofFn p)) sz).2.vals (st.models o.model).rm.off - 180 ≤ pt.2.2.2 ∧
      pt.2.2.2 ≤ (setp env oz (some (List.ofFn p)) sz).2.vals (st.models o.model).rm.off + 540 := by
    intro p pt hpt
    obtain ⟨i, rfl⟩ := (List.mem_ofFn' _ _).mp hpt
    rw [hz.set]
    simp only [hsz, Function.update_of_ne h.off_ne, hoff, zeros]
    norm_num
  have hfin : ∃ w, (chisqr env oz none (setp env oz (some (List.ofFn x0)) sz).2).1 = .ok (some w) := by
    have := chi_at (ψ := fun i => (q i).1) (Δ := fun i => (q i).2) (q := fun _ => (0, 0)) hn hq
      (H := colHeap (readings pl (zeros : Outcome m))) (D := colData (readings pl (zeros : Outcome m))) (col_presents _)
    rw [chisqr_set (o := { o with data := colData (readings pl (zeros : Outcome m)) }) (by rw [List.length_ofFn]; exact hn)]
      at this
    exact ⟨_, this⟩
  obtain ⟨w, hw⟩ := hfin
  obtain ⟨C, hC, -, -⟩ := C121_chisqr_partial (hz.deforms_set hx00) (Eventually.of_forall hrange) hw
  obtain ⟨η2, hη2, hball⟩ := Metric.eventually_nhds_iff.mp hC
  set η := min η1 (min (η2 / 20) (d0 / 2)) with hη
  have hη0 : 0 < η := lt_min hη1 (lt_min (by positivity) (by positivity))
  have hηa : η ≤ η1 := min_le_left _ _
  have hηb : η ≤ η2 / 20 := (min_le_right _ _).trans (min_le_left _ _)
  have hηc : η ≤ d0 / 2 := (min_le_right _ _).trans (min_le_right _ _)
  set K : Set (Fin 1 → ℝ) := Set.Icc (fun _ => 10 * (d0 - η)) (fun _ => 10 * (d0 + η)) with hK
  have memK : ∀ x : Fin 1 → ℝ, x ∈ K ↔ |x 0 / 10 - d0| ≤ η := by
    intro x
    rw [hK, Set.mem_Icc, Pi.le_def, Pi.le_def, abs_le]
    simp only [Fin.forall_fin_one]
    constructor <;> rintro ⟨a, b⟩ <;> constructor <;> linarith
  have posK : ∀ x ∈ K, 0 < x 0 := fun x hx => by
    have := (abs_le.mp ((memK x).mp hx)).1
    linarith
  have hx0K : x0 ∈ K := (memK x0).mpr (by simp [hx0, hη0.le])
  have hS : Searches env oz (fun p : Fin 1 → ℝ => (setp env oz (some (List.ofFn p)) sz).2) (readings pl (zeros : Outcome m))
      (st.models o.model) (st.structs (st.models o.model).str) cs K C := by
    refine ⟨fun x hx => hz.deforms_set (posK x hx), fun x _ => Eventually.of_forall hrange, fun x hx => hball ?_⟩
    have h1 := (memK x).mp hx
    rw [dist_pi_lt_iff hη2]
    intro i
    rw [Subsingleton.elim i 0, Real.dist_eq, hx0]
    have h2 : |x 0 - 10 * d0| = 10 * |x 0 / 10 - d0| := by
      rw [← abs_of_pos (by norm_num : (0 : ℝ) < 10), ← abs_mul, abs_of_pos (by norm_num : (0 : ℝ) < 10)]
      congr 1
      ring
    rw [h2]
    linarith
  have hdet : Determined env o st pl K x0 := by
    intro H D pts' hD hp' h0 x hx h1
    obtain ⟨q', rfl⟩ : ∃ q' : Fin m → ℝ × ℝ, pts' = List.ofFn fun i => ((pl i).1, (pl i).2, q' i) := by
      have hl : m = pts'.length := by
        have := congrArg List.length hp'
        simpa using this.symm
      subst hl
      refine ⟨fun i => (pts'.get i).2.2, ?_⟩
      conv_lhs => rw [← List.ofFn_get pts']
      congr 1
      funext i
      have := congrArg (fun l : List (ℝ × ℝ) => l[(i : ℕ)]?) hp'
      simp only [List.getElem?_map, List.getElem?_ofFn, i.2, List.getElem?_eq_getElem, Option.map_some, dite_true,
        Option.some.injEq] at this
      rw [← this]
      rfl
    obtain ⟨v0, hv0, e0⟩ := zero_cells (o := o) (st := st) hn hD h0
    obtain ⟨v1, hv1, e1⟩ := zero_cells (o := o) (st := st) hn hD h1
    have hv0q : v0 = q := by
      have h4 : cellsOf (List.ofFn v0) = cellsOf (List.ofFn q) := by
        have := hv0.symm.trans hq
        simpa using this
      refine List.ofFn_injective (List.map_injective_iff.mpr (fun a b hab => ?_) h4)
      simpa [Prod.ext_iff] using hab
    subst hv0q
    have r1 := cells_range h.float (hz0 x) hv1
    have hchi := chi_at (ψ := fun i => (v1 i).1) (Δ := fun i => (v1 i).2) (q := v0) hn hv1 (col_presents ptsq)
    rw [Finset.sum_eq_zero (fun i _ => by
      obtain ⟨a1, j, a2⟩ := e0 i
      obtain ⟨b1, l, b2⟩ := e1 i
      rw [a1, b1, same_turn (r1 i) (r0 i) (k := l - j) (by rw [a2, b2]; push_cast; ring) (r0 i)]
      simp [circularDistance])] at hchi
    have hxl : List.ofFn x = [10 * (x 0 / 10)] := by
      rw [mul_div_cancel₀ _ (by norm_num : (10 : ℝ) ≠ 0)]
      simp
    rw [hxl] at hchi
    obtain ⟨d', hd', hk⟩ := hds (x 0 / 10) (by have := posK x hx; positivity) hchi
    obtain ⟨k, hk⟩ := hk _ hmem
    have h5 := (memK x).mp hx
    rw [hk] at h5
    have h6 := hiso d' hd' k (h5.trans hηa)
    funext i
    rw [Subsingleton.elim i 0, hx0]
    change x 0 = 10 * d0
    linarith [hk.trans h6]
  refine ⟨η, hη0, fun P _ Y hY hind hdist hu H D hD => ?_⟩
  have hu' : SmallErrors env oz sz P pl (Y 0) x0 := by
    obtain ⟨v, U, hv, hU⟩ := hu
    refine ⟨v, U, ?_, hU⟩
    rw [setp_other hn]
    unfold Values at hv ⊢
    exact hv
  filter_upwards [C183_fit (o := oz) (st := sz) hn h.float hS isCompact_Icc hoff' hx0K hdet hY hind hdist hu' hD]
    with ω hω b hb hfit
  have := hω (fun k _ => 10 * b k) (fun k => (memK _).mpr (by simpa using hb k)) (fun k x hx u v h1 h2 => by
    have h1' := (memK x).mp hx
    have hxl : List.ofFn x = [10 * (x 0 / 10)] := by
      rw [mul_div_cancel₀ _ (by norm_num : (10 : ℝ) ≠ 0)]
      simp
    rw [hxl] at h2
    rw [hlist] at h1
    exact hfit k (x 0 / 10) h1' u v h1 h2)
  have h3 := (tendsto_pi_nhds.mp this 0).div_const 10
  simpa [hx0] using h3

end

/-- Non-vacuity of `C183_film`, and so of `C183_fit`: the film of 1250 Angstrom measured at two wavelengths.  Near that
thickness, errors of 80 degrees do not mislead the fits. -/
example (env : Env) (hdt : env.dt = .float) (hpars : 4 ∈ env.pars filmStruct.data none) :
    ∃ (st : St) (pl : Fin 2 → ℝ × ℝ) (ν : Measure (Outcome 2)) (η : ℝ), IsProbabilityMeasure ν ∧ (∀ y, ν {y} ≠ 1) ∧ 0 < η ∧
    ∀ᵐ ω ∂(Measure.infinitePi fun _ : ℕ => ν), ∀ b : ℕ → ℝ, (∀ k, |b k - 125| ≤ η) →
      (∀ k, ∀ d, |d - 125| ≤ η → ∀ u v : ℝ,
        (chisqr env { twoObj with data := colData (readingsN pl ω k) } (some [10 * b k])
          { st with heap := colHeap (readingsN pl ω k) }).1 = .ok (some u) →
        (chisqr env { twoObj with data := colData (readingsN pl ω k) } (some [10 * d])
          { st with heap := colHeap (readingsN pl ω k) }).1 = .ok (some v) → u ≤ v) →
      Tendsto b atTop (𝓝 125) := by
  obtain ⟨ψ, Δ, ψ', Δ', h, -, -, h0⟩ := two_fits env hdt hpars (lam := 640) (by norm_num)
  have hpl : [(480, filmAoi, ψ, Δ), (640, filmAoi, ψ', Δ')].map (fun p : Pt => (p.1, p.2.1)) =
      List.ofFn ![((480 : ℝ), filmAoi), (640, filmAoi)] := by simp
  obtain ⟨η, hη, hfilm⟩ := C183_film (Ω := ℕ → Outcome 2) h hpl (by norm_num) rfl (d0 := 125) (by norm_num) h0
  obtain ⟨q, hq, hb⟩ := film_cells h hpl rfl h0
  obtain ⟨ν, hν, ⟨v, U, hv, hU⟩, hone⟩ := errors_of (ψ := fun i => (q i).1) (Δ := fun i => (q i).2) hq hb (e := 80)
    (by norm_num) (by norm_num)
  obtain ⟨hY, hind, hid, hlaw⟩ := rand_iid ν
  refine ⟨_, _, ν, η, hν, hone 0, hη, hfilm (Measure.infinitePi fun _ : ℕ => ν) (fun k (ω : ℕ → Outcome 2) => ω k) hY hind hid
    ⟨v, fun i ω => U i (ω 0), hv, fun i => ⟨(hU i).1.comp (hY 0), ?_, ?_, ?_⟩⟩
    (fun k ω => colHeap (readingsN _ ω k)) (fun k ω => colData (readingsN _ ω k)) fun k ω => col_presents _⟩
  · rw [hlaw _ (hU i).1]
    exact (hU i).2.1
  · rw [hlaw (fun y => ((y i).1 : ℝ)) (by fun_prop)]
    exact (hU i).2.2.1
  · exact (measurePreserving_eval_infinitePi (fun _ : ℕ => ν) 0).quasiMeasurePreserving.ae (hU i).2.2.2

/-- Non-vacuity of `C183_converse`: with one wavelength twice the other no measurements, however many, distinguish the
thicknesses 1250 Angstrom and one period of the longer wavelength more. -/
example (env : Env) (hdt : env.dt = .float) (hpars : 4 ∈ env.pars filmStruct.data none) :
    ∃ (st : St) (pl : Fin 2 → ℝ × ℝ) (L : ℝ), 0 < L ∧ ∀ (y : ℕ → Outcome 2) (k : ℕ),
      (chisqr env { twoObj with data := colData (readingsN pl y k) } (some [10 * 125])
        { st with heap := colHeap (readingsN pl y k) }).1 =
      (chisqr env { twoObj with data := colData (readingsN pl y k) } (some [10 * (125 + L)])
        { st with heap := colHeap (readingsN pl y k) }).1 := by
  obtain ⟨ψ, Δ, ψ', Δ', h, r1, r2, h0⟩ := two_fits env hdt hpars (lam := 960) (by norm_num)
  have hs : 0 < period 1 (39 / 25) (rad filmAoi) 960 := (h.sound (960, filmAoi, ψ', Δ') (by simp)).period_pos
  have h1 : (chisqr env twoObj (some [10 * (125 + period 1 (39 / 25) (rad filmAoi) 960)]) (twoSt 960 ψ Δ ψ' Δ')).1 =
      .ok (some 0) := by
    have := ((C166_periodic h (L := period 1 (39 / 25) (rad filmAoi) 960) (d := 125) ?_ ?_ (by norm_num) 1
      (le_of_lt hs)).2).trans h0
    · simpa using this
    · have h7 : (twoSt 960 ψ Δ ψ' Δ').vals ((twoSt 960 ψ Δ ψ' Δ').models twoObj.model).rm.off = 0 := rfl
      rw [h7]
      simp [r1, r2]
    · intro pt hpt
      simp only [List.mem_cons, List.not_mem_nil, or_false] at hpt
      rcases hpt with rfl | rfl
      · exact ⟨2, by unfold period; push_cast; ring⟩
      · exact ⟨1, by push_cast; ring⟩
  refine ⟨twoSt 960 ψ Δ ψ' Δ', ![((480 : ℝ), filmAoi), (960, filmAoi)], _, hs, fun y k => ?_⟩
  have hl : ∀ d : ℝ, List.ofFn (fun _ : Fin 1 => 10 * d) = [10 * d] := fun d => by simp
  have := C183_converse (env := env) (o := twoObj) (st := twoSt 960 ψ Δ ψ' Δ') (n := 1)
    (pl := ![((480 : ℝ), filmAoi), (960, filmAoi)]) (x0 := fun _ => 10 * 125)
    (x1 := fun _ => 10 * (125 + period 1 (39 / 25) (rad filmAoi) 960)) (q := ![(ψ, Δ), (ψ', Δ')])
    (H := (twoSt 960 ψ Δ ψ' Δ').heap) (D := twoObj.data) (by rw [h.one]; rfl) hdt
    ⟨by rw [h.one]; simpa using h.off_ne, rfl⟩ (by simpa using h.data) (by rw [hl]; exact h0) (by rw [hl]; exact h1)
    (col_presents (readingsN _ y k))
  rw [hl, hl] at this
  exact this

end Verif.Obj
