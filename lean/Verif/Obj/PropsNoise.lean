import Verif.Obj.PropsBest
import Verif.Obj.PropsRoundFit

/-! # C168: a little noise in the data moves the fit a little -/

namespace Verif.Obj
open Verif.Struct Verif.TMM Verif.RModel Verif.Data Filter Topology

variable {env : Env} {o o' : Objective}

theorem circDist_comm (T a b : ℝ) : circDist T a b = circDist T b a := by
  unfold circDist
  rw [← (Equiv.neg ℤ).iInf_comp]
  refine iInf_congr fun k => ?_
  rw [← abs_neg]
  congr 1
  simp only [Equiv.neg_apply, Int.cast_neg]
  ring

theorem circDist_triangle (T a b b' : ℝ) : circDist T a b ≤ circDist T a b' + circDist T b b' := by
  have h : |circDist T b a - circDist T b' a| ≤ circDist T b b' :=
    le_ciInf fun k => circDist_lip T b' b a k
  rw [circDist_comm T a b, circDist_comm T a b']
  have := (abs_le.mp h).2
  linarith

/-- The square of the distance of two results (psi and delta in degrees; delta modulo whole turns). -/
noncomputable def gap (p q : Pt) : ℝ := (p.2.2.1 - q.2.2.1) ^ 2 + circDist 360 p.2.2.2 q.2.2.2 ^ 2

/-- The square of the distance of two sets of data: the sum of the squared differences of all psi and delta. -/
noncomputable def noise (pts pts' : List Pt) : ℝ := ((pts.zip pts').map fun q => gap q.1 q.2).sum

/-- The same wavelengths and angles of incidence, possibly with other results. -/
def SamePlaces : List Pt → List Pt → Prop := List.Forall₂ fun p q => p.1 = q.1 ∧ p.2.1 = q.2.1

/-- Two objectives with the same model and the same parameters. -/
structure SameModel (o : Objective) (st : St) (o' : Objective) (st' : St) : Prop where
  vals : st'.vals = st.vals
  model : st'.models o'.model = st.models o.model
  struct : st'.structs (st.models o.model).str = st.structs (st.models o.model).str

theorem gap_nonneg (p q : Pt) : 0 ≤ gap p q := by unfold gap; positivity

/-- Minkowski's inequality for two terms. -/
theorem sqrt_two {f g h F G H : ℝ} (hg : 0 ≤ g) (hh : 0 ≤ h) (hG : 0 ≤ G) (hH : 0 ≤ H)
    (h1 : Real.sqrt f ≤ Real.sqrt g + Real.sqrt h) (h2 : Real.sqrt F ≤ Real.sqrt G + Real.sqrt H) (hf : 0 ≤ f)
    (hF : 0 ≤ F) : Real.sqrt (f + F) ≤ Real.sqrt (g + G) + Real.sqrt (h + H) := by
  have key := norm_add_le (⟨Real.sqrt g, Real.sqrt G⟩ : ℂ) ⟨Real.sqrt h, Real.sqrt H⟩
  simp only [Complex.norm_def, Complex.normSq_apply, Complex.add_re, Complex.add_im, Real.mul_self_sqrt hg,
    Real.mul_self_sqrt hG, Real.mul_self_sqrt hh, Real.mul_self_sqrt hH] at key
  refine le_trans (Real.sqrt_le_sqrt ?_) key
  have e1 : f ≤ (Real.sqrt g + Real.sqrt h) * (Real.sqrt g + Real.sqrt h) := by
    rw [← Real.mul_self_sqrt hf]; gcongr
  have e2 : F ≤ (Real.sqrt G + Real.sqrt H) * (Real.sqrt G + Real.sqrt H) := by
    rw [← Real.mul_self_sqrt hF]; gcongr
  linarith

theorem sqTerm_nonneg (p : Pt) (m : ℝ × ℝ) : 0 ≤ sqTerm p m := by unfold sqTerm; positivity

theorem sum_sq_nonneg {α : Type*} {f : α → ℝ} (h : ∀ x, 0 ≤ f x) (l : List α) : 0 ≤ (l.map f).sum :=
  List.sum_nonneg (by simp only [List.mem_map]; rintro _ ⟨x, -, rfl⟩; exact h x)

theorem noise_nonneg (pts pts' : List Pt) : 0 ≤ noise pts pts' := sum_sq_nonneg (fun _ => gap_nonneg _ _) _

theorem noise_comm : ∀ pts pts' : List Pt, noise pts pts' = noise pts' pts
  | [], pts' => by simp [noise]
  | _ :: _, [] => by simp [noise]
  | p :: pts, q :: pts' => by
    have := noise_comm pts pts'
    simp only [noise, List.zip_cons_cons, List.map_cons, List.sum_cons] at this ⊢
    rw [this]
    congr 1
    unfold gap
    rw [circDist_comm 360 p.2.2.2]
    ring

/-- One point: the misfits of two results differ by at most their distance. -/
theorem sqTerm_sqrt {off : ℝ} {p q : Pt} {m : ℝ × ℝ} (hm : off ≤ m.2 ∧ m.2 ≤ off + 360)
    (hp : off - 180 ≤ p.2.2.2 ∧ p.2.2.2 ≤ off + 540) (hq : off - 180 ≤ q.2.2.2 ∧ q.2.2.2 ≤ off + 540) :
    Real.sqrt (sqTerm p m) ≤ Real.sqrt (sqTerm q m) + Real.sqrt (gap p q) := by
  have e : ∀ r : Pt, off - 180 ≤ r.2.2.2 ∧ r.2.2.2 ≤ off + 540 →
      sqTerm r m = (m.1 - r.2.2.1) ^ 2 + circDist 360 m.2 r.2.2.2 ^ 2 := fun r hr => by
    rw [sqTerm, ← C80_abs_partial (by rw [abs_le]; constructor <;> linarith), sq_abs]
  rw [e p hp, e q hq]
  refine sqrt_two (sq_nonneg _) (sq_nonneg _) (sq_nonneg _) (sq_nonneg _) ?_ ?_ (sq_nonneg _) (sq_nonneg _)
  · simp only [Real.sqrt_sq_eq_abs]
    rw [abs_sub_comm p.2.2.1]
    exact (abs_sub_le _ _ _).trans le_rfl
  · simp only [Real.sqrt_sq_eq_abs, abs_of_nonneg (circDist_nonneg _ _ _)]
    exact circDist_triangle _ _ _ _

theorem SameModel.symm {st st' : St} (h : SameModel o st o' st') : SameModel o' st' o st :=
  ⟨h.vals.symm, h.model.symm, by rw [h.model]; exact h.struct.symm⟩

theorem SamePlaces.symm {pts pts' : List Pt} (h : SamePlaces pts pts') : SamePlaces pts' pts :=
  h.flip.imp fun _ _ e => ⟨e.1.symm, e.2.symm⟩

/-- C168: the root of chi-squared changes by no more than the distance of the data, whatever the model. -/
theorem C168_misfit {st st' : St} (hdt : env.dt = .float) (hm : SameModel o st o' st') {pts pts' : List Pt}
    (hp : Presents st.heap o.data pts) (hp' : Presents st'.heap o'.data pts') (hs : SamePlaces pts pts')
    (hr : ∀ pt ∈ pts ++ pts', st.vals (st.models o.model).rm.off - 180 ≤ pt.2.2.2 ∧
      pt.2.2.2 ≤ st.vals (st.models o.model).rm.off + 540)
    {x : ℝ} (h : (chisqr env o none st).1 = .ok (some x)) :
    ∃ x', (chisqr env o' none st').1 = .ok (some x') ∧ |Real.sqrt x' - Real.sqrt x| ≤ Real.sqrt (noise pts pts') := by
  obtain ⟨ms, hv, rfl⟩ := (chisqr_iff hp).mp h
  rw [values_iff] at hv
  have main : ∀ (q q' : List Pt) (ms : List (ℝ × ℝ)), SamePlaces q q' →
      (∀ pt ∈ q ++ q', st.vals (st.models o.model).rm.off - 180 ≤ pt.2.2.2 ∧
        pt.2.2.2 ≤ st.vals (st.models o.model).rm.off + 540) → PointValues env o st q (cellsOf ms) →
      PointValues env o' st' q' (cellsOf ms) ∧
        Real.sqrt ((q'.zip ms).map fun y => sqTerm y.1 y.2).sum ≤
          Real.sqrt ((q.zip ms).map fun y => sqTerm y.1 y.2).sum + Real.sqrt (noise q' q) ∧
        Real.sqrt ((q.zip ms).map fun y => sqTerm y.1 y.2).sum ≤
          Real.sqrt ((q'.zip ms).map fun y => sqTerm y.1 y.2).sum + Real.sqrt (noise q q') := by
    intro q
    induction q with
    | nil =>
      intro q' ms hs _ hv
      cases hs
      cases ms with
      | nil => exact ⟨.nil, by simp [noise], by simp [noise]⟩
      | cons m ms => cases hv
    | cons p q ih =>
      intro q' ms hs hr hv
      obtain ⟨p', q', rfl⟩ : ∃ p' r, q' = p' :: r := by cases hs; exact ⟨_, _, rfl⟩
      cases ms with
      | nil => cases hv
      | cons m ms =>
        obtain ⟨hp1, hs⟩ := List.forall₂_cons.mp hs
        obtain ⟨hv1, hv⟩ := List.forall₂_cons.mp hv
        obtain ⟨i1, i2, i3⟩ := ih q' ms hs (fun pt hpt => hr pt (by
          simp only [List.mem_append, List.mem_cons] at hpt ⊢; tauto)) hv
        have v1 := hv1
        rw [hdt] at v1
        have hm1 := delta_range v1 rfl
        have r1 := hr p (by simp)
        have r2 := hr p' (by simp)
        refine ⟨List.forall₂_cons.mpr ⟨?_, i1⟩, ?_, ?_⟩
        · rw [hm.vals, hm.model, hm.struct, ← hp1.1, ← hp1.2]
          exact hv1
        all_goals
          simp only [noise, List.zip_cons_cons, List.map_cons, List.sum_cons] at i2 i3 ⊢
          refine sqrt_two (sqTerm_nonneg _ _) (gap_nonneg _ _) (sum_sq_nonneg (fun _ => sqTerm_nonneg _ _) _)
            (noise_nonneg _ _) (sqTerm_sqrt hm1 (by assumption) (by assumption)) (by assumption) (sqTerm_nonneg _ _)
            (sum_sq_nonneg (fun _ => sqTerm_nonneg _ _) _)
  obtain ⟨a1, a2, a3⟩ := main pts pts' ms hs hr hv
  refine ⟨_, (chisqr_iff hp').mpr ⟨ms, values_iff.mpr a1, rfl⟩, ?_⟩
  rw [abs_le]
  rw [noise_comm] at a2
  constructor <;> linarith

section
variable {X : Type*} [TopologicalSpace X] {st : X → St} {pts : List Pt} {M : MObj} {s : Structure} {cs : List Comp}
  {K : Set X} {c : X → ℝ}

/-- C168 (partial): if the data tend to data with a unique best fit, so do the fits; they need only be the best ones up
to an error that tends to 0.  Missing: as for `C167_best_partial`. -/
theorem C168_fits_partial (h : Searches env o st pts M s cs K c) (hK : IsCompact K) {b : X} (hb : b ∈ K)
    (huniq : ∀ x ∈ K, (∀ y ∈ K, c x ≤ c y) → x = b) {ι : Type*} {l : Filter ι} {o' : ι → Objective} {st' : ι → X → St}
    {pts' : ι → List Pt} (hm : ∀ i, ∀ x ∈ K, SameModel o (st x) (o' i) (st' i x))
    (hp : ∀ i, ∀ x ∈ K, Presents (st' i x).heap (o' i).data (pts' i)) (hs : ∀ i, SamePlaces pts (pts' i))
    (hr : ∀ i, ∀ x ∈ K, ∀ pt ∈ pts' i, (st x).vals M.rm.off - 180 ≤ pt.2.2.2 ∧
      pt.2.2.2 ≤ (st x).vals M.rm.off + 540)
    (hn : Tendsto (fun i => noise pts (pts' i)) l (𝓝 0)) {x : ι → X} (hx : ∀ i, x i ∈ K) {e : ι → ℝ}
    (he : Tendsto e l (𝓝 0))
    (hfit : ∀ i, ∀ y ∈ K, ∀ u v : ℝ, (chisqr env (o' i) none (st' i (x i))).1 = .ok (some u) →
      (chisqr env (o' i) none (st' i y)).1 = .ok (some v) → u ≤ v + e i) :
    Tendsto x l (𝓝 b) := by
  have hmis : ∀ i, ∀ y ∈ K, ∃ v, (chisqr env (o' i) none (st' i y)).1 = .ok (some v) ∧
      |Real.sqrt v - Real.sqrt (c y)| ≤ Real.sqrt (noise pts (pts' i)) := by
    intro i y hy
    have hd := h.deforms y hy
    refine C168_misfit hd.float (hm i y hy) (hd.data y) (hp i y hy) (hs i) ?_ (h.value y hy)
    rw [hd.model]
    intro pt hpt
    rcases List.mem_append.mp hpt with h1 | h1
    · exact (h.range y hy).self_of_nhds pt h1
    · exact hr i y hy pt h1
  obtain ⟨b', hb', hmin⟩ := C167_best_partial h hK ⟨b, hb⟩
  obtain rfl := huniq b' hb' hmin
  have hpos : ∀ {y v} {o : Objective} {st : St} {pts : List Pt}, Presents st.heap o.data pts →
      (chisqr env o none st).1 = .ok (some v) → y = v → 0 ≤ y := by
    intro y v o st pts hp hv hy
    obtain ⟨ms, -, rfl⟩ := (chisqr_iff hp).mp hv
    rw [hy]
    exact sum_sq_nonneg (fun _ => sqTerm_nonneg _ _) _
  have hc0 : ∀ y ∈ K, 0 ≤ c y := fun y hy => hpos ((h.deforms y hy).data y) (h.value y hy) rfl
  set δ : ι → ℝ := fun i => Real.sqrt (noise pts (pts' i)) with hδ
  have hδ0 : Tendsto δ l (𝓝 0) := by
    have := (Real.continuous_sqrt.tendsto 0).comp hn
    rw [Real.sqrt_zero] at this
    exact this
  have hup : ∀ i, c (x i) ≤ (Real.sqrt ((Real.sqrt (c b') + δ i) ^ 2 + |e i|) + δ i) ^ 2 := by
    intro i
    obtain ⟨u, hu, hu'⟩ := hmis i (x i) (hx i)
    obtain ⟨v, hv, hv'⟩ := hmis i b' hb
    have h1 := hfit i b' hb u v hu hv
    have hu0 : 0 ≤ u := hpos (hp i (x i) (hx i)) hu rfl
    have hv0 : 0 ≤ v := hpos (hp i b' hb) hv rfl
    have h2 := (abs_le.mp hv').2
    have h3 := (abs_le.mp hu').1
    have h4 : v ≤ (Real.sqrt (c b') + δ i) ^ 2 := by
      rw [← Real.sq_sqrt hv0]
      have : Real.sqrt v ≤ Real.sqrt (c b') + δ i := by simp only [hδ]; linarith
      gcongr
    have h5 : u ≤ (Real.sqrt (c b') + δ i) ^ 2 + |e i| := by linarith [le_abs_self (e i)]
    rw [← Real.sq_sqrt (hc0 _ (hx i))]
    have h6 := Real.sqrt_le_sqrt h5
    have : Real.sqrt (c (x i)) ≤ Real.sqrt ((Real.sqrt (c b') + δ i) ^ 2 + |e i|) + δ i := by
      simp only [hδ] at h6 ⊢; linarith
    gcongr
  have hlim : Tendsto (fun i => (Real.sqrt ((Real.sqrt (c b') + δ i) ^ 2 + |e i|) + δ i) ^ 2) l (𝓝 (c b')) := by
    have h1 : Tendsto (fun i => (Real.sqrt (c b') + δ i) ^ 2 + |e i|) l (𝓝 (c b')) := by
      have := ((hδ0.const_add (Real.sqrt (c b'))).pow 2).add he.abs
      simpa [Real.sq_sqrt (hc0 _ hb)] using this
    have h2 := (((Real.continuous_sqrt.tendsto _).comp h1).add hδ0).pow 2
    simpa [Real.sq_sqrt (hc0 _ hb)] using h2
  exact C167_converges_partial h hK hb huniq hx
    (tendsto_of_tendsto_of_tendsto_of_le_of_le tendsto_const_nhds hlim (fun i => hmin _ (hx i)) hup)

end

/-! ### The thickness of a film -/

section
variable {st : St} {t : PId} {cs : List Comp} {n₀ n : ℝ → ℝ} {nb : ℝ → ℂ} {pts : List Pt}

/-- The thickness of the film deforms the model. -/
theorem FitsFilm.deforms (h : FitsFilm env o st t cs n₀ n nb pts) (d0 : ℝ) :
    Deforms env o (fun d => { st with vals := Function.update st.vals t (10 * |d|) }) pts (st.models o.model)
      (st.structs (st.models o.model).str) cs d0 where
  float := h.float
  model := fun _ => rfl
  struct := fun _ => rfl
  plain := h.plain
  offset := by
    simp only [Function.update_of_ne h.off_ne]
    exact continuousAt_const
  data := fun _ => h.data
  stack := by
    intro pt hpt
    have hs := h.sound pt hpt
    refine ⟨fun _ => n₀ pt.1, [(fun _ => (n pt.1 : ℂ), fun d => |d|)], fun _ => nb pt.1,
      ⟨continuousAt_const, continuousAt_const, continuousAt_const, ?_, continuousAt_const, ?_, ?_, ?_⟩, ?_⟩
    · intro f hf
      rw [List.mem_singleton] at hf
      subst hf
      exact ⟨continuousAt_const, continuous_abs.continuousAt⟩
    · exact Eventually.of_forall fun d => physical_film hs.front hs.film hs.back (rad_lt hs.angle) hs.wav_pos hs.below
        (abs_nonneg d)
    · intro f hf
      rw [List.mem_singleton] at hf
      subst hf
      exact .inl (.inr (.inr (.inl (Eventually.of_forall fun _ => ⟨rfl, rfl⟩))))
    · exact .inl (.inr (.inr (.inl (Eventually.of_forall fun _ => ⟨rfl, rfl⟩))))
    · exact Eventually.of_forall fun d => h.sees |d| (abs_nonneg d) pt hpt

theorem chisqr_one (h : varying env o st = [t]) (x : ℝ) : (chisqr env o (some [x]) st).1 =
    (chisqr env o none { st with vals := Function.update st.vals t x }).1 := by
  rw [chisqr_eq, chisqr_eq, residuals_one h]

theorem FitsFilm.searches (h : FitsFilm env o st t cs n₀ n nb pts)
    (hr : ∀ pt ∈ pts, st.vals (st.models o.model).rm.off - 180 ≤ pt.2.2.2 ∧
      pt.2.2.2 ≤ st.vals (st.models o.model).rm.off + 540) {D : ℝ} {c : ℝ → ℝ}
    (hc : ∀ d ∈ Set.Icc 0 D, (chisqr env o (some [10 * d]) st).1 = .ok (some (c d))) :
    Searches env o (fun d => { st with vals := Function.update st.vals t (10 * |d|) }) pts (st.models o.model)
      (st.structs (st.models o.model).str) cs (Set.Icc 0 D) c where
  deforms := fun d _ => h.deforms d
  range := fun d _ => Eventually.of_forall fun d' => by
    simp only [Function.update_of_ne h.off_ne]
    exact hr
  value := fun d hd => by
    rw [abs_of_nonneg hd.1, ← chisqr_one h.one]
    exact hc d hd

/-- C168: the thickness of a film.  The data are those of a film of thickness `d0`, with noise.  If there is little noise,
the best fit is close to a thickness that would fit the data without noise perfectly. -/
theorem C168_film (h : FitsFilm env o st t cs n₀ n nb pts)
    (hr : ∀ pt ∈ pts, st.vals (st.models o.model).rm.off - 180 ≤ pt.2.2.2 ∧
      pt.2.2.2 ≤ st.vals (st.models o.model).rm.off + 540) {D : ℝ} {c : ℝ → ℝ}
    (hc : ∀ d ∈ Set.Icc 0 D, (chisqr env o (some [10 * d]) st).1 = .ok (some (c d))) {d0 : ℝ} (h0 : d0 ∈ Set.Icc 0 D)
    (hd0 : c d0 = 0) {ε : ℝ} (hε : 0 < ε) :
    ∃ η, 0 < η ∧ ∀ (o' : Objective) (st' : St) (pts' : List Pt), SameModel o st o' st' → varying env o' st' = [t] →
      Presents st'.heap o'.data pts' → SamePlaces pts pts' →
      (∀ pt ∈ pts', st.vals (st.models o.model).rm.off - 180 ≤ pt.2.2.2 ∧
        pt.2.2.2 ≤ st.vals (st.models o.model).rm.off + 540) → noise pts pts' < η →
      ∀ d ∈ Set.Icc 0 D, (∀ y ∈ Set.Icc 0 D, ∀ u v : ℝ, (chisqr env o' (some [10 * d]) st').1 = .ok (some u) →
        (chisqr env o' (some [10 * y]) st').1 = .ok (some v) → u ≤ v) →
      ∃ d' ∈ Set.Icc 0 D, c d' = 0 ∧ |d - d'| < ε := by
  have hS := h.searches hr hc
  have hcn : ∀ d ∈ Set.Icc 0 D, 0 ≤ c d := by
    intro d hd
    obtain ⟨ms, -, e⟩ := (chisqr_iff ((hS.deforms d hd).data d)).mp (hS.value d hd)
    rw [e]
    exact sum_sq_nonneg (fun _ => sqTerm_nonneg _ _) _
  obtain ⟨η, hη, hnear⟩ := C167_near_partial hS isCompact_Icc
    (U := ⋃ d' ∈ {d' | d' ∈ Set.Icc 0 D ∧ c d' = 0}, Metric.ball d' ε)
    (isOpen_biUnion fun _ _ => Metric.isOpen_ball) (fun x hx hmin => by
      refine Set.mem_biUnion (x := x) ⟨hx, le_antisymm ?_ (hcn x hx)⟩ (Metric.mem_ball_self hε)
      rw [← hd0]
      exact hmin d0 h0)
  refine ⟨η / 4, by positivity, fun o' st' pts' hm hone hp hs hr' hn d hd hfit => ?_⟩
  have hmis : ∀ y ∈ Set.Icc 0 D, ∃ v, (chisqr env o' (some [10 * y]) st').1 = .ok (some v) ∧
      |Real.sqrt v - Real.sqrt (c y)| ≤ Real.sqrt (noise pts pts') := by
    intro y hy
    rw [chisqr_one hone]
    refine C168_misfit (o := o) (st := { st with vals := Function.update st.vals t (10 * y) })
      (st' := { st' with vals := Function.update st'.vals t (10 * y) }) h.float
      ⟨by simp only [hm.vals], hm.model, hm.struct⟩ h.data hp hs ?_ (by rw [← chisqr_one h.one]; exact hc y hy)
    simp only [Function.update_of_ne h.off_ne]
    intro pt hpt
    rcases List.mem_append.mp hpt with h1 | h1
    · exact hr pt h1
    · exact hr' pt h1
  obtain ⟨u, hu, hu'⟩ := hmis d hd
  obtain ⟨v, hv, hv'⟩ := hmis d0 h0
  have h1 := Real.sqrt_le_sqrt (hfit d0 h0 u v hu hv)
  rw [hd0, Real.sqrt_zero] at hv'
  have h2 := (abs_le.mp hv').2
  have h3 := (abs_le.mp hu').1
  have h4 : Real.sqrt (c d) ≤ 2 * Real.sqrt (noise pts pts') := by linarith
  have h5 : c d ≤ 4 * noise pts pts' := by
    calc c d = Real.sqrt (c d) ^ 2 := (Real.sq_sqrt (hcn d hd)).symm
      _ ≤ (2 * Real.sqrt (noise pts pts')) ^ 2 := by gcongr
      _ = 4 * noise pts pts' := by rw [mul_pow, Real.sq_sqrt (noise_nonneg _ _)]; ring
  have h6 := hnear d hd fun y hy => by linarith [hcn y hy]
  simp only [Set.mem_iUnion, Metric.mem_ball, Real.dist_eq] at h6
  obtain ⟨d', ⟨g1, g2⟩, g3⟩ := h6
  exact ⟨d', g1, g2, g3⟩

end

/-- Psi of a bare substrate measured with an error: the root of chi-squared of the right model is no larger. -/
example (env : Env) (hdt : env.dt = .float) : ∃ (ψ Δ : ℝ), ∀ e : ℝ,
    ∃ x, (chisqr env { model := 0, data := filmData false } none (tirSt (ψ + e) Δ (3 / 2))).1 = .ok (some x) ∧
      Real.sqrt x ≤ |e| := by
  obtain ⟨ψ, Δ, c, r1, r2, hval, hS, h0, -⟩ := tir_searches env hdt
  refine ⟨ψ, Δ, fun e => ?_⟩
  have hp : ∀ ψ, Presents (tirSt ψ Δ (3 / 2)).heap (filmData false) [(500, 45, ψ, Δ)] := by
    intro ψ
    constructor <;> simp [tirSt, filmData, wavelength, aoi, psi, delta, len, access, pick]
  obtain ⟨x, hx, hle⟩ := C168_misfit (o := { model := 0, data := filmData false })
    (o' := { model := 0, data := filmData false }) (st := tirSt ψ Δ (3 / 2)) (st' := tirSt (ψ + e) Δ (3 / 2)) hdt
    ⟨rfl, rfl, rfl⟩ (hp ψ) (hp (ψ + e)) (.cons ⟨rfl, rfl⟩ .nil) (by
      have h7 : (tirSt ψ Δ (3 / 2)).vals 7 = 0 := rfl
      intro pt hpt
      have : pt.2.2.2 = Δ := by
        simp only [List.cons_append, List.nil_append, List.mem_cons, List.not_mem_nil, or_false] at hpt
        rcases hpt with rfl | rfl <;> rfl
      rw [this]
      change (0 : ℝ) - 180 ≤ Δ ∧ Δ ≤ 0 + 540
      constructor <;> linarith) (hval (3 / 2) (by norm_num))
  refine ⟨x, hx, ?_⟩
  have hn : noise [(500, 45, ψ, Δ)] [(500, 45, ψ + e, Δ)] = e ^ 2 := by
    have : circDist 360 Δ Δ = 0 := by rw [circDist_eq 0 (by norm_num)]; simp
    simp [noise, gap, this]
  rw [hn, h0, Real.sqrt_zero, sub_zero, Real.sqrt_sq_eq_abs] at hle
  exact (le_abs_self _).trans hle

/-- A bare substrate whose psi is measured more and more precisely: the extinction coefficients fitted between 1 and 2 tend
to the one that the data were made with. -/
example (env : Env) (hdt : env.dt = .float) : ∃ (ψ Δ : ℝ), ∀ e k : ℕ → ℝ, Tendsto e atTop (𝓝 0) →
    (∀ i, k i ∈ Set.Icc (1 : ℝ) 2) →
    (∀ i, ∀ y ∈ Set.Icc (1 : ℝ) 2, ∀ u v : ℝ,
      (chisqr env { model := 0, data := filmData false } none (tirSt (ψ + e i) Δ (k i))).1 = .ok (some u) →
      (chisqr env { model := 0, data := filmData false } none (tirSt (ψ + e i) Δ y)).1 = .ok (some v) → u ≤ v) →
    Tendsto k atTop (𝓝 (3 / 2)) := by
  obtain ⟨ψ, Δ, c, r1, r2, hval, hS, h0, huniq⟩ := tir_searches env hdt
  refine ⟨ψ, Δ, fun e k he hk hfit => ?_⟩
  have hp : ∀ ψ k, Presents (tirSt ψ Δ k).heap (filmData false) [(500, 45, ψ, Δ)] := by
    intro ψ k
    constructor <;> simp [tirSt, filmData, wavelength, aoi, psi, delta, len, access, pick]
  have hn : ∀ e, noise [(500, 45, ψ, Δ)] [(500, 45, ψ + e, Δ)] = e ^ 2 := by
    intro e
    have : circDist 360 Δ Δ = 0 := by rw [circDist_eq 0 (by norm_num)]; simp
    simp [noise, gap, this]
  refine C168_fits_partial hS isCompact_Icc (by norm_num) huniq
    (o' := fun _ => { model := 0, data := filmData false }) (st' := fun i x => tirSt (ψ + e i) Δ |x|)
    (pts' := fun i => [(500, 45, ψ + e i, Δ)]) (fun i x _ => ⟨rfl, rfl, rfl⟩) (fun i x _ => hp _ _)
    (fun i => .cons ⟨rfl, rfl⟩ .nil) ?_ ?_ hk (e := fun _ => 0) tendsto_const_nhds ?_
  · intro i x _ pt hpt
    rw [List.mem_singleton] at hpt
    subst hpt
    change (0 : ℝ) - 180 ≤ Δ ∧ Δ ≤ 0 + 540
    constructor <;> linarith
  · simp only [hn]
    simpa using he.pow 2
  · intro i y hy u v hu hv
    rw [abs_of_nonneg (by linarith [(hk i).1])] at hu
    rw [abs_of_nonneg (by linarith [hy.1])] at hv
    rw [add_zero]
    exact hfit i y hy u v hu hv

/-- A film of 125 nm measured at two wavelengths with irrational ratio: there are at most 4 thicknesses such that the best
fit between 0 and 300 nm is within 0.1 nm of one of them, if psi is off by little enough. -/
example (env : Env) (hdt : env.dt = .float) (hpars : 4 ∈ env.pars filmStruct.data none) :
    ∃ (ψ Δ ψ' Δ' : ℝ) (ds : List ℝ) (η : ℝ), ds.length = 4 ∧ 125 ∈ ds ∧ 0 < η ∧
      ∀ e : ℝ, e ^ 2 < η → ∀ d ∈ Set.Icc (0 : ℝ) 300, (∀ y ∈ Set.Icc (0 : ℝ) 300, ∀ u v : ℝ,
        (chisqr env twoObj (some [10 * d]) (twoSt (480 * Real.sqrt 2) (ψ + e) Δ ψ' Δ')).1 = .ok (some u) →
        (chisqr env twoObj (some [10 * y]) (twoSt (480 * Real.sqrt 2) (ψ + e) Δ ψ' Δ')).1 = .ok (some v) → u ≤ v) →
      ∃ d' ∈ ds, |d - d'| < 1 / 10 := by
  obtain ⟨ψ, Δ, ψ', Δ', h, r1, r2, h0⟩ := two_fits env hdt hpars (lam := 480 * Real.sqrt 2) (by positivity)
  obtain ⟨ds, hl, hds⟩ := C166_incommensurate h (p := (480 * Real.sqrt 2, filmAoi, ψ', Δ')) (q := (480, filmAoi, ψ, Δ))
    (by simp) (by simp) (by
      have hs := (h.sound (480, filmAoi, ψ, Δ) (by simp)).period_pos
      have e : period 1 (39 / 25) (rad filmAoi) (480 * Real.sqrt 2) =
          Real.sqrt 2 * period 1 (39 / 25) (rad filmAoi) 480 := by
        unfold period; ring
      simp only [e]
      rw [mul_div_cancel_right₀ _ (by exact hs.ne')]
      exact irrational_sqrt_two)
  have h7 : (twoSt (480 * Real.sqrt 2) ψ Δ ψ' Δ').vals ((twoSt (480 * Real.sqrt 2) ψ Δ ψ' Δ').models twoObj.model).rm.off =
      0 := rfl
  have hval : ∀ d ∈ Set.Icc (0 : ℝ) 300, ∃ y : ℝ,
      (chisqr env twoObj (some [10 * d]) (twoSt (480 * Real.sqrt 2) ψ Δ ψ' Δ')).1 = .ok (some y) := by
    intro d hd
    have pv : ∀ pt ∈ [((480 : ℝ), filmAoi, ψ, Δ), (480 * Real.sqrt 2, filmAoi, ψ', Δ')], ∃ a b : ℝ,
        PointVal env.ext env.zs env.dt (Function.update (twoSt (480 * Real.sqrt 2) ψ Δ ψ' Δ').vals 4 (10 * d))
          ((twoSt (480 * Real.sqrt 2) ψ Δ ψ' Δ').models twoObj.model).rm
          ((twoSt (480 * Real.sqrt 2) ψ Δ ψ' Δ').structs ((twoSt (480 * Real.sqrt 2) ψ Δ ψ' Δ').models twoObj.model).str)
          (pt.1, pt.2.1) (some a, some b) := by
      intro pt hpt
      have hw := (h.sound pt hpt).wav_pos
      obtain ⟨rows, g1, g2⟩ := C117_slabs (ext := env.ext) h.plain hw.ne' (h.sees d hd.1 pt hpt)
      obtain ⟨a, b, hab⟩ := shot_finite_at env.zs hw hd.1 g2
      refine ⟨a, b, (h.point hd.1 hpt).mpr ⟨rows, g2, g1, ?_⟩⟩
      rw [h7]
      have ha : pt.2.1 = filmAoi := by
        simp only [List.mem_cons, List.not_mem_nil, or_false] at hpt
        rcases hpt with rfl | rfl <;> rfl
      rw [ha]
      exact hab
    obtain ⟨a, b, v1⟩ := pv (480, filmAoi, ψ, Δ) (by simp)
    obtain ⟨a', b', v2⟩ := pv (480 * Real.sqrt 2, filmAoi, ψ', Δ') (by simp)
    rw [chisqr_one h.one]
    exact ⟨_, (chisqr_iff (o := twoObj) (st := { twoSt (480 * Real.sqrt 2) ψ Δ ψ' Δ' with
      vals := Function.update (twoSt (480 * Real.sqrt 2) ψ Δ ψ' Δ').vals 4 (10 * d) }) h.data).mpr
      ⟨[(a, b), (a', b')], values_iff.mpr (.cons v1 (.cons v2 .nil)), rfl⟩⟩
  choose! c hc using hval
  have hc0 : c 125 = 0 := by
    have := (hc 125 (by norm_num)).symm.trans h0
    simpa using this
  obtain ⟨η, hη, hbest⟩ := C168_film h (by rw [h7]; simp; constructor <;> constructor <;> linarith) hc
    (d0 := 125) (by norm_num) hc0 (ε := 1 / 10) (by norm_num)
  refine ⟨ψ, Δ, ψ', Δ', ds, η, hl, hds 125 (by norm_num) h0, hη, fun e he d hd hfit => ?_⟩
  have hz : ∀ a : ℝ, circDist 360 a a = 0 := fun a => by rw [circDist_eq 0 (by norm_num)]; simp
  obtain ⟨d', g1, g2, g3⟩ := hbest twoObj (twoSt (480 * Real.sqrt 2) (ψ + e) Δ ψ' Δ')
    [(480, filmAoi, ψ + e, Δ), (480 * Real.sqrt 2, filmAoi, ψ', Δ')] ⟨rfl, rfl, rfl⟩ h.one (by
      constructor <;> simp [twoSt, twoObj, wavelength, aoi, psi, delta, len, access, pick])
    (.cons ⟨rfl, rfl⟩ (.cons ⟨rfl, rfl⟩ .nil)) (by rw [h7]; simp; constructor <;> constructor <;> linarith)
    (by simpa [noise, gap, hz] using he) d hd hfit
  exact ⟨d', hds d' g1.1 (by rw [hc d' g1, g2]), g3⟩

end Verif.Obj
