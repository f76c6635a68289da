import Verif.Obj.PropsCovar
import Verif.Obj.PropsNoise
import Mathlib.Data.List.NodupEquivFin

/-! # C169: error bars do not grow when points are added or parameters are fixed -/

namespace Verif.Obj
open Matrix Verif.Struct Verif.TMM Verif.RModel Verif.Data Filter Topology

variable {env : Env} {o o' : Objective} {m p m' p' : ℕ}

/-- `objective.covar()` has returned `c`; the differentiation was exact, `f` are the residuals as functions of the varying
parameters and `J` their Jacobian, there are more residuals than parameters and no singular value was discarded. -/
structure Estimated (env : Env) (o : Objective) (st : St) (f : (Fin p → ℝ) → Fin m → ℝ) (J : Matrix (Fin m) (Fin p) ℝ)
    (c : Option (Matrix (Fin p) (Fin p) ℝ)) : Prop where
  params : (varying env o st).length = p
  some_param : 0 < p
  more : p < m
  near : ResidualsNear env o st (fun x => x) (pvalsOf env o st p) f
  jacobian : IsJacobian f (pvalsOf env o st p) J
  returned : ∃ (D D' : Diff (Matrix (Fin m) (Fin p) ℝ)) (fpe : PyErr → Bool) (n : ℕ) (eps : ℝ)
    (svd : Matrix (Fin m) (Fin p) ℝ → List ℝ × List (Fin p → ℝ)), 0 ≤ eps ∧
    Differentiates env o n (fun x => List.zipWith (· * ·) ((varying env o st).map st.vals) x) 1 st D ∧
    (∀ st', SameBut env o st st' → Differentiates env o n (fun x => x) (pvalsOf env o st p) st' D') ∧
    (∀ seen x, D.next seen = .inl x → x.length = (varying env o st).length) ∧
    (∀ seen x, D'.next seen = .inl x → x.length = (varying env o st).length) ∧
    (∀ A, A = J ∨ A = J * diagonal (pvalsOf env o st p) → IsSVD A (svd A).1 (svd A).2 ∧
      ∀ s0 x, (svd A).1.head? = some s0 → x ∈ (svd A).1 → eps * max m p * s0 < x) ∧
    (covarFull env o D D' fpe n eps svd st).1 = .ok c

theorem Estimated.inverse {st : St} {f : (Fin p → ℝ) → Fin m → ℝ} {J : Matrix (Fin m) (Fin p) ℝ}
    {c : Option (Matrix (Fin p) (Fin p) ℝ)} (h : Estimated env o st f J c) :
    ∃ C, C * (Jᵀ * J) = 1 ∧ (Jᵀ * J) * C = 1 ∧ (o.weighted = true → c = some C) ∧
      (o.weighted = false → ∃ x, (chisqr env o none st).1 = .ok x ∧
        c = x.map fun χ : ℝ => (χ / ((m : ℝ) - p)) • C) := by
  obtain ⟨D, D', fpe, n, eps, svd, h1, h2, h3, h4, h5, h6, h7⟩ := h.returned
  exact C100_covar h.params h.some_param h.more h1 h.near h.jacobian h2 h3 h4 h5 (fun A hA => (h6 A hA).1)
    (fun A hA => (h6 A hA).2) h7

theorem dot_gram (J : Matrix (Fin m) (Fin p) ℝ) (a b : Fin p → ℝ) :
    (J *ᵥ a) ⬝ᵥ (J *ᵥ b) = a ⬝ᵥ ((Jᵀ * J) *ᵥ b) := by
  rw [← Matrix.mulVec_mulVec, Matrix.dotProduct_mulVec a, Matrix.vecMul_transpose]

/-- If the residuals of one objective respond more strongly to its parameters, its covariance is smaller. -/
theorem inverse_le {J : Matrix (Fin m) (Fin p) ℝ} {J' : Matrix (Fin m') (Fin p') ℝ} {C : Matrix (Fin p) (Fin p) ℝ}
    {C' : Matrix (Fin p') (Fin p') ℝ} (h : (Jᵀ * J) * C = 1) (h' : (J'ᵀ * J') * C' = 1)
    (E : (Fin p' → ℝ) → Fin p → ℝ) (hE : ∀ u y, E u ⬝ᵥ E y = u ⬝ᵥ y)
    (hle : ∀ v, (J *ᵥ E v) ⬝ᵥ (J *ᵥ E v) ≤ (J' *ᵥ v) ⬝ᵥ (J' *ᵥ v)) (y : Fin p' → ℝ) :
    y ⬝ᵥ (C' *ᵥ y) ≤ E y ⬝ᵥ (C *ᵥ E y) := by
  set u := C' *ᵥ y with hu
  set w := C *ᵥ E y with hw
  have e1 : (Jᵀ * J) *ᵥ w = E y := by rw [hw, Matrix.mulVec_mulVec, h, Matrix.one_mulVec]
  have e2 : (J'ᵀ * J') *ᵥ u = y := by rw [hu, Matrix.mulVec_mulVec, h', Matrix.one_mulVec]
  have h1 : 0 ≤ (J *ᵥ (E u - w)) ⬝ᵥ (J *ᵥ (E u - w)) :=
    Finset.sum_nonneg fun i _ => mul_self_nonneg _
  rw [Matrix.mulVec_sub, sub_dotProduct, dotProduct_sub, dotProduct_sub, dotProduct_comm (J *ᵥ w) (J *ᵥ E u),
    dot_gram J (E u) w, dot_gram J w w, e1, hE] at h1
  have h2 := hle u
  rw [dot_gram J' u u, e2] at h2
  rw [dotProduct_comm y u, dotProduct_comm (E y) w]
  linarith

theorem assign_at {ps : List PId} (hn : ps.Nodup) {x : Fin ps.length → ℝ} {v : Vals} (i : Fin ps.length) :
    assign ps (List.ofFn x) v (ps.get i) = x i :=
  assign_get ps _ v (Consistent.of_nodup hn _) i _ _ (by simp) (by simp)

/-- The residuals of a part of the data are among those of all data. -/
theorem residuals_part {st st' : St} (hm : SameModel o st o' st') {pts pts' : List Pt}
    (hp : Presents st.heap o.data pts) (hp' : Presents st'.heap o'.data pts') {N N' : ℕ} (hN : pts.length = N)
    (hN' : pts'.length = N') {g : Fin N → Fin N'} (hg : ∀ i : Fin N, pts[i]? = pts'[g i]?)
    {r : Fin (N + N) → ℝ} {r' : Fin (N' + N') → ℝ}
    (h : (residuals env o none st).1 = .ok ((List.ofFn r).map some))
    (h' : (residuals env o' none st').1 = .ok ((List.ofFn r').map some)) (i : Fin N) :
    r (Fin.castAdd N i) = r' (Fin.castAdd N' (g i)) ∧ r (Fin.natAdd N i) = r' (Fin.natAdd N' (g i)) := by
  obtain ⟨cells, hv, he⟩ := (C81_residuals hp).mp h
  obtain ⟨cells', hv', he'⟩ := (C81_residuals hp').mp h'
  have hl := hv.length_eq
  have hl' := hv'.length_eq
  rw [values_iff] at hv hv'
  subst hN hN'
  have hgi : pts[i] = pts'[g i] := by
    have := hg i
    simpa using this
  have hc : cells[(i : ℕ)]'(by rw [← hl]; exact i.2) = cells'[(g i : ℕ)]'(by rw [← hl']; exact (g i).2) := by
    have a := (List.forall₂_iff_get.mp hv).2 i i.2 (by rw [← hl]; exact i.2)
    have b := (List.forall₂_iff_get.mp hv').2 (g i) (g i).2 (by rw [← hl']; exact (g i).2)
    rw [hm.vals, hm.model, hm.struct] at b
    simp only [List.get_eq_getElem] at a b
    have e : pts[(i : ℕ)] = pts'[(g i : ℕ)] := hgi
    rw [e] at a
    exact a.unique b
  have e1 : ∀ (k : ℕ), ((List.ofFn r).map some)[k]? = (((pts.zip cells).map (fun x => x.2.1.map fun ψ => ψ - x.1.2.2.1) ++
        (pts.zip cells).map (fun x => x.2.2.map fun Δ => circularDistance Δ x.1.2.2.2 360)))[k]? := fun k => by rw [he]
  have e2 : ∀ (k : ℕ), ((List.ofFn r').map some)[k]? =
      (((pts'.zip cells').map (fun x => x.2.1.map fun ψ => ψ - x.1.2.2.1) ++
        (pts'.zip cells').map (fun x => x.2.2.map fun Δ => circularDistance Δ x.1.2.2.2 360)))[k]? := fun k => by rw [he']
  have hi : (i : ℕ) < cells.length := by rw [← hl]; exact i.2
  have hi' : (g i : ℕ) < cells'.length := by rw [← hl']; exact (g i).2
  have e : pts[(i : ℕ)] = pts'[(g i : ℕ)] := hgi
  constructor
  · have a := e1 i
    have b := e2 (g i)
    rw [List.getElem?_append_left (by simp [hi])] at a
    rw [List.getElem?_append_left (by simp [hi'])] at b
    have c1 : (i : ℕ) < pts.length + pts.length := by omega
    have c2 : (g i : ℕ) < pts'.length + pts'.length := by omega
    simp only [List.getElem?_map, List.getElem?_ofFn, c1, c2, dif_pos, Option.map_some,
      List.getElem?_eq_getElem (show (i : ℕ) < (pts.zip cells).length by simp [hi]),
      List.getElem?_eq_getElem (show (g i : ℕ) < (pts'.zip cells').length by simp [hi']), List.getElem_zip,
      Option.some.injEq, e, hc] at a b
    exact Option.some_injective _ (a.trans b.symm)
  · have a := e1 (pts.length + i)
    have b := e2 (pts'.length + g i)
    have z1 : ((pts.zip cells).map (fun x => x.2.1.map fun ψ => ψ - x.1.2.2.1)).length = pts.length := by simp [hl]
    have z2 : ((pts'.zip cells').map (fun x => x.2.1.map fun ψ => ψ - x.1.2.2.1)).length = pts'.length := by simp [hl']
    rw [List.getElem?_append_right (by rw [z1]; omega), z1, Nat.add_sub_cancel_left] at a
    rw [List.getElem?_append_right (by rw [z2]; omega), z2, Nat.add_sub_cancel_left] at b
    have c1 : pts.length + (i : ℕ) < pts.length + pts.length := by omega
    have c2 : pts'.length + (g i : ℕ) < pts'.length + pts'.length := by omega
    simp only [List.getElem?_map, List.getElem?_ofFn, c1, c2, dif_pos, Option.map_some,
      List.getElem?_eq_getElem (show (i : ℕ) < (pts.zip cells).length by simp [hi]),
      List.getElem?_eq_getElem (show (g i : ℕ) < (pts'.zip cells').length by simp [hi']), List.getElem_zip,
      Option.some.injEq, e, hc] at a b
    exact Option.some_injective _ (a.trans b.symm)

/-- The entries of `a` for a list of parameters. -/
def onParams (a : PId → ℝ) (ps : List PId) (n : ℕ) (i : Fin n) : ℝ := (ps[(i : ℕ)]?.map a).getD 0

/-- Objectives for the same model; the second is given all points of the first, and varies no parameter that the first
does not. -/
structure Sharper (env : Env) (o : Objective) (st : St) (o' : Objective) (st' : St) : Prop where
  model : SameModel o st o' st'
  points : ∃ pts pts', Presents st.heap o.data pts ∧ Presents st'.heap o'.data pts' ∧ pts.Sublist pts'
  params : ∀ q ∈ varying env o' st', q ∈ varying env o st

theorem gram_le {st st' : St} {f : (Fin p → ℝ) → Fin m → ℝ} {J : Matrix (Fin m) (Fin p) ℝ}
    {c : Option (Matrix (Fin p) (Fin p) ℝ)} (h : Estimated env o st f J c) {f' : (Fin p' → ℝ) → Fin m' → ℝ}
    {J' : Matrix (Fin m') (Fin p') ℝ} {c' : Option (Matrix (Fin p') (Fin p') ℝ)} (h' : Estimated env o' st' f' J' c')
    (hs : Sharper env o st o' st') : ∃ g : Fin p' → Fin p, Function.Injective g ∧
      (∀ i : Fin p', (varying env o' st')[(i : ℕ)]? = (varying env o st)[(g i : ℕ)]?) ∧
      ∀ v : Fin p' → ℝ, (J *ᵥ Function.extend g v 0) ⬝ᵥ (J *ᵥ Function.extend g v 0) ≤ (J' *ᵥ v) ⬝ᵥ (J' *ᵥ v) := by
  obtain ⟨pts, pts', hp, hp', hsub⟩ := hs.points
  obtain ⟨gp, hgp⟩ := List.sublist_iff_exists_fin_orderEmbedding_get_eq.mp hsub
  have hlen := h.params
  have hlen' := h'.params
  have hsp := hs.params
  have hn := varying_nodup env o st
  have hn' := varying_nodup env o' st'
  generalize hps : varying env o st = ps at hlen hsp hn ⊢
  generalize hps' : varying env o' st' = ps' at hlen' hsp hn' ⊢
  subst hlen hlen'
  have hex : ∀ i : Fin ps'.length, ∃ j : Fin ps.length, ps.get j = ps'.get i := fun i => by
    obtain ⟨j, hj⟩ := List.get_of_mem (hsp _ (List.get_mem ps' i))
    exact ⟨j, hj⟩
  choose g hg using hex
  have hinj : Function.Injective g := fun a b hab => by
    have : ps'.get a = ps'.get b := by rw [← hg a, ← hg b, hab]
    exact (List.nodup_iff_injective_get.mp hn') this
  refine ⟨g, hinj, fun i => by
    have := hg i
    simp only [List.get_eq_getElem] at this
    simp [this], ?_⟩
  -- values of the parameters
  set pv := pvalsOf env o st ps.length with hpv
  set pv' := pvalsOf env o' st' ps'.length with hpv'
  have e1 : ∀ j, pv j = st.vals (ps.get j) := fun j => by
    simp [hpv, pvalsOf, hps]
  have e2 : ∀ i, pv' i = st.vals (ps'.get i) := fun i => by
    simp [hpv', pvalsOf, hps', hs.model.vals]
  let F : (Fin ps'.length → ℝ) → Fin ps.length → ℝ := fun y => Function.extend g y pv
  have hF : ∀ y, F y = LinearMap.toContinuousLinearMap (Function.ExtendByZero.linearMap ℝ g) (y - pv') + pv := by
    intro y
    funext j
    simp only [F, LinearMap.coe_toContinuousLinearMap', Function.ExtendByZero.linearMap_apply, Pi.add_apply]
    by_cases hj : ∃ i, g i = j
    · obtain ⟨i, rfl⟩ := hj
      rw [hinj.extend_apply, hinj.extend_apply, e1, hg, ← e2, Pi.sub_apply, sub_add_cancel]
    · rw [Function.extend_apply' _ _ _ hj, Function.extend_apply' _ _ _ hj]
      simp
  have hF0 : F pv' = pv := by rw [hF, sub_self, map_zero, zero_add]
  have hFd : HasFDerivAt F (LinearMap.toContinuousLinearMap (Function.ExtendByZero.linearMap ℝ g)) pv' := by
    have : F = fun y => LinearMap.toContinuousLinearMap (Function.ExtendByZero.linearMap ℝ g) (y - pv') + pv := funext hF
    rw [this]
    have h1 : HasFDerivAt (fun y : Fin ps'.length → ℝ => y - pv') (ContinuousLinearMap.id ℝ _) pv' :=
      (hasFDerivAt_id pv').sub_const pv'
    have h2 := HasFDerivAt.comp (f := fun y : Fin ps'.length → ℝ => y - pv') pv'
      ((LinearMap.toContinuousLinearMap (Function.ExtendByZero.linearMap ℝ g)).hasFDerivAt) h1
    rw [ContinuousLinearMap.comp_id] at h2
    exact h2.add_const pv
  -- the same state is reached
  have hassign : ∀ y, assign ps (List.ofFn (F y)) st.vals = assign ps' (List.ofFn y) st'.vals := by
    intro y
    rw [hs.model.vals]
    funext q
    by_cases hq' : q ∈ ps'
    · obtain ⟨i, rfl⟩ := List.get_of_mem hq'
      rw [assign_at hn', ← hg i, assign_at hn]
      exact hinj.extend_apply _ _ _
    · rw [assign_not_mem ps' _ _ hq']
      by_cases hq : q ∈ ps
      · obtain ⟨j, rfl⟩ := List.get_of_mem hq
        rw [assign_at hn, ← e1]
        refine Function.extend_apply' _ _ _ ?_
        rintro ⟨i, rfl⟩
        exact hq' (by rw [hg]; exact List.get_mem _ _)
      · rw [assign_not_mem ps _ _ hq]
  have hres : ∀ᶠ y in 𝓝 pv',
      (residuals env o none { st with vals := assign ps (List.ofFn (F y)) st.vals }).1 =
        .ok ((List.ofFn (f (F y))).map some) ∧
      (residuals env o' none { st' with vals := assign ps' (List.ofFn y) st'.vals }).1 =
        .ok ((List.ofFn (f' y)).map some) := by
    have hc : Tendsto F (𝓝 pv') (𝓝 pv) := by
      have := hFd.continuousAt.tendsto
      rwa [hF0] at this
    filter_upwards [hc.eventually h.near, h'.near] with y a b
    change (residuals env o' (some (List.ofFn y)) st').1 = _ at b
    rw [residuals_some, setp, if_pos (by simp [hps]), hps] at a
    rw [residuals_some, setp, if_pos (by simp [hps']), hps'] at b
    exact ⟨a, b⟩
  have sm : ∀ y, SameModel o { st with vals := assign ps (List.ofFn (F y)) st.vals } o'
      { st' with vals := assign ps' (List.ofFn y) st'.vals } := fun y =>
    ⟨(hassign y).symm, hs.model.model, hs.model.struct⟩
  -- the numbers of residuals
  obtain ⟨y0, a0, b0⟩ := hres.exists
  have hm : m = pts.length + pts.length := by
    obtain ⟨cells, hv, he⟩ := (C81_residuals (o := o) (st := { st with vals := assign ps (List.ofFn (F y0)) st.vals }) hp).mp a0
    have := congrArg List.length he
    simpa [← hv.length_eq] using this
  have hm' : m' = pts'.length + pts'.length := by
    obtain ⟨cells, hv, he⟩ := (C81_residuals (o := o') (st := { st' with vals := assign ps' (List.ofFn y0) st'.vals }) hp').mp b0
    have := congrArg List.length he
    simpa [← hv.length_eq] using this
  subst hm hm'
  have hpart : ∀ᶠ y in 𝓝 pv', ∀ i, f (F y) (Fin.castAdd _ i) = f' y (Fin.castAdd _ (gp i)) ∧
      f (F y) (Fin.natAdd _ i) = f' y (Fin.natAdd _ (gp i)) := by
    filter_upwards [hres] with y hy i
    refine residuals_part (sm y) hp hp' rfl rfl (g := gp) (fun i => ?_) hy.1 hy.2 i
    have := hgp i
    simp only [List.get_eq_getElem] at this
    simp [this]
  have hfF : HasFDerivAt (fun y => f (F y)) ((LinearMap.toContinuousLinearMap (Matrix.toLin' J)).comp
      (LinearMap.toContinuousLinearMap (Function.ExtendByZero.linearMap ℝ g))) pv' := by
    have hj : HasFDerivAt f (LinearMap.toContinuousLinearMap (Matrix.toLin' J)) (F pv') := by
      rw [hF0]; exact h.jacobian
    exact hj.comp pv' hFd
  have hf' : HasFDerivAt f' (LinearMap.toContinuousLinearMap (Matrix.toLin' J')) pv' := h'.jacobian
  have comp : ∀ (r : Fin (pts.length + pts.length)) (r' : Fin (pts'.length + pts'.length)),
      (∀ᶠ y in 𝓝 pv', f (F y) r = f' y r') → ∀ v, (J *ᵥ Function.extend g v 0) r = (J' *ᵥ v) r' := by
    intro r r' hrr v
    have d1 := (hasFDerivAt_pi'.mp hfF) r
    have d2 := (hasFDerivAt_pi'.mp hf') r'
    have d3 := d2.congr_of_eventuallyEq hrr
    have := congrArg (fun L => L v) (d1.unique d3)
    simp only [ContinuousLinearMap.comp_apply, LinearMap.coe_toContinuousLinearMap', ContinuousLinearMap.proj_apply,
      Matrix.toLin'_apply] at this
    exact this
  intro v
  have sum_le : ∀ k : Fin pts'.length → ℝ, ∑ i, k (gp i) ^ 2 ≤ ∑ i, k i ^ 2 := by
    intro k
    calc ∑ i, k (gp i) ^ 2 = ∑ i ∈ Finset.univ.map gp.toEmbedding, k i ^ 2 := by rw [Finset.sum_map]; rfl
      _ ≤ ∑ i, k i ^ 2 := Finset.sum_le_sum_of_subset_of_nonneg (Finset.subset_univ _) fun _ _ _ => sq_nonneg _
  simp only [dotProduct, ← sq, Fin.sum_univ_add]
  refine add_le_add ?_ ?_
  · simp only [comp _ _ (hpart.mono fun y hy => (hy _).1)]
    exact sum_le fun i => (J' *ᵥ v) (Fin.castAdd _ i)
  · simp only [comp _ _ (hpart.mono fun y hy => (hy _).2)]
    exact sum_le fun i => (J' *ᵥ v) (Fin.natAdd _ i)

theorem extend_dot {g : Fin p' → Fin p} (hg : Function.Injective g) (u : Fin p' → ℝ) (z : Fin p → ℝ) :
    Function.extend g u 0 ⬝ᵥ z = u ⬝ᵥ fun i => z (g i) := by
  simp only [dotProduct]
  rw [← Finset.sum_subset (Finset.subset_univ (Finset.univ.map ⟨g, hg⟩))]
  · rw [Finset.sum_map]
    refine Finset.sum_congr rfl fun i _ => ?_
    change Function.extend g u 0 (g i) * z (g i) = _
    rw [hg.extend_apply]
  · intro j _ hj
    have hj' : ¬∃ i, g i = j := fun ⟨i, hi⟩ => hj (Finset.mem_map.mpr ⟨i, Finset.mem_univ _, hi⟩)
    rw [Function.extend_apply' _ _ _ hj', Pi.zero_apply, zero_mul]

/-- Both covariances before they are scaled. -/
theorem covar_le {st st' : St} {f : (Fin p → ℝ) → Fin m → ℝ} {J : Matrix (Fin m) (Fin p) ℝ}
    {c : Option (Matrix (Fin p) (Fin p) ℝ)} (h : Estimated env o st f J c) {f' : (Fin p' → ℝ) → Fin m' → ℝ}
    {J' : Matrix (Fin m') (Fin p') ℝ} {c' : Option (Matrix (Fin p') (Fin p') ℝ)} (h' : Estimated env o' st' f' J' c')
    (hs : Sharper env o st o' st') {C : Matrix (Fin p) (Fin p) ℝ} {C' : Matrix (Fin p') (Fin p') ℝ}
    (hC : (Jᵀ * J) * C = 1) (hC' : (J'ᵀ * J') * C' = 1) {a : PId → ℝ} (ha : ∀ q, q ∉ varying env o' st' → a q = 0) :
    onParams a (varying env o' st') p' ⬝ᵥ (C' *ᵥ onParams a (varying env o' st') p') ≤
      onParams a (varying env o st) p ⬝ᵥ (C *ᵥ onParams a (varying env o st) p) := by
  obtain ⟨g, hinj, hg, hle⟩ := gram_le h h' hs
  have hE : Function.extend g (onParams a (varying env o' st') p') 0 = onParams a (varying env o st) p := by
    funext j
    by_cases hj : ∃ i, g i = j
    · obtain ⟨i, rfl⟩ := hj
      rw [hinj.extend_apply, onParams, hg, onParams]
    · rw [Function.extend_apply' _ _ _ hj, onParams]
      have hjl : (j : ℕ) < (varying env o st).length := by rw [h.params]; exact j.2
      rw [List.getElem?_eq_getElem hjl]
      simp only [Pi.zero_apply, Option.map_some, Option.getD_some]
      refine (ha _ fun hmem => hj ?_).symm
      obtain ⟨i, hi⟩ := List.get_of_mem hmem
      refine ⟨⟨i, by rw [← h'.params]; exact i.2⟩, ?_⟩
      have e := hg ⟨i, by rw [← h'.params]; exact i.2⟩
      have hgl : (g ⟨i, by rw [← h'.params]; exact i.2⟩ : ℕ) < (varying env o st).length := by
        rw [h.params]; exact (g _).2
      simp only [List.get_eq_getElem] at hi
      rw [List.getElem?_eq_getElem i.2, List.getElem?_eq_getElem hgl, hi, Option.some.injEq] at e
      have := (List.Nodup.getElem_inj_iff (varying_nodup env o st)).mp e
      exact Fin.ext this.symm
  have := inverse_le hC hC' (fun v => Function.extend g v 0) (fun u y => by
    rw [extend_dot hinj]
    congr 1
    funext i
    exact hinj.extend_apply _ _ _) hle (onParams a (varying env o' st') p')
  rwa [hE] at this

/-- C169 (partial): with weights, adding points or fixing parameters does not increase the variance of any combination
`a` of the parameters that are still varied.  Missing: if singular values are discarded the claim fails
(`C169_fails`). -/
theorem C169_weighted_partial {st st' : St} {f : (Fin p → ℝ) → Fin m → ℝ} {J : Matrix (Fin m) (Fin p) ℝ}
    {C : Matrix (Fin p) (Fin p) ℝ} (h : Estimated env o st f J (some C)) {f' : (Fin p' → ℝ) → Fin m' → ℝ}
    {J' : Matrix (Fin m') (Fin p') ℝ} {C' : Matrix (Fin p') (Fin p') ℝ} (h' : Estimated env o' st' f' J' (some C'))
    (hs : Sharper env o st o' st') (hw : o.weighted = true) (hw' : o'.weighted = true) :
    (∀ a : PId → ℝ, (∀ q, q ∉ varying env o' st' → a q = 0) →
      onParams a (varying env o' st') p' ⬝ᵥ (C' *ᵥ onParams a (varying env o' st') p') ≤
        onParams a (varying env o st) p ⬝ᵥ (C *ᵥ onParams a (varying env o st) p)) ∧
    ∀ (i : Fin p') (j : Fin p), (varying env o' st')[(i : ℕ)]? = (varying env o st)[(j : ℕ)]? → C' i i ≤ C j j := by
  obtain ⟨C1, -, hC, e, -⟩ := h.inverse
  obtain ⟨C2, -, hC', e', -⟩ := h'.inverse
  obtain rfl : C = C1 := by simpa using e hw
  obtain rfl : C' = C2 := by simpa using e' hw'
  have key : ∀ a : PId → ℝ, (∀ q, q ∉ varying env o' st' → a q = 0) →
      onParams a (varying env o' st') p' ⬝ᵥ (C' *ᵥ onParams a (varying env o' st') p') ≤
        onParams a (varying env o st) p ⬝ᵥ (C *ᵥ onParams a (varying env o st) p) :=
    fun a ha => covar_le h h' hs hC hC' ha
  refine ⟨key, fun i j hij => ?_⟩
  have single : ∀ {n : ℕ} {ps : List PId} (hn : ps.Nodup) (hl : ps.length = n) (k : Fin n) (q : PId)
      (hk : ps[(k : ℕ)]? = some q), onParams (Pi.single q 1) ps n = Pi.single k 1 := by
    intro n ps hn hl k q hk
    subst hl
    rw [List.getElem?_eq_getElem k.2, Option.some.injEq] at hk
    funext l
    rw [onParams, List.getElem?_eq_getElem l.2]
    simp only [Option.map_some, Option.getD_some]
    by_cases hlk : l = k
    · subst hlk
      rw [hk, Pi.single_eq_same, Pi.single_eq_same]
    · rw [Pi.single_eq_of_ne hlk, Pi.single_eq_of_ne]
      rw [← hk]
      intro he
      exact hlk (Fin.ext ((List.Nodup.getElem_inj_iff hn).mp he))
  have hi : (i : ℕ) < (varying env o' st').length := by rw [h'.params]; exact i.2
  have hq := List.getElem?_eq_getElem hi
  have := key (Pi.single (varying env o' st')[(i : ℕ)] 1) (fun q hqn => by
    rw [Pi.single_eq_of_ne]
    rintro rfl
    exact hqn (List.getElem_mem _))
  rw [single (varying_nodup env o' st') h'.params i _ hq, single (varying_nodup env o st) h.params j _ (hij ▸ hq)] at this
  simpa [dotProduct_comm] using this

/-- C169 (partial): without weights, the variances relative to the reduced chi-squared do not increase.  Missing: as for
`C169_weighted_partial`. -/
theorem C169_unweighted_partial {st st' : St} {f : (Fin p → ℝ) → Fin m → ℝ} {J : Matrix (Fin m) (Fin p) ℝ}
    {C : Matrix (Fin p) (Fin p) ℝ} (h : Estimated env o st f J (some C)) {f' : (Fin p' → ℝ) → Fin m' → ℝ}
    {J' : Matrix (Fin m') (Fin p') ℝ} {C' : Matrix (Fin p') (Fin p') ℝ} (h' : Estimated env o' st' f' J' (some C'))
    (hs : Sharper env o st o' st') (hw : o.weighted = false) (hw' : o'.weighted = false) :
    ∃ χ χ' : ℝ, (chisqr env o none st).1 = .ok (some χ) ∧ (chisqr env o' none st').1 = .ok (some χ') ∧
      ∀ a : PId → ℝ, (∀ q, q ∉ varying env o' st' → a q = 0) →
        χ / ((m : ℝ) - p) * (onParams a (varying env o' st') p' ⬝ᵥ (C' *ᵥ onParams a (varying env o' st') p')) ≤
          χ' / ((m' : ℝ) - p') * (onParams a (varying env o st) p ⬝ᵥ (C *ᵥ onParams a (varying env o st) p)) := by
  obtain ⟨C1, -, hC, -, e⟩ := h.inverse
  obtain ⟨C2, -, hC', -, e'⟩ := h'.inverse
  obtain ⟨x, hx, ec⟩ := e hw
  obtain ⟨x', hx', ec'⟩ := e' hw'
  cases x with
  | none => simp at ec
  | some χ =>
    cases x' with
    | none => simp at ec'
    | some χ' =>
      obtain rfl : C = (χ / ((m : ℝ) - p)) • C1 := by simpa using ec
      obtain rfl : C' = (χ' / ((m' : ℝ) - p')) • C2 := by simpa using ec'
      refine ⟨χ, χ', hx, hx', fun a ha => ?_⟩
      have hle := covar_le h h' hs hC hC' ha
      obtain ⟨pts, pts', hp, hp', -⟩ := hs.points
      have n1 : 0 ≤ χ := by
        obtain ⟨ms, -, rfl⟩ := (chisqr_iff hp).mp hx
        exact sum_sq_nonneg (fun _ => sqTerm_nonneg _ _) _
      have n2 : 0 ≤ χ' := by
        obtain ⟨ms, -, rfl⟩ := (chisqr_iff hp').mp hx'
        exact sum_sq_nonneg (fun _ => sqTerm_nonneg _ _) _
      have d1 : 0 < (m : ℝ) - p := by have := h.more; rw [sub_pos]; exact_mod_cast this
      have d2 : 0 < (m' : ℝ) - p' := by have := h'.more; rw [sub_pos]; exact_mod_cast this
      simp only [Matrix.smul_mulVec, dotProduct_smul, smul_eq_mul]
      have : 0 ≤ χ / ((m : ℝ) - p) * (χ' / ((m' : ℝ) - p')) := by positivity
      calc _ = χ / ((m : ℝ) - p) * (χ' / ((m' : ℝ) - p')) *
            (onParams a (varying env o' st') p' ⬝ᵥ (C2 *ᵥ onParams a (varying env o' st') p')) := by ring
        _ ≤ χ / ((m : ℝ) - p) * (χ' / ((m' : ℝ) - p')) *
            (onParams a (varying env o st) p ⬝ᵥ (C1 *ᵥ onParams a (varying env o st) p)) := by gcongr
        _ = _ := by ring

/-! ### Examples -/

theorem svd_one {A : Matrix (Fin m) (Fin 1) ℝ} (hm : 1 ≤ m) (hA : 0 < √(∑ r, A r 0 ^ 2)) :
    IsSVD A [√(∑ r, A r 0 ^ 2)] [![1]] := by
  set s := √(∑ r, A r 0 ^ 2) with hs
  have hss : s ^ 2 = ∑ r, A r 0 ^ 2 := Real.sq_sqrt (Finset.sum_nonneg fun _ _ => sq_nonneg _)
  unfold IsSVD
  rw [min_eq_right hm]
  refine ⟨of fun r _ => A r 0 / s, fun _ => s, 1, by simp, ?_, ?_, by simp, ?_, antitone_const, fun _ => hA.le⟩
  · simp
    funext i; fin_cases i; rfl
  · ext i j
    fin_cases i; fin_cases j
    simp only [Matrix.mul_apply, Matrix.transpose_apply, of_apply]
    calc ∑ x, A x 0 / s * (A x 0 / s) = (∑ x, A x 0 ^ 2) / s ^ 2 := by
          rw [Finset.sum_div]
          exact Finset.sum_congr rfl fun x _ => by rw [div_mul_div_comm, ← sq, ← sq]
      _ = 1 := by rw [← hss]; exact div_self (pow_pos hA 2).ne'
  · ext i j
    fin_cases j
    simp [Matrix.mul_diagonal, div_mul_cancel₀ _ hA.ne']

/-- With one varying parameter that is not zero and on which the residuals depend, covar returns. -/
theorem estimated_one {st : St} {f : (Fin 1 → ℝ) → Fin m → ℝ} {J : Matrix (Fin m) (Fin 1) ℝ}
    (hl : (varying env o st).length = 1) (hpv : pvalsOf env o st 1 0 ≠ 0) (hm : 1 < m)
    (hn : ResidualsNear env o st (fun x => x) (pvalsOf env o st 1) f) (hJ : IsJacobian f (pvalsOf env o st 1) J)
    (h0 : ∃ r, J r 0 ≠ 0) (hχ : ∃ x, (chisqr env o none st).1 = .ok x) : ∃ c, Estimated env o st f J c := by
  classical
  set pv := pvalsOf env o st 1 with hpvd
  have hpl : List.ofFn pv = (varying env o st).map st.vals := pvalsOf_ofFn hl
  set D : Diff (Matrix (Fin m) (Fin 1) ℝ) := ⟨fun _ => .inr (.ok (J * diagonal pv))⟩ with hD
  set D' : Diff (Matrix (Fin m) (Fin 1) ℝ) := ⟨fun _ => .inr (.ok J)⟩ with hD'
  have hm0 : (0 : ℝ) < m := by exact_mod_cast (by omega : 0 < m)
  set eps : ℝ := 1 / (2 * m) with heps
  set svd : Matrix (Fin m) (Fin 1) ℝ → List ℝ × List (Fin 1 → ℝ) := fun A => ([√(∑ r, A r 0 ^ 2)], [![1]]) with hsvd
  have pos : ∀ A, A = J ∨ A = J * diagonal pv → 0 < √(∑ r, A r 0 ^ 2) := by
    obtain ⟨r, hr⟩ := h0
    rintro A (rfl | rfl)
    · exact Real.sqrt_pos.mpr (Finset.sum_pos' (fun _ _ => sq_nonneg _) ⟨r, Finset.mem_univ r, by positivity⟩)
    · refine Real.sqrt_pos.mpr (Finset.sum_pos' (fun _ _ => sq_nonneg _) ⟨r, Finset.mem_univ r, ?_⟩)
      rw [Matrix.mul_diagonal]
      have := mul_ne_zero hr hpv
      positivity
  have hall : ∀ A, A = J ∨ A = J * diagonal pv → IsSVD A (svd A).1 (svd A).2 ∧
      ∀ s0 x, (svd A).1.head? = some s0 → x ∈ (svd A).1 → eps * max m 1 * s0 < x := by
    intro A hA
    refine ⟨svd_one hm.le (pos A hA), fun s0 x e1 e2 => ?_⟩
    simp only [hsvd, List.head?_cons, Option.some.injEq, List.mem_singleton] at e1 e2
    rw [← e1, e2, max_eq_left (by exact_mod_cast hm.le), heps]
    have := pos A hA
    rw [show 1 / (2 * (m : ℝ)) * m * √(∑ r, A r 0 ^ 2) = √(∑ r, A r 0 ^ 2) / 2 by field_simp]
    linarith
  have hz : (0 : ℝ) ∉ (varying env o st).map st.vals := by
    rw [← hpl]
    simpa [eq_comm] using hpv
  have hset : setp env o (some ((varying env o st).map st.vals)) st = (.ok (), st) := by
    rw [setp, if_pos (by simp), assign_self]
  have hj : covarJac env o D D' (fun _ => false) 1 st = (.ok (J * diagonal pv, true), st) := by
    simp [covarJac, hz, Diff.run, hset, hD]
  obtain ⟨C, hC, -⟩ := C100_inverse (J := J) (s := (svd (J * diagonal pv)).1) (VT := (svd (J * diagonal pv)).2) eps
    (by positivity) true pv (fun _ i => by fin_cases i; exact hpv) (by rw [if_pos rfl]; exact (hall _ (.inr rfl)).1)
    (by norm_num) hm.le (hall _ (.inr rfl)).2
  have hc : ∃ c, (covarFull env o D D' (fun _ => false) 1 eps svd st).1 = .ok c := by
    obtain ⟨x, hx⟩ := hχ
    rcases hr : chisqr env o none st with ⟨r, s⟩
    rw [hr] at hx
    simp only at hx
    subst hx
    unfold covarFull covar
    simp only [hj, ← hpvd, hC, Except.map, hr]
    split <;> exact ⟨_, rfl⟩
  obtain ⟨c, hc⟩ := hc
  refine ⟨c, hl, one_pos, hm, hn, hJ, D, D', fun _ => false, 1, eps, svd, by positivity, ?_, ?_, ?_, ?_, hall, hc⟩
  · refine differentiates_const (n := 0) (g := fun x => f (pv * x)) ?_ (jacobian_scaled hJ)
    have ht : Filter.Tendsto (fun x : Fin 1 → ℝ => pv * x) (nhds 1) (nhds pv) := by
      have : Filter.Tendsto (fun x : Fin 1 → ℝ => pv * x) (nhds 1) (nhds (pv * 1)) :=
        (continuous_const.mul continuous_id).tendsto _
      rwa [mul_one] at this
    filter_upwards [ht.eventually hn] with x hx
    rw [← hx, ← hpl]
    congr 3
  · intro st' hs
    refine differentiates_const (n := 0) (g := f) ?_ hJ
    filter_upwards [hn] with x hx
    rw [(C90_function hs _).1]
    exact hx
  · intro seen x h; simp [hD] at h
  · intro seen x h; simp [hD'] at h

/-- The offset as the parameter, data at one wavelength and angle of incidence. -/
noncomputable def barSt (off : ℝ) (ds : List ℝ) : St where
  vals := Function.update (fun _ => 0) 7 off
  vary := fun p => p == 7
  models := fun _ => ⟨⟨7, false⟩, 0⟩
  structs := fun _ => twoMedia
  heap := ⟨fun i => ⟨false, [ds.map fun _ => 600, ds.map fun _ => 0, ds.map fun _ => 45, ds].getD i []⟩, 4⟩

/-- An objective for `n` of these points, weighted or not. -/
def barObj (w : Bool) (n : ℕ) : Objective where
  model := 0
  data := { wav := 0, aoi := 1, psi := 2, dlt := 3, mask := some (List.replicate n true), flipped := false, weighted := w }

theorem bar_varying (ext : Ext) (zs : List Layer → ℝ → ℝ → Bool) (w : Bool) (n : ℕ) (off : ℝ) (ds : List ℝ) :
    varying (exEnv ext zs [1, 2]) (barObj w n) (barSt off ds) = [7] :=
  (ex_varying ext zs off 0).1

theorem bar_presents (off : ℝ) (w : Bool) (a b : ℝ) :
    Presents (barSt off [a]).heap (barObj w 1).data [(600, 0, 45, a)] ∧
    Presents (barSt off [a, b]).heap (barObj w 2).data [(600, 0, 45, a), (600, 0, 45, b)] := by
  constructor <;> constructor <;>
    simp [barSt, barObj, wavelength, aoi, psi, delta, len, access, pick]

theorem bar_values (env : Env) (hdt : env.dt = .float) (o : Objective) (off : ℝ) (es ds : List ℝ) :
    Values env o (barSt off es) (ds.map fun δ => ((600, 0, 45, δ) : Pt)) (ds.map fun _ => (some 45, some (180 + off))) := by
  rw [values_iff]
  induction ds with
  | nil => exact .nil
  | cons δ ds ih =>
    have h := values_iff.mp (ex_values env hdt o off δ)
    cases h with
    | cons h1 _ => exact .cons h1 ih

theorem bar_residuals (ext : Ext) (zs : List Layer → ℝ → ℝ → Bool) (w : Bool) (off a b : ℝ) :
    (residuals (exEnv ext zs [1, 2]) (barObj w 1) none (barSt off [a])).1 =
      .ok [some 0, some (circularDistance (180 + off) a 360)] ∧
    (residuals (exEnv ext zs [1, 2]) (barObj w 2) none (barSt off [a, b])).1 =
      .ok [some 0, some 0, some (circularDistance (180 + off) a 360), some (circularDistance (180 + off) b 360)] := by
  rw [C81_residuals (bar_presents off w a b).1, C81_residuals (bar_presents off w a b).2]
  exact ⟨⟨_, bar_values _ rfl _ off _ [a], by simp⟩, ⟨_, bar_values _ rfl _ off _ [a, b], by simp⟩⟩

theorem bar_set (ext : Ext) (zs : List Layer → ℝ → ℝ → Bool) (w : Bool) (n : ℕ) (off v : ℝ) (ds : List ℝ) :
    setp (exEnv ext zs [1, 2]) (barObj w n) (some [v]) (barSt off ds) = (.ok (), barSt v ds) := by
  rw [setp, if_pos (by rw [bar_varying]; rfl), bar_varying]
  simp [assign, barSt]

theorem bar_dist {a v : ℝ} (h0 : 0 < v) (h1 : v < a - 180) (h2 : a < 360) : circularDistance (180 + v) a 360 = a - 180 - v := by
  unfold circularDistance
  rw [abs_of_neg (by linarith), min_eq_left (by linarith)]
  ring

theorem bar_pvals (ext : Ext) (zs : List Layer → ℝ → ℝ → Bool) (w : Bool) (n : ℕ) (off : ℝ) (ds : List ℝ) :
    pvalsOf (exEnv ext zs [1, 2]) (barObj w n) (barSt off ds) 1 = fun _ => off := by
  funext i
  fin_cases i
  unfold pvalsOf
  rw [bar_varying]
  simp [barSt]

theorem bar_near {a : ℝ} {off : ℝ} (h0 : 0 < off) (h1 : off < a - 180) :
    ∀ᶠ x : Fin 1 → ℝ in nhds fun _ => off, 0 < x 0 ∧ x 0 < a - 180 := by
  have hc : Filter.Tendsto (fun x : Fin 1 → ℝ => x 0) (nhds fun _ => off) (nhds off) :=
    (continuous_apply (0 : Fin 1)).tendsto (fun _ => off)
  exact hc.eventually (Ioo_mem_nhds h0 h1)

theorem bar_estimated (ext : Ext) (zs : List Layer → ℝ → ℝ → Bool) (w : Bool) {off a b : ℝ} (h0 : 0 < off)
    (ha : off < a - 180) (ha' : a < 360) (hb : off < b - 180) (hb' : b < 360) :
    (∃ c, Estimated (exEnv ext zs [1, 2]) (barObj w 1) (barSt off [a]) (fun x => ![0, a - 180 - x 0]) !![0; -1] c) ∧
    (∃ c, Estimated (exEnv ext zs [1, 2]) (barObj w 2) (barSt off [a, b]) (fun x => ![0, 0, a - 180 - x 0, b - 180 - x 0])
      !![0; 0; -1; -1] c) ∧
    (chisqr (exEnv ext zs [1, 2]) (barObj w 1) none (barSt off [a])).1 = .ok (some ((a - 180 - off) ^ 2)) ∧
    (chisqr (exEnv ext zs [1, 2]) (barObj w 2) none (barSt off [a, b])).1 =
      .ok (some ((a - 180 - off) ^ 2 + (b - 180 - off) ^ 2)) := by
  have c1 : (chisqr (exEnv ext zs [1, 2]) (barObj w 1) none (barSt off [a])).1 = .ok (some ((a - 180 - off) ^ 2)) := by
    rw [chisqr_eq, (bar_residuals ext zs w off a b).1, bar_dist h0 ha ha']
    simp [finite, Except.map, sq]
  have c2 : (chisqr (exEnv ext zs [1, 2]) (barObj w 2) none (barSt off [a, b])).1 =
      .ok (some ((a - 180 - off) ^ 2 + (b - 180 - off) ^ 2)) := by
    rw [chisqr_eq, (bar_residuals ext zs w off a b).2, bar_dist h0 ha ha', bar_dist h0 hb hb']
    simp [finite, Except.map, sq]
  refine ⟨?_, ?_, c1, c2⟩
  · refine estimated_one (by rw [bar_varying]; rfl) (by rw [bar_pvals]; exact h0.ne') (by norm_num) ?_ ?_
      ⟨1, by simp⟩ ⟨_, c1⟩
    · rw [bar_pvals]
      filter_upwards [bar_near h0 ha] with x hx
      have hl : List.ofFn x = [x 0] := by simp
      rw [hl, residuals_some, bar_set]
      simp only
      rw [(bar_residuals ext zs w (x 0) a b).1, bar_dist hx.1 hx.2 ha']
      simp
    · unfold IsJacobian
      have h : (fun x : Fin 1 → ℝ => (![0, a - 180 - x 0] : Fin 2 → ℝ)) =
          fun x => LinearMap.toContinuousLinearMap (Matrix.toLin' !![(0 : ℝ); -1]) x + ![0, a - 180] := by
        funext x i
        fin_cases i
        · simp [dotProduct]
        · simp [dotProduct]; ring
      rw [h]
      exact (ContinuousLinearMap.hasFDerivAt _).add_const _
  · refine estimated_one (by rw [bar_varying]; rfl) (by rw [bar_pvals]; exact h0.ne') (by norm_num) ?_ ?_
      ⟨2, by simp⟩ ⟨_, c2⟩
    · rw [bar_pvals]
      filter_upwards [bar_near h0 ha, bar_near h0 hb] with x hx hx'
      have hl : List.ofFn x = [x 0] := by simp
      rw [hl, residuals_some, bar_set]
      simp only
      rw [(bar_residuals ext zs w (x 0) a b).2, bar_dist hx.1 hx.2 ha', bar_dist hx'.1 hx'.2 hb']
      simp
    · unfold IsJacobian
      have h : (fun x : Fin 1 → ℝ => (![0, 0, a - 180 - x 0, b - 180 - x 0] : Fin 4 → ℝ)) =
          fun x => LinearMap.toContinuousLinearMap (Matrix.toLin' !![(0 : ℝ); 0; -1; -1]) x +
            ![0, 0, a - 180, b - 180] := by
        funext x i
        fin_cases i <;> simp [dotProduct] <;> ring
      rw [h]
      exact (ContinuousLinearMap.hasFDerivAt _).add_const _

theorem bar_sharper (ext : Ext) (zs : List Layer → ℝ → ℝ → Bool) (w : Bool) (off a b : ℝ) :
    Sharper (exEnv ext zs [1, 2]) (barObj w 1) (barSt off [a]) (barObj w 2) (barSt off [a, b]) where
  model := ⟨rfl, rfl, rfl⟩
  points := ⟨_, _, (bar_presents off w a b).1, (bar_presents off w a b).2, by simp⟩
  params := fun q hq => by rw [bar_varying] at hq ⊢; exact hq

theorem bar_inverse {C : Matrix (Fin 1) (Fin 1) ℝ} {J : Matrix (Fin m) (Fin 1) ℝ} (h : C * (Jᵀ * J) = 1) :
    C 0 0 * ∑ r, J r 0 ^ 2 = 1 := by
  have := congrFun (congrFun h 0) 0
  simp only [Matrix.mul_apply, Matrix.transpose_apply, Finset.univ_unique, Fin.default_eq_zero, Finset.sum_singleton,
    Matrix.one_apply_eq, ← sq] at this
  exact this

/-- Non-vacuity of `C169_weighted_partial`: a second point halves the variance of the offset. -/
example (ext : Ext) (zs : List Layer → ℝ → ℝ → Bool) : ∃ f J f' J', ∃ C C' : Matrix (Fin 1) (Fin 1) ℝ,
    Estimated (m := 2) (exEnv ext zs [1, 2]) (barObj true 1) (barSt 3 [184]) f J (some C) ∧
    Estimated (m := 4) (exEnv ext zs [1, 2]) (barObj true 2) (barSt 3 [184, 190]) f' J' (some C') ∧
    Sharper (exEnv ext zs [1, 2]) (barObj true 1) (barSt 3 [184]) (barObj true 2) (barSt 3 [184, 190]) ∧
    (barObj true 1).weighted = true ∧ (barObj true 2).weighted = true ∧ C 0 0 = 1 ∧ C' 0 0 = 1 / 2 := by
  obtain ⟨⟨c, hc⟩, ⟨c', hc'⟩, -⟩ := bar_estimated ext zs true (off := 3) (a := 184) (b := 190) (by norm_num) (by norm_num)
    (by norm_num) (by norm_num) (by norm_num)
  obtain ⟨C, i1, -, e, -⟩ := hc.inverse
  obtain ⟨C', i1', -, e', -⟩ := hc'.inverse
  obtain rfl := e rfl
  obtain rfl := e' rfl
  have a1 := bar_inverse i1
  have a2 := bar_inverse i1'
  simp [Fin.sum_univ_succ] at a1 a2
  exact ⟨_, _, _, _, _, _, hc, hc', bar_sharper ext zs true 3 184 190, rfl, rfl, a1, by linarith⟩

/-- C169 fails for data without weights: a second point with a larger residual increases the variance of the offset from 1
to 25/3.  The example also meets the hypotheses of `C169_unweighted_partial`. -/
theorem C169_fails_unweighted (ext : Ext) (zs : List Layer → ℝ → ℝ → Bool) : ∃ f J f' J', ∃ C C' : Matrix (Fin 1) (Fin 1) ℝ,
    Estimated (m := 2) (exEnv ext zs [1, 2]) (barObj false 1) (barSt 3 [184]) f J (some C) ∧
    Estimated (m := 4) (exEnv ext zs [1, 2]) (barObj false 2) (barSt 3 [184, 190]) f' J' (some C') ∧
    Sharper (exEnv ext zs [1, 2]) (barObj false 1) (barSt 3 [184]) (barObj false 2) (barSt 3 [184, 190]) ∧
    (barObj false 1).weighted = false ∧ (barObj false 2).weighted = false ∧
    C 0 0 = 1 ∧ C' 0 0 = 25 / 3 := by
  obtain ⟨⟨c, hc⟩, ⟨c', hc'⟩, q, q'⟩ := bar_estimated ext zs false (off := 3) (a := 184) (b := 190) (by norm_num)
    (by norm_num) (by norm_num) (by norm_num) (by norm_num)
  obtain ⟨C, i1, -, -, e⟩ := hc.inverse
  obtain ⟨C', i1', -, -, e'⟩ := hc'.inverse
  obtain ⟨x, hx, rfl⟩ := e rfl
  obtain ⟨x', hx', rfl⟩ := e' rfl
  rw [q] at hx
  rw [q'] at hx'
  obtain rfl : _ = x := Except.ok.inj hx
  obtain rfl : _ = x' := Except.ok.inj hx'
  have a1 := bar_inverse i1
  have a2 := bar_inverse i1'
  simp [Fin.sum_univ_succ] at a1 a2
  refine ⟨_, _, _, _, _, _, hc, hc', bar_sharper ext zs false 3 184 190, rfl, rfl, ?_, ?_⟩
  · simp [a1]; norm_num
  · have : C' 0 0 = 1 / 2 := by linarith
    simp [this]; norm_num

/-- C169 fails if a singular value is discarded: with the first residual alone, which depends on `3 x + 4 y`, the variances
are 9/625 and 16/625; with a second one that depends on `4 x - 3 y` both are 1/25. -/
theorem C169_fails {eps : ℝ} (h0 : 0 ≤ eps) (h1 : eps < 1 / 2) :
    ∃ s VT s' VT', IsSVD (!![(3 : ℝ), 4; 0, 0] : Matrix (Fin 2) (Fin 2) ℝ) s VT ∧
      covarFin eps s VT 2 false (fun _ : Fin 2 => 0) = .ok !![9 / 625, 12 / 625; 12 / 625, 16 / 625] ∧
      IsSVD (!![(3 : ℝ), 4; 4, -3] : Matrix (Fin 2) (Fin 2) ℝ) s' VT' ∧
      covarFin eps s' VT' 2 false (fun _ : Fin 2 => 0) = .ok !![1 / 25, 0; 0, 1 / 25] := by
  obtain ⟨-, s, VT, h2, h3⟩ := C101_fails_correlated h0 h1
  have hJ : (!![(3 : ℝ), 4; 4, -3] : Matrix (Fin 2) (Fin 2) ℝ) =
      (!![3 / 5, 4 / 5; 4 / 5, -(3 / 5)] : Matrix (Fin 2) (Fin 2) ℝ) * diagonal (fun _ : Fin 2 => 5) *
        (1 : Matrix (Fin 2) (Fin 2) ℝ) := by
    rw [Matrix.mul_one]
    ext i j
    rw [mul_diagonal]
    fin_cases i <;> fin_cases j <;> simp
  have hsvd : IsSVD (!![(3 : ℝ), 4; 4, -3] : Matrix (Fin 2) (Fin 2) ℝ) [5, 5] [![1, 0], ![0, 1]] := by
    refine ⟨(!![3 / 5, 4 / 5; 4 / 5, -(3 / 5)] : Matrix (Fin 2) (Fin 2) ℝ), (fun _ : Fin 2 => 5),
      (1 : Matrix (Fin 2) (Fin 2) ℝ), ?_, ?_, ?_, ?_, ?_, antitone_const, fun _ => by norm_num⟩
    · change _ = List.ofFn (fun _ : Fin 2 => (5 : ℝ)); simp
    · change _ = List.ofFn fun i : Fin 2 => (1 : Matrix (Fin 2) (Fin 2) ℝ) i
      simp
      constructor <;> funext i <;> fin_cases i <;> rfl
    · change (!![3 / 5, 4 / 5; 4 / 5, -(3 / 5)] : Matrix (Fin 2) (Fin 2) ℝ)ᵀ *
        (!![3 / 5, 4 / 5; 4 / 5, -(3 / 5)] : Matrix (Fin 2) (Fin 2) ℝ) = 1
      ext i j
      fin_cases i <;> fin_cases j <;> simp [Matrix.mul_apply, Fin.sum_univ_succ] <;> norm_num
    · change (1 : Matrix (Fin 2) (Fin 2) ℝ) * (1 : Matrix (Fin 2) (Fin 2) ℝ)ᵀ = 1
      simp
    · exact hJ
  refine ⟨s, VT, _, _, h2, h3, hsvd, ?_⟩
  have hc : covarOf (eps * (max 2 2 : ℕ) * 5) [5, 5] [![1, 0], ![0, 1]] =
      (!![1 / 25, 0; 0, 1 / 25] : Matrix (Fin 2) (Fin 2) ℝ) := by
    unfold covarOf
    have e1 : decide (eps * (max 2 2 : ℕ) * 5 < 5) = true := by
      simp; linarith
    simp only [List.filter_cons, e1, List.filter_nil, if_true]
    ext i j
    fin_cases i <;> fin_cases j <;> simp <;> norm_num
  simp only [covarFin, threshold]
  change (if _ then _ else _) = _
  simp only [Bool.false_eq_true, if_false]
  rw [hc, if_neg]
  rintro ⟨i, hi⟩
  fin_cases i <;> norm_num at hi

end Verif.Obj
