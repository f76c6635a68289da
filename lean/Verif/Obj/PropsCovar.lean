import Verif.Obj.CovarModel
import Verif.Obj.PropsHist
import Mathlib.Analysis.Calculus.FDeriv.Comp
import Mathlib.Analysis.Calculus.FDeriv.Linear
import Mathlib.Topology.Algebra.Module.FiniteDimension
import Mathlib.LinearAlgebra.Matrix.ToLin

/-!
# C100-C102: the covariance returned by `ObjectiveSE.covar`
-/

namespace Verif.Obj
open Matrix Verif.Struct Verif.TMM Verif.RModel Verif.Data

variable {m p : ℕ}

theorem filter_zip {β : Type} {thr : ℝ} : ∀ (s : List ℝ) (V : List β), s.Pairwise (· ≥ ·) →
    (open Classical in (s.filter fun x => decide (thr < x)).zip
      (V.take (s.filter fun x => decide (thr < x)).length)) =
    (open Classical in (s.zip V).filter fun x => decide (thr < x.1))
  | [], V, _ => by simp
  | a :: s, [], _ => by simp
  | a :: s, v :: V, h => by
    classical
    rw [List.pairwise_cons] at h
    by_cases ha : thr < a
    · rw [List.zip_cons_cons, List.filter_cons_of_pos (by simpa using ha),
        List.filter_cons_of_pos (by simpa using ha), List.length_cons, List.take_succ_cons,
        List.zip_cons_cons, filter_zip s V h.2]
    · have hs : s.filter (fun x => decide (thr < x)) = [] := by
        rw [List.filter_eq_nil_iff]
        intro b hb
        have := h.1 b hb
        simp only [decide_eq_true_eq, not_lt]
        exact this.trans (not_lt.mp ha)
      rw [List.zip_cons_cons, List.filter_cons_of_neg (by simpa using ha),
        List.filter_cons_of_neg (by simpa using ha), ← filter_zip s V h.2, hs]
      simp

theorem sum_filter_map {α M : Type} [AddCommMonoid M] (P : α → Prop) [DecidablePred P] (g : α → M) :
    ∀ l : List α, ((l.filter fun x => decide (P x)).map g).sum =
      (l.map fun x => if P x then g x else 0).sum
  | [] => rfl
  | a :: l => by
    by_cases h : P a <;> simp [h, sum_filter_map P g l]

theorem zip_ofFn {α β : Type} : ∀ {k : ℕ} (f : Fin k → α) (g : Fin k → β),
    (List.ofFn f).zip (List.ofFn g) = List.ofFn fun i => (f i, g i)
  | 0, _, _ => rfl
  | k + 1, f, g => by simp [List.ofFn_succ, zip_ofFn]

/-- Inverse squares of the singular values that are kept. -/
noncomputable def inv2 {k : ℕ} (thr : ℝ) (σ : Fin k → ℝ) (i : Fin k) : ℝ :=
  open Classical in if thr < σ i then (σ i ^ 2)⁻¹ else 0

theorem covarOf_eq {k : ℕ} (thr : ℝ) {σ : Fin k → ℝ} (hσ : Antitone σ) (W : Matrix (Fin k) (Fin p) ℝ) :
    covarOf thr (List.ofFn σ) (List.ofFn fun i => W i) = Wᵀ * diagonal (inv2 thr σ) * W := by
  classical
  unfold covarOf
  simp only
  rw [filter_zip]
  · rw [sum_filter_map (fun x : ℝ × (Fin p → ℝ) => thr < x.1), zip_ofFn, List.map_ofFn, List.sum_ofFn]
    ext i j
    rw [Matrix.sum_apply, mul_apply]
    refine Finset.sum_congr rfl fun l _ => ?_
    rw [mul_diagonal, transpose_apply]
    simp only [Function.comp_apply, inv2]
    split_ifs with h
    · simp only [of_apply, div_eq_mul_inv]
    · simp
  · rw [List.pairwise_ofFn]
    exact fun i j h => hσ h.le

theorem diag_covar {k : ℕ} (d : Fin k → ℝ) (W : Matrix (Fin k) (Fin p) ℝ) (i : Fin p) :
    (Wᵀ * diagonal d * W) i i = ∑ l, d l * W l i ^ 2 := by
  rw [mul_apply]
  refine Finset.sum_congr rfl fun l _ => ?_
  rw [mul_diagonal, transpose_apply]
  ring

theorem inv2_nonneg {k : ℕ} (thr : ℝ) (σ : Fin k → ℝ) (i : Fin k) : 0 ≤ inv2 thr σ i := by
  unfold inv2
  split_ifs
  · positivity
  · exact le_rfl

/-- The covariance in terms of the decomposition. -/
theorem covarFin_eq {k : ℕ} (eps : ℝ) {σ : Fin k → ℝ} (hσ : Antitone σ) (W : Matrix (Fin k) (Fin p) ℝ)
    (hk : 0 < k) (scaled : Bool) (pv : Fin p → ℝ) :
    covarFin eps (List.ofFn σ) (List.ofFn fun i => W i) m scaled pv =
      let C := Wᵀ * diagonal (inv2 (eps * max m p * σ ⟨0, hk⟩) σ) * W
      let C := if scaled then diagonal pv * C * diagonal pv else C
      open Classical in if ∃ i, C i i = 0 then .error .linAlgError else .ok C := by
  classical
  obtain ⟨k, rfl⟩ : ∃ k', k = k' + 1 := ⟨k - 1, by omega⟩
  have ht : threshold eps m p (List.ofFn σ) = .ok (eps * max m p * σ ⟨0, hk⟩) := by
    rw [List.ofFn_succ]; rfl
  have hsc : ∀ c : Matrix (Fin p) (Fin p) ℝ, (of fun i j => c i j * pv j * pv i) =
      diagonal pv * c * diagonal pv := by
    intro c
    ext i j
    rw [mul_diagonal, diagonal_mul, of_apply]
    ring
  unfold covarFin
  rw [ht]
  simp only [covarOf_eq _ hσ, hsc]
  rfl

/-- C100: the linear algebra of covar inverts `Jᵀ J`, whichever way the Jacobian was obtained, as soon as
no singular value is discarded. -/
theorem C100_inverse {J : Matrix (Fin m) (Fin p) ℝ} {s : List ℝ} {VT : List (Fin p → ℝ)} (eps : ℝ)
    (heps : 0 ≤ eps) (scaled : Bool) (pv : Fin p → ℝ) (hpv : scaled = true → ∀ i, pv i ≠ 0)
    (hsvd : IsSVD (if scaled then J * diagonal pv else J) s VT) (hp : 0 < p) (hmp : p ≤ m)
    (hs : ∀ s0 x, s.head? = some s0 → x ∈ s → eps * max m p * s0 < x) :
    ∃ C, covarFin eps s VT m scaled pv = .ok C ∧ C * (Jᵀ * J) = 1 ∧ (Jᵀ * J) * C = 1 := by
  classical
  obtain ⟨U, σ, W, rfl, rfl, hU, hW, hJ, hanti, hnn⟩ := hsvd
  have hk : min m p = p := min_eq_right hmp
  generalize min m p = k at U σ W hU hW hJ hanti hnn hs hk
  subst hk
  rw [covarFin_eq eps hanti W hp]
  set thr := eps * max m k * σ ⟨0, hp⟩ with hthr
  have hlt : ∀ i, thr < σ i := by
    intro i
    refine hs (σ ⟨0, hp⟩) (σ i) ?_ (by simp)
    obtain ⟨k, rfl⟩ : ∃ k', k = k' + 1 := ⟨k - 1, by omega⟩
    rw [List.ofFn_succ]; rfl
  have hthr0 : 0 ≤ thr := by
    have := hnn ⟨0, hp⟩
    positivity
  have hpos : ∀ i, 0 < σ i := fun i => hthr0.trans_lt (hlt i)
  have hW' : Wᵀ * W = 1 := mul_eq_one_comm.mp hW
  set A := (if scaled then J * diagonal pv else J) with hA
  set C0 := Wᵀ * diagonal (inv2 thr σ) * W with hC0
  have hd : diagonal (inv2 thr σ) * (diagonal σ * diagonal σ) = 1 := by
    rw [diagonal_mul_diagonal, diagonal_mul_diagonal, ← diagonal_one]
    congr 1
    funext i
    have := (hpos i).ne'
    simp only [inv2, if_pos (hlt i)]
    field_simp
  have hAA : Aᵀ * A = Wᵀ * (diagonal σ * diagonal σ) * W := by
    rw [hJ, transpose_mul, transpose_mul, diagonal_transpose]
    calc Wᵀ * (diagonal σ * Uᵀ) * (U * diagonal σ * W)
        = Wᵀ * diagonal σ * (Uᵀ * U) * diagonal σ * W := by simp only [Matrix.mul_assoc]
      _ = _ := by rw [hU]; simp only [Matrix.mul_assoc, Matrix.mul_one]
  have h1 : C0 * (Aᵀ * A) = 1 := by
    rw [hAA, hC0]
    calc Wᵀ * diagonal (inv2 thr σ) * W * (Wᵀ * (diagonal σ * diagonal σ) * W)
        = Wᵀ * diagonal (inv2 thr σ) * (W * Wᵀ) * (diagonal σ * diagonal σ) * W := by
          simp only [Matrix.mul_assoc]
      _ = Wᵀ * (diagonal (inv2 thr σ) * (diagonal σ * diagonal σ)) * W := by
          rw [hW]; simp only [Matrix.mul_assoc, Matrix.one_mul]
      _ = 1 := by rw [hd, Matrix.mul_one, hW']
  have hC0d : ∀ i, C0 i i ≠ 0 := by
    intro i h
    rw [hC0, diag_covar] at h
    rw [Finset.sum_eq_zero_iff_of_nonneg
      (fun l _ => mul_nonneg (inv2_nonneg _ _ _) (sq_nonneg _))] at h
    have h0 : ∀ l, W l i = 0 := by
      intro l
      have h2 := h l (Finset.mem_univ l)
      have h3 := (hpos l).ne'
      simp only [inv2, if_pos (hlt l)] at h2
      simpa [h3] using h2
    have h4 := congrFun (congrFun hW' i) i
    rw [mul_apply, one_apply_eq] at h4
    simp [transpose_apply, h0] at h4
  cases scaled with
  | false =>
    simp only [Bool.false_eq_true, if_false] at hA ⊢
    refine ⟨C0, ?_, ?_, ?_⟩
    · rw [if_neg (by rintro ⟨i, hi⟩; exact hC0d i hi)]
    · rw [← hA]; exact h1
    · rw [← hA]; exact mul_eq_one_comm.mp h1
  | true =>
    simp only [if_true] at hA ⊢
    have hPP : diagonal pv * diagonal (fun i => (pv i)⁻¹) = (1 : Matrix (Fin k) (Fin k) ℝ) := by
      rw [diagonal_mul_diagonal, ← diagonal_one]
      congr 1
      funext i
      exact mul_inv_cancel₀ (hpv rfl i)
    have h2 : (Jᵀ * J) * (diagonal pv * C0 * diagonal pv) = 1 := by
      have h3 : Aᵀ * A * C0 = 1 := mul_eq_one_comm.mp h1
      rw [hA, transpose_mul, diagonal_transpose] at h3
      have h4 : diagonal pv * ((Jᵀ * J) * (diagonal pv * C0)) = 1 := by
        rw [← h3]; simp only [Matrix.mul_assoc]
      have h5 : ((Jᵀ * J) * (diagonal pv * C0)) * diagonal pv = 1 := mul_eq_one_comm.mp h4
      rw [← h5]; simp only [Matrix.mul_assoc]
    refine ⟨diagonal pv * C0 * diagonal pv, ?_, mul_eq_one_comm.mp h2, h2⟩
    rw [if_neg]
    rintro ⟨i, hi⟩
    rw [mul_diagonal, diagonal_mul] at hi
    have := hpv rfl i
    simp [this, hC0d i] at hi

/-! ### The covariance as returned -/

variable {env : Env} {o : Objective}

/-- What covar returns, from the Jacobian it obtained. -/
theorem covarFull_ok {D D' : Diff (Matrix (Fin m) (Fin p) ℝ)} {fpe : PyErr → Bool} {n : ℕ} {eps : ℝ}
    {svd : Matrix (Fin m) (Fin p) ℝ → List ℝ × List (Fin p → ℝ)} {st : St}
    (hD : ∀ seen x, D.next seen = .inl x → x.length = (varying env o st).length)
    (hD' : ∀ seen x, D'.next seen = .inl x → x.length = (varying env o st).length)
    {c : Option (Matrix (Fin p) (Fin p) ℝ)}
    (h : (covarFull env o D D' fpe n eps svd st).1 = .ok c) :
    ∃ j C, (covarJac env o D D' fpe n st).1 = .ok j ∧
      covarFin eps (svd j.1).1 (svd j.1).2 m j.2 (pvalsOf env o st p) = .ok C ∧
      (o.weighted = true → c = some C) ∧
      (o.weighted = false → ∃ x, (chisqr env o none st).1 = .ok x ∧
        c = x.bind fun x => covarScale x m C) := by
  have hj := covarJac_sim D D' fpe n st hD hD'
  unfold covarFull covar at h
  rcases hr : covarJac env o D D' fpe n st with ⟨r, s⟩
  rw [hr] at h hj
  cases r with
  | error e => simp at h
  | ok j =>
    simp only at h
    rcases hc : covarFin eps (svd j.1).1 (svd j.1).2 m j.2 (pvalsOf env o st p) with e | C
    · rw [hc] at h; simp [Except.map] at h
    · rw [hc] at h
      simp only [Except.map] at h
      refine ⟨j, C, rfl, hc, ?_, ?_⟩
      · intro hw
        rw [if_pos hw] at h
        simpa using h.symm
      · intro hw
        rw [if_neg (by simp [hw])] at h
        have h3 := chisqr_none_sim (env := env) (o := o) hj
        rcases hq : chisqr env o none s with ⟨r, s'⟩
        rw [hq] at h h3
        cases r with
        | error e => simp at h
        | ok x =>
          refine ⟨x, h3.symm, ?_⟩
          simpa using h.symm

theorem covarJac_ok {α : Type} {D D' : Diff α} {fpe : PyErr → Bool} {n : ℕ} {st : St}
    (hD : ∀ seen x, D.next seen = .inl x → x.length = (varying env o st).length) {j : α × Bool}
    (h : (covarJac env o D D' fpe n st).1 = .ok j) :
    (j.2 = true ∧ (0 : ℝ) ∉ (varying env o st).map st.vals ∧
      (D.run env o (fun x => List.zipWith (· * ·) ((varying env o st).map st.vals) x) n [] st).1 =
        .ok j.1) ∨
    (j.2 = false ∧ ∃ st', SameBut env o st st' ∧ (D'.run env o (fun x => x) n [] st').1 = .ok j.1) := by
  classical
  set pv := (varying env o st).map st.vals with hpv
  have hdr : Drift env o st (D.run env o (fun x => List.zipWith (· * ·) pv x) n [] st).2 :=
    run_drift (fun seen x hx => by simp [hD seen x hx, hpv]) n [] st (Drift.refl st)
  unfold covarJac at h
  simp only [← hpv] at h
  have second : ∀ (e : PyErr) (s : St), Drift env o st s →
      ((match setp env o (some pv) (match (Except.error e, s) with
          | (.ok j, st) => (.ok (j, true), st)
          | (.error e, st1) =>
            if (0 : ℝ) ∈ pv ∨ fpe e = true then
              match D'.run env o (fun x => x) n [] st1 with
              | (.ok j, st) => (.ok (j, false), st)
              | (.error e, st) => (.error e, st)
            else (.error e, st1) : Except PyErr (α × Bool) × St).2 with
        | (.error e, st) => (.error e, st)
        | (.ok _, st) => ((match (Except.error e, s) with
          | (.ok j, st) => (.ok (j, true), st)
          | (.error e, st1) =>
            if (0 : ℝ) ∈ pv ∨ fpe e = true then
              match D'.run env o (fun x => x) n [] st1 with
              | (.ok j, st) => (.ok (j, false), st)
              | (.error e, st) => (.error e, st)
            else (.error e, st1) : Except PyErr (α × Bool) × St).1, st) :
        Except PyErr (α × Bool) × St).1 = .ok j) →
      j.2 = false ∧ ∃ st', SameBut env o st st' ∧ (D'.run env o (fun x => x) n [] st').1 = .ok j.1 := by
    intro e s hs h
    split at h
    · simp at h
    · simp only at h
      split_ifs at h with h0
      rcases hr : D'.run env o (fun x => x) n [] s with ⟨r, s'⟩
      rw [hr] at h
      cases r with
      | error e => simp at h
      | ok A =>
        simp only [Except.ok.injEq] at h
        subst h
        exact ⟨rfl, s, ⟨hs.sim, hs.fixed⟩, by rw [hr]⟩
  by_cases h0 : (0 : ℝ) ∈ pv
  · simp only [if_pos h0] at h
    refine Or.inr (second .external st (Drift.refl st) ?_)
    simp only [h0, true_or, if_true]
    simp only [h0, true_or, if_true] at h
    exact h
  · simp only [if_neg h0] at h
    rcases hr : D.run env o (fun x => List.zipWith (· * ·) pv x) n [] st with ⟨r, s⟩
    rw [hr] at h hdr
    cases r with
    | error e => exact Or.inr (second e s hdr h)
    | ok A =>
      left
      simp only at h
      split at h
      · simp at h
      · simp only [Except.ok.injEq] at h
        subst h
        exact ⟨rfl, h0, rfl⟩

/-- The residuals, as a function of the values of the varying parameters, are `f` near `x0`. -/
def ResidualsNear (env : Env) (o : Objective) (st : St) (scale : List ℝ → List ℝ) (x0 : Fin p → ℝ)
    (f : (Fin p → ℝ) → Fin m → ℝ) : Prop :=
  ∀ᶠ x in nhds x0,
    (residuals env o (some (scale (List.ofFn x))) st).1 = .ok ((List.ofFn (f x)).map some)

/-- `J` is the matrix of partial derivatives of `f` at `x0`. -/
def IsJacobian (f : (Fin p → ℝ) → Fin m → ℝ) (x0 : Fin p → ℝ) (J : Matrix (Fin m) (Fin p) ℝ) : Prop :=
  HasFDerivAt f (LinearMap.toContinuousLinearMap (Matrix.toLin' J)) x0

/-- The differentiation is exact: if the residuals near `x0` have a Jacobian it returns no other matrix. -/
def Differentiates (env : Env) (o : Objective) (n : ℕ) (scale : List ℝ → List ℝ) (x0 : Fin p → ℝ) (st : St)
    (D : Diff (Matrix (Fin m) (Fin p) ℝ)) : Prop :=
  ∀ f J A, ResidualsNear env o st scale x0 f → IsJacobian f x0 J →
    (D.run env o scale n [] st).1 = .ok A → A = J

theorem pvalsOf_ofFn {st : St} (hp : (varying env o st).length = p) :
    List.ofFn (pvalsOf env o st p) = (varying env o st).map st.vals := by
  subst hp
  apply List.ext_getElem
  · simp
  · intro i h1 h2
    have : i < (varying env o st).length := by simpa using h1
    simp [pvalsOf, this]

/-- Differentiating with respect to the parameters divided by their values. -/
theorem jacobian_scaled {f : (Fin p → ℝ) → Fin m → ℝ} {x0 : Fin p → ℝ} {J : Matrix (Fin m) (Fin p) ℝ}
    (h : IsJacobian f x0 J) : IsJacobian (fun x => f (x0 * x)) 1 (J * diagonal x0) := by
  unfold IsJacobian at *
  have h1 : HasFDerivAt (fun x : Fin p → ℝ => x0 * x)
      (LinearMap.toContinuousLinearMap (Matrix.toLin' (diagonal x0))) 1 := by
    have : (fun x : Fin p → ℝ => x0 * x) =
        LinearMap.toContinuousLinearMap (Matrix.toLin' (diagonal x0)) := by
      funext x
      funext i
      simp [Matrix.mulVec_diagonal]
    rw [this]
    exact ContinuousLinearMap.hasFDerivAt _
  have h2 : HasFDerivAt f (LinearMap.toContinuousLinearMap (Matrix.toLin' J)) (x0 * 1) := by
    rwa [mul_one]
  have h3 := h2.comp (1 : Fin p → ℝ) h1
  refine h3.congr_fderiv ?_
  ext x i
  simp [Matrix.toLin'_mul]

/-- C100: covar returns the inverse of `Jᵀ J`, where `J` is the Jacobian of the residuals with respect to the
varying parameters at their current values, times chi-squared over the number of residuals in excess of
parameters if the objective is not weighted.  This is so whether or not a parameter is zero, i.e.
whether or not the Jacobian was taken in scaled parameters, and is the covariance before the call. -/
theorem C100_covar {D D' : Diff (Matrix (Fin m) (Fin p) ℝ)} {fpe : PyErr → Bool} {n : ℕ} {eps : ℝ}
    {svd : Matrix (Fin m) (Fin p) ℝ → List ℝ × List (Fin p → ℝ)} {st : St}
    {f : (Fin p → ℝ) → Fin m → ℝ} {J : Matrix (Fin m) (Fin p) ℝ}
    (hp : (varying env o st).length = p) (hp0 : 0 < p) (hpm : p < m) (heps : 0 ≤ eps)
    (hf : ResidualsNear env o st (fun x => x) (pvalsOf env o st p) f)
    (hJ : IsJacobian f (pvalsOf env o st p) J)
    (hD : Differentiates env o n
      (fun x => List.zipWith (· * ·) ((varying env o st).map st.vals) x) 1 st D)
    (hD' : ∀ st', SameBut env o st st' →
      Differentiates env o n (fun x => x) (pvalsOf env o st p) st' D')
    (hl : ∀ seen x, D.next seen = .inl x → x.length = (varying env o st).length)
    (hl' : ∀ seen x, D'.next seen = .inl x → x.length = (varying env o st).length)
    (hsvd : ∀ A, A = J ∨ A = J * diagonal (pvalsOf env o st p) → IsSVD A (svd A).1 (svd A).2)
    (hrank : ∀ A, A = J ∨ A = J * diagonal (pvalsOf env o st p) →
      ∀ s0 x, (svd A).1.head? = some s0 → x ∈ (svd A).1 → eps * max m p * s0 < x)
    {c : Option (Matrix (Fin p) (Fin p) ℝ)}
    (h : (covarFull env o D D' fpe n eps svd st).1 = .ok c) :
    ∃ C, C * (Jᵀ * J) = 1 ∧ (Jᵀ * J) * C = 1 ∧
      (o.weighted = true → c = some C) ∧
      (o.weighted = false → ∃ x, (chisqr env o none st).1 = .ok x ∧
        c = x.map fun χ : ℝ => (χ / ((m : ℝ) - p)) • C) := by
  obtain ⟨j, C, hj, hC, h1, h2⟩ := covarFull_ok hl hl' h
  set pv := pvalsOf env o st p with hpv
  have hpl : List.ofFn pv = (varying env o st).map st.vals := pvalsOf_ofFn hp
  have hjA : j.1 = (if j.2 then J * diagonal pv else J) ∧ (j.2 = true → ∀ i, pv i ≠ 0) := by
    rcases covarJac_ok hl hj with ⟨h3, h4, h5⟩ | ⟨h3, st', h4, h5⟩
    · rw [h3]
      simp only [if_true]
      refine ⟨hD (fun x => f (pv * x)) _ _ ?_ (jacobian_scaled hJ) h5, fun _ i hi => h4 ?_⟩
      · have ht : Filter.Tendsto (fun x : Fin p → ℝ => pv * x) (nhds 1) (nhds pv) := by
          have : Filter.Tendsto (fun x : Fin p → ℝ => pv * x) (nhds 1) (nhds (pv * 1)) :=
            (continuous_const.mul continuous_id).tendsto _
          rwa [mul_one] at this
        filter_upwards [ht.eventually hf] with x hx
        rw [← hx, ← hpl]
        congr 3
        apply List.ext_getElem
        · simp
        · intro i h1 h2
          simp
      · rw [← hpl, ← hi]
        simp
    · rw [h3]
      simp only [Bool.false_eq_true, if_false]
      refine ⟨hD' st' h4 f J _ ?_ hJ h5, by simp⟩
      filter_upwards [hf] with x hx
      rw [(C90_function h4 _).1]
      exact hx
  obtain ⟨C', hC', h5, h6⟩ := C100_inverse (J := J) (s := (svd j.1).1) (VT := (svd j.1).2) eps heps j.2 pv
    hjA.2 (by rw [← hjA.1]; exact hsvd _ (by rw [hjA.1]; cases j.2 <;> simp)) hp0 hpm.le
    (hrank j.1 (by rw [hjA.1]; cases j.2 <;> simp))
  rw [hC] at hC'
  cases hC'
  refine ⟨C, h5, h6, h1, fun hw => ?_⟩
  obtain ⟨x, hx, hc⟩ := h2 hw
  refine ⟨x, hx, ?_⟩
  rw [hc]
  have hne : (m : ℝ) - p ≠ 0 := by
    have : (p : ℝ) < m := by exact_mod_cast hpm
    linarith
  cases x with
  | none => rfl
  | some x => simp [covarScale, rdiv_of_ne hne]

/-- A differentiation that returns the right matrix. -/
theorem differentiates_const {st : St} {scale : List ℝ → List ℝ} {x0 : Fin p → ℝ}
    {g : (Fin p → ℝ) → Fin m → ℝ} {A : Matrix (Fin m) (Fin p) ℝ} {n : ℕ}
    (hg : ResidualsNear env o st scale x0 g) (hA : IsJacobian g x0 A) :
    Differentiates env o (n + 1) scale x0 st ⟨fun _ => .inr (.ok A)⟩ := by
  intro f J B hf hJ hB
  have hB' : B = A := by simpa [Diff.run] using hB.symm
  rw [hB']
  have he : f =ᶠ[nhds x0] g := by
    filter_upwards [hf, hg] with x h1 h2
    rw [h1] at h2
    simp only [Except.ok.injEq] at h2
    exact List.ofFn_injective (List.map_injective_iff.mpr (Option.some_injective ℝ) h2)
  have h1 : IsJacobian g x0 J := by
    unfold IsJacobian at *
    exact hJ.congr_of_eventuallyEq he.symm
  have h2 := HasFDerivAt.unique hA h1
  have h3 := LinearMap.toContinuousLinearMap.injective h2
  exact Matrix.toLin'.injective h3

/-- The residuals of the example: 0 and 10 minus the offset. -/
theorem ex_residuals_at (ext : Ext) (zs : List Layer → ℝ → ℝ → Bool) {off v : ℝ} (hv : 0 < v)
    (hv' : v < 10) :
    (residuals (exEnv ext zs [1, 2]) exObj (some [v]) (exSt off 190)).1 =
      .ok [some 0, some (10 - v)] := by
  have h1 : setp (exEnv ext zs [1, 2]) exObj (some [v]) (exSt off 190) = (.ok (), exSt v 190) := by
    rw [setp, if_pos (by rw [(ex_varying ext zs off 190).1]; rfl), (ex_varying ext zs off 190).1]
    simp [assign, exSt]
  rw [residuals_some, h1]
  simp only
  rw [ex_residuals _ rfl]
  have : circularDistance (180 + v) 190 360 = 10 - v := by
    unfold circularDistance
    rw [abs_of_neg (by linarith), min_eq_left (by linarith)]
    ring
  rw [this]

theorem ex_near (ext : Ext) (zs : List Layer → ℝ → ℝ → Bool) {off : ℝ} :
    ResidualsNear (exEnv ext zs [1, 2]) exObj (exSt off 190) (fun x => x) (fun _ : Fin 1 => (3 : ℝ))
      (fun x => ![0, 10 - x 0]) := by
  have h1 : ∀ᶠ x : Fin 1 → ℝ in nhds fun _ => 3, 0 < x 0 ∧ x 0 < 10 := by
    have hc : Filter.Tendsto (fun x : Fin 1 → ℝ => x 0) (nhds fun _ => 3) (nhds 3) :=
      (continuous_apply (0 : Fin 1)).tendsto (fun _ => (3 : ℝ))
    exact hc.eventually (Ioo_mem_nhds (by norm_num) (by norm_num))
  filter_upwards [h1] with x hx
  have := ex_residuals_at ext zs (off := off) hx.1 hx.2
  simpa using this

theorem ex_jacobian : IsJacobian (fun x : Fin 1 → ℝ => ![0, 10 - x 0]) (fun _ => 3) !![0; -1] := by
  unfold IsJacobian
  have h : (fun x : Fin 1 → ℝ => (![0, 10 - x 0] : Fin 2 → ℝ)) =
      fun x => LinearMap.toContinuousLinearMap (Matrix.toLin' !![(0 : ℝ); -1]) x + ![0, 10] := by
    funext x i
    fin_cases i
    · simp [dotProduct]
    · simp [dotProduct]; ring
  rw [h]
  exact (ContinuousLinearMap.hasFDerivAt _).add_const _

/-- A decomposition for the example. -/
noncomputable def exSvd (A : Matrix (Fin 2) (Fin 1) ℝ) : List ℝ × List (Fin 1 → ℝ) :=
  ([-(A 1 0)], [![1]])

theorem ex_svd {a : ℝ} (ha : a ≤ 0) : IsSVD !![0; a] (exSvd !![0; a]).1 (exSvd !![0; a]).2 := by
  refine ⟨(!![0; -1] : Matrix (Fin 2) (Fin 1) ℝ), (fun _ : Fin 1 => -a), (!![1] : Matrix (Fin 1) (Fin 1) ℝ),
    ?_, ?_, ?_, ?_, ?_, ?_, ?_⟩
  · change [-a] = List.ofFn (fun _ : Fin 1 => -a); simp
  · change [![1]] = List.ofFn (fun i : Fin 1 => (!![(1 : ℝ)] : Matrix (Fin 1) (Fin 1) ℝ) i)
    simp
    funext i; fin_cases i; rfl
  · change (!![0; -1] : Matrix (Fin 2) (Fin 1) ℝ)ᵀ * !![0; -1] = 1
    ext i j; fin_cases i; fin_cases j; simp [mul_apply]
  · change (!![1] : Matrix (Fin 1) (Fin 1) ℝ) * !![1]ᵀ = 1
    ext i j; fin_cases i; fin_cases j; simp [mul_apply]
  · change (!![0; a] : Matrix (Fin 2) (Fin 1) ℝ) =
      (!![0; -1] : Matrix (Fin 2) (Fin 1) ℝ) * diagonal (fun _ : Fin 1 => -a) *
        (!![1] : Matrix (Fin 1) (Fin 1) ℝ)
    ext i j; fin_cases j; fin_cases i <;> simp [mul_apply]
  · exact antitone_const
  · intro i; simpa using ha

theorem ex_covarJac (ext : Ext) (zs : List Layer → ℝ → ℝ → Bool) (A B : Matrix (Fin 2) (Fin 1) ℝ) :
    covarJac (exEnv ext zs [1, 2]) exObj ⟨fun _ => .inr (.ok A)⟩ ⟨fun _ => .inr (.ok B)⟩
      (fun _ => false) 1 (exSt 3 190) = (.ok (A, true), exSt 3 190) := by
  have hv := (ex_varying ext zs 3 190).1
  have hval : (exSt 3 190).vals 7 = 3 := by simp [exSt]
  have hset : setp (exEnv ext zs [1, 2]) exObj (some [3]) (exSt 3 190) = (.ok (), exSt 3 190) := by
    rw [setp, if_pos (by rw [hv]; rfl), hv]
    simp [assign, exSt]
  simp [covarJac, hv, hval, Diff.run, hset]

theorem ex_pvals (ext : Ext) (zs : List Layer → ℝ → ℝ → Bool) :
    pvalsOf (exEnv ext zs [1, 2]) exObj (exSt 3 190) 1 = fun _ => 3 := by
  funext i
  fin_cases i
  unfold pvalsOf
  rw [(ex_varying ext zs 3 190).1]
  simp [exSt]

theorem ex_chisqr (ext : Ext) (zs : List Layer → ℝ → ℝ → Bool) :
    (chisqr (exEnv ext zs [1, 2]) exObj none (exSt 3 190)).1 = .ok (some 49) := by
  rw [chisqr_eq, ex_residuals _ rfl]
  norm_num [circularDistance, finite, abs_of_neg, Except.map]

/-- Non-vacuity of C100: the offset of the example is 3, its residuals are 0 and 7; the Jacobian is taken in
scaled parameters.  All hypotheses of the theorem hold and the variance is 49. -/
theorem ex_covar (ext : Ext) (zs : List Layer → ℝ → ℝ → Bool) :
    (covarFull (exEnv ext zs [1, 2]) exObj ⟨fun _ => .inr (.ok !![0; -3])⟩ ⟨fun _ => .inr (.ok !![0; -1])⟩
      (fun _ => false) 1 (1 / 4) exSvd (exSt 3 190)).1 = .ok (some !![49]) := by
  set env := exEnv ext zs [1, 2] with henv
  set D : Diff (Matrix (Fin 2) (Fin 1) ℝ) := ⟨fun _ => .inr (.ok !![0; -3])⟩ with hDd
  set D' : Diff (Matrix (Fin 2) (Fin 1) ℝ) := ⟨fun _ => .inr (.ok !![0; -1])⟩ with hDd'
  have hv : (varying env exObj (exSt 3 190)) = [7] := (ex_varying ext zs 3 190).1
  have hpv : pvalsOf env exObj (exSt 3 190) 1 = fun _ => 3 := ex_pvals ext zs
  have hsc : (!![0; -1] : Matrix (Fin 2) (Fin 1) ℝ) * diagonal (fun _ : Fin 1 => (3 : ℝ)) = !![0; -3] := by
    ext i j; fin_cases j; fin_cases i <;> simp
  have hsvd : ∀ A : Matrix (Fin 2) (Fin 1) ℝ,
      A = !![0; -1] ∨
        A = (!![0; -1] : Matrix (Fin 2) (Fin 1) ℝ) * diagonal (pvalsOf env exObj (exSt 3 190) 1) →
      IsSVD A (exSvd A).1 (exSvd A).2 := by
    rw [hpv, hsc]
    rintro A (rfl | rfl)
    · exact ex_svd (by norm_num)
    · exact ex_svd (by norm_num)
  have hrank : ∀ A : Matrix (Fin 2) (Fin 1) ℝ,
      A = !![0; -1] ∨
        A = (!![0; -1] : Matrix (Fin 2) (Fin 1) ℝ) * diagonal (pvalsOf env exObj (exSt 3 190) 1) →
      ∀ s0 x, (exSvd A).1.head? = some s0 → x ∈ (exSvd A).1 → 1 / 4 * (max 2 1 : ℕ) * s0 < x := by
    rw [hpv, hsc]
    rintro A (rfl | rfl) s0 x h1 h2
    · simp [exSvd] at h1 h2
      rw [← h1, h2]; norm_num
    · simp [exSvd] at h1 h2
      rw [← h1, h2]; norm_num
  have hval : (exSt 3 190).vals 7 = 3 := by simp [exSt]
  have hc : ∃ c, (covarFull env exObj D D' (fun _ => false) 1 (1 / 4) exSvd (exSt 3 190)).1 = .ok c := by
    obtain ⟨C, hC, -⟩ := C100_inverse (J := !![0; -1]) (s := (exSvd !![0; -3]).1)
      (VT := (exSvd !![0; -3]).2) (1 / 4) (by norm_num) true (pvalsOf env exObj (exSt 3 190) 1)
      (by intro _ i; rw [hpv]; norm_num)
      (by rw [if_pos rfl, hpv, hsc]; exact ex_svd (by norm_num)) (by norm_num) (by norm_num)
      (hrank _ (Or.inr (by rw [hpv, hsc])))
    have hj : covarJac env exObj D D' (fun _ => false) 1 (exSt 3 190) =
        (.ok (!![0; -3], true), exSt 3 190) := ex_covarJac ext zs _ _
    have hq := ex_chisqr ext zs
    rcases hr : chisqr env exObj none (exSt 3 190) with ⟨r, s⟩
    rw [← henv, hr] at hq
    subst hq
    unfold covarFull covar
    simp only [hj, hC, Except.map, hr]
    split <;> exact ⟨_, rfl⟩
  obtain ⟨c, hc⟩ := hc
  have hn : ResidualsNear env exObj (exSt 3 190) (fun x => x) (pvalsOf env exObj (exSt 3 190) 1)
      (fun x => ![0, 10 - x 0]) := by rw [hpv]; exact ex_near ext zs
  have hJ : IsJacobian (fun x : Fin 1 → ℝ => ![0, 10 - x 0]) (pvalsOf env exObj (exSt 3 190) 1)
      !![0; -1] := by rw [hpv]; exact ex_jacobian
  obtain ⟨C, h1, -, -, h2⟩ := C100_covar (o := exObj) (by rw [hv]; rfl) (by norm_num) (by norm_num)
    (by norm_num) hn hJ
    (by
      refine differentiates_const (n := 0) (g := fun x : Fin 1 → ℝ => ![0, 10 - ((fun _ : Fin 1 => (3 : ℝ)) * x) 0]) ?_ ?_
      · have ht : Filter.Tendsto (fun x : Fin 1 → ℝ => (fun _ => (3 : ℝ)) * x) (nhds 1)
            (nhds fun _ => 3) := by
          have : Filter.Tendsto (fun x : Fin 1 → ℝ => (fun _ => (3 : ℝ)) * x) (nhds 1)
            (nhds ((fun _ => 3) * 1)) := (continuous_const.mul continuous_id).tendsto _
          rwa [mul_one] at this
        filter_upwards [ht.eventually (ex_near ext zs (off := 3))] with x hx
        rw [← hx, hv]
        simp [hval]
        rfl
      · have := jacobian_scaled ex_jacobian
        rwa [hsc] at this)
    (by
      intro st' hs
      refine differentiates_const (n := 0) (g := fun x => ![0, 10 - x 0]) ?_ hJ
      filter_upwards [hn] with x hx
      rw [(C90_function hs _).1]
      exact hx)
    (by intro seen x h; simp [hDd] at h) (by intro seen x h; simp [hDd'] at h) hsvd hrank hc
  obtain ⟨x, hx, h3⟩ := h2 rfl
  rw [ex_chisqr ext zs] at hx
  cases hx
  rw [hc, h3]
  have hC : C = 1 := by
    have : (!![0; -1] : Matrix (Fin 2) (Fin 1) ℝ)ᵀ * (!![0; -1] : Matrix (Fin 2) (Fin 1) ℝ) = 1 := by
      ext i j; fin_cases i; fin_cases j; simp [mul_apply]
    rwa [this, Matrix.mul_one] at h1
  rw [hC]
  simp only [Option.map_some, Except.ok.injEq, Option.some.injEq]
  ext i j; fin_cases i; fin_cases j; norm_num

/-! ### C101 parameters without effect -/

theorem svd_head {k : ℕ} (σ : Fin k → ℝ) (hk : 0 < k) : (List.ofFn σ).head? = some (σ ⟨0, hk⟩) := by
  obtain ⟨k, rfl⟩ : ∃ k', k = k' + 1 := ⟨k - 1, by omega⟩
  rw [List.ofFn_succ]; rfl

theorem proj_diag {k : ℕ} {W : Matrix (Fin k) (Fin p) ℝ} (hW : W * Wᵀ = 1) (i : Fin p) :
    ∑ l, W l i ^ 2 ≤ 1 := by
  -- `WᵀW` is a symmetric projection
  set P := Wᵀ * W with hP
  have h1 : P * P = P := by
    rw [hP]
    calc Wᵀ * W * (Wᵀ * W) = Wᵀ * (W * Wᵀ) * W := by simp only [Matrix.mul_assoc]
      _ = _ := by rw [hW, Matrix.mul_one]
  have h2 : P i i = ∑ l, W l i ^ 2 := by
    rw [hP, mul_apply]
    exact Finset.sum_congr rfl fun l _ => by rw [transpose_apply]; ring
  have h3 : ∀ j, P j i = P i j := by
    intro j
    have : Pᵀ = P := by rw [hP, transpose_mul, transpose_transpose]
    exact congrFun (congrFun this i) j
  have h4 : P i i = ∑ j, P i j ^ 2 := by
    conv_lhs => rw [← h1, mul_apply]
    exact Finset.sum_congr rfl fun j _ => by rw [h3 j]; ring
  have h5 : P i i ^ 2 ≤ P i i := by
    conv_rhs => rw [h4]
    exact Finset.single_le_sum (f := fun j => P i j ^ 2) (fun _ _ => sq_nonneg _) (Finset.mem_univ i)
  rw [← h2]
  nlinarith [sq_nonneg (P i i - 1)]

theorem svd_column {k : ℕ} {A : Matrix (Fin m) (Fin p) ℝ} {U : Matrix (Fin m) (Fin k) ℝ} {σ : Fin k → ℝ}
    {W : Matrix (Fin k) (Fin p) ℝ} (hU : Uᵀ * U = 1) (hA : A = U * diagonal σ * W) (i : Fin p) :
    ∑ r, A r i ^ 2 = ∑ l, σ l ^ 2 * W l i ^ 2 := by
  have h1 : (Aᵀ * A) i i = ∑ r, A r i ^ 2 := by
    rw [mul_apply]
    exact Finset.sum_congr rfl fun r _ => by rw [transpose_apply]; ring
  have hAA : Aᵀ * A = Wᵀ * (diagonal σ * diagonal σ) * W := by
    rw [hA, transpose_mul, transpose_mul, diagonal_transpose]
    calc Wᵀ * (diagonal σ * Uᵀ) * (U * diagonal σ * W)
        = Wᵀ * diagonal σ * (Uᵀ * U) * diagonal σ * W := by simp only [Matrix.mul_assoc]
      _ = _ := by rw [hU]; simp only [Matrix.mul_assoc, Matrix.mul_one]
  rw [← h1, hAA, diagonal_mul_diagonal, diag_covar]
  exact Finset.sum_congr rfl fun l _ => by ring

/-- C101: a parameter on which no residual depends (its column of the Jacobian is zero) makes covar raise
LinAlgError.  Missing: combinations of parameters on which no residual depends, see C101_fails_correlated. -/
theorem C101_no_effect_partial {D D' : Diff (Matrix (Fin m) (Fin p) ℝ)} {fpe : PyErr → Bool} {n : ℕ} {eps : ℝ}
    {svd : Matrix (Fin m) (Fin p) ℝ → List ℝ × List (Fin p → ℝ)} {st : St} (heps : 0 ≤ eps) (hm : 0 < m)
    {j : Matrix (Fin m) (Fin p) ℝ × Bool} (hj : (covarJac env o D D' fpe n st).1 = .ok j)
    (hsvd : IsSVD j.1 (svd j.1).1 (svd j.1).2) (i : Fin p) (hi : ∀ r, j.1 r i = 0) :
    (covarFull env o D D' fpe n eps svd st).1 = .error .linAlgError := by
  classical
  have key : covarFin eps (svd j.1).1 (svd j.1).2 m j.2 (pvalsOf env o st p) = .error .linAlgError := by
    obtain ⟨U, σ, W, hs, hV, hU, hW, hJ, hanti, hnn⟩ := hsvd
    have hk : 0 < min m p := lt_min hm i.pos
    rw [hs, hV, covarFin_eq eps hanti W hk]
    set thr := eps * max m p * σ ⟨0, hk⟩ with hthr
    have hthr0 : 0 ≤ thr := by
      have := hnn ⟨0, hk⟩
      positivity
    have hcol := svd_column hU hJ i
    simp only [hi] at hcol
    have hz : ∀ l, σ l ^ 2 * W l i ^ 2 = 0 := by
      have h0 : ∑ l, σ l ^ 2 * W l i ^ 2 = 0 := by rw [← hcol]; simp
      rw [Finset.sum_eq_zero_iff_of_nonneg (fun l _ => by positivity)] at h0
      exact fun l => h0 l (Finset.mem_univ l)
    have hc : (Wᵀ * diagonal (inv2 thr σ) * W) i i = 0 := by
      rw [diag_covar]
      refine Finset.sum_eq_zero fun l _ => ?_
      unfold inv2
      split_ifs with hl
      · have h1 : σ l ≠ 0 := (hthr0.trans_lt hl).ne'
        have h2 : W l i = 0 := by simpa [h1] using hz l
        simp [h2]
      · simp
    simp only
    rw [if_pos]
    refine ⟨i, ?_⟩
    split_ifs
    · rw [mul_diagonal, diagonal_mul, hc]; simp
    · exact hc
  unfold covarFull covar
  rcases hr : covarJac env o D D' fpe n st with ⟨r, s⟩
  rw [hr] at hj
  simp only at hj
  subst hj
  simp only [key, Except.map]

/-- Non-vacuity of C101_no_effect_partial: the offset with a Jacobian that is zero. -/
example (ext : Ext) (zs : List Layer → ℝ → ℝ → Bool) (B : Matrix (Fin 2) (Fin 1) ℝ) :
    (covarFull (exEnv ext zs [1, 2]) exObj ⟨fun _ => .inr (.ok !![0; 0])⟩ ⟨fun _ => .inr (.ok B)⟩
      (fun _ => false) 1 (1 / 4) exSvd (exSt 3 190)).1 = .error .linAlgError := by
  refine C101_no_effect_partial (j := (!![0; 0], true)) (by norm_num) (by norm_num)
    (by rw [ex_covarJac]) (ex_svd le_rfl) 0 ?_
  intro r
  fin_cases r <;> simp

/-- C101: covar raises LinAlgError for no other reason than a column of the Jacobian (in scaled parameters,
unless a parameter is zero) that is negligible beside the largest singular value. -/
theorem C101_only {A : Matrix (Fin m) (Fin p) ℝ} {s : List ℝ} {VT : List (Fin p → ℝ)} {eps : ℝ}
    (heps : 0 ≤ eps) (scaled : Bool) (pv : Fin p → ℝ) (hpv : scaled = true → ∀ i, pv i ≠ 0)
    (hsvd : IsSVD A s VT) (hm : 0 < m) (hp : 0 < p) {e : PyErr}
    (h : covarFin eps s VT m scaled pv = .error e) :
    e = .linAlgError ∧ ∃ (i : Fin p) (s0 : ℝ), s.head? = some s0 ∧
      ∑ r, A r i ^ 2 ≤ (eps * max m p * s0) ^ 2 := by
  classical
  obtain ⟨U, σ, W, rfl, rfl, hU, hW, hJ, hanti, hnn⟩ := hsvd
  have hk : 0 < min m p := lt_min hm hp
  rw [covarFin_eq eps hanti W hk] at h
  set thr := eps * max m p * σ ⟨0, hk⟩ with hthr
  have hthr0 : 0 ≤ thr := by
    have := hnn ⟨0, hk⟩
    positivity
  have h1 : ∃ i, (if scaled then diagonal pv * (Wᵀ * diagonal (inv2 thr σ) * W) * diagonal pv
      else Wᵀ * diagonal (inv2 thr σ) * W) i i = 0 := by
    by_contra hn
    simp only at h
    rw [if_neg hn] at h
    simp at h
  simp only at h
  rw [if_pos h1] at h
  refine ⟨by simpa using h.symm, ?_⟩
  obtain ⟨i, hi⟩ := h1
  have hc : (Wᵀ * diagonal (inv2 thr σ) * W) i i = 0 := by
    cases scaled with
    | false => exact hi
    | true =>
      rw [if_pos rfl, mul_diagonal, diagonal_mul] at hi
      simpa [hpv rfl i] using hi
  refine ⟨i, σ ⟨0, hk⟩, svd_head σ hk, ?_⟩
  rw [← hthr, svd_column hU hJ i]
  rw [diag_covar, Finset.sum_eq_zero_iff_of_nonneg
    (fun l _ => mul_nonneg (inv2_nonneg _ _ _) (sq_nonneg _))] at hc
  calc ∑ l, σ l ^ 2 * W l i ^ 2 ≤ ∑ l, thr ^ 2 * W l i ^ 2 := by
        refine Finset.sum_le_sum fun l _ => ?_
        by_cases hl : thr < σ l
        · have h2 := hc l (Finset.mem_univ l)
          have h3 : σ l ≠ 0 := (hthr0.trans_lt hl).ne'
          simp only [inv2, if_pos hl] at h2
          have h4 : W l i = 0 := by simpa [h3] using h2
          simp [h4]
        · have h2 := hnn l
          have h3 : σ l ^ 2 ≤ thr ^ 2 := by nlinarith [not_lt.mp hl]
          exact mul_le_mul_of_nonneg_right h3 (sq_nonneg _)
    _ = thr ^ 2 * ∑ l, W l i ^ 2 := by rw [Finset.mul_sum]
    _ ≤ thr ^ 2 := by nlinarith [proj_diag hW i, sq_nonneg thr]

/-- The rows of an orthogonal matrix. -/
noncomputable def exW : Matrix (Fin 2) (Fin 2) ℝ := !![3 / 5, 4 / 5; 4 / 5, -(3 / 5)]

theorem exW_orth : exWᵀ * exW = 1 ∧ exW * exWᵀ = 1 := by
  have h : exW * exWᵀ = 1 := by
    ext i j
    fin_cases i <;> fin_cases j <;> simp [exW, mul_apply, Fin.sum_univ_two] <;> norm_num
  exact ⟨mul_eq_one_comm.mp h, h⟩

/-- Two residuals, of which the first depends on a combination of two parameters and the second is
constant: a decomposition of the Jacobian. -/
theorem ex_correlated : IsSVD !![(3 : ℝ), 4; 0, 0] [5, 0] [![3 / 5, 4 / 5], ![4 / 5, -(3 / 5)]] := by
  refine ⟨(1 : Matrix (Fin 2) (Fin 2) ℝ), (![5, 0] : Fin 2 → ℝ), exW, ?_, ?_, ?_, exW_orth.2, ?_, ?_, ?_⟩
  · change _ = List.ofFn (![5, 0] : Fin 2 → ℝ); simp
  · change _ = List.ofFn fun i : Fin 2 => exW i
    simp
    constructor <;> funext i <;> fin_cases i <;> rfl
  · change (1 : Matrix (Fin 2) (Fin 2) ℝ)ᵀ * (1 : Matrix (Fin 2) (Fin 2) ℝ) = 1
    simp
  · change (!![(3 : ℝ), 4; 0, 0] : Matrix (Fin 2) (Fin 2) ℝ) =
      (1 : Matrix (Fin 2) (Fin 2) ℝ) * diagonal (![5, 0] : Fin 2 → ℝ) * exW
    rw [Matrix.one_mul]
    ext i j
    rw [diagonal_mul]
    fin_cases i <;> fin_cases j <;> simp [exW] <;> norm_num
  · change ∀ i j : Fin 2, i ≤ j → (![5, 0] : Fin 2 → ℝ) j ≤ (![5, 0] : Fin 2 → ℝ) i
    intro i j hij
    fin_cases i <;> fin_cases j <;> simp_all
  · change ∀ i : Fin 2, 0 ≤ (![5, 0] : Fin 2 → ℝ) i
    intro i
    fin_cases i <;> simp

/-- C101 fails for parameters that cannot be told apart: the residuals depend on `3 x + 4 y` only, so that
any change of one parameter can be undone by the other, yet covar raises nothing and gives them variances
9/625 and 16/625. -/
theorem C101_fails_correlated {eps : ℝ} (h0 : 0 ≤ eps) (h1 : eps < 1 / 2) :
    (∀ x y t : ℝ, (!![(3 : ℝ), 4; 0, 0] : Matrix (Fin 2) (Fin 2) ℝ) *ᵥ ![x + 4 * t, y - 3 * t] =
      (!![(3 : ℝ), 4; 0, 0] : Matrix (Fin 2) (Fin 2) ℝ) *ᵥ ![x, y]) ∧
    ∃ s VT, IsSVD (!![(3 : ℝ), 4; 0, 0] : Matrix (Fin 2) (Fin 2) ℝ) s VT ∧
      covarFin eps s VT 2 false (fun _ : Fin 2 => 0) =
        .ok !![9 / 625, 12 / 625; 12 / 625, 16 / 625] := by
  constructor
  · intro x y t
    ext i
    fin_cases i <;> simp
    ring
  · refine ⟨_, _, ex_correlated, ?_⟩
    have hc : covarOf (eps * (max 2 2 : ℕ) * 5) [5, 0] [![3 / 5, 4 / 5], ![4 / 5, -(3 / 5)]] =
        !![9 / 625, 12 / 625; 12 / 625, 16 / 625] := by
      unfold covarOf
      have e1 : decide (eps * (max 2 2 : ℕ) * 5 < 5) = true := by
        simp; linarith
      have e2 : decide (eps * (max 2 2 : ℕ) * 5 < 0) = false := by
        simp; linarith
      simp only [List.filter_cons, e1, e2, List.filter_nil, if_true, Bool.false_eq_true, if_false]
      ext i j
      fin_cases i <;> fin_cases j <;> simp <;> norm_num
    simp only [covarFin, threshold]
    change (if _ then _ else _) = _
    simp only [Bool.false_eq_true, if_false]
    rw [hc, if_neg]
    rintro ⟨i, hi⟩
    fin_cases i <;> norm_num at hi

/-! ### C102 variances -/

/-- What holds of the matrix before it is scaled. -/
theorem covarFin_psd {A : Matrix (Fin m) (Fin p) ℝ} {s : List ℝ} {VT : List (Fin p → ℝ)} {eps : ℝ}
    {scaled : Bool} {pv : Fin p → ℝ} (hsvd : IsSVD A s VT) {C : Matrix (Fin p) (Fin p) ℝ}
    (h : covarFin eps s VT m scaled pv = .ok C) :
    Cᵀ = C ∧ (∀ x, 0 ≤ x ⬝ᵥ (C *ᵥ x)) ∧ ∀ i, 0 < C i i := by
  classical
  obtain ⟨U, σ, W, rfl, rfl, hU, hW, hJ, hanti, hnn⟩ := hsvd
  have hk : 0 < min m p := by
    by_contra hk
    have : min m p = 0 := by omega
    clear hU hW hJ hanti hnn U
    generalize min m p = k at σ W h this
    subst this
    simp [covarFin, threshold] at h
    cases h
  rw [covarFin_eq eps hanti W hk] at h
  set thr := eps * max m p * σ ⟨0, hk⟩ with hthr
  set d := inv2 thr σ with hd
  have hd0 : ∀ i, 0 ≤ d i := inv2_nonneg thr σ
  -- `C = Vᵀ d V`
  obtain ⟨V, hV⟩ : ∃ V : Matrix (Fin (min m p)) (Fin p) ℝ,
      (if scaled then diagonal pv * (Wᵀ * diagonal d * W) * diagonal pv else Wᵀ * diagonal d * W) =
        Vᵀ * diagonal d * V := by
    cases scaled with
    | false => exact ⟨W, rfl⟩
    | true =>
      refine ⟨W * diagonal pv, ?_⟩
      rw [if_pos rfl, transpose_mul, diagonal_transpose]
      simp only [Matrix.mul_assoc]
  simp only at h
  rw [hV] at h
  have hz : ¬ ∃ i, (Vᵀ * diagonal d * V) i i = 0 := by
    intro hn
    rw [if_pos hn] at h
    simp at h
  rw [if_neg hz] at h
  have hC : C = Vᵀ * diagonal d * V := by simpa using h.symm
  refine ⟨?_, ?_, ?_⟩
  · rw [hC, transpose_mul, transpose_mul, transpose_transpose, diagonal_transpose]
    simp only [Matrix.mul_assoc]
  · intro x
    have : x ⬝ᵥ (C *ᵥ x) = ∑ l, d l * (V *ᵥ x) l ^ 2 := by
      rw [hC, ← Matrix.mulVec_mulVec, ← Matrix.mulVec_mulVec, Matrix.dotProduct_mulVec,
        Matrix.vecMul_transpose, dotProduct]
      refine Finset.sum_congr rfl fun l _ => ?_
      rw [mulVec_diagonal]
      ring
    rw [this]
    exact Finset.sum_nonneg fun l _ => mul_nonneg (hd0 l) (sq_nonneg _)
  · intro i
    refine lt_of_le_of_ne ?_ fun hi => hz ⟨i, by rw [← hC]; exact hi.symm⟩
    rw [hC, diag_covar]
    exact Finset.sum_nonneg fun l _ => mul_nonneg (hd0 l) (sq_nonneg _)

/-- C102: with more residuals than varying parameters, or if weighted, the covariance is symmetric and
positive semidefinite; no variance is negative and none is zero unless chi-squared is.  Missing: unweighted
objectives with at most as many residuals as varying parameters, see C102_fails. -/
theorem C102_partial {D D' : Diff (Matrix (Fin m) (Fin p) ℝ)} {fpe : PyErr → Bool} {n : ℕ} {eps : ℝ}
    {svd : Matrix (Fin m) (Fin p) ℝ → List ℝ × List (Fin p → ℝ)} {st : St}
    (hl : ∀ seen x, D.next seen = .inl x → x.length = (varying env o st).length)
    (hl' : ∀ seen x, D'.next seen = .inl x → x.length = (varying env o st).length)
    (hsvd : ∀ j, (covarJac env o D D' fpe n st).1 = .ok j → IsSVD j.1 (svd j.1).1 (svd j.1).2)
    (hpm : o.weighted = true ∨ p < m)
    {C : Matrix (Fin p) (Fin p) ℝ}
    (h : (covarFull env o D D' fpe n eps svd st).1 = .ok (some C)) :
    Cᵀ = C ∧ (∀ x, 0 ≤ x ⬝ᵥ (C *ᵥ x)) ∧ (∀ i, 0 ≤ C i i) ∧
      ((∃ i, C i i = 0) → (chisqr env o none st).1 = .ok (some 0)) := by
  obtain ⟨j, C0, hj, hC, h1, h2⟩ := covarFull_ok hl hl' h
  obtain ⟨hs, hpsd, hdiag⟩ := covarFin_psd (hsvd _ hj) hC
  cases hw : o.weighted with
  | true =>
    obtain rfl : C = C0 := by simpa using h1 hw
    exact ⟨hs, hpsd, fun i => (hdiag i).le, fun ⟨i, hi⟩ => absurd hi (hdiag i).ne'⟩
  | false =>
    obtain ⟨x, hx, hc⟩ := h2 hw
    have hpm' : (p : ℝ) < m := by
      rcases hpm with h | h
      · rw [hw] at h; simp at h
      · exact_mod_cast h
    have hpos : 0 < (m : ℝ) - p := by linarith
    cases x with
    | none => simp at hc
    | some x =>
      have hx0 := C82_nonneg hx
      have hc' : C = (x / ((m : ℝ) - p)) • C0 := by
        simpa [covarScale, rdiv_of_ne hpos.ne'] using hc
      have hr : 0 ≤ x / ((m : ℝ) - p) := div_nonneg hx0 hpos.le
      subst hc'
      refine ⟨by rw [transpose_smul, hs], fun y => ?_, fun i => ?_, ?_⟩
      · rw [smul_mulVec, dotProduct_smul]
        exact mul_nonneg hr (hpsd y)
      · exact mul_nonneg hr (hdiag i).le
      · rintro ⟨i, hi⟩
        rw [Matrix.smul_apply, smul_eq_mul] at hi
        rcases mul_eq_zero.mp hi with h | h
        · rcases div_eq_zero_iff.mp h with h | h
          · rw [hx, h]
          · exact absurd h hpos.ne'
        · exact absurd h (hdiag i).ne'

/-- Non-vacuity of C102_partial: the variance 49 of the example. -/
example (ext : Ext) (zs : List Layer → ℝ → ℝ → Bool) : 0 ≤ (!![49] : Matrix (Fin 1) (Fin 1) ℝ) 0 0 := by
  refine (C102_partial ?_ ?_ ?_ (Or.inr (by norm_num)) (ex_covar ext zs)).2.2.1 0
  · intro seen x h; simp at h
  · intro seen x h; simp at h
  · intro j hj
    rw [ex_covarJac] at hj
    cases hj
    exact ex_svd (by norm_num)

/-- C102 fails for an unweighted objective with fewer residuals than varying parameters: whenever covar
returns finite numbers and the fit is not perfect, every variance is negative. -/
theorem C102_fails {D D' : Diff (Matrix (Fin m) (Fin p) ℝ)} {fpe : PyErr → Bool} {n : ℕ} {eps : ℝ}
    {svd : Matrix (Fin m) (Fin p) ℝ → List ℝ × List (Fin p → ℝ)} {st : St}
    (hl : ∀ seen x, D.next seen = .inl x → x.length = (varying env o st).length)
    (hl' : ∀ seen x, D'.next seen = .inl x → x.length = (varying env o st).length)
    (hsvd : ∀ j, (covarJac env o D D' fpe n st).1 = .ok j → IsSVD j.1 (svd j.1).1 (svd j.1).2)
    (hw : o.weighted = false) (hpm : m < p)
    {C : Matrix (Fin p) (Fin p) ℝ}
    (h : (covarFull env o D D' fpe n eps svd st).1 = .ok (some C))
    (hchi : (chisqr env o none st).1 ≠ .ok (some 0)) (i : Fin p) : C i i < 0 := by
  obtain ⟨j, C0, hj, hC, -, h2⟩ := covarFull_ok hl hl' h
  obtain ⟨-, -, hdiag⟩ := covarFin_psd (hsvd _ hj) hC
  obtain ⟨x, hx, hc⟩ := h2 hw
  have hneg : (m : ℝ) - p < 0 := by
    have : (m : ℝ) < p := by exact_mod_cast hpm
    linarith
  cases x with
  | none => simp at hc
  | some x =>
    have hx0 : 0 < x := lt_of_le_of_ne (C82_nonneg hx) fun h0 => hchi (by rw [hx, ← h0])
    have hc' : C = (x / ((m : ℝ) - p)) • C0 := by
      simpa [covarScale, rdiv_of_ne hneg.ne] using hc
    rw [hc', Matrix.smul_apply, smul_eq_mul]
    exact mul_neg_of_neg_of_pos (div_neg_of_pos_of_neg hx0 hneg) (hdiag i)

/-- C102: with as many residuals as varying parameters an unweighted objective has no finite covariance. -/
theorem C102_fails_equal {D D' : Diff (Matrix (Fin m) (Fin p) ℝ)} {fpe : PyErr → Bool} {n : ℕ} {eps : ℝ}
    {svd : Matrix (Fin m) (Fin p) ℝ → List ℝ × List (Fin p → ℝ)} {st : St}
    (hl : ∀ seen x, D.next seen = .inl x → x.length = (varying env o st).length)
    (hl' : ∀ seen x, D'.next seen = .inl x → x.length = (varying env o st).length)
    (hw : o.weighted = false) (hpm : m = p) (C : Matrix (Fin p) (Fin p) ℝ) :
    (covarFull env o D D' fpe n eps svd st).1 ≠ .ok (some C) := by
  intro h
  obtain ⟨j, C0, -, hC, -, h2⟩ := covarFull_ok hl hl' h
  obtain ⟨x, hx, hc⟩ := h2 hw
  cases x with
  | none => simp at hc
  | some x => simp [covarScale, hpm, rdiv] at hc

/-- A Jacobian of two residuals and three parameters. -/
noncomputable def ex3J : Matrix (Fin 2) (Fin 3) ℝ := !![3, 4, 0; 0, 0, 1]

/-- The rows of its decomposition. -/
noncomputable def ex3W : Matrix (Fin 2) (Fin 3) ℝ := !![3 / 5, 4 / 5, 0; 0, 0, 1]

theorem ex3_svd : IsSVD ex3J [5, 1] [ex3W 0, ex3W 1] := by
  refine ⟨(1 : Matrix (Fin 2) (Fin 2) ℝ), (![5, 1] : Fin 2 → ℝ), ex3W, ?_, ?_, ?_, ?_, ?_, ?_, ?_⟩
  · change _ = List.ofFn (![5, 1] : Fin 2 → ℝ); simp
  · change _ = List.ofFn fun i : Fin 2 => ex3W i
    simp
  · change (1 : Matrix (Fin 2) (Fin 2) ℝ)ᵀ * (1 : Matrix (Fin 2) (Fin 2) ℝ) = 1
    simp
  · change ex3W * ex3Wᵀ = (1 : Matrix (Fin 2) (Fin 2) ℝ)
    ext i j
    fin_cases i <;> fin_cases j <;> simp [ex3W, mul_apply, Fin.sum_univ_three]
    norm_num
  · change ex3J = (1 : Matrix (Fin 2) (Fin 2) ℝ) * diagonal (![5, 1] : Fin 2 → ℝ) * ex3W
    rw [Matrix.one_mul]
    ext i j
    rw [diagonal_mul]
    fin_cases i <;> fin_cases j <;> simp [ex3W, ex3J] <;> norm_num
  · change ∀ i j : Fin 2, i ≤ j → (![5, 1] : Fin 2 → ℝ) j ≤ (![5, 1] : Fin 2 → ℝ) i
    intro i j hij
    fin_cases i <;> fin_cases j <;> simp_all
  · change ∀ i : Fin 2, 0 ≤ (![5, 1] : Fin 2 → ℝ) i
    intro i
    fin_cases i <;> simp

/-- Non-vacuity of C102_fails: one measurement, three varying parameters of which two are zero, residuals 0
and 7, and a Jacobian without zero columns: covar returns, and all variances are negative. -/
example (ext : Ext) (zs : List Layer → ℝ → ℝ → Bool) : ∃ C : Matrix (Fin 3) (Fin 3) ℝ,
    (covarFull (exEnv ext zs [1, 2]) exObj ⟨fun _ => .inr (.ok ex3J)⟩ ⟨fun _ => .inr (.ok ex3J)⟩
      (fun _ => false) 1 (1 / 100) (fun _ => ([5, 1], [ex3W 0, ex3W 1]))
      { exSt 3 190 with vary := fun _ => true }).1 = .ok (some C) ∧ ∀ i, C i i < 0 := by
  classical
  set env := exEnv ext zs [1, 2] with henv
  set D : Diff (Matrix (Fin 2) (Fin 3) ℝ) := ⟨fun _ => .inr (.ok ex3J)⟩ with hDd
  set st : St := { exSt 3 190 with vary := fun _ => true } with hst
  have hv : varying env exObj st = [7, 1, 2] := by
    change unique (List.filter (fun p => true) [7, 1, 2]) = [7, 1, 2]
    decide
  have h7 : st.vals 7 = 3 := by simp [hst, exSt]
  have h1 : st.vals 1 = 0 := by simp [hst, exSt]
  have h2 : st.vals 2 = 0 := by simp [hst, exSt]
  have hset : setp env exObj (some [3, 0, 0]) st = (.ok (), st) := by
    rw [setp, if_pos (by rw [hv]; rfl), hv]
    have : ([3, 0, 0] : List ℝ) = [7, 1, 2].map st.vals := by simp [h7, h1, h2]
    rw [this, assign_self]
  have hj : covarJac env exObj D D (fun _ => false) 1 st = (.ok (ex3J, false), st) := by
    simp [covarJac, hv, h7, h1, h2, Diff.run, hDd, hset]
  have hC : ∃ C, covarFin (1 / 100) [5, 1] [ex3W 0, ex3W 1] 2 false (pvalsOf env exObj st 3) = .ok C := by
    rcases h : covarFin (1 / 100) [5, 1] [ex3W 0, ex3W 1] 2 false (pvalsOf env exObj st 3) with e | C
    · obtain ⟨-, i, s0, h3, h4⟩ := C101_only (by norm_num) false _ (by simp) ex3_svd (by norm_num)
        (by norm_num) h
      simp at h3
      subst h3
      fin_cases i <;> norm_num [ex3J, Fin.sum_univ_two] at h4
    · exact ⟨C, rfl⟩
  obtain ⟨C, hC⟩ := hC
  have hq : (chisqr env exObj none st).1 = .ok (some 49) := by
    have h3 : (residuals env exObj none st).1 =
        .ok [some 0, some (circularDistance (180 + 3) 190 360)] := by
      rw [C81_residuals (show Presents st.heap exObj.data [(600, 0, 45, 190)] from ex_presents 3 190)]
      exact ⟨_, ex_values env rfl exObj 3 190, by simp⟩
    rw [chisqr_eq, h3]
    norm_num [circularDistance, finite, abs_of_neg, Except.map]
  obtain ⟨c, hc⟩ : ∃ c, (covarFull env exObj D D (fun _ => false) 1 (1 / 100)
      (fun _ => ([5, 1], [ex3W 0, ex3W 1])) st).1 = .ok (some c) := by
    rcases hr : chisqr env exObj none st with ⟨r, s⟩
    rw [hr] at hq
    simp only at hq
    subst hq
    unfold covarFull covar
    simp only [hj, hC, Except.map, hr]
    refine ⟨(49 / ((2 : ℕ) - (3 : ℕ) : ℝ)) • C, ?_⟩
    norm_num [exObj, covarScale, rdiv, Objective.weighted]
  refine ⟨c, hc, C102_fails (by intro seen x h; simp [hDd] at h) (by intro seen x h; simp [hDd] at h) ?_ rfl
    (by norm_num) hc (by rw [hq]; norm_num)⟩
  intro j hj'
  rw [hj] at hj'
  cases hj'
  exact ex3_svd

end Verif.Obj
