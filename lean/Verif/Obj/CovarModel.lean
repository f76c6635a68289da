import Verif.Obj.Model
import Mathlib.LinearAlgebra.Matrix.NonsingularInverse
import Mathlib.LinearAlgebra.Matrix.Notation

/-!
# Model of the linear algebra in `ObjectiveSE.covar` (/repo/refellips/objectiveSE.py:487-525)

The Jacobian is a matrix of exact reals with `m` rows (residuals) and `p` columns (parameters).  The
singular value decomposition is external; `IsSVD` records what it is assumed to return.
-/

namespace Verif.Obj
open Matrix

variable {m p : ℕ}

/-- What `np.linalg.svd(jac, full_matrices=False)` returns besides `U` (external): the singular values in
descending order and the rows of `VT`. -/
def IsSVD (J : Matrix (Fin m) (Fin p) ℝ) (s : List ℝ) (VT : List (Fin p → ℝ)) : Prop :=
  ∃ (U : Matrix (Fin m) (Fin (min m p)) ℝ) (σ : Fin (min m p) → ℝ) (W : Matrix (Fin (min m p)) (Fin p) ℝ),
    s = List.ofFn σ ∧ VT = List.ofFn (fun i => W i) ∧ Uᵀ * U = 1 ∧ W * Wᵀ = 1 ∧
    J = U * diagonal σ * W ∧ Antitone σ ∧ ∀ i, 0 ≤ σ i

/-- `threshold = eps * max(jac.shape) * s[0]`; `s[0]` raises IndexError if there is no singular value.
objectiveSE.py:497. -/
def threshold (eps : ℝ) (m p : ℕ) : List ℝ → Except PyErr ℝ
  | [] => .error .indexError
  | s0 :: _ => .ok (eps * max m p * s0)

/-- `s = s[s > threshold]; VT = VT[: s.size]; covar = np.dot(VT.T / s**2, VT)`.
objectiveSE.py:498-500. -/
noncomputable def covarOf (thr : ℝ) (s : List ℝ) (VT : List (Fin p → ℝ)) : Matrix (Fin p) (Fin p) ℝ :=
  open Classical in
  let s := s.filter fun x => decide (thr < x)
  let VT := VT.take s.length
  ((s.zip VT).map fun x => (of fun i j => x.2 i / x.1 ^ 2 * x.2 j : Matrix (Fin p) (Fin p) ℝ)).sum

/-- From the Jacobian to the unscaled covariance: `scaled` tells whether the Jacobian is with respect to
the parameters divided by their values `pv`.  objectiveSE.py:493-516. -/
noncomputable def covarFin (eps : ℝ) (s : List ℝ) (VT : List (Fin p → ℝ)) (m : ℕ) (scaled : Bool)
    (pv : Fin p → ℝ) : Except PyErr (Matrix (Fin p) (Fin p) ℝ) :=
  open Classical in do
  let thr ← threshold eps m p s
  let c := covarOf thr s VT
  let c : Matrix (Fin p) (Fin p) ℝ := if scaled then of fun i j => c i j * pv j * pv i else c
  if ∃ i, c i i = 0 then .error .linAlgError else .ok c

/-- The result: `covar * scale`, with `scale = chisqr / (n_datapoints - number of varying parameters)` for
unweighted objectives; not finite if the numbers are equal.  objectiveSE.py:518-525. -/
noncomputable def covarScale (chi2 : ℝ) (m : ℕ) (c : Matrix (Fin p) (Fin p) ℝ) :
    Option (Matrix (Fin p) (Fin p) ℝ) :=
  (rdiv chi2 ((m : ℝ) - p)).map fun x => x • c

/-- `_pvals = np.array(self.varying_parameters())`.  objectiveSE.py:463. -/
noncomputable def pvalsOf (env : Env) (o : Objective) (st : St) (p : ℕ) (i : Fin p) : ℝ :=
  ((varying env o st).map st.vals).getD i 0

/-- `objective.covar()` with its linear algebra: the differentiation supplies a Jacobian with `m` rows and a
column for each of the `p` varying parameters, `svd` its decomposition.  A covariance with entries that
are not finite is `none`.  objectiveSE.py:453-525. -/
noncomputable def covarFull (env : Env) (o : Objective) (D D' : Diff (Matrix (Fin m) (Fin p) ℝ))
    (fpe : PyErr → Bool) (n : ℕ) (eps : ℝ)
    (svd : Matrix (Fin m) (Fin p) ℝ → List ℝ × List (Fin p → ℝ)) (st : St) :
    Except PyErr (Option (Matrix (Fin p) (Fin p) ℝ)) × St :=
  covar env o D D' fpe n
    (fun j => (covarFin eps (svd j.1).1 (svd j.1).2 m j.2 (pvalsOf env o st p)).map some)
    (fun c x => c.bind fun c => x.bind fun x => covarScale x m c) st

end Verif.Obj
