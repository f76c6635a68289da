import Verif.Obj.CovarModel

/-!
# Central differences

`approx_derivative(f, x0)` of scipy with its default method `3-point` and no bounds, in exact arithmetic.
`covar` calls it this way (objectiveSE.py:478 and 481).  The steps `h` are an argument: scipy chooses the
cube root of the machine epsilon, times `x0` where this is larger than 1.  A residual that is not finite
is outside this model (an exception here).
-/

namespace Verif.Obj
open Matrix

variable {m p : ℕ}

/-- The k-th point at which scipy evaluates: `x0`, then for each coordinate one step below and one above. -/
noncomputable def centralPt (h x0 : Fin p → ℝ) (k : ℕ) : Fin p → ℝ :=
  if hk : 0 < k ∧ (k - 1) / 2 < p then
    Function.update x0 ⟨(k - 1) / 2, hk.2⟩
      (if (k - 1) % 2 = 0 then x0 ⟨(k - 1) / 2, hk.2⟩ - h ⟨(k - 1) / 2, hk.2⟩
       else x0 ⟨(k - 1) / 2, hk.2⟩ + h ⟨(k - 1) / 2, hk.2⟩)
  else x0

/-- The r-th residual of the k-th evaluation, if it is a number. -/
def seenAt (seen : List (Except PyErr (List (Option ℝ)))) (k r : ℕ) : Option ℝ :=
  match seen[k]? with
  | some (.ok l) => l[r]?.join
  | _ => none

/-- `approx_derivative(f, x0)`, method `3-point`.  Called in objectiveSE.py:478 and 481. -/
noncomputable def central (h x0 : Fin p → ℝ) : Diff (Matrix (Fin m) (Fin p) ℝ) where
  next seen :=
    open Classical in
    if seen.length ≤ 2 * p then .inl (List.ofFn (centralPt h x0 seen.length))
    else if ∀ (i : Fin p) (r : Fin m), (seenAt seen (2 * i + 1) r).isSome ∧ (seenAt seen (2 * i + 2) r).isSome
    then .inr (.ok (of fun r i =>
      ((seenAt seen (2 * i + 2) r).getD 0 - (seenAt seen (2 * i + 1) r).getD 0) / (2 * h i)))
    else .inr (.error .external)

end Verif.Obj
