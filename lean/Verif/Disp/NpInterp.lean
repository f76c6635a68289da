import Verif.Disp.Model

/-! # The search of `np.interp`

`Disp.interp` is what `np.interp` computes for knots in increasing order.  Here is its algorithm, which is defined
for knots in any order: numpy's `binary_search_with_guess` and the loop of `arr_interp`.  It is called in
dispersion.py:121-127, which does not sort. -/

namespace Verif.Disp

/-- Abscissa of knotAt `j`. -/
def knotAt (tab : List (ℝ × ℝ)) (j : ℕ) : ℝ := (tab.getD j (0, 0)).1

/-- Ordinate of knotAt `j`. -/
def ordinate (tab : List (ℝ × ℝ)) (j : ℕ) : ℝ := (tab.getD j (0, 0)).2

/-- Bisection: `while (imin < imax)`; returns the final `imin`. -/
noncomputable def bisect (tab : List (ℝ × ℝ)) (key : ℝ) (imin imax : ℕ) : ℕ :=
  open Classical in
  if imin < imax then
    if knotAt tab (imin + (imax - imin) / 2) ≤ key then bisect tab key (imin + (imax - imin) / 2 + 1) imax
    else bisect tab key imin (imin + (imax - imin) / 2)
  else imin
termination_by imax - imin

/-- Linear search for short tables: `for (i = 1; i < len && key >= arr[i]; ++i)`; returns the final `i`. -/
noncomputable def scan (tab : List (ℝ × ℝ)) (key : ℝ) (i : ℕ) : ℕ :=
  open Classical in
  if i < tab.length ∧ knotAt tab i ≤ key then scan tab key (i + 1) else i
termination_by tab.length - i

/-- `binary_search_with_guess` for a key between the first and the last knotAt; `guess` is the interval of the
previous key. -/
noncomputable def search (tab : List (ℝ × ℝ)) (key : ℝ) (guess : ℕ) : ℕ :=
  open Classical in
  let len := tab.length
  if len ≤ 4 then scan tab key 1 - 1
  else
    let g := max (min guess (len - 3)) 1
    if key < knotAt tab g then
      if key < knotAt tab (g - 1) then
        bisect tab key (if 8 < g ∧ knotAt tab (g - 8) ≤ key then g - 8 else 0) (g - 1) - 1
      else g - 1
    else if key < knotAt tab (g + 1) then g
    else if key < knotAt tab (g + 2) then g + 1
    else bisect tab key (g + 2) (if g + 9 < len ∧ key < knotAt tab (g + 8) then g + 8 else len) - 1

/-- `np.interp(x, xp, fp)`. -/
noncomputable def npInterp (guess : ℕ) (tab : List (ℝ × ℝ)) (x : ℝ) : Except PyErr ℝ :=
  open Classical in
  let len := tab.length
  if len = 0 then .error .valueError
  else if knotAt tab (len - 1) < x then .ok (ordinate tab (len - 1))
  else if x < knotAt tab 0 then .ok (ordinate tab 0)
  else
    let j := search tab x guess
    if j = len - 1 then .ok (ordinate tab j)
    else if knotAt tab j = x then .ok (ordinate tab j)
    else .ok ((ordinate tab (j + 1) - ordinate tab j) / (knotAt tab (j + 1) - knotAt tab j) * (x - knotAt tab j) +
      ordinate tab j)

/-- `RI.complex` for a table with this algorithm; `g`, `g'` are the guesses.  dispersion.py:121-127. -/
noncomputable def tableNp (g g' : ℕ) (tab : List (ℝ × ℝ × ℝ)) (w : ℝ) : Option ℂ :=
  match npInterp g (tab.map fun r => (r.1, r.2.1)) w, npInterp g' (tab.map fun r => (r.1, r.2.2)) w with
  | .ok a, .ok b => some ⟨a, b⟩
  | _, _ => none

end Verif.Disp
