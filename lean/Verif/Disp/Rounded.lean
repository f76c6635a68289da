import Verif.Disp.Model
import Verif.EMA.Model

/-!
# Refractive indices in the arithmetic of a machine

The same code as in `Verif.Disp.Model` and `Verif.EMA.Model`, but every operation is the one of an arithmetic that
may round.  The arithmetic of numpy is one of them, as long as nothing overflows or underflows (exponentials may
underflow).  The Fourier transforms of `Gauss` are an algorithm of scipy, of which only the size of the error is
assumed.  Not included: subclasses made by the user.
-/

namespace Verif.Disp

/-- The operations used for refractive indices, as a machine computes them: on complex numbers (real operands are
embedded; `sq` is `np.power(x, 2)` and `x**2`), on reals, and the functions of numpy.  `lit` is what becomes of a
decimal literal, `knot` what becomes of a wavelength of a table, which is read in micron and multiplied by 1000, `grid`
the energies of `np.linspace(-20, 20, 2048)`, and `hilbert` is `scipy.fftpack.hilbert` of 2048 numbers.
Taking parts together to a complex number (`x + 1j * y`) and taking absolute values of reals is exact. -/
structure Mach where
  add : ℂ → ℂ → ℂ
  sub : ℂ → ℂ → ℂ
  mul : ℂ → ℂ → ℂ
  div : ℂ → ℂ → ℂ
  sqrt : ℂ → ℂ
  sq : ℂ → ℂ
  radd : ℝ → ℝ → ℝ
  rsub : ℝ → ℝ → ℝ
  rmul : ℝ → ℝ → ℝ
  rdiv : ℝ → ℝ → ℝ
  rsqrt : ℝ → ℝ
  rpow : ℝ → ℕ → ℝ
  log : ℝ → ℝ
  arctan : ℝ → ℝ
  pi : ℝ
  lit : ℝ → ℝ
  knot : ℝ → ℝ
  exp : ℝ → ℝ
  grid : ℕ → ℝ
  hilbert : (ℕ → ℝ) → ℕ → ℝ

/-- Arithmetic without rounding; `σ` is the sign of zero as in `npSqrt`. -/
noncomputable def Mach.exact (σ : Bool) : Mach where
  add := (· + ·)
  sub := (· - ·)
  mul := (· * ·)
  div := (· / ·)
  sqrt := npSqrt σ
  sq := fun x => x ^ 2
  radd := (· + ·)
  rsub := (· - ·)
  rmul := (· * ·)
  rdiv := (· / ·)
  rsqrt := Real.sqrt
  rpow := fun x k => x ^ k
  log := Real.log
  arctan := Real.arctan
  pi := Real.pi
  lit := id
  knot := id
  exp := Real.exp
  grid := ePad
  hilbert := Disp.hilbert

namespace Mach

variable (M : Mach)

/-- Division of complex numbers, not finite for a zero divisor. -/
noncomputable def cquot (x y : ℂ) : Option ℂ :=
  open Classical in if y = 0 then none else some (M.div x y)

/-- Division of reals, not finite for a zero divisor. -/
noncomputable def quot (x y : ℝ) : Option ℝ :=
  open Classical in if y = 0 then none else some (M.rdiv x y)

/-- `np.sqrt` of a real. -/
noncomputable def root (x : ℝ) : Option ℝ :=
  open Classical in if x < 0 then none else some (M.rsqrt x)

/-- `np.log` of a real. -/
noncomputable def ln (x : ℝ) : Option ℝ :=
  open Classical in if 0 < x then some (M.log x) else none

/-- The loop of `np.interp`. -/
noncomputable def interpFrom (x0 y0 : ℝ) : List (ℝ × ℝ) → ℝ → ℝ
  | [], _ => y0
  | (x1, y1) :: rest, x =>
    open Classical in
    if x < x1 then M.radd (M.rmul (M.rdiv (M.rsub y1 y0) (M.rsub x1 x0)) (M.rsub x x0)) y0
    else interpFrom x1 y1 rest x

/-- `np.interp`. -/
noncomputable def interp (tab : List (ℝ × ℝ)) (x : ℝ) : Option ℝ :=
  match tab with
  | [] => none
  | (x0, y0) :: rest => open Classical in if x < x0 then some y0 else some (M.interpFrom x0 y0 rest x)

/-- `np.sum(..., axis=0)`: the rows are added one after the other. -/
noncomputable def csum (acc : ℂ) : List (Option ℂ) → Option ℂ
  | [] => some acc
  | v :: vs => do csum (M.add acc (← v)) vs

/-- The same for reals. -/
noncomputable def rsum (acc : ℝ) : List (Option ℝ) → Option ℝ
  | [] => some acc
  | v :: vs => do rsum (M.radd acc (← v)) vs

/-- One Lorentz term.  dispersion.py:391-395. -/
noncomputable def lorentzTerm (e : ℝ) (o : ℝ × ℝ × ℝ) : Option ℂ :=
  M.cquot o.1 (M.sub (M.rsub (M.rpow o.2.2 2) (M.rpow e 2) : ℝ) (M.mul (M.mul Complex.I o.2.1) e))

/-- `Lorentz.epsilon`.  dispersion.py:387-401. -/
noncomputable def lorentzEps (osc : List (ℝ × ℝ × ℝ)) (einf e : ℝ) : Option ℂ := do
  return M.add (← M.csum 0 (osc.map (M.lorentzTerm e))) einf

/-- `a_ln`.  dispersion.py:559-563. -/
noncomputable def tlLn (o : ℝ × ℝ × ℝ) (Eg e : ℝ) : ℝ :=
  M.rsub (M.radd (M.rmul (M.rsub (M.rpow Eg 2) (M.rpow o.2.2 2)) (M.rpow e 2)) (M.rmul (M.rpow Eg 2) (M.rpow o.2.1 2)))
    (M.rmul (M.rpow o.2.2 2) (M.radd (M.rpow o.2.2 2) (M.rmul 3 (M.rpow Eg 2))))

/-- `a_atan`.  dispersion.py:564. -/
noncomputable def tlAtan (o : ℝ × ℝ × ℝ) (Eg e : ℝ) : ℝ :=
  M.radd (M.rmul (M.rsub (M.rpow e 2) (M.rpow o.2.2 2)) (M.radd (M.rpow o.2.2 2) (M.rpow Eg 2)))
    (M.rmul (M.rpow Eg 2) (M.rpow o.2.1 2))

/-- `zeta4`.  dispersion.py:567. -/
noncomputable def tlZeta (C alpha gamma e : ℝ) : ℝ :=
  M.radd (M.rpow (M.rsub (M.rpow e 2) (M.rpow gamma 2)) 2) (M.rmul (M.rmul (M.lit 0.25) (M.rpow alpha 2)) (M.rpow C 2))

/-- Real part of one Tauc-Lorentz oscillator.  dispersion.py:553-629. -/
noncomputable def tlE1 (o : ℝ × ℝ × ℝ) (Eg e : ℝ) : Option ℝ := do
  let A := o.1
  let C := o.2.1
  let Ei := o.2.2
  let alpha ← M.root (M.rsub (M.rmul 4 (M.rpow Ei 2)) (M.rpow C 2))
  let gamma ← M.root (M.rsub (M.rpow Ei 2) (M.rdiv (M.rpow C 2) 2))
  let zeta4 := M.tlZeta C alpha gamma e
  let s := M.radd (M.rpow Ei 2) (M.rpow Eg 2)
  let g ← M.quot (M.rdiv (M.rdiv (M.rmul (M.rmul A C) (M.tlLn o Eg e)) 2) M.pi) zeta4
  let g ← M.quot g alpha
  let g ← M.quot g Ei
  let l ← M.ln (← M.quot (M.radd s (M.rmul alpha Eg)) (M.rsub s (M.rmul alpha Eg)))
  let e1 := M.rmul g l
  let g ← M.quot (M.rmul (M.rdiv A M.pi) (M.tlAtan o Eg e)) zeta4
  let g ← M.quot g Ei
  let q1 ← M.quot (M.radd (M.rmul 2 Eg) alpha) C
  let q2 ← M.quot (M.rsub alpha (M.rmul 2 Eg)) C
  let e1 := M.rsub e1 (M.rmul g (M.radd (M.rsub M.pi (M.arctan q1)) (M.arctan q2)))
  let g ← M.quot (M.rdiv (M.rmul (M.rmul (M.rmul (M.rmul 2 A) Ei) Eg) (M.rsub (M.rpow e 2) (M.rpow gamma 2))) M.pi) zeta4
  let g ← M.quot g alpha
  let q ← M.quot (M.rmul 2 (M.rsub (M.rpow gamma 2) (M.rpow Eg 2))) alpha
  let q ← M.quot q C
  let e1 := M.radd e1 (M.rmul g (M.radd M.pi (M.rmul 2 (M.arctan q))))
  let g ← M.quot (M.rdiv (M.rmul (M.rmul (M.rmul A Ei) C) (M.radd (M.rpow e 2) (M.rpow Eg 2))) M.pi) zeta4
  let g ← M.quot g e
  let l ← M.ln (← M.quot |M.rsub e Eg| (M.radd e Eg))
  let e1 := M.rsub e1 (M.rmul g l)
  let g ← M.quot (M.rdiv (M.rmul (M.rmul (M.rmul (M.rmul 2 A) Ei) Eg) C) M.pi) zeta4
  let d ← M.root (M.radd (M.rpow (M.rsub (M.rpow Ei 2) (M.rpow Eg 2)) 2) (M.rmul (M.rpow Eg 2) (M.rpow C 2)))
  let l ← M.ln (← M.quot (M.rmul |M.rsub e Eg| (M.radd e Eg)) d)
  return M.radd e1 (M.rmul g l)

/-- Imaginary part of one Tauc-Lorentz oscillator.  dispersion.py:633-635. -/
noncomputable def tlE2 (o : ℝ × ℝ × ℝ) (Eg e : ℝ) : Option ℝ := do
  let q ← M.quot (M.rmul (M.rmul (M.rmul o.1 o.2.2) o.2.1) (M.rpow (M.rsub e Eg) 2))
    (M.rmul e (M.radd (M.rpow (M.rsub (M.rpow e 2) (M.rpow o.2.2 2)) 2) (M.rpow (M.rmul o.2.1 e) 2)))
  return M.rmul q (heaviside (M.rsub e Eg))

/-- `TaucLorentz.epsilon`.  dispersion.py:549-641. -/
noncomputable def tlEps (osc : List (ℝ × ℝ × ℝ)) (Eg einf e : ℝ) : Option ℂ := do
  let a ← M.rsum 0 (osc.map fun o => M.tlE1 o Eg e)
  let b ← M.rsum 0 (osc.map fun o => M.tlE2 o Eg e)
  return ⟨M.radd a einf, b⟩

/-- `np.exp(-((x / sigma) ** 2))`.  dispersion.py:465-466. -/
noncomputable def gaussExp (x s : ℝ) : Option ℝ :=
  open Classical in
  if s = 0 then (if x = 0 then none else some 0) else some (M.exp (-(M.rpow (M.rdiv x s) 2)))

/-- `e2` of one oscillator at an energy.  dispersion.py:464-466. -/
noncomputable def gaussE2 (o : ℝ × ℝ × ℝ) (x : ℝ) : Option ℝ := do
  let s := M.rdiv (M.rdiv o.2.1 2) (M.rsqrt (M.log 2))
  return M.rsub (M.rmul o.1 (← M.gaussExp (M.rsub x o.2.2) s)) (M.rmul o.1 (← M.gaussExp (M.radd x o.2.2) s))

/-- The grid values of `e2` of one oscillator.  dispersion.py:463-466. -/
noncomputable def gaussGrid (o : ℝ × ℝ × ℝ) : Option (ℕ → ℝ) :=
  open Classical in
  if ∀ j < gaussN, (M.gaussE2 o (M.grid j)).isSome
  then some fun j => (M.gaussE2 o (M.grid j)).getD 0 else none

/-- `np.sum(..., axis=0)` of the grids, after applying `F` to each.  dispersion.py:470-473. -/
noncomputable def gaussSum (F : (ℕ → ℝ) → ℕ → ℝ) (acc : ℕ → ℝ) : List (ℝ × ℝ × ℝ) → Option (ℕ → ℝ)
  | [] => some acc
  | o :: os => do
    let g ← M.gaussGrid o
    gaussSum F (fun j => M.radd (acc j) (F g j)) os

/-- `Gauss.epsilon`.  dispersion.py:453-481. -/
noncomputable def gaussEps (osc : List (ℝ × ℝ × ℝ)) (einf e : ℝ) : Option ℂ := do
  let e1 ← M.gaussSum M.hilbert (fun _ => 0) osc
  let e2 ← M.gaussSum id (fun _ => 0) osc
  let a ← M.interp ((List.range gaussN).map fun j => (M.grid j, M.radd (e1 j) einf)) e
  let b ← M.interp ((List.range gaussN).map fun j => (M.grid j, e2 j)) e
  return ⟨a, b⟩

/-- `complex` at the wavelength `w`.  structureSE.py:105-112, dispersion.py:117-130, 211-220, 290-302. -/
noncomputable def at' (s : Scat) (w : ℝ) : Option ℂ :=
  match s with
  | .const _ n k => some ⟨n, k⟩
  | .table _ tab => do
    return ⟨← M.interp (tab.map fun r => (M.knot r.1, r.2.1)) w, ← M.interp (tab.map fun r => (M.knot r.1, r.2.2)) w⟩
  | .cauchy _ A B C => do
    let b ← M.quot (M.rmul B (1000 ^ 2)) (M.rpow w 2)
    let c ← M.quot (M.rmul C (1000 ^ 4)) (M.rpow w 4)
    return ((M.radd (M.radd A b) c : ℝ) : ℂ)
  | .sellmeier _ Am En P einf => do
    let x := M.rmul w (M.lit 1e-3)
    let q ← M.quot (M.rmul Am (M.rpow x 2)) (M.rsub (M.rpow x 2) (M.rpow En 2))
    let n ← M.root (M.rsub (M.radd einf q) (M.rmul P (M.rpow x 2)))
    return (n : ℂ)
  | .lorentz _ osc einf => do
    return M.sqrt (← M.lorentzEps osc einf (← M.quot (M.lit 1239.841984055) w))
  | .tauc _ osc Eg einf => do
    return M.sqrt (← M.tlEps osc Eg einf (← M.quot (M.lit 1239.841984055) w))
  | .gauss _ osc einf => do
    return M.sqrt (← M.gaussEps osc einf (← M.quot (M.lit 1239.841984055) w))
  | .other .. => none

/-- `overall_ri`.  structureSE.py:858-922. -/
noncomputable def mix (riA riB : ℂ) (vf : ℝ) (ema : String) (L : ℝ) : Except PyErr ℂ :=
  let Ea := M.sq riA
  let Eb := M.sq riB
  if ema = "linear" then
    .ok (M.sqrt (M.add (M.mul (M.rsub 1 vf : ℝ) Ea) (M.mul vf Eb)))
  else if ema = "maxwell-garnett" then
    let top := M.add Ea (M.mul (M.radd (M.rmul L (M.rsub 1 vf)) vf : ℝ) (M.sub Eb Ea))
    let bottom := M.add Ea (M.mul (M.rmul L (M.rsub 1 vf) : ℝ) (M.sub Eb Ea))
    .ok (M.sqrt (M.mul Ea ((M.cquot top bottom).getD 0)))
  else if ema = "bruggeman" then
    let b := M.add (M.mul Ea (M.rsub (M.rsub 1 vf) L : ℝ)) (M.mul Eb (M.rsub vf L : ℝ))
    let d := M.sub (M.sq b) (M.mul (M.rmul 4 (M.rsub L 1) : ℝ) (M.mul (M.mul Ea Eb) L))
    .ok (M.sqrt ((M.cquot (M.add b (M.sqrt d)) (M.rmul 2 (M.rsub 1 L) : ℝ)).getD 0))
  else .error .runtimeError

end Mach

/-- Spec: the standard model of floating point arithmetic with unit roundoff `u`: the relative error of every
operation is at most `u` (of complex results, in absolute value), and complex numbers without imaginary part are
added, multiplied, ... to such numbers.  The root may take either value on its cut.  The errors of small exponentials
and of the grid are absolute; that of the Hilbert transform is, very generously, 1000 roundoffs times the sum of the
data. -/
structure Mach.Within (M : Mach) (u : ℝ) : Prop where
  nonneg : 0 ≤ u
  add : ∀ x y, ‖M.add x y - (x + y)‖ ≤ u * ‖x + y‖
  sub : ∀ x y, ‖M.sub x y - (x - y)‖ ≤ u * ‖x - y‖
  mul : ∀ x y, ‖M.mul x y - x * y‖ ≤ u * ‖x * y‖
  div : ∀ x y, y ≠ 0 → ‖M.div x y - x / y‖ ≤ u * ‖x / y‖
  sqrt : ∀ x, ∃ σ, ‖M.sqrt x - npSqrt σ x‖ ≤ u * ‖npSqrt σ x‖
  sq : ∀ x, ‖M.sq x - x ^ 2‖ ≤ u * ‖x ^ 2‖
  radd : ∀ x y, |M.radd x y - (x + y)| ≤ u * |x + y|
  rsub : ∀ x y, |M.rsub x y - (x - y)| ≤ u * |x - y|
  rmul : ∀ x y, |M.rmul x y - x * y| ≤ u * |x * y|
  rdiv : ∀ x y, y ≠ 0 → |M.rdiv x y - x / y| ≤ u * |x / y|
  rsqrt : ∀ x, 0 ≤ x → |M.rsqrt x - Real.sqrt x| ≤ u * |Real.sqrt x|
  rpow : ∀ x k, |M.rpow x k - x ^ k| ≤ u * |x ^ k|
  log : ∀ x, 0 < x → |M.log x - Real.log x| ≤ u * |Real.log x|
  arctan : ∀ x, |M.arctan x - Real.arctan x| ≤ u * |Real.arctan x|
  pi : |M.pi - Real.pi| ≤ u * |Real.pi|
  lit : ∀ x, |M.lit x - x| ≤ u * |x|
  knot : ∀ x, |M.knot x - x| ≤ u * |x|
  exp : ∀ x, x ≤ 0 → |M.exp x - Real.exp x| ≤ u
  grid : ∀ j : ℕ, j < gaussN → |M.grid j - (-20 + 40 * j / 2047)| ≤ 100 * u
  hilbert : ∀ (x : ℕ → ℝ) (n : ℕ), n < gaussN →
    |M.hilbert x n - Disp.hilbert x n| ≤ 1000 * u * ∑ m ∈ Finset.range gaussN, |x m|
  add_real : ∀ x y : ℝ, (M.add x y).im = 0
  sub_real : ∀ x y : ℝ, (M.sub x y).im = 0
  mul_real : ∀ x y : ℝ, (M.mul x y).im = 0
  div_real : ∀ x y : ℝ, (M.div x y).im = 0
  sq_real : ∀ x : ℝ, (M.sq x).im = 0
  sqrt_real : ∀ x : ℝ, 0 ≤ x → (M.sqrt x).im = 0

theorem Mach.exact_within (σ : Bool) : (Mach.exact σ).Within 0 := by
  constructor
  case sqrt => exact fun x => ⟨σ, by simp [Mach.exact]⟩
  case sqrt_real =>
    intro x hx
    have h : ¬ (((x : ℂ)).im = 0 ∧ (x : ℂ).re < 0) := by simp [hx]
    change (npSqrt σ x).im = 0
    rw [npSqrt, if_neg h, csqrt_ofReal_nonneg hx, Complex.ofReal_im]
  case sq_real =>
    intro x
    change ((x : ℂ) ^ 2).im = 0
    rw [← Complex.ofReal_pow, Complex.ofReal_im]
  all_goals first
    | exact le_rfl
    | (intros; simp [Mach.exact, ePad, Complex.div_im])

end Verif.Disp
