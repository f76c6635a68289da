import Mathlib.Data.Complex.Basic

/-! # Specification vocabulary for mixing rules (independent of the model) -/

namespace Verif.EMA

/-- Names of the rules documented by the code. -/
def Known (ema : String) : Prop :=
  ema = "linear" ∨ ema = "maxwell-garnett" ∨ ema = "bruggeman"

/-- Depolarisation factors in `[0, 1]`, excluding 1 for the Bruggeman rule (where the formula of
the code divides by zero, see `C32_fails_bruggeman_one`). -/
def GoodL (ema : String) (L : ℝ) : Prop := 0 ≤ L ∧ L ≤ 1 ∧ (ema = "bruggeman" → L < 1)

/-- A passive medium with positive real index. -/
def PassiveRi (N : ℂ) : Prop := 0 < N.re ∧ 0 ≤ N.im

/-- The Bruggeman effective medium equation with depolarisation factor `L`. -/
def BruggemanEq (ea eb : ℂ) (f L : ℝ) (e : ℂ) : Prop :=
  (1 - f) * ((ea - e) / (e + L * (ea - e))) + f * ((eb - e) / (e + L * (eb - e))) = 0

/-- The Maxwell-Garnett equation for inclusions `eb` of volume fraction `f` in a host `ea`; for `L = 1/3`
`(e - ea) / (e + 2 ea) = f (eb - ea) / (eb + 2 ea)`. -/
def GarnettEq (ea eb : ℂ) (f L : ℝ) (e : ℂ) : Prop :=
  (e - ea) / (ea + L * (e - ea)) = f * ((eb - ea) / (ea + L * (eb - ea)))

/-- The defining equation of each rule, for dielectric constants. -/
def MixEq (ema : String) (ea eb : ℂ) (f L : ℝ) (e : ℂ) : Prop :=
  (ema = "linear" → e = (1 - f) * ea + f * eb) ∧ (ema = "maxwell-garnett" → GarnettEq ea eb f L e) ∧
    (ema = "bruggeman" → BruggemanEq ea eb f L e)

/-- `k < n`: the dielectric constant has positive real part. -/
def Dielectric (n : ℂ) : Prop := n.im < n.re

end Verif.EMA
