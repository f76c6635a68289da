import Verif.Disp.Model

/-! # User defined materials: subclasses of `ScattererSE` (structureSE.py:67-141)

A subclass may define `epsilon(energy)` or `complex(wavelength)`; Python finds the subclass's `complex` before that of
the base class.  Simplified: `epsilon` returns complex numbers (of real ones, `np.sqrt` would give `nan` for negative
values), and the methods themselves do not raise. -/

namespace Verif.Disp

/-- An instance of a subclass: `self.wavelength` and the methods that the subclass defines.  structureSE.py:73-78. -/
structure UserScat where
  wavelength : Option ℝ := none
  epsilon : Option (ℝ → Option ℂ) := none
  ownComplex : Option (Option ℝ → Option ℂ) := none

/-- `wav = self.wavelength; if np.any(wavelength): wav = wavelength`, where both may be `None`.
structureSE.py:105-107. -/
noncomputable def pickWavO (own w : Option ℝ) : Option ℝ :=
  open Classical in
  match w with
  | none => own
  | some w => if w = 0 then own else some w

/-- `s.complex(wavelength)`; `zu` is the sign of zero seen by the square root.  The `NotImplementedError` of the code
is a `RuntimeError`; converting `None` to an energy is a `TypeError`.  structureSE.py:90-116. -/
noncomputable def UserScat.complex (zu : ℝ → Bool) (s : UserScat) (w : Option ℝ) : Except PyErr (Option ℂ) :=
  match s.ownComplex with
  | some f => .ok (f w)
  | none =>
    match s.epsilon with
    | some eps =>
      match pickWavO s.wavelength w with
      | some wav => .ok (do return npSqrt (zu wav) (← eps (← nmEV wav)))
      | none => .error .typeError
    | none => .error .runtimeError

/-- The material as part of a structure (where it does not raise). -/
noncomputable def UserScat.scat (zu : ℝ → Bool) (s : UserScat) : Scat :=
  .other true fun w => match s.complex zu w with
    | .ok x => x
    | .error _ => none

/-- `Sellmeier.epsilon(wavelength)`.  dispersion.py:304-321. -/
noncomputable def sellmeierEpsilon (wl Am En P einf : ℝ) (wavelength : Option ℝ) : Option ℂ := do
  return (((← sellmeierReal Am En P einf (pickWav wl wavelength)) : ℝ) : ℂ)

end Verif.Disp
