import Verif.Disp.Model
import Verif.Disp.MaterialData

/-! # `load_material` -/

namespace Verif.Disp

/-- A row of a csv file as numbers. -/
noncomputable def RawMaterial.row (m : RawMaterial) (r : ℕ × ℕ × ℕ) : ℝ × ℝ × Option ℝ :=
  ((r.1 : ℝ) / 10 ^ m.dw, (r.2.1 : ℝ) / 10 ^ m.dn,
    if m.hasK then some ((r.2.2 : ℝ) / 10 ^ m.dk) else none)

/-- `load_material(name)`.  dispersion.py:133-154. -/
noncomputable def loadMaterial (name : String) : Except PyErr Scat :=
  match bundled.find? fun m => m.name = name with
  | some m => .ok (riOfRows (m.rows.map m.row))
  | none => .error .valueError

end Verif.Disp
