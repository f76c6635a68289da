import Verif.Obj.Model

/-!
# Points that are not numbers (/repo/refellips/reflect_modelSE.py, lines 374-396 and 228-294, objectiveSE.py 199-225)

The other files have data that are real numbers.  Here a wavelength, angle of incidence, psi or delta of the data may be
`none`, which is `nan`.
-/

namespace Verif.Obj
open Verif.Struct Verif.TMM Verif.RModel Verif.Data

/-- `np.unique`: the numbers in increasing order; `nan` is sorted last (numpy before 1.21 returns it several times, with
the same effect in the loop).  reflect_modelSE.py:381. -/
noncomputable def nanUnique (ws : List (Option ℝ)) : List (Option ℝ) :=
  (npUnique (ws.filterMap id)).map some ++ if none ∈ ws then [none] else []

/-- `wavelength == wav`; nothing equals `nan`, not even itself.  reflect_modelSE.py:383. -/
noncomputable def nanMask (ws : List (Option ℝ)) : Option ℝ → List Bool
  | some w => open Classical in ws.map fun x => decide (x = some w)
  | none => ws.map fun _ => false

/-- All values, if none is `nan`. -/
def numbers : List (Option ℝ) → Option (List ℝ)
  | [] => some []
  | none :: _ => none
  | some x :: l => (numbers l).map (x :: ·)

/-- `Delta_Psi_TMM` for angles that may be `nan`: `abs(imag(n_0 * sin(nan))) < 100 * EPSILON` is False, and the assertion in
`coh_tmm` fails for all points.  reflect_modelSE.py:228-294, 131-134. -/
noncomputable def nanDeltaPsi (zs : List Layer → ℝ → ℝ → Bool) (aoi : List (Option ℝ)) (rows : List Row) (wav off : ℝ)
    (flip : Bool) : Except PyErr (List Cell) :=
  match numbers aoi with
  | some as => (deltaPsiTMM zs as rows wav off flip).1
  | none => if rows = [] then .error .indexError else .error .assertionError

/-- The loop over the unique wavelengths.  `nanSlabs` is `structure.slabs()` at the wavelength `nan`; the last component of
the state says that `structure.wavelength` is `nan`.  `Delta_Psi_TMM` is called without angles for the wavelength `nan`.
reflect_modelSE.py:382-394. -/
noncomputable def nanLoop (ext : Ext) (zs : List Layer → ℝ → ℝ → Bool) (d : DType) (v : Vals) (m : RM)
    (nanSlabs : Structure → Except PyErr (Option (List Row))) (pts : List (Option ℝ × Option ℝ)) :
    List (Option ℝ) → List Cell → Structure × Bool → Except PyErr (List Cell) × Structure × Bool
  | [], acc, s => (.ok acc, s)
  | some w :: ws, acc, s =>
    let mask := nanMask (pts.map Prod.fst) (some w)
    match slabs ext v { s.1 with wavelength := some w } none with
    | (.error e, s') => (.error e, s', false)
    | (.ok none, s') => (.error .typeError, s', false)
    | (.ok (some rows), s') =>
      match nanDeltaPsi zs (pick mask (pts.map Prod.snd)) rows w (v m.off) m.flip with
      | .error e => (.error e, s', false)
      | .ok vals => nanLoop ext zs d v m nanSlabs pts ws (scatter mask (vals.map d.storeCell) acc) (s', false)
  | none :: ws, acc, s =>
    let mask := nanMask (pts.map Prod.fst) none
    match nanSlabs s.1 with
    | .error e => (.error e, s.1, true)
    | .ok none => (.error .typeError, s.1, true)
    | .ok (some rows) =>
      match nanDeltaPsi zs (pick mask (pts.map Prod.snd)) rows 0 (v m.off) m.flip with
      | .error e => (.error e, s.1, true)
      | .ok vals => nanLoop ext zs d v m nanSlabs pts ws (scatter mask (vals.map d.storeCell) acc) (s.1, true)

/-- `model(wavelength_aoi)`.  reflect_modelSE.py:355-396. -/
noncomputable def nanModel (ext : Ext) (zs : List Layer → ℝ → ℝ → Bool) (d : DType) (v : Vals) (m : RM)
    (nanSlabs : Structure → Except PyErr (Option (List Row))) (s : Structure) (pts : List (Option ℝ × Option ℝ)) :
    Except PyErr (List Cell) × Structure × Bool :=
  nanLoop ext zs d v m nanSlabs pts (nanUnique (pts.map Prod.fst)) (pts.map fun _ => (some 0, some 0)) (s, false)

/-- A point: wavelength, angle of incidence, psi and delta. -/
abbrev NPt := Option ℝ × Option ℝ × Option ℝ × Option ℝ

/-- The residuals.  objectiveSE.py:204-205. -/
noncomputable def nanRes (cells : List Cell) (p d : List (Option ℝ)) : List (Option ℝ) :=
  List.zipWith (fun (c : Cell) x => c.1.bind fun a => x.map fun b => a - b) cells p ++
    List.zipWith (fun (c : Cell) y => c.2.bind fun a => y.map fun b => circularDistance a b 360) cells d

/-- `objective.chisqr()` for such data, with the current values of the parameters.  objectiveSE.py:199-225. -/
noncomputable def nanChisqr (env : Env) (o : Objective) (nanSlabs : Structure → Except PyErr (Option (List Row)))
    (pts : List NPt) (st : St) : Except PyErr (Option ℝ) :=
  let m := st.models o.model
  match (nanModel env.ext env.zs env.dt st.vals m.rm nanSlabs (st.structs m.str) (pts.map fun p => (p.1, p.2.1))).1 with
  | .error e => .error e
  | .ok cells =>
    .ok ((finite (nanRes cells (pts.map (·.2.2.1)) (pts.map (·.2.2.2)))).map fun l => (l.map fun x => x * x).sum)

end Verif.Obj
