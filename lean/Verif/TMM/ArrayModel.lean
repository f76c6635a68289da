import Verif.TMM.Model

/-!
# The array program of /repo/refellips/reflect_modelSE.py, lines 81-294

`Verif.TMM.Model` describes `coh_tmm` point by point.  Here the same functions are transcribed as they are
written: whole arrays of shape (layers, points), numpy broadcasting, slices and the loop over the layers.

Entries are complex numbers, `none` for a value that is not finite (`np.inf` in `d_list` included).  An
array with one dimension is an array with one row, as broadcasting treats it; a scalar is an array with one
row and one column.
-/

namespace Verif.TMM.Arr
open Complex (I)

/-- A numpy array with `r` rows and `c` columns. -/
structure A2 (α : Type) where
  r : ℕ
  c : ℕ
  get : ℕ → ℕ → α

/-- Numbers that may not be finite. -/
abbrev Num := Option ℂ

/-! ### numpy -/

/-- The common length of two dimensions (numpy broadcasting). -/
def bdim (m n : ℕ) : Except PyErr ℕ :=
  if m = n then .ok m else if m = 1 then .ok n else if n = 1 then .ok m else .error .valueError

/-- The entry that broadcasting puts at row `i` and column `j`. -/
def A2.bget {α : Type} (x : A2 α) (i j : ℕ) : α :=
  x.get (if x.r = 1 then 0 else i) (if x.c = 1 then 0 else j)

/-- An operation on two arrays, entry by entry, with broadcasting. -/
def bin {α β γ : Type} (f : α → β → γ) (x : A2 α) (y : A2 β) : Except PyErr (A2 γ) := do
  let r ← bdim x.r y.r
  let c ← bdim x.c y.c
  return ⟨r, c, fun i j => f (x.bget i j) (y.bget i j)⟩

/-- A function of one array, entry by entry. -/
def A2.map {α β : Type} (f : α → β) (x : A2 α) : A2 β := ⟨x.r, x.c, fun i j => f (x.get i j)⟩

/-- `x[a : len - b]` along the first axis. -/
def A2.slice {α : Type} (x : A2 α) (a b : ℕ) : A2 α := ⟨x.r - b - a, x.c, fun i j => x.get (i + a) j⟩

/-- `x[i]`. -/
def A2.row {α : Type} (x : A2 α) (i : ℕ) : Except PyErr (A2 α) :=
  if i < x.r then .ok ⟨1, x.c, fun _ j => x.get i j⟩ else .error .indexError

/-- `x[:, None]` of an array with one dimension. -/
def A2.col {α : Type} (x : A2 α) : A2 α := ⟨x.c, 1, fun i _ => x.get 0 i⟩

/-- Arithmetic. -/
def add (a b : Num) : Num := do return (← a) + (← b)
def sub (a b : Num) : Num := do return (← a) - (← b)
def mul (a b : Num) : Num := do return (← a) * (← b)
noncomputable def div (a b : Num) : Num := do cdiv (← a) (← b)

/-- A scalar. -/
def scalar {α : Type} (a : α) : A2 α := ⟨1, 1, fun _ _ => a⟩

/-! ### The functions of the module -/

/-- reflect_modelSE.py:81-84 -/
noncomputable def interfaceRs (ni nf thi thf : A2 Num) : Except PyErr (A2 Num) := do
  bin div (← bin sub (← bin mul ni (thi.map (Option.map Complex.cos)))
      (← bin mul nf (thf.map (Option.map Complex.cos))))
    (← bin add (← bin mul ni (thi.map (Option.map Complex.cos)))
      (← bin mul nf (thf.map (Option.map Complex.cos))))

/-- reflect_modelSE.py:87-90 -/
noncomputable def interfaceRp (ni nf thi thf : A2 Num) : Except PyErr (A2 Num) := do
  bin div (← bin sub (← bin mul nf (thi.map (Option.map Complex.cos)))
      (← bin mul ni (thf.map (Option.map Complex.cos))))
    (← bin add (← bin mul nf (thi.map (Option.map Complex.cos)))
      (← bin mul ni (thf.map (Option.map Complex.cos))))

/-- reflect_modelSE.py:93-94 -/
noncomputable def interfaceTs (ni nf thi thf : A2 Num) : Except PyErr (A2 Num) := do
  bin div (← bin mul (ni.map (mul (some 2))) (thi.map (Option.map Complex.cos)))
    (← bin add (← bin mul ni (thi.map (Option.map Complex.cos)))
      (← bin mul nf (thf.map (Option.map Complex.cos))))

/-- reflect_modelSE.py:97-98 -/
noncomputable def interfaceTp (ni nf thi thf : A2 Num) : Except PyErr (A2 Num) := do
  bin div (← bin mul (ni.map (mul (some 2))) (thi.map (Option.map Complex.cos)))
    (← bin add (← bin mul nf (thi.map (Option.map Complex.cos)))
      (← bin mul ni (thf.map (Option.map Complex.cos))))

/-- The polarisation's functions.  reflect_modelSE.py:165-168. -/
noncomputable def interfaceR : Pol → A2 Num → A2 Num → A2 Num → A2 Num → Except PyErr (A2 Num)
  | .s => interfaceRs
  | .p => interfaceRp

noncomputable def interfaceT : Pol → A2 Num → A2 Num → A2 Num → A2 Num → Except PyErr (A2 Num)
  | .s => interfaceTs
  | .p => interfaceTp

/-- Four arrays: the entries of 2x2 matrices. -/
structure Mats where
  m00 : A2 Num
  m01 : A2 Num
  m10 : A2 Num
  m11 : A2 Num

/-- `delta`, clipped if any entry is too large; only worked out for more than two layers.
reflect_modelSE.py:150-161. -/
noncomputable def phases (kz d : A2 Num) : Except PyErr (A2 Num) :=
  open Classical in do
  let delta ← bin mul (kz.slice 1 1) ((d.col).slice 1 1)
  return if ∃ i < delta.r, ∃ j < delta.c, opaque35 (delta.get i j) then delta.map (Option.map clip35) else delta

/-- The characteristic matrices of all layers.  reflect_modelSE.py:188-197. -/
noncomputable def charMats (delta r t : A2 Num) : Except PyErr Mats := do
  let beta := delta.map (Option.map fun δ => Complex.exp (I * δ))
  let betaInv := beta.map (div (some 1))
  let m00 ← bin div betaInv (t.slice 1 0)
  let m01 ← bin div (← bin mul (r.slice 1 0) betaInv) (t.slice 1 0)
  let m10 ← bin div (← bin mul (r.slice 1 0) beta) (t.slice 1 0)
  let m11 ← bin div beta (t.slice 1 0)
  return ⟨m00, m01, m10, m11⟩

/-- One pass of the loop.  reflect_modelSE.py:207-217. -/
noncomputable def loopStep (L : Mats) (M : Mats) (i : ℕ) : Except PyErr Mats := do
  let p00 ← bin add (← bin mul M.m00 (← L.m00.row i)) (← bin mul M.m01 (← L.m10.row i))
  let p01 ← bin add (← bin mul M.m00 (← L.m01.row i)) (← bin mul M.m01 (← L.m11.row i))
  let p10 ← bin add (← bin mul M.m10 (← L.m00.row i)) (← bin mul M.m11 (← L.m10.row i))
  let p11 ← bin add (← bin mul M.m10 (← L.m01.row i)) (← bin mul M.m11 (← L.m11.row i))
  return ⟨p00, p01, p10, p11⟩

/-- One polarisation: `r` and `t`.  With two layers there are no phases and the loop is empty.
reflect_modelSE.py:170-223. -/
noncomputable def polRun (pol : Pol) (numLayers : ℕ) (nl th : A2 Num) (delta : Option (A2 Num)) :
    Except PyErr (A2 Num × A2 Num) := do
  let r ← interfaceR pol (nl.col.slice 0 1) (nl.col.slice 1 0) (th.slice 0 1) (th.slice 1 0)
  let t ← interfaceT pol (nl.col.slice 0 1) (nl.col.slice 1 0) (th.slice 0 1) (th.slice 1 0)
  let L ← match delta with
    | some delta => (charMats delta r t).map some
    | none => .ok none
  let m00 ← bin div (scalar (some 1)) (← t.row 0)
  let m01 ← bin div (← r.row 0) (← t.row 0)
  let M0 : Mats := ⟨m00, m01, m01, m00⟩
  let M ← match L with
    | some L => (List.range (numLayers - 2)).foldlM (loopStep L) M0
    | none => .ok M0
  let rr ← bin div M.m10 M.m00
  let tt ← bin div (scalar (some 1)) M.m00
  return (rr, tt)

/-- `results`. -/
structure Results where
  rs : A2 Num
  ts : A2 Num
  rp : A2 Num
  tp : A2 Num

/-- `coh_tmm(n_list, d_list, th_0, lam_vac)`; the arguments have one dimension or are scalars (`ravel`
flattens others first).  reflect_modelSE.py:101-225. -/
noncomputable def cohTmm (nl d : A2 Num) (th0 lam : A2 ℂ) : Except PyErr Results :=
  open Classical in do
  let th ← bin (fun a _ => a) th0 lam
  let lam ← bin (fun _ b => b) th0 lam
  let n0 ← nl.col.row 0
  let s ← bin mul n0 (th.map fun a => some (Complex.sin a))
  if ∀ j < s.c, ∃ z, s.get 0 j = some z ∧ |z.im| < assertTol then
    let q ← bin div (← bin mul n0 (th.map fun a => some (Complex.sin a))) nl.col
    let ths := q.map (Option.map npArcsin)
    let kz ← bin div (← bin mul (nl.col.map (mul (some (2 * Real.pi)))) (ths.map (Option.map Complex.cos)))
      (lam.map some)
    let delta ← if 2 < nl.c then (phases kz d).map some else .ok none
    let (rs, ts) ← polRun .s nl.c nl ths delta
    let (rp, tp) ← polRun .p nl.c nl ths delta
    return ⟨rs, ts, rp, tp⟩
  else throw .assertionError

/-- Psi and delta in degrees, entry by entry, from `r_s` and `r_p`; `σ j` is the sign of zero that
`np.angle` sees at column `j`.  reflect_modelSE.py:282-294. -/
noncomputable def psiDeltaArr (σ : ℕ → Bool) (reflect : Bool) (off : ℝ) (rs rp : A2 Num) :
    Except PyErr (A2 (Option ℝ) × A2 (Option ℝ)) :=
  open Classical in do
  let psi ← bin (fun rp rs => do psiRad (← rs) (← rp)) rp rs
  let q ← bin (fun rp rs => do cdiv (-(← rp)) (← rs)) rp rs
  let inv := q.map (div (some 1))
  let delta : A2 (Option ℝ) := ⟨inv.r, inv.c, fun i j => (inv.get i j).map fun z => npAngle (σ j) z + Real.pi⟩
  let delta : A2 (Option ℝ) := if reflect then
      delta.map (Option.map fun x => if Real.pi < x then 2 * Real.pi - x else x)
    else delta
  return (psi.map (Option.map fun x => x * (180 / Real.pi)),
    delta.map (Option.map fun x => x * (180 / Real.pi) + off))

/-- `x[i, j] = a`. -/
def A2.set {α : Type} (x : A2 α) (i j : ℕ) (a : α) : Except PyErr (A2 α) :=
  if i < x.r ∧ j < x.c then .ok { x with get := fun i' j' => if i' = i ∧ j' = j then a else x.get i' j' }
  else .error .indexError

/-- `layers[:, k]` as an array with one dimension. -/
def A2.colAt {α : Type} (x : A2 α) (k : ℕ) : Except PyErr (A2 α) :=
  if k < x.c then .ok ⟨1, x.r, fun _ i => x.get i k⟩ else .error .indexError

/-- `Delta_Psi_TMM`: psi, delta and the array `layers` afterwards.  `layers` holds real numbers, `none` for
`nan`.  reflect_modelSE.py:228-294. -/
noncomputable def deltaPsi (σ : ℕ → Bool) (aoi : A2 ℝ) (layers : A2 (Option ℝ)) (wav off : ℝ) (reflect : Bool) :
    Except PyErr (A2 (Option ℝ) × A2 (Option ℝ) × A2 (Option ℝ)) := do
  let aoi := aoi.map (· * (Real.pi / 180))
  let layers ← layers.set 0 2 (some 0)
  let ris ← bin (fun (a b : Option ℝ) => do return ((← a : ℝ) : ℂ) + ((← b : ℝ) : ℂ) * I)
    (← layers.colAt 1) (← layers.colAt 2)
  let th ← layers.colAt 0
  let thicks : A2 Num := th.map (Option.map fun x => ((x / 10 : ℝ) : ℂ))
  let thicks ← thicks.set 0 0 none
  let thicks ← thicks.set 0 (thicks.c - 1) none
  let res ← cohTmm ris thicks (aoi.map fun a => ((a : ℝ) : ℂ)) (scalar (wav : ℂ))
  let (psi, delta) ← psiDeltaArr σ reflect off res.rs res.rp
  return (psi, delta, layers)

end Verif.TMM.Arr
