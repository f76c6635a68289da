import Verif.Base
import Mathlib.Analysis.SpecialFunctions.Trigonometric.Arctan

/-!
# Model of /repo/refellips/reflect_modelSE.py, lines 71-294

`coh_tmm` and `Delta_Psi_TMM`.  Arrays of shape (layers, points) are modelled
as one list over layers for every point.
-/

namespace Verif.TMM

open Complex (I)

/-- Entry of `d_list`: a finite thickness (nm) or `np.inf`.
reflect_modelSE.py:115-116, 276-278. -/
inductive Thick
  | fin (x : ℝ)
  | inf

/-- One layer as `coh_tmm` sees it: entries of `n_list` and `d_list`
(reflect_modelSE.py:122-124).  Simplification: the two arrays have the same
length, as `Delta_Psi_TMM` guarantees.  `n = none` is a `nan` entry. -/
structure Layer where
  n : Option ℂ
  d : Thick

/-- `cos(arcsin z)` with the branch numpy takes.  reflect_modelSE.py:68, 143
(`numpy.lib.scimath.arcsin`).  Off the real axis and for `z ≤ 1` this is the
principal root of `1 - z^2`; for real `z > 1` the imaginary part of the
argument is `+0` there and numpy returns `π/2 + i acosh z`. -/
noncomputable def root1m (z : ℂ) : ℂ :=
  open Classical in
  if z.im = 0 ∧ 1 < z.re then -I * (Real.sqrt (z.re ^ 2 - 1) : ℂ)
  else Complex.sqrt (1 - z ^ 2)

/-- `scimath.arcsin`: `-i log(i z + sqrt(1 - z^2))`.  reflect_modelSE.py:68, 143. -/
noncomputable def npArcsin (z : ℂ) : ℂ := -I * Complex.log (I * z + root1m z)

/-- The two polarisations.  reflect_modelSE.py:165-168. -/
inductive Pol
  | s
  | p
  deriving DecidableEq

/-- reflect_modelSE.py:81-84 -/
noncomputable def interfaceRs (ni nf thi thf : ℂ) : Option ℂ :=
  cdiv (ni * Complex.cos thi - nf * Complex.cos thf)
    (ni * Complex.cos thi + nf * Complex.cos thf)

/-- reflect_modelSE.py:87-90 -/
noncomputable def interfaceRp (ni nf thi thf : ℂ) : Option ℂ :=
  cdiv (nf * Complex.cos thi - ni * Complex.cos thf)
    (nf * Complex.cos thi + ni * Complex.cos thf)

/-- reflect_modelSE.py:93-94 -/
noncomputable def interfaceTs (ni nf thi thf : ℂ) : Option ℂ :=
  cdiv (2 * ni * Complex.cos thi) (ni * Complex.cos thi + nf * Complex.cos thf)

/-- reflect_modelSE.py:97-98 -/
noncomputable def interfaceTp (ni nf thi thf : ℂ) : Option ℂ :=
  cdiv (2 * ni * Complex.cos thi) (nf * Complex.cos thi + ni * Complex.cos thf)

/-- Selection of `interface_r` by polarisation.  reflect_modelSE.py:165-170. -/
noncomputable def interfaceR : Pol → ℂ → ℂ → ℂ → ℂ → Option ℂ
  | .s => interfaceRs
  | .p => interfaceRp

/-- Selection of `interface_t` by polarisation.  reflect_modelSE.py:165-170. -/
noncomputable def interfaceT : Pol → ℂ → ℂ → ℂ → ℂ → Option ℂ
  | .s => interfaceTs
  | .p => interfaceTp

/-- `100 * EPSILON` with `EPSILON = np.finfo(np.float64).eps = 2^-52`.
reflect_modelSE.py:71, 133. -/
noncomputable def assertTol : ℝ := 100 * (2 : ℝ)⁻¹ ^ 52

/-- The input test for one point.  reflect_modelSE.py:132-134.  A `nan` index
compares false. -/
def assertOk (n0 : Option ℂ) (th0 : ℂ) : Prop :=
  ∃ n, n0 = some n ∧ |(n * Complex.sin th0).im| < assertTol

/-- The (index, angle) pairs of all layers at one point, `n_list` and `th_list`.
reflect_modelSE.py:143. -/
noncomputable def angles (n0 : ℂ) (th0 : ℂ) (ls : List Layer) : List (Option (ℂ × ℂ)) :=
  ls.map fun l => do
    let n ← l.n
    let z ← cdiv (n0 * Complex.sin th0) n
    some (n, npArcsin z)

/-- `kz_list` at one point.  reflect_modelSE.py:148. -/
noncomputable def kzs (lam : ℝ) (ths : List (Option (ℂ × ℂ))) : List (Option ℂ) :=
  ths.map fun x => do
    let (n, th) ← x
    cdiv (2 * Real.pi * n * Complex.cos th) lam

/-- Phase `kz * d`; an infinite `d` gives a non-finite product.
reflect_modelSE.py:154. -/
noncomputable def phase (kz : Option ℂ) (d : Thick) : Option ℂ :=
  match kz, d with
  | some k, .fin x => some (k * x)
  | _, _ => none

/-- `delta = kz_list[1:-1] * d_list[1:-1]`.  reflect_modelSE.py:154. -/
noncomputable def deltas (kz : List (Option ℂ)) (ls : List Layer) : List (Option ℂ) :=
  List.zipWith (fun k l => phase k l.d) kz.tail.dropLast ls.tail.dropLast

/-- Element-wise `np.clip(delta.imag, -inf, 35)`.  reflect_modelSE.py:161. -/
noncomputable def clip35 (δ : ℂ) : ℂ := ⟨δ.re, min δ.im 35⟩

/-- `np.imag(delta) > 35` for one entry (`nan` compares false).
reflect_modelSE.py:160. -/
def opaque35 : Option ℂ → Prop
  | some δ => 35 < δ.im
  | none => False

/-- 2x2 matrix `[[a, b], [c, d]]` (Mtilde / M_list). -/
structure Mat where
  a : ℂ
  b : ℂ
  c : ℂ
  d : ℂ

/-- Characteristic matrix of one layer.  reflect_modelSE.py:190-197. -/
noncomputable def layerMat (δ r t : ℂ) : Option Mat := do
  let β := Complex.exp (I * δ)
  let βinv ← cdiv 1 β
  let m00 ← cdiv βinv t
  let m01 ← cdiv (r * βinv) t
  let m10 ← cdiv (r * β) t
  let m11 ← cdiv β t
  some ⟨m00, m01, m10, m11⟩

/-- Matrix of the first interface.  reflect_modelSE.py:201-204. -/
noncomputable def initMat (r t : ℂ) : Option Mat := do
  let m00 ← cdiv 1 t
  let m01 ← cdiv r t
  some ⟨m00, m01, m01, m00⟩

/-- One pass of the propagation loop.  reflect_modelSE.py:209-217. -/
def step (m k : Mat) : Mat :=
  ⟨m.a * k.a + m.b * k.c, m.a * k.b + m.b * k.d,
   m.c * k.a + m.d * k.c, m.c * k.b + m.d * k.d⟩

/-- Consecutive pairs: the slices `[:-1]` and `[1:]`.  reflect_modelSE.py:174-179. -/
def pairs {α : Type*} (l : List α) : List (α × α) := l.zip l.tail

/-- `r_list` / `t_list` at one point.  reflect_modelSE.py:174-179. -/
noncomputable def coefList (f : ℂ → ℂ → ℂ → ℂ → Option ℂ)
    (ths : List (Option (ℂ × ℂ))) : List (Option ℂ) :=
  (pairs ths).map fun x => do
    let (ni, thi) ← x.1
    let (nf, thf) ← x.2
    f ni nf thi thf

/-- `M_list` at one point: `delta`, `r_list[1:]`, `t_list[1:]` combined.
reflect_modelSE.py:188-197. -/
noncomputable def matList (δs rs ts : List (Option ℂ)) : List (Option Mat) :=
  List.zipWith (fun δ rt => do
      let δ ← δ
      let r ← rt.1
      let t ← rt.2
      layerMat δ r t)
    δs (rs.tail.zip ts.tail)

/-- The whole calculation for one polarisation at one point, given the phases.
A non-finite intermediate value (`none`) makes both results non-finite.
`t_list[0]` of an empty list raises before this is called
(see `cohTmm`).  reflect_modelSE.py:170-223. -/
noncomputable def polResult (pol : Pol) (ths : List (Option (ℂ × ℂ)))
    (δs : List (Option ℂ)) : Option (ℂ × ℂ) := do
  let rs := coefList (interfaceR pol) ths
  let ts := coefList (interfaceT pol) ths
  let r0 ← rs.head?.join
  let t0 ← ts.head?.join
  let m0 ← initMat r0 t0
  let ms ← (matList δs rs ts).mapM id
  let m := ms.foldl step m0
  let r ← cdiv m.c m.a
  let t ← cdiv 1 m.a
  some (r, t)

/-- `results` at one point: `(r, t)` for s and p.  reflect_modelSE.py:163, 220-225. -/
structure Amps where
  s : Option (ℂ × ℂ)
  p : Option (ℂ × ℂ)

/-- `coh_tmm` on arrays of points `(th_0, lam_vac)`.  The clip test `.any()` is
over all layers and all points.  reflect_modelSE.py:101-225. -/
noncomputable def cohTmm (ls : List Layer) (pts : List (ℂ × ℝ)) : Except PyErr (List Amps) :=
  open Classical in
  match ls with
  | [] => .error .indexError
  | l0 :: _ =>
    if ∀ pt ∈ pts, assertOk l0.n pt.1 then
      if ls.length < 2 then .error .indexError
      else
        let δsOf (pt : ℂ × ℝ) : List (Option ℂ) :=
          deltas (kzs pt.2 (angles (l0.n.getD 0) pt.1 ls)) ls
        let anyOpaque : Prop := ∃ pt ∈ pts, ∃ δ ∈ δsOf pt, opaque35 δ
        .ok (pts.map fun pt =>
          let ths := angles (l0.n.getD 0) pt.1 ls
          let δs := if anyOpaque then (δsOf pt).map (Option.map clip35) else δsOf pt
          ⟨polResult .s ths δs, polResult .p ths δs⟩)
    else .error .assertionError

/-- `np.angle`: principal argument; on the negative real axis the sign of the
zero imaginary part (`σ`) selects `π` or `-π`.  reflect_modelSE.py:286. -/
noncomputable def npAngle (σ : Bool) (z : ℂ) : ℝ :=
  open Classical in
  if z.im = 0 ∧ z.re < 0 then (if σ then Real.pi else -Real.pi) else Complex.arg z

/-- `np.arctan(abs(rp / rs))`; `x/0` is infinite for `x ≠ 0` (giving `π/2`) and
`nan` for `0/0`.  reflect_modelSE.py:285. -/
noncomputable def psiRad (rs rp : ℂ) : Option ℝ :=
  open Classical in
  if rs = 0 then (if rp = 0 then none else some (Real.pi / 2))
  else some (Real.arctan ‖rp / rs‖)

/-- `np.angle(1 / (-rp / rs)) + np.pi`.  reflect_modelSE.py:286. -/
noncomputable def deltaRad (σ : Bool) (rs rp : ℂ) : Option ℝ := do
  let x ← cdiv (-rp) rs
  let y ← cdiv 1 x
  some (npAngle σ y + Real.pi)

/-- `delta[delta > pi] = 2 pi - delta[delta > pi]`.  reflect_modelSE.py:288-292. -/
noncomputable def reflectRad (reflect : Bool) (δ : ℝ) : ℝ :=
  open Classical in
  if reflect then (if Real.pi < δ then 2 * Real.pi - δ else δ) else δ

/-- Post-processing of the amplitudes at one point to (psi, delta) in degrees.
reflect_modelSE.py:282-294. -/
noncomputable def psiDelta (σ reflect : Bool) (off : ℝ) (a : Amps) : Option ℝ × Option ℝ :=
  match a.s, a.p with
  | some (rs, _), some (rp, _) =>
    ((psiRad rs rp).map fun x => x * (180 / Real.pi),
     (deltaRad σ rs rp).map fun x => reflectRad reflect x * (180 / Real.pi) + off)
  | _, _ => (none, none)

/-- `layers[0, 2] = 0`.  reflect_modelSE.py:274. -/
noncomputable def zeroFrontK : List Row → List Row
  | [] => []
  | r :: rs => { r with ri := r.ri.map fun n => ((n.re : ℝ) : ℂ) } :: rs

/-- `thicks[0] = np.inf; thicks[-1] = np.inf`.  reflect_modelSE.py:277-278. -/
def infEnds (l : List Thick) : List Thick :=
  (l.set 0 .inf).set (l.length - 1) .inf

/-- `RIs` and `thicks`.  reflect_modelSE.py:275-278. -/
noncomputable def toLayers (rows : List Row) : List Layer :=
  List.zipWith (fun n d => ⟨n, d⟩) (rows.map Row.ri)
    (infEnds (rows.map fun r => .fin (r.thick / 10)))

/-- The result of `Delta_Psi_TMM` together with the (mutated) `layers` array.
The oracle `zs` gives the sign of zero seen by `np.angle`, as a function of the
arguments of `coh_tmm` at the point.  reflect_modelSE.py:228-294. -/
noncomputable def deltaPsiTMM (zs : List Layer → ℝ → ℝ → Bool) (aoi : List ℝ) (layers : List Row)
    (wav off : ℝ) (reflect : Bool) :
    Except PyErr (List (Option ℝ × Option ℝ)) × List Row :=
  match layers with
  | [] => (.error .indexError, [])
  | _ :: _ =>
    let ls := zeroFrontK layers
    let res := cohTmm (toLayers ls)
      (aoi.map fun a => (((a * (Real.pi / 180) : ℝ) : ℂ), wav))
    (res.map fun amps =>
      List.zipWith (fun a am => psiDelta (zs (toLayers ls) a wav) reflect off am) aoi amps, ls)

end Verif.TMM
