import Verif.TMM.Model

/-!
# Specification: optics of a stratified medium

Nothing here refers to matrices or to the functions of the model; only `Pol`
(the names of the two polarisations) is shared.
-/

namespace Verif.TMM

open Complex (I)

/-- A homogeneous layer seen by one plane wave: refractive index `n`, direction
cosine `c` of the propagating wave, phase thickness `δ`. -/
structure Medium where
  n : ℂ
  c : ℂ
  δ : ℂ

/-- Continuity of the tangential electric and magnetic field at an interface.
`v`, `w` (`v'`, `w'`) are the amplitudes of the forward and backward wave on
the near (far) side. -/
def Tangential (pol : Pol) (m m' : Medium) (v w v' w' : ℂ) : Prop :=
  match pol with
  | .s => v + w = v' + w' ∧ m.n * m.c * (v - w) = m'.n * m'.c * (v' - w')
  | .p => m.n * (v + w) = m'.n * (v' + w') ∧ m.c * (v - w) = m'.c * (v' - w')

/-- Amplitudes `v`, `w` at the back face of medium `m` extend to a solution of
Maxwell's equations in the media behind it, with amplitude `t` transmitted into
the last medium and no wave coming back from there. -/
def Fields (pol : Pol) (m : Medium) (v w : ℂ) : List Medium → ℂ → Prop
  | [], _ => False
  | [b], t => Tangential pol m b v w t 0
  | m' :: b :: rest, t => ∃ v' w', Tangential pol m m' v w v' w' ∧
      Fields pol m' (v' * Complex.exp (I * m'.δ)) (w' * Complex.exp (-(I * m'.δ)))
        (b :: rest) t

/-- A stack: index of the fronting medium, films (index, thickness in nm) from
front to back, index of the backing medium. -/
structure Stack where
  front : ℂ
  films : List (ℂ × ℝ)
  back : ℂ

/-- `m` describes a film of index `n` and thickness `d` for a wave with conserved
transverse component `s = n₀ sin θ₀`: Snell's law in the form
`c² = 1 - (s/n)²`, and the phase thickness `2π n c d / λ`. -/
def IsFilm (s : ℂ) (lam : ℝ) (f : ℂ × ℝ) (m : Medium) : Prop :=
  m.n = f.1 ∧ m.c ^ 2 = 1 - (s / f.1) ^ 2 ∧ m.δ = 2 * Real.pi * f.1 * m.c * f.2 / lam

/-- A solution of the optical boundary value problem for a stack at real angle
of incidence `θ`, with direction cosine `cb` in the backing medium and film media `ms`. -/
def Solves (pol : Pol) (st : Stack) (θ : ℝ) (ms : List Medium) (cb r t : ℂ) : Prop :=
  Fields pol ⟨st.front, Complex.cos θ, 0⟩ 1 r (ms ++ [⟨st.back, cb, 0⟩]) t

/-- The wave in a half space of index `n` and direction cosine `c` leaves the
interface: it decays, or (if it neither decays nor grows) it carries power away. -/
def Outgoing (n c : ℂ) : Prop :=
  0 < (n * c).im ∨ ((n * c).im = 0 ∧ 0 < (n * c).re)

/-- The input of `coh_tmm` for a stack: end thicknesses are arbitrary. -/
def Stack.layers (st : Stack) (d0 db : Thick) : List Layer :=
  ⟨some st.front, d0⟩ :: (st.films.map fun f => ⟨some f.1, .fin f.2⟩) ++ [⟨some st.back, db⟩]

/-- A medium that does not amplify. -/
def PassiveIndex (n : ℂ) : Prop := 0 < n.re ∧ 0 ≤ n.im

/-- Result of `coh_tmm` for one polarisation: `(results["r_pol"], results["t_pol"])`. -/
def Amps.of (a : Amps) : Pol → Option (ℂ × ℂ)
  | .s => a.s
  | .p => a.p

/-- A physical situation: transparent fronting medium of index `n₀`, films and backing that do
not amplify, a real angle below grazing.  Excluded are films exactly at their critical angle, and
films that attenuate by more than `sinh 35 ≈ 8·10¹⁴` nepers. -/
structure Physical (st : Stack) (n₀ θ lam : ℝ) : Prop where
  front : st.front = n₀
  n₀_pos : 0 < n₀
  angle : |θ| < Real.pi / 2
  lam_pos : 0 < lam
  films : ∀ f ∈ st.films, PassiveIndex f.1 ∧ 0 ≤ f.2
  back : PassiveIndex st.back
  offCritical : ∀ f ∈ st.films, f.1 ^ 2 ≠ (st.front * Complex.sin θ) ^ 2
  mild : ∀ f ∈ st.films, ∀ m, IsFilm (st.front * Complex.sin θ) lam f m → m.δ.im ≤ Real.sinh 35

/-- Fraction of the incident power transmitted into a backing medium of index `nb` and direction
cosine `cb` (ratio of the normal components of the Poynting vectors). -/
noncomputable def transmittance (pol : Pol) (n₀ θ : ℝ) (nb cb t : ℂ) : ℝ :=
  match pol with
  | .s => ‖t‖ ^ 2 * (nb * cb).re / (n₀ * Real.cos θ)
  | .p => ‖t‖ ^ 2 * (nb * (starRingEnd ℂ) cb).re / (n₀ * Real.cos θ)

/-- Fresnel reflection coefficient of the interface between two media. -/
noncomputable def fresnelR (pol : Pol) (n n' c c' : ℂ) : ℂ :=
  match pol with
  | .s => (n * c - n' * c') / (n * c + n' * c')
  | .p => (n' * c - n * c') / (n' * c + n * c')

/-- Fresnel transmission coefficient of the interface between two media. -/
noncomputable def fresnelT (pol : Pol) (n n' c c' : ℂ) : ℂ :=
  match pol with
  | .s => 2 * n * c / (n * c + n' * c')
  | .p => 2 * n * c / (n' * c + n * c')

/-- The slab array `rows` (thickness in Å) describes the stack `st` (thickness in nm).  The
extinction coefficient of the first row and the thicknesses of the first and last are free. -/
def RowsOf (rows : List Row) (st : Stack) : Prop :=
  ∃ r0 mid rb n0, rows = r0 :: mid ++ [rb] ∧ r0.ri = some n0 ∧ st.front = (n0.re : ℂ) ∧
    List.Forall₂ (fun (r : Row) (f : ℂ × ℝ) => r.ri = some f.1 ∧ r.thick = 10 * f.2) mid st.films ∧
    rb.ri = some st.back

/-- Two values of delta (degrees) denote the same angle: equal, or one is a full turn more (the
value at the ends of the range 0..360 depends on the sign of a floating point zero). -/
def SameAngle (x y : Option ℝ) : Prop :=
  x = y ∨ ∃ a b, x = some a ∧ y = some b ∧ |a - b| = 360

/-- Same (psi, delta); delta up to a full turn. -/
def SamePD (x y : Option ℝ × Option ℝ) : Prop := x.1 = y.1 ∧ SameAngle x.2 y.2

/-- Degrees to radians. -/
noncomputable def rad (a : ℝ) : ℝ := a * (Real.pi / 180)

end Verif.TMM
