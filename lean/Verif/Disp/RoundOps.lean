import Verif.Near
import Verif.Disp.Rounded
import Verif.EMA.PropsContinuity
import Mathlib.Analysis.SpecialFunctions.Pow.Deriv
import Mathlib.Analysis.SpecialFunctions.Trigonometric.ArctanDeriv
import Mathlib.Analysis.SpecialFunctions.Log.Deriv
import Mathlib.Analysis.SpecialFunctions.Sqrt

/-! # The operations of `Mach` (for C153) -/

namespace Verif.Disp

open Filter Topology Asymptotics

instance : Roundoff Mach where
  Within := Mach.Within
  nonneg := Mach.Within.nonneg

/-- Arithmetics with a roundoff that tends to zero. -/
abbrev fine : Filter (Mach × ℝ) := tiny Mach

theorem fine_within : ∀ᶠ p in fine, p.1.Within p.2 := tiny_within

section
variable {F G : Mach × ℝ → ℂ} {z w : ℂ}

theorem _root_.Verif.Near.madd (h : Near F z) (h' : Near G w) :
    Near (fun p : Mach × ℝ => p.1.add (F p) (G p)) (z + w) :=
  (h.add h').round (fine_within.mono fun _ hp => hp.add _ _)

theorem _root_.Verif.Near.msub (h : Near F z) (h' : Near G w) :
    Near (fun p : Mach × ℝ => p.1.sub (F p) (G p)) (z - w) :=
  (h.sub h').round (fine_within.mono fun _ hp => hp.sub _ _)

theorem _root_.Verif.Near.mmul (h : Near F z) (h' : Near G w) :
    Near (fun p : Mach × ℝ => p.1.mul (F p) (G p)) (z * w) :=
  (h.mul h').round (fine_within.mono fun _ hp => hp.mul _ _)

theorem _root_.Verif.Near.mcquot (h : Near F z) (h' : Near G w) (hw : w ≠ 0) :
    NearS (fun p : Mach × ℝ => p.1.cquot (F p) (G p)) (z / w) := by
  refine ⟨fun p : Mach × ℝ => p.1.div (F p) (G p), ?_, (h'.ne hw).mono fun _ hp => if_neg hp⟩
  refine (h.div h' hw).round ?_
  filter_upwards [fine_within, h'.ne hw] with p hp h1
  exact hp.div _ _ h1

theorem _root_.Verif.Near.msq (h : Near F z) : Near (fun p : Mach × ℝ => p.1.sq (F p)) (z ^ 2) := by
  have h1 : Near (fun p => F p ^ 2) (z ^ 2) := by
    simp only [sq]
    exact h.mul h
  exact h1.round (fine_within.mono fun _ hp => hp.sq _)

theorem csqrt_diff (hz : z ∈ Complex.slitPlane) : DifferentiableAt ℝ Complex.sqrt z := by
  have : DifferentiableAt ℂ (fun x : ℂ => x ^ (2⁻¹ : ℂ)) z := differentiableAt_id.cpow_const hz
  exact DifferentiableAt.restrictScalars ℝ this

theorem _root_.Verif.Near.msqrt (σ : Bool) (h : Near F z) (hz : z ∈ Complex.slitPlane) :
    Near (fun p : Mach × ℝ => p.1.sqrt (F p)) (npSqrt σ z) := by
  rw [EMA.npSqrt_slit σ hz]
  refine (h.diff (csqrt_diff hz)).round ?_
  filter_upwards [fine_within, h.tendsto.eventually (Complex.isOpen_slitPlane.mem_nhds hz)] with p hp h1
  obtain ⟨τ, ht⟩ := hp.sqrt (F p)
  rwa [EMA.npSqrt_slit τ h1] at ht

end

section
variable {F G : Mach × ℝ → ℝ} {z w : ℝ}

theorem _root_.Verif.Near.mradd (h : Near F z) (h' : Near G w) :
    Near (fun p : Mach × ℝ => p.1.radd (F p) (G p)) (z + w) :=
  (h.add h').round (fine_within.mono fun _ hp => hp.radd _ _)

theorem _root_.Verif.Near.mrsub (h : Near F z) (h' : Near G w) :
    Near (fun p : Mach × ℝ => p.1.rsub (F p) (G p)) (z - w) :=
  (h.sub h').round (fine_within.mono fun _ hp => hp.rsub _ _)

theorem _root_.Verif.Near.mrmul (h : Near F z) (h' : Near G w) :
    Near (fun p : Mach × ℝ => p.1.rmul (F p) (G p)) (z * w) :=
  (h.mul h').round (fine_within.mono fun _ hp => hp.rmul _ _)

theorem _root_.Verif.Near.mrdiv (h : Near F z) (h' : Near G w) (hw : w ≠ 0) :
    Near (fun p : Mach × ℝ => p.1.rdiv (F p) (G p)) (z / w) := by
  refine (h.rdiv h' hw).round ?_
  filter_upwards [fine_within, h'.rne hw] with p hp h1
  exact hp.rdiv _ _ h1

theorem _root_.Verif.Near.mquot (h : Near F z) (h' : Near G w) (hw : w ≠ 0) :
    NearS (fun p : Mach × ℝ => p.1.quot (F p) (G p)) (z / w) :=
  ⟨_, h.mrdiv h' hw, (h'.rne hw).mono fun _ hp => if_neg hp⟩

theorem _root_.Verif.Near.mrpow (h : Near F z) (k : ℕ) :
    Near (fun p : Mach × ℝ => p.1.rpow (F p) k) (z ^ k) :=
  (h.diff (g := fun x : ℝ => x ^ k) (differentiableAt_id.pow k)).round (fine_within.mono fun _ hp => hp.rpow _ _)

theorem _root_.Verif.Near.mroot (h : Near F z) (hz : 0 < z) :
    NearS (fun p : Mach × ℝ => p.1.root (F p)) (Real.sqrt z) := by
  have hp : ∀ᶠ p in fine, 0 < F p := h.tendsto.eventually (lt_mem_nhds hz)
  refine ⟨fun p : Mach × ℝ => p.1.rsqrt (F p), ?_, hp.mono fun _ hp => if_neg (not_lt.mpr hp.le)⟩
  refine (h.diff (g := Real.sqrt) (differentiableAt_id.sqrt hz.ne')).round ?_
  filter_upwards [fine_within, hp] with p h1 h2
  exact h1.rsqrt _ h2.le

theorem _root_.Verif.Near.mln (h : Near F z) (hz : 0 < z) :
    NearS (fun p : Mach × ℝ => p.1.ln (F p)) (Real.log z) := by
  have hp : ∀ᶠ p in fine, 0 < F p := h.tendsto.eventually (lt_mem_nhds hz)
  refine ⟨fun p : Mach × ℝ => p.1.log (F p), ?_, hp.mono fun _ hp => if_pos hp⟩
  refine (h.diff (g := Real.log) (Real.differentiableAt_log hz.ne')).round ?_
  filter_upwards [fine_within, hp] with p h1 h2
  exact h1.log _ h2

theorem _root_.Verif.Near.marctan (h : Near F z) : Near (fun p : Mach × ℝ => p.1.arctan (F p)) (Real.arctan z) :=
  (h.diff (Real.differentiableAt_arctan z)).round (fine_within.mono fun _ hp => hp.arctan _)

theorem _root_.Verif.Near.mabs (h : Near F z) : Near (fun p : Mach × ℝ => |F p|) |z| := by
  refine h.lip (g := fun w : ℝ => |w|) (IsBigO.of_bound 1 (Eventually.of_forall fun w => ?_))
  rw [one_mul]
  exact abs_abs_sub_abs_le w z

theorem near_mpi : Near (fun p : Mach × ℝ => p.1.pi) Real.pi :=
  (near_const Real.pi).round (fine_within.mono fun _ hp => hp.pi)

theorem near_lit (x : ℝ) : Near (fun p : Mach × ℝ => p.1.lit x) x :=
  (near_const x).round (fine_within.mono fun _ hp => hp.lit _)

theorem near_knot (x : ℝ) : Near (fun p : Mach × ℝ => p.1.knot x) x :=
  (near_const x).round (fine_within.mono fun _ hp => hp.knot _)

/-- Taking parts together. -/
theorem _root_.Verif.Near.mk (h : Near F z) (h' : Near G w) :
    Near (fun p : Mach × ℝ => (⟨F p, G p⟩ : ℂ)) (⟨z, w⟩ : ℂ) := by
  have := h.ofReal.add (h'.ofReal.mul (near_const Complex.I))
  simpa only [Complex.mk_eq_add_mul_I] using this

end

end Verif.Disp
