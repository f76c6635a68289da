import Mathlib.Analysis.Asymptotics.Lemmas
import Mathlib.Analysis.Calculus.FDeriv.Mul
import Mathlib.Analysis.Calculus.Deriv.Inv
import Mathlib.Analysis.Complex.Basic

/-! # Errors of the order of the roundoff

Used for `Delta_Psi_TMM` (C148, C149) and for refractive indices (C153). -/

namespace Verif

open Filter Topology Asymptotics

/-- A kind of arithmetic, with the meaning of "the roundoff is at most `u`". -/
class Roundoff (α : Type) where
  Within : α → ℝ → Prop
  nonneg : ∀ {a : α} {u : ℝ}, Within a u → 0 ≤ u

/-- Arithmetics with a roundoff that tends to zero. -/
def tiny (α : Type) [Roundoff α] : Filter (α × ℝ) :=
  𝓟 {p | Roundoff.Within p.1 p.2} ⊓ comap Prod.snd (𝓝 0)

variable {α : Type} [Roundoff α]

theorem tiny_within : ∀ᶠ p in tiny α, Roundoff.Within p.1 p.2 :=
  mem_inf_of_left (mem_principal_self _)

theorem tiny_tendsto : Tendsto (fun p : α × ℝ => p.2) (tiny α) (𝓝 0) :=
  tendsto_comap.mono_left inf_le_right

theorem tiny_iff {Q : α × ℝ → Prop} (h : ∀ᶠ p in tiny α, Q p) :
    ∃ u₀ > 0, ∀ (A : α) (u : ℝ), Roundoff.Within A u → u ≤ u₀ → Q (A, u) := by
  rw [tiny, inf_comm] at h
  have h1 := eventually_inf_principal.mp h
  rw [eventually_comap] at h1
  obtain ⟨ε, hε, hb⟩ := Metric.eventually_nhds_iff.mp h1
  refine ⟨ε / 2, by linarith, fun A u hA hu => ?_⟩
  refine hb (y := u) ?_ (A, u) rfl hA
  rw [Real.dist_eq, sub_zero, abs_of_nonneg (Roundoff.nonneg hA)]
  linarith

section
variable {E : Type*} [NormedAddCommGroup E]

/-- A computed quantity differs from the exact one by the order of the roundoff. -/
def Near (F : α × ℝ → E) (z : E) : Prop := (fun p => F p - z) =O[tiny α] fun p => p.2

theorem near_const (z : E) : Near (fun _ : α × ℝ => z) z := by
  unfold Near
  simp only [sub_self]
  exact isBigO_zero _ _

theorem Near.tendsto {F : α × ℝ → E} {z : E} (h : Near F z) : Tendsto F (tiny α) (𝓝 z) :=
  tendsto_sub_nhds_zero_iff.mp (h.trans_tendsto tiny_tendsto)

theorem Near.bounded {F : α × ℝ → E} {z : E} (h : Near F z) :
    F =O[tiny α] fun _ => (1 : ℝ) := h.tendsto.isBigO_one ℝ

theorem Near.congr {F G : α × ℝ → E} {z : E} (h : Near F z) (e : ∀ᶠ p in tiny α, G p = F p) :
    Near G z := by
  refine IsBigO.congr' h ?_ EventuallyEq.rfl
  filter_upwards [e] with p hp
  rw [hp]

theorem Near.congr_val {F : α × ℝ → E} {z w : E} (h : Near F z) (e : w = z) : Near F w := e ▸ h

theorem Near.round {H K : α × ℝ → E} {k : E} (hK : Near K k)
    (h : ∀ᶠ p in tiny α, ‖H p - K p‖ ≤ p.2 * ‖K p‖) : Near H k := by
  have h1 : (fun p => H p - K p) =O[tiny α] fun p => p.2 * ‖K p‖ := by
    refine IsBigO.of_bound 1 ?_
    filter_upwards [h] with p hp
    rw [one_mul]
    exact hp.trans (le_abs_self _)
  have h2 : (fun p : α × ℝ => p.2 * ‖K p‖) =O[tiny α] fun p => p.2 := by
    have := (isBigO_refl (fun p : α × ℝ => p.2) (tiny α)).mul hK.bounded.norm_left
    simpa using this
  refine ((h1.trans h2).add hK).congr_left fun p => ?_
  abel

variable {E' : Type*} [NormedAddCommGroup E']

theorem Near.lip {F : α × ℝ → E} {z : E} (h : Near F z) {g : E → E'}
    (hg : (fun w => g w - g z) =O[𝓝 z] fun w => w - z) : Near (fun p => g (F p)) (g z) :=
  (hg.comp_tendsto h.tendsto).trans h

end

theorem Near.diff {E E' : Type*} [NormedAddCommGroup E] [NormedAddCommGroup E'] [NormedSpace ℝ E]
    [NormedSpace ℝ E'] {F : α × ℝ → E} {z : E} (h : Near F z) {g : E → E'}
    (hg : DifferentiableAt ℝ g z) : Near (fun p => g (F p)) (g z) := h.lip hg.isBigO_sub

theorem Near.add {E : Type*} [NormedAddCommGroup E] {F G : α × ℝ → E} {z w : E} (h : Near F z)
    (h' : Near G w) : Near (fun p => F p + G p) (z + w) := by
  refine (IsBigO.add h h').congr_left fun p => ?_
  exact (add_sub_add_comm _ _ _ _).symm

theorem Near.sub {E : Type*} [NormedAddCommGroup E] {F G : α × ℝ → E} {z w : E} (h : Near F z)
    (h' : Near G w) : Near (fun p => F p - G p) (z - w) := by
  refine (IsBigO.sub h h').congr_left fun p => ?_
  exact sub_sub_sub_comm _ _ _ _

theorem Near.mul {E : Type*} [NormedField E] {F G : α × ℝ → E} {z w : E} (h : Near F z)
    (h' : Near G w) : Near (fun p => F p * G p) (z * w) := by
  have h1 : (fun p => (F p - z) * G p) =O[tiny α] fun p => p.2 := by
    simpa using IsBigO.mul h h'.bounded
  have h2 : (fun p => z * (G p - w)) =O[tiny α] fun p => p.2 := IsBigO.const_mul_left h' z
  refine (h1.add h2).congr_left fun p => ?_
  ring

theorem Near.div {F G : α × ℝ → ℂ} {z w : ℂ} (h : Near F z) (h' : Near G w) (hw : w ≠ 0) :
    Near (fun p => F p / G p) (z / w) := by
  simp only [div_eq_mul_inv]
  exact h.mul (h'.diff (g := fun x => x⁻¹) ((differentiableAt_inv (𝕜 := ℂ) hw).restrictScalars ℝ))

theorem Near.rdiv {F G : α × ℝ → ℝ} {z w : ℝ} (h : Near F z) (h' : Near G w) (hw : w ≠ 0) :
    Near (fun p => F p / G p) (z / w) := by
  simp only [div_eq_mul_inv]
  exact h.mul (h'.diff (g := fun x => x⁻¹) (differentiableAt_inv hw))

theorem Near.ne {F : α × ℝ → ℂ} {z : ℂ} (h : Near F z) (hz : z ≠ 0) : ∀ᶠ p in tiny α, F p ≠ 0 :=
  h.tendsto.eventually_ne hz

theorem Near.rne {F : α × ℝ → ℝ} {z : ℝ} (h : Near F z) (hz : z ≠ 0) : ∀ᶠ p in tiny α, F p ≠ 0 :=
  h.tendsto.eventually_ne hz

theorem Near.ofReal {F : α × ℝ → ℝ} {z : ℝ} (h : Near F z) : Near (fun p => (F p : ℂ)) (z : ℂ) :=
  h.diff (g := fun x : ℝ => (x : ℂ)) Complex.ofRealCLM.differentiableAt

theorem Near.perturb {E : Type*} [NormedAddCommGroup E] {H K : α × ℝ → E} {k : E} (hK : Near K k)
    (c : ℝ) (h : ∀ᶠ p in tiny α, ‖H p - K p‖ ≤ c * p.2) : Near H k := by
  have h1 : (fun p => H p - K p) =O[tiny α] fun p => p.2 := by
    refine IsBigO.of_bound c ?_
    filter_upwards [h, tiny_within] with p hp hw
    rwa [Real.norm_eq_abs, abs_of_nonneg (Roundoff.nonneg hw)]
  refine (h1.add hK).congr_left fun p => ?_
  abel


/-! ### Results that may not be finite -/

/-- A computed quantity is finite and near the exact one. -/
def NearS {E : Type*} [NormedAddCommGroup E] (F : α × ℝ → Option E) (z : E) : Prop :=
  ∃ G, Near G z ∧ ∀ᶠ p in tiny α, F p = some (G p)

theorem Near.some {E : Type*} [NormedAddCommGroup E] {F : α × ℝ → E} {z : E} (h : Near F z) :
    NearS (fun p => Option.some (F p)) z := ⟨F, h, Eventually.of_forall fun _ => rfl⟩

theorem NearS.bind {E E' : Type*} [NormedAddCommGroup E] [NormedAddCommGroup E'] {F : α × ℝ → Option E} {z : E}
    (h : NearS F z) {K : α × ℝ → E → Option E'} {w : E'}
    (hK : ∀ G, Near G z → NearS (fun p => K p (G p)) w) : NearS (fun p => (F p).bind (K p)) w := by
  obtain ⟨G, hG, e⟩ := h
  obtain ⟨H, hH, e'⟩ := hK G hG
  refine ⟨H, hH, ?_⟩
  filter_upwards [e, e'] with p h1 h2
  rw [h1, Option.bind_some, h2]

/-- Spelt out: for all arithmetics with a sufficiently small roundoff. -/
theorem NearS.spell {E : Type*} [NormedAddCommGroup E] {F : α × ℝ → Option E} {z : E} (h : NearS F z) :
    ∃ C u₀ : ℝ, 0 < u₀ ∧ ∀ (A : α) (u : ℝ), Roundoff.Within A u → u ≤ u₀ → ∃ z', F (A, u) = some z' ∧ ‖z' - z‖ ≤ C * u := by
  obtain ⟨G, hG, e⟩ := h
  obtain ⟨C, hC⟩ := hG.bound
  obtain ⟨u₀, h0, h⟩ := tiny_iff (e.and hC)
  refine ⟨C, u₀, h0, fun A u hA hu => ?_⟩
  obtain ⟨h1, h2⟩ := h A u hA hu
  refine ⟨_, h1, ?_⟩
  simpa [abs_of_nonneg (Roundoff.nonneg hA)] using h2

/-- Two branches with the same limit. -/
theorem Near.ite {E : Type*} [NormedAddCommGroup E] {F G : α × ℝ → E} {z : E} (hF : Near F z) (hG : Near G z)
    (P : α × ℝ → Prop) [DecidablePred P] : Near (fun p => if P p then F p else G p) z := by
  obtain ⟨C, hC⟩ := hF.bound
  obtain ⟨D, hD⟩ := hG.bound
  refine IsBigO.of_bound (max C D) ?_
  filter_upwards [hC, hD] with p h1 h2
  have h0 := norm_nonneg p.2
  split_ifs
  · exact h1.trans (mul_le_mul_of_nonneg_right (le_max_left _ _) h0)
  · exact h2.trans (mul_le_mul_of_nonneg_right (le_max_right _ _) h0)

end Verif
