import Verif.Disp.RoundAt
import Verif.Disp.PropsMaterials

/-! # C153: refractive indices lose no more digits than the roundoff -/

namespace Verif.Disp

open Filter Topology Asymptotics EMA

/-- What a layer is made of: a material, or two mixed with a volume fraction of the second (a `MixedSlabSE`, or a
layer penetrated by the solvent, or both).  structureSE.py:372-398, 632-651, 818-855. -/
inductive Mixture
  | pure (s : Scat)
  | mix (a b : Mixture) (vf : ℝ)

/-- The index without rounding; `z` and `σ` are the signs of zero seen by the roots. -/
noncomputable def Mixture.index (z : SqrtOracle) (σ : ℂ → ℂ → ℝ → Bool × Bool) (ema : String) (L w : ℝ) : Mixture → Option ℂ
  | .pure s => s.at z w
  | .mix a b vf => do
    let x ← index z σ ema L w a
    let y ← index z σ ema L w b
    (overallRi (σ x y vf) x y vf ema L).toOption

/-- The index as a machine computes it. -/
noncomputable def Mixture.machine (M : Mach) (ema : String) (L w : ℝ) : Mixture → Option ℂ
  | .pure s => M.at' s w
  | .mix a b vf => do
    let x ← machine M ema L w a
    let y ← machine M ema L w b
    (M.mix x y vf ema L).toOption

/-- Every material of the mixture has the property. -/
def Mixture.All (P : Scat → Prop) : Mixture → Prop
  | .pure s => P s
  | .mix a b _ => All P a ∧ All P b

/-- Volume fractions are between 0 and 1. -/
def Mixture.Fractions : Mixture → Prop
  | .pure _ => True
  | .mix a b vf => Fractions a ∧ Fractions b ∧ 0 ≤ vf ∧ vf ≤ 1

/-- Spec: at the wavelength `w` the material has an index, it does not amplify, and its table or oscillators
are usable.  For the rule of Bruggeman it must not be a metal. -/
def Usable (z : SqrtOracle) (ema : String) (w : ℝ) (s : Scat) : Prop :=
  Plain w s ∧ ∃ n, s.at z w = some n ∧ PassiveRi n ∧ (ema = "bruggeman" → Dielectric n)

theorem dielectric_root {σ : Bool} {e : ℂ} (h : 0 < e.re) (hn : 0 < (npSqrt σ e).re) : Dielectric (npSqrt σ e) := by
  have h1 := npSqrt_sq σ e
  generalize npSqrt σ e = n at h1 hn ⊢
  have h2 : e.re = n.re * n.re - n.im * n.im := by rw [← h1, sq, Complex.mul_re]
  unfold Dielectric
  nlinarith

theorem near_index {z : SqrtOracle} (σ : ℂ → ℂ → ℝ → Bool × Bool) {ema : String} (he : Known ema) {L w : ℝ}
    (hL : GoodL ema L) : ∀ {m : Mixture}, m.All (Usable z ema w) → m.Fractions →
    ∃ N, m.index z σ ema L w = some N ∧ PassiveRi N ∧ (ema = "bruggeman" → Dielectric N) ∧
      NearAt (fun p : Mach × ℝ => m.machine p.1 ema L w) N (m.All (Clear w))
  | .pure s, ⟨hp, n, hn, h1, h2⟩, _ => ⟨n, hn, h1, h2, near_at z hp hn h1.1⟩
  | .mix a b f, ⟨ha, hb⟩, ⟨fa, fb, hf⟩ => by
    obtain ⟨A, eA, pA, dA, GA, nA, mA, rA⟩ := near_index σ he hL ha fa
    obtain ⟨B, eB, pB, dB, GB, nB, mB, rB⟩ := near_index σ he hL hb fb
    have hd : ema = "bruggeman" → Dielectric A ∧ Dielectric B := fun h => ⟨dA h, dB h⟩
    obtain ⟨N, hN, pN⟩ := C30_passive_partial (σ A B f) pA pB hf he hL hd
    obtain ⟨G, nG, eG, rG⟩ := near_mix (σ A B f) pA pB hf he hL hd hN nA nB
    refine ⟨N, ?_, pN, fun h => ?_, G, nG, ?_, fun hc => rG (rA hc.1) (rB hc.2)⟩
    · simp [Mixture.index, eA, eB, hN, Except.toOption]
    · subst h
      obtain ⟨d1, d2⟩ := hd rfl
      obtain rfl : npSqrt (σ A B f).2 (bruggemanE (σ A B f).1 (A ^ 2) (B ^ 2) f L) = N := by
        simpa [overallRi] using hN
      exact dielectric_root (bruggemanE_quadrant _ (d1.sq pA) (d2.sq pB) hf ⟨hL.1, hL.2.2 rfl⟩).1 pN.1
    · filter_upwards [mA, mB] with p h1 h2
      simp [Mixture.machine, h1, h2, eG, Except.toOption]

/-- C153. Rounding costs a refractive index no more than a multiple of the roundoff: for every layer made of usable
materials, mixed with a known rule, there are `C` and `u₀` such that every arithmetic with roundoff `u ≤ u₀` gives a
finite index within `C u` of the exact one, and an index without imaginary part if no material absorbs. -/
theorem C153_index_partial {z : SqrtOracle} (σ : ℂ → ℂ → ℝ → Bool × Bool) {ema : String} (he : Known ema) {L w : ℝ}
    (hL : GoodL ema L) {m : Mixture} (hm : m.All (Usable z ema w)) (hf : m.Fractions) :
    ∃ (N : ℂ) (C u₀ : ℝ), m.index z σ ema L w = some N ∧ 0 < u₀ ∧ ∀ (M : Mach) (u : ℝ), M.Within u → u ≤ u₀ →
      ∃ N', m.machine M ema L w = some N' ∧ ‖N' - N‖ ≤ C * u ∧ (m.All (Clear w) → N'.im = 0) := by
  obtain ⟨N, hN, -, -, G, nG, eG, rG⟩ := near_index σ he hL hm hf
  obtain ⟨C, hC⟩ := nG.bound
  have hr : ∀ᶠ p in fine, m.All (Clear w) → (G p).im = 0 := by
    by_cases hc : m.All (Clear w)
    · exact (rG hc).mono fun _ h _ => h
    · exact Eventually.of_forall fun _ h => absurd h hc
  obtain ⟨u₀, h0, h⟩ := tiny_iff (eG.and (hC.and hr))
  refine ⟨N, C, u₀, hN, h0, fun M u hM hu => ?_⟩
  obtain ⟨h1, h2, h3⟩ := h M u hM hu
  exact ⟨_, h1, by simpa [abs_of_nonneg hM.nonneg] using h2, h3⟩

/-- C153, for the materials of the package: all are usable at every wavelength, for the rule of Bruggeman if they
are no metal there.  Partial: the table of `aluminium_oxide` has repeated wavelengths. -/
theorem C153_bundled_partial (z : SqrtOracle) {name : String} {s : Scat} (h : loadMaterial name = .ok s)
    (hname : name ≠ "aluminium_oxide") {ema : String} {w : ℝ} (hw : w ≠ 0)
    (hd : ema = "bruggeman" → ∀ n, s.complex z (some w) = some n → Dielectric n) : Usable z ema w s := by
  obtain ⟨tab, rfl, hi, -⟩ := C57_increasing_partial h hname
  obtain ⟨N, hN, h1, h2⟩ := C57_physical z h (some w)
  refine ⟨?_, N, ?_, ⟨h1, h2⟩, fun e => hd e N hN⟩
  · have hi' : tab.Pairwise fun p q => p.1 < q.1 := hi
    exact hi'.imp fun hab => ⟨hab.le, fun h => by linarith [h.1, h.2]⟩
  · simpa [Scat.complex, pickWav, hw] using hN

/-! ### Rounding arithmetics -/

theorem Mach.Within.mono {M : Mach} {u v : ℝ} (h : M.Within u) (huv : u ≤ v) : M.Within v := by
  have k : ∀ {x c : ℝ}, x ≤ u * c → 0 ≤ c → x ≤ v * c := fun h1 h2 => h1.trans (mul_le_mul_of_nonneg_right huv h2)
  constructor
  case nonneg => exact h.nonneg.trans huv
  case sqrt => exact fun x => (h.sqrt x).imp fun _ h => k h (norm_nonneg _)
  case div => exact fun x y hy => k (h.div x y hy) (norm_nonneg _)
  case rdiv => exact fun x y hy => k (h.rdiv x y hy) (abs_nonneg _)
  case rsqrt => exact fun x hx => k (h.rsqrt x hx) (abs_nonneg _)
  case log => exact fun x hx => k (h.log x hx) (abs_nonneg _)
  case pi => exact k h.pi (abs_nonneg _)
  case add => exact fun x y => k (h.add x y) (norm_nonneg _)
  case sub => exact fun x y => k (h.sub x y) (norm_nonneg _)
  case mul => exact fun x y => k (h.mul x y) (norm_nonneg _)
  case sq => exact fun x => k (h.sq x) (norm_nonneg _)
  case radd => exact fun x y => k (h.radd x y) (abs_nonneg _)
  case rsub => exact fun x y => k (h.rsub x y) (abs_nonneg _)
  case rmul => exact fun x y => k (h.rmul x y) (abs_nonneg _)
  case rpow => exact fun x y => k (h.rpow x y) (abs_nonneg _)
  case arctan => exact fun x => k (h.arctan x) (abs_nonneg _)
  case lit => exact fun x => k (h.lit x) (abs_nonneg _)
  case knot => exact fun x => k (h.knot x) (abs_nonneg _)
  case exp => exact fun x hx => (h.exp x hx).trans huv
  case grid => exact fun j hj => (h.grid j hj).trans (mul_le_mul_of_nonneg_left huv (by norm_num))
  case hilbert =>
    exact fun x n hn => (h.hilbert x n hn).trans (mul_le_mul_of_nonneg_right (mul_le_mul_of_nonneg_left huv (by norm_num))
      (Finset.sum_nonneg fun _ _ => abs_nonneg _))
  case add_real => exact h.add_real
  case sub_real => exact h.sub_real
  case mul_real => exact h.mul_real
  case div_real => exact h.div_real
  case sq_real => exact h.sq_real
  case sqrt_real => exact h.sqrt_real

/-- An arithmetic in which products of reals, literals and the wavelengths of tables are a little large. -/
noncomputable def Mach.up (u : ℝ) : Mach :=
  { Mach.exact true with
    rmul := fun x y => x * y * (1 + u)
    lit := fun x => x * (1 + u)
    knot := fun x => x * (1 + u) }

theorem up_err (x : ℝ) {u : ℝ} (hu : 0 ≤ u) : |x * (1 + u) - x| ≤ u * |x| := by
  rw [show x * (1 + u) - x = u * x by ring, abs_mul, abs_of_nonneg hu]

set_option maxRecDepth 20000 in
theorem Mach.up_within {u : ℝ} (hu : 0 ≤ u) : (Mach.up u).Within u :=
  have h := (Mach.exact_within true).mono hu
  { h with
    rmul := fun x y => up_err (x * y) hu
    lit := fun x => up_err x hu
    knot := fun x => up_err x hu }

open Classical in
/-- An arithmetic in which differences of complex numbers are turned a little. -/
noncomputable def Mach.twist (c : ℝ) : Mach :=
  { Mach.exact true with
    sub := fun x y => if x.im = 0 ∧ y.im = 0 then x - y else (x - y) * ⟨1, c⟩ }

set_option maxRecDepth 20000 in
theorem Mach.twist_within {c u : ℝ} (hu : |c| ≤ u) : (Mach.twist c).Within u :=
  have h := (Mach.exact_within true).mono ((abs_nonneg c).trans hu)
  { h with
    sub := fun x y => by
      change ‖(if x.im = 0 ∧ y.im = 0 then x - y else (x - y) * ⟨1, c⟩) - (x - y)‖ ≤ _
      split_ifs
      · rw [sub_self, norm_zero]
        exact mul_nonneg h.nonneg (norm_nonneg _)
      · have : (x - y) * (⟨1, c⟩ : ℂ) - (x - y) = (c * Complex.I) * (x - y) := by
          rw [show (⟨1, c⟩ : ℂ) = 1 + c * Complex.I from Complex.ext (by simp) (by simp)]
          ring
        rw [this, norm_mul, norm_mul, Complex.norm_I, mul_one, Complex.norm_real]
        exact mul_le_mul_of_nonneg_right hu (norm_nonneg _)
    sub_real := fun x y => by
      change (if (x : ℂ).im = 0 ∧ (y : ℂ).im = 0 then (x : ℂ) - y else (x - y) * ⟨1, c⟩).im = 0
      rw [if_pos (by simp)]
      simp }

/-! ### Examples -/

/-- A Cauchy material at 500 nm. -/
theorem ex_cauchy (z : SqrtOracle) (ema : String) : Usable z ema 500 (.cauchy 658 (3 / 2) (1 / 100) 0) ∧
    Clear 500 (.cauchy 658 (3 / 2) (1 / 100) 0) := by
  refine ⟨⟨trivial, ((77 / 50 : ℝ) : ℂ), ?_, ⟨?_, ?_⟩, fun _ => ?_⟩, trivial⟩
  · simp only [Scat.at, rdiv]
    norm_num
  · rw [Complex.ofReal_re]; norm_num
  · rw [Complex.ofReal_im]
  · unfold Dielectric
    rw [Complex.ofReal_re, Complex.ofReal_im]
    norm_num

/-- An absorbing Lorentz oscillator at 1 eV. -/
theorem ex_lorentz (z : SqrtOracle) (ema : String) : Usable z ema 1239.841984055 (.lorentz 658 [(1, 1, 2)] 1) := by
  have e1 : (⟨13 / 10, 1 / 10⟩ : ℂ) = 1 / (2 ^ 2 - 1 ^ 2 - Complex.I * 1 * 1) + 0 + 1 := by
    have h : (2 ^ 2 - 1 ^ 2 - Complex.I * 1 * 1 : ℂ) = ⟨3, -1⟩ := Complex.ext (by norm_num) (by norm_num)
    rw [h]
    apply Complex.ext
    · simp [Complex.normSq]
      norm_num
    · simp [Complex.normSq]
      norm_num
  have hup := npSqrt_up (z (.lorentz 658 [(1, 1, 2)] 1) 1239.841984055) (z := ⟨13 / 10, 1 / 10⟩)
    (Or.inl (by norm_num))
  refine ⟨trivial, npSqrt (z (.lorentz 658 [(1, 1, 2)] 1) 1239.841984055) ⟨13 / 10, 1 / 10⟩, ?_, hup, fun _ =>
    dielectric_root (by norm_num) hup.1⟩
  have h2 : (2 ^ 2 - 1 ^ 2 - Complex.I * 1 * 1 : ℂ) ≠ 0 := by
    intro h
    have := congrArg Complex.im h
    norm_num at this
  have h3 : nmEV 1239.841984055 = some 1 := by
    rw [nmEV, rdiv, if_neg (by norm_num), div_self (by norm_num)]
  simp only [Scat.at, h3, Scat.epsilon, lorentzEps, sumO, List.map_cons, List.map_nil, lorentzTerm, cdiv, Complex.ofReal_ofNat,
    Complex.ofReal_one, Option.bind_eq_bind, Option.bind_some, Option.pure_def]
  rw [if_neg h2, e1]
  rfl

/-- Porous glass: the index is found to a multiple of the roundoff, and it is real. -/
example (z : SqrtOracle) (σ : ℂ → ℂ → ℝ → Bool × Bool) : ∃ (N : ℂ) (C u₀ : ℝ),
    (Mixture.mix (.pure (.cauchy 658 (3 / 2) (1 / 100) 0)) (.pure (.const 658 1 0)) (1 / 4)).index z σ "bruggeman" (1 / 3) 500 =
      some N ∧ 0 < u₀ ∧ ∀ u, 0 ≤ u → u ≤ u₀ → ∃ N',
    (Mixture.mix (.pure (.cauchy 658 (3 / 2) (1 / 100) 0)) (.pure (.const 658 1 0)) (1 / 4)).machine (.up u) "bruggeman" (1 / 3) 500 =
      some N' ∧ ‖N' - N‖ ≤ C * u ∧ N'.im = 0 := by
  have h1 : Usable z "bruggeman" 500 (.const 658 1 0) :=
    ⟨trivial, _, rfl, ⟨by norm_num, by norm_num⟩, fun _ => by norm_num [Dielectric]⟩
  obtain ⟨N, C, u₀, h, h0, H⟩ := C153_index_partial (z := z) σ (Or.inr (Or.inr rfl)) (L := 1 / 3)
    ⟨by norm_num, by norm_num, fun _ => by norm_num⟩
    (m := .mix (.pure (.cauchy 658 (3 / 2) (1 / 100) 0)) (.pure (.const 658 1 0)) (1 / 4))
    ⟨(ex_cauchy z _).1, h1⟩ ⟨trivial, trivial, by norm_num, by norm_num⟩
  refine ⟨N, C, u₀, h, h0, fun u hu hle => ?_⟩
  obtain ⟨N', e1, e2, e3⟩ := H _ u (Mach.up_within hu) hle
  exact ⟨N', e1, e2, e3 ⟨(ex_cauchy z "").2, rfl⟩⟩

/-- A layer of an absorbing oscillator in air, which the solvent (index 4/3) penetrates. -/
example (z : SqrtOracle) (σ : ℂ → ℂ → ℝ → Bool × Bool) : ∃ (N : ℂ) (C u₀ : ℝ), 0 < u₀ ∧ ∀ u, 0 ≤ u → u ≤ u₀ → ∃ N',
    (Mixture.mix (.mix (.pure (.lorentz 658 [(1, 1, 2)] 1)) (.pure (.const 658 1 0)) (1 / 2)) (.pure (.const 658 (4 / 3) 0))
      (1 / 5)).machine (.up u) "maxwell-garnett" (1 / 3) 1239.841984055 = some N' ∧ ‖N' - N‖ ≤ C * u := by
  obtain ⟨N, C, u₀, -, h0, H⟩ := C153_index_partial (z := z) σ (ema := "maxwell-garnett") (Or.inr (Or.inl rfl)) (L := 1 / 3)
    (w := 1239.841984055) ⟨by norm_num, by norm_num, fun h => by simp at h⟩
    (m := .mix (.mix (.pure (.lorentz 658 [(1, 1, 2)] 1)) (.pure (.const 658 1 0)) (1 / 2)) (.pure (.const 658 (4 / 3) 0)) (1 / 5))
    ⟨⟨ex_lorentz z _, trivial, _, rfl, ⟨by norm_num, by norm_num⟩, fun h => by simp at h⟩,
      trivial, _, rfl, ⟨by norm_num, by norm_num⟩, fun h => by simp at h⟩
    ⟨⟨trivial, trivial, by norm_num, by norm_num⟩, trivial, by norm_num, by norm_num⟩
  refine ⟨N, C, u₀, h0, fun u hu hle => ?_⟩
  obtain ⟨N', e1, e2, -⟩ := H _ u (Mach.up_within hu) hle
  exact ⟨N', e1, e2⟩

/-! ### Where it fails -/

/-- C153 is false of the code for a table with two rows at one wavelength (`aluminium_oxide` has some): there the
index of either row may be returned, whatever the roundoff. -/
theorem C153_fails_jump (z : SqrtOracle) :
    (Scat.table 658 [(400, 1, 0), (500, 1, 0), (500, 2, 0), (600, 2, 0)]).at z 500 = some ⟨2, 0⟩ ∧
    ∀ u₀ : ℝ, 0 < u₀ → ∃ (M : Mach) (u : ℝ), M.Within u ∧ u ≤ u₀ ∧
      M.at' (.table 658 [(400, 1, 0), (500, 1, 0), (500, 2, 0), (600, 2, 0)]) 500 = some ⟨1, 0⟩ := by
  constructor
  · simp only [Scat.at, interp, interpFrom, List.map_cons, List.map_nil]
    norm_num
  · intro u₀ h0
    obtain ⟨u, hu⟩ : ∃ u, u = min u₀ (1 / 8) := ⟨_, rfl⟩
    have u0 : 0 < u := hu ▸ lt_min h0 (by norm_num)
    have u1 : u ≤ 1 / 8 := hu ▸ min_le_right _ _
    refine ⟨.up u, u, Mach.up_within u0.le, hu ▸ min_le_left _ _, ?_⟩
    have a1 : ¬ ((500 : ℝ) < 400 * (1 + u)) := by linarith
    have a2 : (500 : ℝ) < 500 * (1 + u) := by linarith
    simp only [Mach.at', Mach.interp, Mach.interpFrom, List.map_cons, List.map_nil, Mach.up, Mach.exact, if_neg a1, if_pos a2]
    norm_num

/-- C153 is false of the code for metals under the Bruggeman rule: for a material of index `3 + 4i` with a quarter of
air (depolarisation factor 1/2) two arithmetics with the same arbitrarily small roundoff give indices more than 2
apart. -/
theorem C153_fails_metal : PassiveRi ⟨3, 4⟩ ∧ PassiveRi 1 ∧ ∀ u₀ : ℝ, 0 < u₀ → ∃ (M M' : Mach) (u : ℝ), M.Within u ∧ M'.Within u ∧ u ≤ u₀ ∧
    ∃ N N', M.mix ⟨3, 4⟩ 1 (1 / 4) "bruggeman" (1 / 2) = .ok N ∧ M'.mix ⟨3, 4⟩ 1 (1 / 4) "bruggeman" (1 / 2) = .ok N' ∧
      2 < ‖N - N'‖ := by
  have key : ∀ c : ℝ, |c| ≤ 1 / 8 → c ≠ 0 → ∃ N, (Mach.twist c).mix ⟨3, 4⟩ 1 (1 / 4) "bruggeman" (1 / 2) = .ok N ∧
      (0 < c → N.im < -1) ∧ (c < 0 → 1 < N.im) := by
    intro c hc hc0
    obtain ⟨hc1, hc2⟩ := abs_le.mp hc
    have hb : (⟨3, 4⟩ : ℂ) ^ 2 * ((1 - 1 / 4 - 1 / 2 : ℝ) : ℂ) + 1 ^ 2 * ((1 / 4 - 1 / 2 : ℝ) : ℂ) = ⟨-2, 6⟩ := by
      apply Complex.ext <;> simp [sq] <;> norm_num
    have hd : (Mach.twist c).sub ((⟨-2, 6⟩ : ℂ) ^ 2) (((4 * (1 / 2 - 1) : ℝ) : ℂ) * (((⟨3, 4⟩ : ℂ) ^ 2 * 1 ^ 2) * ((1 / 2 : ℝ) : ℂ))) =
        ⟨-39, -39 * c⟩ := by
      change (if _ then _ else _) = _
      rw [if_neg]
      · apply Complex.ext <;> simp [sq] <;> ring
      · rintro ⟨h, -⟩
        simp [sq] at h
        norm_num at h
    have hs2 := npSqrt_sq true ⟨-39, -39 * c⟩
    have hs0 := npSqrt_re_nonneg true ⟨-39, -39 * c⟩
    refine ⟨npSqrt true (⟨-2, 6⟩ + npSqrt true ⟨-39, -39 * c⟩), ?_, ?_⟩
    · have h1 : (Mach.twist c).mix ⟨3, 4⟩ 1 (1 / 4) "bruggeman" (1 / 2) = .ok (npSqrt true ((cdiv
          ((⟨3, 4⟩ : ℂ) ^ 2 * ((1 - 1 / 4 - 1 / 2 : ℝ) : ℂ) + 1 ^ 2 * ((1 / 4 - 1 / 2 : ℝ) : ℂ) + npSqrt true
            ((Mach.twist c).sub (((⟨3, 4⟩ : ℂ) ^ 2 * ((1 - 1 / 4 - 1 / 2 : ℝ) : ℂ) + 1 ^ 2 * ((1 / 4 - 1 / 2 : ℝ) : ℂ)) ^ 2)
              (((4 * (1 / 2 - 1) : ℝ) : ℂ) * (((⟨3, 4⟩ : ℂ) ^ 2 * 1 ^ 2) * ((1 / 2 : ℝ) : ℂ)))))
          ((2 * (1 - 1 / 2) : ℝ) : ℂ)).getD 0)) := rfl
      rw [h1, hb, hd]
      have e : ((2 * (1 - 1 / 2) : ℝ) : ℂ) = 1 := by norm_num
      rw [e, cdiv, if_neg one_ne_zero, div_one]
      rfl
    generalize npSqrt true ⟨-39, -39 * c⟩ = s at *
    have hN2 := npSqrt_sq true (⟨-2, 6⟩ + s)
    have hN0 := npSqrt_re_nonneg true (⟨-2, 6⟩ + s)
    generalize npSqrt true (⟨-2, 6⟩ + s) = N at *
    have r1 : s.re ^ 2 - s.im ^ 2 = -39 := by
      have := congrArg Complex.re hs2
      simp only [sq, Complex.mul_re] at this
      simp only [sq]; linarith
    have r2 : 2 * (s.re * s.im) = -39 * c := by
      have := congrArg Complex.im hs2
      simp only [sq, Complex.mul_im] at this
      linarith
    have n1 : N.re ^ 2 - N.im ^ 2 = -2 + s.re := by
      have := congrArg Complex.re hN2
      simp only [sq, Complex.mul_re, Complex.add_re] at this
      simp only [sq]; linarith
    have n2 : 2 * (N.re * N.im) = 6 + s.im := by
      have := congrArg Complex.im hN2
      simp only [sq, Complex.mul_im, Complex.add_im] at this
      linarith
    have him : 39 ≤ s.im ^ 2 := by nlinarith [sq_nonneg s.re]
    have hre : s.re < 1 := by
      by_contra h
      push Not at h
      have e1 : (2 * (s.re * s.im)) ^ 2 = 4 * s.re ^ 2 * s.im ^ 2 := by ring
      rw [r2] at e1
      have e2 : 1 ≤ s.re ^ 2 := by nlinarith
      have e3 : (-39 * c) ^ 2 ≤ 5 ^ 2 := sq_le_sq' (by linarith) (by linarith)
      nlinarith
    have hNim : 1 < N.im ^ 2 := by nlinarith [sq_nonneg N.re]
    constructor
    · intro h
      have s1 : s.im < 0 := by
        by_contra hc
        push Not at hc
        have := mul_nonneg hs0 hc
        linarith
      have s2 : s.im < -6 := by
        by_contra hc
        push Not at hc
        have : s.im ^ 2 ≤ 6 ^ 2 := sq_le_sq' (by linarith) (by linarith)
        linarith
      have : N.im < 0 := by
        by_contra hc
        push Not at hc
        have := mul_nonneg hN0 hc
        linarith
      by_contra hc
      push Not at hc
      have : N.im ^ 2 ≤ 1 ^ 2 := sq_le_sq' (by linarith) (by linarith)
      linarith
    · intro h
      have s1 : 0 < s.im := by
        by_contra hc
        push Not at hc
        have := mul_nonneg hs0 (neg_nonneg.mpr hc)
        linarith
      have : 0 < N.im := by
        by_contra hc
        push Not at hc
        have := mul_nonneg hN0 (neg_nonneg.mpr hc)
        linarith
      by_contra hc
      push Not at hc
      have : N.im ^ 2 ≤ 1 ^ 2 := sq_le_sq' (by linarith) (by linarith)
      linarith
  refine ⟨⟨by norm_num, by norm_num⟩, ⟨by norm_num, by norm_num⟩, fun u₀ h0 => ?_⟩
  obtain ⟨u, hu⟩ : ∃ u, u = min u₀ (1 / 8) := ⟨_, rfl⟩
  have u0 : 0 < u := hu ▸ lt_min h0 (by norm_num)
  have u1 : u ≤ 1 / 8 := hu ▸ min_le_right _ _
  have a1 : |u| = u := abs_of_pos u0
  have a2 : |-u| = u := by rw [abs_neg, a1]
  obtain ⟨N, hN, n1, -⟩ := key u (a1.trans_le u1) u0.ne'
  obtain ⟨N', hN', -, n2⟩ := key (-u) (a2.trans_le u1) (neg_ne_zero.mpr u0.ne')
  refine ⟨.twist u, .twist (-u), u, Mach.twist_within a1.le, Mach.twist_within a2.le, hu ▸ min_le_left _ _, N, N', hN, hN', ?_⟩
  have h1 := n1 u0
  have h2 := n2 (neg_lt_zero.mpr u0)
  have h3 := Complex.abs_im_le_norm (N - N')
  rw [Complex.sub_im, abs_sub_comm] at h3
  linarith [le_abs_self (N'.im - N.im)]

end Verif.Disp
