import Verif.Obj.PropsRecoverLorentz

/-! # C182: errors of delta below 90 degrees, anywhere on the circle -/

namespace Verif.Obj
open Verif.Struct Verif.TMM Verif.RModel Verif.Data Filter Topology MeasureTheory ProbabilityTheory

/-- Spec: measurements with small errors.  The model at the parameters `x0` has the values `v`.  The mean of the measured
psi is that of the model; the measured delta is that of the model plus an error `U` of less than 90 degrees, up to whole
turns, and the mean of the error is 0. -/
def SmallErrors {m n : ℕ} (env : Env) (o : Objective) (st : St) {Ω : Type*} [MeasurableSpace Ω] (P : Measure Ω)
    (pl : Fin m → ℝ × ℝ) (Y : Ω → Outcome m) (x0 : Fin n → ℝ) : Prop :=
  ∃ (v : Fin m → ℝ × ℝ) (U : Fin m → Ω → ℝ),
    Values env o (setp env o (some (List.ofFn x0)) st).2 (readings pl zeros) (cellsOf (List.ofFn v)) ∧
    ∀ i, Measurable (U i) ∧ ∫ ω, U i ω ∂P = 0 ∧ ∫ ω, ((Y ω i).1 : ℝ) ∂P = (v i).1 ∧
      ∀ᵐ ω ∂P, |U i ω| < 90 ∧ ∃ k : ℤ, ((Y ω i).2 : ℝ) = (v i).2 + U i ω + 360 * k

/-- Whole turns do not change the distance on the circle. -/
theorem circular_turns {a b w : ℝ} {k : ℤ} (hw : |w| < 360) (h : a - b = w + 360 * k) (hab : |a - b| ≤ 360) :
    circularDistance a b 360 = min |w| (360 - |w|) := by
  unfold circularDistance
  rw [h] at hab ⊢
  obtain ⟨w1, w2⟩ := abs_lt.mp hw
  obtain ⟨h1, h2⟩ := abs_le.mp hab
  have k1 : (k : ℝ) < 2 := by linarith
  have k2 : (-2 : ℝ) < k := by linarith
  have k1' : k < 2 := by exact_mod_cast k1
  have k2' : -2 < k := by exact_mod_cast k2
  obtain rfl | rfl | rfl : k = -1 ∨ k = 0 ∨ k = 1 := by omega
  · push_cast at h1 h2 ⊢
    rw [abs_of_nonneg (show 0 ≤ w by linarith), abs_of_nonpos (by linarith), min_comm]
    congr 1 <;> ring
  · simp
  · push_cast at h1 h2 ⊢
    rw [abs_of_nonpos (show w ≤ 0 by linarith), abs_of_nonneg (by linarith), min_comm]
    congr 1 <;> ring

/-- The distance from another point exceeds the error, up to a multiple of the error. -/
theorem far_pos {s : ℝ} (h0 : 0 < s) (h1 : s ≤ 180) : ∃ β : ℝ, ∀ u : ℝ, |u| < 90 →
    u ^ 2 + β * u < min |s - u| (360 - |s - u|) ^ 2 := by
  by_cases h : s ≤ 90
  · refine ⟨-2 * s, fun u hu => ?_⟩
    obtain ⟨u1, u2⟩ := abs_lt.mp hu
    have : |s - u| ≤ 180 := abs_le.mpr ⟨by linarith, by linarith⟩
    rw [min_eq_left (by linarith), sq_abs]
    nlinarith
  · push Not at h
    refine ⟨2 * s - 360, fun u hu => ?_⟩
    obtain ⟨u1, u2⟩ := abs_lt.mp hu
    rw [abs_of_pos (by linarith)]
    rcases min_choice (s - u) (360 - (s - u)) with e | e <;> rw [e]
    · nlinarith [sq_nonneg (s - 180), mul_pos (by linarith : 0 < 90 - u) (by linarith : 0 < 4 * s - 360)]
    · nlinarith [sq_nonneg (s - 180), mul_pos (by linarith : 0 < u + 90) (by linarith : 0 < 1080 - 4 * s)]

theorem far {s : ℝ} (h0 : s ≠ 0) (h1 : |s| ≤ 180) : ∃ β : ℝ, ∀ u : ℝ, |u| < 90 →
    u ^ 2 + β * u < min |s - u| (360 - |s - u|) ^ 2 := by
  rcases lt_or_gt_of_ne h0 with h | h
  · obtain ⟨β, hβ⟩ := far_pos (s := -s) (by linarith) (by rwa [abs_of_neg h] at h1)
    refine ⟨-β, fun u hu => ?_⟩
    have := hβ (-u) (by rwa [abs_neg])
    rw [show -s - -u = -(s - u) by ring, abs_neg] at this
    linarith
  · exact far_pos h (by rwa [abs_of_pos h] at h1)

/-- Differences on the circle are at most half a turn. -/
theorem half_turn (z : ℝ) : ∃ (s : ℝ) (j : ℤ), |s| ≤ 180 ∧ z = s + 360 * j := by
  refine ⟨z - 360 * round (z / 360), round (z / 360), ?_, by ring⟩
  have := abs_sub_round (z / 360)
  rw [show z - 360 * round (z / 360) = 360 * (z / 360 - round (z / 360)) by ring, abs_mul, abs_of_pos (by norm_num)]
  linarith

section
variable {env : Env} {o : Objective} {st : St} {m n : ℕ} {pl : Fin m → ℝ × ℝ} {K : Set (Fin n → ℝ)}
  {c : Outcome m → (Fin n → ℝ) → ℝ} {Ω : Type*} [MeasurableSpace Ω] {P : Measure Ω} [IsProbabilityMeasure P]
  {Y : ℕ → Ω → Outcome m}

/-- C182: if the errors of delta are below 90 degrees and without bias, the truth is the only minimum of the mean of
chi-squared among parameters that give other values, however far these are and wherever the zero of delta is. -/
theorem C182_truth (hn : n = (varying env o st).length) (hc : ChiOf env o st pl K c) (hY : Measurable (Y 0))
    {ψ Δ : (Fin n → ℝ) → Fin m → ℝ}
    (hv : ∀ x ∈ K, Values env o (setp env o (some (List.ofFn x)) st).2 (readings pl zeros)
      (cellsOf (List.ofFn fun i => (ψ x i, Δ x i)))) (hr : ∀ x ∈ K, ∀ i, 0 ≤ Δ x i ∧ Δ x i ≤ 360)
    {x0 : Fin n → ℝ} (hx0 : x0 ∈ K) (hu : SmallErrors env o st P pl (Y 0) x0)
    (hother : ∀ x ∈ K, x ≠ x0 → ∃ i, ψ x i ≠ ψ x0 i ∨ ∀ k : ℤ, Δ x i ≠ Δ x0 i + 360 * k) :
    ∀ x ∈ K, x ≠ x0 → ∫ ω, c (Y 0 ω) x0 ∂P < ∫ ω, c (Y 0 ω) x ∂P := by
  obtain ⟨v, U, hv0, hU⟩ := hu
  have hve : v = fun i => (ψ x0 i, Δ x0 i) := by
    have h4 : cellsOf (List.ofFn v) = cellsOf (List.ofFn fun i => (ψ x0 i, Δ x0 i)) := by
      have := hv0.symm.trans (hv x0 hx0)
      simpa using this
    refine List.ofFn_injective (List.map_injective_iff.mpr (fun a b hab => ?_) h4)
    simpa [Prod.ext_iff] using hab
  subst hve
  simp only at hU
  have hval := fun y x hx => chiOf_value (x := x) hn hc hv y hx
  have m1 : ∀ i, Measurable fun ω => ((Y 0 ω i).1 : ℝ) := fun i =>
    measurable_subtype_coe.comp (measurable_fst.comp ((measurable_pi_apply i).comp hY))
  have b1 : ∀ i ω, |((Y 0 ω i).1 : ℝ)| ≤ 90 := fun i ω => by
    rw [abs_of_nonneg (Y 0 ω i).1.2.1]; exact (Y 0 ω i).1.2.2
  have m2 : ∀ i, Measurable fun ω => ((Y 0 ω i).2 : ℝ) := fun i =>
    measurable_subtype_coe.comp (measurable_snd.comp ((measurable_pi_apply i).comp hY))
  have hrange : ∀ x ∈ K, ∀ i ω, |Δ x i - (Y 0 ω i).2| ≤ 360 := fun x hx i ω =>
    abs_le.mpr ⟨by linarith [(hr x hx i).1, (Y 0 ω i).2.2.2], by linarith [(hr x hx i).2, (Y 0 ω i).2.2.1]⟩
  -- the two parts of the mean
  have i1 : ∀ x i, Integrable (fun ω => (ψ x i - (Y 0 ω i).1) ^ 2) P := fun x i => (mean_square (m1 i) (b1 i) _).1
  have i2 : ∀ x ∈ K, ∀ i, Integrable (fun ω => circularDistance (Δ x i) (Y 0 ω i).2 360 ^ 2) P := by
    intro x hx i
    refine Integrable.of_bound (C := 360 ^ 2) ?_ (Eventually.of_forall fun ω => ?_)
    · have hm : Measurable fun z : ℝ => circularDistance (Δ x i) z 360 ^ 2 := by
        unfold circularDistance
        fun_prop
      exact (hm.comp (m2 i)).aestronglyMeasurable
    · rw [norm_pow]
      refine pow_le_pow_left₀ (norm_nonneg _) ?_ 2
      have := hrange x hx i ω
      unfold circularDistance
      rw [Real.norm_eq_abs, abs_of_nonneg (le_min (abs_nonneg _) (by linarith))]
      exact (min_le_left _ _).trans this
  have hsum : ∀ x ∈ K, ∫ ω, c (Y 0 ω) x ∂P =
      ∑ i, ((∫ ω, (ψ x i - (Y 0 ω i).1) ^ 2 ∂P) + ∫ ω, circularDistance (Δ x i) (Y 0 ω i).2 360 ^ 2 ∂P) := by
    intro x hx
    have i3 : ∀ i ∈ Finset.univ, Integrable (fun ω => (ψ x i - (Y 0 ω i).1) ^ 2 +
        circularDistance (Δ x i) (Y 0 ω i).2 360 ^ 2) P := fun i _ => (i1 x i).add (i2 x hx i)
    rw [integral_congr_ae (Eventually.of_forall fun ω => hval (Y 0 ω) x hx), integral_finsetSum _ i3]
    exact Finset.sum_congr rfl fun i _ => integral_add (i1 x i) (i2 x hx i)
  have hψ : ∀ x i, ∫ ω, (ψ x i - (Y 0 ω i).1) ^ 2 ∂P =
      (ψ x i - ψ x0 i) ^ 2 + ∫ ω, (ψ x0 i - (Y 0 ω i).1) ^ 2 ∂P := by
    intro x i
    have := (mean_square (P := P) (m1 i) (b1 i) (ψ x i)).2
    rwa [(hU i).2.2.1] at this
  have iU : ∀ i, Integrable (U i) P := fun i => Integrable.of_bound (C := 90) (hU i).1.aestronglyMeasurable (by
    filter_upwards [(hU i).2.2.2] with ω hω
    exact hω.1.le)
  have iU2 : ∀ i, Integrable (fun ω => U i ω ^ 2) P := fun i =>
    Integrable.of_bound (C := 90 ^ 2) ((hU i).1.pow_const 2).aestronglyMeasurable (by
      filter_upwards [(hU i).2.2.2] with ω hω
      rw [norm_pow]
      exact pow_le_pow_left₀ (norm_nonneg _) hω.1.le 2)
  have h0 : ∀ i, ∫ ω, circularDistance (Δ x0 i) (Y 0 ω i).2 360 ^ 2 ∂P = ∫ ω, U i ω ^ 2 ∂P := by
    intro i
    refine integral_congr_ae ?_
    filter_upwards [(hU i).2.2.2] with ω hω
    obtain ⟨h1, k, hk⟩ := hω
    rw [circular_turns (w := -U i ω) (k := -k) (by rw [abs_neg]; linarith) (by rw [hk]; push_cast; ring)
      (hrange x0 hx0 i ω), abs_neg, min_eq_left (by linarith), sq_abs]
  have hlt : ∀ x ∈ K, ∀ i, (∀ k : ℤ, Δ x i ≠ Δ x0 i + 360 * k) →
      ∫ ω, U i ω ^ 2 ∂P < ∫ ω, circularDistance (Δ x i) (Y 0 ω i).2 360 ^ 2 ∂P := by
    intro x hx i hk
    obtain ⟨s, j, hs, hj⟩ := half_turn (Δ x i - Δ x0 i)
    have hs0 : s ≠ 0 := by
      rintro rfl
      exact hk j (by linarith)
    obtain ⟨β, hβ⟩ := far hs0 hs
    have hpt : ∀ᵐ ω ∂P, U i ω ^ 2 + β * U i ω < circularDistance (Δ x i) (Y 0 ω i).2 360 ^ 2 := by
      filter_upwards [(hU i).2.2.2] with ω hω
      obtain ⟨h1, k, hk'⟩ := hω
      obtain ⟨u1, u2⟩ := abs_lt.mp h1
      obtain ⟨s1, s2⟩ := abs_le.mp hs
      rw [circular_turns (w := s - U i ω) (k := j - k) (abs_lt.mpr ⟨by linarith, by linarith⟩)
        (by rw [hk']; push_cast; linarith) (hrange x hx i ω)]
      exact hβ _ h1
    have e : ∫ ω, U i ω ^ 2 ∂P = ∫ ω, (U i ω ^ 2 + β * U i ω) ∂P := by
      rw [integral_add (iU2 i) ((iU i).const_mul β), integral_const_mul, (hU i).2.1, mul_zero, add_zero]
    have i4 : Integrable (fun ω => U i ω ^ 2 + β * U i ω) P := (iU2 i).add ((iU i).const_mul β)
    rw [e, ← sub_pos, ← integral_sub (i2 x hx i) i4]
    rw [integral_pos_iff_support_of_nonneg_ae]
    · rw [pos_iff_ne_zero]
      intro hz
      have hz' : ∀ᵐ ω ∂P, circularDistance (Δ x i) (Y 0 ω i).2 360 ^ 2 - (U i ω ^ 2 + β * U i ω) = 0 := by
        rw [ae_iff]
        exact hz
      obtain ⟨ω, h1, h2⟩ := (hpt.and hz').exists
      linarith
    · filter_upwards [hpt] with ω hω
      exact (sub_pos.mpr hω).le
    · exact (i2 x hx i).sub i4
  have hle : ∀ x ∈ K, ∀ i, ∫ ω, U i ω ^ 2 ∂P ≤ ∫ ω, circularDistance (Δ x i) (Y 0 ω i).2 360 ^ 2 ∂P := by
    intro x hx i
    by_cases hk : ∀ k : ℤ, Δ x i ≠ Δ x0 i + 360 * k
    · exact (hlt x hx i hk).le
    · push Not at hk
      obtain ⟨j, hj⟩ := hk
      refine (integral_congr_ae ?_).le
      filter_upwards [(hU i).2.2.2] with ω hω
      obtain ⟨h1, k, hk⟩ := hω
      rw [circular_turns (w := -U i ω) (k := j - k) (by rw [abs_neg]; linarith) (by rw [hk, hj]; push_cast; ring)
        (hrange x hx i ω), abs_neg, min_eq_left (by linarith), sq_abs]
  intro x hx hne
  rw [hsum x0 hx0, hsum x hx]
  simp only [hψ x, h0]
  obtain ⟨i, hi⟩ := hother x hx hne
  refine Finset.sum_lt_sum (fun i _ => ?_) ⟨i, Finset.mem_univ i, ?_⟩
  · have := hle x hx i
    have := sq_nonneg (ψ x i - ψ x0 i)
    linarith
  · rcases hi with hi | hi
    · have := hle x hx i
      have := sq_pos_of_ne_zero (sub_ne_zero.mpr hi)
      linarith
    · have := hlt x hx i hi
      have := sq_nonneg (ψ x i - ψ x0 i)
      linarith

/-- C182: an absorbing substrate (C181).  If the errors of delta are below 90 degrees and without bias, almost surely all best
fits approach the true parameters, also if measured deltas pass 180 or jump from 0 to 360. -/
theorem C182_fit {cs : List Comp} {n₀ : ℝ → ℝ} {N : (Fin n → ℝ) → ℝ → ℂ}
    (h : MeasuresAbsorber env o st cs n₀ N pl K) (hK : IsCompact K)
    (hid : ∀ x ∈ K, ∀ y ∈ K, (∀ i, N x (pl i).1 = N y (pl i).1) → x = y)
    (hY : ∀ k, Measurable (Y k)) (hind : Pairwise fun i j => IndepFun (Y i) (Y j) P)
    (hdist : ∀ k, IdentDistrib (Y k) (Y 0) P P) {x0 : Fin n → ℝ} (hx0 : x0 ∈ K)
    (hu : SmallErrors env o st P pl (Y 0) x0) {H : ℕ → Ω → Data.Heap} {D : ℕ → Ω → DS}
    (hD : ∀ k ω, Presents (H k ω) (D k ω) (readingsN pl (fun k => Y k ω) k)) :
    ∀ᵐ ω ∂P, ∀ b : ℕ → Fin n → ℝ, (∀ k, b k ∈ K) →
      (∀ k, ∀ x ∈ K, ∀ u v : ℝ,
        (chisqr env { o with data := D k ω } (some (List.ofFn (b k))) { st with heap := H k ω }).1 = .ok (some u) →
        (chisqr env { o with data := D k ω } (some (List.ofFn x)) { st with heap := H k ω }).1 = .ok (some v) → u ≤ v) →
      Tendsto b atTop (𝓝 x0) := by
  obtain ⟨c0, hS⟩ := h.searches zeros
  obtain ⟨c, hc⟩ := Searches.chiOf (o := { o with data := colData (readings pl zeros) })
    (st := { st with heap := colHeap (readings pl zeros) }) h.size hS
  obtain ⟨ψ, Δ, hv, hinj, hrange⟩ := h.cells
  have hmin := C182_truth (o := o) (st := st) h.size hc (hY 0) (fun x hx => hv x hx _ (readings_map _))
    (fun x hx i => ⟨(hrange x hx i).2.1.le, by linarith [(hrange x hx i).2.2]⟩) hx0 hu (fun x hx hne => by
      by_contra hcon
      push Not at hcon
      refine hne (hid x hx x0 hx0 fun i => hinj x hx x0 hx0 i (hcon i).1 ?_)
      obtain ⟨k, hk⟩ := (hcon i).2
      obtain ⟨-, a1, a2⟩ := hrange x hx i
      obtain ⟨-, b1, b2⟩ := hrange x0 hx0 i
      have k1 : (k : ℝ) < 1 := by linarith
      have k2 : (-1 : ℝ) < k := by linarith
      have k1' : k < 1 := by exact_mod_cast k1
      have k2' : -1 < k := by exact_mod_cast k2
      obtain rfl : k = 0 := by omega
      simpa using hk)
  refine C177_fit (o := { o with data := colData (readings pl zeros) })
    (st := { st with heap := colHeap (readings pl zeros) }) h.size hS hK (fun x _ => ?_) hc hY hind hdist
    hx0 hmin hD
  refine Eventually.of_forall fun p => ?_
  rw [setp_other h.size, setp_valsAt h.size]
  simp only [h.off_zero]
  norm_num

end

/-! ### A substrate with an oscillator, measured with errors of 80 degrees -/

theorem turn (z : ℝ) (h : -360 ≤ z ∧ z ≤ 720) : ∃ y : Set.Icc (0 : ℝ) 360, ∃ k : ℤ, (y : ℝ) = z + 360 * k := by
  by_cases hz : 0 ≤ z
  · by_cases hz' : z ≤ 360
    · exact ⟨⟨z, hz, hz'⟩, 0, by simp⟩
    · push Not at hz'
      exact ⟨⟨z - 360, by linarith, by linarith⟩, -1, by push_cast; ring⟩
  · push Not at hz
    exact ⟨⟨z + 360, by linarith, by linarith⟩, 1, by simp⟩

/-- Errors of `e` degrees in both directions, wherever they lead. -/
theorem errors_of {env : Env} {o : Objective} {st : St} {m n : ℕ} {pl : Fin m → ℝ × ℝ} {x0 : Fin n → ℝ} {ψ Δ : Fin m → ℝ}
    (hv : Values env o (setp env o (some (List.ofFn x0)) st).2 (readings pl zeros) (cellsOf (List.ofFn fun i => (ψ i, Δ i))))
    (hb : ∀ i, (0 ≤ ψ i ∧ ψ i ≤ 90) ∧ 0 ≤ Δ i ∧ Δ i ≤ 360) {e : ℝ} (he0 : 0 < e) (he : e < 90) :
    ∃ ν : Measure (Outcome m), IsProbabilityMeasure ν ∧ SmallErrors env o st ν pl id x0 ∧
      (∀ _ : Fin m, ∀ y, ν {y} ≠ 1) := by
  have hex : ∀ (s : Bool) (i : Fin m), ∃ y : Set.Icc (0 : ℝ) 360, ∃ k : ℤ,
      (y : ℝ) = Δ i + (if s then 1 else -1) * e + 360 * k := by
    intro s i
    obtain ⟨-, h1, h2⟩ := hb i
    refine turn _ ?_
    cases s <;> simp only [Bool.false_eq_true, if_true, if_false] <;> constructor <;> linarith
  choose d k hd using hex
  let y : Bool → Outcome m := fun s i => (⟨ψ i, (hb i).1⟩, d s i)
  have hne : ∀ i, (d false i : ℝ) ≠ d true i := by
    intro i hc
    rw [hd, hd] at hc
    simp only [Bool.false_eq_true, if_true, if_false] at hc
    have k1 : (360 : ℝ) * ((k false i - k true i : ℤ) : ℝ) = 2 * e := by push_cast; linarith
    have k2 : (0 : ℝ) < ((k false i - k true i : ℤ) : ℝ) := by linarith
    have k3 : ((k false i - k true i : ℤ) : ℝ) < 1 := by linarith
    have k2' : 0 < k false i - k true i := by exact_mod_cast k2
    have k3' : k false i - k true i < 1 := by exact_mod_cast k3
    omega
  let ν : Measure (Outcome m) :=
    ENNReal.ofReal (1 / 2) • Measure.dirac (y false) + ENNReal.ofReal (1 / 2) • Measure.dirac (y true)
  have hp : IsProbabilityMeasure ν := ⟨by
    simp only [ν, Measure.add_apply, Measure.smul_apply, measure_univ, smul_eq_mul, mul_one]
    rw [← ENNReal.ofReal_add (by norm_num) (by norm_num)]
    norm_num⟩
  have hint : ∀ f : Outcome m → ℝ, Measurable f → ∫ z, f z ∂ν = (f (y false) + f (y true)) / 2 := by
    intro f hf
    have hi : ∀ z : Outcome m, Integrable f (ENNReal.ofReal (1 / 2) • Measure.dirac z) := fun z =>
      (integrable_dirac' hf.stronglyMeasurable enorm_lt_top).smul_measure ENNReal.ofReal_ne_top
    rw [integral_add_measure (hi _) (hi _), integral_smul_measure, integral_smul_measure,
      integral_dirac' _ _ hf.stronglyMeasurable, integral_dirac' _ _ hf.stronglyMeasurable,
      ENNReal.toReal_ofReal (by norm_num)]
    simp only [smul_eq_mul]
    ring
  -- the error, as a function of the result
  let U : Fin m → Outcome m → ℝ := fun i z => open Classical in if (z i).2 = d true i then e else -e
  have hm : ∀ i, Measurable (U i) := fun i =>
    Measurable.ite (measurableSet_eq_fun (measurable_snd.comp (measurable_pi_apply i)) measurable_const)
      measurable_const measurable_const
  have uf : ∀ i, U i (y false) = -e := fun i => if_neg fun hc => hne i (congrArg Subtype.val hc)
  have ut : ∀ i, U i (y true) = e := fun i => if_pos rfl
  refine ⟨ν, hp, ⟨fun i => (ψ i, Δ i), U, hv, fun i => ⟨hm i, ?_, ?_, ?_⟩⟩, fun i z hz => ?_⟩
  · rw [hint _ (hm i), uf, ut]
    ring
  · simp only [id]
    rw [hint (fun z => ((z i).1 : ℝ)) (by fun_prop)]
    simp [y]
  · rw [ae_add_measure_iff]
    constructor <;> refine Measure.ae_smul_measure ?_ _ <;> rw [ae_dirac_eq]
    · refine ⟨by rw [uf, abs_neg, abs_of_pos he0]; exact he, k false i, ?_⟩
      rw [uf]
      simpa using hd false i
    · refine ⟨by rw [ut, abs_of_pos he0]; exact he, k true i, ?_⟩
      rw [ut]
      simpa using hd true i
  · have hz' : ν {z}ᶜ = 0 := by
      rw [prob_compl_eq_one_sub (measurableSet_singleton z), hz, tsub_self]
    have hy : y false ≠ y true := fun hc => hne i (congrArg (fun w : Outcome m => ((w i).2 : ℝ)) hc)
    have h12 : ν {y false} ≠ 0 ∧ ν {y true} ≠ 0 := by
      simp [ν, hy, hy.symm]
    have : y false ∉ ({z}ᶜ : Set (Outcome m)) := fun h =>
      h12.1 (measure_mono_null (Set.singleton_subset_iff.mpr h) hz')
    have : y true ∉ ({z}ᶜ : Set (Outcome m)) := fun h =>
      h12.2 (measure_mono_null (Set.singleton_subset_iff.mpr h) hz')
    simp_all

theorem MeasuresAbsorber.errors {env : Env} {o : Objective} {st : St} {m n : ℕ} {cs : List Comp} {n₀ : ℝ → ℝ}
    {N : (Fin n → ℝ) → ℝ → ℂ} {pl : Fin m → ℝ × ℝ} {K : Set (Fin n → ℝ)} (h : MeasuresAbsorber env o st cs n₀ N pl K)
    {x0 : Fin n → ℝ} (hx0 : x0 ∈ K) {e : ℝ} (he0 : 0 < e) (he : e < 90) :
    ∃ ν : Measure (Outcome m), IsProbabilityMeasure ν ∧ SmallErrors env o st ν pl id x0 ∧
      (∀ _ : Fin m, ∀ y, ν {y} ≠ 1) := by
  obtain ⟨ψ, Δ, hv, -, hb⟩ := h.cells
  refine errors_of (hv x0 hx0 _ (readings_map _)) (fun i => ?_) he0 he
  obtain ⟨⟨h1, h2⟩, h3, h4⟩ := hb x0 hx0 i
  exact ⟨⟨h1, by linarith⟩, by linarith, by linarith⟩

/-- Non-vacuity of `C182_fit` and `C182_truth`: the oscillator of C181, measured with errors of 80 degrees.  For all such
noise the best fits approach the truth. -/
example (env : Env) (hdt : env.dt = .float) (hpars : env.pars (lorComps.map .comp) none = [1, 2, 4, 5, 6, 8])
    (x0 : Fin 4 → ℝ) (hx0 : x0 ∈ lorK) :
    ∃ ν : Measure (Outcome 3), IsProbabilityMeasure ν ∧ (∀ y, ν {y} ≠ 1) ∧
    ∀ᵐ ω ∂(Measure.infinitePi fun _ : ℕ => ν), ∀ b : ℕ → Fin 4 → ℝ, (∀ k, b k ∈ lorK) →
      (∀ k, ∀ x ∈ lorK, ∀ u v : ℝ,
        (chisqr env { subObj with data := colData (readingsN glassPl ω k) } (some (List.ofFn (b k)))
          { lorSt with heap := colHeap (readingsN glassPl ω k) }).1 = .ok (some u) →
        (chisqr env { subObj with data := colData (readingsN glassPl ω k) } (some (List.ofFn x))
          { lorSt with heap := colHeap (readingsN glassPl ω k) }).1 = .ok (some v) → u ≤ v) →
      Tendsto b atTop (𝓝 x0) := by
  have hM := lor_measures env hdt hpars
  obtain ⟨ν, hν, ⟨v, U, hv, hU⟩, hone⟩ := hM.absorber.errors hx0 (e := 80) (by norm_num) (by norm_num)
  obtain ⟨hY, hind, hid, hlaw⟩ := rand_iid ν
  refine ⟨ν, hν, hone 0, C182_fit (Y := fun k (ω : ℕ → Outcome 3) => ω k) hM.absorber isCompact_Icc hM.known hY hind hid hx0
    ⟨v, fun i ω => U i (ω 0), hv, fun i => ⟨(hU i).1.comp (hY 0), ?_, ?_, ?_⟩⟩
    (H := fun k ω => colHeap (readingsN glassPl ω k)) (D := fun k ω => colData (readingsN glassPl ω k))
    fun k ω => col_presents _⟩
  · rw [hlaw _ (hU i).1]
    exact (hU i).2.1
  · rw [hlaw (fun y => ((y i).1 : ℝ)) (by fun_prop)]
    exact (hU i).2.2.1
  · exact (measurePreserving_eval_infinitePi (fun _ : ℕ => ν) 0).quasiMeasurePreserving.ae (hU i).2.2.2

/-! ### The bound on the errors is needed -/

/-- The offsets between 0 and 180. -/
def oppK : Set (Fin 1 → ℝ) := {x | 0 ≤ x 0 ∧ x 0 ≤ 180}

/-- The deltas 180 + u and 180 - u, equally often, with psi = 45. -/
noncomputable def oppY (u : Set.Icc (0 : ℝ) 180) (s : Bool) : Outcome 2 := fun _ =>
  (⟨45, by norm_num⟩, ⟨180 + (if s then 1 else -1) * u, by
    obtain ⟨u, h1, h2⟩ := u
    cases s <;> constructor <;> simp <;> linarith⟩)

noncomputable def oppLaw (u : Set.Icc (0 : ℝ) 180) : Measure (Outcome 2) :=
  ENNReal.ofReal (1 / 2) • Measure.dirac (oppY u false) + ENNReal.ofReal (1 / 2) • Measure.dirac (oppY u true)

instance (u : Set.Icc (0 : ℝ) 180) : IsProbabilityMeasure (oppLaw u) :=
  ⟨by
    simp only [oppLaw, Measure.add_apply, Measure.smul_apply, measure_univ, smul_eq_mul, mul_one]
    rw [← ENNReal.ofReal_add (by norm_num) (by norm_num)]
    norm_num⟩

theorem opp_integral (u : Set.Icc (0 : ℝ) 180) {f : Outcome 2 → ℝ} (hf : Measurable f) :
    ∫ y, f y ∂oppLaw u = (f (oppY u false) + f (oppY u true)) / 2 := by
  have hi : ∀ z : Outcome 2, Integrable f (ENNReal.ofReal (1 / 2) • Measure.dirac z) := fun z =>
    (integrable_dirac' hf.stronglyMeasurable enorm_lt_top).smul_measure ENNReal.ofReal_ne_top
  rw [oppLaw, integral_add_measure (hi _) (hi _), integral_smul_measure, integral_smul_measure,
    integral_dirac' _ _ hf.stronglyMeasurable, integral_dirac' _ _ hf.stronglyMeasurable,
    ENNReal.toReal_ofReal (by norm_num)]
  simp only [smul_eq_mul]
  ring

theorem opp_values (ext : Ext) (zs : List Layer → ℝ → ℝ → Bool) (x : Fin 1 → ℝ) :
    Values (probEnv ext zs) (probObj none)
      (setp (probEnv ext zs) (probObj none) (some (List.ofFn x)) (barSt 3 [184, 186])).2 (readings randPl zeros)
      (cellsOf (List.ofFn fun _ : Fin 2 => ((45 : ℝ), 180 + x 0))) := by
  have := rand_values ext zs x
  unfold Values at this ⊢
  rw [readings_map] at this ⊢
  exact this

/-- C182: the bound is sharp.  A surface with delta 180 is measured with errors +u and -u, equally often, and the offset of
delta is fitted.  The mean of chi-squared is less at the true offset 0 than at the offset 180 exactly if u < 90. -/
theorem C182_sharp (ext : Ext) (zs : List Layer → ℝ → ℝ → Bool) {c : Outcome 2 → (Fin 1 → ℝ) → ℝ}
    (hc : ChiOf (probEnv ext zs) (probObj none) (barSt 3 [184, 186]) randPl oppK c) (u : Set.Icc (0 : ℝ) 180) :
    (∫ y, c y (fun _ => 0) ∂oppLaw u < ∫ y, c y (fun _ => 180) ∂oppLaw u ↔ (u : ℝ) < 90) ∧
    (SmallErrors (probEnv ext zs) (probObj none) (barSt 3 [184, 186]) (oppLaw u) randPl id (fun _ : Fin 1 => 0) ↔
      (u : ℝ) < 90) := by
  have hn : 1 = (varying (probEnv ext zs) (probObj none) (barSt 3 [184, 186])).length := by
    rw [(prob_varying ext zs 3 [184, 186]).1]; rfl
  have h0 : (fun _ => 0 : Fin 1 → ℝ) ∈ oppK := by simp [oppK]
  have h180 : (fun _ => 180 : Fin 1 → ℝ) ∈ oppK := by simp [oppK]
  have hval := fun y x hx => chiOf_value (ψ := fun _ _ => 45) (Δ := fun x _ => 180 + x 0) (x := x) hn hc
    (fun x _ => rand_values ext zs x) y hx
  have hv0 := opp_values ext zs (fun _ => 0)
  obtain ⟨u, u0, u1⟩ := u
  constructor
  · have hm : ∀ v : ℝ, Measurable fun y : Outcome 2 =>
        ∑ i, (((45 : ℝ) - (y i).1) ^ 2 + circularDistance (180 + v) (y i).2 360 ^ 2) := by
      intro v
      unfold circularDistance
      fun_prop
    have e : ∀ x ∈ oppK, ∫ y, c y x ∂oppLaw ⟨u, u0, u1⟩ = ∫ y,
        ∑ i, (((45 : ℝ) - (y i).1) ^ 2 + circularDistance (180 + x 0) (y i).2 360 ^ 2) ∂oppLaw ⟨u, u0, u1⟩ := fun x hx =>
      integral_congr_ae (Eventually.of_forall fun y => hval y x hx)
    have d1 : circularDistance (180 + 0) (180 + -u) 360 = u := by
      rw [circularDistance, show (180 : ℝ) + 0 - (180 + -u) = u by ring, abs_of_nonneg u0, min_eq_left (by linarith)]
    have d2 : circularDistance (180 + 0) (180 + u) 360 = u := by
      rw [circularDistance, show (180 : ℝ) + 0 - (180 + u) = -u by ring, abs_neg, abs_of_nonneg u0, min_eq_left (by linarith)]
    have d3 : circularDistance (180 + 180) (180 + -u) 360 = 180 - u := by
      rw [circularDistance, show (180 : ℝ) + 180 - (180 + -u) = 180 + u by ring, abs_of_nonneg (by linarith),
        min_eq_right (by linarith)]
      ring
    have d4 : circularDistance (180 + 180) (180 + u) 360 = 180 - u := by
      rw [circularDistance, show (180 : ℝ) + 180 - (180 + u) = 180 - u by ring, abs_of_nonneg (by linarith),
        min_eq_left (by linarith)]
    rw [e _ h0, e _ h180, opp_integral _ (hm _), opp_integral _ (hm _)]
    simp only [oppY, Fin.sum_univ_two, sub_self, Bool.false_eq_true, if_true, if_false, one_mul, neg_mul, d1, d2, d3, d4]
    constructor <;> intro h <;> nlinarith
  · constructor
    · rintro ⟨v, U, hv, hU⟩
      have hve : v = fun _ => ((45 : ℝ), (180 : ℝ)) := by
        have h4 : cellsOf (List.ofFn v) = cellsOf (List.ofFn fun _ : Fin 2 => ((45 : ℝ), (180 : ℝ))) := by
          have := hv.symm.trans hv0
          simpa using this
        refine List.ofFn_injective (List.map_injective_iff.mpr (fun a b hab => ?_) h4)
        simpa [Prod.ext_iff] using hab
      subst hve
      obtain ⟨-, -, -, h⟩ := hU 0
      have hpos : ENNReal.ofReal (1 / 2) ≠ 0 := by simp
      rw [oppLaw, ae_add_measure_iff] at h
      have h' := (Measure.ae_ennreal_smul_measure_iff hpos).mp h.2
      rw [ae_dirac_eq] at h'
      obtain ⟨g1, k, g2⟩ := h'
      simp only [oppY, id, if_true, one_mul] at g2
      obtain ⟨g3, g4⟩ := abs_lt.mp g1
      have k1 : (k : ℝ) < 1 := by linarith
      have k2 : (-1 : ℝ) < k := by linarith
      have k1' : k < 1 := by exact_mod_cast k1
      have k2' : -1 < k := by exact_mod_cast k2
      obtain rfl : k = 0 := by omega
      simp only [Int.cast_zero, mul_zero, add_zero] at g2
      linarith
    · intro hu
      refine ⟨fun _ => (45, 180), fun i y => ((y i).2 : ℝ) - 180, by simpa using hv0, fun i => ⟨by fun_prop, ?_, ?_, ?_⟩⟩
      · rw [opp_integral _ (f := fun y => ((y i).2 : ℝ) - 180) (by fun_prop)]
        simp [oppY]
      · simp only [id]
        rw [opp_integral _ (f := fun y => ((y i).1 : ℝ)) (by fun_prop)]
        simp [oppY]
      · rw [oppLaw, ae_add_measure_iff]
        constructor <;> refine Measure.ae_smul_measure ?_ _ <;> rw [ae_dirac_eq] <;> refine ⟨?_, 0, by simp⟩ <;>
          simp only [oppY, Bool.false_eq_true, if_true, if_false] <;>
          exact abs_lt.mpr ⟨by simp; linarith, by simp; linarith⟩

/-- Non-vacuity of `C182_sharp`: there is such a function. -/
example (ext : Ext) (zs : List Layer → ℝ → ℝ → Bool) :
    ∃ c, ChiOf (probEnv ext zs) (probObj none) (barSt 3 [184, 186]) randPl oppK c := by
  refine ⟨fun y x => ∑ i, (((45 : ℝ) - (y i).1) ^ 2 + circularDistance (180 + x 0) (y i).2 360 ^ 2),
    fun y x hx H D hD => ?_⟩
  have hn : 1 = (varying (probEnv ext zs) (probObj none) (barSt 3 [184, 186])).length := by
    rw [(prob_varying ext zs 3 [184, 186]).1]; rfl
  rw [chisqr_set (o := { probObj none with data := D }) (by rw [List.length_ofFn]; exact hn), setp_other hn,
    chisqr_iff (o := { probObj none with data := D })
      (st := { (setp (probEnv ext zs) (probObj none) (some (List.ofFn x)) (barSt 3 [184, 186])).2 with heap := H }) hD]
  refine ⟨List.ofFn fun _ : Fin 2 => ((45 : ℝ), 180 + x 0), ?_, ?_⟩
  · have := opp_values ext zs x
    unfold Values at this ⊢
    rw [readings_map] at this ⊢
    exact this
  · rw [show (readings randPl y).zip (List.ofFn fun _ : Fin 2 => ((45 : ℝ), 180 + x 0)) = List.ofFn fun i =>
      (((randPl i).1, (randPl i).2, ((y i).1 : ℝ), ((y i).2 : ℝ)), ((45 : ℝ), 180 + x 0)) by
        unfold readings
        apply List.ext_get <;> simp, List.map_ofFn, List.sum_ofFn]
    rfl

end Verif.Obj
