import Verif.Obj.PropsBounded
import Verif.Obj.PropsPoints
import Verif.Obj.PropsMisfit
import Verif.TMM.PropsRounded

/-! # C149: chi-squared in the arithmetic of a machine -/

namespace Verif.Obj
open Verif.Struct Verif.TMM Verif.RModel Verif.Data

variable {env : Env} {o : Objective}

/-! ### Model -/

/-- `circular_distance(a, b)`; absolute values and minima are exact.  objectiveSE.py:21-40. -/
noncomputable def circA (A : Arith) (a b : ℝ) : ℝ := min |A.rsub a b| (A.rsub 360 |A.rsub a b|)

/-- The residuals from the values of the model, first those of psi.  objectiveSE.py:204-205. -/
noncomputable def residA (pts : List Pt) (ms : List (Arith × ℝ × ℝ)) : List ℝ :=
  (pts.zip ms).map (fun x => x.2.1.rsub x.2.2.1 x.1.2.2.1) ++
    (pts.zip ms).map (fun x => circA x.2.1 x.2.2.2 x.1.2.2.2)

/-- `x` is a possible value of `np.dot(r, r)`: products and partial sums are off by at most `u` each (products
that are fused into sums are not rounded), terms may be added in any order, and at most `n` roundings follow
upon each other.  objectiveSE.py:225. -/
inductive Dot (u : ℝ) : ℕ → List ℝ → ℝ → Prop
  | nil : Dot u 0 [] 0
  | term (r : ℝ) {x : ℝ} : |x - r * r| ≤ u * (r * r) → Dot u 1 [r] x
  | node {n m : ℕ} {a b : List ℝ} {x y z : ℝ} : Dot u n a x → Dot u m b y → |z - (x + y)| ≤ u * |x + y| →
      Dot u (max n m + 1) (a ++ b) z
  | perm {n : ℕ} {a b : List ℝ} {x : ℝ} : Dot u n a x → a.Perm b → Dot u n b x

/-! ### The dot product -/

/-- Whatever the order of summation. -/
theorem dot_bound {u : ℝ} (h0 : 0 ≤ u) {n : ℕ} {l : List ℝ} {x : ℝ} (h : Dot u n l x) :
    0 ≤ (l.map fun r => r * r).sum ∧
      |x - (l.map fun r => r * r).sum| ≤ ((1 + u) ^ n - 1) * (l.map fun r => r * r).sum := by
  induction h with
  | nil => simp
  | term r hx => simpa using ⟨mul_self_nonneg r, hx⟩
  | @node n m a b x y z _ _ hz iha ihb =>
    rw [List.map_append, List.sum_append]
    generalize (a.map fun r => r * r).sum = p at *
    generalize (b.map fun r => r * r).sum = q at *
    obtain ⟨p0, hp⟩ := iha
    obtain ⟨q0, hq⟩ := ihb
    have e1 : (1 + u) ^ n ≤ (1 + u) ^ max n m := pow_le_pow_right₀ (by linarith) (le_max_left _ _)
    have e2 : (1 + u) ^ m ≤ (1 + u) ^ max n m := pow_le_pow_right₀ (by linarith) (le_max_right _ _)
    have e3 : (1 : ℝ) ≤ (1 + u) ^ max n m := one_le_pow₀ (by linarith)
    refine ⟨add_nonneg p0 q0, ?_⟩
    rw [pow_succ]
    generalize (1 + u) ^ max n m = g at *
    have hp' := hp.trans (mul_le_mul_of_nonneg_right (sub_le_sub_right e1 1) p0)
    have hq' := hq.trans (mul_le_mul_of_nonneg_right (sub_le_sub_right e2 1) q0)
    have hs : |x + y - (p + q)| ≤ (g - 1) * (p + q) := by
      have := abs_add_le (x - p) (y - q)
      rw [show x - p + (y - q) = x + y - (p + q) by ring] at this
      linarith
    have ht : |x + y| ≤ g * (p + q) := by
      have := abs_sub_abs_le_abs_sub (x + y) (p + q)
      rw [abs_of_nonneg (add_nonneg p0 q0)] at this
      linarith
    have hu := mul_le_mul_of_nonneg_left ht h0
    have := abs_add_le (z - (x + y)) (x + y - (p + q))
    rw [show z - (x + y) + (x + y - (p + q)) = z - (p + q) by ring] at this
    linarith
  | perm _ hp ih =>
    have := (hp.map fun r => r * r).sum_eq
    rwa [← this]

theorem pow_bound {u : ℝ} (h0 : 0 ≤ u) (h1 : u ≤ 1) (n : ℕ) : (1 + u) ^ n - 1 ≤ (2 ^ n - 1) * u := by
  induction n with
  | zero => simp
  | succ n ih =>
    have h2 : (1 : ℝ) ≤ 2 ^ n := one_le_pow₀ (by norm_num)
    rw [pow_succ, pow_succ]
    nlinarith [mul_nonneg h0 (sub_nonneg.mpr h1), mul_nonneg (mul_nonneg (sub_nonneg.mpr h2) h0) (sub_nonneg.mpr h1)]

/-! ### One point -/

theorem circDist_lip (T a a' b : ℝ) (k : ℤ) : |circDist T a' b - circDist T a b| ≤ |a' - a + T * k| := by
  have key : ∀ (a a' : ℝ) (k : ℤ), circDist T a' b ≤ circDist T a b + |a' - a + T * k| := by
    intro a a' k
    unfold circDist
    rw [← sub_le_iff_le_add]
    refine le_ciInf fun j => ?_
    rw [sub_le_iff_le_add]
    refine (ciInf_le ⟨0, ?_⟩ (j + k)).trans ?_
    · rintro _ ⟨i, rfl⟩
      exact abs_nonneg _
    · have := abs_add_le (a - b + T * j) (a' - a + T * k)
      rw [show a - b + T * j + (a' - a + T * k) = a' - b + T * ((j + k : ℤ) : ℝ) by push_cast; ring] at this
      exact this
  rw [abs_le]
  have h1 := key a a' k
  have h2 := key a' a (-k)
  have e : |a - a' + T * ((-k : ℤ) : ℝ)| = |a' - a + T * k| := by
    rw [← abs_neg]; congr 1; push_cast; ring
  rw [e] at h2
  constructor <;> linarith

theorem circA_bound {A : Arith} {u : ℝ} (hA : A.Within u) (h1 : u ≤ 1) {a b : ℝ} (h : |a - b| ≤ 540) :
    |circA A a b - circularDistance a b 360| ≤ 3000 * u := by
  have hu := hA.nonneg
  have e1 := hA.rsub a b
  have e2 := mul_le_mul_of_nonneg_left h hu
  have e3 := hA.rsub 360 |A.rsub a b|
  have e4 : |(|A.rsub a b| - |a - b|)| ≤ 540 * u :=
    (abs_abs_sub_abs_le _ _).trans (by linarith)
  obtain ⟨f1, f2⟩ := abs_le.mp e4
  have e5 : |(360 - |A.rsub a b|)| ≤ 1440 := by
    have := abs_nonneg (A.rsub a b)
    rw [abs_le]; constructor <;> linarith
  have e6 := mul_le_mul_of_nonneg_left e5 hu
  obtain ⟨g1, g2⟩ := abs_le.mp (e3.trans e6)
  unfold circA circularDistance
  refine (abs_min_sub_min_le_max _ _ _ _).trans (max_le (by linarith) ?_)
  rw [abs_le]; constructor <;> linarith

theorem sq_close {r r' e B : ℝ} (h : |(|r'| - |r|)| ≤ e) (hr : |r| ≤ B) (he : e ≤ 1) :
    |r' ^ 2 - r ^ 2| ≤ (2 * B + 1) * e := by
  have h0 : 0 ≤ e := (abs_nonneg _).trans h
  rw [← sq_abs r', ← sq_abs r, sq_sub_sq, abs_mul]
  have h1 : abs (|r'| + |r|) ≤ 2 * B + 1 := by
    rw [abs_of_nonneg (by positivity)]
    have := (abs_le.mp h).2
    linarith
  exact mul_le_mul h1 h (abs_nonneg _) ((abs_nonneg _).trans h1)

/-- What describes the slabs of the model at a point: index of the first row, films with their thicknesses
in Å, index of the last row; no index is zero and no medium without absorption is at its critical angle. -/
structure Describes (env : Env) (o : Objective) (st : St) (pt : Pt) (L : ℝ × List (ℂ × ℝ) × ℂ) : Prop where
  wav : pt.1 ≠ 0
  front : L.1 ≠ 0
  films : ∀ f ∈ L.2.1, f.1 ≠ 0
  back : L.2.2 ≠ 0
  rows : ∀ rows, (slabs env.ext st.vals { st.structs (st.models o.model).str with wavelength := some pt.1 }
    none).1 = .ok (some rows) → RowsOf rows ⟨(L.1 : ℂ), L.2.1.map fun f => (f.1, f.2 / 10), L.2.2⟩
  critical : ∀ n ∈ (L.1 : ℂ) :: L.2.1.map Prod.fst ++ [L.2.2], OffCritical (L.1 * Real.sin (rad pt.2.1)) n

/-- The squared residuals of a point as computed. -/
noncomputable def sqA (pt : Pt) (m : Arith × ℝ × ℝ) : ℝ :=
  m.1.rsub m.2.1 pt.2.2.1 ^ 2 + circA m.1 m.2.2 pt.2.2.2 ^ 2

theorem point_round {st : St} (hdt : env.dt = .float) {off : ℝ}
    (ho : off = st.vals (st.models o.model).rm.off) (hoff : |off| < 180) {pt : Pt}
    (hs : 0 ≤ pt.2.2.2 ∧ pt.2.2.2 ≤ 360) {L : ℝ × List (ℂ × ℝ) × ℂ} (hL : Describes env o st pt L) {m : ℝ × ℝ}
    (hv : PointVal env.ext env.zs env.dt st.vals (st.models o.model).rm
      (st.structs (st.models o.model).str) (pt.1, pt.2.1) (some m.1, some m.2)) :
    ∃ C u₀ : ℝ, 0 ≤ C ∧ 0 < u₀ ∧ ∀ (A : Arith) (u : ℝ), A.Within u → u ≤ u₀ → ∃ ψ' Δ',
      A.deltaPsi L.1 L.2.1 L.2.2 pt.2.1 pt.1 off (st.models o.model).rm.flip = .ok (some ψ', some Δ') ∧
        |sqA pt (A, ψ', Δ') - sqTerm pt m| ≤ C * u := by
  have hv' := hv
  rw [hdt] at hv'
  obtain ⟨rows, y, h1, h2, h3⟩ := hv'
  have hy : y = (some m.1, some m.2) := h3.symm
  rw [hy, ← ho] at h2
  have hrange : off ≤ m.2 ∧ m.2 ≤ 360 + off := by
    have := delta_range (by rw [hdt] at hv; exact hv) (d := m.2) rfl
    rw [← ho] at this
    constructor <;> linarith
  obtain ⟨C, u₀, hu0, H⟩ := C148_psi_delta_partial hL.front hL.films hL.back hL.wav (hL.rows rows h1)
    hL.critical h2
  obtain ⟨o1, o2⟩ := abs_lt.mp hoff
  -- constants
  obtain ⟨D, hD⟩ : ∃ D : ℝ, D = |C| + 1 := ⟨_, rfl⟩
  have hD0 : 0 < D := by rw [hD]; positivity
  obtain ⟨P, hP⟩ : ∃ P : ℝ, P = |m.1 - pt.2.2.1| := ⟨_, rfl⟩
  have hP0 : 0 ≤ P := by rw [hP]; positivity
  obtain ⟨E, hE⟩ : ∃ E : ℝ, E = 3000 + 2 * D + P := ⟨_, rfl⟩
  have hE0 : 0 < E := by rw [hE]; positivity
  refine ⟨(2 * P + 1) * E + (2 * 180 + 1) * E, min u₀ (min (1 / E) ((180 - |off|) / D)), by positivity,
    lt_min hu0 (lt_min (by positivity) (div_pos (by linarith) hD0)), fun A u hA hu => ?_⟩
  have hunn := hA.nonneg
  have u1 : u ≤ u₀ := hu.trans (min_le_left _ _)
  have u2 : E * u ≤ 1 := by
    have := hu.trans ((min_le_right _ _).trans (min_le_left _ _))
    rw [le_div_iff₀ hE0] at this
    linarith
  have u3 : D * u ≤ 180 - |off| := by
    have := hu.trans ((min_le_right _ _).trans (min_le_right _ _))
    rw [le_div_iff₀ hD0] at this
    linarith
  have u4 : u ≤ 1 := by
    have : 1 ≤ E := by rw [hE]; linarith
    nlinarith
  have hCD : C * u ≤ D * u := mul_le_mul_of_nonneg_right (by rw [hD]; linarith [le_abs_self C]) hunn
  obtain ⟨ψ', Δ', k, q1, q2, q3, -, q5, q6⟩ := H A u hA u1
  refine ⟨ψ', Δ', q1, ?_⟩
  have hab := le_abs_self off
  have hab' := neg_abs_le off
  have w1 : |Δ' - pt.2.2.2| ≤ 540 := by rw [abs_le]; constructor <;> linarith [hs.1, hs.2]
  have w2 : |m.2 - pt.2.2.2| ≤ 540 := by rw [abs_le]; constructor <;> linarith [hs.1, hs.2]
  -- psi
  have p1 := hA.rsub ψ' pt.2.2.1
  have p2 : |ψ' - pt.2.2.1| ≤ P + D * u := by
    have := abs_add_le (ψ' - m.1) (m.1 - pt.2.2.1)
    rw [show ψ' - m.1 + (m.1 - pt.2.2.1) = ψ' - pt.2.2.1 by ring] at this
    linarith
  have p3 : |A.rsub ψ' pt.2.2.1 - (m.1 - pt.2.2.1)| ≤ E * u := by
    have := abs_add_le (A.rsub ψ' pt.2.2.1 - (ψ' - pt.2.2.1)) (ψ' - m.1)
    rw [show A.rsub ψ' pt.2.2.1 - (ψ' - pt.2.2.1) + (ψ' - m.1) = A.rsub ψ' pt.2.2.1 - (m.1 - pt.2.2.1) by ring]
      at this
    have p4 := mul_le_mul_of_nonneg_left p2 hunn
    have p5 : u * (D * u) ≤ D * u := by
      have := mul_le_mul_of_nonneg_right u4 (mul_nonneg hD0.le hunn)
      linarith
    rw [hE]
    linarith
  have p6 := sq_close ((abs_abs_sub_abs_le _ _).trans p3) hP.ge u2
  -- delta
  have d1 := circA_bound hA u4 w1
  have d2 : |(|circularDistance Δ' pt.2.2.2 360| - |circularDistance m.2 pt.2.2.2 360|)| ≤ D * u := by
    rw [C80_abs_partial (by linarith), C80_abs_partial (by linarith)]
    exact (circDist_lip 360 m.2 Δ' pt.2.2.2 k).trans (q3.trans hCD)
  have d3 : |(|circA A Δ' pt.2.2.2| - |circularDistance m.2 pt.2.2.2 360|)| ≤ E * u := by
    have d4 := (abs_abs_sub_abs_le (circA A Δ' pt.2.2.2) (circularDistance Δ' pt.2.2.2 360)).trans d1
    have := abs_add_le (|circA A Δ' pt.2.2.2| - |circularDistance Δ' pt.2.2.2 360|)
      (|circularDistance Δ' pt.2.2.2 360| - |circularDistance m.2 pt.2.2.2 360|)
    rw [sub_add_sub_cancel] at this
    rw [hE]
    have : 0 ≤ P * u := mul_nonneg hP0 hunn
    have : 0 ≤ D * u := mul_nonneg hD0.le hunn
    linarith
  have d5 := sq_close d3 (circularDistance_bound w2) u2
  have := abs_add_le (A.rsub ψ' pt.2.2.1 ^ 2 - (m.1 - pt.2.2.1) ^ 2)
    (circA A Δ' pt.2.2.2 ^ 2 - circularDistance m.2 pt.2.2.2 360 ^ 2)
  have e : sqA pt (A, ψ', Δ') - sqTerm pt m = A.rsub ψ' pt.2.2.1 ^ 2 - (m.1 - pt.2.2.1) ^ 2 +
    (circA A Δ' pt.2.2.2 ^ 2 - circularDistance m.2 pt.2.2.2 360 ^ 2) := by
    unfold sqA sqTerm; ring
  rw [e]
  refine this.trans ?_
  linarith

/-! ### All points -/

/-- The values the machine computes for the points, each with its own arithmetic. -/
def Computed (off : ℝ) (flip : Bool) (pts : List Pt) (Ls : List (ℝ × List (ℂ × ℝ) × ℂ))
    (ms : List (Arith × ℝ × ℝ)) : Prop :=
  List.Forall₂ (fun (x : Pt × ℝ × List (ℂ × ℝ) × ℂ) (m : Arith × ℝ × ℝ) =>
    m.1.deltaPsi x.2.1 x.2.2.1 x.2.2.2 x.1.2.1 x.1.1 off flip = .ok (some m.2.1, some m.2.2)) (pts.zip Ls) ms

theorem points_round {st : St} (hdt : env.dt = .float) {off : ℝ}
    (ho : off = st.vals (st.models o.model).rm.off) (hoff : |off| < 180) {pts : List Pt}
    {Ls : List (ℝ × List (ℂ × ℝ) × ℂ)} (hL : List.Forall₂ (Describes env o st) pts Ls)
    (hs : ∀ p ∈ pts, 0 ≤ p.2.2.2 ∧ p.2.2.2 ≤ 360) {ms : List (ℝ × ℝ)}
    (hv : PointValues env o st pts (cellsOf ms)) :
    ∃ C u₀ : ℝ, 0 ≤ C ∧ 0 < u₀ ∧ ∀ (As : List Arith) (u : ℝ), As.length = pts.length → 0 ≤ u →
      (∀ A ∈ As, A.Within u) → u ≤ u₀ → ∃ ms' : List (Arith × ℝ × ℝ), ms'.map Prod.fst = As ∧
        Computed off (st.models o.model).rm.flip pts Ls ms' ∧
        |((pts.zip ms').map fun y => sqA y.1 y.2).sum - ((pts.zip ms).map fun y => sqTerm y.1 y.2).sum| ≤
          C * u := by
  induction hL generalizing ms with
  | nil =>
    refine ⟨0, 1, le_rfl, one_pos, fun As u hA hu _ _ => ⟨[], ?_, .nil, by simp⟩⟩
    rw [List.map_nil]
    exact (List.length_eq_zero_iff.mp hA).symm
  | @cons pt L pts Ls h1 _ ih =>
    cases ms with
    | nil => cases hv
    | cons m ms =>
      obtain ⟨hv1, hv2⟩ := List.forall₂_cons.mp hv
      obtain ⟨C, u₀, hC, hu0, H⟩ := ih (fun p hp => hs p (List.mem_cons_of_mem _ hp)) hv2
      obtain ⟨C', u₀', hC', hu0', H'⟩ := point_round hdt ho hoff (hs pt (by simp)) h1 (m := m) hv1
      refine ⟨C' + C, min u₀' u₀, add_nonneg hC' hC, lt_min hu0' hu0, fun As u hl hu hA hle => ?_⟩
      cases As with
      | nil => simp at hl
      | cons A As =>
        obtain ⟨ms', e1, e2, e3⟩ := H As u (by simpa using hl) hu
          (fun B hB => hA B (List.mem_cons_of_mem _ hB)) (hle.trans (min_le_right _ _))
        obtain ⟨ψ', Δ', f1, f2⟩ := H' A u (hA A (by simp)) (hle.trans (min_le_left _ _))
        refine ⟨(A, ψ', Δ') :: ms', by simp [e1], .cons f1 e2, ?_⟩
        simp only [List.zip_cons_cons, List.map_cons, List.sum_cons]
        refine (abs_le.mpr ?_)
        obtain ⟨a1, a2⟩ := abs_le.mp e3
        obtain ⟨b1, b2⟩ := abs_le.mp f2
        constructor <;> linarith

theorem residA_sum (pts : List Pt) (ms : List (Arith × ℝ × ℝ)) :
    ((residA pts ms).map fun r => r * r).sum = ((pts.zip ms).map fun y => sqA y.1 y.2).sum := by
  unfold residA
  rw [List.map_append, List.sum_append, List.map_map, List.map_map, sum_two]
  congr 1
  refine List.map_congr_left fun x _ => ?_
  simp only [Function.comp_apply, sqA]
  ring

/-- C149. The chi-squared a machine computes is within a multiple of the roundoff of chi-squared: for every
objective whose chi-squared is finite there are, for every number `n` of roundings that follow upon each other
in the dot product, `C` and `u₀` such that in all arithmetics with roundoff `u ≤ u₀` (a different one for every
point) psi and delta are numbers and every value the dot product of the residuals may take is within `C u`.
Partial: points at the critical angle of a medium that does not absorb, for which it is false
(`C149_fails_critical`), offsets of half a turn and more, data with delta outside 0..360 and integer arrays are
missing. -/
theorem C149_chisqr_partial {st : St} {pts : List Pt} (hp : Presents st.heap o.data pts)
    (hdt : env.dt = .float) (hoff : |st.vals (st.models o.model).rm.off| < 180)
    (hs : ∀ p ∈ pts, 0 ≤ p.2.2.2 ∧ p.2.2.2 ≤ 360) {Ls : List (ℝ × List (ℂ × ℝ) × ℂ)}
    (hL : List.Forall₂ (Describes env o st) pts Ls) {χ : ℝ} (h : (chisqr env o none st).1 = .ok (some χ))
    (n : ℕ) : ∃ C u₀ : ℝ, 0 < u₀ ∧ ∀ (As : List Arith) (u : ℝ), As.length = pts.length → 0 ≤ u →
      (∀ A ∈ As, A.Within u) → u ≤ u₀ → ∃ ms' : List (Arith × ℝ × ℝ), ms'.map Prod.fst = As ∧
        Computed (st.vals (st.models o.model).rm.off) (st.models o.model).rm.flip pts Ls ms' ∧
        ∀ d ≤ n, ∀ x, Dot u d (residA pts ms') x → |x - χ| ≤ C * u := by
  obtain ⟨ms, hv, rfl⟩ := (chisqr_iff hp).mp h
  obtain ⟨C, u₀, hC, hu0, H⟩ := points_round hdt rfl hoff hL hs (values_iff.mp hv)
  obtain ⟨χ, hχ⟩ : ∃ χ : ℝ, χ = ((pts.zip ms).map fun y => sqTerm y.1 y.2).sum := ⟨_, rfl⟩
  rw [← hχ] at H ⊢
  refine ⟨C + (2 ^ n - 1) * (|χ| + C), min u₀ 1, lt_min hu0 one_pos, fun As u hl hu hA hle => ?_⟩
  obtain ⟨ms', e1, e2, e3⟩ := H As u hl hu hA (hle.trans (min_le_left _ _))
  refine ⟨ms', e1, e2, fun d hd x hx => ?_⟩
  have hu1 : u ≤ 1 := hle.trans (min_le_right _ _)
  obtain ⟨d0, d1⟩ := dot_bound hu hx
  rw [residA_sum] at d0 d1
  generalize ((pts.zip ms').map fun y => sqA y.1 y.2).sum = X at *
  have d3 : ((1 + u) ^ d - 1) * X ≤ ((1 + u) ^ n - 1) * X :=
    mul_le_mul_of_nonneg_right (sub_le_sub_right (pow_le_pow_right₀ (by linarith) hd) 1) d0
  have hX : X ≤ |χ| + C := by
    have := (abs_le.mp e3).2
    have h2 : C * u ≤ C := mul_le_of_le_one_right hC hu1
    linarith [le_abs_self χ]
  have hp2 : (0 : ℝ) ≤ 2 ^ n - 1 := sub_nonneg.mpr (one_le_pow₀ (by norm_num))
  have d2 : ((1 + u) ^ n - 1) * X ≤ (2 ^ n - 1) * (|χ| + C) * u := by
    calc ((1 + u) ^ n - 1) * X ≤ ((2 ^ n - 1) * u) * X := mul_le_mul_of_nonneg_right (pow_bound hu hu1 n) d0
      _ ≤ ((2 ^ n - 1) * u) * (|χ| + C) := mul_le_mul_of_nonneg_left hX (mul_nonneg hp2 hu)
      _ = (2 ^ n - 1) * (|χ| + C) * u := by ring
  have := abs_add_le (x - X) (X - χ)
  rw [sub_add_sub_cancel] at this
  linarith

/-- The exact dot product is a possible value, with as many roundings in a row as there are residuals and one
more. -/
theorem dot_exact {u : ℝ} (h0 : 0 ≤ u) (l : List ℝ) :
    ∃ n ≤ l.length + 1, Dot u n l (l.map fun r => r * r).sum := by
  induction l with
  | nil => exact ⟨0, by simp, .nil⟩
  | cons r l ih =>
    obtain ⟨n, hn, h⟩ := ih
    refine ⟨max 1 n + 1, by simp; omega, ?_⟩
    have := Dot.node (z := r * r + (l.map fun r => r * r).sum)
      (Dot.term (u := u) r (x := r * r) (by simpa using mul_nonneg h0 (mul_self_nonneg r))) h
      (by rw [sub_self, abs_zero]; positivity)
    simpa using this

/-- Non-vacuity of C149: the film of the example, against data whose psi is off by one degree, with every
operation off by `u`. -/
example (env : Env) (hdt : env.dt = .float) : ∃ ψ Δ C u₀ : ℝ, 0 < u₀ ∧
    (chisqr env { model := 0, data := filmData false } none (filmStAt (ψ + 1) Δ 1250)).1 = .ok (some 1) ∧
    ∀ u, 0 ≤ u → u ≤ u₀ → ∃ ψ' Δ' : ℝ,
      (Arith.scaled u).deltaPsi 1 [(((39 / 25 : ℝ) : ℂ), 1250)] ((15 / 7 : ℝ) : ℂ) filmAoi 480 0 false =
        .ok (some ψ', some Δ') ∧
      (∃ d ≤ 3, ∃ x, Dot u d (residA [(480, filmAoi, ψ + 1, Δ)] [(Arith.scaled u, ψ', Δ')]) x) ∧
      ∀ d ≤ 3, ∀ x, Dot u d (residA [(480, filmAoi, ψ + 1, Δ)] [(Arith.scaled u, ψ', Δ')]) x → |x - 1| ≤ C * u := by
  obtain ⟨ψ, Δ, h1, h2, h⟩ := film_delta env.zs
  obtain ⟨hf, -⟩ := h 0
  rw [add_zero] at hf
  have hd := film_deforms env hdt (ψ + 1) Δ (by norm_num : (0 : ℝ) < 1250)
  have hχ : (chisqr env { model := 0, data := filmData false } none (filmStAt (ψ + 1) Δ 1250)).1 =
      .ok (some 1) := by
    rw [chisqr_iff (hd.data 1250)]
    refine ⟨[(ψ, Δ)], values_iff.mpr (.cons
      ⟨filmRows, (some ψ, some Δ), film_slabs env.ext 480, ?_, by rw [hdt]; rfl⟩ .nil), by
        simp [sqTerm, circularDistance]⟩
    exact hf
  have hsin : (1 : ℝ) * Real.sin (rad filmAoi) = 3 / 5 := by
    rw [film_rad, Real.sin_arcsin] <;> norm_num
  have hL : Describes env { model := 0, data := filmData false } (filmStAt (ψ + 1) Δ 1250)
      (480, filmAoi, ψ + 1, Δ) (1, [(((39 / 25 : ℝ) : ℂ), 1250)], ((15 / 7 : ℝ) : ℂ)) := by
    refine ⟨by norm_num, one_ne_zero, ?_, by norm_num, ?_, ?_⟩
    · intro f hf; simp only [List.mem_singleton] at hf; subst hf; norm_num
    · intro rows hr
      have e : [((((39 / 25 : ℝ) : ℂ), (1250 : ℝ)))].map (fun f => (f.1, f.2 / 10)) =
        [(((39 / 25 : ℝ) : ℂ), 125)] := by simp; norm_num
      have := (film_slabs env.ext 480).symm.trans hr
      rw [Except.ok.injEq, Option.some.injEq] at this
      rw [← this]
      simp only [e]
      exact filmRows_of
    · intro n hn
      simp only [hsin]
      right
      simp only [List.map_cons, List.map_nil, List.cons_append, List.nil_append, List.mem_cons,
        List.not_mem_nil, or_false] at hn
      rcases hn with rfl | rfl | rfl <;> simp only [Complex.ofReal_re] <;>
        rw [abs_of_pos (by norm_num), abs_of_pos (by norm_num)] <;> norm_num
  obtain ⟨C, u₀, hu0, H⟩ := C149_chisqr_partial (hd.data 1250) hdt
    (by show |(0 : ℝ)| < 180; norm_num)
    (by intro p hp; rw [List.mem_singleton] at hp; subst hp; constructor <;> simp only <;> linarith)
    (.cons hL .nil) hχ 3
  refine ⟨ψ, Δ, C, u₀, hu0, hχ, fun u hu hle => ?_⟩
  obtain ⟨ms', e1, e2, e3⟩ := H [Arith.scaled u] u rfl hu (by
    intro A hA; rw [List.mem_singleton] at hA; subst hA; exact scaled_within hu) hle
  obtain ⟨m, _, hm, h5, rfl⟩ := List.forall₂_cons_left_iff.mp e2
  cases h5
  simp only [List.map_cons, List.map_nil, List.cons.injEq, and_true] at e1
  obtain ⟨A, ψ', Δ'⟩ := m
  simp only at e1
  subst e1
  obtain ⟨n, hn, hx⟩ := dot_exact hu (residA [(480, filmAoi, ψ + 1, Δ)] [(Arith.scaled u, ψ', Δ')])
  exact ⟨ψ', Δ', hm, ⟨n, hn, _, hx⟩, e3⟩

/-- A world with data measured at the critical angle. -/
noncomputable def critSt (ψ Δ : ℝ) : St :=
  { tirSt ψ Δ 0 with heap := ⟨fun i => ⟨false, [[500, 30, ψ, Δ].getD i 0]⟩, 4⟩ }

/-- C149 fails at a critical angle: light in a medium of index 2 meets one of index 1 at 30 degrees, data have a
psi that is too high by one degree, chi-squared is 1.  With a sine that is off by `u`, and a dot product without
error, chi-squared is off by more than any multiple of `u`. -/
theorem C149_fails_critical (env : Env) (hdt : env.dt = .float) : ∃ Δ : ℝ,
    (chisqr env { model := 0, data := filmData false } none (critSt 46 Δ)).1 = .ok (some 1) ∧
    ∀ C u₀ : ℝ, 0 < u₀ → ∃ (A : Arith) (u : ℝ), A.Within u ∧ u ≤ u₀ ∧ ∃ ψ' Δ' : ℝ,
      A.deltaPsi 2 [] 1 30 500 0 false = .ok (some ψ', some Δ') ∧
      ∃ d ≤ 3, ∃ x, Dot u d (residA [(500, 30, 46, Δ)] [(A, ψ', Δ')]) x ∧ C * u < |x - 1| := by
  obtain ⟨rows, hrows⟩ : ∃ rows : List Row, rows = [⟨0, some 2, 0, 0⟩, ⟨0, some 1, 0, 0⟩] := ⟨_, rfl⟩
  have hr : RowsOf rows ⟨((2 : ℝ) : ℂ), ([] : List (ℂ × ℝ)).map fun f => (f.1, f.2 / 10), 1⟩ :=
    ⟨_, [], _, 2, hrows, rfl, by norm_num, .nil, rfl⟩
  obtain ⟨σ, hσ⟩ := exact_deltaPsi env.zs (n₀ := 2) (wav := 500) two_ne_zero (by simp) one_ne_zero (by norm_num)
    30 0 false hr
  obtain ⟨⟨Δ, h1⟩, -⟩ := C148_fails_critical σ
  rw [h1] at hσ
  have hp : Presents (critSt 46 Δ).heap (filmData false) [(500, 30, 46, Δ)] := by
    constructor <;> simp [critSt, filmData, wavelength, aoi, psi, delta, len, access, pick]
  refine ⟨Δ, ?_, fun C u₀ hu0 => ?_⟩
  · rw [chisqr_iff hp]
    refine ⟨[(45, Δ)], values_iff.mpr (.cons ⟨rows, (some 45, some Δ), ?_, ?_, by rw [hdt]; rfl⟩ .nil), ?_⟩
    · have := tir_slabs env.ext 46 Δ 0 500
      simp only [Complex.ofReal_zero, mul_zero, add_zero] at this
      rw [hrows]
      exact this
    · exact hσ
    · norm_num [sqTerm, circularDistance]
  · obtain ⟨u, k0, k1, ψ', Δ', k2, k3⟩ := crit_low σ |C| hu0
    refine ⟨_, u, lowSine_within σ k0, k1, ψ', Δ', k2, ?_⟩
    obtain ⟨d, hd, hx⟩ := dot_exact k0 (residA [(500, 30, 46, Δ)] [(Arith.lowSine σ u, ψ', Δ')])
    refine ⟨d, hd, _, hx, lt_of_lt_of_le ?_ (le_abs_self _)⟩
    have e : (((residA [(500, 30, 46, Δ)] [(Arith.lowSine σ u, ψ', Δ')]).map fun r => r * r).sum) =
        (ψ' - 46) * (ψ' - 46) + circA (Arith.lowSine σ u) Δ' Δ * circA (Arith.lowSine σ u) Δ' Δ := by
      simp only [residA, List.zip_cons_cons, List.zip_nil_left, List.map_cons, List.map_nil, List.cons_append,
        List.nil_append, List.sum_cons, List.sum_nil, add_zero]
      rfl
    rw [e]
    have h5 := mul_self_nonneg (circA (Arith.lowSine σ u) Δ' Δ)
    have h6 : C * u ≤ |C| * u := mul_le_mul_of_nonneg_right (le_abs_self C) k0
    have h7 : 0 ≤ |C| * u := mul_nonneg (abs_nonneg C) k0
    nlinarith

end Verif.Obj
