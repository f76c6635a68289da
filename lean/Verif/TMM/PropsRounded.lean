import Verif.TMM.RoundLemmas
import Verif.TMM.ExFilm

/-! # C148: psi and delta lose no more digits than the roundoff -/

namespace Verif.TMM

open Complex (I)
open Filter Topology Asymptotics

/-! ### Media, matrices, the loop -/

/-- A computed layer is near the exact one. -/
structure NearMed (X : Arith × ℝ → Arith.Med) (x : Arith.Med) : Prop where
  n : Near (fun p => (X p).n) x.n
  th : Near (fun p => (X p).th) x.th
  δ : Near (fun p => (X p).δ) x.δ

structure NearMat (M : Arith × ℝ → Mat) (m : Mat) : Prop where
  a : Near (fun p => (M p).a) m.a
  b : Near (fun p => (M p).b) m.b
  c : Near (fun p => (M p).c) m.c
  d : Near (fun p => (M p).d) m.d

variable {σ : Bool} {pol : Pol} {X Y : Arith × ℝ → Arith.Med} {x y : Arith.Med}

theorem near_rC (hx : NearMed X x) (hy : NearMed Y y) {r : ℂ}
    (h : (Arith.exact σ).rC pol x y = some r) : NearO (fun p => p.1.rC pol (X p) (Y p)) r := by
  cases pol
  · exact near_exact ((hx.n.amul hx.th.acos).asub (hy.n.amul hy.th.acos))
      ((hx.n.amul hx.th.acos).aadd (hy.n.amul hy.th.acos)) h
  · exact near_exact ((hy.n.amul hx.th.acos).asub (hx.n.amul hy.th.acos))
      ((hy.n.amul hx.th.acos).aadd (hx.n.amul hy.th.acos)) h

theorem near_tC (hx : NearMed X x) (hy : NearMed Y y) {t : ℂ}
    (h : (Arith.exact σ).tC pol x y = some t) : NearO (fun p => p.1.tC pol (X p) (Y p)) t := by
  cases pol
  · exact near_exact (((near_const 2).amul hx.n).amul hx.th.acos)
      ((hx.n.amul hx.th.acos).aadd (hy.n.amul hy.th.acos)) h
  · exact near_exact (((near_const 2).amul hx.n).amul hx.th.acos)
      ((hy.n.amul hx.th.acos).aadd (hx.n.amul hy.th.acos)) h

theorem near_layerMat {D R T : Arith × ℝ → ℂ} {δ r t : ℂ} (hD : Near D δ) (hR : Near R r)
    (hT : Near T t) {m : Mat} (h : (Arith.exact σ).layerMat δ r t = some m) :
    ∃ M, NearMat M m ∧ ∀ᶠ p in small, p.1.layerMat (D p) (R p) (T p) = some (M p) := by
  simp only [Arith.layerMat, Option.bind_eq_bind, Option.bind_eq_some_iff] at h
  obtain ⟨b, hb, m0, h0, m1, h1, m2, h2, m3, h3, hm⟩ := h
  cases hm
  have hβ := ((near_const I).amul hD).aexp
  obtain ⟨B, nB, eB⟩ := near_exact (near_const 1) hβ hb
  obtain ⟨M0, n0, e0⟩ := near_exact nB hT h0
  obtain ⟨M1, n1, e1⟩ := near_exact (hR.amul nB) hT h1
  obtain ⟨M2, n2, e2⟩ := near_exact (hR.amul hβ) hT h2
  obtain ⟨M3, n3, e3⟩ := near_exact hβ hT h3
  refine ⟨fun p => ⟨M0 p, M1 p, M2 p, M3 p⟩, ⟨n0, n1, n2, n3⟩, ?_⟩
  filter_upwards [eB, e0, e1, e2, e3] with p qB q0 q1 q2 q3
  simp only [Arith.layerMat, qB, q0, q1, q2, q3, Option.bind_eq_bind, Option.bind_some]

theorem near_initMat {R T : Arith × ℝ → ℂ} {r t : ℂ} (hR : Near R r)
    (hT : Near T t) {m : Mat} (h : (Arith.exact σ).initMat r t = some m) :
    ∃ M, NearMat M m ∧ ∀ᶠ p in small, p.1.initMat (R p) (T p) = some (M p) := by
  simp only [Arith.initMat, Option.bind_eq_bind, Option.bind_eq_some_iff] at h
  obtain ⟨m0, h0, m1, h1, hm⟩ := h
  cases hm
  obtain ⟨M0, n0, e0⟩ := near_exact (near_const 1) hT h0
  obtain ⟨M1, n1, e1⟩ := near_exact hR hT h1
  refine ⟨fun p => ⟨M0 p, M1 p, M1 p, M0 p⟩, ⟨n0, n1, n1, n0⟩, ?_⟩
  filter_upwards [e0, e1] with p q0 q1
  simp only [Arith.initMat, q0, q1, Option.bind_eq_bind, Option.bind_some]

theorem near_step {M K : Arith × ℝ → Mat} {m k : Mat} (hM : NearMat M m) (hK : NearMat K k) :
    NearMat (fun p => p.1.step (M p) (K p)) ((Arith.exact σ).step m k) :=
  ⟨(hM.a.amul hK.a).aadd (hM.b.amul hK.c), (hM.a.amul hK.b).aadd (hM.b.amul hK.d),
   (hM.c.amul hK.a).aadd (hM.d.amul hK.c), (hM.c.amul hK.b).aadd (hM.d.amul hK.d)⟩

/-- Lists of layers, computed and exact. -/
inductive NearMeds : (Arith × ℝ → List Arith.Med) → List Arith.Med → Prop
  | nil : NearMeds (fun _ => []) []
  | cons {X : Arith × ℝ → Arith.Med} {x : Arith.Med} {L : Arith × ℝ → List Arith.Med} {l : List Arith.Med} :
      NearMed X x → NearMeds L l → NearMeds (fun p => X p :: L p) (x :: l)

theorem near_loop {L : Arith × ℝ → List Arith.Med} {l : List Arith.Med} (hl : NearMeds L l) :
    ∀ {X : Arith × ℝ → Arith.Med} {x : Arith.Med} {M : Arith × ℝ → Mat} {m m' : Mat}, NearMed X x →
      NearMat M m → (Arith.exact σ).loop pol x l m = some m' →
      ∃ M', NearMat M' m' ∧ ∀ᶠ p in small, p.1.loop pol (X p) (L p) (M p) = some (M' p) := by
  induction hl with
  | nil =>
    intro X x M m m' hx hM h
    cases h
    exact ⟨M, hM, Eventually.of_forall fun _ => rfl⟩
  | cons hy _ ih =>
    intro X x M m m' hx hM h
    simp only [Arith.loop, Option.bind_eq_bind, Option.bind_eq_some_iff] at h
    obtain ⟨r, hr, t, ht, k, hk, h⟩ := h
    obtain ⟨R, nR, eR⟩ := near_rC hx hy hr
    obtain ⟨T, nT, eT⟩ := near_tC hx hy ht
    obtain ⟨K, nK, eK⟩ := near_layerMat hx.δ nR nT hk
    obtain ⟨M', nM', eM'⟩ := ih hy (near_step (σ := σ) hM nK) h
    refine ⟨M', nM', ?_⟩
    filter_upwards [eR, eT, eK, eM'] with p qR qT qK qM
    simp only [Arith.loop, qR, qT, qK, Option.bind_eq_bind, Option.bind_some]
    exact qM

theorem near_solve {L : Arith × ℝ → List Arith.Med} {l : List Arith.Med} (hl : NearMeds L l)
    (hx : NearMed X x) (hy : NearMed Y y) {q : ℂ × ℂ} (h : (Arith.exact σ).solve pol x y l = some q) :
    ∃ Q : Arith × ℝ → ℂ × ℂ, Near (fun p => (Q p).1) q.1 ∧
      ∀ᶠ p in small, p.1.solve pol (X p) (Y p) (L p) = some (Q p) := by
  simp only [Arith.solve, Option.bind_eq_bind, Option.bind_eq_some_iff] at h
  obtain ⟨r, hr, t, ht, i, hi, m, hm, r', hr', t', ht', h⟩ := h
  cases h
  obtain ⟨R, nR, eR⟩ := near_rC hx hy hr
  obtain ⟨T, nT, eT⟩ := near_tC hx hy ht
  obtain ⟨K, nK, eK⟩ := near_initMat nR nT hi
  obtain ⟨M, nM, eM⟩ := near_loop hl hy nK hm
  obtain ⟨R', nR', eR'⟩ := near_exact nM.c nM.a hr'
  obtain ⟨T', nT', eT'⟩ := near_exact (near_const 1) nM.a ht'
  refine ⟨fun p => (R' p, T' p), nR', ?_⟩
  filter_upwards [eR, eT, eK, eM, eR', eT'] with p q1 q2 q3 q4 q5 q6
  simp only [Arith.solve, q1, q2, q3, q4, q5, q6, Option.bind_eq_bind, Option.bind_some]

/-- The medium absorbs, or it is not at its critical angle. -/
def OffCritical (s : ℝ) (n : ℂ) : Prop := n.im ≠ 0 ∨ |s| ≠ |n.re|

theorem near_half {S N : Arith × ℝ → ℂ} {s : ℝ} {n : ℂ} (hS : Near S (s : ℂ))
    (hr : ∀ᶠ p in small, (S p).im = 0) (hN : Near N n) (hNr : n.im = 0 → ∀ᶠ p in small, (N p).im = 0)
    (hc : OffCritical s n) {x : Arith.Med} (h : (Arith.exact σ).half s n = some x) :
    ∃ X, NearMed X x ∧ ∀ᶠ p in small, p.1.half (S p) (N p) = some (X p) := by
  simp only [Arith.half, Option.bind_eq_bind, Option.bind_eq_some_iff] at h
  obtain ⟨z, hz, h⟩ := h
  cases h
  rw [exact_cdiv, cdiv_eq_some] at hz
  obtain ⟨hn, rfl⟩ := hz
  refine ⟨fun p => ⟨N p, p.1.arcsin (p.1.div (S p) (N p)), 0⟩,
    ⟨hN, near_refract hS hr hN hNr hn hc, near_const 0⟩, ?_⟩
  filter_upwards [hN.ne hn] with p hp
  simp only [Arith.half, Arith.cdiv, if_neg hp, Option.bind_eq_bind, Option.bind_some]

theorem near_film {S N : Arith × ℝ → ℂ} {T : Arith × ℝ → ℝ} {s : ℝ} (hS : Near S (s : ℂ))
    (hr : ∀ᶠ p in small, (S p).im = 0) {lam : ℝ} {f : ℂ × ℝ} (hN : Near N f.1)
    (hNr : f.1.im = 0 → ∀ᶠ p in small, (N p).im = 0) (hT : Near T f.2)
    (hc : OffCritical s f.1) {x : Arith.Med} (h : (Arith.exact σ).film s lam f = some x) :
    ∃ X, NearMed X x ∧ ∀ᶠ p in small, p.1.film (S p) lam (N p, T p) = some (X p) := by
  simp only [Arith.film, Option.bind_eq_bind, Option.bind_eq_some_iff] at h
  obtain ⟨z, hz, k, hk, h⟩ := h
  cases h
  rw [exact_cdiv, cdiv_eq_some] at hz
  obtain ⟨hn, rfl⟩ := hz
  have nT := near_refract hS hr hN hNr hn hc
  obtain ⟨K, nK, eK⟩ := near_exact (((((near_const 2).armul near_pi).ofReal).amul hN).amul
    nT.acos) (near_const (lam : ℂ)) hk
  refine ⟨fun p => ⟨N p, p.1.arcsin (p.1.div (S p) (N p)), clip35 (p.1.mul (K p) (p.1.rdiv (T p) 10 : ℝ))⟩,
    ⟨hN, nT, (nK.amul ((hT.ardiv (near_const 10) (by norm_num)).ofReal)).clip⟩, ?_⟩
  filter_upwards [eK, hN.ne hn] with p q hp
  simp only [Arith.film, Arith.cdiv, if_neg hp, Option.bind_eq_bind, Option.bind_some] at q ⊢
  rw [q]
  rfl

theorem near_meds {S : Arith × ℝ → ℂ} {s : ℝ} (hS : Near S (s : ℂ))
    (hr : ∀ᶠ p in small, (S p).im = 0) {lam : ℝ} {films : List (ℂ × ℝ)}
    (hc : ∀ f ∈ films, OffCritical s f.1) (i : ℕ) {ms : List Arith.Med}
    (h : (Arith.exact σ).meds s lam i films = some ms) :
    ∃ L, NearMeds L ms ∧ ∀ᶠ p in small, p.1.meds (S p) lam i films = some (L p) := by
  induction films generalizing ms i with
  | nil =>
    cases h
    exact ⟨_, .nil, Eventually.of_forall fun _ => rfl⟩
  | cons f l ih =>
    simp only [Arith.meds, Option.bind_eq_bind, Option.bind_eq_some_iff, exact_index, exact_thick] at h
    obtain ⟨x, hx, xs, hxs, h⟩ := h
    cases h
    obtain ⟨X, nX, eX⟩ := near_film hS hr (near_index i f.1) (index_im i) (near_thick i f.2)
      (hc f (by simp)) hx
    obtain ⟨L, nL, eL⟩ := ih (fun f hf => hc f (List.mem_cons_of_mem _ hf)) (i + 1) hxs
    refine ⟨_, .cons nX nL, ?_⟩
    filter_upwards [eX, eL] with p q q'
    simp only [Arith.meds, q, q', Option.bind_eq_bind, Option.bind_some]

theorem NearMeds.append {L : Arith × ℝ → List Arith.Med} {l : List Arith.Med} (h : NearMeds L l)
    (hx : NearMed X x) : NearMeds (fun p => L p ++ [X p]) (l ++ [x]) := by
  induction h with
  | nil => exact .cons hx .nil
  | cons h1 _ ih => exact .cons h1 ih

theorem near_polResult {S : Arith × ℝ → ℂ} {s : ℝ} (hS : Near S (s : ℂ))
    (hr : ∀ᶠ p in small, (S p).im = 0) {lam n₀ : ℝ} {films : List (ℂ × ℝ)}
    {nb : ℂ} (h0 : OffCritical s n₀) (hc : ∀ f ∈ films, OffCritical s f.1) (hb : OffCritical s nb) {q : ℂ × ℂ}
    (h : (Arith.exact σ).polResult pol s lam n₀ films nb = some q) :
    ∃ Q : Arith × ℝ → ℂ × ℂ, Near (fun p => (Q p).1) q.1 ∧
      ∀ᶠ p in small, p.1.polResult pol (S p) lam n₀ films nb = some (Q p) := by
  simp only [Arith.polResult, Option.bind_eq_bind, Option.bind_eq_some_iff] at h
  obtain ⟨x, hx, ms, hms, b, hb', h⟩ := h
  obtain ⟨X, nX, eX⟩ := near_half hS hr (near_front n₀).ofReal (fun _ => Eventually.of_forall fun p => Complex.ofReal_im _)
    h0 hx
  obtain ⟨L, nL, eL⟩ := near_meds hS hr hc 0 hms
  obtain ⟨B, nB, eB⟩ := near_half hS hr (near_back nb) back_im hb hb'
  obtain ⟨L', hL'⟩ : ∃ L' : Arith × ℝ → List Arith.Med, L' = fun p => L p ++ [B p] := ⟨_, rfl⟩
  obtain ⟨l', hl'⟩ : ∃ l' : List Arith.Med, l' = ms ++ [b] := ⟨_, rfl⟩
  have nL' : NearMeds L' l' := by rw [hL', hl']; exact nL.append nB
  rw [← hl'] at h
  cases nL' with
  | nil => cases h
  | @cons Y y L1 l1 hy hl =>
    obtain ⟨Q, nQ, eQ⟩ := near_solve hl nX hy h
    refine ⟨Q, nQ, ?_⟩
    filter_upwards [eX, eL, eB, eQ] with p q1 q2 q3 q4
    have e := congrFun hL' p
    simp only [Arith.polResult, q1, q2, q3, Option.bind_eq_bind, Option.bind_some]
    rw [← e]
    exact q4

/-! ### psi and delta -/

theorem near_psi {RS RP : Arith × ℝ → ℂ} {rs rp : ℂ} (hS : Near RS rs) (hP : Near RP rp) (h : rs ≠ 0) :
    Near (fun p : Arith × ℝ => p.1.rmul (p.1.arctan (p.1.abs (p.1.div (RP p) (RS p)))) (p.1.rdiv 180 p.1.pi))
      (Real.arctan ‖rp / rs‖ * (180 / Real.pi)) :=
  ((hP.adiv hS h).aabs.aarctan).armul ((near_const 180).ardiv near_pi Real.pi_ne_zero)

/-- The computed `np.angle(...) + np.pi`. -/
theorem near_phase (σ : Bool) {Y : Arith × ℝ → ℂ} {y : ℂ} (h : Near Y y) (hy : y ≠ 0) :
    NearC (2 * Real.pi) (fun p => p.1.radd (p.1.angle (Y p)) p.1.pi) (npAngle σ y + Real.pi) ∧
      ∀ᶠ p in small, -(40 * p.2) ≤ p.1.radd (p.1.angle (Y p)) p.1.pi ∧
        p.1.radd (p.1.angle (Y p)) p.1.pi ≤ 2 * Real.pi + 40 * p.2 := by
  obtain ⟨h1, h2⟩ := near_angle σ h hy
  have h3 := h1.add near_pi
  refine ⟨h3.round (small_within.mono fun p hp => hp.radd _ _), ?_⟩
  filter_upwards [small_within, h2, small_tendsto.eventually (eventually_lt_nhds one_pos)] with p hp h4 h5
  have hpi := Real.pi_le_four
  have hpi0 := Real.pi_pos
  have h6 := hp.radd (p.1.angle (Y p)) p.1.pi
  have h7 := hp.pi
  have h0 := hp.nonneg
  have h8 : p.2 * Real.pi ≤ p.2 * 4 := mul_le_mul_of_nonneg_left hpi h0
  have h9 : |p.1.angle (Y p) + p.1.pi| ≤ 24 := by
    have := abs_add_le (p.1.angle (Y p)) p.1.pi
    have h10 := abs_sub_abs_le_abs_sub p.1.pi Real.pi
    rw [abs_of_pos Real.pi_pos] at h10
    linarith
  have h10 := mul_le_mul_of_nonneg_left h9 h0
  obtain ⟨a1, a2⟩ := abs_le.mp h4
  obtain ⟨b1, b2⟩ := abs_le.mp h6
  obtain ⟨c1, c2⟩ := abs_le.mp h7
  constructor <;> linarith

theorem near_fold {D : Arith × ℝ → ℝ} {d : ℝ} (hD : NearC (2 * Real.pi) D d) (h0 : 0 ≤ d)
    (h1 : d ≤ 2 * Real.pi)
    (hb : ∀ᶠ p in small, -(40 * p.2) ≤ D p ∧ D p ≤ 2 * Real.pi + 40 * p.2) :
    Near (fun p => if p.1.pi < D p then p.1.rsub (p.1.rmul 2 p.1.pi) (D p) else D p)
      (if Real.pi < d then 2 * Real.pi - d else d) := by
  obtain ⟨⟨K, hK⟩, -⟩ := hD
  obtain ⟨C, hC0, hC⟩ := IsBigO.exists_pos hK
  have hC' := hC.bound
  have e0 : (if Real.pi < d then 2 * Real.pi - d else d) = min d (2 * Real.pi - d) := by
    split_ifs with h
    · rw [min_eq_right (by linarith)]
    · rw [min_eq_left (by linarith)]
  rw [e0]
  have hm : Near (fun p => min (D p) (2 * Real.pi - D p)) (min d (2 * Real.pi - d)) := by
    refine (near_const (min d (2 * Real.pi - d))).perturb (3 * (C + 40)) ?_
    have hs : ∀ᶠ p in small, (C + 40) * p.2 < 1 := by
      have : Tendsto (fun p : Arith × ℝ => (C + 40) * p.2) small (𝓝 ((C + 40) * 0)) :=
        small_tendsto.const_mul _
      rw [mul_zero] at this
      exact this.eventually (eventually_lt_nhds one_pos)
    filter_upwards [hC', hb, small_within, hs] with p h2 h3 hp h4
    rw [Real.norm_eq_abs, Real.norm_eq_abs, abs_of_nonneg hp.nonneg] at h2
    have hu := hp.nonneg
    have hCu := mul_nonneg hC0.le hu
    rw [Real.norm_eq_abs, mul_assoc]
    exact fold_close (k := K p) h0 h1 (by linarith) (by linarith) (by linarith) h4
  refine hm.perturb 200 ?_
  filter_upwards [hb, small_within, small_tendsto.eventually (eventually_lt_nhds (show (0 : ℝ) < 1 / 100 by norm_num))]
    with p h2 hp h3
  have hu := hp.nonneg
  have hpi := Real.pi_le_four
  have hpi0 := Real.pi_pos
  have h8 : p.2 * Real.pi ≤ p.2 * 4 := mul_le_mul_of_nonneg_left hpi hu
  obtain ⟨a1, a2⟩ := abs_le.mp hp.pi
  have b := hp.rmul 2 p.1.pi
  have b' : |2 * p.1.pi| ≤ 10 := by rw [abs_le]; constructor <;> linarith
  have b'' := mul_le_mul_of_nonneg_left b' hu
  obtain ⟨b1, b2⟩ := abs_le.mp (b.trans b'')
  have c := hp.rsub (p.1.rmul 2 p.1.pi) (D p)
  have c' : |p.1.rmul 2 p.1.pi - D p| ≤ 20 := by rw [abs_le]; constructor <;> linarith
  have c'' := mul_le_mul_of_nonneg_left c' hu
  obtain ⟨c1, c2⟩ := abs_le.mp (c.trans c'')
  rw [Real.norm_eq_abs, abs_le]
  split_ifs with h <;> rcases min_cases (D p) (2 * Real.pi - D p) with ⟨e1, h4⟩ | ⟨e1, h4⟩ <;>
    rw [e1] <;> constructor <;> linarith

/-- What `deltaPsi` does with exact operations when it gives two numbers. -/
theorem exact_some {n₀ : ℝ} {films : List (ℂ × ℝ)} {nb : ℂ} {a wav off : ℝ} {refl : Bool} {ψ Δ : ℝ}
    (h : (Arith.exact σ).deltaPsi n₀ films nb a wav off refl = .ok (some ψ, some Δ)) :
    ∃ rs rp : ℂ × ℂ, (Arith.exact σ).polResult .s (n₀ * Complex.sin (rad a)) wav n₀ films nb = some rs ∧
      (Arith.exact σ).polResult .p (n₀ * Complex.sin (rad a)) wav n₀ films nb = some rp ∧
      rs.1 ≠ 0 ∧ rp.1 ≠ 0 ∧ ψ = Real.arctan ‖rp.1 / rs.1‖ * (180 / Real.pi) ∧
      Δ = (if refl then (if Real.pi < npAngle σ (1 / (-rp.1 / rs.1)) + Real.pi then
          2 * Real.pi - (npAngle σ (1 / (-rp.1 / rs.1)) + Real.pi) else
          npAngle σ (1 / (-rp.1 / rs.1)) + Real.pi) else npAngle σ (1 / (-rp.1 / rs.1)) + Real.pi) *
          (180 / Real.pi) + off := by
  have hs : (Arith.exact σ).mul ((Arith.exact σ).front n₀ : ℝ) ((Arith.exact σ).sin
      ((Arith.exact σ).rmul a ((Arith.exact σ).rdiv (Arith.exact σ).pi 180) : ℝ)) =
      (n₀ : ℂ) * Complex.sin (rad a) := rfl
  simp only [Arith.deltaPsi, hs] at h
  split at h
  · rename_i ha
    revert h
    cases h1 : (Arith.exact σ).polResult .s (n₀ * Complex.sin (rad a)) wav n₀ films nb with
    | none => intro h; simp at h
    | some rs =>
      cases h2 : (Arith.exact σ).polResult .p (n₀ * Complex.sin (rad a)) wav n₀ films nb with
      | none => intro h; simp at h
      | some rp =>
        intro h
        simp only [Except.ok.injEq, Arith.psiDelta, Prod.mk.injEq, Option.bind_eq_bind, exact_cdiv] at h
        obtain ⟨hψ, hΔ⟩ := h
        simp only [Option.bind_eq_some_iff, cdiv_eq_some] at hΔ
        obtain ⟨x, ⟨hrs, rfl⟩, y, ⟨hx, rfl⟩, hΔ⟩ := hΔ
        rw [if_neg hrs] at hψ
        refine ⟨rs, rp, rfl, rfl, hrs, ?_, ?_, ?_⟩
        · intro h0
          simp [h0] at hx
        · exact (Option.some.inj hψ).symm
        · exact (Option.some.inj hΔ).symm
  · cases h

/-- C148. Rounding costs no more than a multiple of the roundoff: for every array of rows and every point
at which psi and delta exist there are `C` and `u₀` such that in every arithmetic with roundoff `u ≤ u₀`, and
if the entries of the array are also off by `u`, the code gives two numbers, psi within `C u` and delta within `C u` up to whole turns, and delta between the
offset and the offset plus 360 within `C u`; with `reflect_delta` there are no jumps by turns.  Partial: no medium without absorption may be at its critical angle. -/
theorem C148_psi_delta_partial {n₀ : ℝ} {films : List (ℂ × ℝ)} {nb : ℂ} (hn : n₀ ≠ 0)
    (hf : ∀ f ∈ films, f.1 ≠ 0) (hb : nb ≠ 0) {a wav off : ℝ} (hw : wav ≠ 0) {refl : Bool}
    {rows : List Row} (hr : RowsOf rows ⟨(n₀ : ℂ), films.map fun f => (f.1, f.2 / 10), nb⟩)
    (hc : ∀ n ∈ (n₀ : ℂ) :: films.map Prod.fst ++ [nb], OffCritical (n₀ * Real.sin (rad a)) n) {ψ Δ : ℝ}
    {zs : List Layer → ℝ → ℝ → Bool}
    (h : (deltaPsiTMM zs [a] rows wav off refl).1 = .ok [(some ψ, some Δ)]) :
    ∃ C u₀ : ℝ, 0 < u₀ ∧ ∀ (A : Arith) (u : ℝ), A.Within u → u ≤ u₀ →
      ∃ (ψ' Δ' : ℝ) (k : ℤ), A.deltaPsi n₀ films nb a wav off refl = .ok (some ψ', some Δ') ∧
        |ψ' - ψ| ≤ C * u ∧ |Δ' - Δ + 360 * k| ≤ C * u ∧ (refl → k = 0) ∧
        off - C * u ≤ Δ' ∧ Δ' ≤ 360 + off + C * u := by
  obtain ⟨σ, hσ⟩ := exact_deltaPsi zs hn hf hb hw a off refl hr
  rw [hσ] at h
  have h' : (Arith.exact σ).deltaPsi n₀ films nb a wav off refl = .ok (some ψ, some Δ) := by
    revert h
    cases (Arith.exact σ).deltaPsi n₀ films nb a wav off refl with
    | error e => intro h; cases h
    | ok x =>
      intro h
      simp only [Except.map, Except.ok.injEq, List.cons.injEq, and_true] at h
      rw [h]
  obtain ⟨rs, rp, h1, h2, hrs, hrp, rfl, hΔ⟩ := exact_some h'
  -- the computed sine
  obtain ⟨S, hSd⟩ : ∃ S : Arith × ℝ → ℂ, S = fun p =>
    p.1.mul (p.1.front n₀ : ℝ) (p.1.sin (p.1.rmul a (p.1.rdiv p.1.pi 180) : ℝ)) := ⟨_, rfl⟩
  have hsc : (n₀ : ℂ) * Complex.sin (rad a) = ((n₀ * Real.sin (rad a) : ℝ) : ℂ) := by push_cast; rfl
  have hS : Near S ((n₀ * Real.sin (rad a) : ℝ) : ℂ) := by
    rw [← hsc, hSd]
    exact (near_front n₀).ofReal.amul
      (((near_const a).armul (near_pi.ardiv (near_const 180) (by norm_num))).ofReal.asin)
  have hSr : ∀ᶠ p in small, (S p).im = 0 := by
    refine small_within.mono fun p hp => ?_
    rw [hSd]
    have h3 := hp.sin_real (p.1.rmul a (p.1.rdiv p.1.pi 180))
    have e : p.1.sin (p.1.rmul a (p.1.rdiv p.1.pi 180) : ℝ) =
        ((p.1.sin (p.1.rmul a (p.1.rdiv p.1.pi 180) : ℝ)).re : ℂ) :=
      Complex.ext (by simp) (by simp [h3])
    simp only
    rw [e]
    exact hp.mul_real _ _
  rw [hsc] at h1 h2
  have c0 := hc n₀ (by simp)
  have c1 : ∀ f ∈ films, OffCritical (n₀ * Real.sin (rad a)) f.1 := fun f hf' =>
    hc f.1 (by simp; right; left; exact ⟨f.2, hf'⟩)
  have c2 := hc nb (by simp)
  obtain ⟨RS, nRS, eRS⟩ := near_polResult hS hSr c0 c1 c2 h1
  obtain ⟨RP, nRP, eRP⟩ := near_polResult hS hSr c0 c1 c2 h2
  have nψ := near_psi nRS nRP hrs
  -- the phase
  have hx : -rp.1 / rs.1 ≠ 0 := div_ne_zero (neg_ne_zero.mpr hrp) hrs
  have nNeg : Near (fun p => -(RP p).1) (-rp.1) := by
    have := (near_const (0 : ℂ)).sub nRP
    simpa using this
  have nX := nNeg.adiv nRS hrs
  have nY := (near_const (1 : ℂ)).adiv nX hx
  obtain ⟨nD, bD⟩ := near_phase σ nY (one_div_ne_zero hx)
  obtain ⟨Y, hY⟩ : ∃ Y : Arith × ℝ → ℂ, Y = fun p => p.1.div 1 (p.1.div (-(RP p).1) (RS p).1) := ⟨_, rfl⟩
  obtain ⟨D, hD⟩ : ∃ D : Arith × ℝ → ℝ, D = fun p => p.1.radd (p.1.angle (Y p)) p.1.pi := ⟨_, rfl⟩
  obtain ⟨H, hH⟩ : ∃ H : Arith × ℝ → ℝ, H = fun p => p.1.radd (p.1.rmul (if refl then
    (if p.1.pi < D p then p.1.rsub (p.1.rmul 2 p.1.pi) (D p) else D p) else D p)
    (p.1.rdiv 180 p.1.pi)) off := ⟨_, rfl⟩
  rw [hY] at hD
  simp only at hD
  rw [← hD] at nD
  have bD' : ∀ᶠ p in small, -(40 * p.2) ≤ D p ∧ D p ≤ 2 * Real.pi + 40 * p.2 := by rw [hD]; exact bD
  have hrange := npAngle_abs_le σ (1 / (-rp.1 / rs.1))
  obtain ⟨r1, r2⟩ := abs_le.mp hrange
  have nDeg := (near_const (180 : ℝ)).ardiv near_pi Real.pi_ne_zero
  have nH : ∃ K : Arith × ℝ → ℤ, (refl → ∀ p, K p = 0) ∧ Near (fun p => H p + 360 * K p) Δ := by
    cases refl with
    | false =>
      simp only [Bool.false_eq_true, if_false] at hH hΔ
      have h3 := ((nD.mul nDeg).round (small_within.mono fun p hp => hp.rmul _ _)).add (near_const off)
      have h4 := h3.round (small_within.mono fun p hp => hp.radd _ _)
      obtain ⟨⟨K, hK⟩, -⟩ := h4
      refine ⟨K, by simp, ?_⟩
      rw [hΔ]
      have e : 2 * Real.pi * (180 / Real.pi) = 360 := by
        have := Real.pi_ne_zero
        field_simp
        norm_num
      rw [e] at hK
      rw [hH]
      exact hK
    | true =>
      simp only [if_true] at hH hΔ
      have h3 := near_fold nD (by linarith) (by linarith) bD'
      refine ⟨fun _ => 0, by simp, ?_⟩
      rw [hΔ, hH]
      have := (h3.armul nDeg).aradd (near_const off)
      simpa using this
  obtain ⟨K, hK0, nH⟩ := nH
  have hpi := Real.pi_pos
  have hdeg : 0 < 180 / Real.pi := by positivity
  have hHr : ∃ C3 : ℝ, ∀ᶠ p in small, off - C3 * p.2 ≤ H p ∧ H p ≤ 360 + off + C3 * p.2 := by
    cases refl with
    | true =>
      obtain ⟨C, hC⟩ := IsBigO.bound nH
      refine ⟨C, ?_⟩
      filter_upwards [hC, small_within] with p h3 hp
      rw [Real.norm_eq_abs, Real.norm_eq_abs, abs_of_nonneg hp.nonneg, hK0 rfl, Int.cast_zero, mul_zero,
        add_zero, abs_le] at h3
      simp only [if_true] at hΔ
      have h4 : 0 ≤ Δ - off ∧ Δ - off ≤ 360 := by
        rw [hΔ, add_sub_cancel_right]
        split_ifs with h5
        · refine ⟨mul_nonneg (by linarith) hdeg.le, ?_⟩
          calc _ ≤ (2 * Real.pi) * (180 / Real.pi) := mul_le_mul_of_nonneg_right (by linarith) hdeg.le
            _ = 360 := by field_simp; norm_num
        · refine ⟨mul_nonneg (by linarith) hdeg.le, ?_⟩
          calc _ ≤ (2 * Real.pi) * (180 / Real.pi) := mul_le_mul_of_nonneg_right (by linarith) hdeg.le
            _ = 360 := by field_simp; norm_num
      constructor <;> linarith
    | false =>
      simp only [Bool.false_eq_true, if_false] at hH
      have b0 : (fun p => D p * p.1.rdiv 180 p.1.pi) =O[small] fun _ => (1 : ℝ) := by
        simpa using nD.2.mul nDeg.bounded
      have b1 : (fun p => p.1.rmul (D p) (p.1.rdiv 180 p.1.pi) - D p * p.1.rdiv 180 p.1.pi) =O[small]
          fun p => p.2 := by
        exact round_bigO b0 (small_within.mono fun p hp => hp.rmul _ _)
      have b2 : (fun p => D p * (p.1.rdiv 180 p.1.pi - 180 / Real.pi)) =O[small] fun p => p.2 := by
        simpa using nD.2.mul nDeg
      have b3 : (fun p => p.1.rmul (D p) (p.1.rdiv 180 p.1.pi) + off) =O[small] fun _ => (1 : ℝ) := by
        have := (b1.trans (small_tendsto.isBigO_one ℝ)).add b0
        have := this.add ((near_const off).bounded)
        refine this.congr_left fun p => ?_
        ring
      have b4 := round_bigO (H := fun p => p.1.radd (p.1.rmul (D p) (p.1.rdiv 180 p.1.pi)) off) b3
        (small_within.mono fun p hp => hp.radd _ _)
      obtain ⟨C, hC⟩ := IsBigO.bound ((b1.add b2).add b4)
      refine ⟨C + 40 * (180 / Real.pi), ?_⟩
      filter_upwards [hC, small_within, bD'] with p h3 hp h4
      rw [Real.norm_eq_abs, Real.norm_eq_abs, abs_of_nonneg hp.nonneg, abs_le] at h3
      have e : p.1.rmul (D p) (p.1.rdiv 180 p.1.pi) - D p * p.1.rdiv 180 p.1.pi +
          D p * (p.1.rdiv 180 p.1.pi - 180 / Real.pi) +
          (p.1.radd (p.1.rmul (D p) (p.1.rdiv 180 p.1.pi)) off -
            (p.1.rmul (D p) (p.1.rdiv 180 p.1.pi) + off)) = H p - (D p * (180 / Real.pi) + off) := by
        rw [hH]; ring
      rw [e] at h3
      have h5 := mul_le_mul_of_nonneg_right h4.1 hdeg.le
      have h6 := mul_le_mul_of_nonneg_right h4.2 hdeg.le
      have h7 : (2 * Real.pi + 40 * p.2) * (180 / Real.pi) = 360 + 40 * (180 / Real.pi) * p.2 := by
        field_simp
        ring
      rw [h7] at h6
      constructor <;> linarith
  obtain ⟨C3, hC3⟩ := hHr
  obtain ⟨C1, hC1⟩ := IsBigO.bound nψ
  obtain ⟨C2, hC2⟩ := IsBigO.bound nH
  have him : ∀ᶠ p in small, |(S p).im| < assertTol := by
    filter_upwards [hSr] with p hp
    rw [hp, abs_zero]
    unfold assertTol
    positivity
  have hall := hC3.and (hC1.and (hC2.and (him.and (eRS.and (eRP.and ((nRS.ne hrs).and ((nX.ne hx).and small_within)))))))
  obtain ⟨u₀, hu0, hall⟩ := small_iff hall
  refine ⟨max (max C1 C2) C3, u₀, hu0, fun A u hA hu => ?_⟩
  obtain ⟨q0, q1, q2, q3, q4, q5, q6, q7, -⟩ := hall A u hA hu
  rw [Real.norm_eq_abs, Real.norm_eq_abs, abs_of_nonneg hA.nonneg] at q1 q2
  have m1 : C1 * u ≤ max (max C1 C2) C3 * u :=
    mul_le_mul_of_nonneg_right ((le_max_left _ _).trans (le_max_left _ _)) hA.nonneg
  have m2 : C2 * u ≤ max (max C1 C2) C3 * u :=
    mul_le_mul_of_nonneg_right ((le_max_right _ _).trans (le_max_left _ _)) hA.nonneg
  have m3 : C3 * u ≤ max (max C1 C2) C3 * u := mul_le_mul_of_nonneg_right (le_max_right _ _) hA.nonneg
  simp only at q0
  refine ⟨_, H (A, u), K (A, u), ?_, q1.trans m1, ?_, fun hrefl => hK0 hrefl _, by linarith [q0.1],
    by linarith [q0.2]⟩
  · rw [hSd] at q3 q4 q5
    simp only at q3 q4 q5
    simp only [Arith.deltaPsi, if_pos q3, q4, q5, Arith.psiDelta, if_neg q6, Arith.cdiv, if_neg q7,
      Option.bind_eq_bind, Option.bind_some]
    rw [hH, hD]
  · refine le_trans (le_of_eq ?_) (q2.trans m2)
    congr 1
    ring

/-- An arithmetic that rounds away from zero in every operation. -/
noncomputable def Arith.scaled (u : ℝ) : Arith where
  add x y := (x + y) * ((1 + u : ℝ) : ℂ)
  sub x y := (x - y) * ((1 + u : ℝ) : ℂ)
  mul x y := x * y * ((1 + u : ℝ) : ℂ)
  div x y := x / y * ((1 + u : ℝ) : ℂ)
  sin x := Complex.sin x * ((1 + u : ℝ) : ℂ)
  cos x := Complex.cos x * ((1 + u : ℝ) : ℂ)
  exp x := Complex.exp x * ((1 + u : ℝ) : ℂ)
  arcsin x := npArcsin x * ((1 + u : ℝ) : ℂ)
  abs x := ‖x‖ * (1 + u)
  angle x := npAngle false x * (1 + u)
  arctan x := Real.arctan x * (1 + u)
  radd x y := (x + y) * (1 + u)
  rsub x y := (x - y) * (1 + u)
  rmul x y := x * y * (1 + u)
  rdiv x y := x / y * (1 + u)
  pi := Real.pi * (1 + u)
  front n := n * (1 + u)
  index _ n := n * ((1 + u : ℝ) : ℂ)
  thick _ d := d * (1 + u)
  back n := n * ((1 + u : ℝ) : ℂ)

theorem scaled_within {u : ℝ} (hu : 0 ≤ u) : (Arith.scaled u).Within u := by
  have hc : ∀ z : ℂ, ‖z * ((1 + u : ℝ) : ℂ) - z‖ ≤ u * ‖z‖ := by
    intro z
    have : z * ((1 + u : ℝ) : ℂ) - z = (u : ℂ) * z := by push_cast; ring
    rw [this, norm_mul, Complex.norm_real, Real.norm_eq_abs, abs_of_nonneg hu]
  have hr : ∀ x : ℝ, |x * (1 + u) - x| ≤ u * |x| := by
    intro x
    have : x * (1 + u) - x = u * x := by ring
    rw [this, abs_mul, abs_of_nonneg hu]
  have him : ∀ x : ℝ, ((x : ℂ) * ((1 + u : ℝ) : ℂ)).im = 0 := by
    intro x
    rw [← Complex.ofReal_mul, Complex.ofReal_im]
  refine ⟨hu, fun _ _ => hc _, fun _ _ => hc _, fun _ _ => hc _, fun _ _ _ => hc _, fun _ => hc _,
    fun _ => hc _, fun _ => hc _, fun x y => ?_, fun x y => ?_, fun x => ?_, fun _ => hc _, fun x => ?_,
    fun x _ => ⟨false, hr _⟩, fun _ => hr _, fun _ _ => hr _, fun _ _ => hr _, fun _ _ => hr _,
    fun _ _ _ => hr _, ?_, fun _ => hr _, fun _ _ => hc _, fun _ => him,
    fun _ _ => hr _, fun _ => hc _, him⟩
  · change ((x : ℂ) * y * ((1 + u : ℝ) : ℂ)).im = 0
    rw [← Complex.ofReal_mul]; exact him _
  · change ((x : ℂ) / y * ((1 + u : ℝ) : ℂ)).im = 0
    rw [← Complex.ofReal_div]; exact him _
  · change (Complex.sin x * ((1 + u : ℝ) : ℂ)).im = 0
    rw [← Complex.ofReal_sin]; exact him _
  · have := hr ‖x‖
    rwa [abs_of_nonneg (norm_nonneg x)] at this
  · have := hr Real.pi
    rwa [abs_of_pos Real.pi_pos] at this

/-- The quarter wave film of `ExFilm` meets the hypotheses, in an arithmetic that rounds. -/
example : ∃ C u₀ ψ Δ : ℝ, 0 < u₀ ∧ ∀ u, 0 ≤ u → u ≤ u₀ → ∃ ψ' Δ' : ℝ,
    (Arith.scaled u).deltaPsi 1 [(((39 / 25 : ℝ) : ℂ), 1250)] ((15 / 7 : ℝ) : ℂ) filmAoi 480 0 true =
      .ok (some ψ', some Δ') ∧ |ψ' - ψ| ≤ C * u ∧ |Δ' - Δ| ≤ C * u := by
  obtain ⟨ψ, Δ, -, -, h⟩ := film_delta fun _ _ _ => false
  have hr : RowsOf filmRows ⟨((1 : ℝ) : ℂ), [((((39 / 25 : ℝ) : ℂ), (1250 : ℝ)))].map
      (fun f => (f.1, f.2 / 10)), ((15 / 7 : ℝ) : ℂ)⟩ := by
    have e : [((((39 / 25 : ℝ) : ℂ), (1250 : ℝ)))].map (fun f => (f.1, f.2 / 10)) =
        [(((39 / 25 : ℝ) : ℂ), 125)] := by simp; norm_num
    rw [e]
    exact filmRows_of
  have hsin : (1 : ℝ) * Real.sin (rad filmAoi) = 3 / 5 := by
    rw [film_rad, Real.sin_arcsin] <;> norm_num
  obtain ⟨C, u₀, h0, H⟩ := C148_psi_delta_partial (n₀ := 1) one_ne_zero
    (by intro f hf; simp only [List.mem_singleton] at hf; subst hf; norm_num)
    (by norm_num) (by norm_num) hr (by
      intro n hn
      rw [hsin]
      right
      simp only [List.map_cons, List.map_nil, List.cons_append, List.nil_append, List.mem_cons,
        List.not_mem_nil, or_false] at hn
      rcases hn with rfl | rfl | rfl <;> simp only [Complex.ofReal_re] <;>
        rw [abs_of_pos (by norm_num), abs_of_pos (by norm_num)] <;> norm_num) (h 0).2
  refine ⟨C, u₀, ψ, 360 - Δ, h0, fun u hu hle => ?_⟩
  obtain ⟨ψ', Δ', k, h1, h2, h3, h4, -⟩ := H _ u (scaled_within hu) hle
  refine ⟨ψ', Δ', h1, h2, ?_⟩
  rw [h4 rfl] at h3
  simpa using h3

/-! ### At the critical angle -/

/-- Exact but for a sine that is a little small. -/
noncomputable def Arith.lowSine (σ : Bool) (u : ℝ) : Arith :=
  { Arith.exact σ with sin := fun x => Complex.sin x * ((1 - u : ℝ) : ℂ) }

theorem lowSine_within (σ : Bool) {u : ℝ} (hu : 0 ≤ u) : (Arith.lowSine σ u).Within u := by
  have hc : ∀ z : ℂ, ‖z - z‖ ≤ u * ‖z‖ := fun z => by rw [sub_self, norm_zero]; positivity
  have hr : ∀ x : ℝ, |x - x| ≤ u * |x| := fun x => by rw [sub_self, abs_zero]; positivity
  refine ⟨hu, fun _ _ => hc _, fun _ _ => hc _, fun _ _ => hc _, fun _ _ _ => hc _, fun z => ?_,
    fun _ => hc _, fun _ => hc _, fun x y => ?_, fun x y => ?_, fun x => ?_, fun _ => hc _, fun x => ?_,
    fun x _ => ⟨σ, hr _⟩, fun _ => hr _, fun _ _ => hr _, fun _ _ => hr _, fun _ _ => hr _,
    fun _ _ _ => hr _, ?_, fun _ => hr _, fun _ _ => hc _, fun _ n => Complex.ofReal_im n,
    fun _ _ => hr _, fun _ => hc _, fun n => Complex.ofReal_im n⟩
  · change ‖Complex.sin z * ((1 - u : ℝ) : ℂ) - Complex.sin z‖ ≤ _
    have : Complex.sin z * ((1 - u : ℝ) : ℂ) - Complex.sin z = -(u : ℂ) * Complex.sin z := by push_cast; ring
    rw [this, norm_mul, norm_neg, Complex.norm_real, Real.norm_eq_abs, abs_of_nonneg hu]
  · change ((x : ℂ) * y).im = 0
    rw [← Complex.ofReal_mul, Complex.ofReal_im]
  · change ((x : ℂ) / y).im = 0
    rw [← Complex.ofReal_div, Complex.ofReal_im]
  · change (Complex.sin x * ((1 - u : ℝ) : ℂ)).im = 0
    rw [← Complex.ofReal_sin, ← Complex.ofReal_mul, Complex.ofReal_im]
  · have := hr ‖x‖
    rwa [abs_of_nonneg (norm_nonneg x)] at this
  · have := hr Real.pi
    rwa [abs_of_pos Real.pi_pos] at this

theorem solve_bare {r t : ℂ} (hr : (Arith.exact σ).rC pol x y = some r)
    (ht : (Arith.exact σ).tC pol x y = some t) (h0 : t ≠ 0) :
    ∃ t', (Arith.exact σ).solve pol x y [] = some (r, t') := by
  have h1 : (1 / t : ℂ) ≠ 0 := one_div_ne_zero h0
  refine ⟨1 / (1 / t), ?_⟩
  simp only [Arith.solve, hr, ht, Arith.initMat, Arith.loop, exact_cdiv, cdiv_of_ne h0, cdiv_of_ne h1,
    Option.bind_eq_bind, Option.bind_some]
  rw [div_div_div_cancel_right₀ h0, div_one]

/-- From a medium of index 2 onto one of index 1, with the sine `s / 2` of the angle. -/
theorem crit_amps (σ : Bool) {s : ℝ} (h0 : 0 ≤ s) (h1 : s ≤ 1) {b c : ℝ} (hb : b = Real.sqrt (1 - (s / 2) ^ 2))
    (hc : c = Real.sqrt (1 - s ^ 2)) :
    ∃ ts tp, (Arith.exact σ).polResult .s (s : ℂ) 500 2 [] 1 =
        some ((((2 * b - c) / (2 * b + c) : ℝ) : ℂ), ts) ∧
      (Arith.exact σ).polResult .p (s : ℂ) 500 2 [] 1 = some ((((b - 2 * c) / (b + 2 * c) : ℝ) : ℂ), tp) := by
  have hb0 : 0 < b := by rw [hb]; apply Real.sqrt_pos.mpr; nlinarith
  have hc0 : 0 ≤ c := by rw [hc]; exact Real.sqrt_nonneg _
  have e1 : Complex.cos (npArcsin ((s : ℂ) / ((2 : ℝ) : ℂ))) = (b : ℂ) := by
    rw [cos_npArcsin, ← Complex.ofReal_div, root1m_ofReal_le (by rw [abs_le]; constructor <;> linarith), hb]
  have e2 : Complex.cos (npArcsin ((s : ℂ) / 1)) = (c : ℂ) := by
    rw [cos_npArcsin, div_one, root1m_ofReal_le (by rw [abs_le]; constructor <;> linarith), hc]
  have n2 : ((2 : ℝ) : ℂ) ≠ 0 := by norm_num
  have d1 : (2 * b + c : ℝ) ≠ 0 := by positivity
  have d2 : (b + 2 * c : ℝ) ≠ 0 := by positivity
  have d1' : ((2 : ℝ) : ℂ) * b + 1 * c ≠ 0 := by
    rw [one_mul]; exact_mod_cast d1
  have d2' : (1 : ℂ) * b + ((2 : ℝ) : ℂ) * c ≠ 0 := by
    rw [one_mul]; exact_mod_cast d2
  have hbc : (b : ℂ) ≠ 0 := Complex.ofReal_ne_zero.mpr hb0.ne'
  have hnum : (2 : ℂ) * ((2 : ℝ) : ℂ) * b ≠ 0 := mul_ne_zero (mul_ne_zero two_ne_zero n2) hbc
  obtain ⟨X, hX⟩ : ∃ X : Arith.Med, X = ⟨((2 : ℝ) : ℂ), npArcsin ((s : ℂ) / ((2 : ℝ) : ℂ)), 0⟩ := ⟨_, rfl⟩
  obtain ⟨Y, hY⟩ : ∃ Y : Arith.Med, Y = ⟨1, npArcsin ((s : ℂ) / 1), 0⟩ := ⟨_, rfl⟩
  have hpr : ∀ pol, (Arith.exact σ).polResult pol (s : ℂ) 500 2 [] 1 = (Arith.exact σ).solve pol X Y [] := by
    intro pol
    simp only [Arith.polResult, Arith.half, Arith.meds, exact_cdiv, exact_front, exact_back, cdiv_of_ne n2, cdiv_of_ne one_ne_zero,
      Option.bind_eq_bind, Option.bind_some, List.nil_append]
    rw [hX, hY]
    rfl
  have hXn : X.n = ((2 : ℝ) : ℂ) := by rw [hX]
  have hYn : Y.n = 1 := by rw [hY]
  have hXc : (Arith.exact σ).cos X.th = b := by rw [hX]; exact e1
  have hYc : (Arith.exact σ).cos Y.th = c := by rw [hY]; exact e2
  have r1 : (Arith.exact σ).rC .s X Y = some (((2 * b - c) / (2 * b + c) : ℝ) : ℂ) := by
    simp only [Arith.rC, hXn, hYn, hXc, hYc, exact_cdiv]
    change cdiv (((2 : ℝ) : ℂ) * b - 1 * c) (((2 : ℝ) : ℂ) * b + 1 * c) = _
    rw [cdiv_of_ne d1']
    push_cast
    simp only [one_mul]
  have t1 : (Arith.exact σ).tC .s X Y = some (2 * ((2 : ℝ) : ℂ) * b / (((2 : ℝ) : ℂ) * b + 1 * c)) := by
    simp only [Arith.tC, hXn, hYn, hXc, hYc, exact_cdiv]
    change cdiv (2 * ((2 : ℝ) : ℂ) * b) (((2 : ℝ) : ℂ) * b + 1 * c) = _
    rw [cdiv_of_ne d1']
  have r2 : (Arith.exact σ).rC .p X Y = some (((b - 2 * c) / (b + 2 * c) : ℝ) : ℂ) := by
    simp only [Arith.rC, hXn, hYn, hXc, hYc, exact_cdiv]
    change cdiv ((1 : ℂ) * b - ((2 : ℝ) : ℂ) * c) ((1 : ℂ) * b + ((2 : ℝ) : ℂ) * c) = _
    rw [cdiv_of_ne d2']
    push_cast
    simp only [one_mul]
  have t2 : (Arith.exact σ).tC .p X Y = some (2 * ((2 : ℝ) : ℂ) * b / ((1 : ℂ) * b + ((2 : ℝ) : ℂ) * c)) := by
    simp only [Arith.tC, hXn, hYn, hXc, hYc, exact_cdiv]
    change cdiv (2 * ((2 : ℝ) : ℂ) * b) ((1 : ℂ) * b + ((2 : ℝ) : ℂ) * c) = _
    rw [cdiv_of_ne d2']
  obtain ⟨ts, hs⟩ := solve_bare r1 t1 (div_ne_zero hnum d1')
  obtain ⟨tp, hp⟩ := solve_bare r2 t2 (div_ne_zero hnum d2')
  exact ⟨ts, tp, by rw [hpr, hs], by rw [hpr, hp]⟩

theorem crit_bounds {u : ℝ} (h0 : 0 ≤ u) (h1 : u ≤ 1 / 100) {b c : ℝ}
    (hb : b = Real.sqrt (1 - ((1 - u) / 2) ^ 2)) (hc : c = Real.sqrt (1 - (1 - u) ^ 2)) :
    4 / 5 ≤ b ∧ b ≤ 1 ∧ 0 ≤ c ∧ c ≤ 1 / 5 ∧ c ^ 2 = 2 * u - u ^ 2 := by
  refine ⟨?_, ?_, ?_, ?_, ?_⟩
  · rw [hb]; apply Real.le_sqrt_of_sq_le; nlinarith
  · rw [hb]; apply Real.sqrt_le_one.mpr; nlinarith
  · rw [hc]; exact Real.sqrt_nonneg _
  · rw [hc]
    apply Real.sqrt_le_iff.mpr
    constructor <;> nlinarith
  · rw [hc, Real.sq_sqrt (by nlinarith)]
    ring

/-- psi there. -/
theorem crit_psi (σ : Bool) {u : ℝ} (h0 : 0 ≤ u) (h1 : u ≤ 1 / 100) {b c : ℝ}
    (hb : b = Real.sqrt (1 - ((1 - u) / 2) ^ 2)) (hc : c = Real.sqrt (1 - (1 - u) ^ 2)) :
    ∃ Δ, (Arith.lowSine σ u).deltaPsi 2 [] 1 30 500 0 false =
      .ok (some (Real.arctan ((b - 2 * c) / (b + 2 * c) / ((2 * b - c) / (2 * b + c))) * (180 / Real.pi)),
        some Δ) := by
  obtain ⟨b1, b2, c1, c2, c3⟩ := crit_bounds h0 h1 hb hc
  obtain ⟨ts, tp, hs, hp⟩ := crit_amps σ (s := 1 - u) (by linarith) (by linarith) hb hc
  have hS : (Arith.lowSine σ u).mul ((Arith.lowSine σ u).front 2 : ℝ) ((Arith.lowSine σ u).sin ((Arith.lowSine σ u).rmul 30
      ((Arith.lowSine σ u).rdiv (Arith.lowSine σ u).pi 180) : ℝ)) = ((1 - u : ℝ) : ℂ) := by
    change ((2 : ℝ) : ℂ) * (Complex.sin ((30 * (Real.pi / 180) : ℝ) : ℂ) * ((1 - u : ℝ) : ℂ)) = _
    rw [← Complex.ofReal_sin, show (30 * (Real.pi / 180) : ℝ) = Real.pi / 6 by ring, Real.sin_pi_div_six]
    push_cast
    ring
  have hpol : ∀ pol, (Arith.lowSine σ u).polResult pol ((1 - u : ℝ) : ℂ) 500 2 [] 1 =
      (Arith.exact σ).polResult pol ((1 - u : ℝ) : ℂ) 500 2 [] 1 := fun pol => by cases pol <;> rfl
  have htol : |(((1 - u : ℝ) : ℂ)).im| < assertTol := by
    rw [Complex.ofReal_im, abs_zero]; unfold assertTol; positivity
  have prs : 0 < (2 * b - c) / (2 * b + c) := div_pos (by linarith) (by linarith)
  have prp : 0 < (b - 2 * c) / (b + 2 * c) := div_pos (by linarith) (by linarith)
  generalize (2 * b - c) / (2 * b + c) = rs at *
  generalize (b - 2 * c) / (b + 2 * c) = rp at *
  have nrs : (rs : ℂ) ≠ 0 := Complex.ofReal_ne_zero.mpr prs.ne'
  have nrp : (rp : ℂ) ≠ 0 := Complex.ofReal_ne_zero.mpr prp.ne'
  have nx : (Arith.lowSine σ u).div (-(rp : ℂ)) rs ≠ 0 := div_ne_zero (neg_ne_zero.mpr nrp) nrs
  simp only [Arith.deltaPsi]
  rw [hS, if_pos htol, hpol, hpol, hs, hp]
  simp only [Arith.psiDelta, if_neg nrs, Arith.cdiv, if_neg nx, Option.bind_eq_bind, Option.bind_some]
  have e : (Arith.lowSine σ u).rmul ((Arith.lowSine σ u).arctan ((Arith.lowSine σ u).abs
      ((Arith.lowSine σ u).div (rp : ℂ) rs))) ((Arith.lowSine σ u).rdiv 180 (Arith.lowSine σ u).pi) =
      Real.arctan (rp / rs) * (180 / Real.pi) := by
    change Real.arctan ‖(rp : ℂ) / rs‖ * (180 / Real.pi) = _
    rw [← Complex.ofReal_div, Complex.norm_real, Real.norm_eq_abs, abs_of_pos (div_pos prp prs)]
  rw [e]
  exact ⟨_, rfl⟩

theorem arctan_ge_half {c : ℝ} (h0 : 0 ≤ c) (h1 : c ≤ 1) : c / 2 ≤ Real.arctan c := by
  have h2 : Real.sin (Real.arctan c) ≤ Real.arctan c :=
    Real.sin_le (by rw [← Real.arctan_zero]; exact Real.arctan_mono h0)
  rw [Real.sin_arctan] at h2
  refine le_trans ?_ h2
  apply div_le_div_of_nonneg_left h0 (by positivity)
  apply Real.sqrt_le_iff.mpr
  constructor <;> nlinarith

/-- psi is too low by more than any multiple of `u`. -/
theorem crit_low (σ : Bool) (C : ℝ) {u₀ : ℝ} (hu0 : 0 < u₀) : ∃ u : ℝ, 0 ≤ u ∧ u ≤ u₀ ∧ ∃ ψ' Δ',
    (Arith.lowSine σ u).deltaPsi 2 [] 1 30 500 0 false = .ok (some ψ', some Δ') ∧ C * u < 45 - ψ' := by
  have hpi := Real.pi_pos
  obtain ⟨u, hu⟩ : ∃ u : ℝ, u = min u₀ (min (1 / 100) ((1 / (2 * (|C| + 1))) ^ 2)) := ⟨_, rfl⟩
  have hC := abs_nonneg C
  have up : 0 < u := by
    rw [hu]
    refine lt_min hu0 (lt_min (by norm_num) (by positivity))
  have u1 : u ≤ 1 / 100 := by rw [hu]; exact (min_le_right _ _).trans (min_le_left _ _)
  have u2 : u ≤ (1 / (2 * (|C| + 1))) ^ 2 := by rw [hu]; exact (min_le_right _ _).trans (min_le_right _ _)
  obtain ⟨b, hb⟩ : ∃ b : ℝ, b = Real.sqrt (1 - ((1 - u) / 2) ^ 2) := ⟨_, rfl⟩
  obtain ⟨c, hc⟩ : ∃ c : ℝ, c = Real.sqrt (1 - (1 - u) ^ 2) := ⟨_, rfl⟩
  obtain ⟨Δ, h⟩ := crit_psi σ up.le u1 hb hc
  obtain ⟨b1, b2, c1, c2, c3⟩ := crit_bounds up.le u1 hb hc
  refine ⟨u, up.le, by rw [hu]; exact min_le_left _ _, _, _, h, ?_⟩
  have hr : (b - 2 * c) / (b + 2 * c) / ((2 * b - c) / (2 * b + c)) ≤ (1 - c) / (1 + c) := by
    rw [div_div_div_eq, div_le_div_iff₀ (mul_pos (by linarith) (by linarith)) (by linarith)]
    have : 0 ≤ c * (6 * b - 4 * b ^ 2 + 4 * c ^ 2) := mul_nonneg c1 (by nlinarith)
    nlinarith
  have hm := Real.arctan_mono hr
  have hadd : Real.arctan ((1 - c) / (1 + c)) + Real.arctan c = Real.pi / 4 := by
    rw [Real.arctan_add, ← Real.arctan_one]
    · congr 1
      have : (1 + c) ≠ 0 := by linarith
      have h3 : 1 - (1 - c) / (1 + c) * c ≠ 0 := by
        have : 1 - (1 - c) / (1 + c) * c = (1 + c ^ 2) / (1 + c) := by field_simp; ring
        rw [this]; positivity
      rw [div_eq_one_iff_eq h3]
      field_simp
      ring
    · rw [div_mul_eq_mul_div, div_lt_one (by linarith)]
      nlinarith
  have ha := arctan_ge_half c1 (by linarith)
  generalize (b - 2 * c) / (b + 2 * c) / ((2 * b - c) / (2 * b + c)) = r at *
  have h4 : Real.arctan r ≤ Real.pi / 4 - c / 2 := by linarith
  have h5 : Real.arctan r * (180 / Real.pi) ≤ (Real.pi / 4 - c / 2) * (180 / Real.pi) :=
    mul_le_mul_of_nonneg_right h4 (by positivity)
  have h6 : (Real.pi / 4 - c / 2) * (180 / Real.pi) = 45 - 90 * c / Real.pi := by field_simp; ring
  have h7 : c ≤ 90 * c / Real.pi := by
    rw [le_div_iff₀ hpi]
    nlinarith [Real.pi_le_four]
  have h8 : c ≤ 45 - Real.arctan r * (180 / Real.pi) := by linarith
  refine lt_of_lt_of_le ?_ h8
  have hsu : Real.sqrt u ≤ 1 / (2 * (|C| + 1)) := Real.sqrt_le_iff.mpr ⟨by positivity, u2⟩
  have hcu : Real.sqrt u ≤ c := by
    rw [Real.sqrt_le_left c1]
    nlinarith
  have hs0 : 0 < Real.sqrt u := Real.sqrt_pos.mpr up
  have hsq : u = Real.sqrt u * Real.sqrt u := (Real.mul_self_sqrt up.le).symm
  have h9 : (|C| + 1) * Real.sqrt u ≤ 1 / 2 := by
    calc (|C| + 1) * Real.sqrt u ≤ (|C| + 1) * (1 / (2 * (|C| + 1))) :=
          mul_le_mul_of_nonneg_left hsu (by positivity)
      _ = 1 / 2 := by field_simp
  have h10 : C * u ≤ (|C| + 1) * u := mul_le_mul_of_nonneg_right (by linarith [le_abs_self C]) up.le
  have h11 : (|C| + 1) * u ≤ 1 / 2 * Real.sqrt u := by
    calc (|C| + 1) * u = (|C| + 1) * Real.sqrt u * Real.sqrt u := by rw [mul_assoc, ← hsq]
      _ ≤ 1 / 2 * Real.sqrt u := mul_le_mul_of_nonneg_right h9 hs0.le
  linarith

/-- C148. The multiple of the roundoff does not exist at a critical angle: from a medium of index 2 onto one
of index 1 at 30 degrees psi is 45, and with a sine that is off by `u` it is off by more than any multiple
of `u`. -/
theorem C148_fails_critical (σ : Bool) :
    (∃ Δ, (Arith.exact σ).deltaPsi 2 [] 1 30 500 0 false = .ok (some 45, some Δ)) ∧
    ∀ C u₀ : ℝ, 0 < u₀ → ∃ (A : Arith) (u : ℝ), A.Within u ∧ u ≤ u₀ ∧ ∃ ψ' Δ',
      A.deltaPsi 2 [] 1 30 500 0 false = .ok (some ψ', some Δ') ∧ C * u < |ψ' - 45| := by
  have hpi := Real.pi_pos
  constructor
  · obtain ⟨Δ, h⟩ := crit_psi σ (u := 0) le_rfl (by norm_num) rfl rfl
    have e : Arith.lowSine σ 0 = Arith.exact σ := by
      simp [Arith.lowSine, Arith.exact]
    rw [e] at h
    refine ⟨Δ, ?_⟩
    rw [h]
    obtain ⟨b1, -⟩ := crit_bounds (u := 0) le_rfl (by norm_num) rfl rfl
    generalize Real.sqrt (1 - ((1 - 0) / 2) ^ 2) = b at b1
    have e2 : Real.sqrt (1 - (1 - 0) ^ 2) = 0 := by norm_num
    rw [e2]
    have hb0 : b ≠ 0 := by linarith
    have e3 : (b - 2 * 0) / (b + 2 * 0) / ((2 * b - 0) / (2 * b + 0)) = 1 := by
      field_simp
      simp
    rw [e3, Real.arctan_one]
    congr 3
    field_simp
    norm_num
  · intro C u₀ hu0
    obtain ⟨u, h0, h1, ψ', Δ', h2, h3⟩ := crit_low σ C hu0
    refine ⟨_, u, lowSine_within σ h0, h1, ψ', Δ', h2, h3.trans_le ?_⟩
    rw [abs_sub_comm]
    exact le_abs_self _

end Verif.TMM
