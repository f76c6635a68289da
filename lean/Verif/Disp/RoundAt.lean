import Verif.Disp.RoundGauss

/-! # Scatterers in the arithmetic of a machine (for C153) -/

namespace Verif.Disp

open Filter Topology Asymptotics EMA

/-- Materials whose index survives rounding at the wavelength `w`: tables are in the order of increasing wavelength
and have not two rows there, and no Tauc-Lorentz oscillator has `C² = 2 Ei²` (where the code takes the root of
zero). -/
def Plain (w : ℝ) : Scat → Prop
  | .const .. | .cauchy .. | .sellmeier .. | .lorentz .. | .gauss .. => True
  | .table _ tab => Ordered w tab
  | .tauc _ osc _ _ => ∀ o ∈ osc, o.2.1 ^ 2 ≠ 2 * o.2.2 ^ 2
  | .other .. => False

/-- Materials without absorption at the wavelength `w`. -/
def Clear (w : ℝ) : Scat → Prop
  | .const _ _ k => k = 0
  | .table _ tab => ∀ r ∈ tab, r.2.2 = 0
  | .cauchy .. | .sellmeier .. => True
  | .lorentz _ osc _ => ∀ o ∈ osc, o.2.1 = 0
  | .tauc _ _ Eg _ => 1239.841984055 / w < Eg
  | .gauss .. | .other .. => False

theorem czero_of_le {x y : ℂ} {u : ℝ} (h : ‖x - y‖ ≤ u * ‖y‖) (hy : y = 0) : x = 0 := by
  rw [hy, sub_zero, norm_zero, mul_zero] at h
  exact norm_le_zero_iff.mp h

theorem csum_real {M : Mach} {u : ℝ} (hM : M.Within u) : ∀ (l : List (Option ℂ)) {acc v : ℂ}, acc.im = 0 →
    (∀ o ∈ l, ∀ x, o = some x → x.im = 0) → M.csum acc l = some v → v.im = 0
  | [], acc, v, ha, _, h => by
    obtain rfl : acc = v := by simpa [Mach.csum] using h
    exact ha
  | o :: l, acc, v, ha, hl, h => by
    simp only [Mach.csum, Option.bind_eq_bind, Option.bind_eq_some_iff] at h
    obtain ⟨x, rfl, h⟩ := h
    refine csum_real hM l ?_ (fun o ho => hl o (List.mem_cons_of_mem _ ho)) h
    have hx := hl _ List.mem_cons_self x rfl
    rw [ofReal_of_im ha, ofReal_of_im hx]
    exact hM.add_real _ _

theorem rsum_zero {M : Mach} {u : ℝ} (hM : M.Within u) : ∀ (l : List (Option ℝ)) {v : ℝ},
    (∀ o ∈ l, ∀ x, o = some x → x = 0) → M.rsum 0 l = some v → v = 0
  | [], v, _, h => by
    obtain rfl : 0 = v := by simpa [Mach.rsum] using h
    rfl
  | o :: l, v, hl, h => by
    simp only [Mach.rsum, Option.bind_eq_bind, Option.bind_eq_some_iff] at h
    obtain ⟨x, rfl, h⟩ := h
    obtain rfl := hl _ List.mem_cons_self x rfl
    rw [zero_of_le (hM.radd 0 0) (by simp)] at h
    exact rsum_zero hM l (fun o ho => hl o (List.mem_cons_of_mem _ ho)) h

theorem lorentzEps_real {M : Mach} {u : ℝ} (hM : M.Within u) {osc : List (ℝ × ℝ × ℝ)} (h0 : ∀ o ∈ osc, o.2.1 = 0)
    {einf e : ℝ} {v : ℂ} (h : M.lorentzEps osc einf e = some v) : v.im = 0 := by
  simp only [Mach.lorentzEps, Option.bind_eq_bind, Option.bind_eq_some_iff, Option.pure_def, Option.some.injEq] at h
  obtain ⟨s, hs, rfl⟩ := h
  have : s.im = 0 := by
    refine csum_real hM _ (by simp) ?_ hs
    intro o ho x hx
    obtain ⟨⟨A, B, E⟩, ho', rfl⟩ := List.mem_map.mp ho
    obtain rfl : B = 0 := h0 _ ho'
    simp only [Mach.lorentzTerm, Mach.cquot] at hx
    split_ifs at hx with hd
    have e1 : M.mul Complex.I (0 : ℝ) = 0 := czero_of_le (hM.mul _ _) (by simp)
    have e2 : M.mul 0 (e : ℂ) = 0 := czero_of_le (hM.mul _ _) (by simp)
    rw [e1, e2] at hx
    obtain rfl : _ = x := by simpa using hx
    have e3 := hM.sub_real (M.rsub (M.rpow E 2) (M.rpow e 2)) 0
    rw [Complex.ofReal_zero] at e3
    rw [ofReal_of_im e3]
    exact hM.div_real _ _
  rw [ofReal_of_im this]
  exact hM.add_real _ _

theorem tlEps_real {M : Mach} {u : ℝ} (hM : M.Within u) {osc : List (ℝ × ℝ × ℝ)} {Eg einf e : ℝ}
    (he : M.rsub e Eg < 0) {v : ℂ} (h : M.tlEps osc Eg einf e = some v) : v.im = 0 := by
  simp only [Mach.tlEps, Option.bind_eq_bind, Option.bind_eq_some_iff, Option.pure_def, Option.some.injEq] at h
  obtain ⟨a, -, b, hb, rfl⟩ := h
  refine rsum_zero hM _ ?_ hb
  intro o ho x hx
  obtain ⟨o, -, rfl⟩ := List.mem_map.mp ho
  simp only [Mach.tlE2, Option.bind_eq_bind, Option.bind_eq_some_iff, Option.pure_def, Option.some.injEq] at hx
  obtain ⟨q, -, rfl⟩ := hx
  exact zero_of_le (hM.rmul _ _) (by rw [heaviside, if_neg (not_lt.mpr he.le), mul_zero])

theorem sq_slit {z : ℂ} (h : 0 < z.re) : z ^ 2 ∈ Complex.slitPlane := by
  by_cases hi : z.im = 0
  · left
    rw [sq, Complex.mul_re, hi]
    nlinarith
  · right
    rw [sq, Complex.mul_im]
    intro e
    have : z.re * z.im = 0 := by linarith
    rcases mul_eq_zero.mp this with h1 | h1
    · exact h.ne' h1
    · exact hi h1

theorem npSqrt_sq' (σ : Bool) (z : ℂ) : npSqrt σ z ^ 2 = z := npSqrt_sq σ z

/-- The index computed with rounding: finite and near the exact one, and without imaginary part for a material
without absorption. -/
def NearAt (F : Mach × ℝ → Option ℂ) (n : ℂ) (clear : Prop) : Prop :=
  ∃ G, Near G n ∧ (∀ᶠ p in fine, F p = some (G p)) ∧ (clear → RealF G)

theorem near_root {F : Mach × ℝ → Option ℂ} {n ε : ℂ} (σ : Bool) (hn : n = npSqrt σ ε) (hr : 0 < n.re) (h : NearS F ε)
    {c : Prop} (hc : c → ∀ᶠ p in fine, ∀ v, F p = some v → v.im = 0) :
    NearAt (fun p => (F p).bind fun e => some (p.1.sqrt e)) n c := by
  obtain ⟨G, hG, e⟩ := h
  have hs : ε ∈ Complex.slitPlane := by
    have := sq_slit hr
    rwa [hn, npSqrt_sq'] at this
  refine ⟨_, hn ▸ hG.msqrt σ hs, ?_, fun h => ?_⟩
  · filter_upwards [e] with p hp
    rw [hp, Option.bind_some]
  · refine RealF.sqrt ?_ hG hs
    filter_upwards [e, hc h] with p hp h1
    exact h1 _ hp

theorem near_at (z : SqrtOracle) {s : Scat} {w : ℝ} (hp : Plain w s) {n : ℂ} (h : s.at z w = some n) (hr : 0 < n.re) :
    NearAt (fun p : Mach × ℝ => p.1.at' s w) n (Clear w s) := by
  match s, hp, h with
  | .const _ a k, _, h =>
    obtain rfl : (⟨a, k⟩ : ℂ) = n := by simpa [Scat.at] using h
    exact ⟨_, near_const _, Eventually.of_forall fun _ => rfl, fun h => Eventually.of_forall fun _ => h⟩
  | .table _ tab, hp, h =>
    simp only [Scat.at] at h
    split at h
    · next a b ha hb =>
      obtain rfl : (⟨a, b⟩ : ℂ) = n := by simpa using h
      have oA : Ordered w (tab.map fun r => (r.1, r.2.1)) := List.pairwise_map.mpr hp
      have oB : Ordered w (tab.map fun r => (r.1, r.2.2)) := List.pairwise_map.mpr hp
      obtain ⟨GA, nA, eA⟩ := near_interp oA ha
      obtain ⟨GB, nB, eB⟩ := near_interp oB hb
      simp only [List.map_map, Function.comp_def] at eA eB
      refine ⟨_, nA.mk nB, ?_, fun hc => ?_⟩
      · filter_upwards [eA, eB] with p h1 h2
        simp only [Mach.at', Option.bind_eq_bind, h1, h2, Option.bind_some, Option.pure_def]
      · filter_upwards [eB, fine_within, (tiny_tendsto (α := Mach)).eventually (gt_mem_nhds zero_lt_one)] with p h2 h3 h4
        refine machInterp_zero h3 h4 ?_ h2
        intro r hr
        obtain ⟨r', hr', rfl⟩ := List.mem_map.mp hr
        exact hc r' hr'
    · simp at h
  | .cauchy _ A B C, _, h =>
    simp only [Scat.at, Option.bind_eq_bind, Option.bind_eq_some_iff, Option.pure_def, Option.some.injEq] at h
    obtain ⟨b, hb, c, hc, rfl⟩ := h
    obtain ⟨hb0, rfl⟩ := rdiv_eq_some.mp hb
    obtain ⟨hc0, rfl⟩ := rdiv_eq_some.mp hc
    obtain ⟨F, nF, eF⟩ := ((near_const B).mrmul (near_const _)).mquot ((near_const w).mrpow 2) hb0
    obtain ⟨G, nG, eG⟩ := ((near_const C).mrmul (near_const _)).mquot ((near_const w).mrpow 4) hc0
    refine ⟨_, (((near_const A).mradd nF).mradd nG).ofReal, ?_, fun _ => RealF.ofReal _⟩
    filter_upwards [eF, eG] with p h1 h2
    simp only [Mach.at', Option.bind_eq_bind, h1, h2, Option.bind_some, Option.pure_def]
  | .sellmeier _ Am En P einf, _, h =>
    simp only [Scat.at, sellmeierReal, Option.bind_eq_bind, Option.bind_eq_some_iff, Option.pure_def, Option.some.injEq] at h
    obtain ⟨x, ⟨q, hq, rfl⟩, y, hx, rfl⟩ := h
    obtain ⟨hq0, rfl⟩ := rdiv_eq_some.mp hq
    obtain ⟨hx0, rfl⟩ := rsqrt_eq_some.mp hx
    rw [Complex.ofReal_re, Real.sqrt_pos] at hr
    have nx := (near_const w).mrmul (near_lit 1e-3)
    obtain ⟨F, nF, eF⟩ := ((near_const Am).mrmul (nx.mrpow 2)).mquot ((nx.mrpow 2).mrsub ((near_const En).mrpow 2)) hq0
    obtain ⟨G, nG, eG⟩ := (((near_const einf).mradd nF).mrsub ((near_const P).mrmul (nx.mrpow 2))).mroot hr
    refine ⟨_, nG.ofReal, ?_, fun _ => RealF.ofReal _⟩
    filter_upwards [eF, eG] with p h1 h2
    simp only [Mach.at', Option.bind_eq_bind, h1, h2, Option.bind_some, Option.pure_def]
  | .lorentz _ osc einf, _, h =>
    simp only [Scat.at, Scat.epsilon, nmEV, Option.bind_eq_bind, Option.bind_eq_some_iff, Option.pure_def, Option.some.injEq] at h
    obtain ⟨e, he, ε, hε, hn⟩ := h
    obtain ⟨he0, rfl⟩ := rdiv_eq_some.mp he
    obtain ⟨E, nE, eE⟩ := (near_lit 1239.841984055).mquot (near_const w) he0
    have := near_root _ hn.symm hr (near_lorentzEps nE hε) (c := Clear w (.lorentz 0 osc einf)) fun hc => by
      filter_upwards [fine_within] with p hp v hv
      exact lorentzEps_real hp hc hv
    obtain ⟨G, nG, eG, rG⟩ := this
    refine ⟨G, nG, ?_, rG⟩
    filter_upwards [eE, eG] with p h1 h2
    simp only [Mach.at', Option.bind_eq_bind, h1, h2, Option.bind_some, Option.pure_def]
  | .tauc _ osc Eg einf, hp, h =>
    simp only [Scat.at, Scat.epsilon, nmEV, Option.bind_eq_bind, Option.bind_eq_some_iff, Option.pure_def, Option.some.injEq] at h
    obtain ⟨e, he, ε, hε, hn⟩ := h
    obtain ⟨he0, rfl⟩ := rdiv_eq_some.mp he
    obtain ⟨E, nE, eE⟩ := (near_lit 1239.841984055).mquot (near_const w) he0
    have := near_root _ hn.symm hr (near_tlEps nE hp hε) (c := Clear w (.tauc 0 osc Eg einf)) fun hc => by
      have := (nE.mrsub (near_const Eg)).tendsto.eventually (gt_mem_nhds (sub_neg.mpr hc))
      filter_upwards [fine_within, this] with p hp h1 v hv
      exact tlEps_real hp h1 hv
    obtain ⟨G, nG, eG, rG⟩ := this
    refine ⟨G, nG, ?_, rG⟩
    filter_upwards [eE, eG] with p h1 h2
    simp only [Mach.at', Option.bind_eq_bind, h1, h2, Option.bind_some, Option.pure_def]
  | .gauss _ osc einf, _, h =>
    simp only [Scat.at, Scat.epsilon, nmEV, Option.bind_eq_bind, Option.bind_eq_some_iff, Option.pure_def, Option.some.injEq] at h
    obtain ⟨e, he, ε, hε, hn⟩ := h
    obtain ⟨he0, rfl⟩ := rdiv_eq_some.mp he
    obtain ⟨E, nE, eE⟩ := (near_lit 1239.841984055).mquot (near_const w) he0
    have := near_root _ hn.symm hr (near_gaussEps nE hε) (c := Clear w (.gauss 0 osc einf)) fun hc => hc.elim
    obtain ⟨G, nG, eG, rG⟩ := this
    refine ⟨G, nG, ?_, rG⟩
    filter_upwards [eE, eG] with p h1 h2
    simp only [Mach.at', Option.bind_eq_bind, h1, h2, Option.bind_some, Option.pure_def]

end Verif.Disp
