import Verif.Disp.PropsRoundIndex
import Verif.Disp.PropsStatic

/-! # C153: Gauss oscillators in the arithmetic of a machine -/

namespace Verif.Disp

open EMA

theorem gaussEps_im_pos {osc : List (ℝ × ℝ × ℝ)} {einf e : ℝ} {v : ℂ} (hosc : ∀ o ∈ osc, 0 ≤ o.1 ∧ 0 ≤ o.2.2)
    (hp : ∃ o ∈ osc, 0 < o.1 ∧ o.2.1 ≠ 0 ∧ 0 < o.2.2) (he : 0 < e) (h : gaussEps osc einf e = some v) : 0 < v.im := by
  obtain ⟨y1, y2, -, h2, -, h4⟩ := gaussEps_some h
  have hpos : ∀ {j : ℕ}, j < 2048 → 1024 ≤ j → 0 < y2 j := fun hj hj' => e2_pos hosc hp h2 hj hj'
  rcases grid_cases e with hc | hc | ⟨j, hj, ha, hb⟩
  · linarith
  · rw [gridInterp_high y2 hc, Option.some.injEq] at h4
    exact h4 ▸ hpos (by norm_num) (by norm_num)
  · rw [gridInterp_seg y2 hj ha hb, Option.some.injEq] at h4
    rw [← h4]
    have hlt := ePad_mono (Nat.lt_succ_self j)
    have hd : 0 < ePad (j + 1) - ePad j := sub_pos.2 hlt
    have hr : lerp (ePad j) (y2 j) (ePad (j + 1)) (y2 (j + 1)) e =
        (y2 j * (ePad (j + 1) - e) + y2 (j + 1) * (e - ePad j)) / (ePad (j + 1) - ePad j) := by
      unfold lerp
      field_simp
      ring
    rw [hr]
    refine div_pos ?_ hd
    have h1 : 1023 ≤ j := by
      by_contra hlt'
      have : ((j : ℕ) : ℝ) + 1 ≤ 1023 := by exact_mod_cast (by omega : j + 1 ≤ 1023)
      simp only [ePad] at hb
      push_cast at hb
      linarith
    rcases h1.lt_or_eq with h1 | rfl
    · have p1 := hpos (j := j) (by omega) (by omega)
      have p2 := hpos (j := j + 1) (by omega) (by omega)
      rcases ha.lt_or_eq with h3 | h3
      · have := mul_pos p2 (sub_pos.2 h3)
        have := mul_nonneg p1.le (sub_nonneg.2 hb)
        linarith
      · have := mul_pos p1 (sub_pos.2 (h3 ▸ hlt))
        have := mul_nonneg p2.le (sub_nonneg.2 ha)
        linarith
    · have h5 := e2_odd h2 1023 (by norm_num)
      have p2 := hpos (j := 1024) (by norm_num) le_rfl
      norm_num at h5
      have h6 : y2 1023 = -y2 1024 := by linarith
      have h7 : ePad 1023 = -(20 / 2047) := by norm_num [ePad]
      have h8 : ePad (1023 + 1) = 20 / 2047 := by norm_num [ePad]
      rw [h6, h7, h8]
      have := mul_pos p2 he
      norm_num
      linarith

theorem sqrt_passive {σ : Bool} {ε : ℂ} (h : 0 < ε.im) : PassiveRi (npSqrt σ ε) := by
  have h1 := npSqrt_sq σ ε
  have h2 := npSqrt_re_nonneg σ ε
  generalize npSqrt σ ε = n at h1 h2
  have h3 : ε.im = 2 * (n.re * n.im) := by rw [← h1, sq, Complex.mul_im]; ring
  have h4 : 0 < n.re := by
    refine lt_of_le_of_ne h2 fun e => ?_
    rw [← e] at h3
    linarith
  refine ⟨h4, ?_⟩
  by_contra h5
  push Not at h5
  nlinarith [mul_pos h4 (neg_pos.2 h5)]

/-- C153, `Gauss`: models with non-negative amplitudes and centres and with widths, one of which absorbs, are usable
at every wavelength, for the rule of Bruggeman if they are no metal there; so `C153_index_partial` and
`C153_psi_delta_partial` hold of them. -/
theorem C153_gauss (z : SqrtOracle) {wl einf w : ℝ} {osc : List (ℝ × ℝ × ℝ)} (hw : 0 < w)
    (hosc : ∀ o ∈ osc, 0 ≤ o.1 ∧ o.2.1 ≠ 0 ∧ 0 ≤ o.2.2) (hp : ∃ o ∈ osc, 0 < o.1 ∧ 0 < o.2.2) {ema : String}
    (hd : ema = "bruggeman" → ∀ n, (Scat.gauss wl osc einf).complex z (some w) = some n → Dielectric n) :
    Usable z ema w (.gauss wl osc einf) := by
  have hg : ∀ o ∈ osc, (gaussGrid o).isSome := fun o ho => gaussGrid_of_broad (hosc o ho).2.1
  obtain ⟨y1, h1⟩ := gaussSum_isSome (F := hilbert) hg
  obtain ⟨y2, h2⟩ := gaussSum_isSome (F := id) hg
  have some_interp : ∀ (y : ℕ → ℝ) (e : ℝ), ∃ v, gridInterp y e = some v := by
    intro y e
    rcases grid_cases e with hc | hc | ⟨j, hj, ha, hb⟩
    · exact ⟨_, gridInterp_low y hc⟩
    · exact ⟨_, gridInterp_high y hc⟩
    · exact ⟨_, gridInterp_seg y hj ha hb⟩
  have he : nmEV w = some (1239.841984055 / w) := by rw [nmEV, rdiv, if_neg hw.ne']
  obtain ⟨a, ha⟩ := some_interp (fun j => y1 j + einf) (1239.841984055 / w)
  obtain ⟨b, hb⟩ := some_interp y2 (1239.841984055 / w)
  have hε : gaussEps osc einf (1239.841984055 / w) = some ⟨a, b⟩ := by
    simp only [gaussEps, h1, h2, Option.bind_eq_bind, Option.bind_some, ha, hb, Option.pure_def]
  have him := gaussEps_im_pos (fun o ho => ⟨(hosc o ho).1, (hosc o ho).2.2⟩)
    (hp.imp fun o ho => ⟨ho.1, ho.2.1, (hosc o ho.1).2.1, ho.2.2⟩) (by positivity) hε
  have hat : ∃ n, (Scat.gauss wl osc einf).at z w = some n ∧ PassiveRi n := by
    simp only [Scat.at, Scat.epsilon, he, hε, Option.bind_eq_bind, Option.bind_some, Option.pure_def]
    exact ⟨_, rfl, sqrt_passive him⟩
  obtain ⟨n, hn, hpn⟩ := hat
  refine ⟨trivial, n, hn, hpn, fun e => hd e n ?_⟩
  simpa [Scat.complex, pickWav, hw.ne'] using hn

/-- Two oscillators at 500 nm, with a little air mixed in, in an arithmetic with roundoff. -/
example (z : SqrtOracle) (σ : ℂ → ℂ → ℝ → Bool × Bool) : ∃ (N : ℂ) (C u₀ : ℝ), 0 < u₀ ∧ ∀ u, 0 ≤ u → u ≤ u₀ → ∃ N',
    (Mixture.mix (.pure (.gauss 658 [(1, 1, 3), (2, 1 / 2, 5)] 2)) (.pure (.const 658 1 0)) (1 / 10)).machine
      (.up u) "linear" (1 / 3) 500 = some N' ∧ ‖N' - N‖ ≤ C * u := by
  obtain ⟨N, C, u₀, -, h0, H⟩ := C153_index_partial (z := z) σ (ema := "linear") (Or.inl rfl) (L := 1 / 3)
    (w := 500) ⟨by norm_num, by norm_num, fun h => by simp at h⟩
    (m := .mix (.pure (.gauss 658 [(1, 1, 3), (2, 1 / 2, 5)] 2)) (.pure (.const 658 1 0)) (1 / 10))
    ⟨C153_gauss z (by norm_num) (by simp) ⟨(1, 1, 3), by simp, by norm_num, by norm_num⟩ fun h => by simp at h,
      trivial, _, rfl, ⟨by norm_num, by norm_num⟩, fun h => by simp at h⟩
    ⟨trivial, trivial, by norm_num, by norm_num⟩
  refine ⟨N, C, u₀, h0, fun u hu hle => ?_⟩
  obtain ⟨N', e1, e2, -⟩ := H _ u (Mach.up_within hu) hle
  exact ⟨N', e1, e2⟩

end Verif.Disp
