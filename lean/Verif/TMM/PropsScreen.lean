import Verif.TMM.PropsSym
import Verif.TMM.PropsStack
import Verif.TMM.PropsEnergy
import Mathlib.Analysis.Real.Pi.Bounds
import Mathlib.Analysis.Complex.ExponentialBounds

/-! # An absorbing film hides what lies beneath it (C136) -/

namespace Verif.TMM

open Complex (I)
open scoped ComplexConjugate

/-! ### One film -/

theorem flux_lower (κ v w : ℂ) :
    κ.re * (‖v‖ ^ 2 - ‖w‖ ^ 2) - 2 * |κ.im| * (‖v‖ * ‖w‖) ≤ flux κ v w := by
  rw [flux_expand, Complex.normSq_eq_norm_sq, Complex.normSq_eq_norm_sq]
  have h : |(v * conj w).im| ≤ ‖v‖ * ‖w‖ := by
    refine (Complex.abs_im_le_norm _).trans ?_
    rw [norm_mul, RCLike.norm_conj]
  have h2 : |κ.im * (v * conj w).im| ≤ |κ.im| * (‖v‖ * ‖w‖) := by
    rw [abs_mul]
    exact mul_le_mul_of_nonneg_left h (abs_nonneg _)
  have := (abs_le.mp h2).1
  nlinarith

theorem flux_upper (κ v w : ℂ) :
    flux κ v w ≤ κ.re * (‖v‖ ^ 2 - ‖w‖ ^ 2) + 2 * |κ.im| * (‖v‖ * ‖w‖) := by
  rw [flux_expand, Complex.normSq_eq_norm_sq, Complex.normSq_eq_norm_sq]
  have h : |(v * conj w).im| ≤ ‖v‖ * ‖w‖ := by
    refine (Complex.abs_im_le_norm _).trans ?_
    rw [norm_mul, RCLike.norm_conj]
  have h2 : |κ.im * (v * conj w).im| ≤ |κ.im| * (‖v‖ * ‖w‖) := by
    rw [abs_mul]
    exact mul_le_mul_of_nonneg_left h (abs_nonneg _)
  have := (abs_le.mp h2).2
  nlinarith

/-- The largest ratio of the wave that comes back to the one that goes in, at a face of a film
through which no power comes back, if `|Im κ| ≤ g Re κ`. -/
noncomputable def maxBack (g : ℝ) : ℝ := g + Real.sqrt (1 + g ^ 2)

theorem maxBack_pos {g : ℝ} (hg : 0 ≤ g) : 0 < maxBack g := by
  unfold maxBack
  have : 0 < Real.sqrt (1 + g ^ 2) := Real.sqrt_pos.mpr (by positivity)
  linarith

theorem back_le {κ : ℂ} {g : ℝ} (hk : 0 < κ.re) (hi : |κ.im| ≤ g * κ.re) {v w : ℂ}
    (h : 0 ≤ flux κ v w) : ‖w‖ ≤ maxBack g * ‖v‖ := by
  have h1 := h.trans (flux_upper κ v w)
  have hv := norm_nonneg v
  have hw := norm_nonneg w
  have h2 : 0 ≤ κ.re * (‖v‖ ^ 2 - ‖w‖ ^ 2 + 2 * g * (‖v‖ * ‖w‖)) := by
    have := mul_le_mul_of_nonneg_right hi (mul_nonneg hv hw)
    nlinarith
  have h3 : 0 ≤ ‖v‖ ^ 2 - ‖w‖ ^ 2 + 2 * g * (‖v‖ * ‖w‖) := nonneg_of_mul_nonneg_right h2 hk
  have h4 : (‖w‖ - g * ‖v‖) ^ 2 ≤ (Real.sqrt (1 + g ^ 2) * ‖v‖) ^ 2 := by
    rw [mul_pow, Real.sq_sqrt (by positivity)]
    nlinarith
  have h5 := abs_le_of_sq_le_sq h4 (by positivity)
  unfold maxBack
  nlinarith [le_abs_self (‖w‖ - g * ‖v‖)]

/-- At the front face of a film that attenuates by `b`, if no power comes back at its back face. -/
theorem back_le_front {κ δ : ℂ} {g : ℝ} (hk : 0 < κ.re) (hi : |κ.im| ≤ g * κ.re) {v w : ℂ}
    (h : 0 ≤ flux κ (v * Complex.exp (I * δ)) (w * Complex.exp (-(I * δ)))) :
    ‖w‖ ≤ maxBack g * Real.exp (-(2 * δ.im)) * ‖v‖ := by
  have h1 := back_le hk hi h
  rw [norm_mul, norm_mul, Complex.norm_exp, Complex.norm_exp] at h1
  simp only [Complex.neg_re, Complex.mul_re, Complex.I_re, Complex.I_im, zero_mul, one_mul, zero_sub,
    neg_neg] at h1
  have e : Real.exp (-(2 * δ.im)) = Real.exp (-δ.im) * Real.exp (-δ.im) := by
    rw [← Real.exp_add]; ring_nf
  have e2 : Real.exp δ.im * Real.exp (-δ.im) = 1 := by rw [← Real.exp_add]; simp
  have h2 := mul_le_mul_of_nonneg_right h1 (Real.exp_nonneg (-δ.im))
  rw [e]
  calc ‖w‖ = ‖w‖ * Real.exp δ.im * Real.exp (-δ.im) := by rw [mul_assoc, e2, mul_one]
    _ ≤ _ := h2
    _ = _ := by ring

/-- The power entering the film limits the wave in it. -/
theorem front_le {κ : ℂ} {g σ q₀ : ℝ} (hg : 0 ≤ g) (hk : 0 < κ.re) (hi : |κ.im| ≤ g * κ.re) {v w : ℂ}
    (hw : ‖w‖ ≤ σ * ‖v‖) (h : flux κ v w ≤ q₀) :
    κ.re * (1 - σ ^ 2 - 2 * g * σ) * ‖v‖ ^ 2 ≤ q₀ := by
  refine le_trans ?_ ((flux_lower κ v w).trans h)
  have hv := norm_nonneg v
  have hw0 := norm_nonneg w
  have h1 : ‖w‖ ^ 2 ≤ (σ * ‖v‖) ^ 2 := pow_le_pow_left₀ hw0 hw 2
  have h2 : |κ.im| * (‖v‖ * ‖w‖) ≤ g * κ.re * (‖v‖ * (σ * ‖v‖)) :=
    mul_le_mul hi (mul_le_mul_of_nonneg_left hw hv) (by positivity) (by positivity)
  have h3 := mul_le_mul_of_nonneg_left h1 hk.le
  nlinarith

/-! ### Splitting a stack at a film -/

theorem fields_split {pol : Pol} {L : List Medium} (hL : L ≠ []) {f : Medium} {t : ℂ} {pre : List Medium} :
    ∀ {m : Medium} {v w : ℂ}, Fields pol m v w (pre ++ f :: L) t → ∃ x y, Through pol m v w pre f x y ∧
      Fields pol f (x * Complex.exp (I * f.δ)) (y * Complex.exp (-(I * f.δ))) L t := by
  induction pre with
  | nil =>
    intro m v w h
    rw [List.nil_append, fields_cons hL] at h
    exact h
  | cons a pre ih =>
    intro m v w h
    rw [List.cons_append, fields_cons (by simp)] at h
    obtain ⟨x, y, h1, h2⟩ := h
    obtain ⟨x', y', h3, h4⟩ := ih h2
    exact ⟨x', y', ⟨x, y, h1, h3⟩, h4⟩

theorem through_flux_le {pol : Pol} {ms : List Medium} {b : Medium} {v' w' : ℂ}
    (h : ∀ m ∈ ms, Damps pol m) : ∀ {m : Medium} {v w : ℂ},
    Through pol m v w ms b v' w' → flux (kap pol b) v' w' ≤ flux (kap pol m) v w := by
  induction ms with
  | nil => intro m v w hf; exact (flux_tangential hf).symm.le
  | cons a ms ih =>
    rintro m v w ⟨x, y, ht, hf⟩
    have h1 := ih (fun m hm => h m (List.mem_cons_of_mem _ hm)) hf
    rw [flux_tangential ht]
    exact h1.trans (flux_prop_le (h a List.mem_cons_self) _ _)

theorem norm_kap (pol : Pol) (m : Medium) : ‖kap pol m‖ = ‖m.n * m.c‖ := by
  cases pol <;> simp [kap]

/-- Two fields in the same front part of a stack. -/
theorem screen_core {pol : Pol} {m₀ f : Medium} {pre : List Medium} {q₀ g : ℝ} (hq₀ : 0 < q₀)
    (h₀ : kap pol m₀ = (q₀ : ℂ)) (hn₀ : m₀.n * m₀.c = (q₀ : ℂ)) (hg : 0 ≤ g) (hk : 0 < (kap pol f).re)
    (hi : |(kap pol f).im| ≤ g * (kap pol f).re) (hd : ∀ m ∈ pre, Damps pol m)
    {σ : ℝ} (hσ0 : 0 ≤ σ) (hσ : σ ^ 2 + 2 * g * σ < 1) {r r' v w v' w' : ℂ}
    (ht : Through pol m₀ 1 r pre f v w) (ht' : Through pol m₀ 1 r' pre f v' w')
    (hw : ‖w‖ ≤ σ * ‖v‖) (hw' : ‖w'‖ ≤ σ * ‖v'‖) :
    ‖r - r'‖ ≤ 2 * σ * Real.sqrt (1 + g ^ 2) / (1 - σ ^ 2 - 2 * g * σ) := by
  have hD : 0 < 1 - σ ^ 2 - 2 * g * σ := by linarith
  have hin : ∀ r : ℂ, flux (kap pol m₀) 1 r ≤ q₀ := by
    intro r
    rw [flux_expand, h₀]
    simp only [Complex.ofReal_re, Complex.ofReal_im, map_one, mul_zero, zero_mul, add_zero]
    nlinarith [Complex.normSq_nonneg r]
  have a := front_le hg hk hi hw ((through_flux_le hd ht).trans (hin r))
  have a' := front_le hg hk hi hw' ((through_flux_le hd ht').trans (hin r'))
  have hW := through_wronskian ht ht'
  rw [hn₀, one_mul, one_mul] at hW
  set k := (kap pol f).re with hkd
  set D := 1 - σ ^ 2 - 2 * g * σ with hDd
  have hQ : ‖f.n * f.c‖ ≤ Real.sqrt (1 + g ^ 2) * k := by
    rw [← norm_kap pol, Complex.norm_eq_sqrt_sq_add_sq]
    have : Real.sqrt (1 + g ^ 2) * k = Real.sqrt ((1 + g ^ 2) * k ^ 2) := by
      rw [Real.sqrt_mul (by positivity), Real.sqrt_sq hk.le]
    rw [this]
    apply Real.sqrt_le_sqrt
    have : (kap pol f).im ^ 2 ≤ (g * k) ^ 2 := by
      rw [← sq_abs]
      exact pow_le_pow_left₀ (abs_nonneg _) hi 2
    rw [← hkd]
    nlinarith
  have hkD : 0 < k * D := mul_pos hk hD
  have hvv : k * D * (‖v‖ * ‖v'‖) ≤ q₀ := by
    nlinarith [mul_nonneg hkD.le (sq_nonneg (‖v‖ - ‖v'‖))]
  have hcross : ‖v * w' - v' * w‖ ≤ 2 * σ * (‖v‖ * ‖v'‖) := by
    refine (norm_sub_le _ _).trans ?_
    rw [norm_mul, norm_mul]
    nlinarith [mul_le_mul_of_nonneg_left hw' (norm_nonneg v), mul_le_mul_of_nonneg_left hw (norm_nonneg v')]
  have hmain : q₀ * ‖r - r'‖ ≤ Real.sqrt (1 + g ^ 2) * k * (2 * σ * (‖v‖ * ‖v'‖)) := by
    have e := congrArg norm hW
    rw [norm_mul, norm_mul (f.n * f.c), Complex.norm_real, Real.norm_of_nonneg hq₀.le, norm_sub_rev] at e
    rw [e]
    exact mul_le_mul hQ hcross (norm_nonneg _) (by positivity)
  have hS : 0 ≤ 2 * σ * Real.sqrt (1 + g ^ 2) := by positivity
  rw [le_div_iff₀ hD]
  have h3 : q₀ * (‖r - r'‖ * D) ≤ q₀ * (2 * σ * Real.sqrt (1 + g ^ 2)) := by
    calc q₀ * (‖r - r'‖ * D) = q₀ * ‖r - r'‖ * D := by ring
      _ ≤ Real.sqrt (1 + g ^ 2) * k * (2 * σ * (‖v‖ * ‖v'‖)) * D := mul_le_mul_of_nonneg_right hmain hD.le
      _ = 2 * σ * Real.sqrt (1 + g ^ 2) * (k * D * (‖v‖ * ‖v'‖)) := by ring
      _ ≤ 2 * σ * Real.sqrt (1 + g ^ 2) * q₀ := mul_le_mul_of_nonneg_left hvv hS
      _ = _ := by ring
  exact le_of_mul_le_mul_left h3 hq₀

/-- The normal wave number `q` of a film (in units of that in vacuum), if it carries power into the film. -/
theorem q_eq {n q : ℂ} {s : ℝ} (hn : PassiveIndex n) (hq : q ^ 2 = n ^ 2 - (s : ℂ) ^ 2) (hre : 0 < q.re) :
    q = qOf s n := by
  rw [← qOf_sq s hn.ne_zero] at hq
  rcases sq_eq_sq_iff_eq_or_eq_neg.mp hq with h | h
  · exact h
  · have := (qOf_fwd hn s).re_nonneg
    rw [h, Complex.neg_re] at hre
    linarith

section
variable {n₀' n nb : ℂ} {d : ℝ} {pre post : List (ℂ × ℝ)} {n₀ θ lam : ℝ}

theorem film_split (h : Physical ⟨n₀', pre ++ (n, d) :: post, nb⟩ n₀ θ lam) {q : ℂ}
    (hq : q ^ 2 = n ^ 2 - (n₀ * Complex.sin θ) ^ 2) (hre : 0 < q.re) {pol : Pol} {r t : ℂ}
    (hs : solveSt pol ⟨n₀', pre ++ (n, d) :: post, nb⟩ θ lam = some (r, t)) :
    let f := codeMed (n₀' * Complex.sin θ) lam (n, d)
    0 < (kap pol f).re ∧ |(kap pol f).im| ≤ |q.im| / q.re * (kap pol f).re ∧
    (∀ m ∈ pre.map (codeMed (n₀' * Complex.sin θ) lam), Damps pol m) ∧
    ∃ v w, Through pol ⟨n₀', root1m (Complex.sin θ), 0⟩ 1 r (pre.map (codeMed (n₀' * Complex.sin θ) lam)) f v w ∧
      ‖w‖ ≤ (|q.im| / q.re + Real.sqrt (1 + (|q.im| / q.re) ^ 2)) *
        Real.exp (-(2 * min (2 * Real.pi * d / lam * q.im) 35)) * ‖v‖ := by
  intro f
  have hsr := h.sreal
  have hmem : (n, d) ∈ (⟨n₀', pre ++ (n, d) :: post, nb⟩ : Stack).films := by simp
  have hfm : f ∈ filmsM ⟨n₀', pre ++ (n, d) :: post, nb⟩ θ lam := List.mem_map.mpr ⟨(n, d), hmem, rfl⟩
  have hn := (h.films _ hmem).1
  have hqq : q = qOf (n₀ * Real.sin θ) n := q_eq hn (by rw [hq]; push_cast; rfl) hre
  have hdir := (h.film_dir f hfm).1
  have hdn : f.n = n := rfl
  obtain ⟨A, hA, hAre, hAim⟩ := kap_bound hdir pol
  rw [hdn, ← hqq] at hAre hAim
  have hk : 0 < (kap pol f).re := by
    rcases hA.lt_or_eq with hA | hA
    · rw [hAre]; positivity
    · have h0 : kap pol f = 0 := by
        apply Complex.ext
        · rw [hAre, ← hA, mul_zero]; rfl
        · rw [← hA, mul_zero] at hAim
          exact abs_eq_zero.mp (le_antisymm hAim (abs_nonneg _))
      have := norm_kap pol f
      rw [h0, norm_zero, eq_comm, norm_eq_zero] at this
      exact absurd this (h.film_dir f hfm).2
  have hi : |(kap pol f).im| ≤ |q.im| / q.re * (kap pol f).re := by
    rw [hAre]
    calc _ ≤ |q.im| * A := hAim
      _ = _ := by field_simp
  have hda := h.film_damps pol
  have hms : filmsM ⟨n₀', pre ++ (n, d) :: post, nb⟩ θ lam = pre.map (codeMed (n₀' * Complex.sin θ) lam) ++
      f :: post.map (codeMed (n₀' * Complex.sin θ) lam) := by
    simp [filmsM, f]
  rw [hms] at hda
  refine ⟨hk, hi, fun m hm => hda m (List.mem_append_left _ hm), ?_⟩
  rw [solveSt_eq, hms, List.append_assoc, List.cons_append] at hs
  obtain ⟨v, w, h1, h2⟩ := fields_split (by simp) (solveL_spec hs).1
  refine ⟨v, w, h1, ?_⟩
  have hfl := fields_flux_le (fun m hm => hda m (List.mem_append_right _ (List.mem_cons_of_mem _ hm))) h2
  rw [flux_forward] at hfl
  have h0 : 0 ≤ (kap pol (backM ⟨n₀', pre ++ (n, d) :: post, nb⟩ θ)).re * Complex.normSq t :=
    mul_nonneg (kap_re_nonneg h.back_dir pol) (Complex.normSq_nonneg _)
  have h3 := back_le_front hk hi (h0.trans hfl)
  have hδ : f.δ.im = min (2 * Real.pi * d / lam * q.im) 35 := by
    have := (h.film_phase hmem).1
    rw [show f.δ = _ from this, clip35, hqq]
    simp only [Complex.im_ofReal_mul]
  rw [hδ] at h3
  exact h3

/-- C136: what lies beneath an absorbing film cannot be seen.  Two stacks agree from the front down to a
film whose normal wave number is `q` (in units of the wave number in vacuum) and which attenuates by `b`, capped
at 35.  Whatever media lie beneath it, the reflection amplitudes differ by at most a multiple of `exp(-2 b)`
that depends on the ratio `g = Im q / Re q` only. -/
theorem C136_amplitudes {nb' : ℂ} {post' : List (ℂ × ℝ)}
    (h : Physical ⟨n₀', pre ++ (n, d) :: post, nb⟩ n₀ θ lam)
    (h' : Physical ⟨n₀', pre ++ (n, d) :: post', nb'⟩ n₀ θ lam) {q : ℂ}
    (hq : q ^ 2 = n ^ 2 - (n₀ * Complex.sin θ) ^ 2) (hre : 0 < q.re) {g σ : ℝ} (hg : g = |q.im| / q.re)
    (hσ : σ = (g + Real.sqrt (1 + g ^ 2)) * Real.exp (-(2 * min (2 * Real.pi * d / lam * q.im) 35)))
    (hsmall : σ ^ 2 + 2 * g * σ < 1)
    {d0 db d0' db' : Thick} {a a' : Amps}
    (ha : cohTmm (Stack.layers ⟨n₀', pre ++ (n, d) :: post, nb⟩ d0 db) [((θ : ℂ), lam)] = .ok [a])
    (ha' : cohTmm (Stack.layers ⟨n₀', pre ++ (n, d) :: post', nb'⟩ d0' db') [((θ : ℂ), lam)] = .ok [a'])
    {pol : Pol} {r t r' t' : ℂ} (hr : a.of pol = some (r, t)) (hr' : a'.of pol = some (r', t')) :
    ‖r - r'‖ ≤ 2 * σ * Real.sqrt (1 + g ^ 2) / (1 - σ ^ 2 - 2 * g * σ) := by
  rw [coh_real_of h.front h.nz h.lam_pos.ne' ha] at hr
  rw [coh_real_of h'.front h'.nz h'.lam_pos.ne' ha'] at hr'
  obtain ⟨h1, h2, h3, v, w, h4, h5⟩ := film_split h hq hre hr
  obtain ⟨-, -, -, v', w', h4', h5'⟩ := film_split h' hq hre hr'
  have hg0 : 0 ≤ g := by rw [hg]; positivity
  rw [← hg] at h2 h5 h5'
  rw [← hσ] at h5 h5'
  have hq₀ : 0 < n₀ * Real.cos θ := mul_pos h.n₀_pos h.cos_pos
  refine screen_core hq₀ (h.front_kap pol) ?_ hg0 h1 h2 h3 ?_ hsmall h4 h4' h5 h5'
  · rw [h.front_c]
    simp only [frontM]
    rw [show n₀' = (n₀ : ℂ) from h.front]
    push_cast
    rfl
  · rw [hσ]; positivity

/-- C136: the film might as well be the substrate. -/
theorem C136_substrate (h : Physical ⟨n₀', pre ++ (n, d) :: post, nb⟩ n₀ θ lam) {q : ℂ}
    (hq : q ^ 2 = n ^ 2 - (n₀ * Complex.sin θ) ^ 2) (hre : 0 < q.re) {g σ : ℝ} (hg : g = |q.im| / q.re)
    (hσ : σ = (g + Real.sqrt (1 + g ^ 2)) * Real.exp (-(2 * min (2 * Real.pi * d / lam * q.im) 35)))
    (hsmall : σ ^ 2 + 2 * g * σ < 1)
    {d0 db d0' db' : Thick} {a a' : Amps}
    (ha : cohTmm (Stack.layers ⟨n₀', pre ++ (n, d) :: post, nb⟩ d0 db) [((θ : ℂ), lam)] = .ok [a])
    (ha' : cohTmm (Stack.layers ⟨n₀', pre, n⟩ d0' db') [((θ : ℂ), lam)] = .ok [a'])
    {pol : Pol} {r t r' t' : ℂ} (hr : a.of pol = some (r, t)) (hr' : a'.of pol = some (r', t')) :
    ‖r - r'‖ ≤ 2 * σ * Real.sqrt (1 + g ^ 2) / (1 - σ ^ 2 - 2 * g * σ) := by
  have hmem : (n, d) ∈ (⟨n₀', pre ++ (n, d) :: post, nb⟩ : Stack).films := by simp
  have hsub : ∀ f ∈ pre ++ [(n, d)], f ∈ (⟨n₀', pre ++ (n, d) :: post, nb⟩ : Stack).films := by
    intro f hf
    rcases List.mem_append.mp hf with hf | hf
    · exact List.mem_append_left _ hf
    · rw [List.mem_singleton.mp hf]; exact hmem
  have h' : Physical ⟨n₀', pre ++ [(n, d)], n⟩ n₀ θ lam :=
    ⟨h.front, h.n₀_pos, h.angle, h.lam_pos, fun f hf => h.films f (hsub f hf), (h.films _ hmem).1,
      fun f hf => h.offCritical f (hsub f hf), fun f hf => h.mild f (hsub f hf)⟩
  obtain ⟨r₂, t₂, h₂⟩ := h'.solved pol
  have hc := coh_real (st := ⟨n₀', pre ++ [(n, d)], n⟩) (lam := lam) (θ := θ) h'.front h'.nz h'.lam_pos.ne' d0 db
  have h₃ : (⟨solveSt .s ⟨n₀', pre ++ [(n, d)], n⟩ θ lam, solveSt .p ⟨n₀', pre ++ [(n, d)], n⟩ θ lam⟩ : Amps).of pol =
      some (r₂, t₂) := by
    rw [← h₂]; cases pol <;> rfl
  have hnz' : Stack.NZ ⟨n₀', pre, n⟩ :=
    ⟨h'.nz.1, fun f (hf : f ∈ pre) => h'.nz.2.1 f (List.mem_append_left [(n, d)] hf), h'.nz.2.2⟩
  have e : r₂ = r' := C06_match_backing (d := d) hnz' h'.lam_pos.ne'
    (h'.offCritical (n, d) (by simp)) hc ha' h₃ hr'
  rw [← e]
  exact C136_amplitudes h h' hq hre hg hσ hsmall ha hc hr h₃

end

/-! ### Observables -/

/-- Amplitudes that differ little have nearly the same psi. -/
theorem psi_close {rs rp rs' rp' : ℂ} {η x y : ℝ} (hs : ‖rs - rs'‖ ≤ η) (hp : ‖rp - rp'‖ ≤ η)
    (h : ‖rp‖ * Real.cos x = ‖rs‖ * Real.sin x) (h' : ‖rp'‖ * Real.cos y = ‖rs'‖ * Real.sin y) :
    |Real.sin (x - y)| * Real.sqrt (‖rs'‖ ^ 2 + ‖rp'‖ ^ 2) ≤ 2 * η := by
  have hη : 0 ≤ η := (norm_nonneg _).trans hs
  have hs' := (abs_norm_sub_norm_le rs rs').trans hs
  have hp' := (abs_norm_sub_norm_le rp rp').trans hp
  set A := ‖rs‖
  set B := ‖rp‖
  set A' := ‖rs'‖
  set B' := ‖rp'‖
  have hA' : 0 ≤ A' := norm_nonneg _
  have hB' : 0 ≤ B' := norm_nonneg _
  set R := Real.sqrt (A' ^ 2 + B' ^ 2)
  have hR : R ^ 2 = A' ^ 2 + B' ^ 2 := Real.sq_sqrt (by positivity)
  -- project the second pair on the first direction
  have e1 : (A' * Real.sin x - B' * Real.cos x) ^ 2 = (Real.sin (x - y) * R) ^ 2 := by
    rw [mul_pow, hR, Real.sin_sub]
    have c1 := Real.sin_sq_add_cos_sq x
    have c2 := Real.sin_sq_add_cos_sq y
    have k : A' ^ 2 = (A' ^ 2 + B' ^ 2) * Real.cos y ^ 2 := by
      have : A' ^ 2 * Real.sin y ^ 2 = B' ^ 2 * Real.cos y ^ 2 := by rw [← mul_pow, ← mul_pow, h']
      nlinarith
    have k2 : B' ^ 2 = (A' ^ 2 + B' ^ 2) * Real.sin y ^ 2 := by
      have : A' ^ 2 * Real.sin y ^ 2 = B' ^ 2 * Real.cos y ^ 2 := by rw [← mul_pow, ← mul_pow, h']
      nlinarith
    have k3 : A' * B' = (A' ^ 2 + B' ^ 2) * (Real.sin y * Real.cos y) := by
      have l1 : A' * B' * Real.sin y ^ 2 = B' ^ 2 * (Real.sin y * Real.cos y) := by
        linear_combination (-B' * Real.sin y) * h'
      have l2 : A' * B' * Real.cos y ^ 2 = A' ^ 2 * (Real.sin y * Real.cos y) := by
        linear_combination (A' * Real.cos y) * h'
      linear_combination l1 + l2 - A' * B' * c2
    linear_combination Real.sin x ^ 2 * k + Real.cos x ^ 2 * k2 - 2 * Real.sin x * Real.cos x * k3
  have e2 : |Real.sin (x - y)| * R = |A' * Real.sin x - B' * Real.cos x| := by
    rw [← abs_of_nonneg (show 0 ≤ R from Real.sqrt_nonneg _), ← abs_mul]
    exact (sq_eq_sq_iff_abs_eq_abs _ _).mp e1.symm
  rw [e2]
  have e3 : A' * Real.sin x - B' * Real.cos x = (B - B') * Real.cos x - (A - A') * Real.sin x := by
    linear_combination -h
  rw [e3]
  refine (abs_sub _ _).trans ?_
  rw [abs_mul, abs_mul]
  have c1 := Real.abs_cos_le_one x
  have c2 := Real.abs_sin_le_one x
  nlinarith [mul_le_mul hp' c1 (abs_nonneg _) hη, mul_le_mul hs' c2 (abs_nonneg _) hη]

theorem unit_close {u u' : ℂ} {x y A A' : ℝ} (hA' : 0 < A') (hu : u = A * Complex.exp (x * I))
    (hA : 0 < A) (hu' : u' = A' * Complex.exp (y * I)) :
    2 * |Real.sin ((x - y) / 2)| * A' ≤ 2 * ‖u - u'‖ := by
  have hn : ∀ z : ℝ, ‖Complex.exp (z * I)‖ = 1 := Complex.norm_exp_ofReal_mul_I
  have e : Complex.exp (x * I) - Complex.exp (y * I) =
      Complex.exp (y * I) * (Complex.exp (((x - y : ℝ) : ℂ) * I) - 1) := by
    rw [mul_sub, mul_one, ← Complex.exp_add]
    congr 2
    push_cast
    ring
  have h1 : ‖Complex.exp (x * I) - Complex.exp (y * I)‖ = 2 * |Real.sin ((x - y) / 2)| := by
    rw [e, norm_mul, hn, one_mul, mul_comm (((x - y : ℝ) : ℂ)) I, Complex.norm_exp_I_mul_ofReal_sub_one,
      Real.norm_eq_abs, abs_mul, abs_two]
  rw [← h1]
  have hN : ‖u‖ = A := by rw [hu, norm_mul, hn, mul_one, Complex.norm_real, Real.norm_of_nonneg hA.le]
  have hN' : ‖u'‖ = A' := by rw [hu', norm_mul, hn, mul_one, Complex.norm_real, Real.norm_of_nonneg hA'.le]
  have e2 : (A' : ℂ) * (Complex.exp (x * I) - Complex.exp (y * I)) =
      (u - u') - ((A - A' : ℝ) : ℂ) * Complex.exp (x * I) := by
    rw [hu, hu']; push_cast; ring
  have h2 : A' * ‖Complex.exp (x * I) - Complex.exp (y * I)‖ ≤ ‖u - u'‖ + |A - A'| := by
    calc A' * ‖Complex.exp (x * I) - Complex.exp (y * I)‖
        = ‖(A' : ℂ) * (Complex.exp (x * I) - Complex.exp (y * I))‖ := by
          rw [norm_mul, Complex.norm_real, Real.norm_of_nonneg hA'.le]
      _ ≤ _ := by
          rw [e2]
          refine (norm_sub_le _ _).trans ?_
          rw [norm_mul, hn, mul_one, Complex.norm_real, Real.norm_eq_abs]
  have h3 : |A - A'| ≤ ‖u - u'‖ := by
    rw [← hN, ← hN']
    exact abs_norm_sub_norm_le u u'
  linarith [mul_comm A' ‖Complex.exp (x * I) - Complex.exp (y * I)‖]

/-- Amplitudes that differ little have nearly the same delta. -/
theorem delta_close {rs rp rs' rp' : ℂ} {η x y T T' : ℝ} (hs : ‖rs - rs'‖ ≤ η) (hp : ‖rp - rp'‖ ≤ η)
    (h1 : ‖rs‖ ≤ 1) (h1' : ‖rp'‖ ≤ 1) (h0 : rs ≠ 0) (h0' : rs' ≠ 0) (hT : 0 < T) (hT' : 0 < T')
    (h : rp = rs * T * Complex.exp (-(I * x))) (h' : rp' = rs' * T' * Complex.exp (-(I * y))) :
    |Real.sin ((x - y) / 2)| * (‖rs'‖ * ‖rp'‖) ≤ 2 * η := by
  have hη : 0 ≤ η := (norm_nonneg _).trans hs
  have key : ∀ {rs rp : ℂ} {x T : ℝ}, rp = rs * T * Complex.exp (-(I * x)) →
      rp * conj rs = ((‖rs‖ ^ 2 * T : ℝ) : ℂ) * Complex.exp (((-x : ℝ) : ℂ) * I) := by
    intro rs rp x T h
    have e : rs * conj rs = ((‖rs‖ ^ 2 : ℝ) : ℂ) := by
      rw [Complex.mul_conj, Complex.normSq_eq_norm_sq]
    rw [h, show -(I * (x : ℂ)) = ((-x : ℝ) : ℂ) * I by push_cast; ring]
    push_cast at e ⊢
    linear_combination (T * Complex.exp (-(x : ℂ) * I)) * e
  have hA : 0 < ‖rs‖ ^ 2 * T := mul_pos (pow_pos (norm_pos_iff.mpr h0) 2) hT
  have hA' : 0 < ‖rs'‖ ^ 2 * T' := mul_pos (pow_pos (norm_pos_iff.mpr h0') 2) hT'
  have hc := unit_close hA' (key h) hA (key h')
  have hnp : ‖rp'‖ = ‖rs'‖ * T' := by
    rw [h', norm_mul, norm_mul, Complex.norm_real, Real.norm_of_nonneg hT'.le, Complex.norm_exp]
    simp
  have hd : ‖rp * conj rs - rp' * conj rs'‖ ≤ 2 * η := by
    have e : rp * conj rs - rp' * conj rs' = (rp - rp') * conj rs + rp' * conj (rs - rs') := by
      rw [map_sub]; ring
    rw [e]
    refine (norm_add_le _ _).trans ?_
    rw [norm_mul, norm_mul, RCLike.norm_conj, RCLike.norm_conj]
    nlinarith [mul_le_mul hp h1 (norm_nonneg _) hη, mul_le_mul h1' hs (norm_nonneg _) zero_le_one]
  rw [show (-x - -y) / 2 = -((x - y) / 2) by ring, Real.sin_neg, abs_neg] at hc
  rw [hnp]
  nlinarith

/-- C136 for the observables: where the second stack reflects (`rs'`, `rp'`), psi and delta of the two stacks
differ by little. -/
theorem C136_psi_delta {n₀' n nb nb' : ℂ} {d : ℝ} {pre post post' : List (ℂ × ℝ)} {n₀ a wav : ℝ}
    (h : Physical ⟨n₀', pre ++ (n, d) :: post, nb⟩ n₀ (rad a) wav)
    (h' : Physical ⟨n₀', pre ++ (n, d) :: post', nb'⟩ n₀ (rad a) wav) {q : ℂ}
    (hq : q ^ 2 = n ^ 2 - (n₀ * Complex.sin (rad a : ℝ)) ^ 2) (hre : 0 < q.re) {g σ η : ℝ} (hg : g = |q.im| / q.re)
    (hσ : σ = (g + Real.sqrt (1 + g ^ 2)) * Real.exp (-(2 * min (2 * Real.pi * d / wav * q.im) 35)))
    (hsmall : σ ^ 2 + 2 * g * σ < 1) (hη : η = 2 * σ * Real.sqrt (1 + g ^ 2) / (1 - σ ^ 2 - 2 * g * σ))
    {rows rows' : List Row} (hr : RowsOf rows ⟨n₀', pre ++ (n, d) :: post, nb⟩)
    (hr' : RowsOf rows' ⟨n₀', pre ++ (n, d) :: post', nb'⟩) {zs : List Layer → ℝ → ℝ → Bool} {off ψ Δ ψ' Δ' : ℝ}
    (hx : (deltaPsiTMM zs [a] rows wav off false).1 = .ok [(some ψ, some Δ)])
    (hx' : (deltaPsiTMM zs [a] rows' wav off false).1 = .ok [(some ψ', some Δ')])
    {am : Amps} {d0 db : Thick} (ha : cohTmm (Stack.layers ⟨n₀', pre ++ (n, d) :: post', nb'⟩ d0 db)
      [((rad a : ℝ), wav)] = .ok [am])
    {rs ts rp tp : ℂ} (hs : am.of .s = some (rs, ts)) (hp : am.of .p = some (rp, tp)) :
    |Real.sin (rad (ψ - ψ'))| * Real.sqrt (‖rs‖ ^ 2 + ‖rp‖ ^ 2) ≤ 2 * η ∧
    |Real.sin (rad (Δ - Δ') / 2)| * (‖rs‖ * ‖rp‖) ≤ 2 * η := by
  obtain ⟨a1, rs1, ts1, rp1, tp1, c1, s1, p1, e1, l1, u1, -⟩ := C14_encode_ratio hr h.nz h.lam_pos.ne' hx
  obtain ⟨a2, rs2, ts2, rp2, tp2, c2, s2, p2, e2, l2, u2, -⟩ := C14_encode_ratio hr' h'.nz h'.lam_pos.ne' hx'
  have es : (rs2, ts2) = (rs, ts) := Option.some.inj (by
    rw [← s2, ← hs, coh_real_of h'.front h'.nz h'.lam_pos.ne' c2, coh_real_of h'.front h'.nz h'.lam_pos.ne' ha])
  have ep : (rp2, tp2) = (rp, tp) := Option.some.inj (by
    rw [← p2, ← hp, coh_real_of h'.front h'.nz h'.lam_pos.ne' c2, coh_real_of h'.front h'.nz h'.lam_pos.ne' ha])
  obtain ⟨rfl, rfl⟩ := Prod.mk.inj es
  obtain ⟨rfl, rfl⟩ := Prod.mk.inj ep
  have ds := C136_amplitudes h h' hq hre hg hσ hsmall c1 c2 s1 s2
  have dp := C136_amplitudes h h' hq hre hg hσ hsmall c1 c2 p1 p2
  rw [← hη] at ds dp
  obtain ⟨a1', rs1', ts1', rp1', tp1', c1', s1', p1', n1, n1'⟩ :=
    (C14_finite_iff hr h.nz h.lam_pos.ne' zs false).mp ⟨ψ, Δ, hx⟩
  obtain ⟨a2', rs2', ts2', rp2', tp2', c2', s2', p2', n2, n2'⟩ :=
    (C14_finite_iff hr' h'.nz h'.lam_pos.ne' zs false).mp ⟨ψ', Δ', hx'⟩
  have q1 : rs1 ≠ 0 := by
    rw [c1] at c1'
    obtain rfl := List.head_eq_of_cons_eq (Except.ok.inj c1')
    rw [s1] at s1'
    rwa [(Prod.mk.inj (Option.some.inj s1')).1]
  have q2 : rs2 ≠ 0 := by
    rw [c2] at c2'
    obtain rfl := List.head_eq_of_cons_eq (Except.ok.inj c2')
    rw [s2] at s2'
    rwa [(Prod.mk.inj (Option.some.inj s2')).1]
  have hpi := Real.pi_pos
  have cosPos : ∀ {x : ℝ}, 0 < x → x < 90 → 0 < Real.cos (rad x) ∧ 0 < Real.tan (rad x) := by
    intro x hx0 hx1
    have b0 : 0 < rad x := by unfold rad; positivity
    have b1 : rad x < Real.pi / 2 := by
      unfold rad
      calc x * (Real.pi / 180) < 90 * (Real.pi / 180) := by gcongr
        _ = _ := by ring
    exact ⟨Real.cos_pos_of_mem_Ioo ⟨by linarith, b1⟩, Real.tan_pos_of_pos_of_lt_pi_div_two b0 b1⟩
  have norms : ∀ {rs rp : ℂ} {x y : ℝ}, 0 < x → x < 90 →
      rp = rs * (Real.tan (rad x) : ℝ) * Complex.exp (-(I * (y : ℝ))) →
      ‖rp‖ * Real.cos (rad x) = ‖rs‖ * Real.sin (rad x) := by
    intro rs rp x y hx0 hx1 e
    obtain ⟨b1, b2⟩ := cosPos hx0 hx1
    rw [e, norm_mul, norm_mul, Complex.norm_real, Real.norm_of_nonneg b2.le, Complex.norm_exp]
    have : (-(I * (y : ℂ))).re = 0 := by simp
    rw [this, Real.exp_zero, mul_one, mul_assoc, Real.tan_mul_cos b1.ne']
  constructor
  · have := psi_close ds dp (norms l1 u1 e1) (norms l2 u2 e2)
    rwa [show rad ψ - rad ψ' = rad (ψ - ψ') by unfold rad; ring] at this
  · have le1 : ∀ {st : Stack} (h : Physical st n₀ (rad a) wav) {pol : Pol} {am : Amps} {r t : ℂ},
        cohTmm (st.layers .inf .inf) [((rad a : ℝ), wav)] = .ok [am] → am.of pol = some (r, t) → ‖r‖ ≤ 1 := by
      intro st h pol am r t hc hr
      rw [coh_real_of h.front h.nz h.lam_pos.ne' hc] at hr
      have hp := h.power hr
      have hk := mul_nonneg (kap_re_nonneg h.back_dir pol) (sq_nonneg ‖t‖)
      have hpos : 0 < n₀ * Real.cos (rad a) := mul_pos h.n₀_pos h.cos_pos
      have : 0 ≤ 1 - ‖r‖ ^ 2 := nonneg_of_mul_nonneg_right (hk.trans hp) hpos
      exact (sq_le_one_iff₀ (norm_nonneg r)).mp (by linarith)
    have := delta_close ds dp (le1 h c1 s1) (le1 h' c2 p2) q1 q2 (cosPos l1 u1).2 (cosPos l2 u2).2 e1 e2
    rwa [show rad (Δ - off) - rad (Δ' - off) = rad (Δ - Δ') by unfold rad; ring] at this

/-! ### Non-vacuity: half a micrometre of metal, once in front of glass, once of something else -/

/-- Index of a metal. -/
noncomputable def metal : ℂ := 21 / 40 + 19 / 20 * I

theorem screen_physical {post : List (ℂ × ℝ)} {nb : ℂ} (hp : post = [] ∨ post = [(2 + I, 10)])
    (hb : nb = 3 / 2 ∨ nb = 4 + I) : Physical ⟨1, [(3 / 2, 20)] ++ (metal, 500) :: post, nb⟩ 1 (Real.pi / 6) 500 := by
  have hs : (1 : ℂ) * Complex.sin ((Real.pi / 6 : ℝ) : ℂ) = ((1 / 2 : ℝ) : ℂ) := by
    rw [← Complex.ofReal_sin, Real.sin_pi_div_six, one_mul]
  have hpi := Real.pi_pos
  have hpi4 := Real.pi_le_four
  have hsinh : (35 : ℝ) ≤ Real.sinh 35 := Real.self_le_sinh_iff.mpr (by norm_num)
  have hmem : ∀ f ∈ [((3 / 2 : ℂ), (20 : ℝ))] ++ (metal, 500) :: post,
      f = (3 / 2, 20) ∨ f = (metal, 500) ∨ f = (2 + I, 10) := by
    intro f hf
    rcases hp with rfl | rfl <;> simp at hf <;> tauto
  refine ⟨by simp, one_pos, ?_, by norm_num, ?_, ?_, ?_, ?_⟩
  · rw [abs_of_pos (by positivity)]; linarith
  · intro f hf
    rcases hmem f hf with rfl | rfl | rfl <;> constructor <;> norm_num [PassiveIndex, metal]
  · rcases hb with rfl | rfl <;> norm_num [PassiveIndex]
  · intro f hf
    simp only
    rw [hs]
    rcases hmem f hf with rfl | rfl | rfl
    · intro h
      have := congrArg Complex.re h
      simp [sq] at this
      norm_num at this
    · intro h
      have := congrArg Complex.im h
      simp [sq, metal] at this
      norm_num at this
    · intro h
      have := congrArg Complex.im h
      simp [sq] at this
  · intro f hf m hm
    simp only at hm
    rw [hs] at hm
    have hb : f.1 ≠ 0 ∧ 0 ≤ f.2 ∧ f.2 ≤ 500 ∧ ‖f.1‖ ≤ 3 := by
      rcases hmem f hf with rfl | rfl | rfl
      · refine ⟨by norm_num, by norm_num, by norm_num, ?_⟩
        simp
      · refine ⟨?_, by norm_num, by norm_num, ?_⟩
        · intro h; have := congrArg Complex.im h; simp [metal] at this
        · calc ‖metal‖ ≤ ‖(21 / 40 : ℂ)‖ + ‖(19 / 20 : ℂ) * I‖ := norm_add_le _ _
            _ ≤ 3 := by simp; norm_num
      · refine ⟨?_, by norm_num, by norm_num, ?_⟩
        · intro h; have := congrArg Complex.im h; simp at this
        · calc ‖(2 : ℂ) + I‖ ≤ ‖(2 : ℂ)‖ + ‖I‖ := norm_add_le _ _
            _ = 3 := by simp; norm_num
    obtain ⟨h1, h2, h3, h4⟩ := hb
    have := hm.norm_le h1 (by norm_num) h2
    have h5 : ‖((1 / 2 : ℝ) : ℂ)‖ = 1 / 2 := by rw [Complex.norm_real]; norm_num
    rw [h5] at this
    have h6 : 2 * Real.pi * f.2 / 500 * (‖f.1‖ + 1 / 2) ≤ 2 * 4 * 500 / 500 * (3 + 1 / 2) := by
      gcongr
    have h7 := (Complex.abs_im_le_norm m.δ)
    have h8 := le_abs_self m.δ.im
    norm_num at h6
    linarith

/-- The reflection amplitudes of the two samples agree to three digits. -/
example {a a' : Amps}
    (ha : cohTmm (Stack.layers ⟨1, [(3 / 2, 20)] ++ (metal, 500) :: [], 3 / 2⟩ .inf .inf)
      [((Real.pi / 6 : ℝ), 500)] = .ok [a])
    (ha' : cohTmm (Stack.layers ⟨1, [(3 / 2, 20)] ++ (metal, 500) :: [(2 + I, 10)], 4 + I⟩ .inf .inf)
      [((Real.pi / 6 : ℝ), 500)] = .ok [a'])
    {pol : Pol} {r t r' t' : ℂ} (hr : a.of pol = some (r, t)) (hr' : a'.of pol = some (r', t')) :
    ‖r - r'‖ ≤ 1 / 1000 := by
  set q : ℂ := 19 / 40 + 21 / 20 * I with hqd
  have hqre : q.re = 19 / 40 := by norm_num [hqd]
  have hqim : q.im = 21 / 20 := by norm_num [hqd]
  have hq : q ^ 2 = metal ^ 2 - (((1 : ℝ) : ℂ) * Complex.sin ((Real.pi / 6 : ℝ) : ℂ)) ^ 2 := by
    rw [← Complex.ofReal_sin, Real.sin_pi_div_six, hqd, metal]
    push_cast
    linear_combination (1 / 5 : ℂ) * Complex.I_sq
  obtain ⟨g, hgd⟩ : ∃ g : ℝ, g = 42 / 19 := ⟨_, rfl⟩
  have hg : g = |q.im| / q.re := by rw [hqre, hqim, hgd]; norm_num [abs_of_pos]
  obtain ⟨σ, hσ⟩ : ∃ σ : ℝ, σ = (g + Real.sqrt (1 + g ^ 2)) *
    Real.exp (-(2 * min (2 * Real.pi * 500 / 500 * q.im) 35)) := ⟨_, rfl⟩
  have hsq : Real.sqrt (1 + g ^ 2) ≤ 5 / 2 := by
    rw [Real.sqrt_le_left (by norm_num), hgd]; norm_num
  have hsq0 := Real.sqrt_nonneg (1 + g ^ 2)
  have hexp : Real.exp (-(2 * min (2 * Real.pi * 500 / 500 * q.im) 35)) ≤ 1 / 100000 := by
    have hb : 6 ≤ min (2 * Real.pi * 500 / 500 * q.im) 35 := by
      rw [hqim]
      refine le_min ?_ (by norm_num)
      have := Real.pi_gt_three
      linarith
    have h1 : Real.exp (-(2 * min (2 * Real.pi * 500 / 500 * q.im) 35)) ≤ Real.exp (-12) :=
      Real.exp_le_exp.mpr (by linarith)
    refine h1.trans ?_
    rw [Real.exp_neg, ← one_div]
    apply one_div_le_one_div_of_le (by norm_num)
    have h2 : Real.exp 12 = Real.exp 1 ^ 12 := by rw [← Real.exp_nat_mul]; norm_num
    rw [h2]
    have h3 : (2.7 : ℝ) ≤ Real.exp 1 := by linarith [Real.exp_one_gt_d9]
    calc (100000 : ℝ) ≤ 2.7 ^ 12 := by norm_num
      _ ≤ _ := by gcongr
  have hσ0 : 0 ≤ σ := by rw [hσ]; positivity
  have hσ1 : σ ≤ 1 / 20000 := by
    have : g + Real.sqrt (1 + g ^ 2) ≤ 5 := by rw [hgd] at hsq ⊢; linarith
    calc σ ≤ 5 * (1 / 100000) := by
          rw [hσ]; exact mul_le_mul this hexp (Real.exp_nonneg _) (by norm_num)
      _ = _ := by norm_num
  have hg3 : g ≤ 3 := by rw [hgd]; norm_num
  have hg0 : 0 ≤ g := by rw [hgd]; norm_num
  have hden : σ ^ 2 + 2 * g * σ ≤ 1 / 2 := by nlinarith
  have := C136_amplitudes (screen_physical (.inl rfl) (.inl rfl)) (screen_physical (.inr rfl) (.inr rfl)) hq
    (by rw [hqre]; norm_num) hg hσ (by linarith) ha ha' hr hr'
  refine this.trans ?_
  rw [div_le_iff₀ (by linarith)]
  nlinarith

end Verif.TMM
