import Verif.Disp.User
import Verif.Disp.PropsOsc
import Verif.Struct.Model

/-! # C160: `epsilon` is the dielectric function at a photon energy -/

namespace Verif.Disp

/-- C160: a subclass that defines `epsilon` has, at every wavelength other than zero, an index whose square is
`epsilon(1239.841984055 / wavelength)`, in the right half plane, with `k ≥ 0` if the imaginary part of `epsilon` is
positive; it is `nan` exactly where `epsilon` is. -/
theorem C160_user (zu : ℝ → Bool) {own : Option ℝ} {eps : ℝ → Option ℂ} {w : ℝ} (hw : w ≠ 0) :
    (∀ v, eps (1239.841984055 / w) = some v → ∃ N : ℂ,
      ({ wavelength := own, epsilon := some eps } : UserScat).complex zu (some w) = .ok (some N) ∧ N ^ 2 = v ∧
      0 ≤ N.re ∧ (0 < v.im → 0 < N.im)) ∧
    (eps (1239.841984055 / w) = none →
      ({ wavelength := own, epsilon := some eps } : UserScat).complex zu (some w) = .ok none) := by
  have hc : ({ wavelength := own, epsilon := some eps } : UserScat).complex zu (some w) =
      .ok ((eps (1239.841984055 / w)).bind fun v => some (npSqrt (zu w) v)) := by
    simp [UserScat.complex, pickWavO, hw, nmEV, rdiv]
  rw [hc]
  refine ⟨fun v hv => ⟨npSqrt (zu w) v, by rw [hv]; rfl, npSqrt_sq _ _, npSqrt_re_nonneg _ _, fun him => ?_⟩,
    fun hv => by rw [hv]; rfl⟩
  have hsq := npSqrt_sq (zu w) v
  have hre := npSqrt_re_nonneg (zu w) v
  have : v.im = 2 * (npSqrt (zu w) v).re * (npSqrt (zu w) v).im := by
    conv_lhs => rw [← hsq]
    rw [sq, Complex.mul_im]; ring
  by_contra hneg
  nlinarith [not_lt.1 hneg]

/-- C160: without a wavelength (`None` or zero, as in `complex(material)` and `str(material)`) it is the index at the
material's own wavelength; a material that has none raises, and so does a subclass that defines neither method. -/
theorem C160_default (zu : ℝ → Bool) {eps : ℝ → Option ℂ} (own : ℝ) (h0 : own ≠ 0) {w : Option ℝ}
    (hw : w = none ∨ w = some 0) (own' w' : Option ℝ) :
    ({ wavelength := some own, epsilon := some eps } : UserScat).complex zu w =
      ({ wavelength := none, epsilon := some eps } : UserScat).complex zu (some own) ∧
    ({ wavelength := none, epsilon := some eps } : UserScat).complex zu w = .error .typeError ∧
    ({ wavelength := own' } : UserScat).complex zu w' = .error .runtimeError := by
  rcases hw with rfl | rfl <;> simp [UserScat.complex, pickWavO, h0]

/-- C160: a subclass that overrides `complex` is asked for the index at the wavelength of the structure, in every slab; its
`epsilon` and its own wavelength do not matter. -/
theorem C160_own (zu : ℝ → Bool) {f : Option ℝ → Option ℂ} (eps : Option (ℝ → Option ℂ)) (own : Option ℝ)
    (ext : Struct.Ext) (st : Struct.Settings) (t g vf : ℝ) (dflt : Bool) :
    (∀ w, ({ wavelength := own, epsilon := eps, ownComplex := some f } : UserScat).complex zu w = .ok (f w)) ∧
    Struct.CompView.rows ext st
      (.slab t (({ wavelength := own, epsilon := eps, ownComplex := some f } : UserScat).scat zu) g vf dflt) =
        .ok (some [⟨t, f st.wavelength, g, vf⟩]) :=
  ⟨fun _ => rfl, rfl⟩

/-- C160, partial: `epsilon(1239.841984055 / w)` of Lorentz, Gauss and Tauc-Lorentz models is the square of their index
at the wavelength `w`.  Missing: `Sellmeier` (`C160_fails_sellmeier`). -/
theorem C160_oscillators_partial (z : SqrtOracle) {s : Scat}
    (hs : (∃ wl osc einf, s = .lorentz wl osc einf) ∨ (∃ wl osc einf, s = .gauss wl osc einf) ∨
      (∃ wl osc Eg einf, s = .tauc wl osc Eg einf)) {w : ℝ} (hw : w ≠ 0) :
    (s.complex z (some w)).map (· ^ 2) = s.epsilon (1239.841984055 / w) := by
  have hc : s.complex z (some w) = (s.epsilon (1239.841984055 / w)).bind fun v => some (npSqrt (z s w) v) := by
    rcases hs with ⟨wl, osc, einf, rfl⟩ | ⟨wl, osc, einf, rfl⟩ | ⟨wl, osc, Eg, einf, rfl⟩ <;>
      simp [Scat.complex, Scat.at, Scat.ownWav, pick_ne hw, nmEV, rdiv, hw]
  rw [hc]
  cases s.epsilon (1239.841984055 / w) with
  | none => rfl
  | some v => simp [npSqrt_sq]

/-- C160: `Sellmeier.epsilon` is the square of the index only when it is given the *wavelength*. -/
theorem C160_sellmeier_wavelength (z : SqrtOracle) (wl Am En P einf : ℝ) {w : ℝ} {N : ℂ}
    (h : (Scat.sellmeier wl Am En P einf).complex z (some w) = some N) :
    sellmeierEpsilon wl Am En P einf (some w) = some (N ^ 2) := by
  unfold sellmeierEpsilon
  simp only [Scat.complex, Scat.at, Scat.ownWav, Option.getD_some] at h
  generalize sellmeierReal Am En P einf (pickWav wl (some w)) = o at h ⊢
  simp only [Option.bind_eq_bind, Option.pure_def, Option.bind_eq_some_iff, Option.some.injEq] at h
  obtain ⟨r, rfl, q, hr, rfl⟩ := h
  unfold rsqrt at hr
  split_ifs at hr with hneg
  cases hr
  simp only [Option.bind_eq_bind, Option.bind_some, Option.pure_def, Option.some.injEq]
  rw [← Complex.ofReal_pow, Real.sq_sqrt (not_lt.1 hneg)]

/-- **C160 is false of `Sellmeier`.**  For every Sellmeier material with an absorption band at shorter wavelengths and
no infrared term, at every wavelength above 36 nm: given the photon energy, `epsilon` returns less than `Einf`, while
the square of the index is more than `Einf`. -/
theorem C160_fails_sellmeier (z : SqrtOracle) (wl : ℝ) {Am En einf w : ℝ} (hA : 0 < Am) (hE : 0.036 ≤ En) (h0 : 0 ≤ einf)
    (hw : En < w / 1000) : ∃ e v N, nmEV w = some e ∧ sellmeierEpsilon wl Am En 0 einf (some e) = some v ∧
      (Scat.sellmeier wl Am En 0 einf).complex z (some w) = some N ∧ N.im = 0 ∧
      v.re < einf ∧ einf < (N ^ 2).re := by
  have hw36 : 36 < w := by norm_num at hE; linarith
  have hw0 : w ≠ 0 := by linarith
  obtain ⟨e, he⟩ : ∃ e, e = 1239.841984055 / w := ⟨_, rfl⟩
  have he0 : 0 < e := by rw [he]; positivity
  have he1 : e / 1000 < En := by
    have : e < 36 := by rw [he, div_lt_iff₀ (by linarith)]; norm_num; linarith
    linarith
  have hE0 : 0 < En := by norm_num at hE; linarith
  have hen : e ≠ 0 := he0.ne'
  have q1 : (e / 1000) ^ 2 - En ^ 2 < 0 := by nlinarith [div_pos he0 (show (0 : ℝ) < 1000 by norm_num)]
  have q2 : 0 < (w / 1000) ^ 2 - En ^ 2 := by nlinarith
  have hpos : 0 < Am * (w / 1000) ^ 2 / ((w / 1000) ^ 2 - En ^ 2) := by
    have : 0 < w / 1000 := by linarith
    positivity
  obtain ⟨N, hN, hi, -, hs⟩ := (C50_square z wl Am En 0 einf hw0 rfl rfl).1 (by linarith) (by linarith)
  refine ⟨e, ((einf + Am * (e / 1000) ^ 2 / ((e / 1000) ^ 2 - En ^ 2) - 0 * (e / 1000) ^ 2 : ℝ) : ℂ), N,
    by rw [he]; simp [nmEV, rdiv, hw0], ?_, hN, hi, ?_, ?_⟩
  · have : e * 1e-3 = e / 1000 := by norm_num; ring
    simp only [sellmeierEpsilon, pick_ne hen, sellmeierReal, this, rdiv, q1.ne, if_false]
    rfl
  · rw [Complex.ofReal_re]
    have : Am * (e / 1000) ^ 2 / ((e / 1000) ^ 2 - En ^ 2) < 0 :=
      div_neg_of_pos_of_neg (by positivity) q1
    linarith
  · rw [hs, Complex.ofReal_re]
    linarith

/-- Non-vacuity of `C160_own`: an index of 1.5 at all wavelengths, although `epsilon` is 4. -/
example (zu : ℝ → Bool) (ext : Struct.Ext) : Struct.CompView.rows ext { wavelength := some 500 } (.slab 10
    (({ epsilon := some fun _ => some 4, ownComplex := some fun _ => some 1.5 } : UserScat).scat zu) 0 0 true) =
      .ok (some [⟨10, some 1.5, 0, 0⟩]) := (C160_own zu _ _ ext _ 10 0 0 true).2

/-- Fused silica, roughly, at 500 nm; and a user defined Drude metal. -/
example : (0 : ℝ) < 1.1 ∧ (0.036 : ℝ) ≤ 0.092 ∧ (0 : ℝ) ≤ 1 ∧ (0.092 : ℝ) < 500 / 1000 := by norm_num

example : ∃ (eps : ℝ → Option ℂ) (v : ℂ), eps (1239.841984055 / 500) = some v ∧ 0 < v.im := by
  refine ⟨fun e => some (1 - 81 / (e ^ 2 + Complex.I * e)), _, rfl, ?_⟩
  norm_num [Complex.div_im, Complex.normSq, Complex.sub_im, sq]

example (z : SqrtOracle) : ∃ N, (Scat.sellmeier 658 1 (1 / 2) 0 2).complex z (some 1000) = some N := by
  obtain ⟨N, hN, -⟩ := (C50_square z 658 1 (1 / 2) 0 2 (w := 1000) (by norm_num) rfl rfl).1 (by norm_num) (by norm_num)
  exact ⟨N, hN⟩

end Verif.Disp
