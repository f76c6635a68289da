import Verif.Obj.PropsMisfit
import Verif.Obj.PropsPerfect

/-! # C167: best fits exist, and good fits are close to them -/

namespace Verif.Obj
open Verif.Struct Verif.TMM Verif.RModel Verif.Data Filter Topology

variable {env : Env} {o : Objective}

section
variable {X : Type*} [TopologicalSpace X]

/-- A family of models is searched over the set `K`: everywhere in it the model deforms continuously (see `Deforms`), the
measured delta are within half a turn of the range of the model, and `c` is the value of `objective.chisqr()`, which is
finite. -/
structure Searches (env : Env) (o : Objective) (st : X → St) (pts : List Pt) (M : MObj) (s : Structure) (cs : List Comp)
    (K : Set X) (c : X → ℝ) : Prop where
  deforms : ∀ x ∈ K, Deforms env o st pts M s cs x
  range : ∀ x0 ∈ K, ∀ᶠ x in 𝓝 x0, ∀ pt ∈ pts, (st x).vals M.rm.off - 180 ≤ pt.2.2.2 ∧
    pt.2.2.2 ≤ (st x).vals M.rm.off + 540
  value : ∀ x ∈ K, (chisqr env o none (st x)).1 = .ok (some (c x))

variable {st : X → St} {pts : List Pt} {M : MObj} {s : Structure} {cs : List Comp} {K : Set X} {c : X → ℝ}

theorem Searches.continuousOn (h : Searches env o st pts M s cs K c) : ContinuousOn c K := by
  intro x0 hx0
  obtain ⟨C, h1, h2, h3⟩ := C121_chisqr_partial (h.deforms x0 hx0) (h.range x0 hx0) (h.value x0 hx0)
  refine h3.continuousWithinAt.congr_of_eventuallyEq ?_ h2.symm
  filter_upwards [mem_nhdsWithin_of_mem_nhds h1, self_mem_nhdsWithin] with x e1 e2
  rw [h.value x e2] at e1
  simpa using e1

/-- C167 (partial): a search over a compact set (for instance, all parameters between bounds) has a best fit.  Missing:
families outside `Deforms`; if
they cross total reflection at the backing medium there need not be a best fit (`C167_fails`). -/
theorem C167_best_partial (h : Searches env o st pts M s cs K c) (hK : IsCompact K) (hne : K.Nonempty) :
    ∃ x ∈ K, ∀ y ∈ K, c x ≤ c y :=
  hK.exists_isMinOn hne h.continuousOn

/-- C167 (partial): given a neighbourhood of the best fits, all fits that are good enough lie in it.  Missing: as for
`C167_best_partial`. -/
theorem C167_near_partial (h : Searches env o st pts M s cs K c) (hK : IsCompact K) {U : Set X} (hU : IsOpen U)
    (hb : ∀ x ∈ K, (∀ y ∈ K, c x ≤ c y) → x ∈ U) :
    ∃ ε, 0 < ε ∧ ∀ x ∈ K, (∀ y ∈ K, c x ≤ c y + ε) → x ∈ U := by
  by_cases hne : (K \ U).Nonempty
  · obtain ⟨x1, ⟨h1, h1'⟩, hm⟩ := (hK.diff hU).exists_isMinOn hne (h.continuousOn.mono Set.sdiff_subset)
    have hnb : ∃ y ∈ K, c y < c x1 := by
      by_contra hcon
      push Not at hcon
      exact h1' (hb x1 h1 hcon)
    obtain ⟨y, hy, hlt⟩ := hnb
    refine ⟨(c x1 - c y) / 2, by linarith, fun x hx hxe => ?_⟩
    by_contra hxU
    have e1 : c x1 ≤ c x := hm ⟨hx, hxU⟩
    have e2 := hxe y hy
    linarith
  · rw [Set.not_nonempty_iff_eq_empty, Set.sdiff_eq_empty] at hne
    exact ⟨1, one_pos, fun x hx _ => hne hx⟩

/-- C167 (partial): if the best fit is unique, fits whose chi-squared tends to the smallest one tend to it.  Missing: as
for `C167_best_partial`. -/
theorem C167_converges_partial (h : Searches env o st pts M s cs K c) (hK : IsCompact K) {b : X} (hb : b ∈ K)
    (huniq : ∀ x ∈ K, (∀ y ∈ K, c x ≤ c y) → x = b) {ι : Type*} {l : Filter ι} {x : ι → X} (hx : ∀ i, x i ∈ K)
    (hc : Tendsto (fun i => c (x i)) l (𝓝 (c b))) : Tendsto x l (𝓝 b) := by
  obtain ⟨b', hb', hmin⟩ := C167_best_partial h hK ⟨b, hb⟩
  obtain rfl := huniq b' hb' hmin
  rw [tendsto_nhds]
  intro U hU hbU
  obtain ⟨ε, hε, hnear⟩ := C167_near_partial h hK hU fun y hy hym => by rw [huniq y hy hym]; exact hbU
  filter_upwards [hc (Iio_mem_nhds (show c b' < c b' + ε by linarith))] with i hi
  refine hnear _ (hx i) fun y hy => ?_
  have := hmin y hy
  have hi' : c (x i) < c b' + ε := hi
  linarith

end

/-- Setting the parameters and asking for chi-squared. -/
theorem chisqr_set {p : List ℝ} {st : St} (hl : p.length = (varying env o st).length) :
    (chisqr env o (some p) st).1 = (chisqr env o none (setp env o (some p) st).2).1 := by
  rw [chisqr_eq, chisqr_eq, residuals_some]
  simp only [setp, if_pos hl]

/-- C167 (partial), for parameter vectors: over a compact set of vectors `objective.chisqr(pvals)` has a smallest value.
Missing: as for `C167_best_partial`. -/
theorem C167_vectors_partial {st : St} {pts : List Pt} {M : MObj} {s : Structure} {cs : List Comp} {n : ℕ}
    (hn : n = (varying env o st).length) {K : Set (Fin n → ℝ)} {c : (Fin n → ℝ) → ℝ}
    (h : Searches env o (fun p => (setp env o (some (List.ofFn p)) st).2) pts M s cs K c) (hK : IsCompact K)
    (hne : K.Nonempty) :
    ∃ p ∈ K, ∃ x, (chisqr env o (some (List.ofFn p)) st).1 = .ok (some x) ∧
      ∀ q ∈ K, ∃ y, (chisqr env o (some (List.ofFn q)) st).1 = .ok (some y) ∧ x ≤ y := by
  have hv : ∀ q ∈ K, (chisqr env o (some (List.ofFn q)) st).1 = .ok (some (c q)) := fun q hq => by
    rw [chisqr_set (by simpa using hn)]
    exact h.value q hq
  obtain ⟨p, hp, hmin⟩ := C167_best_partial h hK hne
  exact ⟨p, hp, c p, hv p hp, fun q hq => ⟨c q, hv q hq, hmin q hq⟩⟩

/-! ### A film between two bounds for its thickness -/

/-- Chi-squared of a film is finite whatever its thickness. -/
theorem film_value_of (env : Env) (hdt : env.dt = .float) (ψ Δ : ℝ) {v : Vals} (vary : PId → Bool) (ln : Option PId)
    (h2 : v 2 = 0) (h4 : 0 < v 4) (h7 : v 7 = 0) : ∃ y : ℝ,
    (chisqr env { model := 0, data := filmData false, lnsigma := ln } none
      { filmSt ψ Δ with vals := v, vary := vary }).1 = .ok (some y) := by
  have hd := film_deforms env hdt ψ Δ (x0 := 1) one_pos
  have hs' : Sees env.ext.zs v filmStruct [dry (.const 658 1 0),
      .slab 4 (fun _ => .const 658 (39 / 25) 0) 1 2 true, dry (.const 658 (15 / 7) 0)] 480
      (oneFilm 1 (39 / 25) ((15 / 7 : ℝ) : ℂ) (v 4 / 10)) := by
    refine ⟨_, [_], _, ⟨1, 0⟩, ((15 / 7 : ℝ) : ℂ), rfl, .slab (const_material _ _ one_pos), rfl,
      .slab (const_material _ _ (by norm_num)), rfl, .cons ?_ .nil⟩
    exact FilmIs.slab (z := env.ext.zs) (v := v) (w := 480) (nS := ((15 / 7 : ℝ) : ℂ))
      (t := 4) (g := 1) (f := 2) (r := fun _ => .const 658 (39 / 25) 0) (d := true) (ema := "linear") (L := 1 / 3)
      (a := ⟨39 / 25, 0⟩) (n := ((39 / 25 : ℝ) : ℂ)) (const_material _ _ (by norm_num))
      (by rw [h2]; exact mix_dry ⟨by norm_num, by norm_num, by simp⟩ ⟨by norm_num, le_rfl⟩ (by simp))
  obtain ⟨rows, r1, r2⟩ := C117_slabs (ext := env.ext) hd.plain (by norm_num) hs'
  obtain ⟨p, d, hpd⟩ := shot_finite_at env.zs (lam := 480) (by norm_num) (by linarith) r2
  have hdata : Presents (filmSt ψ Δ).heap (filmData false) [(480, filmAoi, ψ, Δ)] := hd.data 0
  rw [← h7] at hpd
  exact ⟨_, (chisqr_iff (o := { model := 0, data := filmData false, lnsigma := ln })
    (st := { filmSt ψ Δ with vals := v, vary := vary }) hdata).mpr
    ⟨[(p, d)], values_iff.mpr (.cons ⟨rows, (some p, some d), r1, hpd, by rw [hdt]; rfl⟩ .nil), rfl⟩⟩

theorem film_value (env : Env) (hdt : env.dt = .float) (ψ Δ : ℝ) {x : ℝ} (hx : 0 < x) : ∃ y : ℝ,
    (chisqr env { model := 0, data := filmData false } none (filmStAt ψ Δ x)).1 = .ok (some y) :=
  film_value_of env hdt ψ Δ (v := Function.update (fun _ => 0) 4 x) (filmSt ψ Δ).vary none rfl (by simpa using hx) rfl

/-- Whatever the data, there is a best thickness between 100 and 3000 Angstrom. -/
example (env : Env) (hdt : env.dt = .float) (ψ Δ : ℝ) (hΔ : 0 ≤ Δ ∧ Δ ≤ 360) : ∃ c : ℝ → ℝ,
    (∀ x ∈ Set.Icc (100 : ℝ) 3000,
      (chisqr env { model := 0, data := filmData false } none (filmStAt ψ Δ x)).1 = .ok (some (c x))) ∧
    ∃ x ∈ Set.Icc (100 : ℝ) 3000, ∀ y ∈ Set.Icc (100 : ℝ) 3000, c x ≤ c y := by
  have hdef : ∀ x ∈ Set.Icc (100 : ℝ) 3000, _ := fun x hx =>
    film_deforms env hdt ψ Δ (x0 := x) (by linarith [hx.1])
  have hval : ∀ x ∈ Set.Icc (100 : ℝ) 3000, ∃ y : ℝ,
      (chisqr env { model := 0, data := filmData false } none (filmStAt ψ Δ x)).1 = .ok (some y) :=
    fun x hx => film_value env hdt ψ Δ (by linarith [hx.1])
  choose! c hc using hval
  refine ⟨c, hc, C167_best_partial (st := filmStAt ψ Δ) ⟨hdef, ?_, hc⟩ isCompact_Icc ⟨100, by norm_num⟩⟩
  refine fun x _ => Eventually.of_forall fun y pt hpt => ?_
  rw [List.mem_singleton] at hpt
  subst hpt
  have h7 : (filmStAt ψ Δ y).vals 7 = 0 := rfl
  rw [h7]
  constructor <;> linarith [hΔ.1, hΔ.2]

/-- The extinction coefficient of a bare substrate, searched between 1 and 2, for data made with 3/2. -/
theorem tir_searches (env : Env) (hdt : env.dt = .float) : ∃ (ψ Δ : ℝ) (c : ℝ → ℝ), 0 ≤ Δ ∧ Δ ≤ 360 ∧
    (∀ k ∈ Set.Icc (1 : ℝ) 2,
      (chisqr env { model := 0, data := filmData false } none (tirSt ψ Δ k)).1 = .ok (some (c k))) ∧
    Searches env { model := 0, data := filmData false } (fun k => tirSt ψ Δ |k|) [(500, 45, ψ, Δ)] ⟨⟨7, false⟩, 0⟩
      tirStruct [dry (.const 658 2 0), .slab 0 (fun v => .const 658 1 (v 5)) 1 2 true] (Set.Icc 1 2) c ∧
    c (3 / 2) = 0 ∧ ∀ k ∈ Set.Icc (1 : ℝ) 2, (∀ y ∈ Set.Icc (1 : ℝ) 2, c k ≤ c y) → k = 3 / 2 := by
  have hpi := Real.pi_pos
  obtain ⟨ψ, Δ, q, hψ, hok, hrel, hq2, hq0, hqpos⟩ := tir_results env.zs
  have hsp : 0 < Real.sqrt 2 := by positivity
  have hd : ∀ k, Presents (tirSt (ψ (3 / 2)) (Δ (3 / 2)) k).heap (filmData false)
      [(500, 45, ψ (3 / 2), Δ (3 / 2))] := by
    intro k
    constructor <;> simp [tirSt, filmData, wavelength, aoi, psi, delta, len, access, pick]
  have hv : ∀ k, 0 ≤ k → PointVal env.ext env.zs env.dt (tirSt (ψ (3 / 2)) (Δ (3 / 2)) k).vals ⟨7, false⟩ tirStruct
      (500, 45) (some (ψ k), some (Δ k)) := by
    intro k hk
    exact ⟨_, _, tir_slabs env.ext _ _ k 500, hok k hk, by rw [hdt]; rfl⟩
  have hrange : 0 ≤ Δ (3 / 2) ∧ Δ (3 / 2) ≤ 360 := by
    have := hv (3 / 2) (by norm_num)
    rw [hdt] at this
    have := delta_range this rfl
    simpa [tirSt] using this
  let c : ℝ → ℝ := fun k => sqTerm (500, 45, ψ (3 / 2), Δ (3 / 2)) (ψ k, Δ k)
  have hval : ∀ k ∈ Set.Icc (1 : ℝ) 2, (chisqr env { model := 0, data := filmData false } none
      (tirSt (ψ (3 / 2)) (Δ (3 / 2)) k)).1 = .ok (some (c k)) := by
    intro k hk
    rw [chisqr_iff (o := { model := 0, data := filmData false }) (hd k)]
    exact ⟨[(ψ k, Δ k)], values_iff.mpr (.cons (hv k (by linarith [hk.1])) .nil), by simp [c]⟩
  have hc0 : c (3 / 2) = 0 := by simp [c, sqTerm, circularDistance]
  have hcn : ∀ k, 0 ≤ c k := fun k => by simp only [c, sqTerm]; positivity
  have hang : |rad 45| < Real.pi / 2 := by
    rw [show rad 45 = Real.pi / 4 by unfold rad; ring, abs_of_pos (by positivity)]
    linarith
  have hdef : ∀ k0 ∈ Set.Icc (1 : ℝ) 2, Deforms env { model := 0, data := filmData false }
      (fun k => tirSt (ψ (3 / 2)) (Δ (3 / 2)) |k|) [(500, 45, ψ (3 / 2), Δ (3 / 2))] ⟨⟨7, false⟩, 0⟩ tirStruct
      [dry (.const 658 2 0), .slab 0 (fun v => .const 658 1 (v 5)) 1 2 true] k0 := by
    intro k0 hk0
    refine ⟨hdt, fun _ => rfl, fun _ => rfl,
      plain_of rfl (by simp) (by simp [dry, Comp.isSlab, Comp.dflt]) le_rfl (.inl rfl), continuousAt_const,
      fun _ => hd _, ?_⟩
    intro pt hpt
    rw [List.mem_singleton] at hpt
    subst hpt
    refine ⟨fun _ => 2, [], fun k => ⟨1, |k|⟩, ⟨continuousAt_const, continuousAt_const, continuousAt_const, by simp, ?_,
      ?_, by simp, ?_⟩, ?_⟩
    · have : (fun k : ℝ => (⟨1, |k|⟩ : ℂ)) = fun k => 1 + ((|k| : ℝ) : ℂ) * Complex.I := by
        funext k; simp [Complex.ext_iff]
      rw [this]
      fun_prop
    · exact Eventually.of_forall fun k => physical_bare ⟨one_pos, abs_nonneg k⟩ two_pos hang (by norm_num)
    · exact .inl (.inl (by simpa using (by linarith [hk0.1] : 0 < k0).ne'))
    · refine Eventually.of_forall fun k => ?_
      have h5 : (tirSt (ψ (3 / 2)) (Δ (3 / 2)) |k|).vals 5 = |k| := by simp [tirSt]
      refine ⟨_, [], _, ⟨2, 0⟩, ⟨1, |k|⟩, rfl, .slab (const_material _ _ two_pos), rfl, .slab ?_, rfl, .nil⟩
      refine ⟨⟨658, rfl⟩, ?_, one_pos, abs_nonneg k⟩
      simp only [h5, Disp.Scat.at, stackAt]
  refine ⟨ψ (3 / 2), Δ (3 / 2), c, hrange.1, hrange.2, hval, ⟨hdef, ?_, fun k hk => by
      rw [abs_of_nonneg (by linarith [hk.1])]; exact hval k hk⟩, hc0, ?_⟩
  · refine fun x _ => Eventually.of_forall fun y pt hpt => ?_
    rw [List.mem_singleton] at hpt
    subst hpt
    have h7 : (tirSt (ψ (3 / 2)) (Δ (3 / 2)) |y|).vals 7 = 0 := rfl
    rw [h7]
    constructor <;> linarith [hrange.1, hrange.2]
  · intro k hk hmin
    have h0 : c k = 0 := le_antisymm (by rw [← hc0]; exact hmin _ (by norm_num)) (hcn k)
    have h0' : (ψ k - ψ (3 / 2)) ^ 2 + circularDistance (Δ k) (Δ (3 / 2)) 360 ^ 2 = 0 := h0
    have a1 : ψ k - ψ (3 / 2) = 0 := by
      nlinarith [sq_nonneg (ψ k - ψ (3 / 2)), sq_nonneg (circularDistance (Δ k) (Δ (3 / 2)) 360)]
    have a2 : circularDistance (Δ k) (Δ (3 / 2)) 360 = 0 := by
      nlinarith [sq_nonneg (ψ k - ψ (3 / 2)), sq_nonneg (circularDistance (Δ k) (Δ (3 / 2)) 360)]
    obtain ⟨m, hm⟩ := circular_zero a2
    have e : -(Complex.I * ((rad (Δ (3 / 2) + 360 * m) : ℝ) : ℂ)) =
        -(Complex.I * (rad (Δ (3 / 2)) : ℝ)) - (m : ℂ) * (2 * Real.pi * Complex.I) := by
      unfold rad; push_cast; ring
    have r1 := hrel k (by linarith [hk.1])
    have r2 := hrel (3 / 2) (by norm_num)
    rw [sub_eq_zero.mp a1, hm, e, Complex.exp_sub, Complex.exp_int_mul_two_pi_mul_I, div_one] at r1
    generalize (Real.tan (rad (ψ (3 / 2))) : ℂ) * Complex.exp (-(Complex.I * (rad (Δ (3 / 2)) : ℝ))) = ρ at r1 r2
    have h2 : (2 * (Real.sqrt 2 : ℂ)) ≠ 0 := mul_ne_zero two_ne_zero (Complex.ofReal_ne_zero.mpr hsp.ne')
    have hρ : 1 + ρ ≠ 0 := by
      intro h
      have : (2 * (Real.sqrt 2 : ℂ)) = 0 := by linear_combination (Real.sqrt 2 + q (3 / 2)) * h - r2
      exact h2 this
    have hq : q k = q (3 / 2) := mul_left_cancel₀ hρ (by linear_combination r1 - r2)
    have e1 := congrArg Complex.im (hq2 k (by linarith [hk.1]))
    have e2 := congrArg Complex.im (hq2 (3 / 2) (by norm_num))
    rw [hq, e2] at e1
    simp [sq] at e1
    linarith

/-- Fits whose chi-squared tends to 0 tend to the coefficient that the data were made with. -/
example (env : Env) (hdt : env.dt = .float) : ∃ (ψ Δ : ℝ) (c : ℝ → ℝ),
    (∀ k ∈ Set.Icc (1 : ℝ) 2,
      (chisqr env { model := 0, data := filmData false } none (tirSt ψ Δ k)).1 = .ok (some (c k))) ∧
    ∀ k : ℕ → ℝ, (∀ i, k i ∈ Set.Icc (1 : ℝ) 2) → Tendsto (fun i => c (k i)) atTop (𝓝 0) →
      Tendsto k atTop (𝓝 (3 / 2)) := by
  obtain ⟨ψ, Δ, c, -, -, hval, hS, h0, huniq⟩ := tir_searches env hdt
  exact ⟨ψ, Δ, c, hval, fun k hk ht => C167_converges_partial hS isCompact_Icc (by norm_num) huniq hk
    (by rw [h0]; exact ht)⟩

/-! ### Total reflection -/

/-- C167 fails at total reflection: data for which chi-squared gets as small as one likes as the extinction coefficient
of the backing medium varies between 0 and 1, but is never the smallest. -/
theorem C167_fails (env : Env) (hdt : env.dt = .float) : ∃ (ψ Δ : ℝ) (C : ℝ → ℝ),
    (∀ k ∈ Set.Icc (0 : ℝ) 1,
      (chisqr env { model := 0, data := filmData false } none (tirSt ψ Δ k)).1 = .ok (some (C k))) ∧
    ∀ k ∈ Set.Icc (0 : ℝ) 1, ∃ k' ∈ Set.Icc (0 : ℝ) 1, C k' < C k := by
  have hpi := Real.pi_pos
  obtain ⟨ψ, Δ, q, hψ, hok, hrel, hq2, hq0, hqpos⟩ := tir_results env.zs
  have hs2 : Real.sqrt 2 ^ 2 = 2 := Real.sq_sqrt (by norm_num)
  have hsp : 0 < Real.sqrt 2 := by positivity
  set ρ : ℝ → ℂ := fun k => (Real.tan (rad (ψ k)) : ℂ) * Complex.exp (-(Complex.I * (rad (Δ k) : ℝ)))
  set σ : ℂ := (Real.sqrt 2 - Complex.I) / (Real.sqrt 2 + Complex.I)
  have hden : (Real.sqrt 2 : ℂ) + Complex.I ≠ 0 := by
    intro h
    have := congrArg Complex.im h
    simp at this
  have hσn : ‖σ‖ = 1 := by
    have e : (Real.sqrt 2 : ℂ) - Complex.I = (starRingEnd ℂ) (Real.sqrt 2 + Complex.I) := by simp [sub_eq_add_neg]
    rw [norm_div, e, Complex.norm_conj, div_self (norm_ne_zero_iff.mpr hden)]
  -- the angle of the limit
  obtain ⟨D, hD0, hD1, hD⟩ : ∃ D : ℝ, 0 ≤ D ∧ D ≤ 360 ∧ Complex.exp (-(Complex.I * (rad D : ℝ))) = σ := by
    have h1 := Complex.neg_pi_lt_arg σ
    have h2 := Complex.arg_le_pi σ
    have h3 := Complex.norm_mul_exp_arg_mul_I σ
    rw [hσn, Complex.ofReal_one, one_mul] at h3
    by_cases ha : σ.arg ≤ 0
    · refine ⟨-σ.arg * (180 / Real.pi), mul_nonneg (by linarith) (by positivity), ?_, ?_⟩
      · calc -σ.arg * (180 / Real.pi) ≤ Real.pi * (180 / Real.pi) := by gcongr; linarith
          _ ≤ 360 := by field_simp; norm_num
      · have e : rad (-σ.arg * (180 / Real.pi)) = -σ.arg := by unfold rad; field_simp
        rw [e, ← h3]
        congr 1
        push_cast
        rw [h3]
        ring
    · push Not at ha
      refine ⟨(2 * Real.pi - σ.arg) * (180 / Real.pi), mul_nonneg (by linarith) (by positivity), ?_, ?_⟩
      · calc (2 * Real.pi - σ.arg) * (180 / Real.pi) ≤ 2 * Real.pi * (180 / Real.pi) := by gcongr; linarith
          _ ≤ 360 := by field_simp; norm_num
      · have e : rad ((2 * Real.pi - σ.arg) * (180 / Real.pi)) = 2 * Real.pi - σ.arg := by unfold rad; field_simp
        rw [e]
        have e2 : -(Complex.I * ((2 * Real.pi - σ.arg : ℝ) : ℂ)) = (σ.arg : ℂ) * Complex.I - 2 * Real.pi * Complex.I := by
          push_cast; ring
        rw [e2, Complex.exp_sub, Complex.exp_two_pi_mul_I, div_one, h3]
  have hd : ∀ k, Presents (tirSt 45 D k).heap (filmData false) [(500, 45, 45, D)] := by
    intro k
    constructor <;> simp [tirSt, filmData, wavelength, aoi, psi, delta, len, access, pick]
  have hv : ∀ k, 0 ≤ k → PointVal env.ext env.zs env.dt (tirSt 45 D k).vals ⟨7, false⟩ tirStruct (500, 45)
      (some (ψ k), some (Δ k)) := by
    intro k hk
    exact ⟨_, _, tir_slabs env.ext 45 D k 500, hok k hk, by rw [hdt]; rfl⟩
  have hrange : ∀ k, 0 ≤ k → 0 ≤ Δ k ∧ Δ k ≤ 360 := by
    intro k hk
    have := hv k hk
    rw [hdt] at this
    have := delta_range this rfl
    simpa [tirSt] using this
  let C : ℝ → ℝ := fun k => sqTerm (500, 45, 45, D) (ψ k, Δ k)
  have hqs : ∀ k, 0 ≤ k → (Real.sqrt 2 : ℂ) + q k ≠ 0 := by
    intro k hk hz
    have e := hrel k hk
    rw [hz, mul_zero] at e
    have : (Real.sqrt 2 : ℂ) = 0 := by linear_combination (hz - e) / 2
    exact hsp.ne' (by exact_mod_cast this)
  have hρ : ∀ k, 0 ≤ k → ρ k = (Real.sqrt 2 - q k) / (Real.sqrt 2 + q k) := fun k hk => by
    rw [eq_div_iff (hqs k hk)]; exact hrel k hk
  have hpos : ∀ k, 0 ≤ k → 0 < C k := by
    intro k hk
    have hnn : 0 ≤ C k := by simp only [C, sqTerm]; positivity
    refine lt_of_le_of_ne hnn fun h0 => ?_
    have h0' : (ψ k - 45) ^ 2 + circularDistance (Δ k) D 360 ^ 2 = 0 := h0.symm
    have a1 : ψ k - 45 = 0 := by nlinarith [sq_nonneg (ψ k - 45), sq_nonneg (circularDistance (Δ k) D 360)]
    have a2 : circularDistance (Δ k) D 360 = 0 := by
      nlinarith [sq_nonneg (ψ k - 45), sq_nonneg (circularDistance (Δ k) D 360)]
    obtain ⟨m, hm⟩ := circular_zero a2
    have b1 : ρ k = σ := by
      have e45 : rad (ψ k) = Real.pi / 4 := by rw [sub_eq_zero.mp a1]; unfold rad; ring
      simp only [ρ]
      rw [e45, Real.tan_pi_div_four, hm, Complex.ofReal_one, one_mul, ← hD]
      have e : -(Complex.I * ((rad (D + 360 * m) : ℝ) : ℂ)) =
          -(Complex.I * (rad D : ℝ)) - (m : ℂ) * (2 * Real.pi * Complex.I) := by
        unfold rad; push_cast; ring
      rw [e, Complex.exp_sub, Complex.exp_int_mul_two_pi_mul_I, div_one]
    have b2 : q k = Complex.I := by
      rw [hρ k hk] at b1
      simp only [σ] at b1
      rw [div_eq_div_iff (hqs k hk) hden] at b1
      have h2 : (2 * (Real.sqrt 2 : ℂ)) ≠ 0 := mul_ne_zero two_ne_zero (Complex.ofReal_ne_zero.mpr hsp.ne')
      refine mul_left_cancel₀ h2 ?_
      linear_combination -b1
    rcases hk.eq_or_lt with rfl | hk'
    · rw [b2] at hq0
      norm_num at hq0
    · have e := congrArg Complex.im (hq2 k hk)
      rw [b2] at e
      simp [sq] at e
      exact hk'.ne' e
  -- the limit
  have hqlim : Tendsto q (𝓝[>] 0) (𝓝 Complex.I) := by
    rw [tendsto_iff_norm_sub_tendsto_zero]
    have hb : Tendsto (fun k : ℝ => ‖(-(k : ℂ) ^ 2 + 2 * Complex.I * k)‖) (𝓝[>] 0) (𝓝 0) := by
      have : Continuous fun k : ℝ => ‖(-(k : ℂ) ^ 2 + 2 * Complex.I * k)‖ := by fun_prop
      have := (this.tendsto 0).mono_left (nhdsWithin_le_nhds (s := Set.Ioi 0))
      simpa using this
    refine squeeze_zero' (Eventually.of_forall fun _ => norm_nonneg _) ?_ hb
    filter_upwards [self_mem_nhdsWithin] with k hk
    have hk' : 0 < k := hk
    have e : (q k - Complex.I) * (q k + Complex.I) = -(k : ℂ) ^ 2 + 2 * Complex.I * k := by
      have := hq2 k hk'.le
      linear_combination this - Complex.I_sq
    rw [← e, norm_mul]
    have h1 : 1 ≤ ‖q k + Complex.I‖ := by
      have h2 := Complex.abs_im_le_norm (q k + Complex.I)
      have h3 := hqpos k hk'
      rw [Complex.add_im, Complex.I_im, abs_of_pos (by linarith)] at h2
      linarith
    nlinarith [norm_nonneg (q k - Complex.I)]
  have hρlim : Tendsto ρ (𝓝[>] 0) (𝓝 σ) := by
    have : Tendsto (fun k => (Real.sqrt 2 - q k) / (Real.sqrt 2 + q k)) (𝓝[>] 0) (𝓝 σ) :=
      (tendsto_const_nhds.sub hqlim).div (tendsto_const_nhds.add hqlim) hden
    refine this.congr' ?_
    filter_upwards [self_mem_nhdsWithin] with k hk
    exact (hρ k (le_of_lt hk)).symm
  have hrad : ∀ k, 0 ≤ k → 0 < rad (ψ k) ∧ rad (ψ k) < Real.pi / 2 := by
    intro k hk
    obtain ⟨h1, h2⟩ := hψ k hk
    refine ⟨by unfold rad; positivity, ?_⟩
    unfold rad
    calc ψ k * (Real.pi / 180) < 90 * (Real.pi / 180) := by gcongr
      _ = Real.pi / 2 := by ring
  have hexp : ∀ x : ℝ, ‖Complex.exp (-(Complex.I * (x : ℂ)))‖ = 1 := fun x => by
    rw [show -(Complex.I * (x : ℂ)) = ((-x : ℝ) : ℂ) * Complex.I by push_cast; ring, Complex.norm_exp_ofReal_mul_I]
  have htan : ∀ k, 0 ≤ k → ‖ρ k‖ = Real.tan (rad (ψ k)) := by
    intro k hk
    obtain ⟨h1, h2⟩ := hrad k hk
    simp only [ρ]
    rw [norm_mul, hexp, mul_one, Complex.norm_real, Real.norm_eq_abs,
      abs_of_pos (Real.tan_pos_of_pos_of_lt_pi_div_two h1 h2)]
  have hψlim : Tendsto ψ (𝓝[>] 0) (𝓝 45) := by
    have h1 : Tendsto (fun k => Real.arctan ‖ρ k‖ * (180 / Real.pi)) (𝓝[>] 0) (𝓝 45) := by
      have := ((Real.continuous_arctan.tendsto _).comp hρlim.norm).mul_const (180 / Real.pi)
      rw [hσn, Real.arctan_one, show Real.pi / 4 * (180 / Real.pi) = 45 by field_simp; norm_num] at this
      exact this
    refine h1.congr' ?_
    filter_upwards [self_mem_nhdsWithin] with k hk
    obtain ⟨h2, h3⟩ := hrad k (le_of_lt hk)
    rw [htan k (le_of_lt hk), Real.arctan_tan (by linarith) h3]
    unfold rad
    field_simp
  have hDlim : Tendsto (fun k => circularDistance (Δ k) D 360) (𝓝[>] 0) (𝓝 0) := by
    have hcos : ∀ k, 0 ≤ k → Real.cos (rad (Δ k - D)) = (ρ k / ‖ρ k‖ * (starRingEnd ℂ) σ).re := by
      intro k hk
      obtain ⟨h1, h2⟩ := hrad k hk
      have ht := Real.tan_pos_of_pos_of_lt_pi_div_two h1 h2
      have e1 : ρ k / ‖ρ k‖ = Complex.exp (-(Complex.I * (rad (Δ k) : ℝ))) := by
        rw [htan k hk]
        simp only [ρ]
        rw [mul_div_assoc, mul_comm, div_mul_cancel₀ _ (Complex.ofReal_ne_zero.mpr ht.ne')]
      rw [e1, ← hD, ← Complex.exp_conj, ← Complex.exp_add]
      have e2 : -(Complex.I * (rad (Δ k) : ℝ)) + (starRingEnd ℂ) (-(Complex.I * (rad D : ℝ))) =
          ((-(rad (Δ k - D)) : ℝ) : ℂ) * Complex.I := by
        simp only [map_neg, map_mul, Complex.conj_I, Complex.conj_ofReal]
        unfold rad; push_cast; ring
      rw [e2, Complex.exp_ofReal_mul_I_re, Real.cos_neg]
    have hlim : Tendsto (fun k => (ρ k / ‖ρ k‖ * (starRingEnd ℂ) σ).re) (𝓝[>] 0) (𝓝 1) := by
      have hn : ((‖σ‖ : ℝ) : ℂ) ≠ 0 := by rw [hσn]; simp
      have h1 := ((hρlim.div ((Complex.continuous_ofReal.tendsto _).comp hρlim.norm) hn).mul_const
        ((starRingEnd ℂ) σ))
      have h2 := (Complex.continuous_re.tendsto _).comp h1
      have e : (σ / ((‖σ‖ : ℝ) : ℂ) * (starRingEnd ℂ) σ).re = 1 := by
        rw [hσn, Complex.ofReal_one, div_one, Complex.mul_conj, Complex.normSq_eq_norm_sq, hσn]
        norm_num
      rw [e] at h2
      exact h2
    have h3 : Tendsto (fun k => Real.arccos (ρ k / ‖ρ k‖ * (starRingEnd ℂ) σ).re * (180 / Real.pi)) (𝓝[>] 0) (𝓝 0) := by
      have := ((Real.continuous_arccos.tendsto _).comp hlim).mul_const (180 / Real.pi)
      rw [Real.arccos_one, zero_mul] at this
      exact this
    refine h3.congr' ?_
    filter_upwards [self_mem_nhdsWithin] with k hk
    have r1 := hrange k (le_of_lt hk)
    rw [C80_partial (by norm_num) (by rw [abs_le]; constructor <;> linarith), circDist_arccos, hcos k (le_of_lt hk)]
  have hC : Tendsto C (𝓝[>] 0) (𝓝 0) := by
    have := ((hψlim.sub_const 45).pow 2).add (hDlim.pow 2)
    simpa [C, sqTerm] using this
  refine ⟨45, D, C, ?_, ?_⟩
  · intro k hk
    rw [chisqr_iff (o := { model := 0, data := filmData false }) (hd k)]
    exact ⟨[(ψ k, Δ k)], values_iff.mpr (.cons (hv k hk.1) .nil), by simp [C]⟩
  · intro k hk
    have h1 := hC (Iio_mem_nhds (hpos k hk.1))
    have h2 : ∀ᶠ x : ℝ in 𝓝[>] 0, x ≤ 1 :=
      mem_nhdsWithin_of_mem_nhds (Iic_mem_nhds one_pos)
    have h6 : ∀ᶠ x : ℝ in 𝓝[>] 0, C x < C k := h1
    have h7 : ∀ᶠ x : ℝ in 𝓝[>] 0, 0 < x := self_mem_nhdsWithin
    obtain ⟨k', ⟨h3, h4⟩, h5⟩ := ((h6.and h2).and h7).exists
    exact ⟨k', ⟨h5.le, h4⟩, h3⟩

end Verif.Obj
