import Verif.Obj.PropsProbable
import Verif.Obj.PropsBounded
import Mathlib.MeasureTheory.Function.LocallyIntegrable
import Mathlib.MeasureTheory.Integral.Bochner.Basic
import Mathlib.MeasureTheory.Measure.Lebesgue.Basic

/-! # C173: whether the posterior is a distribution

`logpost` is the logarithm of a density up to a constant.  A sampler needs the density to have a finite, positive integral over
all the vectors of values for the varying parameters. -/

namespace Verif.Obj
open Verif.Struct Verif.TMM Verif.RModel Verif.Data Filter Topology MeasureTheory

variable {env : Env} {o : Objective}

/-- Spec: the posterior density, up to a constant, of a vector of values for the varying parameters: 0 where
`objective.logpost` is -inf or raises. -/
noncomputable def density (env : Env) (o : Objective) (st : St) {n : ℕ} (x : Fin n → ℝ) : ℝ :=
  match (logpost env o (some (List.ofFn x)) st).1 with
  | .ok (some u) => Real.exp u
  | _ => 0

theorem density_nonneg (env : Env) (o : Objective) (st : St) {n : ℕ} (x : Fin n → ℝ) : 0 ≤ density env o st x := by
  unfold density
  split
  · exact (Real.exp_pos _).le
  · exact le_rfl

/-- C173 (partial): with flat priors between finite bounds, and a model that deforms continuously within them, the density has
a finite, positive integral.  Missing: families outside `Deforms`, and `lnsigma`, for which the density may jump where delta
wraps around (`C173_proper_prior` covers them if the density is measurable). -/
theorem C173_proper_partial {st : St} {pts pts' : List Pt} (hp : Presents st.heap o.data pts) (hs : o.lnsigma = none)
    {lo hi : PId → ℝ} (hf : Flat env o st lo hi) (hlt : ∀ q ∈ varying env o st, lo q < hi q) {M : MObj}
    {s : Structure} {cs : List Comp} {n : ℕ} (hn : n = (varying env o st).length) {c : (Fin n → ℝ) → ℝ}
    (h : Searches env o (fun p => (setp env o (some (List.ofFn p)) st).2) pts' M s cs
      {p | Within env o st lo hi (List.ofFn p)} c) :
    Integrable (density env o st : (Fin n → ℝ) → ℝ) ∧ 0 < ∫ x : Fin n → ℝ, density env o st x := by
  have hset : {p : Fin n → ℝ | Within env o st lo hi (List.ofFn p)} =
      Set.Icc (fun i : Fin n => lo ((varying env o st).getD i 0)) fun i => hi ((varying env o st).getD i 0) :=
    Set.ext fun p => within_iff hn
  have hK : IsCompact {p : Fin n → ℝ | Within env o st lo hi (List.ofFn p)} := by
    rw [hset]; exact isCompact_Icc
  obtain ⟨K, hlog⟩ := flat_logpost hp hs hf
  have hc := h.continuousOn
  have hin : ∀ p : Fin n → ℝ, Within env o st lo hi (List.ofFn p) → density env o st p = Real.exp (K - c p / 2) := by
    intro p hw
    have h1 : (chisqr env o (some (List.ofFn p)) st).1 = .ok (some (c p)) := by
      rw [chisqr_set (by simpa using hn)]
      exact h.value p hw
    have h2 := (((hlog (List.ofFn p) (by simpa using hn)).1 hw _).mpr ⟨_, h1, rfl⟩)
    simp only [density, h2]
  have hout : ∀ p : Fin n → ℝ, ¬ Within env o st lo hi (List.ofFn p) → density env o st p = 0 := by
    intro p hw
    simp only [density, (hlog (List.ofFn p) (by simpa using hn)).2 hw]
  have hcont : ContinuousOn (fun p : Fin n → ℝ => Real.exp (K - c p / 2))
      {p : Fin n → ℝ | Within env o st lo hi (List.ofFn p)} :=
    Real.continuous_exp.comp_continuousOn (continuousOn_const.sub (hc.div_const 2))
  have he : (density env o st : (Fin n → ℝ) → ℝ) =
      Set.indicator {p : Fin n → ℝ | Within env o st lo hi (List.ofFn p)} fun p => Real.exp (K - c p / 2) := by
    funext p
    by_cases hw : Within env o st lo hi (List.ofFn p)
    · rw [Set.indicator_of_mem (by exact hw), hin p hw]
    · rw [Set.indicator_of_notMem (by exact hw), hout p hw]
  have hint : Integrable (density env o st : (Fin n → ℝ) → ℝ) := by
    rw [he, integrable_indicator_iff hK.measurableSet]
    exact hcont.integrableOn_compact hK
  refine ⟨hint, (integral_pos_iff_support_of_nonneg (density_nonneg env o st) hint).mpr ?_⟩
  have hsupp : Function.support (density env o st : (Fin n → ℝ) → ℝ) =
      {p : Fin n → ℝ | Within env o st lo hi (List.ofFn p)} := by
    ext p
    rw [Function.mem_support]
    constructor
    · intro hne
      by_contra hw
      exact hne (hout p hw)
    · intro hw
      rw [hin p hw]
      exact (Real.exp_pos _).ne'
  rw [hsupp, hset, Real.volume_Icc_pi, pos_iff_ne_zero, Finset.prod_ne_zero_iff]
  intro i _
  have hi' : (i : ℕ) < (varying env o st).length := hn ▸ i.2
  rw [ne_eq, ENNReal.ofReal_eq_zero, not_le, sub_pos]
  simp only [List.getD_eq_getElem?_getD, List.getElem?_eq_getElem hi', Option.getD_some]
  exact hlt _ (List.getElem_mem hi')

/-- What an angle contributes to the likelihood is bounded. -/
theorem contrib_le {w : Bool} {ln : Option ℝ} {m r B : ℝ} (hm : |m| ≤ 540) (hB : ∀ s ∈ ln, w = true → s ≤ B) :
    contrib w ln m r ≤ r ^ 2 + Real.log (2 * Real.pi * (1 + Real.exp (2 * B) * 540 ^ 2)) := by
  have hpi := Real.pi_gt_three
  have he := Real.exp_pos (2 * B)
  have hm2 : m ^ 2 ≤ 540 ^ 2 := sq_le_sq' (abs_le.mp hm).1 (abs_le.mp hm).2
  have hlog : 0 ≤ Real.log (2 * Real.pi * (1 + Real.exp (2 * B) * 540 ^ 2)) :=
    Real.log_nonneg (by nlinarith)
  have hs2 : ∃ s2, 1 ≤ s2 ∧ (w = true → s2 ≤ 1 + Real.exp (2 * B) * 540 ^ 2) ∧
      contrib w ln m r = r ^ 2 / s2 + if w then Real.log (2 * Real.pi * s2) else 0 := by
    refine ⟨_, ?_, ?_, rfl⟩
    · cases ln with
      | none => simp
      | some s => simp only [Option.elim_some, le_add_iff_nonneg_right]; positivity
    · intro hw
      cases ln with
      | none => simp only [Option.elim_none]; nlinarith
      | some s =>
        have h1 : Real.exp (2 * s) ≤ Real.exp (2 * B) := Real.exp_le_exp.mpr (by linarith [hB s rfl hw])
        simp only [Option.elim_some]
        have := mul_le_mul h1 hm2 (sq_nonneg m) he.le
        linarith
  obtain ⟨s2, h1, h2, he⟩ := hs2
  rw [he]
  have h3 : r ^ 2 / s2 ≤ r ^ 2 := div_le_self (sq_nonneg r) h1
  cases w with
  | false =>
    rw [if_neg (by simp)]
    exact add_le_add h3 hlog
  | true =>
    have h4 : Real.log (2 * Real.pi * s2) ≤ Real.log (2 * Real.pi * (1 + Real.exp (2 * B) * 540 ^ 2)) :=
      Real.log_le_log (by nlinarith) (mul_le_mul_of_nonneg_left (h2 rfl) (by linarith))
    rw [if_pos rfl]
    exact add_le_add h3 h4

/-- If chi-squared is finite then the log-likelihood is finite and not below a bound that depends on the number of points only. -/
theorem logl_ge {st : St} {pts : List Pt} (hp : Presents st.heap o.data pts) (hdt : env.dt = .float)
    (hoff : |st.vals (st.models o.model).rm.off| ≤ 180) (hs : Sane pts) {B : ℝ}
    (hB : ∀ q ∈ o.lnsigma, o.weighted = true → st.vals q ≤ B) {a : ℝ} (ha : (chisqr env o none st).1 = .ok (some a)) :
    ∃ l, (logl env o none st).1 = .ok l ∧
      -(pts.length * ((90 ^ 2 + 180 ^ 2) / 2 + Real.log (2 * Real.pi * (1 + Real.exp (2 * B) * 540 ^ 2)))) ≤ l := by
  obtain ⟨ms, hv, -⟩ := (chisqr_iff hp).mp ha
  refine ⟨_, (logl_iff hp).mpr ⟨ms, hv, rfl⟩, ?_⟩
  have hb := cell_bounds hdt hoff hs hv
  have hl : pts.length = ms.length := by simpa [cellsOf] using hv.length_eq
  have hln : ∀ s ∈ o.lnsigma.map st.vals, o.weighted = true → s ≤ B := by
    intro s hs hw
    rw [Option.mem_def, Option.map_eq_some_iff] at hs
    obtain ⟨q, hq, rfl⟩ := hs
    exact hB q hq hw
  set L := Real.log (2 * Real.pi * (1 + Real.exp (2 * B) * 540 ^ 2)) with hL
  have hpt : ∀ y ∈ pts.zip ms, -((90 ^ 2 + 180 ^ 2) / 2 + L) ≤ loglPt o.weighted (o.lnsigma.map st.vals) y.1 y.2 := by
    intro y hy
    have hy' : (y.1, (some y.2.1, some y.2.2)) ∈ pts.zip (cellsOf ms) := by
      rw [cellsOf, List.zip_map_right]
      exact List.mem_map.mpr ⟨y, hy, rfl⟩
    obtain ⟨h1, h2⟩ := hb _ hy'
    obtain ⟨⟨h3, h4⟩, h5⟩ := h1 _ rfl
    obtain ⟨h6, h7⟩ := h2 _ rfl
    have c1 := contrib_le (r := y.2.1 - y.1.2.2.1) (m := y.2.1) (abs_le.mpr ⟨by linarith, by linarith⟩) hln
    have c2 := contrib_le (r := circularDistance y.2.2 y.1.2.2.2 360) h6 hln
    have s1 := sq_le_sq' (abs_le.mp h5).1 (abs_le.mp h5).2
    have s2 := sq_le_sq' (abs_le.mp h7).1 (abs_le.mp h7).2
    simp only [loglPt]
    linarith
  have hlen : (pts.zip ms).length = pts.length := by rw [List.length_zip, ← hl, min_self]
  rw [← hlen]
  clear hb hlen hl hv
  generalize pts.zip ms = zs at hpt
  induction zs with
  | nil => simp
  | cons y l ih =>
    have h1 := hpt y (by simp)
    have h2 := ih fun z hz => hpt z (List.mem_cons_of_mem _ hz)
    simp only [List.map_cons, List.sum_cons, List.length_cons]
    push_cast
    linarith

/-- C173: where the prior is flat over a set of infinite volume, chi-squared is finite, the offset is at most half a turn and
`lnsigma`, if it is used with weights, is bounded above, the integral of the density is infinite, whatever the data (psi
between 0 and 90 and delta between 0 and 360) and the model: no choice of a constant makes it a distribution. -/
theorem C173_improper {st : St} {pts : List Pt} (hp : Presents st.heap o.data pts)
    (hdt : env.dt = .float) (hsane : Sane pts) {n : ℕ} (hn : n = (varying env o st).length) {S : Set (Fin n → ℝ)}
    (hS : MeasurableSet S) (hvol : volume S = ⊤) {K B : ℝ}
    (hflat : ∀ x ∈ S, (logp env o (some (List.ofFn x)) st).1 = .ok (some K))
    (hoff : ∀ x ∈ S, |(setp env o (some (List.ofFn x)) st).2.vals (st.models o.model).rm.off| ≤ 180)
    (hB : ∀ x ∈ S, ∀ q ∈ o.lnsigma, o.weighted = true → (setp env o (some (List.ofFn x)) st).2.vals q ≤ B)
    (hfin : ∀ x ∈ S, ∃ a, (chisqr env o (some (List.ofFn x)) st).1 = .ok (some a)) :
    ∫⁻ x : Fin n → ℝ, ENNReal.ofReal (density env o st x) = ⊤ ∧
      ¬ Integrable (density env o st : (Fin n → ℝ) → ℝ) := by
  set m : ℝ := Real.exp (K - pts.length * ((90 ^ 2 + 180 ^ 2) / 2 +
    Real.log (2 * Real.pi * (1 + Real.exp (2 * B) * 540 ^ 2)))) with hm
  have hge : ∀ x ∈ S, m ≤ density env o st x := by
    intro x hx
    have hl : (List.ofFn x).length = (varying env o st).length := by simpa using hn
    have hset : setp env o (some (List.ofFn x)) st =
        (.ok (), { st with vals := assign (varying env o st) (List.ofFn x) st.vals }) := by
      rw [setp, if_pos hl]
    obtain ⟨a, ha⟩ := hfin x hx
    have ho := hoff x hx
    have hk := hflat x hx
    have hb := hB x hx
    rw [chisqr_set hl, hset] at ha
    rw [hset] at ho hb
    unfold logp at hk
    rw [hset] at hk
    simp only [Except.ok.injEq] at hk
    obtain ⟨l, hlog, hle⟩ := logl_ge (st := { st with vals := assign (varying env o st) (List.ofFn x) st.vals }) hp hdt ho
      hsane hb ha
    have hpost : (logpost env o (some (List.ofFn x)) st).1 = .ok (some (K + l)) := by
      unfold logpost
      rw [hset]
      simp only [logp, setp, hk]
      rcases hr : logl env o none { st with vals := assign (varying env o st) (List.ofFn x) st.vals } with ⟨r, s'⟩
      rw [hr] at hlog
      simp only at hlog
      rw [hlog]
    simp only [density, hpost, hm]
    apply Real.exp_le_exp.mpr
    linarith
  have hpos : 0 < m := Real.exp_pos _
  have htop : ∫⁻ x : Fin n → ℝ, ENNReal.ofReal (density env o st x) = ⊤ := by
    rw [eq_top_iff]
    calc ⊤ = ENNReal.ofReal m * volume S := by
          rw [hvol, ENNReal.mul_top (by simpa using hpos)]
      _ = ∫⁻ x in S, ENNReal.ofReal m := by rw [lintegral_const, Measure.restrict_apply_univ]
      _ ≤ ∫⁻ x in S, ENNReal.ofReal (density env o st x) :=
          setLIntegral_mono' hS fun x hx => ENNReal.ofReal_le_ofReal (hge x hx)
      _ ≤ ∫⁻ x, ENNReal.ofReal (density env o st x) := setLIntegral_le_lintegral _ _
  refine ⟨htop, fun hint => ?_⟩
  have := hint.lintegral_lt_top
  rw [htop] at this
  exact lt_irrefl _ this

/-! ### The thickness of a film -/

section
variable {X Y : Type*} [TopologicalSpace X] [TopologicalSpace Y]

theorem Regular.comp {s : X → ℝ} {n : X → ℂ} {f : Y → X} {y0 : Y} (hf : ContinuousAt f y0) (h : Regular s n (f y0)) :
    Regular (fun y => s (f y)) (fun y => n (f y)) y0 := by
  rcases h with h | h | h | h
  · exact .inl h
  · exact .inr (.inl h)
  · exact .inr (.inr (.inl (hf.eventually h)))
  · exact .inr (.inr (.inr ⟨h.1, hf.eventually h.2⟩))

/-- A family that deforms continuously does so in terms of any parameters that the original ones depend on continuously. -/
theorem Deforms.comp {st : X → St} {pts : List Pt} {M : MObj} {s : Structure} {cs : List Comp} {f : Y → X} {y0 : Y}
    (hf : ContinuousAt f y0) (h : Deforms env o st pts M s cs (f y0)) : Deforms env o (fun y => st (f y)) pts M s cs y0 where
  float := h.float
  model := fun y => h.model (f y)
  struct := fun y => h.struct (f y)
  plain := h.plain
  offset := h.offset.comp hf
  data := fun y => h.data (f y)
  stack := by
    intro pt hpt
    obtain ⟨n₀, films, nb, hv, hs⟩ := h.stack pt hpt
    have hst : ∀ y, stackAt (fun y => n₀ (f y)) (films.map fun g => (fun y => g.1 (f y), fun y => g.2 (f y)))
        (fun y => nb (f y)) y = stackAt n₀ films nb (f y) := by
      intro y
      simp [stackAt, Function.comp_def]
    refine ⟨fun y => n₀ (f y), films.map fun g => (fun y => g.1 (f y), fun y => g.2 (f y)), fun y => nb (f y),
      ⟨hv.front.comp hf, continuousAt_const, continuousAt_const, ?_, hv.back.comp hf, ?_, ?_, ?_⟩, ?_⟩
    · intro g hg
      rw [List.mem_map] at hg
      obtain ⟨g, hg, rfl⟩ := hg
      exact ⟨(hv.layers g hg).1.comp hf, (hv.layers g hg).2.comp hf⟩
    · filter_upwards [hf.eventually hv.physical] with y hy
      rw [hst]
      exact hy
    · intro g hg
      rw [List.mem_map] at hg
      obtain ⟨g, hg, rfl⟩ := hg
      rcases hv.films_regular g hg with h1 | h1
      · exact .inl (Regular.comp (s := fun x => n₀ x * Real.sin (rad pt.2.1)) hf h1)
      · exact .inr h1
    · rcases hv.back_regular with h1 | h1
      · exact .inl (Regular.comp (s := fun x => n₀ x * Real.sin (rad pt.2.1)) hf h1)
      · exact .inr h1
    · filter_upwards [hf.eventually hs] with y hy
      rw [hst]
      exact hy

end

/-- The thickness of a film can be given a density with bounds or without an upper one. -/
noncomputable def thickEnv (ext : Ext) (zs : List Layer → ℝ → ℝ → Bool) (hi : Option ℝ) : Env :=
  { exEnv ext zs [4, 1, 2] with
    logp := fun _ x => open Classical in if 100 ≤ x ∧ (∀ b ∈ hi, x ≤ b) then some 0 else none }

def thickObj : Objective := { model := 0, data := filmData false }

theorem thick_varying (ext : Ext) (zs : List Layer → ℝ → ℝ → Bool) (hi : Option ℝ) (ψ Δ x : ℝ) :
    varying (thickEnv ext zs hi) thickObj (filmStAt ψ Δ x) = [4] := by
  change unique (List.filter (fun p => p == 4) [7, 4, 1, 2]) = [4]
  decide

theorem thick_set (ext : Ext) (zs : List Layer → ℝ → ℝ → Bool) (hi : Option ℝ) (ψ Δ x : ℝ) (p : Fin 1 → ℝ) :
    setp (thickEnv ext zs hi) thickObj (some (List.ofFn p)) (filmStAt ψ Δ x) = (.ok (), filmStAt ψ Δ (p 0)) := by
  rw [show List.ofFn p = [p 0] by simp, setp, if_pos (by rw [thick_varying]; rfl), thick_varying]
  simp [assign, filmStAt]

/-- Non-vacuity of `C173_improper`: with a flat prior on all the thicknesses above 100 Angstrom, the posterior of the
thickness of a film is not a distribution, whatever was measured. -/
example (ext : Ext) (zs : List Layer → ℝ → ℝ → Bool) (ψ Δ : ℝ) (hψ : 0 ≤ ψ ∧ ψ ≤ 90) (hΔ : 0 ≤ Δ ∧ Δ ≤ 360) :
    ¬ Integrable (density (thickEnv ext zs none) thickObj (filmStAt ψ Δ 1250) : (Fin 1 → ℝ) → ℝ) := by
  have hv := thick_varying ext zs none ψ Δ 1250
  refine (C173_improper (o := thickObj) (pts := [(480, filmAoi, ψ, Δ)]) (K := 0) (B := 0)
    ((film_deforms (thickEnv ext zs none) rfl ψ Δ (x0 := 1) one_pos).data 1250) rfl ?_ (by rw [hv]; rfl)
    (S := {p : Fin 1 → ℝ | 100 ≤ p 0}) (measurableSet_le measurable_const (measurable_pi_apply 0)) ?_ ?_ ?_
    (fun _ _ q hq => by simp [thickObj] at hq) ?_).2
  · intro p hp
    rw [List.mem_singleton] at hp
    subst hp
    exact ⟨hψ, hΔ⟩
  · have : {p : Fin 1 → ℝ | 100 ≤ p 0} = Set.univ.pi fun _ : Fin 1 => Set.Ici (100 : ℝ) := by
      ext p
      rw [Set.mem_univ_pi]
      simp
    rw [this, volume_pi_pi]
    simp
  · intro p hp
    unfold logp
    rw [thick_set]
    simp only [thick_varying, Except.ok.injEq]
    rw [sumLogp_eq]
    refine ⟨[0], .cons ?_ .nil, by simp⟩
    simp only [thickEnv, filmStAt, Function.update_self]
    rw [if_pos ⟨hp, by simp⟩]
  · intro p hp
    rw [thick_set]
    change |(0 : ℝ)| ≤ 180
    norm_num
  · intro p hp
    have hp' : (100 : ℝ) ≤ p 0 := hp
    rw [chisqr_set (by rw [hv]; rfl), thick_set]
    exact film_value _ rfl ψ Δ (by linarith)

/-- The film above with a fixed thickness and a free `lnsigma`, without a lower bound. -/
noncomputable def sigEnv (ext : Ext) (zs : List Layer → ℝ → ℝ → Bool) : Env :=
  { exEnv ext zs [4, 1, 2] with logp := fun _ x => open Classical in if x ≤ 0 then some 0 else none }

def sigObj : Objective := { model := 0, data := filmData false, lnsigma := some 8 }

noncomputable def sigSt (ψ Δ s : ℝ) : St :=
  { filmSt ψ Δ with vals := Function.update (Function.update (fun _ => 0) 4 1250) 8 s, vary := fun p => p == 8 }

/-- Also non-vacuity of `C173_improper`: a free `lnsigma` with no lower bound spoils the posterior even if everything else is
known. -/
example (ext : Ext) (zs : List Layer → ℝ → ℝ → Bool) (ψ Δ : ℝ) (hψ : 0 ≤ ψ ∧ ψ ≤ 90) (hΔ : 0 ≤ Δ ∧ Δ ≤ 360) :
    ¬ Integrable (density (sigEnv ext zs) sigObj (sigSt ψ Δ 0) : (Fin 1 → ℝ) → ℝ) := by
  have hv : ∀ s, varying (sigEnv ext zs) sigObj (sigSt ψ Δ s) = [8] := by
    intro s
    change unique (List.filter (fun p => p == 8) [8, 7, 4, 1, 2]) = [8]
    decide
  have hset : ∀ p : Fin 1 → ℝ,
      setp (sigEnv ext zs) sigObj (some (List.ofFn p)) (sigSt ψ Δ 0) = (.ok (), sigSt ψ Δ (p 0)) := by
    intro p
    rw [show List.ofFn p = [p 0] by simp, setp, if_pos (by rw [hv]; rfl), hv]
    simp [assign, sigSt]
  refine (C173_improper (env := sigEnv ext zs) (o := sigObj) (st := sigSt ψ Δ 0) (pts := [(480, filmAoi, ψ, Δ)]) (K := 0) (B := 0)
    ((film_deforms (sigEnv ext zs) rfl ψ Δ (x0 := 1) one_pos).data 1250) rfl ?_ (by rw [hv]; rfl)
    (S := {p : Fin 1 → ℝ | p 0 ≤ 0}) (measurableSet_le (measurable_pi_apply 0) measurable_const) ?_ ?_ ?_ ?_ ?_).2
  · intro p hp
    rw [List.mem_singleton] at hp
    subst hp
    exact ⟨hψ, hΔ⟩
  · have : {p : Fin 1 → ℝ | p 0 ≤ 0} = Set.univ.pi fun _ : Fin 1 => Set.Iic (0 : ℝ) := by
      ext p
      rw [Set.mem_univ_pi]
      simp
    rw [this, volume_pi_pi]
    simp
  · intro p hp
    unfold logp
    rw [hset]
    simp only [hv, Except.ok.injEq]
    rw [sumLogp_eq]
    refine ⟨[0], .cons ?_ .nil, by simp⟩
    simp only [sigEnv, sigSt, Function.update_self]
    exact if_pos hp
  · intro p hp
    rw [hset]
    change |(0 : ℝ)| ≤ 180
    norm_num
  · intro p hp q hq _
    rw [hset]
    obtain rfl : 8 = q := by simpa [sigObj] using hq
    simpa [sigSt] using hp
  · intro p hp
    rw [chisqr_set (by rw [hv]; rfl), hset]
    exact film_value_of _ rfl ψ Δ _ _ rfl (by simp) rfl

/-- Non-vacuity of `C173_proper_partial`: with a flat prior between 100 and 3000 Angstrom it is one. -/
example (ext : Ext) (zs : List Layer → ℝ → ℝ → Bool) (ψ Δ : ℝ) (hΔ : 0 ≤ Δ ∧ Δ ≤ 360) :
    Integrable (density (thickEnv ext zs (some 3000)) thickObj (filmStAt ψ Δ 1250) : (Fin 1 → ℝ) → ℝ) := by
  have hv := thick_varying ext zs (some 3000) ψ Δ 1250
  have hin : ∀ p : Fin 1 → ℝ, Within (thickEnv ext zs (some 3000)) thickObj (filmStAt ψ Δ 1250) (fun _ => 100)
      (fun _ => 3000) (List.ofFn p) → 0 < p 0 := by
    intro p hp
    unfold Within at hp
    rw [hv, show List.ofFn p = [p 0] by simp] at hp
    cases hp with
    | cons h1 h2 => linarith [h1.1]
  have hval : ∀ p : Fin 1 → ℝ, 0 < p 0 → ∃ y : ℝ,
      (chisqr (thickEnv ext zs (some 3000)) thickObj none (filmStAt ψ Δ (p 0))).1 = .ok (some y) :=
    fun p hp => film_value (thickEnv ext zs (some 3000)) rfl ψ Δ hp
  choose! c hc using hval
  refine (C173_proper_partial (o := thickObj) (pts := [(480, filmAoi, ψ, Δ)]) (lo := fun _ => 100) (hi := fun _ => 3000)
    ((film_deforms (thickEnv ext zs (some 3000)) rfl ψ Δ (x0 := 1) one_pos).data 1250) rfl ?_ (fun _ _ => by norm_num)
    (n := 1) (by rw [hv]; rfl) (c := c) (pts' := [(480, filmAoi, ψ, Δ)]) (M := ⟨⟨7, false⟩, 0⟩) (s := filmStruct)
    (cs := [dry (.const 658 1 0), .slab 4 (fun _ => .const 658 (39 / 25) 0) 1 2 true, dry (.const 658 (15 / 7) 0)])
    ⟨fun p hp => ?_, fun p hp => ?_, fun p hp => ?_⟩).1
  · intro q _
    refine ⟨0, fun x => ⟨fun h => ?_, fun h => ?_⟩⟩
    · simp only [thickEnv]
      exact if_pos ⟨h.1, by simpa using h.2⟩
    · simp only [thickEnv]
      exact if_neg (by simpa using h)
  · simp only [thick_set]
    exact Deforms.comp (f := fun p : Fin 1 → ℝ => p 0) (continuous_apply (0 : Fin 1)).continuousAt
      (film_deforms _ rfl ψ Δ (hin p hp))
  · refine Eventually.of_forall fun y pt hpt => ?_
    rw [List.mem_singleton] at hpt
    subst hpt
    rw [thick_set]
    have h7 : (filmStAt ψ Δ (y 0)).vals 7 = 0 := rfl
    simp only [h7]
    constructor <;> linarith [hΔ.1, hΔ.2]
  · rw [thick_set]
    exact hc p (hin p hp)

end Verif.Obj
