import Verif.Obj.PropsProper
import Mathlib.MeasureTheory.Integral.Pi
import Mathlib.Analysis.SpecialFunctions.Gaussian.GaussianIntegral
import Mathlib.MeasureTheory.Integral.ExpDecay

/-! # C173 for priors that are not flat, and with `lnsigma`

The likelihood is bounded, so a proper prior gives a proper posterior. -/

namespace Verif.Obj
open Verif.Struct Verif.TMM Verif.RModel Verif.Data Filter Topology MeasureTheory

variable {env : Env} {o : Objective}

/-- Spec: the prior density of a value of a parameter, 0 where its logarithm is -inf. -/
noncomputable def priorDensity (env : Env) (q : PId) (x : ℝ) : ℝ :=
  match env.logp q x with
  | some u => Real.exp u
  | none => 0

theorem priorDensity_nonneg (env : Env) (q : PId) (x : ℝ) : 0 ≤ priorDensity env q x := by
  unfold priorDensity
  split
  · exact (Real.exp_pos _).le
  · exact le_rfl

theorem contrib_pos {w : Bool} {ln : Option ℝ} (m r : ℝ) : 0 ≤ contrib w ln m r := by
  have hpi := Real.pi_gt_three
  obtain ⟨s2, h1, h2⟩ : ∃ s2, 1 ≤ s2 ∧ contrib w ln m r = r ^ 2 / s2 + if w then Real.log (2 * Real.pi * s2) else 0 := by
    refine ⟨_, ?_, rfl⟩
    cases ln with
    | none => simp
    | some s => simp only [Option.elim_some, le_add_iff_nonneg_right]; positivity
  rw [h2]
  have h3 : 0 ≤ r ^ 2 / s2 := by positivity
  have h4 : 0 ≤ Real.log (2 * Real.pi * s2) := Real.log_nonneg (by nlinarith)
  split <;> linarith

/-- The likelihood is at most 1. -/
theorem logl_le_zero {st : St} {pts : List Pt} (hp : Presents st.heap o.data pts) {l : ℝ}
    (h : (logl env o none st).1 = .ok l) : l ≤ 0 := by
  obtain ⟨ms, -, rfl⟩ := (logl_iff hp).mp h
  generalize pts.zip ms = zs
  induction zs with
  | nil => simp
  | cons z l ih =>
    have h1 := contrib_pos (w := o.weighted) (ln := o.lnsigma.map st.vals) z.2.1 (z.2.1 - z.1.2.2.1)
    have h2 := contrib_pos (w := o.weighted) (ln := o.lnsigma.map st.vals) z.2.2 (circularDistance z.2.2 z.1.2.2.2 360)
    simp only [List.map_cons, List.sum_cons, loglPt]
    simp only [loglPt] at ih
    linarith

/-- The log-posterior is finite exactly if the priors and chi-squared are; then it is the sum of the logarithms of the
prior densities and of the likelihood. -/
theorem logpost_split {st : St} {n : ℕ} (hn : n = (varying env o st).length) (x : Fin n → ℝ) {u : ℝ} :
    (logpost env o (some (List.ofFn x)) st).1 = .ok (some u) ↔ ∃ (k : Fin n → ℝ) (l : ℝ),
      (∀ i : Fin n, env.logp ((varying env o st).getD i 0) (x i) = some (k i)) ∧
      (logl env o none (setp env o (some (List.ofFn x)) st).2).1 = .ok l ∧ u = (∑ i, k i) + l := by
  have hl : (List.ofFn x).length = (varying env o st).length := by simpa using hn
  have hset : setp env o (some (List.ofFn x)) st =
      (.ok (), { st with vals := assign (varying env o st) (List.ofFn x) st.vals }) := by
    rw [setp, if_pos hl]
  have hnd := varying_nodup env o st
  set st' : St := { st with vals := assign (varying env o st) (List.ofFn x) st.vals } with hst'
  have hget : ∀ i : Fin n, st'.vals ((varying env o st).getD i 0) = x i := by
    intro i
    have hi : (i : ℕ) < (varying env o st).length := hn ▸ i.2
    rw [List.getD_eq_getElem?_getD, List.getElem?_eq_getElem hi, Option.getD_some]
    exact assign_get _ _ _ (Consistent.of_nodup hnd _) i _ _ (by simp [hi]) (by simp)
  have hsum : ∀ K, sumLogp env st'.vals (varying env o st) = some K ↔
      ∃ k : Fin n → ℝ, (∀ i : Fin n, env.logp ((varying env o st).getD i 0) (x i) = some (k i)) ∧ K = ∑ i, k i := by
    intro K
    rw [sumLogp_eq]
    constructor
    · rintro ⟨ys, hys, rfl⟩
      have hlen : ys.length = n := by rw [← hys.length_eq, hn]
      refine ⟨fun i => ys[i]'(by rw [hlen]; exact i.2), fun i => ?_, ?_⟩
      · have hi : (i : ℕ) < (varying env o st).length := hn ▸ i.2
        have := (List.forall₂_iff_get.mp hys).2 i hi (by rw [hlen]; exact i.2)
        rw [← hget i]
        simpa [List.getD_eq_getElem?_getD, List.getElem?_eq_getElem hi] using this
      · subst hlen
        exact (Fin.sum_univ_getElem ys).symm
    · rintro ⟨k, hk, rfl⟩
      refine ⟨List.ofFn k, ?_, by rw [List.sum_ofFn]⟩
      rw [List.forall₂_iff_get]
      refine ⟨by simpa using hn.symm, fun i h1 h2 => ?_⟩
      have h2' : i < n := by simpa using h2
      have := hk ⟨i, h2'⟩
      rw [← hget ⟨i, h2'⟩] at this
      simpa [List.getD_eq_getElem?_getD, List.getElem?_eq_getElem h1] using this
  rw [hset]
  have hlp : logp env o none st' = (.ok (sumLogp env st'.vals (varying env o st)), st') := rfl
  have hpost : (logpost env o (some (List.ofFn x)) st).1 = match sumLogp env st'.vals (varying env o st) with
      | none => .ok none
      | some p => match (logl env o none st').1 with
        | .error e => .error e
        | .ok l => .ok (some (p + l)) := by
    unfold logpost
    rw [hset]
    simp only [hlp]
    rcases sumLogp env st'.vals (varying env o st) with _ | p
    · rfl
    · simp only
      rcases logl env o none st' with ⟨r, s⟩
      cases r <;> rfl
  rw [hpost]
  constructor
  · intro h
    rcases hK : sumLogp env st'.vals (varying env o st) with _ | K
    · rw [hK] at h; simp at h
    · rw [hK] at h
      obtain ⟨k, h1, h2⟩ := (hsum K).mp hK
      rcases hL : (logl env o none st').1 with e | l
      · rw [hL] at h; simp at h
      · rw [hL] at h
        simp only [Except.ok.injEq, Option.some.injEq] at h
        exact ⟨k, l, h1, rfl, by rw [← h, h2]⟩
  · rintro ⟨k, l, h1, h2, rfl⟩
    have h2' : (logl env o none st').1 = .ok l := h2
    simp only [(hsum _).mpr ⟨k, h1, rfl⟩, h2']

/-- C173: the posterior density is at most the product of the prior densities. -/
theorem C173_below_prior {st : St} {pts : List Pt} (hp : Presents st.heap o.data pts) {n : ℕ}
    (hn : n = (varying env o st).length) (x : Fin n → ℝ) :
    density env o st x ≤ ∏ i : Fin n, priorDensity env ((varying env o st).getD i 0) (x i) := by
  unfold density
  split
  · rename_i u hu
    obtain ⟨k, l, h1, h2, rfl⟩ := (logpost_split hn x).mp hu
    have hl : (List.ofFn x).length = (varying env o st).length := by simpa using hn
    have hset : setp env o (some (List.ofFn x)) st =
        (.ok (), { st with vals := assign (varying env o st) (List.ofFn x) st.vals }) := by
      rw [setp, if_pos hl]
    rw [hset] at h2
    have h3 := logl_le_zero (st := { st with vals := assign (varying env o st) (List.ofFn x) st.vals }) hp h2
    have h4 : ∀ i : Fin n, priorDensity env ((varying env o st).getD i 0) (x i) = Real.exp (k i) := by
      intro i
      simp only [priorDensity, h1 i]
    simp only [h4, ← Real.exp_sum]
    exact Real.exp_le_exp.mpr (by linarith)
  · exact Finset.prod_nonneg fun i _ => priorDensity_nonneg _ _ _

/-- C173: if each prior is proper, so is the posterior, whatever the data and the model, with or without `lnsigma`: the
integral is finite; it is positive if all priors and chi-squared are finite on a set of positive volume. -/
theorem C173_proper_prior {st : St} {pts : List Pt} (hp : Presents st.heap o.data pts) {n : ℕ}
    (hn : n = (varying env o st).length) (hq : ∀ q ∈ varying env o st, Integrable (priorDensity env q))
    (hm : AEStronglyMeasurable (density env o st : (Fin n → ℝ) → ℝ)) :
    Integrable (density env o st : (Fin n → ℝ) → ℝ) ∧ ∀ S : Set (Fin n → ℝ), 0 < volume S →
      (∀ x ∈ S, (∀ i : Fin n, env.logp ((varying env o st).getD i 0) (x i) ≠ none) ∧
        ∃ a, (chisqr env o (some (List.ofFn x)) st).1 = .ok (some a)) →
      0 < ∫ x : Fin n → ℝ, density env o st x := by
  have hint : Integrable fun x : Fin n → ℝ => ∏ i : Fin n, priorDensity env ((varying env o st).getD i 0) (x i) := by
    refine Integrable.fintype_prod (f := fun i : Fin n => priorDensity env ((varying env o st).getD i 0)) fun i => ?_
    have hi : (i : ℕ) < (varying env o st).length := hn ▸ i.2
    rw [List.getD_eq_getElem?_getD, List.getElem?_eq_getElem hi, Option.getD_some]
    exact hq _ (List.getElem_mem hi)
  have hle := C173_below_prior (env := env) (o := o) hp hn
  have hd : Integrable (density env o st : (Fin n → ℝ) → ℝ) := by
    refine hint.mono' hm (Eventually.of_forall fun x => ?_)
    rw [Real.norm_of_nonneg (density_nonneg _ _ _ _)]
    exact hle x
  refine ⟨hd, fun S hv hfin => (integral_pos_iff_support_of_nonneg (density_nonneg env o st) hd).mpr
    (hv.trans_le (measure_mono fun x hx => ?_))⟩
  obtain ⟨h1, a, ha⟩ := hfin x hx
  have hl : (List.ofFn x).length = (varying env o st).length := by simpa using hn
  have hset : setp env o (some (List.ofFn x)) st =
      (.ok (), { st with vals := assign (varying env o st) (List.ofFn x) st.vals }) := by
    rw [setp, if_pos hl]
  rw [chisqr_set hl] at ha
  have hl' : ∃ l, (logl env o none (setp env o (some (List.ofFn x)) st).2).1 = .ok l := by
    have hp' : Presents (setp env o (some (List.ofFn x)) st).2.heap o.data pts := by rw [hset]; exact hp
    obtain ⟨ms, hms, -⟩ := (chisqr_iff hp').mp ha
    exact ⟨_, (logl_iff hp').mpr ⟨ms, hms, rfl⟩⟩
  obtain ⟨l, hl'⟩ := hl'
  choose k hk using fun i => Option.ne_none_iff_exists'.mp (h1 i)
  have := (logpost_split hn x).mpr ⟨k, l, hk, hl', rfl⟩
  rw [Function.mem_support, density, this]
  exact (Real.exp_pos _).ne'

/-! ### Only `lnsigma` varies -/

theorem loglSpec_continuous (w : Bool) (pts : List Pt) (ms : List (ℝ × ℝ)) :
    Continuous fun s : ℝ => loglSpec w (some s) pts ms := by
  have hc : ∀ m r : ℝ, Continuous fun s : ℝ => contrib w (some s) m r := by
    intro m r
    have hs2 : Continuous fun s : ℝ => 1 + Real.exp (2 * s) * m ^ 2 := by fun_prop
    have hpos : ∀ s : ℝ, 0 < 1 + Real.exp (2 * s) * m ^ 2 := fun s => by positivity
    simp only [contrib, Option.elim_some]
    refine (continuous_const.div hs2 fun s => (hpos s).ne').add ?_
    cases w with
    | false => simpa using continuous_const
    | true =>
      simp only [if_true]
      exact (continuous_const.mul hs2).log fun s => (mul_pos (mul_pos two_pos Real.pi_pos) (hpos s)).ne'
  have hsum : ∀ (f g : Pt × (ℝ × ℝ) → ℝ) (l : List (Pt × (ℝ × ℝ))),
      Continuous fun s : ℝ => (l.map fun z => contrib w (some s) (f z) (g z)).sum := by
    intro f g l
    induction l with
    | nil => simpa using continuous_const
    | cons z l ih =>
      simp only [List.map_cons, List.sum_cons]
      exact (hc _ _).add ih
  unfold loglSpec
  exact continuous_const.mul ((hsum (fun z => z.2.1) (fun z => z.2.1 - z.1.2.2.1) _).add
    (hsum (fun z => z.2.2) (fun z => circularDistance z.2.2 z.1.2.2.2 360) _))

theorem lnsigma_density {st : St} {q : PId} (h : Apart env o st q) (hs : o.lnsigma = some q) (hv1 : varying env o st = [q])
    {pts : List Pt} (hp : Presents st.heap o.data pts) {ms : List (ℝ × ℝ)} (hv : Values env o st pts (cellsOf ms))
    (x : Fin 1 → ℝ) : density env o st x =
      priorDensity env q (x 0) * Real.exp (loglSpec o.weighted (some (x 0)) pts ms) := by
  have hn : 1 = (varying env o st).length := by rw [hv1]; rfl
  have hset : (setp env o (some (List.ofFn x)) st).2 = st.at q (x 0) := by
    rw [show List.ofFn x = [x 0] by simp, setp, if_pos (by rw [hv1]; rfl), hv1]
    rfl
  have hl := logl_at h hs hp hv (x 0)
  have hq : (varying env o st).getD ((0 : Fin 1) : ℕ) 0 = q := by rw [hv1]; rfl
  rcases hk : env.logp q (x 0) with _ | k
  · have hz : density env o st x = 0 := by
      unfold density
      split
      · rename_i u hu
        obtain ⟨k, l, h1, -⟩ := (logpost_split hn x).mp hu
        have := h1 0
        rw [hq, hk] at this
        simp at this
      · rfl
    rw [hz, priorDensity, hk, zero_mul]
  · have hpost := (logpost_split (u := k + loglSpec o.weighted (some (x 0)) pts ms) hn x).mpr
      ⟨fun _ => k, _, fun i => by rw [Subsingleton.elim i 0, hq, hk], by rw [hset]; exact hl, by simp⟩
    simp only [density, hpost, priorDensity, hk, Real.exp_add]

/-- C173: with weights a lower bound for `lnsigma` is enough: if its prior is bounded, and 0 below some value, the posterior is a
distribution (`C173_improper` shows that an upper bound is not, and that without weights neither is a lower one). -/
theorem C173_lnsigma_lower {st : St} {q : PId} (h : Apart env o st q) (hs : o.lnsigma = some q)
    (hv1 : varying env o st = [q]) (hw : o.weighted = true) {pts : List Pt} (hp : Presents st.heap o.data pts)
    {ms : List (ℝ × ℝ)} (hv : Values env o st pts (cellsOf ms)) (hm : ∃ m ∈ ms, m.1 ≠ 0)
    (hmeas : Measurable (priorDensity env q)) {lo K : ℝ} (hlo : ∀ s < lo, env.logp q s = none)
    (hK : ∀ s, ∀ u ∈ env.logp q s, u ≤ K) : Integrable (density env o st : (Fin 1 → ℝ) → ℝ) := by
  obtain ⟨m, hm, hm0⟩ := hm
  have hle : ∀ s, loglSpec o.weighted (some s) pts ms ≤ -s - Real.log (m.1 ^ 2) / 2 := by
    intro s
    have hl : pts.length = ms.length := by simpa [cellsOf] using hv.length_eq
    obtain ⟨i, hi, rfl⟩ := List.getElem_of_mem hm
    have hz : (pts[i]'(hl ▸ hi), ms[i]) ∈ pts.zip ms := by
      rw [List.mem_iff_getElem]
      exact ⟨i, by simp [hl, hi], by simp⟩
    rw [hw]
    unfold loglSpec
    have h1 : contrib true (some s) ms[i].1 (ms[i].1 - (pts[i]'(hl ▸ hi)).2.2.1) ≤
        ((pts.zip ms).map fun z => contrib true (some s) z.2.1 (z.2.1 - z.1.2.2.1)).sum := by
      refine List.single_le_sum (fun z hz => ?_) _ (List.mem_map.mpr ⟨_, hz, rfl⟩)
      obtain ⟨w, _, rfl⟩ := List.mem_map.mp hz
      exact contrib_nonneg _ _ _
    have h2 : 0 ≤ ((pts.zip ms).map fun z =>
        contrib true (some s) z.2.2 (circularDistance z.2.2 z.1.2.2.2 360)).sum := by
      refine List.sum_nonneg fun z hz => ?_
      obtain ⟨w, _, rfl⟩ := List.mem_map.mp hz
      exact contrib_nonneg _ _ _
    have h3 := contrib_large s (ms[i].1 - (pts[i]'(hl ▸ hi)).2.2.1) hm0
    linarith
  set c : ℝ := Real.exp (K - Real.log (m.1 ^ 2) / 2) with hc
  set F : ℝ → ℝ := fun s => priorDensity env q s * Real.exp (loglSpec o.weighted (some s) pts ms) with hF
  have hFm : Measurable F := hmeas.mul (Real.continuous_exp.comp (loglSpec_continuous _ _ _)).measurable
  have hFi : Integrable F := by
    have hg : Integrable ((Set.Ici lo).indicator fun s : ℝ => c * Real.exp (-1 * s)) := by
      rw [integrable_indicator_iff measurableSet_Ici, integrableOn_Ici_iff_integrableOn_Ioi]
      exact (exp_neg_integrableOn_Ioi lo one_pos).const_mul c
    refine hg.mono' hFm.aestronglyMeasurable (Eventually.of_forall fun s => ?_)
    rw [Real.norm_of_nonneg (mul_nonneg (priorDensity_nonneg _ _ _) (Real.exp_pos _).le)]
    by_cases hs' : lo ≤ s
    · rw [Set.indicator_of_mem (by exact hs')]
      rcases hk : env.logp q s with _ | k
      · simp only [priorDensity, hk, zero_mul]
        positivity
      · simp only [priorDensity, hk, hc, ← Real.exp_add]
        apply Real.exp_le_exp.mpr
        linarith [hle s, hK s k hk]
    · rw [Set.indicator_of_notMem (by exact hs')]
      simp only [priorDensity, hlo s (not_le.mp hs'), zero_mul, le_refl]
  have he : (density env o st : (Fin 1 → ℝ) → ℝ) = F ∘ MeasurableEquiv.funUnique (Fin 1) ℝ := by
    funext x
    rw [lnsigma_density h hs hv1 hp hv x]
    rfl
  rw [he]
  exact ((volume_preserving_funUnique (Fin 1) ℝ).integrable_comp_emb
    (MeasurableEquiv.measurableEmbedding _)).mpr hFi

/-! ### A bare substrate with `lnsigma` as parameter 9 -/

def noiseObj (w : Bool) : Objective := { exObj with lnsigma := some 9, data := { exObj.data with weighted := w } }

noncomputable def noiseSt : St := { exSt 0 190 with vary := fun p => p == 9 }

theorem noise_varying (env : Env) (hpars : ∀ s v, env.pars s v = []) (w : Bool) :
    varying env (noiseObj w) noiseSt = [9] := by
  simp only [varying, flatParams, noiseObj, noiseSt, hpars]
  decide

theorem noise_apart (env : Env) (w : Bool) : Apart env (noiseObj w) noiseSt 9 := by
  refine ⟨?_, ?_⟩
  · change (7 : ℕ) ≠ 9
    norm_num
  · intro x l
    have h : ∀ p : ℕ, p < 5 → noiseSt.vals p = 0 := fun p hp => by
      change Function.update (fun _ => (0 : ℝ)) 7 0 p = 0
      simp
    change (slabs _ _ { twoMedia with wavelength := some l } none).1 =
      (slabs _ _ { twoMedia with wavelength := some l } none).1
    rw [twoMedia_rows env.ext l _ h, twoMedia_rows env.ext l]
    intro p hp
    rw [Function.update_of_ne (by rintro rfl; omega)]
    exact h p hp

/-- Non-vacuity of `C173_proper_prior`: a normal prior for `lnsigma`, with or without weights. -/
example (ext : Ext) (zs : List Layer → ℝ → ℝ → Bool) (w : Bool) :
    let env : Env := { exEnv ext zs [] with logp := fun _ x => some (-(1 / 2) * x ^ 2) }
    Integrable (density env (noiseObj w) noiseSt : (Fin 1 → ℝ) → ℝ) ∧
      0 < ∫ x : Fin 1 → ℝ, density env (noiseObj w) noiseSt x := by
  intro env
  have hv := noise_varying env (fun _ _ => rfl) w
  have hp : Presents noiseSt.heap (noiseObj w).data [(600, 0, 45, 190)] := presents_weighted (ex_presents 0 190) w
  have hval : Values env (noiseObj w) noiseSt [(600, 0, 45, 190)] (cellsOf [(45, 180 + 0)]) :=
    ex_values env rfl (noiseObj w) 0 190
  have hpr : priorDensity env 9 = fun x => Real.exp (-(1 / 2) * x ^ 2) := rfl
  have hd : (density env (noiseObj w) noiseSt : (Fin 1 → ℝ) → ℝ) = fun x =>
      Real.exp (-(1 / 2) * (x 0) ^ 2) * Real.exp (loglSpec (noiseObj w).weighted (some (x 0)) [(600, 0, 45, 190)]
        [(45, 180 + 0)]) := by
    funext x
    exact lnsigma_density (noise_apart env w) rfl hv hp hval x
  have hq : ∀ q ∈ varying env (noiseObj w) noiseSt, Integrable (priorDensity env q) := by
    intro q hq
    rw [hv, List.mem_singleton] at hq
    subst hq
    rw [hpr]
    exact integrable_exp_neg_mul_sq (by norm_num)
  have hm : AEStronglyMeasurable (density env (noiseObj w) noiseSt : (Fin 1 → ℝ) → ℝ) := by
    rw [hd]
    refine Continuous.aestronglyMeasurable ?_
    have h0 : Continuous fun x : Fin 1 → ℝ => x 0 := continuous_apply 0
    exact (Real.continuous_exp.comp (continuous_const.mul (h0.pow 2))).mul
      (Real.continuous_exp.comp ((loglSpec_continuous _ _ _).comp h0))
  obtain ⟨h1, h2⟩ := C173_proper_prior hp (n := 1) (by rw [hv]; rfl) hq hm
  refine ⟨h1, h2 Set.univ (by simp) fun x _ => ⟨fun i => by simp [env], ?_⟩⟩
  have hset : (setp env (noiseObj w) (some (List.ofFn x)) noiseSt).2 = noiseSt.at 9 (x 0) := by
    rw [show List.ofFn x = [x 0] by simp, setp, if_pos (by rw [hv]; rfl), hv]
    rfl
  rw [chisqr_set (by rw [hv]; rfl), hset]
  exact ⟨_, (chisqr_iff (st := noiseSt.at 9 (x 0)) hp).mpr ⟨_, values_at (noise_apart env w) hval (x 0), rfl⟩⟩

/-- Non-vacuity of `C173_lnsigma_lower`: with weights, `lnsigma` flat from -10 upwards. -/
example (ext : Ext) (zs : List Layer → ℝ → ℝ → Bool) :
    let env : Env := { exEnv ext zs [] with logp := fun _ x => open Classical in if -10 ≤ x then some 0 else none }
    Integrable (density env (noiseObj true) noiseSt : (Fin 1 → ℝ) → ℝ) := by
  intro env
  have hv := noise_varying env (fun _ _ => rfl) true
  have hval : Values env (noiseObj true) noiseSt [(600, 0, 45, 190)] (cellsOf [(45, 180 + 0)]) :=
    ex_values env rfl (noiseObj true) 0 190
  refine C173_lnsigma_lower (lo := -10) (K := 0) (noise_apart env true) rfl hv rfl
    (presents_weighted (ex_presents 0 190) true) hval ⟨(45, 180 + 0), by simp, by norm_num⟩
    ?_ (fun s hs => if_neg (not_le.mpr hs)) ?_
  · have : priorDensity env 9 = (Set.Ici (-10 : ℝ)).indicator fun _ => 1 := by
      funext x
      by_cases hx : -10 ≤ x
      · rw [Set.indicator_of_mem (by exact hx)]
        simp [priorDensity, env, hx]
      · rw [Set.indicator_of_notMem (by exact hx)]
        simp [priorDensity, env, hx]
    rw [this]
    exact measurable_const.indicator measurableSet_Ici
  · intro s u hu
    by_cases hx : -10 ≤ s
    · simp only [env, if_pos hx, Option.mem_def, Option.some.injEq] at hu
      exact hu.symm.le
    · simp only [env, if_neg hx, Option.mem_def] at hu
      simp at hu

end Verif.Obj
