import Verif.TMM.Bridge

/-!
# Sizes of the numbers calculated on the way

The model calculates with exact numbers; doubles end near `1.8·10³⁰⁸`.  This file lists the numbers
that `coh_tmm` stores for one polarisation at one point, and bounds them.
-/

namespace Verif.TMM

open Complex (I)

/-- An entry of a matrix. -/
def Mat.Has (m : Mat) (z : ℂ) : Prop := z = m.a ∨ z = m.b ∨ z = m.c ∨ z = m.d

/-- A number stored by the loop over the polarisations of `coh_tmm` at one point, or a term of the
sums `p00 .. p11`.  `ths` is `n_list` with `th_list`, `δs` is `delta`.  Left out are the interface
amplitudes `r_list` and `t_list`, which do not depend on the thicknesses.
reflect_modelSE.py:188-217. -/
inductive Stored (pol : Pol) (ths : List (Option (ℂ × ℂ))) (δs : List (Option ℂ)) : ℂ → Prop
  /-- `beta`.  reflect_modelSE.py:191 -/
  | beta {δ} (h : some δ ∈ δs) : Stored pol ths δs (Complex.exp (I * δ))
  /-- `beta_inv`.  reflect_modelSE.py:192 -/
  | betaInv {δ} {z} (h : some δ ∈ δs) (hz : cdiv 1 (Complex.exp (I * δ)) = some z) :
    Stored pol ths δs z
  /-- `M_list00 .. M_list11`.  reflect_modelSE.py:195-198 -/
  | mat {k : Mat} {z} (h : some k ∈ matList δs (coefList (interfaceR pol) ths)
      (coefList (interfaceT pol) ths)) (hz : k.Has z) : Stored pol ths δs z
  /-- `Mtilde00 .. Mtilde11` before the loop (`k = 0`) and after the pass `k` of the loop.
  reflect_modelSE.py:202-217 -/
  | tilde {r0 t0 : ℂ} {m0 : Mat} {ms : List Mat} {z} (k : ℕ)
      (hr : (coefList (interfaceR pol) ths).head? = some (some r0))
      (ht : (coefList (interfaceT pol) ths).head? = some (some t0))
      (h0 : initMat r0 t0 = some m0)
      (hm : (matList δs (coefList (interfaceR pol) ths) (coefList (interfaceT pol) ths)).mapM id
        = some ms)
      (hz : ((ms.take k).foldl step m0).Has z) : Stored pol ths δs z
  /-- The terms of the sums in the loop.  reflect_modelSE.py:209-212 -/
  | term {r0 t0 : ℂ} {m0 k : Mat} {ms pre post : List Mat} {x y}
      (hr : (coefList (interfaceR pol) ths).head? = some (some r0))
      (ht : (coefList (interfaceT pol) ths).head? = some (some t0))
      (h0 : initMat r0 t0 = some m0)
      (hm : (matList δs (coefList (interfaceR pol) ths) (coefList (interfaceT pol) ths)).mapM id
        = some ms)
      (hs : ms = pre ++ k :: post)
      (hx : (pre.foldl step m0).Has x) (hy : k.Has y) : Stored pol ths δs (x * y)

/-- The numbers stored by `coh_tmm` for the stack at angle `θ` and wavelength `lam`
(the phases are clipped as in `cohTmm`). -/
def Stack.Stores (st : Stack) (d0 db : Thick) (θ lam : ℝ) (pol : Pol) (z : ℂ) : Prop :=
  Stored pol (angles st.front θ (st.layers d0 db))
    ((deltas (kzs lam (angles st.front θ (st.layers d0 db))) (st.layers d0 db)).map
      (Option.map clip35)) z

/-- The largest double, `np.finfo(float).max`. -/
noncomputable def maxDouble : ℝ := (2 - (2 : ℝ)⁻¹ ^ 52) * 2 ^ 1023

/-! ### Row sums -/

/-- Row sums at most `B`. -/
def Mat.Le (m : Mat) (B : ℝ) : Prop := ‖m.a‖ + ‖m.b‖ ≤ B ∧ ‖m.c‖ + ‖m.d‖ ≤ B

theorem Mat.Le.has {m : Mat} {B : ℝ} (h : m.Le B) {z : ℂ} (hz : m.Has z) : ‖z‖ ≤ B := by
  obtain ⟨h1, h2⟩ := h
  have ha := norm_nonneg m.a
  have hb := norm_nonneg m.b
  have hc := norm_nonneg m.c
  have hd := norm_nonneg m.d
  rcases hz with rfl | rfl | rfl | rfl <;> linarith

theorem Mat.Le.mono {m : Mat} {B B' : ℝ} (h : m.Le B) (hB : B ≤ B') : m.Le B' :=
  ⟨h.1.trans hB, h.2.trans hB⟩

theorem Mat.Le.nonneg {m : Mat} {B : ℝ} (h : m.Le B) : 0 ≤ B :=
  (add_nonneg (norm_nonneg _) (norm_nonneg _)).trans h.1

theorem Mat.Le.step {m k : Mat} {B C : ℝ} (hm : m.Le B) (hk : k.Le C) :
    (step m k).Le (B * C) := by
  have hC := hk.nonneg
  have key : ∀ x y : ℂ, ‖x‖ + ‖y‖ ≤ B →
      ‖x * k.a + y * k.c‖ + ‖x * k.b + y * k.d‖ ≤ B * C := by
    intro x y hxy
    have h1 := norm_add_le (x * k.a) (y * k.c)
    have h2 := norm_add_le (x * k.b) (y * k.d)
    rw [norm_mul, norm_mul] at h1 h2
    have h3 := mul_le_mul_of_nonneg_left hk.1 (norm_nonneg x)
    have h4 := mul_le_mul_of_nonneg_left hk.2 (norm_nonneg y)
    have h5 := mul_le_mul_of_nonneg_right hxy hC
    nlinarith
  exact ⟨key _ _ hm.1, key _ _ hm.2⟩

/-- Total attenuation (or amplification) in nepers of the films. -/
noncomputable def nepers (δs : List (Option ℂ)) : ℝ :=
  (δs.map fun δ => |(δ.getD 0).im|).sum

theorem nepers_nonneg (δs : List (Option ℂ)) : 0 ≤ nepers δs := by
  apply List.sum_nonneg
  intro x hx
  obtain ⟨δ, _, rfl⟩ := List.mem_map.mp hx
  exact abs_nonneg _

theorem nepers_cons (δ : Option ℂ) (δs : List (Option ℂ)) :
    nepers (δ :: δs) = |(δ.getD 0).im| + nepers δs := by simp [nepers]

theorem le_nepers {δ : ℂ} {δs : List (Option ℂ)} (h : some δ ∈ δs) : |δ.im| ≤ nepers δs := by
  induction δs with
  | nil => simp at h
  | cons x l ih =>
    rw [nepers_cons]
    rcases List.mem_cons.mp h with rfl | h
    · have := nepers_nonneg l
      simpa using this
    · have := ih h
      have := abs_nonneg (x.getD 0).im
      linarith

theorem norm_exp_I (δ : ℂ) : ‖Complex.exp (I * δ)‖ = Real.exp (-δ.im) := by
  rw [Complex.norm_exp]; simp

/-- What a film matrix is at most. -/
theorem layerMat_le {δ r t : ℂ} {k : Mat} {G : ℝ} (h : layerMat δ r t = some k)
    (hG : 1 + ‖r‖ ≤ G * ‖t‖) : k.Le (G * Real.exp |δ.im|) := by
  have hβ := Complex.exp_ne_zero (I * δ)
  by_cases ht : t = 0
  · subst ht
    have := norm_nonneg r
    simp at hG
    linarith
  have htp : 0 < ‖t‖ := norm_pos_iff.mpr ht
  simp only [layerMat, cdiv_of_ne hβ, cdiv_of_ne ht, Option.bind_eq_bind, Option.bind_some,
    Option.some.injEq] at h
  subst h
  have hG0 : 0 ≤ G := by
    by_contra hc
    have := norm_nonneg r
    have : G * ‖t‖ < 0 := mul_neg_of_neg_of_pos (not_le.mp hc) htp
    linarith
  have key : ∀ e : ℝ, 0 ≤ e → e ≤ Real.exp |δ.im| →
      e / ‖t‖ + ‖r‖ * e / ‖t‖ ≤ G * Real.exp |δ.im| := by
    intro e he hle
    rw [← add_div, div_le_iff₀ htp]
    have h1 : e * (1 + ‖r‖) ≤ e * (G * ‖t‖) := mul_le_mul_of_nonneg_left hG he
    have h2 : e * (G * ‖t‖) ≤ Real.exp |δ.im| * (G * ‖t‖) :=
      mul_le_mul_of_nonneg_right hle (mul_nonneg hG0 htp.le)
    nlinarith
  constructor
  · simp only [norm_div, norm_mul, norm_one, norm_exp_I]
    apply key
    · positivity
    · rw [one_div, ← Real.exp_neg, neg_neg]
      exact Real.exp_le_exp.mpr (le_abs_self _)
  · simp only [norm_div, norm_mul, norm_exp_I]
    rw [add_comm]
    apply key
    · positivity
    · exact Real.exp_le_exp.mpr (neg_le_abs _)

theorem mapM_id_some {α : Type*} {l : List (Option α)} {ms : List α} (h : l.mapM id = some ms) :
    l = ms.map some := by
  induction l generalizing ms with
  | nil => simp at h; simp [h]
  | cons x l ih =>
    cases x with
    | none => simp at h
    | some x =>
      cases hl : l.mapM id with
      | none => simp [hl] at h
      | some l' =>
        simp [hl] at h
        subst h
        simp [← ih hl]

/-- The product before pass `k`, and the matrix of that pass. -/
theorem split_le {G : ℝ} (hG1 : 1 ≤ G) : ∀ (δs : List (Option ℂ))
    (ps : List (Option ℂ × Option ℂ)) (m0 k : Mat) (pre post : List Mat) (B : ℝ),
    (∀ r t, (some r, some t) ∈ ps → 1 + ‖r‖ ≤ G * ‖t‖) → m0.Le B →
    List.zipWith (fun (δ : Option ℂ) (rt : Option ℂ × Option ℂ) => do
      let δ ← δ
      let r ← rt.1
      let t ← rt.2
      layerMat δ r t) δs ps = (pre ++ k :: post).map some →
    ∃ P C, (pre.foldl step m0).Le P ∧ k.Le C ∧
      P * C ≤ B * (G ^ δs.length * Real.exp (nepers δs)) := by
  intro δs
  induction δs with
  | nil => intro ps m0 k pre post B _ _ h; simp at h
  | cons δ δs ih =>
    intro ps m0 k pre post B hps h0 h
    cases ps with
    | nil => simp at h
    | cons p ps =>
    have hB := h0.nonneg
    have hpow : 1 ≤ G ^ δs.length := one_le_pow₀ hG1
    have hnn := nepers_nonneg δs
    -- the first matrix
    have hfirst : ∀ k', (do
        let δ ← δ
        let r ← p.1
        let t ← p.2
        layerMat δ r t) = some k' → k'.Le (G * Real.exp |(δ.getD 0).im|) := by
      intro k' hk'
      obtain ⟨r', t'⟩ := p
      cases δ with
      | none => simp at hk'
      | some δ =>
      cases r' with
      | none => simp at hk'
      | some r =>
      cases t' with
      | none => simp at hk'
      | some t =>
      exact layerMat_le hk' (hps r t List.mem_cons_self)
    cases pre with
    | nil =>
      simp only [List.zipWith_cons_cons, List.nil_append, List.map_cons, List.cons.injEq] at h
      refine ⟨B, _, h0, hfirst k h.1, ?_⟩
      apply mul_le_mul_of_nonneg_left _ hB
      rw [List.length_cons, pow_succ, nepers_cons, Real.exp_add]
      have he := Real.one_le_exp hnn
      have h1 : 1 ≤ G ^ δs.length * Real.exp (nepers δs) := by nlinarith
      have h2 : 0 ≤ G * Real.exp |(δ.getD 0).im| := by positivity
      nlinarith
    | cons k' pre =>
      simp only [List.zipWith_cons_cons, List.cons_append, List.map_cons, List.cons.injEq] at h
      obtain ⟨P, C, hP, hC, hPC⟩ := ih ps (step m0 k') k pre post _
        (fun r t hrt => hps r t (List.mem_cons_of_mem _ hrt)) (h0.step (hfirst k' h.1)) h.2
      refine ⟨P, C, hP, hC, hPC.trans (le_of_eq ?_)⟩
      rw [List.length_cons, pow_succ, nepers_cons, Real.exp_add]
      ring

/-- Every number stored is bounded by the interfaces and the total attenuation. -/
theorem stored_le {pol : Pol} {ths : List (Option (ℂ × ℂ))} {δs : List (Option ℂ)} {G : ℝ}
    (hG1 : 1 ≤ G)
    (hrt : ∀ r t, (some r, some t) ∈ (coefList (interfaceR pol) ths).zip
      (coefList (interfaceT pol) ths) → 1 + ‖r‖ ≤ G * ‖t‖)
    {z : ℂ} (hz : Stored pol ths δs z) :
    ‖z‖ ≤ G ^ (δs.length + 1) * Real.exp (nepers δs) := by
  obtain ⟨rs, hrs⟩ : ∃ rs, rs = coefList (interfaceR pol) ths := ⟨_, rfl⟩
  obtain ⟨ts, hts⟩ : ∃ ts, ts = coefList (interfaceT pol) ths := ⟨_, rfl⟩
  rw [← hrs, ← hts] at hrt
  have hpow : 1 ≤ G ^ δs.length := one_le_pow₀ hG1
  have hexp := Real.one_le_exp (nepers_nonneg δs)
  have hG0 : 0 ≤ G := by linarith
  have hGb : G ≤ G ^ (δs.length + 1) * Real.exp (nepers δs) := by
    have : G ≤ G ^ (δs.length + 1) := le_self_pow₀ hG1 (by simp)
    nlinarith
  have heb : ∀ δ : ℂ, some δ ∈ δs → Real.exp |δ.im| ≤
      G ^ (δs.length + 1) * Real.exp (nepers δs) := by
    intro δ hδ
    have h1 : Real.exp |δ.im| ≤ Real.exp (nepers δs) := Real.exp_le_exp.mpr (le_nepers hδ)
    have : 1 ≤ G ^ (δs.length + 1) := one_le_pow₀ hG1
    nlinarith
  have hinit : ∀ {r0 t0 : ℂ} {m0 : Mat}, rs.head? = some (some r0) → ts.head? = some (some t0) →
      initMat r0 t0 = some m0 → m0.Le G := by
    intro r0 t0 m0 h1 h2 h3
    have hmem : (some r0, some t0) ∈ rs.zip ts := by
      cases rs with
      | nil => simp at h1
      | cons a rs =>
        cases ts with
        | nil => simp at h2
        | cons b ts => simp at h1 h2; simp [h1, h2]
    have hb := hrt _ _ hmem
    have ht0 : t0 ≠ 0 := by
      rintro rfl
      have := norm_nonneg r0
      simp at hb
      linarith
    have htp : 0 < ‖t0‖ := norm_pos_iff.mpr ht0
    simp only [initMat, cdiv_of_ne ht0, Option.bind_eq_bind, Option.bind_some,
      Option.some.injEq] at h3
    subst h3
    constructor <;> simp only [norm_div, norm_one] <;> rw [← add_div, div_le_iff₀ htp] <;> linarith
  have htail : ∀ r t, (some r, some t) ∈ rs.tail.zip ts.tail → 1 + ‖r‖ ≤ G * ‖t‖ := by
    intro r t h
    apply hrt
    cases rs with
    | nil => simp at h
    | cons a rs =>
      cases ts with
      | nil => simp at h
      | cons b ts => exact List.mem_cons_of_mem _ h
  cases hz with
  | @beta δ h =>
    rw [norm_exp_I]
    exact (Real.exp_le_exp.mpr (neg_le_abs _)).trans (heb δ h)
  | @betaInv δ _ h hz =>
    rw [cdiv_of_ne (Complex.exp_ne_zero _)] at hz
    simp only [Option.some.injEq] at hz
    subst hz
    rw [norm_div, norm_one, norm_exp_I, one_div, ← Real.exp_neg, neg_neg]
    exact (Real.exp_le_exp.mpr (le_abs_self _)).trans (heb δ h)
  | @mat k _ h hk =>
    rw [← hrs, ← hts] at h
    obtain ⟨i, hi, he⟩ := List.mem_iff_getElem.mp h
    simp only [matList, List.getElem_zipWith] at he
    have hi' := hi
    simp only [matList, List.length_zipWith, lt_min_iff] at hi'
    have hδm := List.getElem_mem hi'.1
    have hpm := List.getElem_mem hi'.2
    generalize δs[i] = δo at he hδm
    generalize (rs.tail.zip ts.tail)[i] = p at he hpm
    obtain ⟨r', t'⟩ := p
    cases δo with
    | none => simp at he
    | some δ =>
    cases r' with
    | none => simp at he
    | some r =>
    cases t' with
    | none => simp at he
    | some t =>
    have h1 := (layerMat_le (G := G) he (htail r t hpm)).has hk
    have h2 : Real.exp |δ.im| ≤ Real.exp (nepers δs) := Real.exp_le_exp.mpr (le_nepers hδm)
    have h3 : G ≤ G ^ (δs.length + 1) := le_self_pow₀ hG1 (by simp)
    refine h1.trans (mul_le_mul h3 h2 (Real.exp_pos _).le (by positivity))
  | @tilde r0 t0 m0 ms _ k h1 h2 h3 hm hz =>
    rw [← hrs] at h1 hm
    rw [← hts] at h2 hm
    have h0 := hinit h1 h2 h3
    have hms := mapM_id_some hm
    rcases List.eq_nil_or_concat (ms.take k) with hk | ⟨pre, k', hk⟩
    · rw [hk] at hz
      exact (h0.has hz).trans hGb
    · rw [hk, List.concat_eq_append, List.foldl_append] at hz
      have hsplit : ms = pre ++ k' :: ms.drop k := by
        conv_lhs => rw [← List.take_append_drop k ms, hk]
        simp
      rw [hsplit] at hms
      obtain ⟨P, C, hP, hC, hPC⟩ := split_le hG1 δs _ m0 k' pre _ G htail h0 hms
      exact ((hP.step hC).has hz).trans (hPC.trans (le_of_eq (by ring)))
  | @term r0 t0 m0 k ms pre post x y h1 h2 h3 hm hs hx hy =>
    rw [← hrs] at h1 hm
    rw [← hts] at h2 hm
    have h0 := hinit h1 h2 h3
    have hms := mapM_id_some hm
    rw [hs] at hms
    obtain ⟨P, C, hP, hC, hPC⟩ := split_le hG1 δs _ m0 k pre post G htail h0 hms
    rw [norm_mul]
    calc ‖x‖ * ‖y‖ ≤ P * C :=
          mul_le_mul (hP.has hx) (hC.has hy) (norm_nonneg _) hP.nonneg
      _ ≤ _ := hPC.trans (le_of_eq (by ring))

/-! ### The lists of a stack -/

/-- Indices of all media from front to back. -/
def Stack.indices (st : Stack) : List ℂ := st.front :: st.films.map (·.1) ++ [st.back]

theorem angles_stack (st : Stack) (h : st.NZ) (d0 db : Thick) (θ : ℂ) :
    angles st.front θ (st.layers d0 db) =
      st.indices.map fun n => some (n, npArcsin (st.front * Complex.sin θ / n)) := by
  obtain ⟨hf, hm, hb⟩ := h
  simp only [angles, Stack.layers, Stack.indices, List.map_cons, List.map_append, List.map_map,
    List.map_nil, List.cons_append, Option.bind_eq_bind, Option.bind_some, cdiv_of_ne hf,
    cdiv_of_ne hb]
  congr 2
  apply List.map_congr_left
  intro f hfm
  simp [cdiv_of_ne (hm f hfm)]

theorem deltas_stack (st : Stack) (h : st.NZ) (d0 db : Thick) (θ : ℂ) {lam : ℝ} (hl : lam ≠ 0) :
    (deltas (kzs lam (angles st.front θ (st.layers d0 db))) (st.layers d0 db)).map
      (Option.map clip35) =
      st.films.map fun f => some (codeMed (st.front * Complex.sin θ) lam f).δ := by
  have hl' : (lam : ℂ) ≠ 0 := Complex.ofReal_ne_zero.mpr hl
  rw [angles_stack st h]
  simp only [kzs, deltas, Stack.layers, Stack.indices, List.map_cons, List.map_append,
    List.map_map, List.map_nil, List.tail_cons, List.cons_append, List.dropLast_concat]
  simp only [List.zipWith_map, List.zipWith_self, List.map_map]
  apply List.map_congr_left
  intro f hfm
  simp [cdiv_of_ne hl', phase, codeMed, cos_npArcsin]

/-- The interface amplitudes of a stack. -/
theorem coef_stack {pol : Pol} {st : Stack} (h : st.NZ) {d0 db : Thick} {θ r t : ℂ}
    (hrt : (some r, some t) ∈ (coefList (interfaceR pol)
      (angles st.front θ (st.layers d0 db))).zip
      (coefList (interfaceT pol) (angles st.front θ (st.layers d0 db)))) :
    ∃ n n', (n, n') ∈ st.indices.zip st.indices.tail ∧
      rC pol ⟨n, root1m (st.front * Complex.sin θ / n), 0⟩
        ⟨n', root1m (st.front * Complex.sin θ / n'), 0⟩ = some r ∧
      tC pol ⟨n, root1m (st.front * Complex.sin θ / n), 0⟩
        ⟨n', root1m (st.front * Complex.sin θ / n'), 0⟩ = some t := by
  rw [angles_stack st h] at hrt
  simp only [coefList, pairs, ← List.map_tail, List.zip_map', List.zip_map, List.map_map] at hrt
  obtain ⟨⟨n, n'⟩, hn, he⟩ := List.mem_map.mp hrt
  simp only [Function.comp, Prod.map, Option.bind_eq_bind, Option.bind_some, Prod.mk.injEq] at he
  refine ⟨n, n', hn, ?_, ?_⟩
  · rw [← he.1]
    exact (interfaceR_eq pol _ _ (cos_npArcsin _) (cos_npArcsin _)).symm
  · rw [← he.2]
    exact (interfaceT_eq pol _ _ (cos_npArcsin _) (cos_npArcsin _)).symm

end Verif.TMM
