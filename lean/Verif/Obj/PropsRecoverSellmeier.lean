import Verif.Obj.PropsRecover

/-! # C180: the Sellmeier parameters of glass from noisy measurements -/

namespace Verif.Obj
open Verif.Struct Verif.TMM Verif.RModel Verif.Data Verif.Disp Filter Topology MeasureTheory ProbabilityTheory

/-- Spec: the square of the index of a Sellmeier law with these parameters. -/
noncomputable def sellEps (a b c d : PId) (v : Vals) (w : ℝ) : ℝ :=
  v d + v a * (w / 1000) ^ 2 / ((w / 1000) ^ 2 - v b ^ 2) - v c * (w / 1000) ^ 2

/-- Spec: the index of a Sellmeier law with these parameters, away from the resonance. -/
noncomputable def sellN (a b c d : PId) (v : Vals) (w : ℝ) : ℝ := open Classical in
  if (w / 1000) ^ 2 = v b ^ 2 then 0 else Real.sqrt (sellEps a b c d v w)

section
variable {env : Env} {o : Objective} {st : St} {m n : ℕ} {cs : List Comp} {n₀ : ℝ → ℝ}
  {pl : Fin m → ℝ × ℝ} {K : Set (Fin n → ℝ)}

theorem sellN_pos {a b c d : PId} {v : Vals} {w : ℝ} (h : 0 < sellN a b c d v w) :
    (w / 1000) ^ 2 ≠ v b ^ 2 ∧ 0 < sellEps a b c d v w ∧ sellN a b c d v w = Real.sqrt (sellEps a b c d v w) := by
  unfold sellN at h ⊢
  split at h
  · exact absurd h (lt_irrefl _)
  · rename_i hne
    rw [if_neg hne]
    exact ⟨hne, Real.sqrt_pos.mp h, rfl⟩

theorem sellN_at (z : SqrtOracle) {a b c d : PId} {v : Vals} {wl w : ℝ} (hw : 0 < w) (h : 0 < sellN a b c d v w) :
    (Scat.sellmeier wl (v a) (v b) (v c) (v d)).at z w = some (sellN a b c d v w : ℂ) := by
  obtain ⟨hne, hpos, he⟩ := sellN_pos h
  obtain ⟨N, hN, him, hr, hsq⟩ := (C50_square z wl (v a) (v b) (v c) (v d) (w := w) hw.ne' rfl rfl).1 hne hpos.le
  simp only [Scat.complex, Scat.ownWav, pick_ne hw.ne'] at hN
  rw [hN, he]
  have e1 : N = (N.re : ℂ) := Complex.ext rfl (by simpa using him)
  rw [e1] at hsq ⊢
  have e2 : N.re ^ 2 = sellEps a b c d v w := by exact_mod_cast hsq
  rw [← e2, Real.sqrt_sq hr]

/-- A bare substrate with the Sellmeier parameters `Am`, `En`, `P` and `einf` (here `a`, `b`, `c`, `d`), of which some or all
are fitted, at four or more wavelengths.  All parameters in `K` have a resonance. -/
structure MeasuresSellmeier (env : Env) (o : Objective) (st : St) (cs : List Comp) (n₀ : ℝ → ℝ) (wl : ℝ) (a b c d : PId)
    (pl : Fin m → ℝ × ℝ) (K : Set (Fin n → ℝ)) : Prop where
  float : env.dt = .float
  size : n = (varying env o st).length
  fits : ∀ p ∈ varying env o st, p = a ∨ p = b ∨ p = c ∨ p = d
  offset : (st.models o.model).rm.off ∉ [a, b, c, d] ∧ st.vals (st.models o.model).rm.off = 0
  plain : Plain (st.structs (st.models o.model).str) cs
  bare : ∀ i v nb, MaterialAt env.ext.zs (pl i).1 (.sellmeier wl (v a) (v b) (v c) (v d)) nb →
    Sees env.ext.zs v (st.structs (st.models o.model).str) cs (pl i).1 ⟨(n₀ (pl i).1 : ℂ), [], nb⟩
  places : ∀ i, 0 < (pl i).1 ∧ 0 < n₀ (pl i).1 ∧ 0 < (pl i).2 ∧ (pl i).2 < 90
  four : 4 ≤ (wavs (readings pl zeros)).card
  resonance : ∀ x ∈ K, valsAt env o st (List.ofFn x) a ≠ 0 ∧ 0 < valsAt env o st (List.ofFn x) b
  below : ∀ i, ∀ x ∈ K, sellN a b c d (valsAt env o st (List.ofFn x)) (pl i).1 ≠ n₀ (pl i).1 ∧
    Real.tan (rad (pl i).2) < sellN a b c d (valsAt env o st (List.ofFn x)) (pl i).1 / n₀ (pl i).1

variable {wl : ℝ} {a b c d : PId}

theorem MeasuresSellmeier.pos (h : MeasuresSellmeier env o st cs n₀ wl a b c d pl K) (i : Fin m) {x : Fin n → ℝ}
    (hx : x ∈ K) : 0 < sellN a b c d (valsAt env o st (List.ofFn x)) (pl i).1 := by
  obtain ⟨-, h0, h1, h2⟩ := h.places i
  have hpi := Real.pi_pos
  have ht : 0 < Real.tan (rad (pl i).2) := by
    refine Real.tan_pos_of_pos_of_lt_pi_div_two (by unfold rad; positivity) ?_
    unfold rad
    have : (pl i).2 * (Real.pi / 180) < 90 * (Real.pi / 180) := mul_lt_mul_of_pos_right h2 (by positivity)
    linarith
  have := (lt_div_iff₀ h0).mp (h.below i x hx).2
  nlinarith

theorem MeasuresSellmeier.glass (h : MeasuresSellmeier env o st cs n₀ wl a b c d pl K) :
    MeasuresGlass env o st cs n₀ (fun x => sellN a b c d (valsAt env o st (List.ofFn x))) pl K where
  float := h.float
  size := h.size
  fixed := fun hp => h.offset.1 (by simpa using h.fits _ hp)
  zero := h.offset.2
  plain := h.plain
  places := h.places
  index := fun i x hx => by
    obtain ⟨hne, -, -⟩ := sellN_pos (h.pos i hx)
    have ca := continuous_valsAt (env := env) (o := o) (st := st) h.size a
    have cb := continuous_valsAt (env := env) (o := o) (st := st) h.size b
    have cc := continuous_valsAt (env := env) (o := o) (st := st) h.size c
    have cd := continuous_valsAt (env := env) (o := o) (st := st) h.size d
    have hden : ContinuousAt (fun x : Fin n → ℝ => ((pl i).1 / 1000) ^ 2 - valsAt env o st (List.ofFn x) b ^ 2) x :=
      (continuous_const.sub (cb.pow 2)).continuousAt
    have hev : ∀ᶠ y in 𝓝 x, ((pl i).1 / 1000) ^ 2 - valsAt env o st (List.ofFn y) b ^ 2 ≠ 0 :=
      hden.eventually_ne (sub_ne_zero.mpr hne)
    have hε : ContinuousAt (fun x : Fin n → ℝ => sellEps a b c d (valsAt env o st (List.ofFn x)) (pl i).1) x :=
      (cd.continuousAt.add ((ca.mul continuous_const).continuousAt.div hden (sub_ne_zero.mpr hne))).sub
        (cc.mul continuous_const).continuousAt
    refine (Real.continuous_sqrt.continuousAt.comp hε).congr ?_
    filter_upwards [hev] with y hy
    rw [sellN, if_neg (sub_ne_zero.mp hy)]
    rfl
  below := h.below
  sees := fun i x hx => h.bare i _ _ ⟨⟨wl, rfl⟩, sellN_at _ (h.places i).1 hx, by simpa using hx, by simp⟩

theorem MeasuresSellmeier.known (h : MeasuresSellmeier env o st cs n₀ wl a b c d pl K) : ∀ x ∈ K, ∀ y ∈ K,
    (∀ i, sellN a b c d (valsAt env o st (List.ofFn x)) (pl i).1 = sellN a b c d (valsAt env o st (List.ofFn y)) (pl i).1) →
    x = y := by
  intro x hx y hy he
  have hw : ∀ w ∈ wavs (readings pl (zeros : Outcome m)), ∃ i, w = (pl i).1 := by
    intro w hw
    classical
    rw [wavs, List.mem_toFinset, List.mem_map] at hw
    obtain ⟨pt, hpt, rfl⟩ := hw
    obtain ⟨i, rfl⟩ := (List.mem_ofFn' _ _).mp hpt
    exact ⟨i, rfl⟩
  obtain ⟨e1, e2, e3, e4⟩ := C171_sellmeier (wl := wl) (wl' := wl) (h.resonance x hx).1 (h.resonance x hx).2
    (h.resonance y hy).2 env.ext.zs env.ext.zs h.four (fun w hw' => by obtain ⟨i, rfl⟩ := hw w hw'; exact (h.places i).1)
    (N := fun w => (sellN a b c d (valsAt env o st (List.ofFn x)) w : ℂ))
    (fun w hw' => by
      obtain ⟨i, rfl⟩ := hw w hw'
      simp only [Scat.complex, Scat.ownWav, pick_ne (h.places i).1.ne']
      exact sellN_at _ (h.places i).1 (h.pos i hx))
    (fun w hw' => by
      obtain ⟨i, rfl⟩ := hw w hw'
      simp only [Scat.complex, Scat.ownWav, pick_ne (h.places i).1.ne']
      rw [he i]
      exact sellN_at _ (h.places i).1 (h.pos i hy))
  refine valsAt_inj h.size fun p hp => ?_
  rcases h.fits p hp with rfl | rfl | rfl | rfl
  · exact e1
  · exact e2
  · exact e3
  · exact e4

variable {Ω : Type*} [MeasurableSpace Ω] {P : Measure Ω} [IsProbabilityMeasure P] {Y : ℕ → Ω → Outcome m}

/-- C180: a Sellmeier substrate.  Almost surely all best fits of the first `k` measurements approach the true
parameters. -/
theorem C180_sellmeier (h : MeasuresSellmeier env o st cs n₀ wl a b c d pl K) (hK : IsCompact K)
    (hY : ∀ k, Measurable (Y k)) (hind : Pairwise fun i j => IndepFun (Y i) (Y j) P)
    (hdist : ∀ k, IdentDistrib (Y k) (Y 0) P P) {x0 : Fin n → ℝ} (hx0 : x0 ∈ K)
    (hu : Unbiased env o st P pl (Y 0) x0) {H : ℕ → Ω → Data.Heap} {D : ℕ → Ω → DS}
    (hD : ∀ k ω, Presents (H k ω) (D k ω) (readingsN pl (fun k => Y k ω) k)) :
    ∀ᵐ ω ∂P, ∀ b : ℕ → Fin n → ℝ, (∀ k, b k ∈ K) →
      (∀ k, ∀ x ∈ K, ∀ u v : ℝ,
        (chisqr env { o with data := D k ω } (some (List.ofFn (b k))) { st with heap := H k ω }).1 = .ok (some u) →
        (chisqr env { o with data := D k ω } (some (List.ofFn x)) { st with heap := H k ω }).1 = .ok (some v) → u ≤ v) →
      Tendsto b atTop (𝓝 x0) :=
  C180_fit h.glass hK h.known hY hind hdist hx0 hu hD

end

/-! ### A Sellmeier substrate at four wavelengths -/

/-- A substrate of a `Sellmeier` dispersion with the parameters 4, 5, 6, 8. -/
noncomputable def sellComps : List Comp :=
  [dry (.const 658 1 0), .slab 0 (fun v => .sellmeier 658 (v 4) (v 5) (v 6) (v 8)) 1 2 true]

/-- A world with a model of that structure in which the four parameters are fitted. -/
noncomputable def sellSt : St where
  vals := fun p => if p = 4 then 1 else if p = 5 then 1 / 10 else if p = 8 then 5 / 4 else 0
  vary := fun p => p == 4 || p == 5 || p == 6 || p == 8
  models := fun _ => ⟨⟨7, false⟩, 0⟩
  structs := fun _ => { data := sellComps.map .comp }
  heap := ⟨fun _ => ⟨false, []⟩, 4⟩

/-- Four wavelengths. -/
noncomputable def sellPl : Fin 4 → ℝ × ℝ := ![(400, filmAoi), (500, filmAoi), (600, filmAoi), (700, filmAoi)]

/-- The parameters that are searched: `Am` from 1/2 to 2, `En` from 1/20 to 1/5, `P` from 0 to 1/10, `einf` from 1 to 2. -/
def sellK : Set (Fin 4 → ℝ) := Set.Icc ![1 / 2, 1 / 20, 0, 1] ![2, 1 / 5, 1 / 10, 2]

theorem sell_mem {x : Fin 4 → ℝ} : x ∈ sellK ↔ (1 / 2 ≤ x 0 ∧ 1 / 20 ≤ x 1 ∧ 0 ≤ x 2 ∧ 1 ≤ x 3) ∧
    x 0 ≤ 2 ∧ x 1 ≤ 1 / 5 ∧ x 2 ≤ 1 / 10 ∧ x 3 ≤ 2 := by
  simp [sellK, Set.mem_Icc, Pi.le_def, Fin.forall_fin_succ]

theorem sell_measures (env : Env) (hdt : env.dt = .float)
    (hpars : env.pars (sellComps.map .comp) none = [1, 2, 4, 5, 6, 8]) :
    MeasuresSellmeier env subObj sellSt sellComps (fun _ => 1) 658 4 5 6 8 sellPl sellK := by
  have hvar : varying env subObj sellSt = [4, 5, 6, 8] := by
    simp [varying, flatParams, sellSt, subObj, hpars, unique]
  have hpi := Real.pi_pos
  have hgt := Real.arcsin_pos.mpr (by norm_num : (0 : ℝ) < 3 / 5)
  have hlt := Real.arcsin_lt_pi_div_two.mpr (by norm_num : (3 / 5 : ℝ) < 1)
  have haoi : 0 < filmAoi ∧ filmAoi < 90 := by
    constructor
    · unfold filmAoi; positivity
    · have h1 := film_rad
      unfold rad at h1
      by_contra h2
      push Not at h2
      have : 90 * (Real.pi / 180) ≤ filmAoi * (Real.pi / 180) := mul_le_mul_of_nonneg_right h2 (by positivity)
      linarith
  have htan : Real.tan (rad filmAoi) < 1 := by
    rw [film_rad, Real.tan_arcsin]
    rw [show (1 : ℝ) - (3 / 5) ^ 2 = (4 / 5) ^ 2 by norm_num, Real.sqrt_sq (by norm_num)]
    norm_num
  have hpl : ∀ i, 400 ≤ (sellPl i).1 ∧ (sellPl i).1 ≤ 700 ∧ (sellPl i).2 = filmAoi := by
    intro i
    fin_cases i <;> simp [sellPl] <;> norm_num
  have hval : ∀ x : Fin 4 → ℝ, valsAt env subObj sellSt (List.ofFn x) 4 = x 0 ∧
      valsAt env subObj sellSt (List.ofFn x) 5 = x 1 ∧ valsAt env subObj sellSt (List.ofFn x) 6 = x 2 ∧
      valsAt env subObj sellSt (List.ofFn x) 8 = x 3 := by
    intro x
    rw [valsAt, hvar, show List.ofFn x = [x 0, x 1, x 2, x 3] by simp [List.ofFn_succ]]
    simp [assign]
  have hsell : ∀ i, ∀ x ∈ sellK, 1 < sellN 4 5 6 8 (valsAt env subObj sellSt (List.ofFn x)) (sellPl i).1 := by
    intro i x hx
    obtain ⟨⟨h1, h2, h3, h4⟩, h5, h6, h7, h8⟩ := sell_mem.mp hx
    obtain ⟨e1, e2, e3, e4⟩ := hval x
    obtain ⟨w1, w2, -⟩ := hpl i
    have hu : (4 / 10 : ℝ) ^ 2 ≤ ((sellPl i).1 / 1000) ^ 2 ∧ ((sellPl i).1 / 1000) ^ 2 ≤ (7 / 10) ^ 2 := by
      constructor <;> refine pow_le_pow_left₀ (by linarith) (by linarith) 2
    set u := ((sellPl i).1 / 1000) ^ 2 with hu'
    have hb : x 1 ^ 2 ≤ (1 / 5) ^ 2 := by gcongr
    have hpos : 0 < u - x 1 ^ 2 := by nlinarith [hu.1]
    have hge : x 0 ≤ x 0 * u / (u - x 1 ^ 2) := by
      rw [le_div_iff₀ hpos]
      nlinarith [mul_nonneg (by linarith : 0 ≤ x 0) (sq_nonneg (x 1))]
    have hp : x 2 * u ≤ 1 / 10 * (7 / 10) ^ 2 := mul_le_mul h7 hu.2 (by linarith [hu.1]) (by norm_num)
    rw [sellN, e2, if_neg (sub_ne_zero.mp hpos.ne')]
    refine Real.lt_sqrt_of_sq_lt ?_
    rw [sellEps, e1, e2, e3, e4, ← hu']
    norm_num at hp ⊢
    linarith
  refine ⟨hdt, by rw [hvar]; rfl, by rw [hvar]; simp, ⟨by simp [sellSt], by simp [sellSt]⟩, plain_of rfl (by simp [sellComps])
      (by simp [sellComps, dry, Comp.isSlab, Comp.dflt]) le_rfl (.inl rfl), fun i v nb hm => ?_, fun i => ?_, ?_,
      fun x hx => ?_, fun i x hx => ?_⟩
  · exact ⟨_, [], _, ⟨1, 0⟩, _, rfl, .slab (const_material _ _ one_pos), by simp, .slab hm, rfl, .nil⟩
  · rw [(hpl i).2.2]
    exact ⟨by linarith [(hpl i).1], one_pos, haoi⟩
  · classical
    have : wavs (readings sellPl zeros) = {400, 500, 600, 700} := by
      ext w; simp [wavs, readings, sellPl, List.ofFn_succ]
    rw [this, Finset.card_insert_of_notMem (by norm_num), Finset.card_insert_of_notMem (by norm_num),
      Finset.card_insert_of_notMem (by norm_num)]
    simp
  · obtain ⟨⟨h1, h2, -⟩, -⟩ := sell_mem.mp hx
    rw [(hval x).1, (hval x).2.1]
    exact ⟨by linarith, by linarith⟩
  · rw [(hpl i).2.2, div_one]
    exact ⟨(hsell i x hx).ne', htan.trans (hsell i x hx)⟩

/-- Non-vacuity of `C180_sellmeier`: for all true parameters in the box there is noise without bias, and the best fits
approach the truth for every such noise. -/
example (env : Env) (hdt : env.dt = .float) (hpars : env.pars (sellComps.map .comp) none = [1, 2, 4, 5, 6, 8])
    (x0 : Fin 4 → ℝ) (hx0 : x0 ∈ sellK) :
    (∃ ν : Measure (Outcome 4), IsProbabilityMeasure ν ∧ (∀ y, ν {y} ≠ 1) ∧
      Unbiased env subObj sellSt ν sellPl id x0) ∧
    ∀ ν : Measure (Outcome 4), IsProbabilityMeasure ν → Unbiased env subObj sellSt ν sellPl id x0 →
    ∀ᵐ ω ∂(Measure.infinitePi fun _ : ℕ => ν), ∀ b : ℕ → Fin 4 → ℝ, (∀ k, b k ∈ sellK) →
      (∀ k, ∀ x ∈ sellK, ∀ u v : ℝ,
        (chisqr env { subObj with data := colData (readingsN sellPl ω k) } (some (List.ofFn (b k)))
          { sellSt with heap := colHeap (readingsN sellPl ω k) }).1 = .ok (some u) →
        (chisqr env { subObj with data := colData (readingsN sellPl ω k) } (some (List.ofFn x))
          { sellSt with heap := colHeap (readingsN sellPl ω k) }).1 = .ok (some v) → u ≤ v) →
      Tendsto b atTop (𝓝 x0) := by
  refine ⟨(sell_measures env hdt hpars).glass.noise 0 hx0, fun ν hν hu => ?_⟩
  obtain ⟨hY, hind, hid, -⟩ := rand_iid ν
  exact C180_sellmeier (Y := fun k (ω : ℕ → Outcome 4) => ω k) (sell_measures env hdt hpars) isCompact_Icc hY hind hid hx0
    hu.repeated (H := fun k ω => colHeap (readingsN sellPl ω k)) (D := fun k ω => colData (readingsN sellPl ω k))
    fun k ω => col_presents _

end Verif.Obj
