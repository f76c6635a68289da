import Verif.Obj.PropsRecoverSubstrate
import Verif.Obj.PropsRecoverSellmeier

/-! # C185: the Sellmeier parameters of any bare substrate from noisy measurements -/

namespace Verif.Obj
open Verif.Struct Verif.TMM Verif.RModel Verif.Data Verif.Disp Filter Topology MeasureTheory ProbabilityTheory

section
variable {env : Env} {o : Objective} {st : St} {m n : ℕ} {pl : Fin m → ℝ × ℝ} {y0 : Outcome m} {cs : List Comp}
  {n₀ : ℝ → ℝ} {X : Set (List ℝ)} {K : Set (Fin n → ℝ)} {wl : ℝ} {a b c d : PId}

theorem sell_near (hn : n = (varying env o st).length) {w : ℝ} {x : Fin n → ℝ}
    (hx : 0 < sellN a b c d (valsAt env o st (List.ofFn x)) w) :
    ContinuousAt (fun x : Fin n → ℝ => sellN a b c d (valsAt env o st (List.ofFn x)) w) x := by
  obtain ⟨hne, -, -⟩ := sellN_pos hx
  have ca := continuous_valsAt (env := env) (o := o) (st := st) hn a
  have cb := continuous_valsAt (env := env) (o := o) (st := st) hn b
  have cc := continuous_valsAt (env := env) (o := o) (st := st) hn c
  have cd := continuous_valsAt (env := env) (o := o) (st := st) hn d
  have hden : ContinuousAt (fun x : Fin n → ℝ => (w / 1000) ^ 2 - valsAt env o st (List.ofFn x) b ^ 2) x :=
    (continuous_const.sub (cb.pow 2)).continuousAt
  have hε : ContinuousAt (fun x : Fin n → ℝ => sellEps a b c d (valsAt env o st (List.ofFn x)) w) x :=
    (cd.continuousAt.add ((ca.mul continuous_const).continuousAt.div hden (sub_ne_zero.mpr hne))).sub
      (cc.mul continuous_const).continuousAt
  refine (Real.continuous_sqrt.continuousAt.comp hε).congr ?_
  filter_upwards [hden.eventually_ne (sub_ne_zero.mpr hne)] with y hy
  rw [sellN, if_neg (sub_ne_zero.mp hy)]
  rfl

variable {Ω : Type*} [MeasurableSpace Ω] {P : Measure Ω} [IsProbabilityMeasure P] {Y : ℕ → Ω → Outcome m}

/-- C185: a Sellmeier law at four or more wavelengths, of which some or all parameters are fitted, if all parameters in the set
have a resonance. -/
theorem C185_sellmeier
    (h : FitsSubstrate env o st cs n₀ (fun v => .sellmeier wl (v a) (v b) (v c) (v d)) (readings pl y0) X)
    (hv : ∀ p ∈ varying env o st, p = a ∨ p = b ∨ p = c ∨ p = d) (hw : 4 ≤ (wavs (readings pl y0)).card)
    (hn : n = (varying env o st).length) (hoff : st.vals (st.models o.model).rm.off = 0) (hK : IsCompact K)
    (hX : ∀ x ∈ K, ∀ᶠ p in 𝓝 x, List.ofFn p ∈ X)
    (hres : ∀ x ∈ K, valsAt env o st (List.ofFn x) a ≠ 0 ∧ 0 < valsAt env o st (List.ofFn x) b)
    (hcrit : ∀ x ∈ K, ∀ i, |n₀ (pl i).1 * Real.sin (rad (pl i).2)| <
      sellN a b c d (valsAt env o st (List.ofFn x)) (pl i).1)
    (hfin : ∀ x ∈ K, ∃ u, (chisqr env o (some (List.ofFn x)) st).1 = .ok (some u))
    (hY : ∀ k, Measurable (Y k)) (hind : Pairwise fun i j => IndepFun (Y i) (Y j) P)
    (hdist : ∀ k, IdentDistrib (Y k) (Y 0) P P) {x0 : Fin n → ℝ} (hx0 : x0 ∈ K) (hu : SmallErrors env o st P pl (Y 0) x0)
    {H : ℕ → Ω → Data.Heap} {D : ℕ → Ω → DS}
    (hD : ∀ k ω, Presents (H k ω) (D k ω) (readingsN pl (fun k => Y k ω) k)) :
    ∀ᵐ ω ∂P, ∀ b : ℕ → Fin n → ℝ, (∀ k, b k ∈ K) →
      (∀ k, ∀ x ∈ K, ∀ u v : ℝ,
        (chisqr env { o with data := D k ω } (some (List.ofFn (b k))) { st with heap := H k ω }).1 = .ok (some u) →
        (chisqr env { o with data := D k ω } (some (List.ofFn x)) { st with heap := H k ω }).1 = .ok (some v) → u ≤ v) →
      Tendsto b atTop (𝓝 x0) := by
  have hpos : ∀ i, 0 < (pl i).1 := fun i => (h.oblique _ ((List.mem_ofFn' _ _).mpr ⟨i, rfl⟩)).1
  have hN : ∀ x ∈ K, ∀ i, 0 < sellN a b c d (valsAt env o st (List.ofFn x)) (pl i).1 := fun x hx i =>
    (abs_nonneg _).trans_lt (hcrit x hx i)
  refine C185_fit (nb := fun w x => (sellN a b c d (valsAt env o st (List.ofFn x)) w : ℂ)) h hn hoff
    ⟨fun pt hpt x hx => ?_, fun pt hpt x hx => ?_, fun pt hpt x hx => ?_⟩ hK hX hfin (fun x hx y hy he => ?_) hY hind hdist hx0
    hu hD
  · obtain ⟨i, rfl⟩ := (List.mem_ofFn' _ _).mp hpt
    filter_upwards [(sell_near hn (hN x hx i)).eventually (Ioi_mem_nhds (hN x hx i))] with p hp
    exact sellN_at _ (hpos i) hp
  · obtain ⟨i, rfl⟩ := (List.mem_ofFn' _ _).mp hpt
    exact Complex.continuous_ofReal.continuousAt.comp (sell_near hn (hN x hx i))
  · obtain ⟨i, rfl⟩ := (List.mem_ofFn' _ _).mp hpt
    exact .inr (by rw [Complex.ofReal_re]; exact hcrit x hx i)
  · have hwav : ∀ w ∈ wavs (readings pl y0), ∃ i, w = (pl i).1 := by
      intro w hw
      classical
      rw [wavs, List.mem_toFinset, List.mem_map] at hw
      obtain ⟨pt, hpt, rfl⟩ := hw
      obtain ⟨i, rfl⟩ := (List.mem_ofFn' _ _).mp hpt
      exact ⟨i, rfl⟩
    have hat : ∀ i, (Scat.sellmeier wl (valsAt env o st (List.ofFn x) a) (valsAt env o st (List.ofFn x) b)
        (valsAt env o st (List.ofFn x) c) (valsAt env o st (List.ofFn x) d)).complex env.ext.zs (some (pl i).1) =
        some (sellN a b c d (valsAt env o st (List.ofFn x)) (pl i).1 : ℂ) := by
      intro i
      simp only [Scat.complex, Scat.ownWav, pick_ne (hpos i).ne']
      exact sellN_at _ (hpos i) (hN x hx i)
    obtain ⟨e1, e2, e3, e4⟩ := C171_sellmeier (wl := wl) (wl' := wl) (hres x hx).1 (hres x hx).2 (hres y hy).2 env.ext.zs
      env.ext.zs hw (fun w hw => by obtain ⟨i, rfl⟩ := hwav w hw; exact hpos i)
      (N := fun w => (sellN a b c d (valsAt env o st (List.ofFn x)) w : ℂ))
      (fun w hw => by obtain ⟨i, rfl⟩ := hwav w hw; exact hat i)
      (fun w hw => by obtain ⟨i, rfl⟩ := hwav w hw; exact (he i).symm.trans (hat i))
    refine valsAt_inj hn fun p hp => ?_
    rcases hv p hp with rfl | rfl | rfl | rfl
    · exact e1
    · exact e2
    · exact e3
    · exact e4

end

/-- Non-vacuity of `C185_sellmeier`: for all true parameters in the box `sellK` there is noise of 80 degrees with which the best
fits find the truth. -/
example (env : Env) (hdt : env.dt = .float) (hpars : env.pars (sellComps.map .comp) none = [1, 2, 4, 5, 6, 8])
    (x0 : Fin 4 → ℝ) (hx0 : x0 ∈ sellK) :
    ∃ ν : Measure (Outcome 4), IsProbabilityMeasure ν ∧ (∀ y, ν {y} ≠ 1) ∧
    ∀ᵐ ω ∂(Measure.infinitePi fun _ : ℕ => ν), ∀ b : ℕ → Fin 4 → ℝ, (∀ k, b k ∈ sellK) →
      (∀ k, ∀ x ∈ sellK, ∀ u v : ℝ,
        (chisqr env { subObj with data := colData (readingsN sellPl ω k) } (some (List.ofFn (b k)))
          { sellSt with heap := colHeap (readingsN sellPl ω k) }).1 = .ok (some u) →
        (chisqr env { subObj with data := colData (readingsN sellPl ω k) } (some (List.ofFn x))
          { sellSt with heap := colHeap (readingsN sellPl ω k) }).1 = .ok (some v) → u ≤ v) →
      Tendsto b atTop (𝓝 x0) := by
  have hM := sell_measures env hdt hpars
  obtain ⟨ψ, hval, -, hψ⟩ := hM.glass.psi
  have hv : ∀ x ∈ sellK, Values env subObj (setp env subObj (some (List.ofFn x)) sellSt).2 (readings sellPl zeros)
      (cellsOf (List.ofFn fun i => (ψ x i, 180))) := fun x hx => hval x hx _ (readings_map _)
  obtain ⟨ν, hν, ⟨w, U, hw, hU⟩, hone⟩ := errors_of (ψ := ψ x0) (Δ := fun _ => 180) (hv x0 hx0)
    (fun i => ⟨⟨(hψ x0 hx0 i).1, by linarith [(hψ x0 hx0 i).2]⟩, by norm_num, by norm_num⟩) (e := 80) (by norm_num) (by norm_num)
  obtain ⟨hY, hind, hid, hlaw⟩ := rand_iid ν
  have hfit : FitsSubstrate env { subObj with data := colData (readings sellPl zeros) }
      { sellSt with heap := colHeap (readings sellPl zeros) } sellComps (fun _ => 1)
      (fun v => .sellmeier 658 (v 4) (v 5) (v 6) (v 8)) (readings sellPl zeros)
      {x | x.length = 4 ∧ ∀ i, 0 < sellN 4 5 6 8 (valsAt env subObj sellSt x) (sellPl i).1} := by
    refine ⟨col_presents _, hdt, hM.glass.fixed, hM.plain, fun x hx => hx.1.trans hM.size, fun x hx pt hpt => ?_,
      fun pt hpt => ?_⟩
    · obtain ⟨i, rfl⟩ := (List.mem_ofFn' _ _).mp hpt
      have hm : MaterialAt env.ext.zs (sellPl i).1 (Scat.sellmeier 658 (valsAt env subObj sellSt x 4)
          (valsAt env subObj sellSt x 5) (valsAt env subObj sellSt x 6) (valsAt env subObj sellSt x 8))
          (sellN 4 5 6 8 (valsAt env subObj sellSt x) (sellPl i).1 : ℂ) :=
        ⟨⟨658, rfl⟩, sellN_at _ (hM.places i).1 (hx.2 i), by simpa using hx.2 i, by simp⟩
      exact ⟨_, hm, hM.bare i _ _ hm⟩
    · obtain ⟨i, rfl⟩ := (List.mem_ofFn' _ _).mp hpt
      obtain ⟨h1, h2⟩ := hM.glass.angle i
      exact ⟨(hM.places i).1, one_pos, by rw [abs_of_pos h1]; exact h2, (hM.places i).2.2.1.ne'⟩
  refine ⟨ν, hν, hone 0, C185_sellmeier (o := { subObj with data := colData (readings sellPl zeros) })
    (st := { sellSt with heap := colHeap (readings sellPl zeros) }) (Y := fun k (ω : ℕ → Outcome 4) => ω k) hfit hM.fits hM.four
    hM.size hM.offset.2 isCompact_Icc (fun x hx => ?_) hM.resonance (fun x hx i => ?_) (fun x hx => ?_) hY hind hid hx0
    ⟨w, fun i ω => U i (ω 0), ?_, fun i => ⟨(hU i).1.comp (hY 0), ?_, ?_, ?_⟩⟩
    (H := fun k ω => colHeap (readingsN sellPl ω k)) (D := fun k ω => colData (readingsN sellPl ω k)) fun k ω => col_presents _⟩
  · have : ∀ i, ∀ᶠ p in 𝓝 x, 0 < sellN 4 5 6 8 (valsAt env subObj sellSt (List.ofFn p)) (sellPl i).1 := fun i =>
      (sell_near hM.size (hM.pos i hx)).eventually (Ioi_mem_nhds (hM.pos i hx))
    filter_upwards [eventually_all.mpr this] with p hp
    exact ⟨List.length_ofFn, hp⟩
  · obtain ⟨h1, h2⟩ := hM.glass.angle i
    have hs := Real.sin_pos_of_pos_of_lt_pi h1 (by linarith [Real.pi_pos])
    rw [abs_of_pos (by simpa using hs)]
    exact (hM.glass.dense i hx).2
  · exact ⟨_, chi_at (o := subObj) (st := sellSt) hM.size (ψ := ψ x) (Δ := fun _ => 180) (hv x hx)
      (q := fun i => (((zeros : Outcome 4) i).1, ((zeros : Outcome 4) i).2)) (col_presents _)⟩
  · rw [setp_other hM.size]
    unfold Values at hw ⊢
    exact hw
  · rw [hlaw _ (hU i).1]
    exact (hU i).2.1
  · rw [hlaw (fun y => ((y i).1 : ℝ)) (by fun_prop)]
    exact (hU i).2.2.1
  · exact (measurePreserving_eval_infinitePi (fun _ : ℕ => ν) 0).quasiMeasurePreserving.ae (hU i).2.2.2

end Verif.Obj
