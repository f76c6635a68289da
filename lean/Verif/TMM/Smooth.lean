import Verif.TMM.PropsCont
import Mathlib.Analysis.Calculus.ContDiff.Operations
import Mathlib.Analysis.SpecialFunctions.ExpDeriv
import Mathlib.Analysis.SpecialFunctions.Sqrt
import Mathlib.Analysis.SpecialFunctions.Complex.LogDeriv
import Mathlib.Analysis.InnerProductSpace.Calculus
import Mathlib.Analysis.SpecialFunctions.Trigonometric.ArctanDeriv

/-!
# Smooth dependence of the amplitudes on the parameters (for C138)
-/

namespace Verif.TMM

open Complex (I)
open Filter Topology

theorem contDiffAt_clog {N : WithTop ℕ∞} {z : ℂ} (hz : z ∈ Complex.slitPlane) :
    ContDiffAt ℝ N Complex.log z := (Complex.contDiffAt_log hz).restrict_scalars ℝ

theorem contDiffAt_csqrt {N : WithTop ℕ∞} {z : ℂ} (hz : z ∈ Complex.slitPlane) :
    ContDiffAt ℝ N Complex.sqrt z := by
  have h1 : ContDiffAt ℝ N (fun w : ℂ => Complex.exp (Complex.log w * (1 / 2))) z :=
    ((contDiffAt_clog hz).mul contDiffAt_const).cexp
  refine h1.congr_of_eventuallyEq ?_
  filter_upwards [Complex.isOpen_slitPlane.mem_nhds hz] with w hw
  have : w ≠ 0 := Complex.slitPlane_ne_zero hw
  unfold Complex.sqrt
  rw [Complex.cpow_def_of_ne_zero this]
  norm_num

theorem contDiffAt_root1m {N : WithTop ℕ∞} {z : ℂ} (hz : z.im ≠ 0 ∨ |z.re| < 1) :
    ContDiffAt ℝ N root1m z := by
  have hopen : IsOpen {w : ℂ | w.im ≠ 0 ∨ |w.re| < 1} := by
    apply IsOpen.union
    · exact isOpen_ne_fun Complex.continuous_im continuous_const
    · exact isOpen_lt (Complex.continuous_re.abs) continuous_const
  have heq : ∀ w ∈ {w : ℂ | w.im ≠ 0 ∨ |w.re| < 1}, root1m w = Complex.sqrt (1 - w ^ 2) := by
    intro w hw
    unfold root1m
    rw [if_neg]
    rintro ⟨h1, h2⟩
    rcases hw with h | h
    · exact h h1
    · linarith [(abs_lt.mp h).2]
  have hslit : 1 - z ^ 2 ∈ Complex.slitPlane := by
    rw [Complex.mem_slitPlane_iff]
    have e1 : (1 - z ^ 2).re = 1 - z.re ^ 2 + z.im ^ 2 := by
      simp [sq]; ring
    have e2 : (1 - z ^ 2).im = -(2 * z.re * z.im) := by simp [sq]; ring
    rw [e1, e2]
    rcases hz with h | h
    · by_cases hre : z.re = 0
      · left; rw [hre]; positivity
      · right; simp [h, hre]
    · left
      have := (sq_lt_one_iff_abs_lt_one z.re).mpr h
      nlinarith [sq_nonneg z.im]
  have hc : ContDiffAt ℝ N (fun w : ℂ => Complex.sqrt (1 - w ^ 2)) z :=
    ContDiffAt.comp z (g := Complex.sqrt) (f := fun w : ℂ => 1 - w ^ 2) (contDiffAt_csqrt hslit)
      (contDiffAt_const.sub (contDiffAt_id.pow 2))
  refine hc.congr_of_eventuallyEq ?_
  filter_upwards [hopen.mem_nhds hz] with w hw
  exact heq w hw

theorem contDiffAt_clip35 {N : WithTop ℕ∞} {δ : ℂ} (h : δ.im ≠ 35) : ContDiffAt ℝ N clip35 δ := by
  rcases lt_or_gt_of_ne h with h | h
  · refine (contDiffAt_id (𝕜 := ℝ) (n := N) (x := δ)).congr_of_eventuallyEq ?_
    filter_upwards [(isOpen_lt Complex.continuous_im continuous_const).mem_nhds h] with w hw
    exact clip35_of_le (le_of_lt hw)
  · have : ContDiffAt ℝ N (fun w : ℂ => ((w.re : ℝ) : ℂ) + 35 * I) δ :=
      (Complex.ofRealCLM.contDiff.contDiffAt.comp δ (Complex.reCLM.contDiff.contDiffAt)).add contDiffAt_const
    refine this.congr_of_eventuallyEq ?_
    filter_upwards [(isOpen_lt continuous_const Complex.continuous_im).mem_nhds h] with w hw
    apply Complex.ext
    · simp [clip35]
    · simp [clip35, le_of_lt (show (35 : ℝ) < w.im from hw)]

section
variable {X : Type*} [NormedAddCommGroup X] [NormedSpace ℝ X] {N : WithTop ℕ∞}

theorem sm_div {f g : X → ℂ} {x0 : X} (hf : ContDiffAt ℝ N f x0) (hg : ContDiffAt ℝ N g x0) (h : g x0 ≠ 0) :
    ContDiffAt ℝ N (fun x => f x / g x) x0 := by
  simp only [div_eq_mul_inv]
  exact hf.mul (hg.inv h)

/-- A medium whose properties vary smoothly. -/
structure SmMed (N : WithTop ℕ∞) (m : X → Medium) (x0 : X) : Prop where
  n : ContDiffAt ℝ N (fun x => (m x).n) x0
  c : ContDiffAt ℝ N (fun x => (m x).c) x0
  δ : ContDiffAt ℝ N (fun x => (m x).δ) x0

/-- A matrix whose entries vary smoothly. -/
structure SmMat (N : WithTop ℕ∞) (m : X → Mat) (x0 : X) : Prop where
  a : ContDiffAt ℝ N (fun x => (m x).a) x0
  b : ContDiffAt ℝ N (fun x => (m x).b) x0
  c : ContDiffAt ℝ N (fun x => (m x).c) x0
  d : ContDiffAt ℝ N (fun x => (m x).d) x0

theorem SmMat.step {m k : X → Mat} {x0 : X} (hm : SmMat N m x0) (hk : SmMat N k x0) :
    SmMat N (fun x => TMM.step (m x) (k x)) x0 :=
  ⟨(hm.a.mul hk.a).add (hm.b.mul hk.c), (hm.a.mul hk.b).add (hm.b.mul hk.d),
   (hm.c.mul hk.a).add (hm.d.mul hk.c), (hm.c.mul hk.b).add (hm.d.mul hk.d)⟩

theorem sm_den {pol : Pol} {m m' : X → Medium} {x0 : X} (hm : SmMed N m x0) (hm' : SmMed N m' x0) :
    ContDiffAt ℝ N (fun x => den pol (m x) (m' x)) x0 := by
  cases pol
  · exact (hm.n.mul hm.c).add (hm'.n.mul hm'.c)
  · exact (hm'.n.mul hm.c).add (hm.n.mul hm'.c)

theorem smMat_iMat {pol : Pol} {m m' : X → Medium} {x0 : X} (hm : SmMed N m x0) (hm' : SmMed N m' x0)
    (h : (m x0).n * (m x0).c ≠ 0) : SmMat N (fun x => iMat pol (m x) (m' x)) x0 := by
  have h2 : 2 * (m x0).n * (m x0).c ≠ 0 := by rw [mul_assoc]; exact mul_ne_zero two_ne_zero h
  have hd : ContDiffAt ℝ N (fun x => 2 * (m x).n * (m x).c) x0 := (contDiffAt_const.mul hm.n).mul hm.c
  have hn1 := sm_den (pol := pol) hm hm'
  have hn2 : ContDiffAt ℝ N (fun x => num pol (m x) (m' x)) x0 := by
    cases pol
    · exact (hm.n.mul hm.c).sub (hm'.n.mul hm'.c)
    · exact (hm'.n.mul hm.c).sub (hm.n.mul hm'.c)
  have e1 : ContDiffAt ℝ N (fun x => den pol (m x) (m' x) / (2 * (m x).n * (m x).c)) x0 := sm_div hn1 hd h2
  have e2 : ContDiffAt ℝ N (fun x => num pol (m x) (m' x) / (2 * (m x).n * (m x).c)) x0 := sm_div hn2 hd h2
  exact ⟨e1, e2, e2, e1⟩

theorem smMat_prod {pol : Pol} {x0 : X} : ∀ {L : List (X → Medium)} {m : X → Medium},
    SmMed N m x0 → (∀ m ∈ L, SmMed N m x0) → Nondeg pol (m x0) (L.map fun m => m x0) →
    SmMat N (fun x => prod pol (m x) (L.map fun m => m x)) x0 ∧
      ∀ᶠ x in 𝓝 x0, Nondeg pol (m x) (L.map fun m => m x) := by
  intro L
  induction L with
  | nil =>
    intro m _ _ _
    exact ⟨⟨contDiffAt_const, contDiffAt_const, contDiffAt_const, contDiffAt_const⟩, .of_forall fun _ => trivial⟩
  | cons b L ih =>
    intro m hm hL h
    have hb := hL b (by simp)
    have hk := ih hb (fun m hm => hL m (by simp [hm])) h.2
    have hden : ∀ᶠ x in 𝓝 x0, den pol (m x) (b x) ≠ 0 :=
      (sm_den (pol := pol) hm hb).continuousAt.eventually_ne h.1.1
    have hq : ∀ᶠ x in 𝓝 x0, (m x).n * (m x).c ≠ 0 := (hm.n.mul hm.c).continuousAt.eventually_ne h.1.2
    refine ⟨?_, ?_⟩
    · cases L with
      | nil => exact smMat_iMat hm hb h.1.2
      | cons b' L =>
        have hβ : ContDiffAt ℝ N (fun x => Complex.exp (I * (b x).δ)) x0 := (contDiffAt_const.mul hb.δ).cexp
        have hγ : ContDiffAt ℝ N (fun x => Complex.exp (-(I * (b x).δ))) x0 :=
          (contDiffAt_const.mul hb.δ).neg.cexp
        exact SmMat.step (smMat_iMat hm hb h.1.2)
          ⟨hγ.mul hk.1.a, hγ.mul hk.1.b, hβ.mul hk.1.c, hβ.mul hk.1.d⟩
    · filter_upwards [hden, hq, hk.2] with x h1 h2 h3
      exact ⟨⟨h1, h2⟩, h3⟩

theorem sm_dir {s : X → ℝ} {n : X → ℂ} {x0 : X} (hs : ContDiffAt ℝ N s x0) (hn : ContDiffAt ℝ N n x0)
    (hp : PassiveIndex (n x0)) (hr : Regular s n x0) :
    ContDiffAt ℝ N (fun x => root1m ((s x : ℂ) / n x)) x0 := by
  have hdiv : ContDiffAt ℝ N (fun x => (s x : ℂ) / n x) x0 :=
    sm_div (Complex.ofRealCLM.contDiff.contDiffAt.comp x0 hs) hn hp.ne_zero
  have main : ((s x0 : ℂ) / n x0).im ≠ 0 ∨ |((s x0 : ℂ) / n x0).re| < 1 →
      ContDiffAt ℝ N (fun x => root1m ((s x : ℂ) / n x)) x0 := fun hz =>
    ContDiffAt.comp x0 (f := fun x => (s x : ℂ) / n x) (g := root1m) (contDiffAt_root1m hz) hdiv
  have hns : 0 < Complex.normSq (n x0) := Complex.normSq_pos.mpr hp.ne_zero
  have ere : ((s x0 : ℂ) / n x0).re = s x0 * (n x0).re / Complex.normSq (n x0) := by
    simp [Complex.div_re]
  have eim : ((s x0 : ℂ) / n x0).im = -(s x0 * (n x0).im / Complex.normSq (n x0)) := by
    simp [Complex.div_im]
  rcases hr with h | h | h | h
  · by_cases h0 : s x0 = 0
    · exact main (.inr (by rw [ere, h0]; simp))
    · refine main (.inl ?_)
      rw [eim]
      exact neg_ne_zero.mpr (div_ne_zero (mul_ne_zero h0 h) hns.ne')
  · refine main (.inr ?_)
    rw [ere, abs_div, abs_of_pos hns, div_lt_one hns, abs_mul, abs_of_pos hp.1, Complex.normSq_apply]
    nlinarith [hp.1, mul_self_nonneg (n x0).im]
  · refine (contDiffAt_const (c := root1m ((s x0 : ℂ) / n x0))).congr_of_eventuallyEq ?_
    filter_upwards [h] with x hx
    rw [hx.1, hx.2]
  · obtain ⟨σ, h1, h2⟩ := dir_beyond hs.continuousAt hn.continuousAt hp.1 h.1 h.2
    refine ContDiffAt.congr_of_eventuallyEq (f := fun x => σ * (Real.sqrt ((s x / (n x).re) ^ 2 - 1) : ℝ)) ?_ h1
    refine contDiffAt_const.mul (Complex.ofRealCLM.contDiff.contDiffAt.comp x0 (ContDiffAt.sqrt ?_ h2.ne'))
    refine ContDiffAt.sub (ContDiffAt.pow ?_ 2) contDiffAt_const
    exact hs.div (Complex.reCLM.contDiff.contDiffAt.comp x0 hn) hp.1.ne'

/-- Everything that is assumed for smoothness at `x0`: fronting index, angle, wavelength, thicknesses and
indices vary smoothly, the situation is physical at `x0`, a medium that is transparent beyond its critical angle
remains so (films that attenuate by less than 35 nepers are exempt if the situation is physical near `x0`), and no
film attenuates by exactly 35 nepers. -/
structure VariesSmoothly (N : WithTop ℕ∞) (n₀ θ lam : X → ℝ) (films : List ((X → ℂ) × (X → ℝ))) (nb : X → ℂ)
    (x0 : X) : Prop where
  front : ContDiffAt ℝ N n₀ x0
  angle : ContDiffAt ℝ N θ x0
  wav : ContDiffAt ℝ N lam x0
  layers : ∀ f ∈ films, ContDiffAt ℝ N f.1 x0 ∧ ContDiffAt ℝ N f.2 x0
  back : ContDiffAt ℝ N nb x0
  physical : Physical (stackAt n₀ films nb x0) (n₀ x0) (θ x0) (lam x0)
  films_regular : (∀ f ∈ films, Regular (fun x => n₀ x * Real.sin (θ x)) f.1 x0) ∨
    (∀ᶠ x in 𝓝 x0, Physical (stackAt n₀ films nb x) (n₀ x) (θ x) (lam x)) ∧
    ∀ f ∈ films, Regular (fun x => n₀ x * Real.sin (θ x)) f.1 x0 ∨
      ∀ m, IsFilm ((n₀ x0 : ℂ) * Complex.sin (θ x0)) (lam x0) (f.1 x0, f.2 x0) m → m.δ.im < 35
  back_regular : Regular (fun x => n₀ x * Real.sin (θ x)) nb x0
  not_limit : ∀ f ∈ films, ∀ m, IsFilm ((n₀ x0 : ℂ) * Complex.sin (θ x0)) (lam x0) (f.1 x0, f.2 x0) m →
    m.δ.im ≠ 35

/-- The film with the direction continued from `x0` is smooth. -/
theorem sm_medFrom {s lam d : X → ℝ} {n : X → ℂ} {x0 : X} (hs : ContDiffAt ℝ N s x0) (hl : ContDiffAt ℝ N lam x0)
    (hn : ContDiffAt ℝ N n x0) (hd : ContDiffAt ℝ N d x0) (hl0 : lam x0 ≠ 0) (hn0 : n x0 ≠ 0)
    (h : 1 - ((s x0 : ℂ) / n x0) ^ 2 ≠ 0) : SmMed N (medFrom s lam n d x0) x0 := by
  have hof : ∀ {f : X → ℝ}, ContDiffAt ℝ N f x0 → ContDiffAt ℝ N (fun x => ((f x : ℝ) : ℂ)) x0 :=
    fun hf => Complex.ofRealCLM.contDiff.contDiffAt.comp x0 hf
  have hw : ContDiffAt ℝ N (fun x => (1 - ((s x : ℂ) / n x) ^ 2) / (1 - ((s x0 : ℂ) / n x0) ^ 2)) x0 :=
    sm_div (contDiffAt_const.sub ((sm_div (hof hs) hn hn0).pow 2)) contDiffAt_const h
  have hc : ContDiffAt ℝ N (fun x => dirFrom s n x0 x) x0 := by
    unfold dirFrom
    refine contDiffAt_const.mul (ContDiffAt.comp x0 (g := Complex.sqrt) (contDiffAt_csqrt ?_) hw)
    rw [div_self h]
    exact Complex.one_mem_slitPlane
  exact ⟨hn, hc, (sm_div ((contDiffAt_const.mul hn).mul hc) (hof hl) (Complex.ofReal_ne_zero.mpr hl0)).mul (hof hd)⟩

theorem VariesSmoothly.amps {n₀ θ lam : X → ℝ} {films : List ((X → ℂ) × (X → ℝ))} {nb : X → ℂ} {x0 : X}
    (h : VariesSmoothly N n₀ θ lam films nb x0) (pol : Pol) : ∃ r t : X → ℂ,
      (∀ᶠ x in 𝓝 x0, solveSt pol (stackAt n₀ films nb x) (θ x) (lam x) = some (r x, t x)) ∧
      ContDiffAt ℝ N r x0 ∧ ContDiffAt ℝ N t x0 := by
  have hp := h.physical
  set s : X → ℝ := fun x => n₀ x * Real.sin (θ x) with hs
  have hsin : ContDiffAt ℝ N (fun x => Real.sin (θ x)) x0 := h.angle.sin
  have hsc : ContDiffAt ℝ N s x0 := h.front.mul hsin
  have hof : ∀ {f : X → ℝ}, ContDiffAt ℝ N f x0 → ContDiffAt ℝ N (fun x => ((f x : ℝ) : ℂ)) x0 :=
    fun hf => Complex.ofRealCLM.contDiff.contDiffAt.comp x0 hf
  have hsc' := hof hsc
  let fr : X → Medium := fun x => ⟨(n₀ x : ℂ), root1m ((Real.sin (θ x) : ℝ) : ℂ), 0⟩
  let cd : ((X → ℂ) × (X → ℝ)) → X → Medium := fun f x => codeMed (s x) (lam x) (f.1 x, f.2 x)
  let bk : X → Medium := fun x => ⟨nb x, root1m ((s x : ℂ) / nb x), 0⟩
  have hsx : ∀ x, (n₀ x : ℂ) * Complex.sin (θ x) = (s x : ℂ) := by intro x; simp [hs]
  have e : ∀ x, solveSt pol (stackAt n₀ films nb x) (θ x) (lam x) =
      solveL pol (fr x) (((films.map cd) ++ [bk]).map fun m => m x) := by
    intro x
    rw [solveSt_eq]
    congr 1
    · simp [frontM, stackAt, fr]
    · simp only [filmsM, backM, stackAt, List.map_map, List.map_append, List.map_cons, List.map_nil, hsx]
      congr 1
  have cfr : SmMed N fr x0 := by
    refine ⟨hof h.front, ?_, contDiffAt_const⟩
    have hz : |Real.sin (θ x0)| < 1 := by
      have := hp.cos_pos
      have h2 := Real.sin_sq_add_cos_sq (θ x0)
      rw [← sq_lt_one_iff_abs_lt_one]
      nlinarith
    refine ContDiffAt.comp x0 (f := fun x => ((Real.sin (θ x) : ℝ) : ℂ)) (g := root1m) (contDiffAt_root1m ?_)
      (hof hsin)
    right; rwa [Complex.ofReal_re]
  have hreg : ∀ f ∈ films, Regular s f.1 x0 ∨
      ∀ m, IsFilm ((n₀ x0 : ℂ) * Complex.sin (θ x0)) (lam x0) (f.1 x0, f.2 x0) m → m.δ.im < 35 := by
    rcases h.films_regular with h' | h'
    · exact fun f hf => .inl (h' f hf)
    · exact h'.2
  -- a film that varies smoothly, and is that of the code up to the direction
  have hex : ∀ f : (X → ℂ) × (X → ℝ), ∃ μ : X → Medium, f ∈ films → SmMed N μ x0 ∧ μ x0 = cd f x0 ∧
      (∀ᶠ x in 𝓝 x0, cd f x = μ x ∨ cd f x = (μ x).flip) ∧ (Regular s f.1 x0 → μ = cd f) := by
    intro f
    by_cases hf : f ∈ films
    swap
    · exact ⟨cd f, fun h => absurd h hf⟩
    have hpf := (hp.films (f.1 x0, f.2 x0) (List.mem_map.mpr ⟨f, hf, rfl⟩)).1
    by_cases hr : Regular s f.1 x0
    · have hc := sm_dir hsc (h.layers f hf).1 hpf hr
      refine ⟨cd f, fun _ => ⟨⟨(h.layers f hf).1, hc, ?_⟩, rfl, .of_forall fun x => .inl rfl, fun _ => rfl⟩⟩
      refine ContDiffAt.comp x0 (g := clip35)
        (f := fun x => 2 * (Real.pi : ℂ) * f.1 x * root1m ((s x : ℂ) / f.1 x) / (lam x : ℂ) * (f.2 x : ℂ))
        (contDiffAt_clip35 ?_) ?_
      · refine h.not_limit f hf ⟨f.1 x0, root1m ((s x0 : ℂ) / f.1 x0), _⟩ ⟨rfl, ?_, ?_⟩
        · rw [root1m_sq, hsx]
        · simp only; ring
      · refine ContDiffAt.mul (sm_div ?_ (hof h.wav) ?_) (hof (h.layers f hf).2)
        · exact (contDiffAt_const.mul (h.layers f hf).1).mul hc
        · exact Complex.ofReal_ne_zero.mpr hp.lam_pos.ne'
    · have hlim := (hreg f hf).resolve_left hr
      have hw : 1 - ((s x0 : ℂ) / f.1 x0) ^ 2 ≠ 0 := by
        have hq : (cd f x0).n * (cd f x0).c ≠ 0 := by
          refine (hp.film_dir (cd f x0) ?_).2
          simp only [filmsM, stackAt, List.map_map, List.mem_map]
          exact ⟨f, hf, by simp only [cd, Function.comp, hsx]⟩
        rw [← root1m_sq]
        exact pow_ne_zero 2 (right_ne_zero_of_mul hq)
      have hcm := sm_medFrom hsc h.wav (h.layers f hf).1 (h.layers f hf).2 hp.lam_pos.ne' hpf.ne_zero hw
      have hlt : |(medFrom s lam f.1 f.2 x0 x0).δ.im| < 35 := by
        rw [abs_lt]
        constructor
        · have := hlim ⟨f.1 x0, -dirFrom s f.1 x0 x0, -(medFrom s lam f.1 f.2 x0 x0).δ⟩ ⟨rfl, ?_, ?_⟩
          · rw [Complex.neg_im] at this; linarith
          · rw [neg_sq, dirFrom_self hw, root1m_sq, hsx]
          · simp only [medFrom]; ring
        · refine hlim ⟨f.1 x0, dirFrom s f.1 x0 x0, _⟩ ⟨rfl, ?_, ?_⟩
          · rw [dirFrom_self hw, root1m_sq, hsx]
          · ring
      refine ⟨medFrom s lam f.1 f.2 x0, fun _ => ⟨hcm, ?_, ?_, fun h' => absurd h' hr⟩⟩
      · have h35 := (abs_lt.mp hlt).2
        simp only [cd, codeMed, medFrom, dirFrom_self hw] at h35 ⊢
        rw [clip35_of_le h35.le]
      · have := ((Complex.continuous_im.continuousAt.comp hcm.δ.continuousAt).abs).eventually_lt
          continuousAt_const hlt
        filter_upwards [this] with x hx
        exact medFrom_flip hw hx
  choose md hmd using hex
  have cbk : SmMed N bk x0 := ⟨h.back, sm_dir hsc h.back hp.back h.back_regular, contDiffAt_const⟩
  have call : ∀ m ∈ films.map md ++ [bk], SmMed N m x0 := by
    intro m hm
    rcases List.mem_append.mp hm with h' | h'
    · obtain ⟨f, hf, rfl⟩ := List.mem_map.mp h'
      exact (hmd f hf).1
    · rw [List.mem_singleton] at h'
      rw [h']; exact cbk
  set P : X → Mat := fun x => prod pol (fr x) ((films.map md ++ [bk]).map fun m => m x) with hP
  have key : ∀ x {r t : ℂ}, solveL pol (fr x) ((films.map cd ++ [bk]).map fun m => m x) = some (r, t) ↔
      Nondeg pol (fr x) ((films.map cd ++ [bk]).map fun m => m x) ∧
      (prod pol (fr x) ((films.map cd ++ [bk]).map fun m => m x)).a ≠ 0 ∧
      r = (prod pol (fr x) ((films.map cd ++ [bk]).map fun m => m x)).c /
        (prod pol (fr x) ((films.map cd ++ [bk]).map fun m => m x)).a ∧
      t = 1 / (prod pol (fr x) ((films.map cd ++ [bk]).map fun m => m x)).a := by
    intro x r t
    cases hL : (films.map cd ++ [bk]).map (fun m => m x) with
    | nil => simp at hL
    | cons m1 rest => exact solve_eq_some
  have hsame : ∀ᶠ x in 𝓝 x0, prod pol (fr x) ((films.map cd ++ [bk]).map fun m => m x) = P x := by
    have hall : ∀ᶠ x in 𝓝 x0, ∀ f ∈ films, cd f x = md f x ∨ cd f x = (md f x).flip :=
      eventually_all_mem fun f hf => (hmd f hf).2.2.1
    filter_upwards [hall] with x hx
    simp only [hP, List.map_append, List.map_map, List.map_cons, List.map_nil]
    refine prod_flip_films ?_ _
    rw [List.forall₂_map_left_iff, List.forall₂_map_right_iff]
    exact List.forall₂_same.mpr hx
  have hsame0 : (films.map md ++ [bk]).map (fun m => m x0) = (films.map cd ++ [bk]).map (fun m => m x0) := by
    simp only [List.map_append, List.map_map]
    congr 1
    exact List.map_congr_left fun f hf => (hmd f hf).2.1
  obtain ⟨r, t, h1⟩ := hp.solved pol
  rw [e] at h1
  obtain ⟨k1, k2, -⟩ := (key x0).mp h1
  rw [hsame.self_of_nhds] at k2
  rw [← hsame0] at k1
  obtain ⟨hprod, hnd⟩ := smMat_prod (pol := pol) cfr call k1
  have hne : ∀ᶠ x in 𝓝 x0, (P x).a ≠ 0 := hprod.a.continuousAt.eventually_ne k2
  refine ⟨fun x => (P x).c / (P x).a, fun x => 1 / (P x).a, ?_, sm_div hprod.c hprod.a k2,
    sm_div contDiffAt_const hprod.a k2⟩
  rcases h.films_regular with h' | h'
  · have hmc : films.map md = films.map cd := List.map_congr_left fun f hf => (hmd f hf).2.2.2 (h' f hf)
    filter_upwards [hnd, hne, hsame] with x h2 h3 h4
    rw [hmc] at h2
    rw [← h4] at h3 ⊢
    rw [e, (key x).mpr ⟨h2, h3, rfl, rfl⟩]
  · filter_upwards [h'.1, hsame] with x hx h4
    obtain ⟨r, t, h1⟩ := hx.solved pol
    rw [e] at h1 ⊢
    obtain ⟨-, -, k2, k3⟩ := (key x).mp h1
    rw [← h4, h1, k2, k3]

theorem VariesSmoothly.nz {n₀ θ lam : X → ℝ} {films : List ((X → ℂ) × (X → ℝ))} {nb : X → ℂ} {x0 : X}
    (h : VariesSmoothly N n₀ θ lam films nb x0) :
    ∀ᶠ x in 𝓝 x0, (stackAt n₀ films nb x).NZ ∧ lam x ≠ 0 := by
  have hp := h.physical
  have h1 : ∀ᶠ x in 𝓝 x0, n₀ x ≠ 0 := h.front.continuousAt.eventually_ne hp.n₀_pos.ne'
  have h2 : ∀ᶠ x in 𝓝 x0, lam x ≠ 0 := h.wav.continuousAt.eventually_ne hp.lam_pos.ne'
  have h3 : ∀ᶠ x in 𝓝 x0, nb x ≠ 0 := h.back.continuousAt.eventually_ne hp.back.ne_zero
  have h4 : ∀ᶠ x in 𝓝 x0, ∀ f ∈ films, f.1 x ≠ 0 := by
    have h5 : ∀ f ∈ films, ∀ᶠ x in 𝓝 x0, f.1 x ≠ 0 := fun f hf =>
      (h.layers f hf).1.continuousAt.eventually_ne
        (hp.films (f.1 x0, f.2 x0) (List.mem_map.mpr ⟨f, hf, rfl⟩)).1.ne_zero
    clear h hp
    induction films with
    | nil => exact .of_forall (by simp)
    | cons a l ih =>
      filter_upwards [h5 a (by simp), ih fun f hf => h5 f (by simp [hf])] with x i1 i2 f hf
      rcases List.mem_cons.mp hf with rfl | hf
      · exact i1
      · exact i2 f hf
  filter_upwards [h1, h2, h3, h4] with x i1 i2 i3 i4
  refine ⟨⟨Complex.ofReal_ne_zero.mpr i1, ?_, i3⟩, i2⟩
  intro g hg
  obtain ⟨f, hf, rfl⟩ := List.mem_map.mp hg
  exact i4 f hf

end

end Verif.TMM
