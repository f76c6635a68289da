import Verif.TMM.Turn
import Mathlib.Analysis.SpecialFunctions.Pow.Continuity
import Mathlib.Analysis.SpecialFunctions.Trigonometric.InverseDeriv

/-!
# Continuity (C116)
-/

namespace Verif.TMM

open Complex (I)
open Filter Topology

/-! ### C116: small changes of the parameters have small effects -/

theorem continuousAt_root1m {z : ℂ} (hz : z.im ≠ 0 ∨ |z.re| < 1) : ContinuousAt root1m z := by
  have hopen : IsOpen {w : ℂ | w.im ≠ 0 ∨ |w.re| < 1} := by
    apply IsOpen.union
    · exact isOpen_ne_fun Complex.continuous_im continuous_const
    · exact isOpen_lt (Complex.continuous_re.abs) continuous_const
  have heq : ∀ w ∈ {w : ℂ | w.im ≠ 0 ∨ |w.re| < 1}, root1m w = Complex.sqrt (1 - w ^ 2) := by
    intro w hw
    unfold root1m
    rw [if_neg]
    rintro ⟨h1, h2⟩
    rcases hw with h | h
    · exact h h1
    · linarith [(abs_lt.mp h).2]
  have hslit : 1 - z ^ 2 ∈ Complex.slitPlane := by
    rw [Complex.mem_slitPlane_iff]
    have e1 : (1 - z ^ 2).re = 1 - z.re ^ 2 + z.im ^ 2 := by
      simp [sq]; ring
    have e2 : (1 - z ^ 2).im = -(2 * z.re * z.im) := by simp [sq]; ring
    rw [e1, e2]
    rcases hz with h | h
    · by_cases hre : z.re = 0
      · left; rw [hre]; positivity
      · right; simp [h, hre]
    · left
      have := (sq_lt_one_iff_abs_lt_one z.re).mpr h
      nlinarith [sq_nonneg z.im]
  have hc : ContinuousAt (fun w : ℂ => Complex.sqrt (1 - w ^ 2)) z := by
    unfold Complex.sqrt
    refine ContinuousAt.cpow (by fun_prop) continuousAt_const hslit
  refine hc.congr ?_
  filter_upwards [hopen.mem_nhds hz] with w hw
  exact (heq w hw).symm

theorem continuous_clip35 : Continuous clip35 := by
  have : clip35 = fun δ : ℂ => ((δ.re : ℝ) : ℂ) + ((min δ.im 35 : ℝ) : ℂ) * I := by
    funext δ
    apply Complex.ext <;> simp [clip35]
  rw [this]
  fun_prop

section
variable {X : Type*} [TopologicalSpace X]

/-- A medium whose properties vary continuously. -/
structure ContMed (m : X → Medium) (x0 : X) : Prop where
  n : ContinuousAt (fun x => (m x).n) x0
  c : ContinuousAt (fun x => (m x).c) x0
  δ : ContinuousAt (fun x => (m x).δ) x0

/-- A matrix whose entries vary continuously. -/
structure ContMat (m : X → Mat) (x0 : X) : Prop where
  a : ContinuousAt (fun x => (m x).a) x0
  b : ContinuousAt (fun x => (m x).b) x0
  c : ContinuousAt (fun x => (m x).c) x0
  d : ContinuousAt (fun x => (m x).d) x0

theorem ContMat.step {m k : X → Mat} {x0 : X} (hm : ContMat m x0) (hk : ContMat k x0) :
    ContMat (fun x => TMM.step (m x) (k x)) x0 :=
  ⟨(hm.a.mul hk.a).add (hm.b.mul hk.c), (hm.a.mul hk.b).add (hm.b.mul hk.d),
   (hm.c.mul hk.a).add (hm.d.mul hk.c), (hm.c.mul hk.b).add (hm.d.mul hk.d)⟩

theorem contMat_iMat {pol : Pol} {m m' : X → Medium} {x0 : X} (hm : ContMed m x0) (hm' : ContMed m' x0)
    (h : (m x0).n * (m x0).c ≠ 0) : ContMat (fun x => iMat pol (m x) (m' x)) x0 := by
  have h2 : 2 * (m x0).n * (m x0).c ≠ 0 := by rw [mul_assoc]; exact mul_ne_zero two_ne_zero h
  have hd : ContinuousAt (fun x => 2 * (m x).n * (m x).c) x0 := (continuousAt_const.mul hm.n).mul hm.c
  have hn1 : ContinuousAt (fun x => den pol (m x) (m' x)) x0 := by
    cases pol
    · exact (hm.n.mul hm.c).add (hm'.n.mul hm'.c)
    · exact (hm'.n.mul hm.c).add (hm.n.mul hm'.c)
  have hn2 : ContinuousAt (fun x => num pol (m x) (m' x)) x0 := by
    cases pol
    · exact (hm.n.mul hm.c).sub (hm'.n.mul hm'.c)
    · exact (hm'.n.mul hm.c).sub (hm.n.mul hm'.c)
  exact ⟨hn1.div hd h2, hn2.div hd h2, hn2.div hd h2, hn1.div hd h2⟩

theorem contMat_prod {pol : Pol} {x0 : X} : ∀ {L : List (X → Medium)} {m : X → Medium},
    ContMed m x0 → (∀ m ∈ L, ContMed m x0) → (m x0).n * (m x0).c ≠ 0 →
    (∀ m ∈ L.dropLast, (m x0).n * (m x0).c ≠ 0) →
    ContMat (fun x => prod pol (m x) (L.map fun m => m x)) x0 := by
  intro L
  induction L with
  | nil => intro m _ _ _ _; exact ⟨continuousAt_const, continuousAt_const, continuousAt_const, continuousAt_const⟩
  | cons b L ih =>
    intro m hm hL h hd
    cases L with
    | nil => exact contMat_iMat hm (hL b (by simp)) h
    | cons b' L =>
      have hb := hL b (by simp)
      have hk := ih hb (fun m hm => hL m (by simp [hm])) (hd b (by simp)) (fun m hm => hd m (by
        rw [List.dropLast_cons_of_ne_nil (by simp)]; exact List.mem_cons_of_mem _ hm))
      have hβ : ContinuousAt (fun x => Complex.exp (I * (b x).δ)) x0 := (continuousAt_const.mul hb.δ).cexp
      have hγ : ContinuousAt (fun x => Complex.exp (-(I * (b x).δ))) x0 :=
        (continuousAt_const.mul hb.δ).neg.cexp
      exact ContMat.step (contMat_iMat hm hb h)
        ⟨hγ.mul hk.a, hγ.mul hk.b, hβ.mul hk.c, hβ.mul hk.d⟩

/-- A stack whose indices and thicknesses are functions of parameters `x`. -/
def stackAt (n₀ : X → ℝ) (films : List ((X → ℂ) × (X → ℝ))) (nb : X → ℂ) (x : X) : Stack :=
  ⟨(n₀ x : ℂ), films.map fun f => (f.1 x, f.2 x), nb x⟩

/-- Where the direction of light in a medium of index `n x` depends continuously on the parameters: the medium
absorbs, or is below its critical angle, or neither its index nor the transverse wavevector `s x` is varied, or it
is beyond its critical angle and remains transparent. -/
def Regular (s : X → ℝ) (n : X → ℂ) (x0 : X) : Prop :=
  (n x0).im ≠ 0 ∨ |s x0| < (n x0).re ∨ (∀ᶠ x in 𝓝 x0, s x = s x0 ∧ n x = n x0) ∨
    ((n x0).re < |s x0| ∧ ∀ᶠ x in 𝓝 x0, (n x).im = 0)

/-- Beyond the critical angle of a transparent medium the direction is imaginary; its sign does not change. -/
theorem dir_beyond {s : X → ℝ} {n : X → ℂ} {x0 : X} (hs : ContinuousAt s x0) (hn : ContinuousAt n x0)
    (hp : 0 < (n x0).re) (h : (n x0).re < |s x0|) (hr : ∀ᶠ x in 𝓝 x0, (n x).im = 0) :
    ∃ σ : ℂ, (∀ᶠ x in 𝓝 x0, root1m ((s x : ℂ) / n x) = σ * (Real.sqrt ((s x / (n x).re) ^ 2 - 1) : ℝ)) ∧
      0 < (s x0 / (n x0).re) ^ 2 - 1 := by
  have hre : ContinuousAt (fun x => (n x).re) x0 := Complex.continuous_re.continuousAt.comp hn
  have hpos : ∀ᶠ x in 𝓝 x0, 0 < (n x).re := continuousAt_const.eventually_lt hre hp
  have ediv : ∀ x, (n x).im = 0 → (s x : ℂ) / n x = ((s x / (n x).re : ℝ) : ℂ) := by
    intro x hx
    rw [show n x = (((n x).re : ℝ) : ℂ) from Complex.ext rfl (by simp [hx])]
    push_cast; simp
  have hgt : 0 < (s x0 / (n x0).re) ^ 2 - 1 := by
    rw [div_pow, sub_pos, one_lt_div (by positivity)]
    exact sq_lt_sq' (by linarith [neg_abs_le (s x0), abs_nonneg (s x0)]) h |>.trans_eq (sq_abs _)
  rcases lt_abs.mp h with h1 | h1
  · refine ⟨-I, ?_, hgt⟩
    filter_upwards [hre.eventually_lt hs h1, hpos, hr] with x i1 i2 i3
    rw [ediv x i3, root1m_ofReal_gt (by rwa [one_lt_div i2])]
  · refine ⟨I, ?_, hgt⟩
    have hsn : ContinuousAt (fun x => -s x) x0 := hs.neg
    filter_upwards [hre.eventually_lt hsn h1, hpos, hr] with x i1 i2 i3
    rw [ediv x i3, root1m_ofReal_lt (by rw [div_lt_iff₀ i2]; linarith)]

theorem cont_dir {s : X → ℝ} {n : X → ℂ} {x0 : X} (hs : ContinuousAt s x0) (hn : ContinuousAt n x0)
    (hp : PassiveIndex (n x0)) (hr : Regular s n x0) :
    ContinuousAt (fun x => root1m ((s x : ℂ) / n x)) x0 := by
  have hdiv : ContinuousAt (fun x => (s x : ℂ) / n x) x0 :=
    (Complex.continuous_ofReal.continuousAt.comp hs).div hn hp.ne_zero
  have main : ((s x0 : ℂ) / n x0).im ≠ 0 ∨ |((s x0 : ℂ) / n x0).re| < 1 →
      ContinuousAt (fun x => root1m ((s x : ℂ) / n x)) x0 := fun hz =>
    ContinuousAt.comp (f := fun x => (s x : ℂ) / n x) (g := root1m) (continuousAt_root1m hz) hdiv
  have hns : 0 < Complex.normSq (n x0) := Complex.normSq_pos.mpr hp.ne_zero
  have ere : ((s x0 : ℂ) / n x0).re = s x0 * (n x0).re / Complex.normSq (n x0) := by
    simp [Complex.div_re]
  have eim : ((s x0 : ℂ) / n x0).im = -(s x0 * (n x0).im / Complex.normSq (n x0)) := by
    simp [Complex.div_im]
  rcases hr with h | h | h | h
  · by_cases h0 : s x0 = 0
    · exact main (.inr (by rw [ere, h0]; simp))
    · refine main (.inl ?_)
      rw [eim]
      exact neg_ne_zero.mpr (div_ne_zero (mul_ne_zero h0 h) hns.ne')
  · refine main (.inr ?_)
    rw [ere, abs_div, abs_of_pos hns, div_lt_one hns, abs_mul, abs_of_pos hp.1, Complex.normSq_apply]
    nlinarith [hp.1, mul_self_nonneg (n x0).im]
  · refine (continuousAt_const (y := root1m ((s x0 : ℂ) / n x0))).congr ?_
    filter_upwards [h] with x hx
    rw [hx.1, hx.2]
  · obtain ⟨σ, h1, -⟩ := dir_beyond hs hn hp.1 h.1 h.2
    refine ContinuousAt.congr (f := fun x => σ * (Real.sqrt ((s x / (n x).re) ^ 2 - 1) : ℝ)) ?_
      (h1.mono fun _ h => h.symm)
    refine continuousAt_const.mul (Complex.continuous_ofReal.continuousAt.comp
      (Real.continuous_sqrt.continuousAt.comp (ContinuousAt.sub (ContinuousAt.pow ?_ 2) continuousAt_const)))
    exact hs.div (Complex.continuous_re.continuousAt.comp hn) hp.1.ne'

/-- Everything that is assumed for continuity at `x0`: fronting index, angle, wavelength, thicknesses and
indices vary continuously, the situation is physical near `x0`, and a medium that is transparent beyond its critical
angle remains so (films that attenuate by less than the limit of 35 nepers are exempt; the backing may be exactly
at its critical angle). -/
structure Varies (n₀ θ lam : X → ℝ) (films : List ((X → ℂ) × (X → ℝ))) (nb : X → ℂ) (x0 : X) : Prop where
  front : ContinuousAt n₀ x0
  angle : ContinuousAt θ x0
  wav : ContinuousAt lam x0
  layers : ∀ f ∈ films, ContinuousAt f.1 x0 ∧ ContinuousAt f.2 x0
  back : ContinuousAt nb x0
  physical : ∀ᶠ x in 𝓝 x0, Physical (stackAt n₀ films nb x) (n₀ x) (θ x) (lam x)
  films_regular : ∀ f ∈ films, Regular (fun x => n₀ x * Real.sin (θ x)) f.1 x0 ∨
    ∀ m, IsFilm ((n₀ x0 : ℂ) * Complex.sin (θ x0)) (lam x0) (f.1 x0, f.2 x0) m → m.δ.im < 35
  back_regular : Regular (fun x => n₀ x * Real.sin (θ x)) nb x0 ∨ nb x0 ^ 2 = ((n₀ x0 * Real.sin (θ x0) : ℝ) : ℂ) ^ 2

/-- Exactly at the critical angle the direction is continuous, whichever root is chosen. -/
theorem cont_dir_critical {s : X → ℝ} {n : X → ℂ} {x0 : X} (hs : ContinuousAt s x0) (hn : ContinuousAt n x0)
    (hp : n x0 ≠ 0) (h : n x0 ^ 2 = (s x0 : ℂ) ^ 2) : ContinuousAt (fun x => root1m ((s x : ℂ) / n x)) x0 := by
  have hw : ContinuousAt (fun x => 1 - ((s x : ℂ) / n x) ^ 2) x0 :=
    continuousAt_const.sub (((Complex.continuous_ofReal.continuousAt.comp hs).div hn hp).pow 2)
  have h0 : (1 : ℂ) - ((s x0 : ℂ) / n x0) ^ 2 = 0 := by
    rw [div_pow, ← h, div_self (pow_ne_zero 2 hp), sub_self]
  have hr0 : root1m ((s x0 : ℂ) / n x0) = 0 := by
    have := root1m_sq ((s x0 : ℂ) / n x0)
    rw [h0] at this
    exact pow_eq_zero_iff two_ne_zero |>.mp this
  have hsq : ∀ x, ‖root1m ((s x : ℂ) / n x)‖ = Real.sqrt ‖1 - ((s x : ℂ) / n x) ^ 2‖ := by
    intro x
    rw [← root1m_sq, norm_pow, Real.sqrt_sq (norm_nonneg _)]
  rw [ContinuousAt, hr0, tendsto_zero_iff_norm_tendsto_zero]
  simp only [hsq]
  have := (Real.continuous_sqrt.continuousAt.comp hw.norm).tendsto
  simpa [Function.comp_def, h0] using this

theorem eventually_all_mem {α : Type*} {l : List α} {p : α → X → Prop} {x0 : X}
    (h : ∀ f ∈ l, ∀ᶠ x in 𝓝 x0, p f x) : ∀ᶠ x in 𝓝 x0, ∀ f ∈ l, p f x := by
  induction l with
  | nil => exact .of_forall (by simp)
  | cons a l ih =>
    filter_upwards [h a (by simp), ih fun f hf => h f (by simp [hf])] with x i1 i2 f hf
    rcases List.mem_cons.mp hf with rfl | hf
    · exact i1
    · exact i2 f hf

/-- The film with the direction continued from `x0` is continuous. -/
theorem cont_medFrom {s lam d : X → ℝ} {n : X → ℂ} {x0 : X} (hs : ContinuousAt s x0) (hl : ContinuousAt lam x0)
    (hn : ContinuousAt n x0) (hd : ContinuousAt d x0) (hl0 : lam x0 ≠ 0) (hn0 : n x0 ≠ 0)
    (h : 1 - ((s x0 : ℂ) / n x0) ^ 2 ≠ 0) : ContMed (medFrom s lam n d x0) x0 := by
  have hof : ∀ {f : X → ℝ}, ContinuousAt f x0 → ContinuousAt (fun x => ((f x : ℝ) : ℂ)) x0 :=
    fun hf => Complex.continuous_ofReal.continuousAt.comp hf
  have hw : ContinuousAt (fun x => (1 - ((s x : ℂ) / n x) ^ 2) / (1 - ((s x0 : ℂ) / n x0) ^ 2)) x0 :=
    (continuousAt_const.sub (((hof hs).div hn hn0).pow 2)).div continuousAt_const h
  have hc : ContinuousAt (fun x => dirFrom s n x0 x) x0 := by
    unfold dirFrom Complex.sqrt
    refine continuousAt_const.mul (ContinuousAt.cpow hw continuousAt_const ?_)
    rw [div_self h]
    exact Complex.one_mem_slitPlane
  exact ⟨hn, hc, (((continuousAt_const.mul hn).mul hc).div (hof hl) (Complex.ofReal_ne_zero.mpr hl0)).mul (hof hd)⟩

theorem Varies.amps {n₀ θ lam : X → ℝ} {films : List ((X → ℂ) × (X → ℝ))} {nb : X → ℂ} {x0 : X}
    (h : Varies n₀ θ lam films nb x0) (pol : Pol) : ∃ r t : X → ℂ,
      (∀ᶠ x in 𝓝 x0, solveSt pol (stackAt n₀ films nb x) (θ x) (lam x) = some (r x, t x)) ∧
      ContinuousAt r x0 ∧ ContinuousAt t x0 := by
  have hp := h.physical.self_of_nhds
  set s : X → ℝ := fun x => n₀ x * Real.sin (θ x) with hs
  have hsc : ContinuousAt s x0 := h.front.mul (Real.continuous_sin.continuousAt.comp h.angle)
  have hsc' : ContinuousAt (fun x => (s x : ℂ)) x0 := Complex.continuous_ofReal.continuousAt.comp hsc
  let fr : X → Medium := fun x => ⟨(n₀ x : ℂ), root1m ((Real.sin (θ x) : ℝ) : ℂ), 0⟩
  let cd : ((X → ℂ) × (X → ℝ)) → X → Medium := fun f x => codeMed (s x) (lam x) (f.1 x, f.2 x)
  let bk : X → Medium := fun x => ⟨nb x, root1m ((s x : ℂ) / nb x), 0⟩
  have hsx : ∀ x, (n₀ x : ℂ) * Complex.sin (θ x) = (s x : ℂ) := by intro x; simp [hs]
  have e : ∀ x, solveSt pol (stackAt n₀ films nb x) (θ x) (lam x) =
      solveL pol (fr x) (((films.map cd) ++ [bk]).map fun m => m x) := by
    intro x
    rw [solveSt_eq]
    congr 1
    · simp [frontM, stackAt, fr]
    · simp only [filmsM, backM, stackAt, List.map_map, List.map_append, List.map_cons, List.map_nil, hsx]
      congr 1
  have cfr : ContMed fr x0 := by
    refine ⟨Complex.continuous_ofReal.continuousAt.comp h.front, ?_, continuousAt_const⟩
    have hz : |Real.sin (θ x0)| < 1 := by
      have := hp.cos_pos
      have h2 := Real.sin_sq_add_cos_sq (θ x0)
      rw [← sq_lt_one_iff_abs_lt_one]
      nlinarith
    refine ContinuousAt.comp (f := fun x => ((Real.sin (θ x) : ℝ) : ℂ)) (g := root1m) (continuousAt_root1m ?_) ?_
    · right; rwa [Complex.ofReal_re]
    · exact Complex.continuous_ofReal.continuousAt.comp (Real.continuous_sin.continuousAt.comp h.angle)
  -- a film that varies continuously, and is that of the code up to the direction
  have hex : ∀ f : (X → ℂ) × (X → ℝ), ∃ μ : X → Medium, f ∈ films → ContMed μ x0 ∧ μ x0 = cd f x0 ∧
      ∀ᶠ x in 𝓝 x0, cd f x = μ x ∨ cd f x = (μ x).flip := by
    intro f
    by_cases hf : f ∈ films
    swap
    · exact ⟨cd f, fun h => absurd h hf⟩
    have hpf := (hp.films (f.1 x0, f.2 x0) (List.mem_map.mpr ⟨f, hf, rfl⟩)).1
    rcases h.films_regular f hf with hreg | hlim
    · have hc := cont_dir hsc (h.layers f hf).1 hpf hreg
      refine ⟨cd f, fun _ => ⟨⟨(h.layers f hf).1, hc, ?_⟩, rfl, .of_forall fun x => .inl rfl⟩⟩
      refine ContinuousAt.comp (g := clip35)
        (f := fun x => 2 * (Real.pi : ℂ) * f.1 x * root1m ((s x : ℂ) / f.1 x) / (lam x : ℂ) * (f.2 x : ℂ))
        continuous_clip35.continuousAt ?_
      refine ContinuousAt.mul (ContinuousAt.div ?_ ?_ ?_) ?_
      · exact (continuousAt_const.mul (h.layers f hf).1).mul hc
      · exact Complex.continuous_ofReal.continuousAt.comp h.wav
      · exact Complex.ofReal_ne_zero.mpr hp.lam_pos.ne'
      · exact Complex.continuous_ofReal.continuousAt.comp (h.layers f hf).2
    · have hw : 1 - ((s x0 : ℂ) / f.1 x0) ^ 2 ≠ 0 := by
        have hq : (cd f x0).n * (cd f x0).c ≠ 0 := by
          refine (hp.film_dir (cd f x0) ?_).2
          simp only [filmsM, stackAt, List.map_map, List.mem_map]
          exact ⟨f, hf, by simp only [cd, Function.comp, hsx]⟩
        rw [← root1m_sq]
        exact pow_ne_zero 2 (right_ne_zero_of_mul hq)
      have hcm := cont_medFrom hsc h.wav (h.layers f hf).1 (h.layers f hf).2 hp.lam_pos.ne' hpf.ne_zero hw
      have hlt : |(medFrom s lam f.1 f.2 x0 x0).δ.im| < 35 := by
        rw [abs_lt]
        constructor
        · have := hlim ⟨f.1 x0, -dirFrom s f.1 x0 x0, -(medFrom s lam f.1 f.2 x0 x0).δ⟩ ⟨rfl, ?_, ?_⟩
          · rw [Complex.neg_im] at this; linarith
          · rw [neg_sq, dirFrom_self hw, root1m_sq, hsx]
          · simp only [medFrom]; ring
        · refine hlim ⟨f.1 x0, dirFrom s f.1 x0 x0, _⟩ ⟨rfl, ?_, ?_⟩
          · rw [dirFrom_self hw, root1m_sq, hsx]
          · ring
      refine ⟨medFrom s lam f.1 f.2 x0, fun _ => ⟨hcm, ?_, ?_⟩⟩
      · have h35 := (abs_lt.mp hlt).2
        simp only [cd, codeMed, medFrom, dirFrom_self hw] at h35 ⊢
        rw [clip35_of_le h35.le]
      · have := ((Complex.continuous_im.continuousAt.comp hcm.δ).abs).eventually_lt continuousAt_const hlt
        filter_upwards [this] with x hx
        exact medFrom_flip hw hx
  choose md hmd using hex
  have cbk : ContMed bk x0 := ⟨h.back, h.back_regular.elim (cont_dir hsc h.back hp.back)
    (cont_dir_critical hsc h.back hp.back.ne_zero), continuousAt_const⟩
  have call : ∀ m ∈ films.map md ++ [bk], ContMed m x0 := by
    intro m hm
    rcases List.mem_append.mp hm with h' | h'
    · obtain ⟨f, hf, rfl⟩ := List.mem_map.mp h'
      exact (hmd f hf).1
    · rw [List.mem_singleton] at h'
      rw [h']; exact cbk
  have hfq : (fr x0).n * (fr x0).c ≠ 0 := by
    have := hp.front_q
    simpa [frontM, stackAt, fr] using this
  have hmq : ∀ m ∈ (films.map md ++ [bk]).dropLast, (m x0).n * (m x0).c ≠ 0 := by
    intro m hm
    rw [List.dropLast_append_of_ne_nil (by simp)] at hm
    simp only [List.dropLast_singleton, List.append_nil] at hm
    obtain ⟨f, hf, rfl⟩ := List.mem_map.mp hm
    rw [(hmd f hf).2.1]
    refine (hp.film_dir (cd f x0) ?_).2
    simp only [filmsM, stackAt, List.map_map, List.mem_map]
    exact ⟨f, hf, by simp only [cd, Function.comp, hsx]⟩
  have hprod := contMat_prod (pol := pol) cfr call hfq hmq
  set P : X → Mat := fun x => prod pol (fr x) ((films.map md ++ [bk]).map fun m => m x) with hP
  have key : ∀ x {r t : ℂ}, solveL pol (fr x) ((films.map cd ++ [bk]).map fun m => m x) = some (r, t) →
      prod pol (fr x) ((films.map cd ++ [bk]).map fun m => m x) = P x →
      (P x).a ≠ 0 ∧ r = (P x).c / (P x).a ∧ t = 1 / (P x).a := by
    intro x r t hx hPx
    rw [← hPx]
    cases hL : (films.map cd ++ [bk]).map (fun m => m x) with
    | nil => simp at hL
    | cons m1 rest =>
      rw [hL] at hx
      exact (solve_eq_some.mp hx).2
  have hsame : ∀ᶠ x in 𝓝 x0, prod pol (fr x) ((films.map cd ++ [bk]).map fun m => m x) = P x := by
    have hall : ∀ᶠ x in 𝓝 x0, ∀ f ∈ films, cd f x = md f x ∨ cd f x = (md f x).flip :=
      eventually_all_mem fun f hf => (hmd f hf).2.2
    filter_upwards [hall] with x hx
    simp only [hP, List.map_append, List.map_map, List.map_cons, List.map_nil]
    refine prod_flip_films ?_ _
    rw [List.forall₂_map_left_iff, List.forall₂_map_right_iff]
    exact List.forall₂_same.mpr hx
  refine ⟨fun x => (P x).c / (P x).a, fun x => 1 / (P x).a, ?_, ?_⟩
  · filter_upwards [h.physical, hsame] with x hx hx'
    obtain ⟨r, t, h1⟩ := hx.solved pol
    rw [e] at h1 ⊢
    obtain ⟨-, k2, k3⟩ := key x h1 hx'
    rw [h1, k2, k3]
  · obtain ⟨r, t, h1⟩ := hp.solved pol
    rw [e] at h1
    have hne := (key x0 h1 hsame.self_of_nhds).1
    exact ⟨hprod.c.div hprod.a hne, continuousAt_const.div hprod.a hne⟩

/-- C116 (partial): the amplitudes depend continuously on fronting index, angle, wavelength, thicknesses and
indices.  Missing: a transparent backing beyond its critical angle whose absorption is varied (there the claim is
false: `C116_fails_total_reflection`), and such films if they attenuate by 35 nepers or more
(`C116_fails_clip`). -/
theorem C116_amplitudes_partial {n₀ θ lam : X → ℝ} {films : List ((X → ℂ) × (X → ℝ))} {nb : X → ℂ} {x0 : X}
    (h : Varies n₀ θ lam films nb x0) (d0 db : Thick) : ∃ a : X → Amps, ∃ r t : Pol → X → ℂ,
      (∀ᶠ x in 𝓝 x0,
        cohTmm ((stackAt n₀ films nb x).layers d0 db) [((θ x : ℂ), lam x)] = .ok [a x] ∧
        ∀ pol, (a x).of pol = some (r pol x, t pol x)) ∧
      ∀ pol, ContinuousAt (r pol) x0 ∧ ContinuousAt (t pol) x0 := by
  choose r t h1 h2 using h.amps
  refine ⟨fun x => ⟨solveSt .s (stackAt n₀ films nb x) (θ x) (lam x),
    solveSt .p (stackAt n₀ films nb x) (θ x) (lam x)⟩, r, t, ?_, h2⟩
  filter_upwards [h.physical, h1 .s, h1 .p] with x hx e1 e2
  refine ⟨coh_real hx.front hx.nz hx.lam_pos.ne' _ _, ?_⟩
  intro pol
  cases pol
  · exact e1
  · exact e2

/-- The argument of `np.angle` in terms of the amplitudes. -/
theorem deltaRad_of_ne {σ : Bool} {a b : ℂ} (ha : a ≠ 0) (hb : b ≠ 0) :
    deltaRad σ a b = some (npAngle σ (-(a / b)) + Real.pi) := by
  have h1 : -b / a ≠ 0 := div_ne_zero (neg_ne_zero.mpr hb) ha
  simp only [deltaRad, cdiv_of_ne ha, cdiv_of_ne h1, Option.bind_eq_bind, Option.bind_some]
  congr 3
  field_simp

theorem cis_npAngle {σ : Bool} {y : ℂ} (hy : y ≠ 0) :
    Real.cos (npAngle σ y) = y.re / ‖y‖ ∧ Real.sin (npAngle σ y) = y.im / ‖y‖ := by
  have hn : ‖y‖ ≠ 0 := norm_ne_zero_iff.mpr hy
  have h := exp_npAngle σ y
  have h1 := congrArg Complex.re h
  have h2 := congrArg Complex.im h
  rw [Complex.re_ofReal_mul, Complex.exp_ofReal_mul_I_re] at h1
  rw [Complex.im_ofReal_mul, Complex.exp_ofReal_mul_I_im] at h2
  constructor
  · rw [eq_div_iff hn]; linarith
  · rw [eq_div_iff hn]; linarith

theorem psiRad_arccos {a b : ℂ} (h : a ≠ 0 ∨ b ≠ 0) :
    psiRad a b = some (Real.arccos (‖a‖ / Real.sqrt (‖a‖ ^ 2 + ‖b‖ ^ 2))) := by
  unfold psiRad
  by_cases ha : a = 0
  · rw [if_pos ha, if_neg (h.resolve_left (fun hc => hc ha)), ha, norm_zero, zero_div, Real.arccos_zero]
  · rw [if_neg ha, Real.arctan_eq_arccos (norm_nonneg _)]
    have hn : 0 < ‖a‖ := norm_pos_iff.mpr ha
    congr 2
    rw [norm_div, eq_div_iff (by positivity), inv_mul_eq_div, div_eq_iff (by positivity)]
    rw [show ‖a‖ ^ 2 + ‖b‖ ^ 2 = ‖a‖ ^ 2 * (1 + (‖b‖ / ‖a‖) ^ 2) by field_simp,
      Real.sqrt_mul (by positivity), Real.sqrt_sq hn.le]

/-- C116 (partial) for the observables, same restriction: where light is reflected, psi is continuous; where `r_p` does not vanish
either, so is delta, as an angle; it is continuous as a number if it is not at the ends of the range 0..360, or
if it is reflected into 0..180. -/
theorem C116_psi_delta_partial {n₀ a wav off : X → ℝ} {films : List ((X → ℂ) × (X → ℝ))} {nb : X → ℂ} {x0 : X}
    (h : Varies n₀ (fun x => rad (a x)) wav films nb x0) (hoff : ContinuousAt off x0) {rows : X → List Row}
    (hr : ∀ x, RowsOf (rows x) (stackAt n₀ films nb x)) (zs : List Layer → ℝ → ℝ → Bool) (refl : Bool)
    {p0 : ℝ} {d0 : Option ℝ}
    (h0 : (deltaPsiTMM zs [a x0] (rows x0) (wav x0) (off x0) refl).1 = .ok [(some p0, d0)]) :
    ∃ ψ : X → ℝ, ∃ Δ : X → Option ℝ,
      (∀ᶠ x in 𝓝 x0, (deltaPsiTMM zs [a x] (rows x) (wav x) (off x) refl).1 = .ok [(some (ψ x), Δ x)]) ∧
      ContinuousAt ψ x0 ∧
      (d0 ≠ none → ∃ D : X → ℝ, (∀ᶠ x in 𝓝 x0, Δ x = some (D x)) ∧
        ContinuousAt (fun x => Real.cos (rad (D x))) x0 ∧
        (refl = false → ContinuousAt (fun x => Real.sin (rad (D x))) x0) ∧
        (refl = true ∨ (0 < D x0 - off x0 ∧ D x0 - off x0 < 360) → ContinuousAt D x0)) := by
  have hpi := Real.pi_pos
  obtain ⟨rs, ts, es, cs, -⟩ := h.amps .s
  obtain ⟨rp, tp, ep, cp, -⟩ := h.amps .p
  have ev : ∀ᶠ x in 𝓝 x0, (deltaPsiTMM zs [a x] (rows x) (wav x) (off x) refl).1 =
      .ok [psiDelta (zs ((stackAt n₀ films nb x).layers .inf .inf) (a x) (wav x)) refl (off x)
        ⟨some (rs x, ts x), some (rp x, tp x)⟩] := by
    filter_upwards [h.physical, es, ep] with x hx e1 e2
    rw [deltaPsi_rows (hr x) hx.nz hx.lam_pos.ne']
    simp only [List.map_cons, List.map_nil, e1, e2]
  set σ : X → Bool := fun x => zs ((stackAt n₀ films nb x).layers .inf .inf) (a x) (wav x) with hσ
  have e0 := ev.self_of_nhds
  rw [h0] at e0
  simp only [Except.ok.injEq, List.cons.injEq, and_true, psiDelta, Prod.mk.injEq] at e0
  have hne : rs x0 ≠ 0 ∨ rp x0 ≠ 0 := by
    by_contra hcon
    push Not at hcon
    have := e0.1
    simp [psiRad, hcon.1, hcon.2] at this
  have hsum : ∀ x, rs x ≠ 0 ∨ rp x ≠ 0 → 0 < ‖rs x‖ ^ 2 + ‖rp x‖ ^ 2 := by
    intro x hx
    rcases hx with hx | hx
    · have := norm_pos_iff.mpr hx; positivity
    · have := norm_pos_iff.mpr hx; positivity
  have ene : ∀ᶠ x in 𝓝 x0, rs x ≠ 0 ∨ rp x ≠ 0 := by
    rcases hne with hx | hx
    · exact (cs.eventually_ne hx).mono fun _ h => .inl h
    · exact (cp.eventually_ne hx).mono fun _ h => .inr h
  refine ⟨fun x => Real.arccos (‖rs x‖ / Real.sqrt (‖rs x‖ ^ 2 + ‖rp x‖ ^ 2)) * (180 / Real.pi),
    fun x => (deltaRad (σ x) (rs x) (rp x)).map
    fun y => reflectRad refl y * (180 / Real.pi) + off x, ?_, ?_, ?_⟩
  · filter_upwards [ev, ene] with x hx hx'
    rw [hx]
    simp only [psiDelta]
    rw [psiRad_arccos hx', Option.map_some]
  · refine ContinuousAt.mul ?_ continuousAt_const
    refine Real.continuous_arccos.continuousAt.comp (cs.norm.div ?_ (Real.sqrt_pos.mpr (hsum x0 hne)).ne')
    exact Real.continuous_sqrt.continuousAt.comp ((cs.norm.pow 2).add (cp.norm.pow 2))
  · intro hd
    have hrs : rs x0 ≠ 0 := by
      intro hz
      apply hd
      rw [e0.2]
      simp [deltaRad, hz, cdiv_zero]
    have ers : ∀ᶠ x in 𝓝 x0, rs x ≠ 0 := cs.eventually_ne hrs
    have hrp : rp x0 ≠ 0 := by
      intro hz
      apply hd
      rw [e0.2]
      simp [deltaRad, hz, cdiv_of_ne hrs, cdiv_zero]
    have erp : ∀ᶠ x in 𝓝 x0, rp x ≠ 0 := cp.eventually_ne hrp
    set y : X → ℂ := fun x => -(rs x / rp x) with hy
    have cy : ContinuousAt y x0 := (cs.div cp hrp).neg
    have hy0 : y x0 ≠ 0 := neg_ne_zero.mpr (div_ne_zero hrs hrp)
    have ey : ∀ᶠ x in 𝓝 x0, y x ≠ 0 := cy.eventually_ne hy0
    have cn : ContinuousAt (fun x => ‖y x‖) x0 := cy.norm
    have hn0 : ‖y x0‖ ≠ 0 := norm_ne_zero_iff.mpr hy0
    -- the direction of y
    have ccos : ContinuousAt (fun x => Real.cos (npAngle (σ x) (y x) + Real.pi)) x0 := by
      refine ContinuousAt.congr (f := fun x => -((y x).re / ‖y x‖))
        ((Complex.continuous_re.continuousAt.comp cy).div cn hn0).neg ?_
      filter_upwards [ey] with x hx
      rw [Real.cos_add_pi, (cis_npAngle hx).1]
    have csin : ContinuousAt (fun x => Real.sin (npAngle (σ x) (y x) + Real.pi)) x0 := by
      refine ContinuousAt.congr (f := fun x => -((y x).im / ‖y x‖))
        ((Complex.continuous_im.continuousAt.comp cy).div cn hn0).neg ?_
      filter_upwards [ey] with x hx
      rw [Real.sin_add_pi, (cis_npAngle hx).2]
    have coff : ContinuousAt (fun x => rad (off x)) x0 := hoff.mul continuousAt_const
    have crefl : ContinuousAt (fun x => Real.cos (reflectRad refl (npAngle (σ x) (y x) + Real.pi))) x0 := by
      refine ccos.congr (Eventually.of_forall fun x => ?_)
      show Real.cos (npAngle (σ x) (y x) + Real.pi) = Real.cos (reflectRad refl (npAngle (σ x) (y x) + Real.pi))
      generalize npAngle (σ x) (y x) + Real.pi = z
      unfold reflectRad
      split_ifs
      · rw [Real.cos_two_pi_sub]
      · rfl
      · rfl
    have erad : ∀ x, rad (reflectRad refl (npAngle (σ x) (y x) + Real.pi) * (180 / Real.pi) + off x) =
        reflectRad refl (npAngle (σ x) (y x) + Real.pi) + rad (off x) := by
      intro x
      unfold rad; field_simp
    have hmem : ∀ x, 0 ≤ npAngle (σ x) (y x) + Real.pi ∧ npAngle (σ x) (y x) + Real.pi ≤ 2 * Real.pi := by
      intro x
      have := npAngle_mem (σ x) (y x)
      constructor <;> linarith
    have ctrue : refl = true → ContinuousAt (fun x => reflectRad refl (npAngle (σ x) (y x) + Real.pi)) x0 := by
      rintro rfl
      refine (Real.continuous_arccos.continuousAt.comp ccos).congr (Eventually.of_forall fun x => ?_)
      simp only [Function.comp]
      obtain ⟨h1, h2⟩ := hmem x
      unfold reflectRad
      simp only [if_true]
      split_ifs with hc
      · rw [← Real.cos_two_pi_sub, Real.arccos_cos (by linarith) (by linarith)]
      · rw [Real.arccos_cos h1 (by linarith)]
    have cfalse : refl = false → 0 < npAngle (σ x0) (y x0) + Real.pi →
        npAngle (σ x0) (y x0) + Real.pi < 2 * Real.pi →
        ContinuousAt (fun x => reflectRad refl (npAngle (σ x) (y x) + Real.pi)) x0 := by
      rintro rfl h1 h2
      have hs : y x0 ∈ Complex.slitPlane := by
        rw [Complex.mem_slitPlane_iff_not_le_zero]
        intro hle
        rw [Complex.le_def] at hle
        have hneg : (y x0).re < 0 := lt_of_le_of_ne hle.1 (by
          intro hz
          exact hy0 (Complex.ext hz hle.2))
        have hh : npAngle (σ x0) (y x0) = if σ x0 then Real.pi else -Real.pi := by
          unfold npAngle
          rw [if_pos ⟨hle.2, hneg⟩]
        rw [hh] at h1 h2
        split_ifs at h1 h2 <;> linarith
      have ca : ContinuousAt (fun x => Complex.arg (y x) + Real.pi) x0 :=
        (ContinuousAt.comp (f := y) (g := Complex.arg) (Complex.continuousAt_arg hs) cy).add continuousAt_const
      refine ca.congr ?_
      filter_upwards [cy.eventually_mem (Complex.isOpen_slitPlane.mem_nhds hs)] with x hx
      simp only [reflectRad, Bool.false_eq_true, if_false, npAngle]
      rw [if_neg]
      rintro ⟨i1, i2⟩
      rcases Complex.mem_slitPlane_iff.mp hx with h | h
      · linarith
      · exact h i1
    refine ⟨fun x => reflectRad refl (npAngle (σ x) (y x) + Real.pi) * (180 / Real.pi) + off x, ?_, ?_, ?_, ?_⟩
    · filter_upwards [ers, erp] with x h1 h2
      rw [deltaRad_of_ne h1 h2, Option.map_some]
    · simp only [erad, Real.cos_add]
      refine (crefl.mul (Real.continuous_cos.continuousAt.comp coff)).sub
        (ContinuousAt.mul ?_ (Real.continuous_sin.continuousAt.comp coff))
      cases refl
      · exact csin
      · exact Real.continuous_sin.continuousAt.comp (ctrue rfl)
    · rintro rfl
      simp only [erad, Real.sin_add]
      exact (ContinuousAt.mul csin (Real.continuous_cos.continuousAt.comp coff)).add
        (crefl.mul (Real.continuous_sin.continuousAt.comp coff))
    · intro hcase
      refine ContinuousAt.add (ContinuousAt.mul ?_ continuousAt_const) hoff
      cases refl
      · rcases hcase with hc | ⟨k1, k2⟩
        · exact absurd hc (by simp)
        · simp only [reflectRad, Bool.false_eq_true, if_false, add_sub_cancel_right] at k1 k2
          refine cfalse rfl ?_ ?_
          · exact pos_of_mul_pos_left k1 (by positivity)
          · rw [← lt_div_iff₀ (by positivity)] at k2
            refine k2.trans_eq ?_
            field_simp; norm_num
      · exact ctrue rfl

end

/-- Non-vacuity: the thickness of an absorbing film is varied, and its index. -/
example : Varies (fun _ : ℝ × ℝ => 1) (fun _ => rad 0) (fun _ => 500)
    [(fun x => 2 + I * ((x.2 : ℝ) : ℂ), fun x => x.1)] (fun _ => 3) (5, 1) := by
  have hc : ContinuousAt (fun x : ℝ × ℝ => (2 : ℂ) + I * ((x.2 : ℝ) : ℂ)) (5, 1) := by fun_prop
  refine ⟨continuousAt_const, continuousAt_const, continuousAt_const, ?_, continuousAt_const, ?_, ?_, ?_⟩
  · intro f hf
    rw [List.mem_singleton] at hf
    subst hf
    exact ⟨hc, continuousAt_fst⟩
  · have h1 : ∀ᶠ x : ℝ × ℝ in 𝓝 (5, 1), x.1 ∈ Set.Ioo (0 : ℝ) 10 :=
      continuousAt_fst.eventually_mem (Ioo_mem_nhds (by norm_num) (by norm_num))
    have h2 : ∀ᶠ x : ℝ × ℝ in 𝓝 (5, 1), x.2 ∈ Set.Ioo (0 : ℝ) 2 :=
      continuousAt_snd.eventually_mem (Ioo_mem_nhds (by norm_num) (by norm_num))
    filter_upwards [h1, h2] with x hx hy
    have e0 : rad 0 = 0 := by simp [rad]
    rw [e0]
    refine physical_normal one_pos (by norm_num) ?_ ?_
    · intro f hf
      simp only [List.map_cons, List.map_nil, List.mem_singleton] at hf
      subst hf
      refine ⟨⟨by simp, by simpa using hy.1.le⟩, hx.1.le, ?_⟩
      have hpi := Real.pi_le_four
      have him : ((2 : ℂ) + I * ((x.2 : ℝ) : ℂ)).im = x.2 := by simp
      simp only [him]
      have h3 : 2 * Real.pi * x.1 / 500 ≤ 1 := by
        rw [div_le_one (by norm_num)]
        nlinarith [Real.pi_pos, hx.1, hx.2]
      nlinarith [hy.1, hy.2, Real.pi_pos, hx.1]
    · simp [PassiveIndex]
  · intro f hf
    rw [List.mem_singleton] at hf
    subst hf
    left; left; simp
  · left; right; left; simp [rad]

/-- The attenuation of a thin transparent gap beyond its critical angle, whatever the direction. -/
theorem gap_im (s n d : ℝ) : 0 < n → n < s → s < 2 → 0 ≤ d → d < 2 → ∀ m,
    IsFilm ((s : ℝ) : ℂ) (2 * Real.pi) (((n : ℝ) : ℂ), d) m → m.δ.im < 35 := by
  have hpi := Real.pi_pos
  rintro h1 h2 h3 h4 h5 m ⟨-, hc, hδ⟩
  obtain ⟨κ, hκ⟩ : ∃ κ : ℝ, κ = Real.sqrt ((s / n) ^ 2 - 1) := ⟨_, rfl⟩
  have hone : 1 < s / n := by rw [one_lt_div h1]; exact h2
  have hκ2 : κ ^ 2 = (s / n) ^ 2 - 1 := by rw [hκ]; exact Real.sq_sqrt (by nlinarith)
  have hκ0 : 0 ≤ κ := by rw [hκ]; positivity
  have hκC : (κ : ℂ) ^ 2 = ((s : ℂ) / n) ^ 2 - 1 := by exact_mod_cast congrArg Complex.ofReal hκ2
  have hnκ : n * κ < 2 := by
    have e : (n * κ) ^ 2 = s ^ 2 - n ^ 2 := by rw [mul_pow, hκ2]; field_simp
    nlinarith [mul_nonneg h1.le hκ0]
  have hcI : m.c = κ * I ∨ m.c = -(κ * I) := by
    apply sq_eq_sq_iff_eq_or_eq_neg.mp
    simp only at hc
    rw [hc, mul_pow, hκC, Complex.I_sq]; ring
  have e : m.δ = ((n * d : ℝ) : ℂ) * m.c := by
    rw [hδ]
    have : (Real.pi : ℂ) ≠ 0 := Complex.ofReal_ne_zero.mpr hpi.ne'
    push_cast
    field_simp
  have h6 : n * κ * d < 35 := by nlinarith [mul_nonneg h1.le hκ0]
  have h7 : 0 ≤ n * κ * d := mul_nonneg (mul_nonneg h1.le hκ0) h4
  rcases hcI with h | h
  · rw [e, h, show ((n * d : ℝ) : ℂ) * (κ * I) = ((n * κ * d : ℝ) : ℂ) * I by push_cast; ring]
    simpa using h6
  · rw [e, h, show ((n * d : ℝ) : ℂ) * (-(κ * I)) = ((-(n * κ * d) : ℝ) : ℂ) * I by push_cast; ring]
    have : -(n * κ * d) < 35 := by linarith
    simpa using this

theorem gap_back : Regular (fun x : ℝ × ℝ × ℝ => 2 * Real.sin x.2.2) (fun _ => ((2 : ℝ) : ℂ)) (1, 1, Real.pi / 4) := by
  have hs2 : Real.sqrt 2 ^ 2 = 2 := Real.sq_sqrt (by norm_num)
  have hsp : 0 < Real.sqrt 2 := by positivity
  have hsin : 2 * Real.sin (Real.pi / 4) = Real.sqrt 2 := by rw [Real.sin_pi_div_four]; ring
  right; left
  simp only [hsin, Complex.ofReal_re, abs_of_pos hsp]
  nlinarith

/-- Non-vacuity beyond the critical angle: index and thickness of a transparent gap of index 1 between media of
index 2 are varied, around 45 degrees. -/
theorem gap_varies : Varies (fun _ : ℝ × ℝ × ℝ => 2) (fun x => x.2.2) (fun _ => 2 * Real.pi)
    [(fun x => ((x.2.1 : ℝ) : ℂ), fun x => x.1)] (fun _ => ((2 : ℝ) : ℂ)) (1, 1, Real.pi / 4) := by
  have hpi := Real.pi_pos
  have hs2 : Real.sqrt 2 ^ 2 = 2 := Real.sq_sqrt (by norm_num)
  have hsp : 0 < Real.sqrt 2 := by positivity
  have hsin : 2 * Real.sin (Real.pi / 4) = Real.sqrt 2 := by rw [Real.sin_pi_div_four]; ring
  have hs : ContinuousAt (fun x : ℝ × ℝ × ℝ => 2 * Real.sin x.2.2) (1, 1, Real.pi / 4) := by fun_prop
  have hlt : (1 : ℝ) < Real.sqrt 2 := by nlinarith
  have hlt2 : Real.sqrt 2 < 2 := by nlinarith
  refine ⟨continuousAt_const, by fun_prop, continuousAt_const, ?_, continuousAt_const, ?_, ?_, ?_⟩
  · simp only [List.mem_singleton, forall_eq]
    exact ⟨by fun_prop, by fun_prop⟩
  · have h1 : ∀ᶠ x : ℝ × ℝ × ℝ in 𝓝 (1, 1, Real.pi / 4), x.1 ∈ Set.Ioo (0 : ℝ) 2 :=
      continuousAt_fst.eventually_mem (Ioo_mem_nhds (by norm_num) (by norm_num))
    have h2 : ∀ᶠ x : ℝ × ℝ × ℝ in 𝓝 (1, 1, Real.pi / 4), x.2.1 ∈ Set.Ioi (0 : ℝ) :=
      (continuousAt_fst.comp continuousAt_snd).eventually_mem (Ioi_mem_nhds (by norm_num))
    have h3 : ∀ᶠ x : ℝ × ℝ × ℝ in 𝓝 (1, 1, Real.pi / 4), x.2.1 < 2 * Real.sin x.2.2 :=
      (continuousAt_fst.comp continuousAt_snd).eventually_lt hs (by simp only [Function.comp, hsin]; exact hlt)
    have h4 : ∀ᶠ x : ℝ × ℝ × ℝ in 𝓝 (1, 1, Real.pi / 4), 2 * Real.sin x.2.2 < 2 :=
      hs.eventually_lt continuousAt_const (by simp only [hsin]; exact hlt2)
    have h5 : ∀ᶠ x : ℝ × ℝ × ℝ in 𝓝 (1, 1, Real.pi / 4), x.2.2 ∈ Set.Ioo (0 : ℝ) (Real.pi / 2) :=
      (continuousAt_snd.comp continuousAt_snd).eventually_mem (Ioo_mem_nhds (show (0:ℝ) < Real.pi / 4 by positivity)
        (show Real.pi / 4 < Real.pi / 2 by linarith))
    filter_upwards [h1, h2, h3, h4, h5] with x i1 i2 i3 i4 i5
    have hS : ((2 : ℝ) : ℂ) * Complex.sin ((x.2.2 : ℝ) : ℂ) = ((2 * Real.sin x.2.2 : ℝ) : ℂ) := by push_cast; rfl
    refine ⟨rfl, two_pos, ?_, by positivity, ?_, by simp [stackAt, PassiveIndex], ?_, ?_⟩
    · rw [abs_of_pos i5.1]; exact i5.2
    · simp only [stackAt, List.map_cons, List.map_nil, List.mem_singleton, forall_eq]
      exact ⟨⟨by simpa using i2, by simp⟩, i1.1.le⟩
    · simp only [stackAt, List.map_cons, List.map_nil, List.mem_singleton, forall_eq]
      rw [hS]
      intro h
      have h' : x.2.1 ^ 2 = (2 * Real.sin x.2.2) ^ 2 := by exact_mod_cast h
      have := Set.mem_Ioi.mp i2
      nlinarith
    · simp only [stackAt, List.map_cons, List.map_nil, List.mem_singleton, forall_eq]
      rw [hS]
      intro m hm
      have := gap_im _ _ _ i2 i3 i4 i1.1.le i1.2 m hm
      have h35 : (35 : ℝ) ≤ Real.sinh 35 := Real.self_le_sinh_iff.mpr (by norm_num)
      linarith
  · simp only [List.mem_singleton, forall_eq]
    right
    have hS : ((2 : ℝ) : ℂ) * Complex.sin ((Real.pi / 4 : ℝ) : ℂ) = ((Real.sqrt 2 : ℝ) : ℂ) := by
      rw [← hsin]; push_cast; rfl
    rw [hS]
    exact gap_im _ 1 1 one_pos hlt hlt2 (by norm_num) (by norm_num)
  · exact .inl gap_back

/-- Non-vacuity at total reflection: angle and index of a transparent backing are varied (index 1 below a medium of
index 2, 45 degrees). -/
example : Varies (fun _ : ℝ × ℝ => 2) (fun x => x.2) (fun _ => 500) [] (fun x => ((x.1 : ℝ) : ℂ))
    (1, Real.pi / 4) := by
  have hpi := Real.pi_pos
  have hs2 : Real.sqrt 2 ^ 2 = 2 := Real.sq_sqrt (by norm_num)
  have hsp : 0 < Real.sqrt 2 := by positivity
  have hsin : 2 * Real.sin (Real.pi / 4) = Real.sqrt 2 := by rw [Real.sin_pi_div_four]; ring
  refine ⟨continuousAt_const, continuousAt_snd, continuousAt_const, by simp, by fun_prop, ?_, by simp,
    .inl (.inr (.inr (.inr ⟨?_, .of_forall fun x => by simp⟩)))⟩
  · have h1 : ∀ᶠ x : ℝ × ℝ in 𝓝 (1, Real.pi / 4), x.1 ∈ Set.Ioi (0 : ℝ) :=
      continuousAt_fst.eventually_mem (Ioi_mem_nhds (by norm_num))
    have h2 : ∀ᶠ x : ℝ × ℝ in 𝓝 (1, Real.pi / 4), x.2 ∈ Set.Ioo (0 : ℝ) (Real.pi / 2) :=
      continuousAt_snd.eventually_mem (Ioo_mem_nhds (show (0 : ℝ) < Real.pi / 4 by positivity)
        (show Real.pi / 4 < Real.pi / 2 by linarith))
    filter_upwards [h1, h2] with x i1 i2
    exact physical_bare ⟨by simpa using i1, by simp⟩ two_pos (by rw [abs_of_pos i2.1]; exact i2.2) (by norm_num)
  · simp only [hsin, Complex.ofReal_re, abs_of_pos hsp]
    nlinarith

/-- Results beyond the critical angle of a backing medium of index `1 + i k` (`n₀ = 2`, 45 degrees), in terms of the
normal component `q` of the wave number there. -/
theorem tir_results (zs : List Layer → ℝ → ℝ → Bool) : ∃ (ψ Δ : ℝ → ℝ) (q : ℝ → ℂ),
    (∀ k : ℝ, 0 ≤ k → 0 < ψ k ∧ ψ k < 90) ∧
    (∀ k : ℝ, 0 ≤ k → (deltaPsiTMM zs [45] [⟨0, some 2, 0, 0⟩, ⟨0, some (1 + I * (k : ℂ)), 0, 0⟩] 500 0 false).1 =
      .ok [(some (ψ k), some (Δ k))]) ∧
    (∀ k : ℝ, 0 ≤ k → (Real.tan (rad (ψ k)) : ℂ) * Complex.exp (-(I * (rad (Δ k) : ℝ))) * (Real.sqrt 2 + q k) =
      Real.sqrt 2 - q k) ∧
    (∀ k : ℝ, 0 ≤ k → q k ^ 2 = -1 - (k : ℂ) ^ 2 + 2 * I * k) ∧ (q 0).im = -1 ∧ ∀ k : ℝ, 0 < k → 0 < (q k).im := by
  have hpi := Real.pi_pos
  have e45 : rad 45 = Real.pi / 4 := by unfold rad; ring
  have hang : |rad 45| < Real.pi / 2 := by rw [e45, abs_of_pos (by positivity)]; linarith
  have hs2 : Real.sqrt 2 ^ 2 = 2 := Real.sq_sqrt (by norm_num)
  have hsp : 0 < Real.sqrt 2 := by positivity
  have hphys : ∀ k : ℝ, 0 ≤ k → Physical ⟨((2 : ℝ) : ℂ), [], 1 + I * (k : ℂ)⟩ 2 (rad 45) 500 := fun k hk =>
    physical_bare ⟨by simp, by simpa using hk⟩ (by norm_num) hang (by norm_num)
  have hrows : ∀ k : ℝ, RowsOf [⟨0, some 2, 0, 0⟩, ⟨0, some (1 + I * (k : ℂ)), 0, 0⟩]
      ⟨((2 : ℝ) : ℂ), [], 1 + I * (k : ℂ)⟩ := fun k => ⟨_, [], _, 2, rfl, rfl, by simp, by simp, rfl⟩
  have hsin : (2 : ℝ) * Real.sin (rad 45) = Real.sqrt 2 := by rw [e45, Real.sin_pi_div_four]; ring
  have hcos : (2 : ℝ) * Real.cos (rad 45) = Real.sqrt 2 := by rw [e45, Real.cos_pi_div_four]; ring
  have hS : (Real.sqrt 2 : ℂ) ^ 2 = 2 := by exact_mod_cast hs2
  have hS0 : (Real.sqrt 2 : ℂ) ≠ 0 := Complex.ofReal_ne_zero.mpr hsp.ne'
  let q : ℝ → ℂ := fun k => qOf (Real.sqrt 2) (1 + I * (k : ℂ))
  have hq2 : ∀ k, 0 ≤ k → q k ^ 2 = -1 - (k : ℂ) ^ 2 + 2 * I * k := by
    intro k hk
    have := qOf_sq (Real.sqrt 2) (hphys k hk).back.ne_zero
    simp only [q]
    rw [this, hS]
    linear_combination (k : ℂ) ^ 2 * Complex.I_sq
  -- the results
  have hres : ∀ k : ℝ, 0 ≤ k → ∃ p d, (0 < p ∧ p < 90) ∧ (deltaPsiTMM zs [45] [⟨0, some 2, 0, 0⟩, ⟨0, some (1 + I * (k : ℂ)), 0, 0⟩]
      500 0 false).1 = .ok [(some p, some d)] ∧
      (Real.tan (rad p) : ℂ) * Complex.exp (-(I * (rad d : ℝ))) * (Real.sqrt 2 + q k) = Real.sqrt 2 - q k := by
    intro k hk
    obtain ⟨rs, ts, rp, tp, h1, h2, hd1, hd2, e1, e2⟩ := bare_amps (hphys k hk)
    rw [hsin, hcos] at hd1 hd2 e1 e2
    have hne : (Real.sqrt 2 : ℂ) - q k ≠ 0 := by
      intro hz
      have e := hq2 k hk
      rw [← sub_eq_zero.mp hz, hS] at e
      have := congrArg Complex.re e
      simp [sq] at this
      nlinarith
    have hrs : rs ≠ 0 := by
      rintro rfl
      rw [zero_mul] at e1
      exact hne e1.symm
    have hrp : rp ≠ 0 := by
      rintro rfl
      rw [zero_mul, hS] at e2
      have : (2 : ℂ) - Real.sqrt 2 * q k ≠ 0 := by
        rw [← hS, sq, ← mul_sub]
        exact mul_ne_zero hS0 hne
      exact (mul_ne_zero hrs this) e2.symm
    rw [deltaPsi_rows (hrows k) (hphys k hk).nz (by norm_num)]
    simp only [List.map_cons, List.map_nil, h1, h2]
    have hP : ∃ p d, psiDelta (zs (Stack.layers ⟨((2 : ℝ) : ℂ), [], 1 + I * (k : ℂ)⟩ .inf .inf) 45 500) false 0
        ⟨some (rs, ts), some (rp, tp)⟩ = (some p, some d) := by
      simp only [psiDelta, psiRad_arccos (.inl hrs), deltaRad_of_ne hrs hrp, Option.map_some]
      exact ⟨_, _, rfl⟩
    obtain ⟨p, d, hpd⟩ := hP
    refine ⟨p, d, ⟨(psiDelta_encodes hpd).2.1, (psiDelta_encodes hpd).2.2.1⟩, by rw [hpd], ?_⟩
    have he := (psiDelta_encodes hpd).1
    rw [sub_zero] at he
    have e3 : (2 : ℂ) + Real.sqrt 2 * q k = Real.sqrt 2 * (Real.sqrt 2 + q k) := by rw [← hS]; ring
    have e4 : (2 : ℂ) - Real.sqrt 2 * q k = Real.sqrt 2 * (Real.sqrt 2 - q k) := by rw [← hS]; ring
    rw [hS, e3, e4, he] at e2
    have := mul_left_cancel₀ (mul_ne_zero hrs hS0) (by linear_combination e2 :
      (rs * Real.sqrt 2) * ((Real.tan (rad p) : ℂ) * Complex.exp (-(I * (rad d : ℝ))) * (Real.sqrt 2 + q k)) =
        (rs * Real.sqrt 2) * (Real.sqrt 2 - q k))
    exact this
  choose! ψ Δ hψ hok hrel using hres
  have hq0 : (q 0).im = -1 := by
    have h1 : (1 : ℝ) < Real.sqrt 2 := by
      rw [Real.lt_sqrt (by norm_num)]; norm_num
    have := qOf_transparent_above one_pos h1
    simp only [q]
    rw [Complex.ofReal_zero, mul_zero, add_zero, ← Complex.ofReal_one, this]
    rw [hs2]; norm_num
  have hqpos : ∀ k, 0 < k → 0 < (q k).im := by
    intro k hk
    have e := congrArg Complex.im (hq2 k hk.le)
    have hre : 0 ≤ (q k).re := (qOf_fwd (hphys k hk.le).back (Real.sqrt 2)).re_nonneg
    rw [sq, Complex.mul_im] at e
    have e' : (-1 - (k : ℂ) ^ 2 + 2 * I * k).im = 2 * k := by simp [sq]
    rw [e'] at e
    by_contra hcon
    push Not at hcon
    nlinarith [mul_nonneg hre (neg_nonneg.mpr hcon)]
  exact ⟨ψ, Δ, q, hψ, hok, hrel, hq2, hq0, hqpos⟩

/-- C116 fails: beyond the critical angle of a transparent backing medium (`n₀ = 2`, 45 degrees, index 1) psi or
delta, even as an angle, jumps as soon as it absorbs the least bit. -/
theorem C116_fails_total_reflection (zs : List Layer → ℝ → ℝ → Bool) : ∃ ψ Δ : ℝ → ℝ,
    (∀ k : ℝ, 0 ≤ k → (deltaPsiTMM zs [45] [⟨0, some 2, 0, 0⟩, ⟨0, some (1 + I * (k : ℂ)), 0, 0⟩] 500 0 false).1 =
      .ok [(some (ψ k), some (Δ k))]) ∧
    ¬ (ContinuousWithinAt ψ (Set.Ici 0) 0 ∧ ContinuousWithinAt (fun k => Real.cos (rad (Δ k))) (Set.Ici 0) 0 ∧
      ContinuousWithinAt (fun k => Real.sin (rad (Δ k))) (Set.Ici 0) 0) := by
  have hpi := Real.pi_pos
  have hsp : 0 < Real.sqrt 2 := by positivity
  have hS0 : (Real.sqrt 2 : ℂ) ≠ 0 := Complex.ofReal_ne_zero.mpr hsp.ne'
  obtain ⟨ψ, Δ, q, hψ, hok, hrel, -, hq0, hqpos⟩ := tir_results zs
  refine ⟨ψ, Δ, hok, ?_⟩
  rintro ⟨cψ, cc, cs⟩
  set ρ : ℝ → ℂ := fun k => (Real.tan (rad (ψ k)) : ℂ) * Complex.exp (-(I * (rad (Δ k) : ℝ)))
  have hcosψ : Real.cos (rad (ψ 0)) ≠ 0 := by
    obtain ⟨h1, h2⟩ := hψ 0 le_rfl
    refine (Real.cos_pos_of_mem_Ioo ⟨?_, ?_⟩).ne'
    · have : 0 < rad (ψ 0) := by unfold rad; positivity
      linarith
    · unfold rad
      calc ψ 0 * (Real.pi / 180) < 90 * (Real.pi / 180) := by gcongr
        _ = Real.pi / 2 := by ring
  have cρ : ContinuousWithinAt ρ (Set.Ici 0) 0 := by
    have c1 : ContinuousWithinAt (fun k => rad (ψ k)) (Set.Ici 0) 0 := cψ.mul continuousWithinAt_const
    have e : ∀ k, Complex.exp (-(I * (rad (Δ k) : ℝ))) =
        ((Real.cos (rad (Δ k)) : ℝ) : ℂ) - ((Real.sin (rad (Δ k)) : ℝ) : ℂ) * I := by
      intro k
      rw [show -(I * ((rad (Δ k) : ℝ) : ℂ)) = ((-(rad (Δ k)) : ℝ) : ℂ) * I by push_cast; ring,
        Complex.exp_mul_I, ← Complex.ofReal_cos, ← Complex.ofReal_sin, Real.cos_neg, Real.sin_neg]
      push_cast
      ring
    refine ContinuousWithinAt.mul ?_ ?_
    · exact Complex.continuous_ofReal.continuousAt.comp_continuousWithinAt
        (ContinuousAt.comp_continuousWithinAt (f := fun k => rad (ψ k)) (g := Real.tan)
          (Real.continuousAt_tan.mpr hcosψ) c1)
    · simp only [e]
      exact (Complex.continuous_ofReal.continuousAt.comp_continuousWithinAt cc).sub
        ((Complex.continuous_ofReal.continuousAt.comp_continuousWithinAt cs).mul continuousWithinAt_const)
  have h1ρ : ∀ k, 0 ≤ k → (1 + ρ k) * (Real.sqrt 2 + q k) = 2 * Real.sqrt 2 := by
    intro k hk
    linear_combination hrel k hk
  have hne : ∀ k, 0 ≤ k → 1 + ρ k ≠ 0 := by
    intro k hk hz
    have := h1ρ k hk
    rw [hz, zero_mul] at this
    exact (mul_ne_zero two_ne_zero hS0) this.symm
  have hqρ : ∀ k, 0 ≤ k → q k = Real.sqrt 2 * (1 - ρ k) / (1 + ρ k) := by
    intro k hk
    rw [eq_div_iff (hne k hk)]
    linear_combination hrel k hk
  have cq : ContinuousWithinAt q (Set.Ici 0) 0 := by
    refine ContinuousWithinAt.congr (f := fun k => Real.sqrt 2 * (1 - ρ k) / (1 + ρ k)) ?_
      (fun k hk => hqρ k hk) (hqρ 0 le_rfl)
    exact (continuousWithinAt_const.mul (continuousWithinAt_const.sub cρ)).div
      (continuousWithinAt_const.add cρ) (hne 0 le_rfl)
  have ht : Tendsto (fun k => (q k).im) (𝓝[>] 0) (𝓝 (q 0).im) :=
    (Complex.continuous_im.continuousAt.comp_continuousWithinAt (cq.mono Set.Ioi_subset_Ici_self))
  have := ge_of_tendsto ht (eventually_of_mem self_mem_nhdsWithin fun k hk => (hqpos k hk).le)
  rw [hq0] at this
  norm_num at this

end Verif.TMM
