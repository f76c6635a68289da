import Verif.Params.PropsParams
import Verif.RModel.PropsEndToEnd
import Verif.Disp.PropsOsc
import Verif.Disp.PropsGauss
import Verif.Disp.PropsCausal

/-!
# Property C124: the parameters of components and materials act in their documented roles
-/

namespace Verif.Params
open Verif.Struct Verif.Disp Verif.RModel Verif.TMM
open Complex (I)

/-! ### Materials -/

/-- C124: a `Cauchy` material takes `A`, `B` and `C` (wavelength in micron) from its three parameters. -/
theorem C124_cauchy (z : SqrtOracle) (v : Vals) (wl : ℝ) (A B C : PId) {w : ℝ} (hw : 0 < w) :
    ((ScatE.cauchy wl A B C).eval v).complex z (some w) =
      some ⟨v A + v B / (w / 1000) ^ 2 + v C / (w / 1000) ^ 4, 0⟩ :=
  C49_cauchy z wl (v A) (v B) (v C) hw

/-- C124: a `Sellmeier` material takes amplitude, energy, pole and offset from its four parameters. -/
theorem C124_sellmeier (z : SqrtOracle) (v : Vals) (wl : ℝ) (Am En P einf : PId) {w u : ℝ} (hw : w ≠ 0)
    (hu : u = w / 1000) (hne : u ^ 2 ≠ v En ^ 2)
    (hpos : 0 ≤ v einf + v Am * u ^ 2 / (u ^ 2 - v En ^ 2) - v P * u ^ 2) :
    ∃ N, ((ScatE.sellmeier wl Am En P einf).eval v).complex z (some w) = some N ∧ N.im = 0 ∧ 0 ≤ N.re ∧
      N ^ 2 = ((v einf + v Am * u ^ 2 / (u ^ 2 - v En ^ 2) - v P * u ^ 2 : ℝ) : ℂ) :=
  (C50_square z wl (v Am) (v En) (v P) (v einf) hw hu rfl).1 hne hpos

theorem osc_map (v : Vals) (os : List (PId × PId × PId)) :
    osc v (os.map (·.1)) (os.map (·.2.1)) (os.map (·.2.2)) = os.map fun o => (v o.1, v o.2.1, v o.2.2) := by
  induction os with
  | nil => rfl
  | cons o os ih =>
    simp only [osc, List.map_cons, List.zip_cons_cons] at ih ⊢
    rw [ih]

/-- Where the classes with a dielectric function get the index from. -/
theorem index_of_epsilon (z : SqrtOracle) {s : Scat}
    (hs : (∃ wl osc einf, s = .lorentz wl osc einf) ∨ (∃ wl osc einf, s = .gauss wl osc einf) ∨
      (∃ wl osc Eg einf, s = .tauc wl osc Eg einf)) {w : ℝ} (hw : w ≠ 0) {ε : ℂ}
    (h : s.epsilon (1239.841984055 / w) = some ε) :
    ∃ N, s.complex z (some w) = some N ∧ N ^ 2 = ε ∧ 0 ≤ N.re := by
  have hc : s.complex z (some w) = some (npSqrt (z s w) ε) := by
    rcases hs with ⟨wl, osc, einf, rfl⟩ | ⟨wl, osc, einf, rfl⟩ | ⟨wl, osc, Eg, einf, rfl⟩ <;>
      simp only [Scat.complex, Scat.at, Scat.ownWav, pick_ne hw, nmEV, rdiv_of_ne hw, Option.bind_eq_bind,
        Option.bind_some, h] <;> rfl
  exact ⟨_, hc, npSqrt_sq _ _, npSqrt_re_nonneg _ _⟩

/-- C124: a `Lorentz` material with the parameters `o.1` (amplitude), `o.2.1` (broadening) and `o.2.2` (energy)
of each oscillator and `einf`: off resonance or with damping the squared index is
`einf + Σ Am / (En² - E² - i Br E)` at the photon energy `E` in eV. -/
theorem C124_lorentz (z : SqrtOracle) (v : Vals) (wl : ℝ) (os : List (PId × PId × PId)) (einf : PId)
    {w E : ℝ} (hw : w ≠ 0) (hE : E = 1239.841984055 / w)
    (hfin : ∀ o ∈ os, ¬ (v o.2.2 ^ 2 = E ^ 2 ∧ v o.2.1 * E = 0)) :
    ∃ N, ((ScatE.lorentz wl (os.map (·.1)) (os.map (·.2.1)) (os.map (·.2.2)) einf).eval v).complex z (some w) =
        some N ∧ 0 ≤ N.re ∧
      N ^ 2 = v einf + (os.map fun o =>
        (v o.1 : ℂ) / ((v o.2.2 : ℂ) ^ 2 - (E : ℂ) ^ 2 - I * v o.2.1 * E)).sum := by
  have hsum : ∀ l : List (PId × PId × PId), (∀ o ∈ l, o ∈ os) →
      sumO ((l.map fun o => (v o.1, v o.2.1, v o.2.2)).map (lorentzTerm E)) =
      some (l.map fun o => (v o.1 : ℂ) / ((v o.2.2 : ℂ) ^ 2 - (E : ℂ) ^ 2 - I * v o.2.1 * E)).sum := by
    intro l
    induction l with
    | nil => intro _; rfl
    | cons o l ih =>
      intro hl
      have hne : (v o.2.2 : ℂ) ^ 2 - (E : ℂ) ^ 2 - I * v o.2.1 * E ≠ 0 := by
        intro h0
        refine hfin o (hl o List.mem_cons_self) ⟨?_, ?_⟩
        · have := congrArg Complex.re h0
          simp [← Complex.ofReal_pow] at this
          linarith
        · have := congrArg Complex.im h0
          simp [← Complex.ofReal_pow] at this
          rcases this with h | h <;> simp [h]
      simp only [List.map_cons, List.sum_cons, sumO, ih fun p hp => hl p (List.mem_cons_of_mem _ hp),
        lorentzTerm, cdiv_of_ne hne]
      rfl
  have heps : ((ScatE.lorentz wl (os.map (·.1)) (os.map (·.2.1)) (os.map (·.2.2)) einf).eval v).epsilon E =
      some ((os.map fun o => (v o.1 : ℂ) / ((v o.2.2 : ℂ) ^ 2 - (E : ℂ) ^ 2 - I * v o.2.1 * E)).sum + v einf) := by
    simp only [ScatE.eval, osc_map, Scat.epsilon, lorentzEps, hsum os fun _ h => h]
    rfl
  rw [hE] at heps
  obtain ⟨N, h1, h2, h3⟩ := index_of_epsilon z (.inl ⟨_, _, _, rfl⟩) hw heps
  refine ⟨N, h1, h3, ?_⟩
  rw [h2, add_comm, hE]

/-- C124: a `TaucLorentz` material with the parameters `o.1` (amplitude), `o.2.1` (broadening) and `o.2.2` (energy)
of each oscillator, `Eg` and `einf`: the squared index has the imaginary part
`Σ Am En C (E - Eg)² / (E ((E² - En²)² + C² E²))` above the gap and 0 below, and it is the boundary value of one
causal function that tends to `einf` (for broadenings up to `√2 En`, off the gap; see C53). -/
theorem C124_tauc (z : SqrtOracle) (v : Vals) (wl : ℝ) (os : List (PId × PId × PId)) (Eg einf : PId)
    (hEg : 0 ≤ v Eg) (hos : ∀ o ∈ os, 0 < v o.2.1 ∧ v o.2.1 ^ 2 ≤ 2 * v o.2.2 ^ 2 ∧ 0 < v o.2.2) :
    ∃ F, Causal F (v einf) ∧ ∀ {w E : ℝ}, 0 < w → E = 1239.841984055 / w → E ≠ v Eg →
      ∃ N, ((ScatE.tauc wl (os.map (·.1)) (os.map (·.2.1)) (os.map (·.2.2)) Eg einf).eval v).complex z (some w) =
          some N ∧ 0 ≤ N.re ∧ Boundary F E (N ^ 2) ∧ (E ≤ v Eg → (N ^ 2).im = 0) ∧
        (v Eg < E → (N ^ 2).im = (os.map fun o => v o.1 * v o.2.2 * v o.2.1 * (E - v Eg) ^ 2 /
          (E * ((E ^ 2 - v o.2.2 ^ 2) ^ 2 + v o.2.1 ^ 2 * E ^ 2))).sum) := by
  set l := os.map fun o => (v o.1, v o.2.1, v o.2.2) with hl
  have hl' : ∀ o ∈ l, 0 < o.2.1 ∧ o.2.1 ^ 2 ≤ 2 * o.2.2 ^ 2 ∧ 0 < o.2.2 := by
    intro o ho
    obtain ⟨p, hp, rfl⟩ := List.mem_map.mp ho
    exact hos p hp
  obtain ⟨F, hF, hb⟩ := C106_tauc_lorentz hEg (fun o ho => ⟨(hl' o ho).1, (hl' o ho).2.2⟩) (v einf)
  refine ⟨F, hF, fun {w E} hw hE hne => ?_⟩
  have hE0 : 0 < E := by rw [hE]; positivity
  obtain ⟨ε, hε⟩ := C53_finite_partial hEg hl' (v einf) hE0 hne
  have heps : ((ScatE.tauc wl (os.map (·.1)) (os.map (·.2.1)) (os.map (·.2.2)) Eg einf).eval v).epsilon E =
      some ε := by
    simp only [ScatE.eval, osc_map, Scat.epsilon]
    exact hε
  have him := C52_epsilon (wl := wl) (osc := l) (Eg := v Eg) (einf := v einf) (e := E) (v := ε) hε
  rw [hE] at heps
  obtain ⟨N, h1, h2, h3⟩ := index_of_epsilon z (.inr (.inr ⟨_, _, _, _, rfl⟩)) hw.ne' heps
  refine ⟨N, h1, h3, ?_, ?_, ?_⟩
  · rw [h2]
    exact hb E ε hE0 hε
  · rw [h2]
    exact him.1
  · rw [h2]
    intro h
    rw [him.2.1 h, hl, List.map_map]
    rfl

/-- The width of a Gaussian in terms of its broadening (full width at half maximum). -/
noncomputable def width (br : ℝ) : ℝ := br / 2 / Real.sqrt (Real.log 2)

/-- C124: a `Gauss` material with the parameters `o.1` (amplitude), `o.2.1` (broadening) and `o.2.2` (energy) of each
oscillator and `einf`: at the energies of its grid the imaginary part of the squared index is
`Σ Am (exp(-((E-En)/σ)²) - exp(-((E+En)/σ)²))`, and `einf` is the mean of the real part over the grid. -/
theorem C124_gauss (z : SqrtOracle) (v : Vals) (wl : ℝ) (os : List (PId × PId × PId)) (einf : PId)
    (hos : ∀ o ∈ os, v o.2.1 ≠ 0) :
    ∃ ε : ℕ → ℂ, (∑ j ∈ Finset.range 2048, (ε j).re) / 2048 = v einf ∧
      ∀ j : ℕ, j < 2048 → ∀ E : ℝ, E = -20 + 40 * j / 2047 →
        ((ScatE.gauss wl (os.map (·.1)) (os.map (·.2.1)) (os.map (·.2.2)) einf).eval v).epsilon E = some (ε j) ∧
        (ε j).im = (os.map fun o => v o.1 * Real.exp (-((E - v o.2.2) / width (v o.2.1)) ^ 2) -
          v o.1 * Real.exp (-((E + v o.2.2) / width (v o.2.1)) ^ 2)).sum ∧
        ∀ w : ℝ, 0 < w → E = 1239.841984055 / w →
          ∃ N, ((ScatE.gauss wl (os.map (·.1)) (os.map (·.2.1)) (os.map (·.2.2)) einf).eval v).complex z (some w) =
            some N ∧ 0 ≤ N.re ∧ N ^ 2 = ε j := by
  set l := os.map fun o => (v o.1, v o.2.1, v o.2.2) with hl
  have hl' : ∀ o ∈ l, o.2.1 ≠ 0 := by
    intro o ho
    obtain ⟨p, hp, rfl⟩ := List.mem_map.mp ho
    exact hos p hp
  have hfin := fun e => C54_finite (v einf) e hl'
  choose g hg using hfin
  refine ⟨fun j => g (-20 + 40 * j / 2047), C54_mean (fun j _ => hg _), fun j hj E hE => ?_⟩
  subst hE
  have heps : ((ScatE.gauss wl (os.map (·.1)) (os.map (·.2.1)) (os.map (·.2.2)) einf).eval v).epsilon
      (-20 + 40 * j / 2047) = some (g (-20 + 40 * j / 2047)) := by
    simp only [ScatE.eval, osc_map, Scat.epsilon]
    exact hg _
  refine ⟨heps, ?_, fun w hw hE => ?_⟩
  · obtain ⟨e1, e2, -, h2, -, h4⟩ := gaussEps_some (hg (-20 + 40 * j / 2047))
    have hk := gridInterp_knot e2 hj
    unfold ePad at hk
    rw [h4, Option.some.injEq] at hk
    rw [hk]
    have key : ∀ (k : List (PId × PId × PId)) (y : ℕ → ℝ), (∀ o ∈ k, v o.2.1 ≠ 0) →
        gaussSum id (k.map fun o => (v o.1, v o.2.1, v o.2.2)) = some y →
        y j = (k.map fun o =>
          v o.1 * Real.exp (-((-20 + 40 * j / 2047 - v o.2.2) / width (v o.2.1)) ^ 2) -
          v o.1 * Real.exp (-((-20 + 40 * j / 2047 + v o.2.2) / width (v o.2.1)) ^ 2)).sum := by
      intro k
      induction k with
      | nil =>
        intro y _ hy
        simp only [List.map_nil, gaussSum, Option.some.injEq] at hy
        simp [← hy]
      | cons o k ih =>
        intro y hk hy
        simp only [List.map_cons, gaussSum, Option.bind_eq_bind, Option.bind_eq_some_iff, Option.pure_def,
          Option.some.injEq] at hy
        obtain ⟨a, ha, b, hb, rfl⟩ := hy
        have h1 := gaussGrid_eq ha hj
        have hs : width (v o.2.1) ≠ 0 := by
          have : 0 < Real.sqrt (Real.log 2) := Real.sqrt_pos.mpr (Real.log_pos (by norm_num))
          exact div_ne_zero (div_ne_zero (hk o List.mem_cons_self) (by norm_num)) this.ne'
        have hs' : v o.2.1 / 2 / Real.sqrt (Real.log 2) ≠ 0 := hs
        simp only [gaussE2, gaussExp, if_neg hs', Option.bind_eq_bind, Option.bind_some, Option.pure_def,
          Option.some.injEq] at h1
        rw [List.map_cons, List.sum_cons, ← ih b (fun p hp => hk p (List.mem_cons_of_mem _ hp)) hb]
        simp only [id, ← h1, width, ePad]
    exact key os e2 hos h2
  · beta_reduce
    rw [hE] at heps ⊢
    obtain ⟨N, h1, h2, h3⟩ := index_of_epsilon z (.inr (.inl ⟨_, _, _, rfl⟩)) hw.ne' heps
    exact ⟨N, h1, h3, h2⟩

/-! ### Components -/

/-- The medium a component object describes at either end of a structure. -/
inductive EndOf (z : SqrtOracle) (v : Vals) (w : ℝ) : CompO → ℂ → Prop
  | slab {t g f : PId} {r : ScatE} {d : Bool} {l : List PId} {n : ℂ} (h : MaterialAt z w (r.eval v) n) :
    EndOf z v w (.slab t r g f d l) n

/-- The film (index, thickness in nm) a component object describes in a solvent of index `nS`: of a slab the
material and the solvent with the value of `vfsolv` as volume fraction, of a mixed slab the materials `ri_A` and
`ri_B` with the value of `vf_B` as volume fraction of `ri_B`; the thickness is the value of `thick`. -/
inductive FilmOf (z : SqrtOracle) (v : Vals) (ema : String) (L w : ℝ) (nS : ℂ) : CompO → ℂ × ℝ → Prop
  | slab {t g f : PId} {r : ScatE} {d : Bool} {l : List PId} {a n : ℂ} (h : MaterialAt z w (r.eval v) a)
      (hm : Mix ema L (v f) a nS n) : FilmOf z v ema L w nS (.slab t r g f d l) (n, v t / 10)
  | mixed {t g f : PId} {ra rb : ScatE} {d : Bool} {l : List PId} {a b n : ℂ} (ha : MaterialAt z w (ra.eval v) a)
      (hb : MaterialAt z w (rb.eval v) b) (hm : Mix ema L (v f) a b n)
      (hS : ema = "bruggeman" → EMA.Dielectric nS) :
      FilmOf z v ema L w nS (.mixed t ra rb f g d l) (n, v t / 10)

/-- The stack that light of wavelength `w` meets in a structure of component objects. -/
def Meets (z : SqrtOracle) (v : Vals) (h : Objs) (s : StructO) (w : ℝ) (st : Stack) : Prop :=
  ∃ c0 mid cb n0 nS, (if s.reverse then (s.comps.map h).reverse else s.comps.map h) = c0 :: mid ++ [cb] ∧
    EndOf z v w c0 n0 ∧ st.front = (n0.re : ℂ) ∧ EndOf z v w cb st.back ∧
    (match s.solvent with
      | none => nS = st.back
      | some r => MaterialAt z w (r.eval v) nS) ∧
    List.Forall₂ (FilmOf z v s.ema s.dp w nS) mid st.films

theorem EndOf.comp {z : SqrtOracle} {v : Vals} {w : ℝ} {c : CompO} {n : ℂ} (h : EndOf z v w c n) :
    EndIs z v w c.comp n := by
  cases h with
  | slab h => exact .slab h

theorem FilmOf.comp {z : SqrtOracle} {v : Vals} {ema : String} {L w : ℝ} {nS : ℂ} {c : CompO} {f : ℂ × ℝ}
    (h : FilmOf z v ema L w nS c f) : FilmIs z v ema L w nS c.comp f := by
  cases h with
  | slab h hm => exact .slab h hm
  | mixed ha hb hm hS => exact .mixed ha hb hm hS

theorem Meets.sees {z : SqrtOracle} {v : Vals} {h : Objs} {s : StructO} {w : ℝ} {st : Stack}
    (hm : Meets z v h s w st) : Sees z v (s.view h) ((s.comps.map h).map CompO.comp) w st := by
  obtain ⟨c0, mid, cb, n0, nS, h1, h2, h3, h4, h5, h6⟩ := hm
  refine ⟨c0.comp, mid.map CompO.comp, cb.comp, n0, nS, ?_, h2.comp, h3, h4.comp, ?_, ?_⟩
  · have := congrArg (List.map CompO.comp) h1
    rw [show (s.view h).reverse = s.reverse from rfl]
    by_cases hr : s.reverse = true
    · rw [if_pos hr] at this ⊢
      rw [List.map_reverse] at this
      rw [this]
      simp
    · rw [if_neg hr] at this ⊢
      rw [this]
      simp
  · simp only [StructO.view]
    rcases hs : s.solvent with - | r
    · simpa [hs] using h5
    · simpa [hs] using h5
  · rw [List.forall₂_map_left_iff]
    exact h6.imp fun _ _ h => h.comp

/-- C124: psi and delta of a model whose structure holds these component objects, whatever was assigned to their
attributes and parameters before, are those of Maxwell's boundary value problem for the films that the current
values of the parameters describe in their roles. -/
theorem C124_model {ext : Ext} {zs : List Layer → ℝ → ℝ → Bool} {v : Vals} {m : RM} {h : Objs} {s : StructO}
    (hd : ∀ i ∈ s.comps, NoInterface (h i).comp) (hc : s.contract ≤ 0) (he : EMA.Known s.ema)
    {pts : List (ℝ × ℝ)} {st : ℝ → Stack} {n₀ : ℝ → ℝ}
    (hs : ∀ pt ∈ pts, Meets ext.zs v h s pt.1 (st pt.1) ∧ Physical (st pt.1) (n₀ pt.1) (rad pt.2) pt.1 ∧
      ¬ ((st pt.1).back.im = 0 ∧ (st pt.1).back.re < n₀ pt.1 * Real.sin (rad pt.2))) :
    ∃ l, (model ext zs .float v m (s.view h) pts).1 = .ok l ∧
      List.Forall₂ (fun pt x => ∃ rs ts rp tp, Encodes (v m.off) m.flip rs rp x ∧
        ∀ ms cb, List.Forall₂ (IsFilm ((st pt.1).front * Complex.sin (rad pt.2)) pt.1) (st pt.1).films ms →
          (∀ k ∈ ms, |k.δ.im| ≤ 35) →
          cb ^ 2 = 1 - ((st pt.1).front * Complex.sin (rad pt.2) / (st pt.1).back) ^ 2 →
          Outgoing (st pt.1).back cb →
          (∀ r t, Solves .s (st pt.1) (rad pt.2) ms cb r t ↔ r = rs ∧ t = ts) ∧
          (∀ r t, Solves .p (st pt.1) (rad pt.2) ms cb r t ↔ r = rp ∧ t = tp)) pts l := by
  rcases pts with - | ⟨p0, pts⟩
  · exact ⟨[], by rw [model_ok]; exact .nil, .nil⟩
  refine C117_model (cs := (s.comps.map h).map CompO.comp) ?_ fun pt hpt => ⟨(hs pt hpt).1.sees, (hs pt hpt).2⟩
  obtain ⟨c0, mid, cb, n0, nS, h1, h2, -, h4, -, -⟩ := (hs p0 List.mem_cons_self).1
  have hslab : ∀ {c : CompO} {n : ℂ}, EndOf ext.zs v p0.1 c n → c.comp.isSlab = true := by
    intro c n h
    cases h
    rfl
  have hends : (s.comps.map h).head? = some (if s.reverse then cb else c0) ∧
      (s.comps.map h).getLast? = some (if s.reverse then c0 else cb) := by
    by_cases hr : s.reverse = true
    · simp only [hr, if_true] at h1 ⊢
      have : s.comps.map h = (c0 :: mid ++ [cb]).reverse := by rw [← h1, List.reverse_reverse]
      rw [this]
      exact ⟨by simp, by rw [List.getLast?_reverse]; rfl⟩
    · simp only [hr] at h1 ⊢
      simp only [Bool.false_eq_true, if_false] at h1 ⊢
      rw [h1]
      exact ⟨rfl, List.getLast?_concat⟩
  refine ⟨by simp [StructO.view], ?_, ?_, ?_, ?_, ?_, hc, he⟩
  · intro h0
    have : s.comps.map h = [] := by simpa using h0
    rw [this] at hends
    simp at hends
  · intro c hcm
    simp only [List.map_map, List.mem_map, Function.comp] at hcm
    obtain ⟨i, -, rfl⟩ := hcm
    rcases h i with ⟨⟩ | ⟨⟩ <;> simp [CompO.comp, Pkg]
  · intro c hcm
    simp only [List.map_map, List.mem_map, Function.comp] at hcm
    obtain ⟨i, hi, rfl⟩ := hcm
    exact hd i hi
  · intro c hcm
    rw [List.head?_map, hends.1] at hcm
    simp only [Option.map_some, Option.some.injEq] at hcm
    subst hcm
    split_ifs
    · exact hslab h4
    · exact hslab h2
  · intro c hcm
    rw [List.getLast?_map, hends.2] at hcm
    simp only [Option.map_some, Option.some.injEq] at hcm
    subst hcm
    split_ifs
    · exact hslab h2
    · exact hslab h4

/-! ### The hypotheses can be met -/

/-- Substrate, a half solvated slab, a mixed slab and air. -/
noncomputable def roleObjs : Objs
  | 0 => mkSlab 0 (.const 658 3 0) 1 2 true
  | 1 => mkSlab 0 (.const 658 (17 / 10) 0) 1 3 true
  | 2 => mkMixed 0 (.const 658 (17 / 10) 0) (.const 658 (7 / 10) 0) 3 1 true
  | _ => mkSlab 0 (.const 658 1 0) 1 2 true

noncomputable def roleStruct (ema : String) : StructO :=
  { comps := [0, 1, 2, 3], solvent := some (.const 658 (7 / 10) 0), reverse := true, ema := ema }

theorem role_meets (z : SqrtOracle) (w : ℝ) {ema : String} {n : ℝ}
    (h : Mix ema (1 / 3) (exVals 3) ⟨17 / 10, 0⟩ ⟨7 / 10, 0⟩ ⟨n, 0⟩) :
    Meets z exVals roleObjs (roleStruct ema) w (mixedStack n) := by
  refine ⟨_, [_, _], _, ⟨1, 0⟩, ⟨7 / 10, 0⟩, rfl, .slab (const_material z w one_pos), rfl,
    .slab (const_material z w (by norm_num)), const_material z w (by norm_num), ?_⟩
  exact .cons (.mixed (const_material z w (by norm_num)) (const_material z w (by norm_num)) h
    (fun _ => by norm_num [EMA.Dielectric])) (.cons (.slab (const_material z w (by norm_num)) h) .nil)

example (ext : Ext) (zs : List Layer → ℝ → ℝ → Bool) {ema : String} (he : EMA.Known ema) :
    ∃ l, (model ext zs .float exVals ⟨7, true⟩ ((roleStruct ema).view roleObjs) [(500, 0), (600, 0)]).1 = .ok l ∧
      l.length = 2 := by
  obtain ⟨n, hn, hm⟩ := real_mix he (L := 1 / 3) ⟨by norm_num, by norm_num, fun _ => by norm_num⟩
    (f := exVals 3) (a := 17 / 10) (b := 7 / 10) ⟨by norm_num [exVals], by norm_num [exVals]⟩ (by norm_num)
    (by norm_num)
  obtain ⟨l, h1, h2⟩ := C124_model (ext := ext) (zs := zs) (m := ⟨7, true⟩) (h := roleObjs) (s := roleStruct ema)
    (by simp [roleStruct, roleObjs, mkSlab, mkMixed, CompO.comp, NoInterface]) le_rfl he
    (pts := [(500, 0), (600, 0)]) (st := fun _ => mixedStack n) (n₀ := fun _ => 1) (v := exVals) (by
      intro pt hpt
      simp only [List.mem_cons, List.not_mem_nil, or_false] at hpt
      rcases hpt with rfl | rfl
      · exact ⟨role_meets _ _ hm, mixedStack_physical hn (by norm_num), by norm_num [mixedStack, rad]⟩
      · exact ⟨role_meets _ _ hm, mixedStack_physical hn (by norm_num), by norm_num [mixedStack, rad]⟩)
  exact ⟨l, h1, h2.length_eq.symm⟩

/-- Two Lorentz oscillators with different values for every parameter, at 500 nm. -/
example (z : SqrtOracle) : ∃ N, ((ScatE.lorentz 658 [0, 1] [2, 3] [4, 5] 6).eval fun p => p + 1).complex z
    (some 500) = some N ∧ 0 ≤ N.re := by
  obtain ⟨N, h1, h2, -⟩ := C124_lorentz z (fun p => p + 1) 658 [(0, 2, 4), (1, 3, 5)] 6 (w := 500) (by norm_num)
    rfl (by norm_num)
  exact ⟨N, h1, h2⟩

/-- A Tauc-Lorentz and a Gauss material with two oscillators. -/
example : ∀ o ∈ [((0 : PId), (2 : PId), (4 : PId)), (1, 3, 5)], ((o.2.1 : ℝ) + 1 ≠ 0) ∧ (0 : ℝ) < o.2.1 + 1 ∧
    ((o.2.1 : ℝ) + 1) ^ 2 ≤ 2 * ((o.2.2 : ℝ) + 1) ^ 2 ∧ (0 : ℝ) < o.2.2 + 1 := by
  norm_num

end Verif.Params
