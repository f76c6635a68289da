import Verif.TMM.PropsCont
import Verif.TMM.ExFilm
import Verif.Disp.PropsSampled
import Mathlib.Analysis.SpecificLimits.Basic
import Mathlib.Topology.Compactification.OnePoint.Basic

/-! # C158: psi and delta of samples whose materials are given by finer and finer tables -/

namespace Verif.TMM

open Complex Filter Topology Verif.Disp

/-- A sequence of tables of the curve `f` whose rows around the wavelength `w` draw together. -/
structure Tabulated (w : ℝ) (f : ℝ → ℂ) (tab : ℕ → List (ℝ × ℝ × ℝ)) : Prop where
  increasing : ∀ N, Increasing (tab N)
  samples : ∀ N, Samples (tab N) f
  continuous : ContinuousAt f w
  passive : ∀ x, 0 ≤ (f x).im
  fine : ∃ h : ℕ → ℝ, (∀ N, Within (tab N) w (h N)) ∧ Tendsto h atTop (𝓝 0)

/-- The index a table gives (a number that does not matter if it gives none). -/
noncomputable def tabIndex (z : SqrtOracle) (w : ℝ) (tab : List (ℝ × ℝ × ℝ)) : ℂ :=
  ((Scat.table 0 tab).complex z (some w)).getD 0

theorem table_own (z : SqrtOracle) (wl w : ℝ) (hw : w ≠ 0) (tab : List (ℝ × ℝ × ℝ)) :
    (Scat.table wl tab).complex z (some w) = (Scat.table 0 tab).complex z (some w) := by
  simp [Scat.complex, Scat.at, pickWav, hw]

theorem Tabulated.index {w : ℝ} {f : ℝ → ℂ} {tab : ℕ → List (ℝ × ℝ × ℝ)} (h : Tabulated w f tab) (hw : w ≠ 0)
    (z : SqrtOracle) :
    (∀ N, (Scat.table 0 (tab N)).complex z (some w) = some (tabIndex z w (tab N))) ∧
      Tendsto (fun N => tabIndex z w (tab N)) atTop (𝓝 (f w)) ∧ ∀ N, 0 ≤ (tabIndex z w (tab N)).im := by
  obtain ⟨hh, h1, h2⟩ := h.fine
  obtain ⟨n, hn, hl⟩ := C158_converges z (fun _ => 0) h.increasing h.samples hw h.continuous h1 h2
  have e : ∀ N, tabIndex z w (tab N) = n N := fun N => by simp [tabIndex, hn]
  refine ⟨fun N => by rw [e, hn], hl.congr fun N => (e N).symm, fun N => ?_⟩
  obtain ⟨a, b, hab, i1, i2, -⟩ := h1 N
  obtain ⟨v, hv, -, -, hlo, -⟩ := C46_between z 0 (h.increasing N) hab hw i1 i2
  rw [hn, Option.some.injEq] at hv
  have ea : (a.2.2 : ℝ) = (f a.1).im := by rw [← h.samples N a hab.mem.1]; rfl
  have eb : (b.2.2 : ℝ) = (f b.1).im := by rw [← h.samples N b hab.mem.2]; rfl
  rw [e, hv]
  refine le_trans (le_min ?_ ?_) hlo
  · rw [ea]; exact h.passive _
  · rw [eb]; exact h.passive _

/-- A sequence together with its limit. -/
noncomputable def withLimit {Y : Type*} (u : ℕ → Y) (L : Y) (x : OnePoint ℕ) : Y := x.elim L u

theorem withLimit_coe {Y : Type*} (u : ℕ → Y) (L : Y) (N : ℕ) : withLimit u L (N : OnePoint ℕ) = u N := rfl
theorem withLimit_infty {Y : Type*} (u : ℕ → Y) (L : Y) : withLimit u L OnePoint.infty = L := rfl

theorem coclosed_nat : coclosedCompact ℕ = atTop := by
  rw [coclosedCompact_eq_cocompact, cocompact_eq_cofinite, Nat.cofinite_eq_atTop]

theorem cont_withLimit {Y : Type*} [TopologicalSpace Y] {u : ℕ → Y} {L : Y} (h : Tendsto u atTop (𝓝 L)) :
    ContinuousAt (withLimit u L) OnePoint.infty := by
  rw [OnePoint.continuousAt_infty', coclosed_nat]
  exact h

theorem eventually_coe {p : OnePoint ℕ → Prop} (h : ∀ᶠ x in 𝓝 OnePoint.infty, p x) :
    ∀ᶠ N : ℕ in atTop, p (N : OnePoint ℕ) := by
  have := (OnePoint.tendsto_coe_infty (X := ℕ)).eventually h
  rwa [coclosed_nat] at this

theorem tendsto_coe {Y : Type*} [TopologicalSpace Y] {g : OnePoint ℕ → Y} (h : ContinuousAt g OnePoint.infty) :
    Tendsto (fun N : ℕ => g (N : OnePoint ℕ)) atTop (𝓝 (g OnePoint.infty)) := by
  have := (OnePoint.continuousAt_infty').mp h
  rwa [coclosed_nat] at this

/-- Away from criticality (see `C116`): the medium absorbs or is below its critical angle. -/
def Clear (s : ℝ) (n : ℂ) : Prop := n.im ≠ 0 ∨ |s| < n.re

theorem Clear.ne {s : ℝ} {n : ℂ} (h : Clear s n) (hn : 0 < n.re) : n ^ 2 ≠ (s : ℂ) ^ 2 := by
  intro hc
  have h1 := congrArg Complex.im hc
  have h2 := congrArg Complex.re hc
  simp only [sq, Complex.mul_im, Complex.mul_re, Complex.ofReal_re, Complex.ofReal_im, mul_zero, zero_mul, add_zero,
    sub_zero] at h1 h2
  have him : n.im = 0 := by
    have : n.re * n.im = 0 := by linarith
    exact (mul_eq_zero.mp this).resolve_left hn.ne'
  rcases h with h | h
  · exact h him
  · rw [him] at h2
    have := sq_lt_sq' (by linarith [abs_nonneg s, neg_abs_le s]) h
    rw [sq_abs] at this
    nlinarith

theorem Clear.eventually {s : ℝ} {L : ℂ} {u : OnePoint ℕ → ℂ} (h : Clear s L) (hu : ContinuousAt u OnePoint.infty)
    (e : u OnePoint.infty = L) : ∀ᶠ x in 𝓝 OnePoint.infty, Clear s (u x) := by
  subst e
  rcases h with h | h
  · have := (Complex.continuous_im.continuousAt.comp hu).eventually_ne h
    filter_upwards [this] with x hx using .inl hx
  · have := (continuousAt_const (y := |s|)).eventually_lt (Complex.continuous_re.continuousAt.comp hu) h
    filter_upwards [this] with x hx using .inr hx

/-- The phase thickness of a film is bounded by its optical thickness. -/
theorem film_phase_le {s lam d : ℝ} {n : ℂ} (hn : n ≠ 0) (hd : 0 ≤ d) (hl : 0 < lam) {m : Medium}
    (h : IsFilm (s : ℂ) lam (n, d) m) : m.δ.im ≤ 2 * Real.pi * d * (‖n‖ + |s|) / lam := by
  obtain ⟨-, h2, h3⟩ := h
  have hnc : ‖n * m.c‖ ^ 2 ≤ (‖n‖ + |s|) ^ 2 := by
    rw [← norm_pow, mul_pow, h2, show n ^ 2 * (1 - ((s : ℂ) / n) ^ 2) = n ^ 2 - (s : ℂ) ^ 2 by field_simp]
    refine (norm_sub_le _ _).trans ?_
    rw [norm_pow, norm_pow, Complex.norm_real, Real.norm_eq_abs]
    nlinarith [norm_nonneg n, abs_nonneg s]
  have h4 : ‖n * m.c‖ ≤ ‖n‖ + |s| := le_of_sq_le_sq hnc (by positivity)
  refine (Complex.im_le_norm _).trans ?_
  rw [h3, show (2 * Real.pi * (n, d).1 * m.c * (n, d).2 / lam : ℂ) = ((2 * Real.pi * d / lam : ℝ) : ℂ) * (n * m.c) by
    push_cast; ring, norm_mul, Complex.norm_real, Real.norm_eq_abs, abs_of_nonneg (by have := Real.pi_pos; positivity)]
  calc 2 * Real.pi * d / lam * ‖n * m.c‖ ≤ 2 * Real.pi * d / lam * (‖n‖ + |s|) :=
        mul_le_mul_of_nonneg_left h4 (by have := Real.pi_pos; positivity)
    _ = _ := by ring

/-- The stack that light of wavelength `w` meets when the `N`-th tables are used; `films` are (curve, tables,
thickness). -/
noncomputable def tabStack (z : SqrtOracle) (w n₀ : ℝ) (films : List ((ℝ → ℂ) × (ℕ → List (ℝ × ℝ × ℝ)) × ℝ))
    (tabb : ℕ → List (ℝ × ℝ × ℝ)) (N : ℕ) : Stack :=
  ⟨(n₀ : ℂ), films.map fun f => (tabIndex z w (f.2.1 N), f.2.2), tabIndex z w (tabb N)⟩

/-- The stack of the curves themselves. -/
noncomputable def curveStack (w n₀ : ℝ) (films : List ((ℝ → ℂ) × (ℕ → List (ℝ × ℝ × ℝ)) × ℝ)) (fb : ℝ → ℂ) : Stack :=
  ⟨(n₀ : ℂ), films.map fun f => (f.1 w, f.2.2), fb w⟩

/-- Slab arrays with the indices of tables describe `tabStack`. -/
theorem rowsOf_tab {z : SqrtOracle} {w n₀ : ℝ} {films : List ((ℝ → ℂ) × (ℕ → List (ℝ × ℝ × ℝ)) × ℝ)} {fb : ℝ → ℂ}
    {tabb : ℕ → List (ℝ × ℝ × ℝ)} (hw : w ≠ 0) (hf : ∀ f ∈ films, Tabulated w f.1 f.2.1) (hb : Tabulated w fb tabb) {N : ℕ}
    {r0 rb : Row} {mid : List Row} {n0 : ℂ} {wl : ℝ} (h0 : r0.ri = some n0) (e0 : n0.re = n₀)
    (hm : List.Forall₂ (fun (r : Row) f => r.ri = (Scat.table wl (f.2.1 N)).complex z (some w) ∧ r.thick = 10 * f.2.2)
      mid films) (hrb : rb.ri = (Scat.table wl (tabb N)).complex z (some w)) :
    RowsOf (r0 :: mid ++ [rb]) (tabStack z w n₀ films tabb N) := by
  refine ⟨r0, mid, rb, n0, rfl, h0, by rw [e0]; rfl, ?_, ?_⟩
  · change List.Forall₂ _ mid (films.map _)
    rw [List.forall₂_map_right_iff]
    clear hrb
    induction hm with
    | nil => exact .nil
    | @cons r f _ _ h _ ih =>
      refine .cons ⟨?_, h.2⟩ (ih fun g hg => hf g (by simp [hg]))
      rw [h.1, table_own z wl w hw, ((hf f (by simp)).index hw z).1 N]
  · rw [hrb, table_own z wl w hw, (hb.index hw z).1 N]
    rfl

/-- C158: if the materials of a sample are given by tables of continuous curves whose rows draw together around the
wavelength, psi and delta (as an angle) tend to those of the curves themselves.  The media absorb or are below their
critical angle (see C116), and no film is so thick that the exponentials leave the range of the limit of 35. -/
theorem C158_psi_delta {z : SqrtOracle} {w a off n₀ : ℝ} {refl : Bool}
    {films : List ((ℝ → ℂ) × (ℕ → List (ℝ × ℝ × ℝ)) × ℝ)} {fb : ℝ → ℂ} {tabb : ℕ → List (ℝ × ℝ × ℝ)}
    (hw : 0 < w) (hn : 0 < n₀) (ha : |rad a| < Real.pi / 2)
    (hf : ∀ f ∈ films, Tabulated w f.1 f.2.1 ∧ 0 < (f.1 w).re ∧ Clear (n₀ * Real.sin (rad a)) (f.1 w) ∧ 0 ≤ f.2.2 ∧
      2 * Real.pi * f.2.2 * (‖f.1 w‖ + n₀) / w < Real.sinh 35)
    (hb : Tabulated w fb tabb ∧ 0 < (fb w).re ∧ Clear (n₀ * Real.sin (rad a)) (fb w))
    {rows : ℕ → List Row} (hr : ∀ N, RowsOf (rows N) (tabStack z w n₀ films tabb N))
    {rows' : List Row} (hr' : RowsOf rows' (curveStack w n₀ films fb)) (zs : List Layer → ℝ → ℝ → Bool) {ψ₀ Δ₀ : ℝ}
    (h0 : (deltaPsiTMM zs [a] rows' w off refl).1 = .ok [(some ψ₀, some Δ₀)]) :
    ∃ ψ Δ : ℕ → ℝ,
      (∀ᶠ N in atTop, (deltaPsiTMM zs [a] (rows N) w off refl).1 = .ok [(some (ψ N), some (Δ N))]) ∧
      Tendsto ψ atTop (𝓝 ψ₀) ∧
      Tendsto (fun N => Real.cos (rad (Δ N))) atTop (𝓝 (Real.cos (rad Δ₀))) ∧
      (refl = false → Tendsto (fun N => Real.sin (rad (Δ N))) atTop (𝓝 (Real.sin (rad Δ₀)))) ∧
      (refl = true ∨ (0 < Δ₀ - off ∧ Δ₀ - off < 360) → Tendsto Δ atTop (𝓝 Δ₀)) := by
  set s := n₀ * Real.sin (rad a) with hs
  have hs1 : |s| ≤ n₀ := by
    rw [hs, abs_mul, abs_of_pos hn]
    exact mul_le_of_le_one_right hn.le (Real.abs_sin_le_one _)
  have es : ((s : ℝ) : ℂ) = (n₀ : ℂ) * Complex.sin (rad a) := by rw [hs]; push_cast; rfl
  set G : (ℝ → ℂ) × (ℕ → List (ℝ × ℝ × ℝ)) × ℝ → OnePoint ℕ → ℂ := fun f =>
    withLimit (fun N => tabIndex z w (f.2.1 N)) (f.1 w) with hG
  set F : List ((OnePoint ℕ → ℂ) × (OnePoint ℕ → ℝ)) := films.map fun f => (G f, fun _ => f.2.2) with hF
  set B : OnePoint ℕ → ℂ := withLimit (fun N => tabIndex z w (tabb N)) (fb w) with hB
  have cG : ∀ f ∈ films, ContinuousAt (G f) OnePoint.infty := fun f h =>
    cont_withLimit ((hf f h).1.index hw.ne' z).2.1
  have cB : ContinuousAt B OnePoint.infty := cont_withLimit (hb.1.index hw.ne' z).2.1
  have iG : ∀ f ∈ films, ∀ x, 0 ≤ (G f x).im := fun f h x => by
    induction x using OnePoint.rec with
    | infty => exact (hf f h).1.passive w
    | coe N => exact ((hf f h).1.index hw.ne' z).2.2 N
  have iB : ∀ x, 0 ≤ (B x).im := fun x => by
    induction x using OnePoint.rec with
    | infty => exact hb.1.passive w
    | coe N => exact (hb.1.index hw.ne' z).2.2 N
  have good : ∀ f ∈ films, ∀ᶠ x in 𝓝 OnePoint.infty, 0 < (G f x).re ∧ Clear s (G f x) ∧
      2 * Real.pi * f.2.2 * (‖G f x‖ + n₀) / w < Real.sinh 35 := fun f h => by
    obtain ⟨-, h1, h2, -, h4⟩ := hf f h
    have e1 := (continuousAt_const (y := (0 : ℝ))).eventually_lt
      (Complex.continuous_re.continuousAt.comp (cG f h)) (by exact h1)
    have e2 := h2.eventually (cG f h) rfl
    have e3 := ((((cG f h).norm.add_const n₀).const_mul (2 * Real.pi * f.2.2)).div_const w).eventually_lt
      (continuousAt_const (y := Real.sinh 35)) h4
    filter_upwards [e1, e2, e3] with x i1 i2 i3 using ⟨i1, i2, i3⟩
  have goodB : ∀ᶠ x in 𝓝 OnePoint.infty, 0 < (B x).re :=
    (continuousAt_const (y := (0 : ℝ))).eventually_lt (Complex.continuous_re.continuousAt.comp cB) hb.2.1
  have all : ∀ᶠ x in 𝓝 OnePoint.infty, ∀ f ∈ films, 0 < (G f x).re ∧ Clear s (G f x) ∧
      2 * Real.pi * f.2.2 * (‖G f x‖ + n₀) / w < Real.sinh 35 := by
    have : ∀ l : List ((ℝ → ℂ) × (ℕ → List (ℝ × ℝ × ℝ)) × ℝ), (∀ f ∈ l, f ∈ films) →
        ∀ᶠ x in 𝓝 OnePoint.infty, ∀ f ∈ l, 0 < (G f x).re ∧ Clear s (G f x) ∧
          2 * Real.pi * f.2.2 * (‖G f x‖ + n₀) / w < Real.sinh 35 := by
      intro l hl
      induction l with
      | nil => simp
      | cons f l ih =>
        filter_upwards [good f (hl f (by simp)), ih fun g hg => hl g (by simp [hg])] with x i1 i2
        intro g hg
        rcases List.mem_cons.mp hg with rfl | hg
        · exact i1
        · exact i2 g hg
    exact this films fun f h => h
  have hV : Varies (fun _ => n₀) (fun _ => rad a) (fun _ => w) F B OnePoint.infty := by
    refine ⟨continuousAt_const, continuousAt_const, continuousAt_const, ?_, cB, ?_, ?_, ?_⟩
    · intro f h
      obtain ⟨g, hg, rfl⟩ := List.mem_map.mp h
      exact ⟨cG g hg, continuousAt_const⟩
    · filter_upwards [all, goodB] with x hx hbx
      have hmem : ∀ f ∈ (stackAt (fun _ => n₀) F B x).films, ∃ g ∈ films, f = (G g x, g.2.2) := by
        intro f h
        simp only [stackAt, hF, List.map_map, List.mem_map, Function.comp_apply] at h
        obtain ⟨g, hg, rfl⟩ := h
        exact ⟨g, hg, rfl⟩
      refine ⟨rfl, hn, ha, hw, ?_, ⟨hbx, iB x⟩, ?_, ?_⟩
      · intro f h
        obtain ⟨g, hg, rfl⟩ := hmem f h
        exact ⟨⟨(hx g hg).1, iG g hg x⟩, (hf g hg).2.2.2.1⟩
      · intro f h
        obtain ⟨g, hg, rfl⟩ := hmem f h
        have := (hx g hg).2.1.ne (hx g hg).1
        rw [es] at this
        exact this
      · intro f h m hm
        obtain ⟨g, hg, rfl⟩ := hmem f h
        have hne : G g x ≠ 0 := fun hc => by have := (hx g hg).1; rw [hc] at this; simp at this
        have hm' : IsFilm (s : ℂ) w (G g x, g.2.2) m := by rw [es]; exact hm
        refine (film_phase_le hne (hf g hg).2.2.2.1 hw hm').trans (le_trans ?_ (hx g hg).2.2.le)
        have := (hf g hg).2.2.2.1
        have hpi := Real.pi_pos
        gcongr
    · intro f h
      obtain ⟨g, hg, rfl⟩ := List.mem_map.mp h
      left
      rcases (hf g hg).2.2.1 with h | h
      · exact .inl h
      · exact .inr (.inl h)
    · left
      rcases hb.2.2 with h | h
      · exact .inl h
      · exact .inr (.inl h)
  set R : OnePoint ℕ → List Row := withLimit rows rows' with hR
  have hRs : ∀ x, RowsOf (R x) (stackAt (fun _ => n₀) F B x) := fun x => by
    induction x using OnePoint.rec with
    | infty =>
      have : stackAt (fun _ => n₀) F B OnePoint.infty = curveStack w n₀ films fb := by
        simp only [stackAt, curveStack, hF, List.map_map]; rfl
      rw [this]; exact hr'
    | coe N =>
      have : stackAt (fun _ => n₀) F B (N : OnePoint ℕ) = tabStack z w n₀ films tabb N := by
        simp only [stackAt, tabStack, hF, List.map_map]; rfl
      rw [this]; exact hr N
  obtain ⟨ψ, Δ, h1, h2, h3⟩ := C116_psi_delta_partial (a := fun _ => a) (wav := fun _ => w) (off := fun _ => off) hV
    continuousAt_const hRs zs refl (p0 := ψ₀) (d0 := some Δ₀) h0
  obtain ⟨D, k1, k2, k3, k4⟩ := h3 (by simp)
  have at0 := h1.self_of_nhds
  have kD := k1.self_of_nhds
  have e0 : (some ψ₀, some Δ₀) = (some (ψ OnePoint.infty), Δ OnePoint.infty) := by
    have := at0
    rw [show R OnePoint.infty = rows' from rfl, h0] at this
    simpa using this
  have e1 : ψ OnePoint.infty = ψ₀ := by simpa using (congrArg Prod.fst e0).symm
  have e2 : D OnePoint.infty = Δ₀ := by
    have := congrArg Prod.snd e0
    simp only [kD] at this
    exact (Option.some.inj this).symm
  refine ⟨fun N => ψ (N : OnePoint ℕ), fun N => D (N : OnePoint ℕ), ?_, ?_, ?_, ?_, ?_⟩
  · filter_upwards [eventually_coe h1, eventually_coe k1] with N i1 i2
    rw [show rows N = R (N : OnePoint ℕ) from rfl, i1, i2]
  · rw [← e1]; exact tendsto_coe h2
  · rw [← e2]; exact tendsto_coe k2
  · intro h; rw [← e2]; exact tendsto_coe (k3 h)
  · intro h; rw [← e2] at h ⊢; exact tendsto_coe (k4 h)

/-- Two rows around the wavelength that draw together. -/
noncomputable def twoRows (w : ℝ) (f : ℝ → ℂ) (N : ℕ) : List (ℝ × ℝ × ℝ) :=
  [(w - 1 / (N + 1), (f (w - 1 / (N + 1))).re, (f (w - 1 / (N + 1))).im),
    (w + 1 / (N + 1), (f (w + 1 / (N + 1))).re, (f (w + 1 / (N + 1))).im)]

theorem tabulated_twoRows {w : ℝ} {f : ℝ → ℂ} (hc : ContinuousAt f w) (hp : ∀ x, 0 ≤ (f x).im) :
    Tabulated w f (twoRows w f) := by
  have hpos : ∀ N : ℕ, (0 : ℝ) < 1 / (N + 1) := fun N => by positivity
  refine ⟨fun N => ?_, fun N r hr => ?_, hc, hp, fun N => 2 * (1 / (N + 1)), fun N => ?_, ?_⟩
  · simp only [Increasing, twoRows, List.pairwise_cons, List.mem_cons, List.not_mem_nil, or_false, forall_eq]
    refine ⟨by linarith [hpos N], by simp, by simp⟩
  · simp only [twoRows, List.mem_cons, List.not_mem_nil, or_false] at hr
    rcases hr with rfl | rfl <;> rfl
  · exact ⟨_, _, ⟨[], [], rfl⟩, by simp only; linarith [hpos N], by simp only; linarith [hpos N],
      by simp only; linarith [hpos N]⟩
  · simpa using (tendsto_one_div_add_atTop_nhds_zero_nat (𝕜 := ℝ)).const_mul 2

/-- A film whose index falls with the wavelength, tabulated at rows that draw together around 480 nm, on a backing of
index 15/7, at an angle of 36.9 degrees. -/
example (zs : List Layer → ℝ → ℝ → Bool) : ∃ (f fb : ℝ → ℂ) (tab tabb : ℕ → List (ℝ × ℝ × ℝ)) (ψ₀ Δ₀ : ℝ),
    |rad filmAoi| < Real.pi / 2 ∧
    (∀ g ∈ [(f, tab, (125 : ℝ))], Tabulated 480 g.1 g.2.1 ∧ 0 < (g.1 480).re ∧
      Clear (1 * Real.sin (rad filmAoi)) (g.1 480) ∧ 0 ≤ g.2.2 ∧
      2 * Real.pi * g.2.2 * (‖g.1 480‖ + 1) / 480 < Real.sinh 35) ∧
    (Tabulated 480 fb tabb ∧ 0 < (fb 480).re ∧ Clear (1 * Real.sin (rad filmAoi)) (fb 480)) ∧
    RowsOf filmRows (curveStack 480 1 [(f, tab, 125)] fb) ∧
    (deltaPsiTMM zs [filmAoi] filmRows 480 0 false).1 = .ok [(some ψ₀, some Δ₀)] ∧ (f 400).re ≠ (f 480).re := by
  obtain ⟨ψ, Δ, -, -, h⟩ := film_delta zs
  set f : ℝ → ℂ := fun x => ((39 / 25 * (480 / x) : ℝ) : ℂ) with hf
  set fb : ℝ → ℂ := fun _ => ((15 / 7 : ℝ) : ℂ) with hfb
  have e : f 480 = ((39 / 25 : ℝ) : ℂ) := by simp [hf]
  have hsin : Real.sin (rad filmAoi) = 3 / 5 := by
    rw [film_rad, Real.sin_arcsin] <;> norm_num
  refine ⟨f, fb, twoRows 480 f, twoRows 480 fb, ψ, Δ + 0, film_physical.angle, ?_, ?_, ?_, (h 0).1, ?_⟩
  · intro g hg
    rw [List.mem_singleton] at hg
    subst hg
    refine ⟨tabulated_twoRows ?_ ?_, ?_, ?_, by norm_num, ?_⟩
    · refine Complex.continuous_ofReal.continuousAt.comp (ContinuousAt.mul continuousAt_const ?_)
      exact continuousAt_const.div continuousAt_id (by norm_num)
    · intro x; simp only [hf, Complex.ofReal_im, le_refl]
    · simp only [e, Complex.ofReal_re]; norm_num
    · right
      simp only [e, Complex.ofReal_re, hsin]; norm_num [abs_of_pos]
    · simp only [e, Complex.norm_real, Real.norm_eq_abs]
      have h1 : Real.pi ≤ 4 := Real.pi_le_four
      have h2 : (35 : ℝ) < Real.sinh 35 := Real.self_lt_sinh_iff.mpr (by norm_num)
      rw [abs_of_pos (by norm_num)]
      linarith
  · refine ⟨tabulated_twoRows continuousAt_const ?_, ?_, ?_⟩
    · intro x; simp only [hfb, Complex.ofReal_im, le_refl]
    · simp only [hfb, Complex.ofReal_re]; norm_num
    · right
      simp only [hfb, Complex.ofReal_re, hsin]; norm_num [abs_of_pos]
  · have : curveStack 480 1 [(f, twoRows 480 f, 125)] fb = filmStack := by
      simp only [curveStack, filmStack, List.map_cons, List.map_nil, e, hfb]
    rw [this]; exact filmRows_of
  · simp only [hf, Complex.ofReal_re]; norm_num

end Verif.TMM
