import Verif.Disp.PropsRoundIndex
import Verif.TMM.PropsRounded

/-! # C153: from materials to psi and delta in the arithmetic of a machine -/

namespace Verif.TMM

open Disp EMA

/-- The indices of the films as a machine computes them; thicknesses in Å.  structureSE.py:601-651. -/
noncomputable def machineFilms (M : Mach) (ema : String) (L w : ℝ) : List (Mixture × ℝ) → Option (List (ℂ × ℝ))
  | [] => some []
  | f :: l => do
    let n ← f.1.machine M ema L w
    let r ← machineFilms M ema L w l
    some ((n, f.2) :: r)

/-- `ReflectModelSE.model` at one point: the slab array from the materials, then `Delta_Psi_TMM`; both with rounding.
The first row has no absorption.  reflect_modelSE.py:228-294, 569-603. -/
noncomputable def roundedModel (M : Mach) (A : Arith) (front : Mixture) (films : List (Mixture × ℝ)) (back : Mixture)
    (ema : String) (L a w off : ℝ) (refl : Bool) : Except PyErr (Option ℝ × Option ℝ) :=
  match front.machine M ema L w, machineFilms M ema L w films, back.machine M ema L w with
  | some n₀, some fs, some nb => A.deltaPsi n₀.re fs nb a w off refl
  | _, _, _ => .ok (none, none)

theorem rel_index {z : SqrtOracle} (σ : ℂ → ℂ → ℝ → Bool × Bool) {ema : String} (he : Known ema) {L w : ℝ}
    (hL : GoodL ema L) {m : Mixture} (hm : m.All (Usable z ema w)) (hf : m.Fractions) :
    ∃ (N : ℂ) (C u₀ : ℝ), m.index z σ ema L w = some N ∧ N ≠ 0 ∧ 0 ≤ C ∧ 0 < u₀ ∧ ∀ (M : Mach) (u : ℝ), M.Within u → u ≤ u₀ →
      ∃ N', m.machine M ema L w = some N' ∧ ‖N' - N‖ ≤ C * u * ‖N‖ ∧ (m.All (Clear w) → N'.im = 0) := by
  obtain ⟨N, C, u₀, hN, h0, H⟩ := C153_index_partial σ he hL hm hf
  obtain ⟨N2, hN2, hp, -⟩ := Disp.near_index σ he hL hm hf
  obtain rfl : N = N2 := Option.some.inj (hN.symm.trans hN2)
  have hne : N ≠ 0 := by
    rintro rfl
    exact lt_irrefl _ hp.1
  have hpos := norm_pos_iff.mpr hne
  refine ⟨N, |C| / ‖N‖, u₀, hN, hne, by positivity, h0, fun M u hM hu => ?_⟩
  obtain ⟨N', h1, h2, h3⟩ := H M u hM hu
  refine ⟨N', h1, h2.trans ?_, h3⟩
  have : |C| / ‖N‖ * u * ‖N‖ = |C| * u := by field_simp
  rw [this]
  exact mul_le_mul_of_nonneg_right (le_abs_self C) hM.nonneg

/-- A film of the machine beside the film without rounding. -/
def Beside (c : ℝ) (f f' : ℂ × ℝ) : Prop :=
  f'.2 = f.2 ∧ ‖f'.1 - f.1‖ ≤ c * ‖f.1‖ ∧ (f.1.im = 0 → f'.1.im = 0)

theorem Beside.mono {c d : ℝ} (h : c ≤ d) {f f' : ℂ × ℝ} (hb : Beside c f f') : Beside d f f' :=
  ⟨hb.1, hb.2.1.trans (mul_le_mul_of_nonneg_right h (norm_nonneg _)), hb.2.2⟩

theorem films_beside {z : SqrtOracle} (σ : ℂ → ℂ → ℝ → Bool × Bool) {ema : String} (he : Known ema) {L w : ℝ}
    (hL : GoodL ema L) {films : List (Mixture × ℝ)} {fs : List (ℂ × ℝ)}
    (h : List.Forall₂ (fun f g => f.1.All (Usable z ema w) ∧ f.1.Fractions ∧ f.1.index z σ ema L w = some g.1 ∧ f.2 = g.2 ∧
      (g.1.im ≠ 0 ∨ f.1.All (Clear w))) films fs) :
    ∃ C u₀ : ℝ, 0 ≤ C ∧ 0 < u₀ ∧ ∀ (M : Mach) (u : ℝ), M.Within u → u ≤ u₀ →
      ∃ fs', machineFilms M ema L w films = some fs' ∧ List.Forall₂ (Beside (C * u)) fs fs' := by
  induction h with
  | nil => exact ⟨0, 1, le_rfl, one_pos, fun M u _ _ => ⟨[], rfl, .nil⟩⟩
  | @cons f g l l' hfg _ ih =>
    obtain ⟨hu, hf, hi, h2, hc⟩ := hfg
    obtain ⟨C₁, u₁, c1, p1, H1⟩ := ih
    obtain ⟨N, C₂, u₂, hN, -, c2, p2, H2⟩ := rel_index σ he hL hu hf
    obtain rfl : g.1 = N := Option.some.inj (hi.symm.trans hN)
    refine ⟨max C₁ C₂, min u₁ u₂, le_max_of_le_left c1, lt_min p1 p2, fun M u hM hle => ?_⟩
    obtain ⟨fs', e1, b1⟩ := H1 M u hM (hle.trans (min_le_left _ _))
    obtain ⟨N', e2, b2, r2⟩ := H2 M u hM (hle.trans (min_le_right _ _))
    refine ⟨(N', f.2) :: fs', by simp [machineFilms, e1, e2], .cons ⟨h2, ?_, fun h => ?_⟩ (b1.imp fun _ _ => ?_)⟩
    · exact b2.trans (mul_le_mul_of_nonneg_right (mul_le_mul_of_nonneg_right (le_max_right _ _) hM.nonneg) (norm_nonneg _))
    · exact r2 (hc.resolve_left (not_not.mpr h))
    · exact Beside.mono (mul_le_mul_of_nonneg_right (le_max_left _ _) hM.nonneg)

open Classical in
/-- The arithmetic whose array is made of what the machine found: reading `n₀`, `fs` and `nb` in it is reading
`m₀`, `fs'` and `mb` in the old one. -/
noncomputable def _root_.Verif.TMM.Arith.after (A : Arith) (n₀ m₀ : ℝ) (fs fs' : List (ℂ × ℝ)) (nb mb : ℂ) : Arith :=
  { A with
    front := fun n => if n = n₀ then A.front m₀ else A.front n
    index := fun i n => if fs[i]?.map Prod.fst = some n then A.index i ((fs'[i]?.map Prod.fst).getD n) else A.index i n
    back := fun n => if n = nb then A.back mb else A.back n }

theorem meds_congr {A B : Arith} (hf : ∀ s lam f, B.film s lam f = A.film s lam f) (ht : B.thick = A.thick) (s : ℂ) (lam : ℝ) {fs fs' : List (ℂ × ℝ)}
    (hl : List.Forall₂ (fun f f' => f'.2 = f.2) fs fs') (i : ℕ)
    (h : ∀ (j : ℕ) f f', fs[j]? = some f → fs'[j]? = some f' → B.index (i + j) f.1 = A.index (i + j) f'.1) :
    B.meds s lam i fs = A.meds s lam i fs' := by
  induction hl generalizing i with
  | nil => rfl
  | @cons f f' l l' h2 _ ih =>
    have e1 := h 0 f f' rfl rfl
    have e2 := ih (i + 1) fun j g g' hg hg' => by
      have := h (j + 1) g g' (by simpa using hg) (by simpa using hg')
      rwa [show i + 1 + j = i + (j + 1) by ring]
    rw [add_zero] at e1
    simp only [Arith.meds, e1, e2, hf, ht, h2]

theorem after_loop (A : Arith) (n₀ m₀ : ℝ) (fs fs' : List (ℂ × ℝ)) (nb mb : ℂ) (pol : Pol) : ∀ (l : List Arith.Med) (x : Arith.Med) (m : Mat),
    (A.after n₀ m₀ fs fs' nb mb).loop pol x l m = A.loop pol x l m
  | [], _, _ => rfl
  | y :: l, x, m => by
    simp only [Arith.loop, after_loop A n₀ m₀ fs fs' nb mb pol l]
    rfl

theorem after_solve (A : Arith) (n₀ m₀ : ℝ) (fs fs' : List (ℂ × ℝ)) (nb mb : ℂ) (pol : Pol) (x y : Arith.Med) (l : List Arith.Med) :
    (A.after n₀ m₀ fs fs' nb mb).solve pol x y l = A.solve pol x y l := by
  simp only [Arith.solve, after_loop]
  rfl

theorem after_deltaPsi (A : Arith) (n₀ m₀ : ℝ) {fs fs' : List (ℂ × ℝ)} (hl : List.Forall₂ (fun f f' => f'.2 = f.2) fs fs')
    (nb mb : ℂ) (a w off : ℝ) (refl : Bool) :
    (A.after n₀ m₀ fs fs' nb mb).deltaPsi n₀ fs nb a w off refl = A.deltaPsi m₀ fs' mb a w off refl := by
  have h1 : (A.after n₀ m₀ fs fs' nb mb).front n₀ = A.front m₀ := if_pos rfl
  have h2 : (A.after n₀ m₀ fs fs' nb mb).back nb = A.back mb := if_pos rfl
  have h3 : ∀ s lam, (A.after n₀ m₀ fs fs' nb mb).meds s lam 0 fs = A.meds s lam 0 fs' := fun s lam => by
    refine meds_congr (A := A) (B := A.after n₀ m₀ fs fs' nb mb) (fun _ _ _ => rfl) rfl s lam hl 0 fun j f f' hj hj' => ?_
    rw [zero_add]
    simp only [Arith.after, hj, hj', Option.map_some, Option.getD_some, if_true]
  have h4 : ∀ pol s lam, (A.after n₀ m₀ fs fs' nb mb).polResult pol s lam n₀ fs nb = A.polResult pol s lam m₀ fs' mb :=
    fun pol s lam => by
      simp only [Arith.polResult, h1, h2, h3, after_solve]
      rfl
  simp only [Arith.deltaPsi, h1, h4]
  rfl

theorem after_within {A : Arith} {u : ℝ} (hA : A.Within u) (hu : u ≤ 1) {C : ℝ} (hC : 0 ≤ C) {n₀ m₀ : ℝ} {fs fs' : List (ℂ × ℝ)}
    {nb mb : ℂ} (h0 : |m₀ - n₀| ≤ C * u * |n₀|) (hl : List.Forall₂ (Beside (C * u)) fs fs')
    (hb : ‖mb - nb‖ ≤ C * u * ‖nb‖) (hbr : nb.im = 0 → mb.im = 0) :
    (A.after n₀ m₀ fs fs' nb mb).Within ((1 + 2 * C) * u) := by
  have u0 := hA.nonneg
  have hle : u ≤ (1 + 2 * C) * u := by nlinarith
  have key : ∀ {x y n : ℂ}, ‖x - y‖ ≤ u * ‖y‖ → ‖y - n‖ ≤ C * u * ‖n‖ → ‖x - n‖ ≤ (1 + 2 * C) * u * ‖n‖ := by
    intro x y n h1 h2
    have h3 : ‖x - n‖ ≤ ‖x - y‖ + ‖y - n‖ := norm_sub_le_norm_sub_add_norm_sub x y n
    have h4 : ‖y‖ ≤ ‖y - n‖ + ‖n‖ := by
      calc ‖y‖ = ‖(y - n) + n‖ := by rw [sub_add_cancel]
        _ ≤ _ := norm_add_le _ _
    have h5 : u * ‖y‖ ≤ u * (C * u * ‖n‖ + ‖n‖) := mul_le_mul_of_nonneg_left (by linarith) u0
    have h6 : u * (C * u * ‖n‖) ≤ 1 * (C * u * ‖n‖) := mul_le_mul_of_nonneg_right hu (by positivity)
    nlinarith
  have widen : ∀ {x c : ℝ}, x ≤ u * c → 0 ≤ c → x ≤ (1 + 2 * C) * u * c := fun h hc =>
    h.trans (mul_le_mul_of_nonneg_right hle hc)
  have get : ∀ (i : ℕ) (n : ℂ), fs[i]?.map Prod.fst = some n → ∃ f', fs'[i]? = some f' ∧
      ‖f'.1 - n‖ ≤ C * u * ‖n‖ ∧ (n.im = 0 → f'.1.im = 0) := by
    intro i n h
    clear h0 hb
    induction hl generalizing i with
    | nil => simp at h
    | @cons f f' l l' hff _ ih =>
      cases i with
      | zero =>
        obtain rfl : f.1 = n := by simpa using h
        exact ⟨f', rfl, hff.2⟩
      | succ i => exact ih i (by simpa using h)
  constructor
  case nonneg => positivity
  case angle =>
    intro x hx
    obtain ⟨σ, h⟩ := hA.angle x hx
    exact ⟨σ, widen h (abs_nonneg _)⟩
  case pi => exact widen hA.pi Real.pi_pos.le
  case front =>
    intro n
    by_cases h : n = n₀
    · subst h
      have h1 := hA.front m₀
      have h2 := key (x := (A.front m₀ : ℂ)) (y := (m₀ : ℂ)) (n := (n : ℂ))
      simp only [← Complex.ofReal_sub, Complex.norm_real, Real.norm_eq_abs] at h2
      simpa only [Arith.after, if_pos] using h2 h1 h0
    · simpa only [Arith.after, if_neg h] using widen (hA.front n) (abs_nonneg _)
  case index =>
    intro i n
    by_cases h : fs[i]?.map Prod.fst = some n
    · obtain ⟨f', hf', hd, -⟩ := get i n h
      have := key (hA.index i f'.1) hd
      simpa only [Arith.after, if_pos h, hf', Option.map_some, Option.getD_some] using this
    · simpa only [Arith.after, if_neg h] using widen (hA.index i n) (norm_nonneg _)
  case index_real =>
    intro i n
    by_cases h : fs[i]?.map Prod.fst = some (n : ℂ)
    · obtain ⟨f', hf', -, hr⟩ := get i n h
      have := hA.index_real i f'.1.re
      rw [← ofReal_of_im (hr (Complex.ofReal_im n))] at this
      simpa only [Arith.after, if_pos h, hf', Option.map_some, Option.getD_some] using this
    · simpa only [Arith.after, if_neg h] using hA.index_real i n
  case back =>
    intro n
    by_cases h : n = nb
    · subst h
      simpa only [Arith.after, if_pos] using key (hA.back mb) hb
    · simpa only [Arith.after, if_neg h] using widen (hA.back n) (norm_nonneg _)
  case back_real =>
    intro n
    by_cases h : (n : ℂ) = nb
    · have := hA.back_real mb.re
      rw [← ofReal_of_im (hbr (by rw [← h, Complex.ofReal_im]))] at this
      simpa only [Arith.after, if_pos h] using this
    · simpa only [Arith.after, if_neg h] using hA.back_real n
  case mul_real => exact hA.mul_real
  case div_real => exact hA.div_real
  case sin_real => exact hA.sin_real
  case add => exact fun x y => widen (hA.add x y) (norm_nonneg _)
  case sub => exact fun x y => widen (hA.sub x y) (norm_nonneg _)
  case mul => exact fun x y => widen (hA.mul x y) (norm_nonneg _)
  case div => exact fun x y h => widen (hA.div x y h) (norm_nonneg _)
  case sin => exact fun x => widen (hA.sin x) (norm_nonneg _)
  case cos => exact fun x => widen (hA.cos x) (norm_nonneg _)
  case exp => exact fun x => widen (hA.exp x) (norm_nonneg _)
  case arcsin => exact fun x => widen (hA.arcsin x) (norm_nonneg _)
  case abs => exact fun x => widen (hA.abs x) (norm_nonneg _)
  case arctan => exact fun x => widen (hA.arctan x) (abs_nonneg _)
  case radd => exact fun x y => widen (hA.radd x y) (abs_nonneg _)
  case rsub => exact fun x y => widen (hA.rsub x y) (abs_nonneg _)
  case rmul => exact fun x y => widen (hA.rmul x y) (abs_nonneg _)
  case rdiv => exact fun x y h => widen (hA.rdiv x y h) (abs_nonneg _)
  case thick => exact fun i d => widen (hA.thick i d) (abs_nonneg _)

/-- C153. From the parameters of the materials to psi and delta: if the index of no layer is lost in rounding
(`C153_index_partial`) and no medium without absorption is at its critical angle, then rounding, in the indices and
in `Delta_Psi_TMM`, costs no more than a multiple of the roundoff.  Layers whose index has no imaginary part are
to be made of materials without absorption; the first row is. -/
theorem C153_psi_delta_partial {z : SqrtOracle} (σ : ℂ → ℂ → ℝ → Bool × Bool) {ema : String} (he : Known ema) {L w : ℝ}
    (hL : GoodL ema L) (hw : w ≠ 0) {front back : Mixture} {films : List (Mixture × ℝ)} {n₀ : ℝ} {fs : List (ℂ × ℝ)} {nb : ℂ}
    (h0 : front.All (Usable z ema w) ∧ front.Fractions ∧ front.index z σ ema L w = some (n₀ : ℂ) ∧ front.All (Clear w))
    (hf : List.Forall₂ (fun f g => f.1.All (Usable z ema w) ∧ f.1.Fractions ∧ f.1.index z σ ema L w = some g.1 ∧ f.2 = g.2 ∧
      (g.1.im ≠ 0 ∨ f.1.All (Clear w))) films fs)
    (hb : back.All (Usable z ema w) ∧ back.Fractions ∧ back.index z σ ema L w = some nb ∧ (nb.im ≠ 0 ∨ back.All (Clear w)))
    {a off : ℝ} {refl : Bool} {rows : List Row} (hr : RowsOf rows ⟨(n₀ : ℂ), fs.map fun f => (f.1, f.2 / 10), nb⟩)
    (hc : ∀ n ∈ (n₀ : ℂ) :: fs.map Prod.fst ++ [nb], OffCritical (n₀ * Real.sin (rad a)) n) {ψ Δ : ℝ}
    {zs : List Layer → ℝ → ℝ → Bool} (h : (deltaPsiTMM zs [a] rows w off refl).1 = .ok [(some ψ, some Δ)]) :
    ∃ C u₀ : ℝ, 0 < u₀ ∧ ∀ (M : Mach) (A : Arith) (u : ℝ), M.Within u → A.Within u → u ≤ u₀ →
      ∃ (ψ' Δ' : ℝ) (k : ℤ), roundedModel M A front films back ema L a w off refl = .ok (some ψ', some Δ') ∧
        |ψ' - ψ| ≤ C * u ∧ |Δ' - Δ + 360 * k| ≤ C * u ∧ (refl → k = 0) := by
  obtain ⟨f1, f2, f3, f4⟩ := h0
  obtain ⟨b1, b2, b3, b4⟩ := hb
  obtain ⟨N, C₁, u₁, hN, hne, c1, p1, H1⟩ := rel_index σ he hL f1 f2
  obtain rfl : (n₀ : ℂ) = N := Option.some.inj (f3.symm.trans hN)
  obtain ⟨N, C₂, u₂, hN', hne', c2, p2, H2⟩ := rel_index σ he hL b1 b2
  obtain rfl : nb = N := Option.some.inj (b3.symm.trans hN')
  obtain ⟨C₃, u₃, c3, p3, H3⟩ := films_beside σ he hL hf
  have hfs : ∀ f ∈ fs, f.1 ≠ 0 := by
    clear hr hc h H3
    induction hf with
    | nil => exact fun f hf => absurd hf List.not_mem_nil
    | @cons f g l l' hfg hl ih =>
      intro x hx
      rcases List.mem_cons.mp hx with rfl | hx
      · obtain ⟨N, _, _, hN, hne, -⟩ := rel_index σ he hL hfg.1 hfg.2.1
        obtain rfl : x.1 = N := Option.some.inj (hfg.2.2.1.symm.trans hN)
        exact hne
      · exact ih x hx
  obtain ⟨C₀, u₀, p0, H0⟩ := C148_psi_delta_partial (by simpa using hne) hfs hne' hw hr hc h
  obtain ⟨C, hCd⟩ : ∃ C, C = C₁ + C₂ + C₃ := ⟨_, rfl⟩
  have hC : 0 ≤ C := by linarith
  refine ⟨C₀ * (1 + 2 * C), min (min u₁ u₂) (min u₃ (min 1 (u₀ / (1 + 2 * C)))), ?_, fun M A u hM hA hu => ?_⟩
  · have : 0 < u₀ / (1 + 2 * C) := by positivity
    exact lt_min (lt_min p1 p2) (lt_min p3 (lt_min one_pos this))
  · simp only [le_min_iff] at hu
    obtain ⟨⟨l1, l2⟩, l3, l4, l5⟩ := hu
    have up := hM.nonneg
    obtain ⟨m₀, e1, d1, r1⟩ := H1 M u hM l1
    obtain ⟨mb, e2, d2, r2⟩ := H2 M u hM l2
    obtain ⟨fs', e3, d3⟩ := H3 M u hM l3
    have hm₀ := ofReal_of_im (r1 f4)
    have hle : ∀ {c x : ℝ}, c ≤ C → 0 ≤ x → c * u * x ≤ C * u * x := fun hc hx =>
      mul_le_mul_of_nonneg_right (mul_le_mul_of_nonneg_right hc up) hx
    have hW := after_within hA l4 hC (n₀ := n₀) (m₀ := m₀.re) (fs := fs) (fs' := fs') (nb := nb) (mb := mb)
      (by
        rw [hm₀, ← Complex.ofReal_sub, Complex.norm_real, Complex.norm_real] at d1
        exact d1.trans (hle (by linarith) (abs_nonneg _)))
      (d3.imp fun _ _ => Beside.mono (mul_le_mul_of_nonneg_right (by linarith) up))
      (d2.trans (hle (by linarith) (norm_nonneg _))) (fun h => r2 (b4.resolve_left (not_not.mpr h)))
    have hl5 : (1 + 2 * C) * u ≤ u₀ := by
      rw [le_div_iff₀ (by positivity)] at l5
      linarith
    obtain ⟨ψ', Δ', k, g1, g2, g3, g4, -⟩ := H0 _ _ hW hl5
    rw [after_deltaPsi A n₀ m₀.re (d3.imp fun _ _ h => h.1)] at g1
    refine ⟨ψ', Δ', k, ?_, by linarith, by linarith, g4⟩
    simp only [roundedModel, e1, e2, e3, g1]

/-- The quarter wave film of `ExFilm`, now of a Cauchy material, in arithmetics that round. -/
example (z : SqrtOracle) : ∃ C u₀ ψ Δ : ℝ, 0 < u₀ ∧ ∀ u, 0 ≤ u → u ≤ u₀ → ∃ ψ' Δ' : ℝ,
    roundedModel (.up u) (.scaled u) (.pure (.const 658 1 0)) [(.pure (.cauchy 658 (73 / 50) (72 / 3125) 0), 1250)]
      (.pure (.const 658 (15 / 7) 0)) "linear" (1 / 3) filmAoi 480 0 true = .ok (some ψ', some Δ') ∧
      |ψ' - ψ| ≤ C * u ∧ |Δ' - Δ| ≤ C * u := by
  obtain ⟨ψ, Δ, -, -, h⟩ := film_delta fun _ _ _ => false
  have hr : RowsOf filmRows ⟨((1 : ℝ) : ℂ), [((((39 / 25 : ℝ) : ℂ), (1250 : ℝ)))].map
      (fun f => (f.1, f.2 / 10)), ((15 / 7 : ℝ) : ℂ)⟩ := by
    have e : [((((39 / 25 : ℝ) : ℂ), (1250 : ℝ)))].map (fun f => (f.1, f.2 / 10)) =
        [(((39 / 25 : ℝ) : ℂ), 125)] := by simp; norm_num
    rw [e]
    exact filmRows_of
  have hsin : (1 : ℝ) * Real.sin (rad filmAoi) = 3 / 5 := by
    rw [film_rad, Real.sin_arcsin] <;> norm_num
  have hcon : ∀ n : ℝ, 0 < n → (Mixture.pure (.const 658 n 0)).All (Usable z "linear" 480) ∧
      (Mixture.pure (.const 658 n 0)).Fractions ∧
      (Mixture.pure (.const 658 n 0)).index z (fun _ _ _ => (true, true)) "linear" (1 / 3) 480 = some (n : ℂ) ∧
      (Mixture.pure (.const 658 n 0)).All (Clear 480) := fun n hn =>
    ⟨⟨trivial, ⟨n, 0⟩, rfl, ⟨hn, le_rfl⟩, fun h => by simp at h⟩, trivial, rfl, rfl⟩
  have hcau : (Scat.cauchy 658 (73 / 50) (72 / 3125) 0).at z 480 = some ((39 / 25 : ℝ) : ℂ) := by
    simp only [Scat.at, rdiv]
    norm_num
  have hb := hcon (15 / 7) (by norm_num)
  obtain ⟨C, u₀, h0, H⟩ := C153_psi_delta_partial (z := z) (fun _ _ _ => (true, true)) (ema := "linear") (Or.inl rfl) (L := 1 / 3)
    ⟨by norm_num, by norm_num, fun h => by simp at h⟩ (w := 480) (by norm_num) (n₀ := 1) (hcon 1 one_pos)
    (films := [(.pure (.cauchy 658 (73 / 50) (72 / 3125) 0), 1250)]) (fs := [(((39 / 25 : ℝ) : ℂ), 1250)])
    (.cons ⟨⟨trivial, _, hcau, ⟨by rw [Complex.ofReal_re]; norm_num, by rw [Complex.ofReal_im]⟩, fun h => by simp at h⟩,
      trivial, hcau, rfl, Or.inr trivial⟩ .nil) ⟨hb.1, hb.2.1, hb.2.2.1, Or.inr hb.2.2.2⟩ hr (by
      intro n hn
      rw [hsin]
      right
      simp only [List.map_cons, List.map_nil, List.cons_append, List.nil_append, List.mem_cons,
        List.not_mem_nil, or_false] at hn
      rcases hn with rfl | rfl | rfl <;> simp only [Complex.ofReal_re] <;>
        rw [abs_of_pos (by norm_num), abs_of_pos (by norm_num)] <;> norm_num) (h 0).2
  refine ⟨C, u₀, ψ, 360 - Δ, h0, fun u hu hle => ?_⟩
  obtain ⟨ψ', Δ', k, h1, h2, h3, h4⟩ := H _ _ u (Mach.up_within hu) (scaled_within hu) hle
  refine ⟨ψ', Δ', h1, h2, ?_⟩
  rw [h4 rfl] at h3
  simpa using h3

end Verif.TMM
