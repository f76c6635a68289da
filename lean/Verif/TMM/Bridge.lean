import Verif.TMM.Lemmas

/-! From the list form of the code to the recursive form on media. -/

namespace Verif.TMM

open Complex (I)

theorem clip35_of_le {δ : ℂ} (h : δ.im ≤ 35) : clip35 δ = δ := by
  apply Complex.ext <;> simp [clip35, h]

/-- The calculation at one point; the clip is a no-op where not needed. -/
noncomputable def pointAmps (l0 : Layer) (ls : List Layer) (pt : ℂ × ℝ) : Amps :=
  let ths := angles (l0.n.getD 0) pt.1 ls
  let δs := (deltas (kzs pt.2 ths) ls).map (Option.map clip35)
  ⟨polResult .s ths δs, polResult .p ths δs⟩

theorem map_clip_of_not_any {l : List (Option ℂ)} (h : ∀ δ ∈ l, ¬ opaque35 δ) :
    l.map (Option.map clip35) = l := by
  conv_rhs => rw [← List.map_id l]
  apply List.map_congr_left
  intro δ hδ
  cases δ with
  | none => rfl
  | some δ =>
    have := h _ hδ
    simp only [opaque35, not_lt] at this
    simp [clip35_of_le this]

theorem cohTmm_eq (l0 l1 : Layer) (rest : List Layer) (pts : List (ℂ × ℝ)) [Decidable (∀ pt ∈ pts, assertOk l0.n pt.1)] :
    cohTmm (l0 :: l1 :: rest) pts =
      if ∀ pt ∈ pts, assertOk l0.n pt.1 then
        .ok (pts.map (pointAmps l0 (l0 :: l1 :: rest)))
      else .error .assertionError := by
  unfold cohTmm
  by_cases h : ∀ pt ∈ pts, assertOk l0.n pt.1
  · have h2 : ¬ (l0 :: l1 :: rest).length < 2 := by simp
    simp only [h2, if_false]
    rw [if_pos h, if_pos h]
    congr 1
    apply List.map_congr_left
    intro pt hpt
    simp only [pointAmps]
    split_ifs with h3
    · rfl
    · rw [map_clip_of_not_any]
      intro δ hδ ho
      exact h3 ⟨pt, hpt, δ, hδ, ho⟩
  · simp only []
    rw [if_neg h, if_neg h]

/-! ### Stacks -/

/-- The medium the code uses for a film. -/
noncomputable def codeMed (s : ℂ) (lam : ℝ) (f : ℂ × ℝ) : Medium :=
  ⟨f.1, root1m (s / f.1), clip35 (2 * Real.pi * f.1 * root1m (s / f.1) / lam * f.2)⟩

/-- `solve` on a list. -/
noncomputable def solveL (pol : Pol) (m0 : Medium) : List Medium → Option (ℂ × ℂ)
  | [] => none
  | m1 :: rest => solve pol m0 m1 rest

/-- What the code calculates for a stack. -/
noncomputable def solveSt (pol : Pol) (st : Stack) (θ : ℂ) (lam : ℝ) : Option (ℂ × ℂ) :=
  solveL pol ⟨st.front, root1m (Complex.sin θ), 0⟩
    ((st.films.map (codeMed (st.front * Complex.sin θ) lam)) ++
      [⟨st.back, root1m (st.front * Complex.sin θ / st.back), 0⟩])

/-- All indices non-zero. -/
def Stack.NZ (st : Stack) : Prop :=
  st.front ≠ 0 ∧ (∀ f ∈ st.films, f.1 ≠ 0) ∧ st.back ≠ 0

theorem dropLast_map_append_singleton {α β : Type*} (g : α → β) (l : List α) (b : α) :
    ((l ++ [b]).dropLast.map g) = l.map g := by simp

theorem pointAmps_stack (st : Stack) (h : st.NZ) (d0 db : Thick) (pt : ℂ × ℝ) (hl : pt.2 ≠ 0) :
    pointAmps ⟨some st.front, d0⟩ (st.layers d0 db) pt =
      ⟨solveSt .s st pt.1 pt.2, solveSt .p st pt.1 pt.2⟩ := by
  obtain ⟨θ, lam⟩ := pt
  obtain ⟨hf, hm, hb⟩ := h
  simp only at hl
  have hl' : (lam : ℂ) ≠ 0 := Complex.ofReal_ne_zero.mpr hl
  set s := st.front * Complex.sin θ with hs
  -- angle list
  have hang : angles st.front θ (st.layers d0 db) =
      some (st.front, npArcsin (s / st.front)) ::
        ((st.films.map fun f => some (f.1, npArcsin (s / f.1))) ++
          [some (st.back, npArcsin (s / st.back))]) := by
    simp only [angles, Stack.layers, List.map_cons, List.map_append, List.map_map, List.map_nil,
      List.cons_append, Option.bind_eq_bind, Option.bind_some, ← hs, cdiv_of_ne hf, cdiv_of_ne hb]
    congr 2
    apply List.map_congr_left
    intro f hfm
    simp [cdiv_of_ne (hm f hfm)]
  have hδ : (deltas (kzs lam (angles st.front θ (st.layers d0 db))) (st.layers d0 db)).map
      (Option.map clip35) = st.films.map fun f => some (codeMed s lam f).δ := by
    rw [hang]
    simp only [kzs, deltas, Stack.layers, List.map_cons, List.map_append, List.map_map,
      List.map_nil, List.tail_cons, List.cons_append, List.dropLast_concat]
    simp only [List.zipWith_map, List.zipWith_self, List.map_map]
    apply List.map_congr_left
    intro f hfm
    simp [cdiv_of_ne hl', phase, codeMed, cos_npArcsin]
  have hfr : s / st.front = Complex.sin θ := by rw [hs]; field_simp
  have key : ∀ pol, polResult pol (angles st.front θ (st.layers d0 db))
      (st.films.map fun f => some (codeMed s lam f).δ) = solveSt pol st θ lam := by
    intro pol
    have h0 : Agree (some (st.front, npArcsin (s / st.front)))
        ⟨st.front, root1m (Complex.sin θ), 0⟩ := ⟨_, rfl, by rw [cos_npArcsin, hfr]⟩
    have hbk : Agree (some (st.back, npArcsin (s / st.back)))
        ⟨st.back, root1m (s / st.back), 0⟩ := ⟨_, rfl, cos_npArcsin _⟩
    have hall : ∀ l : List (ℂ × ℝ), List.Forall₂ Agree
        ((l.map fun f => some (f.1, npArcsin (s / f.1))) ++
          [some (st.back, npArcsin (s / st.back))])
        ((l.map (codeMed s lam)) ++ [⟨st.back, root1m (s / st.back), 0⟩]) := by
      intro l
      induction l with
      | nil => exact .cons hbk .nil
      | cons f l ih => exact .cons ⟨_, rfl, cos_npArcsin _⟩ ih
    rw [hang, solveSt]
    have hallf := hall st.films
    have hdl := dropLast_map_append_singleton (fun m : Medium => some m.δ)
      (st.films.map (codeMed s lam)) ⟨st.back, root1m (s / st.back), 0⟩
    rw [List.map_map] at hdl
    generalize hX : ((st.films.map fun f => some (f.1, npArcsin (s / f.1))) ++
          [some (st.back, npArcsin (s / st.back))]) = X at hallf ⊢
    generalize hY : ((st.films.map (codeMed s lam)) ++
      [⟨st.back, root1m (s / st.back), 0⟩]) = Y at hallf hdl ⊢
    cases hallf with
    | nil => simp at hX
    | @cons x1 m1 xs rest h1 hr =>
      rw [solveL]
      refine polResult_eq_solve pol _ _ _ _ _ _ _ h0 h1 hr ?_
      rw [hdl]; rfl
  simp only [pointAmps, Option.getD_some]
  rw [hδ, key, key]

/-- `coh_tmm` on a stack of non-zero indices. -/
theorem cohTmm_stack (st : Stack) (h : st.NZ) (d0 db : Thick) (pts : List (ℂ × ℝ))
    (hl : ∀ pt ∈ pts, pt.2 ≠ 0) (ha : ∀ pt ∈ pts, assertOk (some st.front) pt.1) :
    cohTmm (st.layers d0 db) pts =
      .ok (pts.map fun pt => ⟨solveSt .s st pt.1 pt.2, solveSt .p st pt.1 pt.2⟩) := by
  have hex : ∃ l1 rest, st.layers d0 db = ⟨some st.front, d0⟩ :: l1 :: rest := by
    unfold Stack.layers
    cases hf : st.films with
    | nil => exact ⟨_, _, rfl⟩
    | cons f l => exact ⟨_, _, rfl⟩
  obtain ⟨l1, rest, hr⟩ := hex
  have hp := fun pt hpt => pointAmps_stack st h d0 db pt (hl pt hpt)
  rw [hr] at hp ⊢
  classical
  rw [cohTmm_eq, if_pos ha]
  congr 1
  apply List.map_congr_left
  exact hp

end Verif.TMM
