import Verif.TMM.PropsMaxwell

/-! From slab arrays to stacks, and from amplitudes to (psi, delta). -/

namespace Verif.TMM

open Complex (I)

theorem infEnds_eq (a b : Thick) (l : List Thick) :
    infEnds (a :: l ++ [b]) = .inf :: l ++ [.inf] := by
  simp [infEnds]

theorem toLayers_rows {rows : List Row} {st : Stack} (h : RowsOf rows st) :
    toLayers (zeroFrontK rows) = st.layers .inf .inf := by
  obtain ⟨r0, mid, rb, n0, rfl, h0, hf, hm, hb⟩ := h
  simp only [List.cons_append, zeroFrontK, toLayers, List.map_cons, List.map_append, List.map_nil]
  have := infEnds_eq (.fin (r0.thick / 10)) (.fin (rb.thick / 10))
    (mid.map fun r => .fin (r.thick / 10))
  simp only [List.cons_append] at this
  rw [this]
  simp only [h0, Option.map_some, List.zipWith_cons_cons, Stack.layers, List.cons_append, ← hf, hb]
  clear this
  congr 1
  generalize st.films = fs at hm
  induction hm with
  | nil => simp
  | @cons r f mid fs hr _ ih =>
    simp only [List.map_cons, List.cons_append, List.zipWith_cons_cons]
    rw [ih, hr.1, hr.2]
    congr 3
    ring

theorem rowsOf_ne_nil {rows : List Row} {st : Stack} (h : RowsOf rows st) : rows ≠ [] := by
  obtain ⟨r0, mid, rb, n0, rfl, _⟩ := h; simp

theorem zipWith_map_self {α β γ : Type*} (f : α → β → γ) (g : α → β) (l : List α) :
    List.zipWith f l (l.map g) = l.map fun a => f a (g a) := by
  induction l with
  | nil => rfl
  | cons a l ih => simp [ih]

theorem rowsOf_front {rows : List Row} {st : Stack} (h : RowsOf rows st) :
    ∃ n₀ : ℝ, st.front = (n₀ : ℂ) := by
  obtain ⟨r0, mid, rb, n0, rfl, _, h, _⟩ := h; exact ⟨_, h⟩

/-- `Delta_Psi_TMM` on an array describing a stack. -/
theorem deltaPsi_rows {rows : List Row} {st : Stack} (h : RowsOf rows st) (hnz : st.NZ)
    {wav : ℝ} (hw : wav ≠ 0) (zs : List Layer → ℝ → ℝ → Bool) (aoi : List ℝ) (off : ℝ)
    (refl : Bool) :
    deltaPsiTMM zs aoi rows wav off refl =
      (.ok (aoi.map fun a => psiDelta (zs (st.layers .inf .inf) a wav) refl off
        ⟨solveSt .s st (rad a) wav, solveSt .p st (rad a) wav⟩), zeroFrontK rows) := by
  obtain ⟨n₀, hf⟩ := rowsOf_front h
  have hl := toLayers_rows h
  cases rows with
  | nil => exact absurd rfl (rowsOf_ne_nil h)
  | cons r0 rest =>
    simp only [deltaPsiTMM]
    rw [hl, cohTmm_stack st hnz]
    · simp only [Except.map, List.map_map, Prod.mk.injEq, Except.ok.injEq, and_true]
      rw [zipWith_map_self]
      rfl
    · intro pt hpt
      obtain ⟨a, _, rfl⟩ := List.mem_map.mp hpt
      exact hw
    · intro pt hpt
      obtain ⟨a, _, rfl⟩ := List.mem_map.mp hpt
      rw [hf]; exact assertOk_real _ _

/-! ### psi and delta depend on the ratio of amplitudes -/

theorem npAngle_same (σ σ' : Bool) (z : ℂ) :
    npAngle σ z = npAngle σ' z ∨ |npAngle σ z - npAngle σ' z| = 2 * Real.pi := by
  unfold npAngle
  have hp := Real.pi_pos
  by_cases h : z.im = 0 ∧ z.re < 0
  · rw [if_pos h, if_pos h]
    cases σ <;> cases σ'
    · left; rfl
    · right
      simp only [Bool.false_eq_true, if_false, if_true]
      rw [abs_of_neg (by linarith)]; ring
    · right
      simp only [Bool.false_eq_true, if_false, if_true]
      rw [abs_of_pos (by linarith)]; ring
    · left; rfl
  · left; rw [if_neg h, if_neg h]

theorem npAngle_mem (σ : Bool) (z : ℂ) : -Real.pi ≤ npAngle σ z ∧ npAngle σ z ≤ Real.pi := by
  unfold npAngle
  have hp := Real.pi_pos
  split_ifs
  · constructor <;> linarith
  · constructor <;> linarith
  · exact ⟨(Complex.neg_pi_lt_arg z).le, Complex.arg_le_pi z⟩

theorem psiRad_scale {k rs rp : ℂ} (hk : k ≠ 0) : psiRad (k * rs) (k * rp) = psiRad rs rp := by
  unfold psiRad
  by_cases h : rs = 0
  · simp [h, hk]
  · have : k * rp / (k * rs) = rp / rs := by field_simp
    simp [h, hk, this]

theorem cdiv_scale {k a b : ℂ} (hk : k ≠ 0) : cdiv (k * a) (k * b) = cdiv a b := by
  by_cases h : b = 0
  · simp [h, cdiv_zero]
  · rw [cdiv_of_ne h, cdiv_of_ne (mul_ne_zero hk h)]; congr 1; field_simp

theorem deltaRad_scale {σ : Bool} {k rs rp : ℂ} (hk : k ≠ 0) :
    deltaRad σ (k * rs) (k * rp) = deltaRad σ rs rp := by
  unfold deltaRad
  rw [← mul_neg, cdiv_scale hk]

theorem deltaDeg_same (σ σ' refl : Bool) (off : ℝ) (rs rp : ℂ) :
    SameAngle ((deltaRad σ rs rp).map fun x => reflectRad refl x * (180 / Real.pi) + off)
      ((deltaRad σ' rs rp).map fun x => reflectRad refl x * (180 / Real.pi) + off) := by
  unfold deltaRad
  cases h1 : cdiv (-rp) rs with
  | none => left; rfl
  | some x =>
    cases h2 : cdiv 1 x with
    | none => left; simp only [Option.bind_eq_bind, Option.bind_some, h2]; rfl
    | some y =>
      simp only [Option.bind_eq_bind, Option.bind_some, h2, Option.map_some]
      have hp := Real.pi_pos
      rcases npAngle_same σ σ' y with h | h
      · left; rw [h]
      · have m1 := npAngle_mem σ y
        have m2 := npAngle_mem σ' y
        -- one of them is π and the other -π
        have : (npAngle σ y = Real.pi ∧ npAngle σ' y = -Real.pi) ∨
            (npAngle σ y = -Real.pi ∧ npAngle σ' y = Real.pi) := by
          rcases abs_cases (npAngle σ y - npAngle σ' y) with ⟨h3, _⟩ | ⟨h3, _⟩
          · left; constructor <;> linarith
          · right; constructor <;> linarith
        have hr0 : ∀ b, reflectRad b (-Real.pi + Real.pi) = 0 := by
          intro b
          have : (-Real.pi + Real.pi) = 0 := by ring
          rw [this, reflectRad]; split_ifs <;> linarith
        cases refl
        · right
          refine ⟨_, _, rfl, rfl, ?_⟩
          have e : (180 / Real.pi) * Real.pi = 180 := by field_simp
          rcases this with ⟨a, b⟩ | ⟨a, b⟩ <;> rw [a, b] <;>
            simp only [reflectRad, Bool.false_eq_true, if_false]
          · have : (Real.pi + Real.pi) * (180 / Real.pi) + off -
              ((-Real.pi + Real.pi) * (180 / Real.pi) + off) = 360 := by
              linear_combination 2 * e
            rw [this]; norm_num
          · have : (-Real.pi + Real.pi) * (180 / Real.pi) + off -
              ((Real.pi + Real.pi) * (180 / Real.pi) + off) = -360 := by
              linear_combination (-2) * e
            rw [this]; norm_num
        · left
          have hr1 : reflectRad true (Real.pi + Real.pi) = 0 := by
            simp only [reflectRad, if_true]
            rw [if_pos (by linarith)]; ring
          rcases this with ⟨a, b⟩ | ⟨a, b⟩ <;> rw [a, b, hr0, hr1]

/-- If both pairs of amplitudes differ by a common factor, (psi, delta) agree. -/
theorem psiDelta_scale {σ σ' refl : Bool} {off : ℝ} {k rs rp ts tp ts' tp' : ℂ} (hk : k ≠ 0) :
    SamePD (psiDelta σ refl off ⟨some (k * rs, ts), some (k * rp, tp)⟩)
      (psiDelta σ' refl off ⟨some (rs, ts'), some (rp, tp')⟩) := by
  simp only [psiDelta, psiRad_scale hk, deltaRad_scale hk]
  exact ⟨rfl, deltaDeg_same _ _ _ _ _ _⟩

theorem psiDelta_same {σ σ' refl : Bool} {off : ℝ} {rs rp ts tp ts' tp' : ℂ} :
    SamePD (psiDelta σ refl off ⟨some (rs, ts), some (rp, tp)⟩)
      (psiDelta σ' refl off ⟨some (rs, ts'), some (rp, tp')⟩) := by
  simpa using psiDelta_scale (σ := σ) (σ' := σ') (refl := refl) (off := off) (rs := rs) (rp := rp)
    (ts := ts) (tp := tp) (ts' := ts') (tp' := tp') one_ne_zero

end Verif.TMM
