import Verif.TMM.Branch

/-! Transformations of field solutions. -/

namespace Verif.TMM

open Complex (I)

theorem fields_cons {pol : Pol} {m m' : Medium} {v w t : ℂ} {L : List Medium} (hL : L ≠ []) :
    Fields pol m v w (m' :: L) t ↔ ∃ v' w', Tangential pol m m' v w v' w' ∧
      Fields pol m' (v' * Complex.exp (I * m'.δ)) (w' * Complex.exp (-(I * m'.δ))) L t := by
  cases L with
  | nil => exact absurd rfl hL
  | cons b rest => rfl

/-- Replacing the tail of a stack. -/
theorem fields_context {pol : Pol} {L L' : List Medium} {t t' : ℂ} (hL : L ≠ []) (hL' : L' ≠ [])
    (h : ∀ m v w, Fields pol m v w L t → Fields pol m v w L' t') (pre : List Medium) :
    ∀ m v w, Fields pol m v w (pre ++ L) t → Fields pol m v w (pre ++ L') t' := by
  induction pre with
  | nil => exact h
  | cons m' pre ih =>
    intro m v w hf
    rw [List.cons_append, fields_cons (by simp [hL])] at hf
    rw [List.cons_append, fields_cons (by simp [hL'])]
    obtain ⟨v', w', ht, hf⟩ := hf
    exact ⟨v', w', ht, ih _ _ _ hf⟩

theorem tangential_trans {pol : Pol} {m m' m'' : Medium} {v w v' w' v'' w'' : ℂ}
    (h : Tangential pol m m' v w v' w') (h' : Tangential pol m' m'' v' w' v'' w'') :
    Tangential pol m m'' v w v'' w'' := by
  cases pol <;> exact ⟨h.1.trans h'.1, h.2.trans h'.2⟩

/-- A layer of zero phase thickness can be removed. -/
theorem fields_remove_zero {pol : Pol} {z : Medium} (hz : z.δ = 0) {L : List Medium}
    (hL : L ≠ []) {t : ℂ} (m : Medium) (v w : ℂ) :
    Fields pol m v w (z :: L) t → Fields pol m v w L t := by
  rw [fields_cons hL]
  rintro ⟨v', w', ht, hf⟩
  simp only [hz, mul_zero, Complex.exp_zero, neg_zero, mul_one] at hf
  cases L with
  | nil => exact absurd rfl hL
  | cons b rest =>
    cases rest with
    | nil => exact tangential_trans ht hf
    | cons b' rest =>
      obtain ⟨v'', w'', ht', hf⟩ := hf
      exact ⟨v'', w'', tangential_trans ht ht', hf⟩

theorem tangential_same {pol : Pol} {m m' : Medium} (hn : m.n = m'.n) (hc : m.c = m'.c)
    (hne : m.n * m.c ≠ 0) {v w v' w' : ℂ} (h : Tangential pol m m' v w v' w') :
    v = v' ∧ w = w' := by
  have h1 : m.n ≠ 0 := left_ne_zero_of_mul hne
  have h2 : m.c ≠ 0 := right_ne_zero_of_mul hne
  have key : v + w = v' + w' ∧ v - w = v' - w' := by
    cases pol
    · refine ⟨h.1, ?_⟩
      have := h.2
      rw [← hn, ← hc] at this
      exact mul_left_cancel₀ hne this
    · obtain ⟨ha, hb⟩ := h
      rw [← hn] at ha; rw [← hc] at hb
      exact ⟨mul_left_cancel₀ h1 ha, mul_left_cancel₀ h2 hb⟩
  constructor
  · linear_combination (key.1 + key.2) / 2
  · linear_combination (key.1 - key.2) / 2

theorem tangential_congr_left {pol : Pol} {m m₂ m' : Medium} (hn : m.n = m₂.n) (hc : m.c = m₂.c)
    {v w v' w' : ℂ} : Tangential pol m m' v w v' w' ↔ Tangential pol m₂ m' v w v' w' := by
  cases pol <;> simp [Tangential, hn, hc]

theorem tangential_congr_right {pol : Pol} {m m' m₂ : Medium} (hn : m'.n = m₂.n)
    (hc : m'.c = m₂.c) {v w v' w' : ℂ} :
    Tangential pol m m' v w v' w' ↔ Tangential pol m m₂ v w v' w' := by
  cases pol <;> simp [Tangential, hn, hc]

theorem fields_congr_left {pol : Pol} {m m₂ : Medium} (hn : m.n = m₂.n) (hc : m.c = m₂.c)
    {v w t : ℂ} {L : List Medium} : Fields pol m v w L t ↔ Fields pol m₂ v w L t := by
  rcases L with _ | ⟨b, _ | ⟨b', rest⟩⟩
  · rfl
  · exact tangential_congr_left hn hc
  · simp only [Fields, tangential_congr_left hn hc]

/-- Two adjacent layers of the same medium merge. -/
theorem fields_merge {pol : Pol} {a b c : Medium} (hab : a.n = b.n) (hab' : a.c = b.c)
    (hac : a.n = c.n) (hac' : a.c = c.c) (hδ : c.δ = a.δ + b.δ) (hne : a.n * a.c ≠ 0)
    {L : List Medium} (hL : L ≠ []) {t : ℂ} (m : Medium) (v w : ℂ) :
    Fields pol m v w (a :: b :: L) t → Fields pol m v w (c :: L) t := by
  rw [fields_cons (by simp), fields_cons hL]
  rintro ⟨v', w', ht, hf⟩
  rw [fields_cons hL] at hf
  obtain ⟨v'', w'', ht', hf⟩ := hf
  obtain ⟨rfl, rfl⟩ := tangential_same hab hab' hne ht'
  refine ⟨v', w', (tangential_congr_right hac hac').mp ht, ?_⟩
  rw [← fields_congr_left (m := b) (m₂ := c) (hab.symm.trans hac) (hab'.symm.trans hac')]
  have e1 : v' * Complex.exp (I * c.δ) = v' * Complex.exp (I * a.δ) * Complex.exp (I * b.δ) := by
    rw [hδ, mul_add, Complex.exp_add]; ring
  have e2 : w' * Complex.exp (-(I * c.δ)) =
      w' * Complex.exp (-(I * a.δ)) * Complex.exp (-(I * b.δ)) := by
    rw [hδ, mul_add, neg_add, Complex.exp_add]; ring
  rw [e1, e2]; exact hf

/-- A last film of the same medium as the backing only changes the phase of `t`. -/
theorem fields_match_back {pol : Pol} {f b : Medium} (hn : f.n = b.n) (hc : f.c = b.c)
    (hne : f.n * f.c ≠ 0) {t : ℂ} (m : Medium) (v w : ℂ) :
    Fields pol m v w [f, b] t → Fields pol m v w [b] (t * Complex.exp (-(I * f.δ))) := by
  rintro ⟨v', w', ht, hf⟩
  have hs := tangential_same hn hc hne (show Tangential pol f b _ _ _ _ from hf)
  have hw : w' = 0 := by
    have := hs.2
    rcases mul_eq_zero.mp this with h | h
    · exact h
    · exact absurd h (Complex.exp_ne_zero _)
  have hv : v' = t * Complex.exp (-(I * f.δ)) := by
    rw [← hs.1, mul_assoc, ← Complex.exp_add]; simp
  rw [hw, hv] at ht
  exact (tangential_congr_right hn hc).mp ht

theorem tangential_scale {pol : Pol} {m m' : Medium} {v w v' w' : ℂ} (k : ℂ)
    (h : Tangential pol m m' v w v' w') :
    Tangential pol m m' (k * v) (k * w) (k * v') (k * w') := by
  cases pol <;> obtain ⟨h1, h2⟩ := h <;> constructor <;>
    first | linear_combination k * h1 | linear_combination k * h2

/-- Linearity. -/
theorem fields_scale {pol : Pol} {L : List Medium} {t : ℂ} (k : ℂ) :
    ∀ {m : Medium} {v w : ℂ}, Fields pol m v w L t → Fields pol m (k * v) (k * w) L (k * t) := by
  induction L with
  | nil => intro m v w h; exact h.elim
  | cons b L ih =>
    intro m v w h
    cases L with
    | nil =>
      have := tangential_scale k (show Tangential pol m b v w t 0 from h)
      rw [mul_zero] at this
      exact this
    | cons b' rest =>
      obtain ⟨v', w', ht, hf⟩ := h
      refine ⟨k * v', k * w', tangential_scale k ht, ?_⟩
      rw [mul_assoc, mul_assoc]
      exact ih hf

/-- A first film of the same medium as the front only changes phases. -/
theorem fields_match_front {pol : Pol} {m f : Medium} (hn : m.n = f.n) (hc : m.c = f.c)
    (hne : m.n * m.c ≠ 0) {L : List Medium} (hL : L ≠ []) {r t : ℂ}
    (h : Fields pol m 1 r (f :: L) t) :
    Fields pol m 1 (r * Complex.exp (-(2 * (I * f.δ)))) L (t * Complex.exp (-(I * f.δ))) := by
  rw [fields_cons hL] at h
  obtain ⟨v', w', ht, hf⟩ := h
  obtain ⟨rfl, rfl⟩ := tangential_same hn hc hne ht
  rw [← fields_congr_left hn hc] at hf
  have := fields_scale (Complex.exp (-(I * f.δ))) hf
  convert this using 1
  · rw [one_mul, ← Complex.exp_add]; simp
  · rw [mul_comm (Complex.exp _), mul_assoc, ← Complex.exp_add]; ring_nf
  · ring

/-! ### Reversing the direction of propagation in a film -/

/-- The same film described with the opposite direction cosine. -/
def Medium.flip (m : Medium) : Medium := ⟨m.n, -m.c, -m.δ⟩

theorem tangential_flip_left {pol : Pol} {m m' : Medium} {v w v' w' : ℂ} :
    Tangential pol m.flip m' v w v' w' ↔ Tangential pol m m' w v v' w' := by
  cases pol <;> simp only [Tangential, Medium.flip]
  · rw [add_comm v w]
    constructor <;> rintro ⟨h1, h2⟩ <;> exact ⟨h1, by linear_combination h2⟩
  · rw [add_comm v w]
    constructor <;> rintro ⟨h1, h2⟩ <;> exact ⟨h1, by linear_combination h2⟩

theorem tangential_flip_right {pol : Pol} {m m' : Medium} {v w v' w' : ℂ} :
    Tangential pol m m'.flip v w v' w' ↔ Tangential pol m m' v w w' v' := by
  cases pol <;> simp only [Tangential, Medium.flip]
  · rw [add_comm v' w']
    constructor <;> rintro ⟨h1, h2⟩ <;> exact ⟨h1, by linear_combination h2⟩
  · rw [add_comm v' w']
    constructor <;> rintro ⟨h1, h2⟩ <;> exact ⟨h1, by linear_combination h2⟩

theorem fields_flip_left {pol : Pol} {m : Medium} {v w t : ℂ} {L : List Medium} :
    Fields pol m.flip v w L t ↔ Fields pol m w v L t := by
  rcases L with _ | ⟨b, _ | ⟨b', rest⟩⟩
  · rfl
  · exact tangential_flip_left
  · simp only [Fields, tangential_flip_left]

/-- Fields do not depend on the direction chosen in the films. -/
theorem fields_flip_films {pol : Pol} {ms ms' : List Medium} {b : Medium} {t : ℂ}
    (h : List.Forall₂ (fun m m' => m' = m ∨ m' = m.flip) ms ms') :
    ∀ (m : Medium) (v w : ℂ),
      Fields pol m v w (ms ++ [b]) t ↔ Fields pol m v w (ms' ++ [b]) t := by
  induction h with
  | nil => intro m v w; rfl
  | @cons a a' l l' ha hl ih =>
    intro m v w
    rw [List.cons_append, List.cons_append, fields_cons (by simp), fields_cons (by simp)]
    rcases ha with rfl | rfl
    · simp only [ih]
    · constructor
      · rintro ⟨v', w', ht, hf⟩
        refine ⟨w', v', tangential_flip_right.mpr ht, ?_⟩
        rw [fields_flip_left, ← ih]
        simpa [Medium.flip] using hf
      · rintro ⟨v', w', ht, hf⟩
        refine ⟨w', v', tangential_flip_right.mp ht, ?_⟩
        rw [fields_flip_left, ← ih] at hf
        simpa [Medium.flip] using hf

/-! ### Uniqueness and the code's result -/

/-- Whenever the calculation gives a finite result, it is the unique solution. -/
theorem solveL_spec {pol : Pol} {m0 : Medium} {L : List Medium} {r t : ℂ}
    (h : solveL pol m0 L = some (r, t)) :
    Fields pol m0 1 r L t ∧ ∀ v' r' t', Fields pol m0 v' r' L t' → r' = v' * r ∧ t' = v' * t := by
  cases L with
  | nil => simp [solveL] at h
  | cons m1 rest =>
    obtain ⟨hn, ha, hr, ht⟩ := solve_eq_some.mp h
    constructor
    · rw [fields_iff hn, hr, ht]
      constructor <;> field_simp
    · intro v' r' t' hf
      rw [fields_iff hn] at hf
      have : t' = v' / (prod pol m0 (m1 :: rest)).a := by
        rw [hf.1]; field_simp
      rw [hf.2, this, hr, ht]
      constructor <;> field_simp

theorem solveL_nondeg {pol : Pol} {m0 : Medium} {L : List Medium} {r t : ℂ}
    (h : solveL pol m0 L = some (r, t)) : Nondeg pol m0 L := by
  cases L with
  | nil => simp [solveL] at h
  | cons m1 rest => exact (solve_eq_some.mp h).1

/-- Two calculations that both give finite results agree if the fields of one are fields of
the other. -/
theorem solveL_agree {pol : Pol} {m0 : Medium} {L L' : List Medium} {r t r' t' : ℂ}
    (h : solveL pol m0 L = some (r, t)) (h' : solveL pol m0 L' = some (r', t'))
    {T : ℂ} (hf : Fields pol m0 1 r L t → Fields pol m0 1 r L' T) : r = r' ∧ T = t' := by
  have h1 := hf (solveL_spec h).1
  have := (solveL_spec h').2 _ _ _ h1
  simpa using this

end Verif.TMM
