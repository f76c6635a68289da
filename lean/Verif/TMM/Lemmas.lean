import Verif.TMM.Spec

namespace Verif.TMM

open Complex (I)

/-! ### The angle -/

theorem root1m_sq (z : ℂ) : root1m z ^ 2 = 1 - z ^ 2 := by
  unfold root1m
  split_ifs with h
  · obtain ⟨h1, h2⟩ := h
    have hz : z = (z.re : ℂ) := by apply Complex.ext <;> simp [h1]
    have : ((Real.sqrt (z.re ^ 2 - 1) : ℝ) : ℂ) ^ 2 = (z.re : ℂ) ^ 2 - 1 := by
      rw [← Complex.ofReal_pow, Real.sq_sqrt (by nlinarith)]
      push_cast; ring
    rw [mul_pow, this, neg_sq, Complex.I_sq]
    rw [hz]; simp
  · exact csqrt_sq _

theorem exp_I_npArcsin (z : ℂ) : Complex.exp (I * npArcsin z) = I * z + root1m z := by
  unfold npArcsin
  have : I * (-I * Complex.log (I * z + root1m z)) = Complex.log (I * z + root1m z) := by
    linear_combination (-Complex.log (I * z + root1m z)) * Complex.I_sq
  rw [this, Complex.exp_log]
  intro h
  have h1 : (I * z + root1m z) * (root1m z - I * z) = 1 := by
    have := root1m_sq z
    linear_combination this - z ^ 2 * Complex.I_sq
  rw [h] at h1; simp at h1

theorem exp_neg_I_npArcsin (z : ℂ) : Complex.exp (-(I * npArcsin z)) = root1m z - I * z := by
  rw [Complex.exp_neg, exp_I_npArcsin]
  have h1 : (I * z + root1m z) * (root1m z - I * z) = 1 := by
    have := root1m_sq z
    linear_combination this - z ^ 2 * Complex.I_sq
  exact inv_eq_of_mul_eq_one_right h1

theorem cos_npArcsin (z : ℂ) : Complex.cos (npArcsin z) = root1m z := by
  rw [Complex.cos, mul_comm _ I, exp_I_npArcsin, neg_mul, mul_comm _ I, exp_neg_I_npArcsin]
  ring

theorem sin_npArcsin (z : ℂ) : Complex.sin (npArcsin z) = z := by
  have h1 := exp_I_npArcsin z
  have h2 := exp_neg_I_npArcsin z
  rw [mul_comm] at h1
  rw [mul_comm I, ← neg_mul] at h2
  rw [Complex.sin, h1, h2]
  linear_combination (-z) * Complex.I_sq

theorem root1m_ofReal_le {x : ℝ} (h : |x| ≤ 1) :
    root1m (x : ℂ) = (Real.sqrt (1 - x ^ 2) : ℂ) := by
  unfold root1m
  rw [if_neg]
  · rw [← csqrt_ofReal_nonneg]
    · push_cast; rfl
    · have := (sq_le_one_iff_abs_le_one x).mpr h
      linarith
  · simp only [Complex.ofReal_im, Complex.ofReal_re, true_and, not_lt]
    exact (abs_le.mp h).2

theorem root1m_ofReal_gt {x : ℝ} (h : 1 < x) :
    root1m (x : ℂ) = -I * (Real.sqrt (x ^ 2 - 1) : ℂ) := by
  unfold root1m
  rw [if_pos (by simpa using h)]
  simp

theorem root1m_ofReal_lt {x : ℝ} (h : x < -1) :
    root1m (x : ℂ) = I * (Real.sqrt (x ^ 2 - 1) : ℂ) := by
  unfold root1m
  rw [if_neg (by simp; linarith)]
  have : (1 : ℂ) - (x : ℂ) ^ 2 = ((1 - x ^ 2 : ℝ) : ℂ) := by push_cast; rfl
  rw [this, csqrt_ofReal_neg (by nlinarith)]
  congr 3; ring_nf

/-- In the fronting medium the code recovers the angle of incidence. -/
theorem root1m_sin {θ : ℝ} (h : |θ| ≤ Real.pi / 2) :
    root1m (Complex.sin θ) = Complex.cos θ := by
  rw [← Complex.ofReal_sin, root1m_ofReal_le (Real.abs_sin_le_one θ), ← Complex.ofReal_cos]
  congr 1
  have h1 : 0 ≤ Real.cos θ := Real.cos_nonneg_of_mem_Icc ⟨(abs_le.mp h).1, (abs_le.mp h).2⟩
  rw [← Real.sqrt_sq h1]
  congr 1
  have := Real.sin_sq_add_cos_sq θ
  linarith

/-! ### Interfaces -/

/-- Denominator of the interface coefficients. -/
def den (pol : Pol) (m m' : Medium) : ℂ :=
  match pol with
  | .s => m.n * m.c + m'.n * m'.c
  | .p => m'.n * m.c + m.n * m'.c

/-- Numerator of the interface reflection coefficient. -/
def num (pol : Pol) (m m' : Medium) : ℂ :=
  match pol with
  | .s => m.n * m.c - m'.n * m'.c
  | .p => m'.n * m.c - m.n * m'.c

/-- The coefficients of the model in terms of media. -/
noncomputable def rC (pol : Pol) (m m' : Medium) : Option ℂ := cdiv (num pol m m') (den pol m m')
noncomputable def tC (pol : Pol) (m m' : Medium) : Option ℂ :=
  cdiv (2 * m.n * m.c) (den pol m m')

theorem interfaceR_eq (pol : Pol) (m m' : Medium) {thi thf : ℂ}
    (h : Complex.cos thi = m.c) (h' : Complex.cos thf = m'.c) :
    interfaceR pol m.n m'.n thi thf = rC pol m m' := by
  cases pol <;> simp [interfaceR, interfaceRs, interfaceRp, rC, num, den, h, h']

theorem interfaceT_eq (pol : Pol) (m m' : Medium) {thi thf : ℂ}
    (h : Complex.cos thi = m.c) (h' : Complex.cos thf = m'.c) :
    interfaceT pol m.n m'.n thi thf = tC pol m m' := by
  cases pol <;> simp [interfaceT, interfaceTs, interfaceTp, tC, den, h, h']

/-! ### Recursive form of the calculation -/

/-- Final division. -/
noncomputable def fin (m : Mat) : Option (ℂ × ℂ) := do
  let r ← cdiv m.c m.a
  let t ← cdiv 1 m.a
  some (r, t)

/-- Characteristic matrix of `m` followed by the interface to `m'`. -/
noncomputable def lm (pol : Pol) (m m' : Medium) : Option Mat := do
  let r ← rC pol m m'
  let t ← tC pol m m'
  layerMat m.δ r t

/-- The list of matrices from medium `m` on. -/
noncomputable def lms (pol : Pol) : Medium → List Medium → List (Option Mat)
  | _, [] => []
  | m, m' :: rest => lm pol m m' :: lms pol m' rest

/-- The whole calculation on media. -/
noncomputable def solve (pol : Pol) (m0 m1 : Medium) (rest : List Medium) : Option (ℂ × ℂ) := do
  let r0 ← rC pol m0 m1
  let t0 ← tC pol m0 m1
  let i ← initMat r0 t0
  let ms ← (lms pol m1 rest).mapM id
  fin (ms.foldl step i)

/-- angles agree with media -/
def Agree (x : Option (ℂ × ℂ)) (m : Medium) : Prop :=
  ∃ th, x = some (m.n, th) ∧ Complex.cos th = m.c

theorem matList_eq_lms (pol : Pol) : ∀ (x : Option (ℂ × ℂ)) (m : Medium)
    (xs : List (Option (ℂ × ℂ))) (rest : List Medium) (δs : List (Option ℂ)),
    Agree x m → List.Forall₂ Agree xs rest →
    δs = ((m :: rest).dropLast.map fun m => some m.δ) →
    List.zipWith (fun (δ : Option ℂ) (rt : Option ℂ × Option ℂ) => do
      let δ ← δ
      let r ← rt.1
      let t ← rt.2
      layerMat δ r t) δs
      ((coefList (interfaceR pol) (x :: xs)).zip (coefList (interfaceT pol) (x :: xs)))
      = lms pol m rest := by
  intro x m xs rest
  induction rest generalizing x m xs with
  | nil =>
    intro δs _ hxs hδ
    cases hxs
    subst hδ
    simp [lms]
  | cons m' rest ih =>
    intro δs hx hxs hδ
    cases hxs with
    | @cons x' _ xs' _ hx' hxs' =>
    have hih := ih x' m' xs' _ hx' hxs' rfl
    subst hδ
    obtain ⟨th, rfl, hth⟩ := hx
    obtain ⟨th', rfl, hth'⟩ := hx'
    simp only [coefList, pairs, List.tail_cons, List.zip_cons_cons, List.map_cons] at hih ⊢
    rw [show (m :: m' :: rest).dropLast = m :: (m' :: rest).dropLast from rfl]
    simp only [List.map_cons, List.zipWith_cons_cons, lms]
    congr 1
    simp [lm, ← interfaceR_eq pol m m' hth hth', ← interfaceT_eq pol m m' hth hth']

theorem polResult_eq_solve (pol : Pol) (x0 x1 : Option (ℂ × ℂ)) (m0 m1 : Medium)
    (xs : List (Option (ℂ × ℂ))) (rest : List Medium) (δs : List (Option ℂ))
    (h0 : Agree x0 m0) (h1 : Agree x1 m1) (hr : List.Forall₂ Agree xs rest)
    (hδ : δs = ((m1 :: rest).dropLast.map fun m => some m.δ)) :
    polResult pol (x0 :: x1 :: xs) δs = solve pol m0 m1 rest := by
  have key := matList_eq_lms pol x1 m1 xs rest δs h1 hr hδ
  obtain ⟨th0, rfl, hth0⟩ := h0
  obtain ⟨th1, rfl, hth1⟩ := h1
  simp only [polResult, solve, fin, matList]
  simp only [coefList, pairs, List.tail_cons, List.zip_cons_cons, List.map_cons,
    List.head?_cons, Option.join_some] at key ⊢
  rw [key]
  simp [← interfaceR_eq pol m0 m1 hth0 hth1, ← interfaceT_eq pol m0 m1 hth0 hth1]

/-! ### Matrices and fields -/

/-- Interface matrix `(1/t) [[1, r], [r, 1]]` -/
noncomputable def iMat (pol : Pol) (m m' : Medium) : Mat :=
  let a := den pol m m' / (2 * m.n * m.c)
  let b := num pol m m' / (2 * m.n * m.c)
  ⟨a, b, b, a⟩

/-- Propagation followed by an interface. -/
noncomputable def lMat (pol : Pol) (m m' : Medium) : Mat :=
  let i := iMat pol m m'
  let β := Complex.exp (I * m.δ)
  let γ := Complex.exp (-(I * m.δ))
  ⟨γ * i.a, γ * i.b, β * i.c, β * i.d⟩

/-- The product matrix from the back face of `m` into the last medium. -/
noncomputable def prod (pol : Pol) : Medium → List Medium → Mat
  | _, [] => ⟨1, 0, 0, 1⟩
  | m, [b] => iMat pol m b
  | m, m' :: b :: rest =>
    let k := prod pol m' (b :: rest)
    let β := Complex.exp (I * m'.δ)
    let γ := Complex.exp (-(I * m'.δ))
    step (iMat pol m m') ⟨γ * k.a, γ * k.b, β * k.c, β * k.d⟩

/-- No zero denominator between consecutive media. -/
def Nondeg (pol : Pol) : Medium → List Medium → Prop
  | _, [] => True
  | m, m' :: rest => (den pol m m' ≠ 0 ∧ m.n * m.c ≠ 0) ∧ Nondeg pol m' rest

theorem initMat_eq {pol : Pol} {m m' : Medium} (h : den pol m m' ≠ 0) (h' : m.n * m.c ≠ 0) :
    (do let r ← rC pol m m'
        let t ← tC pol m m'
        initMat r t) = some (iMat pol m m') := by
  have h2 : 2 * m.n * m.c ≠ 0 := by rw [mul_assoc]; exact mul_ne_zero two_ne_zero h'
  have ht : 2 * m.n * m.c / den pol m m' ≠ 0 := div_ne_zero h2 h
  simp only [rC, tC, cdiv_of_ne h, initMat, cdiv_of_ne ht, iMat, Option.bind_eq_bind,
    Option.bind_some]
  congr 2 <;> field_simp

theorem lm_eq {pol : Pol} {m m' : Medium} (h : den pol m m' ≠ 0) (h' : m.n * m.c ≠ 0) :
    lm pol m m' = some (lMat pol m m') := by
  have h2 : 2 * m.n * m.c ≠ 0 := by rw [mul_assoc]; exact mul_ne_zero two_ne_zero h'
  have ht : 2 * m.n * m.c / den pol m m' ≠ 0 := div_ne_zero h2 h
  have hβ := Complex.exp_ne_zero (I * m.δ)
  simp only [lm, rC, tC, cdiv_of_ne h, layerMat, cdiv_of_ne ht, cdiv_of_ne hβ, lMat, iMat,
    Option.bind_eq_bind, Option.bind_some, Complex.exp_neg]
  congr 2 <;> field_simp

theorem initMat_none {pol : Pol} {m m' : Medium} (h : ¬ (den pol m m' ≠ 0 ∧ m.n * m.c ≠ 0)) :
    (do let r ← rC pol m m'
        let t ← tC pol m m'
        initMat r t) = none := by
  by_cases hd : den pol m m' = 0
  · simp [rC, hd, cdiv_zero]
  · have h' : m.n * m.c = 0 := by
      by_contra hc; exact h ⟨hd, hc⟩
    simp [rC, tC, cdiv_of_ne hd, initMat, mul_assoc, h', cdiv_zero]

theorem lm_none {pol : Pol} {m m' : Medium} (h : ¬ (den pol m m' ≠ 0 ∧ m.n * m.c ≠ 0)) :
    lm pol m m' = none := by
  by_cases hd : den pol m m' = 0
  · simp [lm, rC, hd, cdiv_zero]
  · have h' : m.n * m.c = 0 := by
      by_contra hc; exact h ⟨hd, hc⟩
    have hβ := Complex.exp_ne_zero (I * m.δ)
    simp [lm, rC, tC, cdiv_of_ne hd, layerMat, mul_assoc, h', cdiv_zero, cdiv_of_ne hβ]

theorem step_assoc (a b c : Mat) : step (step a b) c = step a (step b c) := by
  simp only [step, Mat.mk.injEq]
  refine ⟨?_, ?_, ?_, ?_⟩ <;> ring

/-- Product of the layer matrices from `m` on. -/
noncomputable def lProd (pol : Pol) : Medium → List Medium → Mat
  | _, [] => ⟨1, 0, 0, 1⟩
  | m, m' :: rest => step (lMat pol m m') (lProd pol m' rest)

theorem foldl_step (i : Mat) (l : List Mat) :
    l.foldl step i = step i (l.foldl step ⟨1, 0, 0, 1⟩) := by
  induction l generalizing i with
  | nil => simp [step]
  | cons k l ih =>
    simp only [List.foldl_cons]
    rw [ih (step i k), ih (step _ k), step_assoc]
    congr 1
    simp [step]

theorem lms_mapM (pol : Pol) (m : Medium) (rest : List Medium) :
    (Nondeg pol m rest → ∃ l, (lms pol m rest).mapM id = some l ∧
      l.foldl step ⟨1, 0, 0, 1⟩ = lProd pol m rest) ∧
    (¬ Nondeg pol m rest → (lms pol m rest).mapM id = none) := by
  induction rest generalizing m with
  | nil => simp [Nondeg, lms, lProd]
  | cons m' rest ih =>
    obtain ⟨ih1, ih2⟩ := ih m'
    constructor
    · rintro ⟨⟨h, h'⟩, hr⟩
      obtain ⟨l, hl, hf⟩ := ih1 hr
      refine ⟨lMat pol m m' :: l, ?_, ?_⟩
      · simp [lms, lm_eq h h', hl]
      · simp only [List.foldl_cons]
        rw [foldl_step, hf]
        simp [lProd, step]
    · intro h
      simp only [Nondeg, not_and_or] at h
      by_cases hc : den pol m m' ≠ 0 ∧ m.n * m.c ≠ 0
      · have : ¬ Nondeg pol m' rest := by
          intro hn; rcases h with h | h
          · exact h.elim (fun h => h hc.1) (fun h => h hc.2)
          · exact h hn
        simp [lms, lm_eq hc.1 hc.2, ih2 this]
      · simp [lms, lm_none hc]

theorem prod_eq (pol : Pol) (m0 m1 : Medium) (rest : List Medium) :
    prod pol m0 (m1 :: rest) = step (iMat pol m0 m1) (lProd pol m1 rest) := by
  induction rest generalizing m0 m1 with
  | nil => simp [prod, lProd, step]
  | cons b rest ih =>
    rw [prod, ih, lProd, ← step_assoc]
    simp only [lMat, step, Mat.mk.injEq]
    refine ⟨?_, ?_, ?_, ?_⟩ <;> ring

/-- The code's result in closed form. -/
theorem solve_eq_some {pol : Pol} {m0 m1 : Medium} {rest : List Medium} {r t : ℂ} :
    solve pol m0 m1 rest = some (r, t) ↔
      Nondeg pol m0 (m1 :: rest) ∧ (prod pol m0 (m1 :: rest)).a ≠ 0 ∧
      r = (prod pol m0 (m1 :: rest)).c / (prod pol m0 (m1 :: rest)).a ∧
      t = 1 / (prod pol m0 (m1 :: rest)).a := by
  rw [prod_eq]
  have hs : solve pol m0 m1 rest = (do
      let i ← (do let r ← rC pol m0 m1
                  let t ← tC pol m0 m1
                  initMat r t)
      let ms ← (lms pol m1 rest).mapM id
      fin (ms.foldl step i)) := by
    simp [solve, Option.bind_assoc]
  rw [hs]
  obtain ⟨h1, h2⟩ := lms_mapM pol m1 rest
  by_cases hc : den pol m0 m1 ≠ 0 ∧ m0.n * m0.c ≠ 0
  · rw [initMat_eq hc.1 hc.2]
    by_cases hn : Nondeg pol m1 rest
    · obtain ⟨l, hl, hf⟩ := h1 hn
      simp only [Option.bind_eq_bind, Option.bind_some, hl]
      rw [foldl_step, hf]
      simp only [fin, Option.bind_eq_bind, Nondeg, hc, hn, and_true, true_and, ne_eq,
        not_false_eq_true]
      generalize step (iMat pol m0 m1) (lProd pol m1 rest) = M
      by_cases hM : M.a = 0
      · simp [hM, cdiv_zero]
      · simp [hM, cdiv_of_ne, eq_comm]
    · rw [h2 hn]
      simp [Nondeg, hn]
  · rw [initMat_none hc]
    simp only [Nondeg, hc, false_and, Option.bind_eq_bind, Option.bind_none]
    simp

theorem tangential_iff {pol : Pol} {m m' : Medium} (h : m.n * m.c ≠ 0) (v w v' w' : ℂ) :
    Tangential pol m m' v w v' w' ↔
      v = (iMat pol m m').a * v' + (iMat pol m m').b * w' ∧
      w = (iMat pol m m').c * v' + (iMat pol m m').d * w' := by
  have hn : m.n ≠ 0 := left_ne_zero_of_mul h
  have hc : m.c ≠ 0 := right_ne_zero_of_mul h
  cases pol
  · simp only [Tangential, iMat, den, num]
    constructor
    · rintro ⟨h1, h2⟩
      constructor
      · field_simp
        linear_combination m.n * m.c * h1 + h2
      · field_simp
        linear_combination m.n * m.c * h1 - h2
    · rintro ⟨h1, h2⟩
      rw [h1, h2]
      constructor <;> field_simp <;> ring
  · simp only [Tangential, iMat, den, num]
    constructor
    · rintro ⟨h1, h2⟩
      constructor
      · field_simp
        linear_combination m.c * h1 + m.n * h2
      · field_simp
        linear_combination m.c * h1 - m.n * h2
    · rintro ⟨h1, h2⟩
      rw [h1, h2]
      constructor <;> field_simp <;> ring

/-- Field solutions are exactly the first column of the matrix product. -/
theorem fields_iff {pol : Pol} {m0 m1 : Medium} {rest : List Medium}
    (h : Nondeg pol m0 (m1 :: rest)) (v w t : ℂ) :
    Fields pol m0 v w (m1 :: rest) t ↔
      v = (prod pol m0 (m1 :: rest)).a * t ∧ w = (prod pol m0 (m1 :: rest)).c * t := by
  induction rest generalizing m0 m1 v w with
  | nil =>
    simp only [Fields, prod, tangential_iff h.1.2]
    simp
  | cons b rest ih =>
    simp only [Fields, prod]
    constructor
    · rintro ⟨v', w', ht, hf⟩
      rw [tangential_iff h.1.2] at ht
      rw [ih h.2] at hf
      have e1 : v' = Complex.exp (-(I * m1.δ)) * ((prod pol m1 (b :: rest)).a * t) := by
        rw [← hf.1, Complex.exp_neg]
        field_simp [Complex.exp_ne_zero]
      have e2 : w' = Complex.exp (I * m1.δ) * ((prod pol m1 (b :: rest)).c * t) := by
        rw [← hf.2, Complex.exp_neg]
        field_simp [Complex.exp_ne_zero]
      rw [ht.1, ht.2, e1, e2]
      simp only [step]
      constructor <;> ring
    · rintro ⟨h1, h2⟩
      refine ⟨Complex.exp (-(I * m1.δ)) * ((prod pol m1 (b :: rest)).a * t),
        Complex.exp (I * m1.δ) * ((prod pol m1 (b :: rest)).c * t), ?_, ?_⟩
      · rw [tangential_iff h.1.2, h1, h2]
        simp only [step]
        constructor <;> ring
      · rw [ih h.2, Complex.exp_neg]
        constructor <;> field_simp [Complex.exp_ne_zero]

end Verif.TMM
