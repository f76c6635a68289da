import Verif.TMM.DPLemmas

/-!
# `Delta_Psi_TMM` in the arithmetic of a machine

The same code as in `Verif.TMM.Model`, at one point, but every operation is the one of an arithmetic that
may round.  The arithmetic of numpy is one of them, as long as nothing overflows or underflows.
-/

namespace Verif.TMM

open Complex (I)

/-- The operations `Delta_Psi_TMM` uses, as a machine computes them: on complex numbers, on reals, the
functions of numpy and the constant `np.pi`.  Real operands of complex operations are embedded.  `front`,
`index`, `thick` and `back` are what has become of the index of the first row, of the index and thickness of
the film with the given number, and of the index of the last row when the slab array was made. -/
structure Arith where
  add : ℂ → ℂ → ℂ
  sub : ℂ → ℂ → ℂ
  mul : ℂ → ℂ → ℂ
  div : ℂ → ℂ → ℂ
  sin : ℂ → ℂ
  cos : ℂ → ℂ
  exp : ℂ → ℂ
  arcsin : ℂ → ℂ
  abs : ℂ → ℝ
  angle : ℂ → ℝ
  arctan : ℝ → ℝ
  radd : ℝ → ℝ → ℝ
  rsub : ℝ → ℝ → ℝ
  rmul : ℝ → ℝ → ℝ
  rdiv : ℝ → ℝ → ℝ
  pi : ℝ
  front : ℝ → ℝ
  index : ℕ → ℂ → ℂ
  thick : ℕ → ℝ → ℝ
  back : ℂ → ℂ

/-- Arithmetic without rounding; `σ` is the sign of zero as in `npAngle`. -/
noncomputable def Arith.exact (σ : Bool) : Arith where
  add := (· + ·)
  sub := (· - ·)
  mul := (· * ·)
  div := (· / ·)
  sin := Complex.sin
  cos := Complex.cos
  exp := Complex.exp
  arcsin := npArcsin
  abs := fun z => ‖z‖
  angle := npAngle σ
  arctan := Real.arctan
  radd := (· + ·)
  rsub := (· - ·)
  rmul := (· * ·)
  rdiv := (· / ·)
  pi := Real.pi
  front := id
  index := fun _ n => n
  thick := fun _ d => d
  back := id

namespace Arith

variable (A : Arith)

/-- Division, not finite for a zero divisor. -/
noncomputable def cdiv (x y : ℂ) : Option ℂ :=
  open Classical in if y = 0 then none else some (A.div x y)

/-- `n_list`, `th_list` and the (clipped) `delta` of one layer. -/
structure Med where
  n : ℂ
  th : ℂ
  δ : ℂ

/-- A medium without thickness: `s` is `n_list[0] * np.sin(th_0)`.  reflect_modelSE.py:143. -/
noncomputable def half (s n : ℂ) : Option Med := do
  let z ← A.cdiv s n
  some ⟨n, A.arcsin z, 0⟩

/-- A film of index `n` and thickness `d` (Å).  Clipping the values above 35 is the same as clipping all.
reflect_modelSE.py:143-161, 276. -/
noncomputable def film (s : ℂ) (lam : ℝ) (f : ℂ × ℝ) : Option Med := do
  let z ← A.cdiv s f.1
  let k ← A.cdiv (A.mul (A.mul (A.rmul 2 A.pi : ℝ) f.1) (A.cos (A.arcsin z))) (lam : ℝ)
  some ⟨f.1, A.arcsin z, clip35 (A.mul k (A.rdiv f.2 10 : ℝ))⟩

/-- `interface_r_s`, `interface_r_p`.  reflect_modelSE.py:81-90. -/
noncomputable def rC (pol : Pol) (x y : Med) : Option ℂ :=
  match pol with
  | .s => A.cdiv (A.sub (A.mul x.n (A.cos x.th)) (A.mul y.n (A.cos y.th)))
      (A.add (A.mul x.n (A.cos x.th)) (A.mul y.n (A.cos y.th)))
  | .p => A.cdiv (A.sub (A.mul y.n (A.cos x.th)) (A.mul x.n (A.cos y.th)))
      (A.add (A.mul y.n (A.cos x.th)) (A.mul x.n (A.cos y.th)))

/-- `interface_t_s`, `interface_t_p`.  reflect_modelSE.py:93-98. -/
noncomputable def tC (pol : Pol) (x y : Med) : Option ℂ :=
  match pol with
  | .s => A.cdiv (A.mul (A.mul 2 x.n) (A.cos x.th))
      (A.add (A.mul x.n (A.cos x.th)) (A.mul y.n (A.cos y.th)))
  | .p => A.cdiv (A.mul (A.mul 2 x.n) (A.cos x.th))
      (A.add (A.mul y.n (A.cos x.th)) (A.mul x.n (A.cos y.th)))

/-- Characteristic matrix of one layer.  reflect_modelSE.py:190-197. -/
noncomputable def layerMat (δ r t : ℂ) : Option Mat := do
  let β := A.exp (A.mul I δ)
  let βinv ← A.cdiv 1 β
  let m00 ← A.cdiv βinv t
  let m01 ← A.cdiv (A.mul r βinv) t
  let m10 ← A.cdiv (A.mul r β) t
  let m11 ← A.cdiv β t
  some ⟨m00, m01, m10, m11⟩

/-- Matrix of the first interface.  reflect_modelSE.py:201-204. -/
noncomputable def initMat (r t : ℂ) : Option Mat := do
  let m00 ← A.cdiv 1 t
  let m01 ← A.cdiv r t
  some ⟨m00, m01, m01, m00⟩

/-- One pass of the propagation loop.  reflect_modelSE.py:209-217. -/
noncomputable def step (m k : Mat) : Mat :=
  ⟨A.add (A.mul m.a k.a) (A.mul m.b k.c), A.add (A.mul m.a k.b) (A.mul m.b k.d),
   A.add (A.mul m.c k.a) (A.mul m.d k.c), A.add (A.mul m.c k.b) (A.mul m.d k.d)⟩

/-- The loop: the matrices of the media behind `x` are made and multiplied one after the other.
reflect_modelSE.py:188-217. -/
noncomputable def loop (pol : Pol) : Med → List Med → Mat → Option Mat
  | _, [], m => some m
  | x, y :: rest, m => do
    let r ← A.rC pol x y
    let t ← A.tC pol x y
    let k ← A.layerMat x.δ r t
    loop pol y rest (A.step m k)

/-- The calculation for one polarisation.  reflect_modelSE.py:170-223. -/
noncomputable def solve (pol : Pol) (x y : Med) (rest : List Med) : Option (ℂ × ℂ) := do
  let r ← A.rC pol x y
  let t ← A.tC pol x y
  let i ← A.initMat r t
  let m ← A.loop pol y rest i
  let r ← A.cdiv m.c m.a
  let t ← A.cdiv 1 m.a
  some (r, t)

/-- All films, with thicknesses in Å; `i` is the number of the first.  reflect_modelSE.py:143-161. -/
noncomputable def meds (s : ℂ) (lam : ℝ) : ℕ → List (ℂ × ℝ) → Option (List Med)
  | _, [] => some []
  | i, f :: l => do
    let x ← A.film s lam (A.index i f.1, A.thick i f.2)
    let xs ← meds s lam (i + 1) l
    some (x :: xs)

/-- `coh_tmm` at one point, one polarisation. -/
noncomputable def polResult (pol : Pol) (s : ℂ) (lam n₀ : ℝ) (films : List (ℂ × ℝ)) (nb : ℂ) :
    Option (ℂ × ℂ) := do
  let x ← A.half s (A.front n₀ : ℝ)
  let ms ← A.meds s lam 0 films
  let b ← A.half s (A.back nb)
  match ms ++ [b] with
  | [] => none
  | y :: rest => A.solve pol x y rest

/-- psi and delta in degrees from the two amplitudes.  reflect_modelSE.py:282-294. -/
noncomputable def psiDelta (refl : Bool) (off : ℝ) (rs rp : ℂ) : Option ℝ × Option ℝ :=
  open Classical in
  (if rs = 0 then (if rp = 0 then none else some (A.rmul (A.rdiv A.pi 2) (A.rdiv 180 A.pi)))
    else some (A.rmul (A.arctan (A.abs (A.div rp rs))) (A.rdiv 180 A.pi)),
   do
    let x ← A.cdiv (-rp) rs
    let y ← A.cdiv 1 x
    let d := A.radd (A.angle y) A.pi
    let d := if refl then (if A.pi < d then A.rsub (A.rmul 2 A.pi) d else d) else d
    some (A.radd (A.rmul d (A.rdiv 180 A.pi)) off))

/-- `Delta_Psi_TMM` for one angle `a` (degrees) and an array with the rows `n₀`, `films` (index and
thickness in Å) and `nb`.  reflect_modelSE.py:228-294, 132-134. -/
noncomputable def deltaPsi (n₀ : ℝ) (films : List (ℂ × ℝ)) (nb : ℂ) (a wav off : ℝ) (refl : Bool) :
    Except PyErr (Option ℝ × Option ℝ) :=
  open Classical in
  let s := A.mul (A.front n₀ : ℝ) (A.sin (A.rmul a (A.rdiv A.pi 180) : ℝ))
  if |s.im| < assertTol then
    match A.polResult .s s wav n₀ films nb, A.polResult .p s wav n₀ films nb with
    | some (rs, _), some (rp, _) => .ok (A.psiDelta refl off rs rp)
    | _, _ => .ok (none, none)
  else .error .assertionError

end Arith

/-! ### Without rounding it is the model -/

theorem exact_cdiv (σ : Bool) (x y : ℂ) : (Arith.exact σ).cdiv x y = cdiv x y := rfl

theorem exact_front (σ : Bool) (n : ℝ) : (Arith.exact σ).front n = n := rfl

theorem exact_index (σ : Bool) (i : ℕ) (n : ℂ) : (Arith.exact σ).index i n = n := rfl

theorem exact_thick (σ : Bool) (i : ℕ) (d : ℝ) : (Arith.exact σ).thick i d = d := rfl

theorem exact_back (σ : Bool) (n : ℂ) : (Arith.exact σ).back n = n := rfl

/-- A medium with an angle is one with its cosine. -/
noncomputable def Arith.Med.med (x : Arith.Med) : Medium := ⟨x.n, Complex.cos x.th, x.δ⟩

theorem exact_rC (σ : Bool) (pol : Pol) (x y : Arith.Med) :
    (Arith.exact σ).rC pol x y = rC pol x.med y.med := by cases pol <;> rfl

theorem exact_tC (σ : Bool) (pol : Pol) (x y : Arith.Med) :
    (Arith.exact σ).tC pol x y = tC pol x.med y.med := by cases pol <;> rfl

theorem exact_loop (σ : Bool) (pol : Pol) (x : Arith.Med) (l : List Arith.Med) (m : Mat) :
    (Arith.exact σ).loop pol x l m =
      ((lms pol x.med (l.map Arith.Med.med)).mapM id).map fun ms => ms.foldl step m := by
  induction l generalizing x m with
  | nil => rfl
  | cons y l ih =>
    simp only [Arith.loop, exact_rC, exact_tC, List.map_cons, lms, List.mapM_cons, id, lm,
      Option.bind_eq_bind, Option.pure_def]
    cases rC pol x.med y.med with
    | none => rfl
    | some r =>
      cases tC pol x.med y.med with
      | none => rfl
      | some t =>
        simp only [Option.bind_some]
        change ((layerMat x.δ r t).bind fun k => _) = Option.map _ ((layerMat x.δ r t).bind fun k => _)
        cases layerMat x.δ r t with
        | none => rfl
        | some k =>
          simp only [Option.bind_some]
          rw [ih]
          cases (lms pol y.med (l.map Arith.Med.med)).mapM id <;> rfl

theorem exact_solve (σ : Bool) (pol : Pol) (x y : Arith.Med) (l : List Arith.Med) :
    (Arith.exact σ).solve pol x y l = solve pol x.med y.med (l.map Arith.Med.med) := by
  simp only [Arith.solve, solve, exact_rC, exact_tC, exact_loop, Option.bind_eq_bind]
  cases rC pol x.med y.med with
  | none => rfl
  | some r =>
    cases tC pol x.med y.med with
    | none => rfl
    | some t =>
      simp only [Option.bind_some]
      change ((initMat r t).bind fun k => _) = ((initMat r t).bind fun k => _)
      cases initMat r t with
      | none => rfl
      | some i =>
        simp only [Option.bind_some]
        cases (lms pol y.med (l.map Arith.Med.med)).mapM id <;> rfl

theorem exact_meds (σ : Bool) (s : ℂ) {lam : ℝ} (hl : lam ≠ 0) (films : List (ℂ × ℝ))
    (hnz : ∀ f ∈ films, f.1 ≠ 0) (i : ℕ) : ∃ ms, (Arith.exact σ).meds s lam i films = some ms ∧
      ms.map Arith.Med.med = films.map fun f => codeMed s lam (f.1, f.2 / 10) := by
  induction films generalizing i with
  | nil => exact ⟨[], rfl, rfl⟩
  | cons f l ih =>
    obtain ⟨ms, h1, h2⟩ := ih (fun f hf => hnz f (List.mem_cons_of_mem _ hf)) (i + 1)
    have hf := hnz f (by simp)
    have hl' : (lam : ℂ) ≠ 0 := Complex.ofReal_ne_zero.mpr hl
    refine ⟨⟨f.1, npArcsin (s / f.1), clip35 (((2 * Real.pi : ℝ) : ℂ) * f.1 *
      Complex.cos (npArcsin (s / f.1)) / lam * ((f.2 / 10 : ℝ) : ℂ))⟩ :: ms, ?_, ?_⟩
    · simp only [Arith.meds, h1, Arith.film, exact_cdiv, exact_index, exact_thick, cdiv_of_ne hf,
        cdiv_of_ne hl',
        Option.bind_eq_bind, Option.bind_some]
      rfl
    · rw [List.map_cons, List.map_cons, h2]
      simp [Arith.Med.med, codeMed, cos_npArcsin]

/-- The rounded model with exact operations is the model of `Delta_Psi_TMM`. -/
theorem exact_deltaPsi (zs : List Layer → ℝ → ℝ → Bool) {n₀ : ℝ} {films : List (ℂ × ℝ)} {nb : ℂ} (hn : n₀ ≠ 0)
    (hf : ∀ f ∈ films, f.1 ≠ 0) (hb : nb ≠ 0) {wav : ℝ} (hw : wav ≠ 0) (a off : ℝ) (refl : Bool)
    {rows : List Row} (hr : RowsOf rows ⟨(n₀ : ℂ), films.map fun f => (f.1, f.2 / 10), nb⟩) :
    ∃ σ, (deltaPsiTMM zs [a] rows wav off refl).1 =
      ((Arith.exact σ).deltaPsi n₀ films nb a wav off refl).map fun x => [x] := by
  obtain ⟨st, hst⟩ : ∃ st : Stack, st = ⟨(n₀ : ℂ), films.map fun f => (f.1, f.2 / 10), nb⟩ := ⟨_, rfl⟩
  have hn' : (n₀ : ℂ) ≠ 0 := Complex.ofReal_ne_zero.mpr hn
  have hnz : st.NZ := by
    rw [hst]
    refine ⟨hn', ?_, hb⟩
    simp only [List.mem_map]
    rintro _ ⟨f, h, rfl⟩
    exact hf f h
  rw [← hst] at hr
  refine ⟨zs (st.layers .inf .inf) a wav, ?_⟩
  rw [deltaPsi_rows hr hnz hw]
  simp only [List.map_cons, List.map_nil]
  generalize zs (st.layers .inf .inf) a wav = σ
  have hp : ∀ pol, (Arith.exact σ).polResult pol ((n₀ : ℂ) * Complex.sin (rad a)) wav n₀ films nb =
      solveSt pol st (rad a) wav := by
    intro pol
    obtain ⟨ms, h1, h2⟩ := exact_meds σ ((n₀ : ℂ) * Complex.sin (rad a)) hw films hf 0
    have hfr : (n₀ : ℂ) * Complex.sin (rad a) / n₀ = Complex.sin (rad a) := by field_simp
    simp only [Arith.polResult, Arith.half, exact_cdiv, exact_front, exact_back, cdiv_of_ne hn', cdiv_of_ne hb, h1,
      Option.bind_eq_bind, Option.bind_some, hfr]
    have h3 : (ms ++ [(⟨nb, npArcsin ((n₀ : ℂ) * Complex.sin (rad a) / nb), 0⟩ : Arith.Med)]).map Arith.Med.med =
        (st.films.map (codeMed (st.front * Complex.sin (rad a)) wav)) ++
          [⟨st.back, root1m (st.front * Complex.sin (rad a) / st.back), 0⟩] := by
      rw [List.map_append, h2, hst]
      simp [Arith.Med.med, cos_npArcsin, Function.comp_def]
    unfold solveSt
    rw [← h3, hst]
    change (match ms ++ [(⟨nb, npArcsin ((n₀ : ℂ) * Complex.sin (rad a) / nb), 0⟩ : Arith.Med)] with
      | [] => none
      | y :: rest => _) = _
    cases ms ++ [(⟨nb, npArcsin ((n₀ : ℂ) * Complex.sin (rad a) / nb), 0⟩ : Arith.Med)] with
    | nil => rfl
    | cons y rest =>
      simp only [List.map_cons, solveL]
      rw [exact_solve]
      simp only [Arith.Med.med]
      change TMM.solve pol ⟨(n₀ : ℂ), Complex.cos (npArcsin _), 0⟩ _ _ = _
      rw [cos_npArcsin]
  have hs : (Arith.exact σ).mul ((Arith.exact σ).front n₀ : ℝ) ((Arith.exact σ).sin
      ((Arith.exact σ).rmul a ((Arith.exact σ).rdiv (Arith.exact σ).pi 180) : ℝ)) =
      (n₀ : ℂ) * Complex.sin (rad a) := rfl
  have ha : |((n₀ : ℂ) * Complex.sin (rad a)).im| < assertTol := by
    obtain ⟨n, h1, h2⟩ := assertOk_real n₀ (rad a)
    cases h1
    exact h2
  simp only [Arith.deltaPsi, hs, if_pos ha, hp]
  cases solveSt .s st (rad a) wav with
  | none => rfl
  | some x =>
    cases solveSt .p st (rad a) wav with
    | none => rfl
    | some y =>
      simp only [Except.map, TMM.psiDelta, Arith.psiDelta, psiRad, deltaRad, reflectRad, exact_cdiv,
        Option.bind_eq_bind, Except.ok.injEq, List.cons.injEq, and_true, Prod.mk.injEq]
      constructor
      · split_ifs <;> rfl
      · cases cdiv (-y.1) x.1 with
        | none => rfl
        | some q =>
          simp only [Option.bind_some]
          cases cdiv 1 q with
          | none => rfl
          | some w => rfl

end Verif.TMM
