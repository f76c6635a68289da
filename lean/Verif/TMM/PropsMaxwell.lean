import Verif.TMM.PropsEnergy

/-!
# C01, C02, C03, C11, C12: the result solves the optical boundary value problem
-/

namespace Verif.TMM

open Complex (I)
open scoped ComplexConjugate

/-- A film medium allowed by the specification is the code's medium or its mirror image. -/
theorem film_eq_or_flip {s : ℂ} {lam : ℝ} {f : ℂ × ℝ} {m : Medium} (h : IsFilm s lam f m)
    (hc : |m.δ.im| ≤ 35) : m = codeMed s lam f ∨ m = (codeMed s lam f).flip := by
  obtain ⟨n, c, δ⟩ := m
  obtain ⟨h1, h2, h3⟩ := h
  simp only at h1 h2 h3 hc
  subst h1
  have hsq : c ^ 2 = root1m (s / f.1) ^ 2 := by rw [h2, root1m_sq]
  have e1 : 2 * Real.pi * f.1 * root1m (s / f.1) / lam * f.2 =
      2 * Real.pi * f.1 * root1m (s / f.1) * f.2 / lam := by ring
  rcases sq_eq_sq_iff_eq_or_eq_neg.mp hsq with e | e
  · left
    subst e
    simp only [codeMed, Medium.mk.injEq, true_and]
    rw [e1, ← h3, clip35_of_le (le_trans (le_abs_self _) hc)]
  · right
    subst e
    have h4 : δ = -(2 * Real.pi * f.1 * root1m (s / f.1) * f.2 / lam) := by rw [h3]; ring
    have h5 : (2 * Real.pi * f.1 * root1m (s / f.1) * f.2 / lam).im ≤ 35 := by
      rw [h4, Complex.neg_im, abs_neg] at hc
      exact le_trans (le_abs_self _) hc
    simp only [codeMed, Medium.flip, Medium.mk.injEq, true_and]
    rw [e1, clip35_of_le h5, h4]

theorem films_flip {s : ℂ} {lam : ℝ} {fs : List (ℂ × ℝ)} {ms : List Medium}
    (h : List.Forall₂ (IsFilm s lam) fs ms) (hc : ∀ m ∈ ms, |m.δ.im| ≤ 35) :
    List.Forall₂ (fun m m' => m' = m ∨ m' = m.flip) (fs.map (codeMed s lam)) ms := by
  induction h with
  | nil => exact .nil
  | @cons f m fs ms hf _ ih =>
    exact .cons (film_eq_or_flip hf (hc m List.mem_cons_self))
      (ih fun m hm => hc m (List.mem_cons_of_mem _ hm))

/-- C01 (any complex indices): there is a direction cosine in the backing medium, obeying Snell's
law, such that whatever directions are chosen for the films, the amplitudes returned by `coh_tmm`
solve Maxwell's boundary value problem, and they are the only solution. -/
theorem C01_coh_tmm_maxwell {st : Stack} (hnz : st.NZ) {θ lam : ℝ} (hθ : |θ| ≤ Real.pi / 2)
    (hl : lam ≠ 0) :
    ∃ cb : ℂ, cb ^ 2 = 1 - (st.front * Complex.sin θ / st.back) ^ 2 ∧
      ∀ {d0 db : Thick} {a : Amps},
      cohTmm (st.layers d0 db) [((θ : ℂ), lam)] = .ok [a] →
      ∀ {pol : Pol} {r t : ℂ}, a.of pol = some (r, t) →
      ∀ {ms : List Medium}, List.Forall₂ (IsFilm (st.front * Complex.sin θ) lam) st.films ms →
      (∀ m ∈ ms, |m.δ.im| ≤ 35) →
      Solves pol st θ ms cb r t ∧
        ∀ r' t', Solves pol st θ ms cb r' t' → r' = r ∧ t' = t := by
  refine ⟨root1m (st.front * Complex.sin θ / st.back), root1m_sq _, ?_⟩
  intro d0 db a ha pol r t hr ms hms hc
  rw [coh_of hnz hl ha, solveSt] at hr
  rw [root1m_sin hθ] at hr
  obtain ⟨h1, h2⟩ := solveL_spec hr
  have hfl := fun T : ℂ => fields_flip_films (pol := pol) (t := T)
    (b := ⟨st.back, root1m (st.front * Complex.sin θ / st.back), 0⟩) (films_flip hms hc)
  refine ⟨(hfl t _ _ _).mp h1, fun r' t' hs => ?_⟩
  have := h2 1 r' t' ((hfl t' _ _ _).mpr hs)
  simpa using this

theorem outgoing_unique {n : ℂ} (hn : PassiveIndex n) {s : ℝ} (htir : ¬ (n.im = 0 ∧ n.re < s))
    {c : ℂ} (hc : c ^ 2 = 1 - ((s : ℂ) / n) ^ 2) (ho : Outgoing n c) : c = root1m (s / n) := by
  rcases sq_eq_sq_iff_eq_or_eq_neg.mp (hc.trans (root1m_sq _).symm) with e | e
  · exact e
  · exfalso
    have e2 : n * c = -(qOf s n) := by rw [e, qOf]; ring
    rw [Outgoing, e2] at ho
    simp only [Complex.neg_im, Complex.neg_re] at ho
    rcases qOf_cases hn s with h | ⟨_, _, h⟩ | ⟨_, _, h⟩ | ⟨h0, h1, h2, h3⟩ | ⟨h0, h1, h2, h3⟩
    · rcases ho with ho | ho <;> linarith
    · rw [h] at ho; simp at ho
    · rw [h] at ho; simp at ho
    · exact htir ⟨h0, h1⟩
    · rcases ho with ho | ho <;> linarith

/-- C01/C12: with a transparent fronting medium and a passive backing medium, the result is the
unique solution with an *outgoing* (decaying) wave in the backing medium.  Missing from the full
claim C12: total internal reflection at a transparent backing medium with positive angle
(see `C12_growing_wave`). -/
theorem C12_outgoing_partial {st : Stack} (hnz : st.NZ) {n₀ θ lam : ℝ} (hf : st.front = n₀)
    (hθ : |θ| ≤ Real.pi / 2) (hl : lam ≠ 0) (hb : PassiveIndex st.back)
    (htir : ¬ (st.back.im = 0 ∧ st.back.re < n₀ * Real.sin θ))
    {d0 db : Thick} {a : Amps} (ha : cohTmm (st.layers d0 db) [((θ : ℂ), lam)] = .ok [a])
    {pol : Pol} {r t : ℂ} (hr : a.of pol = some (r, t))
    {ms : List Medium} (hms : List.Forall₂ (IsFilm (st.front * Complex.sin θ) lam) st.films ms)
    (hc : ∀ m ∈ ms, |m.δ.im| ≤ 35)
    {cb : ℂ} (hcb : cb ^ 2 = 1 - (st.front * Complex.sin θ / st.back) ^ 2)
    (hout : Outgoing st.back cb) :
    Solves pol st θ ms cb r t ∧
      ∀ r' t', Solves pol st θ ms cb r' t' → r' = r ∧ t' = t := by
  have hcb2 : cb = root1m (st.front * Complex.sin θ / st.back) := by
    rw [s_real hf] at hcb ⊢
    exact outgoing_unique hb htir hcb hout
  subst hcb2
  rw [coh_of hnz hl ha, solveSt] at hr
  rw [root1m_sin hθ] at hr
  obtain ⟨h1, h2⟩ := solveL_spec hr
  have hfl := fun T : ℂ => fields_flip_films (pol := pol) (t := T)
    (b := ⟨st.back, root1m (st.front * Complex.sin θ / st.back), 0⟩) (films_flip hms hc)
  refine ⟨(hfl t _ _ _).mp h1, fun r' t' hs => ?_⟩
  have := h2 1 r' t' ((hfl t' _ _ _).mpr hs)
  simpa using this

/-- An outgoing direction always exists away from the critical angle, so the hypotheses of
`C12_outgoing_partial` on `cb` can be met. -/
theorem outgoing_exists {n : ℂ} (hn : PassiveIndex n) (s : ℝ) (hs : n ^ 2 ≠ (s : ℂ) ^ 2) :
    ∃ c : ℂ, c ^ 2 = 1 - ((s : ℂ) / n) ^ 2 ∧ Outgoing n c := by
  have key : ∀ c : ℂ, n * c = qOf s n → c ^ 2 = 1 - ((s : ℂ) / n) ^ 2 := by
    intro c hc
    have : c = root1m (s / n) := by
      rw [qOf] at hc; exact mul_left_cancel₀ hn.ne_zero hc
    rw [this, root1m_sq]
  have hne : qOf s n ≠ 0 := by
    intro h0
    have := qOf_sq s hn.ne_zero
    rw [h0] at this
    apply hs
    linear_combination -this
  rcases qOf_cases hn s with h | ⟨_, _, h⟩ | ⟨_, _, h⟩ | ⟨h0, h1, h2, h3⟩ | ⟨h0, h1, h2, h3⟩
  · refine ⟨root1m (s / n), root1m_sq _, ?_⟩
    rw [Outgoing, ← qOf]
    rcases h.2.lt_or_eq with h' | h'
    · exact Or.inl h'
    · exact Or.inr ⟨h'.symm, h.1⟩
  · exact absurd h hne
  · exact absurd h hne
  · refine ⟨-root1m (s / n), by rw [neg_sq, root1m_sq], ?_⟩
    left
    rw [mul_neg, ← qOf, Complex.neg_im]; linarith
  · refine ⟨root1m (s / n), root1m_sq _, ?_⟩
    left
    rw [← qOf]; exact h3

/-- C02: a bare interface gives the Fresnel coefficients at the angle given by Snell's law. -/
theorem C02_coh_tmm_fresnel {n n' : ℂ} (hn : n ≠ 0) (hn' : n' ≠ 0) {θ lam : ℝ}
    (hθ : |θ| < Real.pi / 2) (hl : lam ≠ 0) {d0 db : Thick} {a : Amps}
    (ha : cohTmm [⟨some n, d0⟩, ⟨some n', db⟩] [((θ : ℂ), lam)] = .ok [a]) :
    ∃ θ' : ℂ, n' * Complex.sin θ' = n * Complex.sin θ ∧
      (n * Complex.cos θ + n' * Complex.cos θ' ≠ 0 → a.s =
        some (fresnelR .s n n' (Complex.cos θ) (Complex.cos θ'),
              fresnelT .s n n' (Complex.cos θ) (Complex.cos θ'))) ∧
      (n' * Complex.cos θ + n * Complex.cos θ' ≠ 0 → a.p =
        some (fresnelR .p n n' (Complex.cos θ) (Complex.cos θ'),
              fresnelT .p n n' (Complex.cos θ) (Complex.cos θ'))) := by
  refine ⟨npArcsin (n * Complex.sin θ / n'), ?_, ?_⟩
  · rw [sin_npArcsin]; field_simp
  have hst : cohTmm ((⟨n, [], n'⟩ : Stack).layers d0 db) [((θ : ℂ), lam)] = .ok [a] := ha
  have hnz : (⟨n, [], n'⟩ : Stack).NZ := ⟨hn, by simp, hn'⟩
  have hcos : Complex.cos (θ : ℂ) ≠ 0 := by
    rw [← Complex.ofReal_cos]
    exact Complex.ofReal_ne_zero.mpr (Real.cos_pos_of_mem_Ioo
      ⟨by linarith [(abs_lt.mp hθ).1], (abs_lt.mp hθ).2⟩).ne'
  have hnc : n * Complex.cos θ ≠ 0 := mul_ne_zero hn hcos
  have hs := coh_of hnz hl hst .s
  have hp := coh_of hnz hl hst .p
  simp only [Amps.of, solveSt, List.map_nil, List.nil_append, solveL, root1m_sin hθ.le] at hs hp
  rw [cos_npArcsin]
  constructor
  · intro hd
    rw [hs, solve_eq_some]
    simp only [Nondeg, prod, iMat, den, num, fresnelR, fresnelT]
    refine ⟨⟨⟨hd, hnc⟩, trivial⟩, ?_, ?_, ?_⟩
    · exact div_ne_zero hd (by rw [mul_assoc]; exact mul_ne_zero two_ne_zero hnc)
    · field_simp
    · field_simp
  · intro hd
    rw [hp, solve_eq_some]
    simp only [Nondeg, prod, iMat, den, num, fresnelR, fresnelT]
    refine ⟨⟨⟨hd, hnc⟩, trivial⟩, ?_, ?_, ?_⟩
    · exact div_ne_zero hd (by rw [mul_assoc]; exact mul_ne_zero two_ne_zero hnc)
    · field_simp
    · field_simp

theorem fresnel_eq (pol : Pol) (m m' : Medium) :
    num pol m m' / den pol m m' = fresnelR pol m.n m'.n m.c m'.c := by
  cases pol <;> rfl

/-- The Airy formula with the direction cosines of the code. -/
theorem airy_code {n₀ n₁ n₂ : ℂ} {d : ℝ} (h0 : n₀ ≠ 0) (h1 : n₁ ≠ 0) (h2 : n₂ ≠ 0)
    {θ lam : ℝ} (hθ : |θ| ≤ Real.pi / 2) (hl : lam ≠ 0) {d0 db : Thick} {a : Amps}
    (ha : cohTmm [⟨some n₀, d0⟩, ⟨some n₁, .fin d⟩, ⟨some n₂, db⟩] [((θ : ℂ), lam)] = .ok [a])
    {pol : Pol} {r t : ℂ} (hr : a.of pol = some (r, t)) :
    let c₁ := root1m (n₀ * Complex.sin θ / n₁)
    let c₂ := root1m (n₀ * Complex.sin θ / n₂)
    let δ := 2 * Real.pi * n₁ * c₁ * d / lam
    let r01 := fresnelR pol n₀ n₁ (Complex.cos θ) c₁
    let r12 := fresnelR pol n₁ n₂ c₁ c₂
    (δ.im ≤ 35 → r = (r01 + r12 * Complex.exp (2 * I * δ)) /
      (1 + r01 * r12 * Complex.exp (2 * I * δ))) := by
  intro c₁ c₂ δ r01 r12 hδ
  have hst : cohTmm ((⟨n₀, [(n₁, d)], n₂⟩ : Stack).layers d0 db) [((θ : ℂ), lam)] = .ok [a] := ha
  have hnz : (⟨n₀, [(n₁, d)], n₂⟩ : Stack).NZ := ⟨h0, by simpa using h1, h2⟩
  rw [coh_of hnz hl hst pol] at hr
  simp only [solveSt, List.map_cons, List.map_nil, List.cons_append, List.nil_append, solveL,
    root1m_sin hθ] at hr
  have hδ' : (codeMed (n₀ * Complex.sin θ) lam (n₁, d)).δ = δ := by
    have e : 2 * Real.pi * n₁ * root1m (n₀ * Complex.sin θ / n₁) / lam * d = δ := by
      simp only [δ]; ring
    simp only [codeMed]
    rw [e, clip35_of_le hδ]
  obtain ⟨hn, hpa, hrr, -⟩ := solve_eq_some.mp hr
  obtain ⟨⟨hd1, hq1⟩, ⟨hd2, hq2⟩, -⟩ := hn
  simp only [prod] at hpa hrr
  rw [hδ'] at hpa hrr
  set m0 : Medium := ⟨n₀, Complex.cos θ, 0⟩
  set m1 := codeMed (n₀ * Complex.sin θ) lam (n₁, d)
  set m2 : Medium := ⟨n₂, root1m (n₀ * Complex.sin θ / n₂), 0⟩
  have e01 : r01 = num pol m0 m1 / den pol m0 m1 := by rw [fresnel_eq]; rfl
  have e12 : r12 = num pol m1 m2 / den pol m1 m2 := by rw [fresnel_eq]; rfl
  have hee : Complex.exp (2 * I * δ) = Complex.exp (I * δ) * Complex.exp (I * δ) := by
    rw [← Complex.exp_add]; ring_nf
  have hβ := Complex.exp_ne_zero (I * δ)
  simp only [step, iMat] at hpa hrr
  rw [hrr, e01, e12, hee]
  rw [Complex.exp_neg] at hpa ⊢
  generalize Complex.exp (I * δ) = β at *
  have hA : 2 * m0.n * m0.c ≠ 0 := by rw [mul_assoc]; exact mul_ne_zero two_ne_zero hq1
  have hB : 2 * m1.n * m1.c ≠ 0 := by rw [mul_assoc]; exact mul_ne_zero two_ne_zero hq2
  generalize 2 * m0.n * m0.c = A at *
  generalize 2 * m1.n * m1.c = B at *
  generalize num pol m0 m1 = x01 at *
  generalize num pol m1 m2 = x12 at *
  generalize den pol m0 m1 = y01 at *
  generalize den pol m1 m2 = y12 at *
  have hD : y01 * y12 + x01 * x12 * (β * β) ≠ 0 := by
    intro h
    apply hpa
    have : y01 / A * (β⁻¹ * (y12 / B)) + x01 / A * (β * (x12 / B)) =
        (y01 * y12 + x01 * x12 * (β * β)) / (A * B * β) := by field_simp
    rw [this, h]; simp
  have hD2 : 1 + x01 / y01 * (x12 / y12) * (β * β) ≠ 0 := by
    intro h
    apply hD
    have : y01 * y12 + x01 * x12 * (β * β) =
      y01 * y12 * (1 + x01 / y01 * (x12 / y12) * (β * β)) := by field_simp
    rw [this, h]; simp
  rw [div_eq_div_iff hpa hD2]
  field_simp

/-- C03: a single film gives the Airy formula. -/
theorem C03_coh_tmm_airy {n₀ n₁ n₂ : ℂ} {d : ℝ} (h0 : n₀ ≠ 0) (h1 : n₁ ≠ 0) (h2 : n₂ ≠ 0)
    {θ lam : ℝ} (hθ : |θ| ≤ Real.pi / 2) (hl : lam ≠ 0) {d0 db : Thick} {a : Amps}
    (ha : cohTmm [⟨some n₀, d0⟩, ⟨some n₁, .fin d⟩, ⟨some n₂, db⟩] [((θ : ℂ), lam)] = .ok [a])
    {pol : Pol} {r t : ℂ} (hr : a.of pol = some (r, t)) :
    ∃ c₁ c₂ : ℂ, c₁ ^ 2 = 1 - (n₀ * Complex.sin θ / n₁) ^ 2 ∧
      c₂ ^ 2 = 1 - (n₀ * Complex.sin θ / n₂) ^ 2 ∧
      let δ := 2 * Real.pi * n₁ * c₁ * d / lam
      let r01 := fresnelR pol n₀ n₁ (Complex.cos θ) c₁
      let r12 := fresnelR pol n₁ n₂ c₁ c₂
      (δ.im ≤ 35 → r = (r01 + r12 * Complex.exp (2 * I * δ)) /
        (1 + r01 * r12 * Complex.exp (2 * I * δ))) := by
  exact ⟨_, _, root1m_sq _, root1m_sq _, airy_code h0 h1 h2 hθ hl ha hr⟩

/-- C11: Snell's law holds in every layer of the code's list of angles. -/
theorem C11_snell (n₀ θ : ℂ) (ls : List Layer) :
    ∀ x ∈ angles n₀ θ ls, ∀ n th, x = some (n, th) → n * Complex.sin th = n₀ * Complex.sin θ := by
  intro x hx n th he
  subst he
  simp only [angles, List.mem_map] at hx
  obtain ⟨l, hl, hx⟩ := hx
  cases hn : l.n with
  | none => rw [hn] at hx; simp at hx
  | some m =>
    rw [hn] at hx
    simp only [Option.bind_eq_bind, Option.bind_some] at hx
    cases hz : cdiv (n₀ * Complex.sin θ) m with
    | none => rw [hz] at hx; simp at hx
    | some z =>
      rw [hz] at hx
      simp only [Option.bind_some, Option.some.injEq, Prod.mk.injEq] at hx
      obtain ⟨rfl, rfl⟩ := hx
      obtain ⟨hm, rfl⟩ := cdiv_eq_some.mp hz
      rw [sin_npArcsin]; field_simp

/-- C11: the result does not depend on the propagation direction chosen for any film: two
descriptions of the same films have exactly the same solutions. -/
theorem C11_direction_irrelevant {pol : Pol} {st : Stack} {θ lam : ℝ} {cb r t : ℂ}
    {ms ms' : List Medium}
    (h : List.Forall₂ (IsFilm (st.front * Complex.sin θ) lam) st.films ms)
    (h' : List.Forall₂ (IsFilm (st.front * Complex.sin θ) lam) st.films ms') :
    Solves pol st θ ms cb r t ↔ Solves pol st θ ms' cb r t := by
  have : List.Forall₂ (fun m m' => m' = m ∨ m' = m.flip) ms ms' := by
    generalize st.films = fs at h h'
    induction h generalizing ms' with
    | nil => cases h'; exact .nil
    | @cons f m fs ms hm _ ih =>
      cases h' with
      | @cons _ m' _ _ hm' hr' =>
        refine .cons ?_ (ih hr')
        obtain ⟨h1, h2, h3⟩ := hm
        obtain ⟨h1', h2', h3'⟩ := hm'
        obtain ⟨n, c, δ⟩ := m
        obtain ⟨n', c', δ'⟩ := m'
        simp only at h1 h2 h3 h1' h2' h3'
        rcases sq_eq_sq_iff_eq_or_eq_neg.mp (h2'.trans h2.symm) with e | e
        · left; simp only [Medium.mk.injEq]; subst e; exact ⟨h1'.trans h1.symm, rfl, h3'.trans h3.symm⟩
        · right; simp only [Medium.flip, Medium.mk.injEq]; subst e
          exact ⟨h1'.trans h1.symm, rfl, by rw [h3', h3]; ring⟩
  exact fields_flip_films this _ _ _

/-- C12, negation: in total internal reflection at a transparent backing medium with positive
angle of incidence, `coh_tmm` returns the *complex conjugate* of the physical amplitude (the one
belonging to a decaying wave), for every such interface. -/
theorem C12_growing_wave {n₀ nb θ lam : ℝ} (h0 : 0 < n₀) (hb : 0 < nb)
    (hθ : |θ| < Real.pi / 2) (hl : lam ≠ 0) (htir : nb < n₀ * Real.sin θ)
    {d0 db : Thick} {a : Amps}
    (ha : cohTmm ((⟨n₀, [], nb⟩ : Stack).layers d0 db) [((θ : ℂ), lam)] = .ok [a])
    {pol : Pol} {r t : ℂ} (hr : a.of pol = some (r, t))
    {cb : ℂ} (hcb : cb ^ 2 = 1 - ((n₀ : ℂ) * Complex.sin θ / (nb : ℂ)) ^ 2)
    (hout : Outgoing nb cb) {rp tp : ℂ}
    (hphys : Solves pol (⟨n₀, [], nb⟩ : Stack) θ [] cb rp tp) : r = conj rp ∧ r ≠ rp := by
  set s : ℝ := n₀ * Real.sin θ with hs
  have hsr : (n₀ : ℂ) * Complex.sin θ = (s : ℂ) := by rw [hs]; push_cast; rfl
  have hnz : (⟨n₀, [], nb⟩ : Stack).NZ :=
    ⟨Complex.ofReal_ne_zero.mpr h0.ne', by simp, Complex.ofReal_ne_zero.mpr hb.ne'⟩
  rw [coh_of hnz hl ha, solveSt] at hr
  rw [root1m_sin hθ.le] at hr
  simp only [List.map_nil, List.nil_append] at hr
  have h1 := (solveL_spec hr).1
  have hcos : 0 < Real.cos θ :=
    Real.cos_pos_of_mem_Ioo ⟨by linarith [(abs_lt.mp hθ).1], (abs_lt.mp hθ).2⟩
  -- the code's direction cosine
  have hc : root1m ((s : ℂ) / (nb : ℂ)) = -I * (Real.sqrt ((s / nb) ^ 2 - 1) : ℂ) := by
    rw [← Complex.ofReal_div, root1m_ofReal_gt ((one_lt_div hb).mpr htir)]
  set y : ℝ := Real.sqrt ((s / nb) ^ 2 - 1) with hy
  have hypos : 0 < y := by
    apply Real.sqrt_pos.mpr
    have : 1 < s / nb := (one_lt_div hb).mpr htir
    nlinarith
  rw [hsr] at h1 hcb
  rw [hc] at h1
  have hcb' : cb = I * y := by
    have h2 : cb ^ 2 = (I * (y : ℂ)) ^ 2 := by
      have := root1m_sq ((s : ℂ) / (nb : ℂ))
      rw [hcb, ← this, hc]; ring
    rcases sq_eq_sq_iff_eq_or_eq_neg.mp h2 with e | e
    · exact e
    · exfalso
      rw [Outgoing, e] at hout
      simp at hout
      have := mul_pos hb hypos
      linarith
  rw [hcb'] at hphys
  simp only [Solves, List.nil_append, Fields] at h1 hphys
  have hcosC : Complex.cos (θ : ℂ) = ((Real.cos θ : ℝ) : ℂ) := by push_cast; rfl
  rw [hcosC] at h1 hphys
  set c0 := Real.cos θ
  cases pol
  · obtain ⟨e1, e2⟩ := h1
    obtain ⟨p1, p2⟩ := hphys
    simp only [add_zero, sub_zero] at e1 e2 p1 p2
    have hr1 : r * ((n₀ * c0 : ℝ) - I * (nb * y : ℝ)) = (n₀ * c0 : ℝ) + I * (nb * y : ℝ) := by
      rw [← e1] at e2; push_cast; linear_combination -e2
    have hr2 : rp * ((n₀ * c0 : ℝ) + I * (nb * y : ℝ)) = (n₀ * c0 : ℝ) - I * (nb * y : ℝ) := by
      rw [← p1] at p2; push_cast; linear_combination -p2
    have hA : 0 < n₀ * c0 := mul_pos h0 hcos
    have hB : 0 < nb * y := mul_pos hb hypos
    generalize n₀ * c0 = A at *
    generalize nb * y = B at *
    have hne : ((A : ℝ) : ℂ) - I * (B : ℝ) ≠ 0 := by
      intro h; have := congrArg Complex.re h; simp at this; linarith
    have hconj := congrArg conj hr2
    simp only [map_mul, map_add, map_sub, Complex.conj_ofReal, Complex.conj_I] at hconj
    have hrc : r = conj rp := by
      apply mul_right_cancel₀ hne
      rw [hr1]
      linear_combination -hconj
    refine ⟨hrc, ?_⟩
    intro heq
    rw [heq] at hr1
    have h3 : (rp + 1) * B = 0 := by
      linear_combination (I / 2) * (hr1 - hr2) + (rp + 1) * B * Complex.I_sq
    have h4 : rp = -1 := by
      rcases mul_eq_zero.mp h3 with h | h
      · linear_combination h
      · exact absurd (Complex.ofReal_eq_zero.mp h) hB.ne'
    rw [h4] at hr1
    have h5 := congrArg Complex.re hr1
    simp at h5
    linarith
  · obtain ⟨e1, e2⟩ := h1
    obtain ⟨p1, p2⟩ := hphys
    simp only [add_zero, sub_zero] at e1 e2 p1 p2
    have hr1 : r * ((nb * c0 : ℝ) - I * (n₀ * y : ℝ)) = (nb * c0 : ℝ) + I * (n₀ * y : ℝ) := by
      push_cast; linear_combination (-(nb : ℂ)) * e2 + (-I * (y : ℂ)) * e1
    have hr2 : rp * ((nb * c0 : ℝ) + I * (n₀ * y : ℝ)) = (nb * c0 : ℝ) - I * (n₀ * y : ℝ) := by
      push_cast; linear_combination (-(nb : ℂ)) * p2 + (I * (y : ℂ)) * p1
    have hA : 0 < nb * c0 := mul_pos hb hcos
    have hB : 0 < n₀ * y := mul_pos h0 hypos
    generalize nb * c0 = A at *
    generalize n₀ * y = B at *
    have hne : ((A : ℝ) : ℂ) - I * (B : ℝ) ≠ 0 := by
      intro h; have := congrArg Complex.re h; simp at this; linarith
    have hconj := congrArg conj hr2
    simp only [map_mul, map_add, map_sub, Complex.conj_ofReal, Complex.conj_I] at hconj
    have hrc : r = conj rp := by
      apply mul_right_cancel₀ hne
      rw [hr1]
      linear_combination -hconj
    refine ⟨hrc, ?_⟩
    intro heq
    rw [heq] at hr1
    have h3 : (rp + 1) * B = 0 := by
      linear_combination (I / 2) * (hr1 - hr2) + (rp + 1) * B * Complex.I_sq
    have h4 : rp = -1 := by
      rcases mul_eq_zero.mp h3 with h | h
      · linear_combination h
      · exact absurd (Complex.ofReal_eq_zero.mp h) hB.ne'
    rw [h4] at hr1
    have h5 := congrArg Complex.re hr1
    simp at h5
    linarith

/-! ### Non-vacuity -/

/-- The films of `exStack` have media within the range of the code (no clip). -/
theorem exStack_media : ∃ ms, List.Forall₂ (IsFilm (exStack.front *
    Complex.sin ((Real.pi / 6 : ℝ) : ℂ)) 500) exStack.films ms ∧ (∀ m ∈ ms, |m.δ.im| ≤ 35) ∧
    ms.length = 2 := by
  set s := exStack.front * Complex.sin ((Real.pi / 6 : ℝ) : ℂ) with hs
  have hs' : s = ((1 / 2 : ℝ) : ℂ) := by
    rw [hs, ← Complex.ofReal_sin, Real.sin_pi_div_six]; simp [exStack]
  refine ⟨exStack.films.map fun f =>
    ⟨f.1, root1m (s / f.1), 2 * Real.pi * f.1 * root1m (s / f.1) * f.2 / (500 : ℝ)⟩, ?_, ?_, ?_⟩
  · rw [List.forall₂_map_right_iff]
    exact List.forall₂_same.mpr fun f _ => codeMed_isFilm s 500 f
  · intro m hm
    obtain ⟨f, hf, rfl⟩ := List.mem_map.mp hm
    have hi : IsFilm s 500 f _ := codeMed_isFilm s 500 f
    have hb : ∀ g ∈ exStack.films, g.1 ≠ 0 ∧ 0 ≤ g.2 ∧ g.2 ≤ 20 ∧ ‖g.1‖ ≤ 3 := by
      intro g hg
      simp only [exStack, List.mem_cons, List.not_mem_nil, or_false] at hg
      rcases hg with rfl | rfl
      · refine ⟨?_, by norm_num, by norm_num, ?_⟩
        · intro h; have := congrArg Complex.im h; simp at this
        · calc ‖(2 : ℂ) + I‖ ≤ ‖(2 : ℂ)‖ + ‖I‖ := norm_add_le _ _
            _ = 3 := by simp; norm_num
      · refine ⟨by norm_num, by norm_num, by norm_num, ?_⟩
        simp
    obtain ⟨h1, h2, h3, h4⟩ := hb f hf
    have h0 := hi.norm_le h1 (by norm_num) h2
    have h5 : ‖s‖ = 1 / 2 := by rw [hs', Complex.norm_real]; norm_num
    rw [h5] at h0
    have hpi := Real.pi_pos
    have h6 : 2 * Real.pi * f.2 / 500 * (‖f.1‖ + 1 / 2) ≤ 2 * 4 * 20 / 500 * (3 + 1 / 2) := by
      gcongr
      exact Real.pi_le_four
    have h7 := (Complex.abs_im_le_norm
      (2 * Real.pi * f.1 * root1m (s / f.1) * f.2 / (500 : ℝ) : ℂ))
    norm_num at h6
    simp only
    linarith
  · simp [exStack]

/-- The hypotheses of `C01_coh_tmm_maxwell` and `C12_outgoing_partial` hold for `exStack`. -/
example : ∃ a ms cb r t, cohTmm (exStack.layers .inf .inf) [((Real.pi / 6 : ℝ), 500)] = .ok [a] ∧
    a.of .p = some (r, t) ∧ Outgoing exStack.back cb ∧
    Solves .p exStack (Real.pi / 6) ms cb r t := by
  obtain ⟨a, ha, hfin⟩ := C10_coh_tmm_finite exStack_physical .inf .inf
  obtain ⟨ms, hms, hc, _⟩ := exStack_media
  obtain ⟨r, t, hr⟩ := hfin .p
  have hsr := exStack_physical.sreal
  have hne : exStack.back ^ 2 ≠ ((1 * Real.sin (Real.pi / 6) : ℝ) : ℂ) ^ 2 := by
    intro h
    have := congrArg Complex.im h
    rw [← Complex.ofReal_pow, Complex.ofReal_im] at this
    simp [exStack, sq] at this
  obtain ⟨cb, hcb, hout⟩ := outgoing_exists exStack_physical.back _ hne
  rw [← hsr] at hcb
  have htir : ¬ (exStack.back.im = 0 ∧ exStack.back.re < 1 * Real.sin (Real.pi / 6)) := by
    simp [exStack]
  exact ⟨a, ms, cb, r, t, ha, hr, hout,
    (C12_outgoing_partial exStack_physical.nz exStack_physical.front exStack_physical.angle.le
      (by norm_num) exStack_physical.back htir ha hr hms hc hcb hout).1⟩

/-- Glass-like medium against vacuum at 45 degrees: total internal reflection. -/
noncomputable def tirStack : Stack := ⟨(2 : ℝ), [], (1 : ℝ)⟩

theorem tirStack_physical : Physical tirStack 2 (Real.pi / 4) 500 := by
  have hpi := Real.pi_pos
  refine ⟨rfl, two_pos, ?_, by norm_num, by simp [tirStack], by simp [tirStack, PassiveIndex],
    by simp [tirStack], by simp [tirStack]⟩
  rw [abs_of_pos (by positivity)]; linarith

/-- C12, concrete witness of the failure: at 45 degrees from index 2 to index 1 the amplitude
returned is not the physical one. -/
theorem C12_growing_wave_witness : ∃ a r t rp tp, cohTmm (tirStack.layers .inf .inf)
      [((Real.pi / 4 : ℝ), 500)] = .ok [a] ∧ a.of .s = some (r, t) ∧
    Outgoing tirStack.back I ∧ I ^ 2 = 1 - (tirStack.front *
      Complex.sin ((Real.pi / 4 : ℝ) : ℂ) / tirStack.back) ^ 2 ∧
    Solves .s tirStack (Real.pi / 4) [] I rp tp ∧ r ≠ rp := by
  obtain ⟨a, ha, hfin⟩ := C10_coh_tmm_finite tirStack_physical .inf .inf
  obtain ⟨r, t, hr⟩ := hfin .s
  have hsin : Real.sin (Real.pi / 4) = Real.sqrt 2 / 2 := Real.sin_pi_div_four
  have hcos : Complex.cos ((Real.pi / 4 : ℝ) : ℂ) = ((Real.sqrt 2 / 2 : ℝ) : ℂ) := by
    rw [← Complex.ofReal_cos, Real.cos_pi_div_four]
  have h2 : (Real.sqrt 2 : ℝ) ^ 2 = 2 := Real.sq_sqrt (by norm_num)
  have h2c : ((Real.sqrt 2 : ℝ) : ℂ) ^ 2 = 2 := by exact_mod_cast congrArg Complex.ofReal h2
  have hpos : 1 < Real.sqrt 2 := by
    rw [Real.lt_sqrt] <;> norm_num
  have hsq : I ^ 2 = 1 - (tirStack.front *
      Complex.sin ((Real.pi / 4 : ℝ) : ℂ) / tirStack.back) ^ 2 := by
    rw [tirStack_physical.sreal, hsin]
    simp only [tirStack, Complex.ofReal_one, div_one, Complex.I_sq]
    push_cast
    linear_combination h2c
  have hout : Outgoing tirStack.back I := by left; simp [tirStack]
  have hne : ((Real.sqrt 2 : ℝ) : ℂ) + I ≠ 0 := by
    intro h; have := congrArg Complex.im h; simp at this
  have hsol : Solves .s tirStack (Real.pi / 4) [] I
      (((Real.sqrt 2 : ℝ) - I) / ((Real.sqrt 2 : ℝ) + I))
      (2 * (Real.sqrt 2 : ℝ) / ((Real.sqrt 2 : ℝ) + I)) := by
    simp only [Solves, List.nil_append, Fields, Tangential, tirStack]
    rw [hcos]
    push_cast
    constructor <;> field_simp <;> ring
  refine ⟨a, r, t, _, _, ha, hr, hout, hsq, hsol, ?_⟩
  refine (C12_growing_wave (n₀ := 2) (nb := 1) two_pos one_pos tirStack_physical.angle
    (by norm_num) ?_ ha hr hsq hout hsol).2
  rw [hsin]; linarith

/-- Non-vacuity of `C02`, `C03`. -/
example : ∃ a : Amps, ∃ x, cohTmm [⟨some (1 : ℂ), .inf⟩, ⟨some (2 + I), .fin 10⟩, ⟨some 3, .inf⟩]
    [((0 : ℝ), 500)] = .ok [a] ∧ a.of .s = some x := by
  have hp : Physical ⟨1, [(2 + I, 10)], 3⟩ 1 0 500 := by
    have hsinh : (35 : ℝ) ≤ Real.sinh 35 := Real.self_le_sinh_iff.mpr (by norm_num)
    have hpi := Real.pi_pos
    refine ⟨by simp, one_pos, by simpa using hpi, by norm_num, by simp [PassiveIndex],
      by simp [PassiveIndex], ?_, ?_⟩
    · intro f hf h
      simp only [List.mem_singleton] at hf
      subst hf
      have := congrArg Complex.im h
      simp [sq] at this
    · intro f hf m hm
      simp only [List.mem_singleton] at hf
      subst hf
      have hne : (2 : ℂ) + I ≠ 0 := by
        intro h; have := congrArg Complex.im h; simp at this
      have h1 := hm.norm_le hne (by norm_num) (by norm_num)
      have h2 : ‖(2 : ℂ) + I‖ ≤ 3 := by
        calc ‖(2 : ℂ) + I‖ ≤ ‖(2 : ℂ)‖ + ‖I‖ := norm_add_le _ _
            _ = 3 := by simp; norm_num
      have h3 := (le_abs_self m.δ.im).trans (Complex.abs_im_le_norm m.δ)
      simp only [Complex.ofReal_zero, Complex.sin_zero, mul_zero, norm_zero, add_zero] at h1
      have h4 : 2 * Real.pi * 10 / 500 * ‖(2 : ℂ) + I‖ ≤ 2 * 4 * 10 / 500 * 3 := by
        gcongr
        exact Real.pi_le_four
      norm_num at h4
      linarith
  obtain ⟨a, ha, hfin⟩ := C10_coh_tmm_finite hp .inf .inf
  obtain ⟨r, t, hr⟩ := hfin .s
  exact ⟨a, (r, t), ha, hr⟩

end Verif.TMM
