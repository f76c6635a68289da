import Verif.Struct.PropsSlabs

/-!
# C128: a refractive index that is not a number stays visible
-/

namespace Verif.Struct

open Verif.EMA

/-- C128 (partial): mixing with an undefined index gives an undefined index under the linear rule, and under
the Maxwell-Garnett rule if the first material is the undefined one.  Missing: the other cases, for which the
claim is false, see `C128_fails_bruggeman` and `C128_fails_garnett`. -/
theorem C128_mix_partial (σ : Bool × Bool) (A B : Option ℂ) (f L : ℝ) :
    (A = none ∨ B = none → overallRiO σ A B f "linear" L = .ok none) ∧
      (A = none → overallRiO σ A B f "maxwell-garnett" L = .ok none) := by
  refine ⟨?_, ?_⟩
  · rintro (rfl | rfl)
    · cases B <;> simp [overallRiO]
    · cases A <;> simp [overallRiO]
  · rintro rfl
    cases B <;> simp [overallRiO]

/-- C128 fails for the Bruggeman rule: if one of the materials has no index, the mixture has index 0. -/
theorem C128_fails_bruggeman (σ : Bool × Bool) (A B : Option ℂ) (f L : ℝ) (h : A = none ∨ B = none) :
    overallRiO σ A B f "bruggeman" L = .ok (some 0) := by
  rcases h with rfl | rfl
  · cases B <;> simp [overallRiO]
  · cases A <;> simp [overallRiO]

/-- C128 fails for the Maxwell-Garnett rule: if the second material has no index, the mixture has index 0. -/
theorem C128_fails_garnett (σ : Bool × Bool) (A : ℂ) (f L : ℝ) :
    overallRiO σ (some A) none f "maxwell-garnett" L = .ok (some 0) := by
  simp [overallRiO]

/-- C128 fails for structures: in a solvated structure with the Bruggeman rule, an interior layer whose
material has no index at the structure's wavelength appears in the slabs with index 0. -/
theorem C128_fails_layer (ext : Ext) (v : Vals) {s : Structure} {cs : List Comp} (h : Plain s cs)
    (hr : s.reverse = false) (he : s.ema = "bruggeman") (hsolv : ∃ c ∈ cs, 0 < (cols v c).2.2) {i : ℕ}
    (h0 : 0 < i) (h1 : i + 1 < cs.length) {t g f : PId} {r : ScatObj} {d : Bool} {own : ℝ}
    (hc : cs[i]? = some (.slab t r g f d)) (hown : (r v).ownWav = some own)
    (hnan : ∀ n, EvalAt ext.zs s.wavelength (r v) n → n = none) :
    ∃ rows row, (slabs ext v s none).1 = .ok (some rows) ∧ rows[i]? = some row ∧ row.ri = some 0 := by
  have hiR : i < (cs.map (compRow ext v s.toSettings)).length := by simp; omega
  have hany : ∃ r ∈ cs.map (compRow ext v s.toSettings), 0 < r.vf := by
    obtain ⟨c, hm, hp⟩ := hsolv
    refine ⟨_, List.mem_map_of_mem hm, ?_⟩
    rw [← compRow_cols ext v s.toSettings] at hp
    exact hp
  have hget := solv_get ext v s.toSettings _ hiR
  rw [if_pos ⟨hany, h0, by simpa using h1⟩] at hget
  refine ⟨_, _, by rw [slabs_plain ext v h], by
    simp only [hr, Bool.false_eq_true, if_false]; exact hget, ?_⟩
  have hi : i < cs.length := by omega
  have hci : cs[i] = .slab t r g f d := by
    rw [List.getElem?_eq_getElem hi, Option.some.injEq] at hc
    exact hc
  have hri : ((cs.map (compRow ext v s.toSettings))[i]).ri = none := by
    rw [List.getElem_map, hci]
    exact hnan _ (evalAt_layer ext s.toSettings hown)
  simp only [mixRow, hri, mixO, he]
  rw [C128_fails_bruggeman _ _ _ _ _ (.inl rfl)]

/-- Not vacuous: a Sellmeier material evaluated at its resonance has no index. -/
noncomputable def nanStruct : Structure :=
  { ema := "bruggeman", wavelength := some 500,
    data := [dry (.const 658 1 0), wet (.sellmeier 658 1 (1 / 2) 0 1), dry (.const 658 1 0)].map .comp }

theorem nanStruct_plain : Plain nanStruct
    [dry (.const 658 1 0), wet (.sellmeier 658 1 (1 / 2) 0 1), dry (.const 658 1 0)] :=
  plain_of rfl (by simp) (by simp [dry, wet, Comp.isSlab, Comp.dflt]) le_rfl (.inr (.inr rfl))

example (ext : Ext) : ∃ rows row, (slabs ext exVals nanStruct none).1 = .ok (some rows) ∧ rows[1]? = some row ∧
    row.ri = some 0 := by
  refine C128_fails_layer ext exVals nanStruct_plain rfl rfl
    ⟨wet (.sellmeier 658 1 (1 / 2) 0 1), by simp, by simp [wet, cols, exVals]⟩ (i := 1) one_pos (by simp) (own := 658)
    (by simp [wet]; exact ⟨rfl, rfl, rfl, rfl, rfl⟩) rfl ?_
  rintro n ⟨own, -, ⟨x, hx, -, rfl⟩ | ⟨h | h, -⟩⟩
  · simp only [nanStruct, Option.some.injEq] at hx
    subst hx
    norm_num [Disp.Scat.at, Disp.sellmeierReal, rdiv]
  · simp [nanStruct] at h
  · simp [nanStruct] at h

end Verif.Struct
