import Verif.RModel.PropsEndToEnd

/-!
# C132: `reverse_structure` is reversal of the components
-/

namespace Verif.RModel

open Verif.TMM Verif.Struct

/-- Two rows that differ at most in their roughness. -/
def SameOptics (r r' : Row) : Prop := r.thick = r'.thick ∧ r.ri = r'.ri ∧ r.vf = r'.vf

theorem deltaPsi_optics {rows rows' : List Row} (h : List.Forall₂ SameOptics rows rows')
    (zs : List Layer → ℝ → ℝ → Bool) (aoi : List ℝ) (wav off : ℝ) (refl : Bool) :
    (deltaPsiTMM zs aoi rows wav off refl).1 = (deltaPsiTMM zs aoi rows' wav off refl).1 := by
  have key : ∀ {l l' : List Row}, List.Forall₂ SameOptics l l' → toLayers l = toLayers l' := by
    intro l l' hl
    have h1 : l.map Row.ri = l'.map Row.ri := by
      induction hl with
      | nil => rfl
      | cons h _ ih => simp [h.2.1, ih]
    have h2 : (l.map fun r => Thick.fin (r.thick / 10)) = l'.map fun r => Thick.fin (r.thick / 10) := by
      clear h1
      induction hl with
      | nil => rfl
      | cons h _ ih => simp [h.1, ih]
    simp only [toLayers, h1, h2]
  cases h with
  | nil => rfl
  | @cons a b l l' hab hl =>
    have e : toLayers (zeroFrontK (a :: l)) = toLayers (zeroFrontK (b :: l')) := by
      apply key
      simp only [zeroFrontK]
      exact .cons ⟨hab.1, by simp [hab.2.1], hab.2.2⟩ hl
    simp only [deltaPsiTMM]
    rw [e]

theorem solvRows_optics (ext : Ext) (v : Vals) {st st' : Settings} (h1 : st.solvent = st'.solvent)
    (h2 : st.wavelength = st'.wavelength) (h3 : st.ema = st'.ema) (h4 : st.dp = st'.dp)
    {rows rows' : List Row} (h : List.Forall₂ SameOptics rows rows') :
    List.Forall₂ SameOptics (solvRows ext v st rows) (solvRows ext v st' rows') := by
  have hv : (∃ r ∈ rows, 0 < r.vf) ↔ ∃ r ∈ rows', 0 < r.vf := by
    induction h with
    | nil => simp
    | cons h _ ih => simp only [List.mem_cons, exists_eq_or_imp, h.2.2, ih]
  have hlen := h.length_eq
  have hlast : rows.getLast?.bind Row.ri = rows'.getLast?.bind Row.ri := by
    rw [List.getLast?_eq_getElem?, List.getLast?_eq_getElem?, hlen]
    rcases Nat.eq_zero_or_pos rows'.length with h0 | h0
    · rw [List.getElem?_eq_none (by omega), List.getElem?_eq_none (by omega)]
    · have a1 : rows'.length - 1 < rows.length := by omega
      have a2 : rows'.length - 1 < rows'.length := by omega
      rw [List.getElem?_eq_getElem a1, List.getElem?_eq_getElem a2]
      exact (List.Forall₂.get h a1 a2).2.1
  have hsol : solventOf ext v st rows = solventOf ext v st' rows' := by
    unfold solventOf
    rw [h1, h2, hlast]
  rw [List.forall₂_iff_get]
  refine ⟨by rw [solv_length, solv_length, hlen], fun i hi hi' => ?_⟩
  have a1 : i < rows.length := by rw [solv_length] at hi; exact hi
  have a2 : i < rows'.length := by rw [solv_length] at hi'; exact hi'
  have e1 := solv_get ext v st rows a1
  have e2 := solv_get ext v st' rows' a2
  rw [List.getElem?_eq_getElem hi, Option.some.injEq] at e1
  rw [List.getElem?_eq_getElem hi', Option.some.injEq] at e2
  have hrow := List.Forall₂.get h a1 a2
  simp only [List.get_eq_getElem] at hrow ⊢
  rw [e1, e2, hlen, hsol]
  by_cases hc : (∃ r ∈ rows, 0 < r.vf) ∧ 0 < i ∧ i + 1 < rows'.length
  · rw [if_pos hc, if_pos ⟨hv.mp hc.1, hc.2⟩]
    refine ⟨hrow.1, ?_, hrow.2.2⟩
    simp only [mixRow, mixO, h3, h4, hrow.2.1, hrow.2.2]
  · rw [if_neg hc, if_neg fun h => hc ⟨hv.mpr h.1, h.2⟩]
    exact hrow

theorem reverse_optics (rows : List Row) : List.Forall₂ SameOptics (reverseRows rows) rows.reverse := by
  rw [List.forall₂_iff_get]
  refine ⟨by rw [reverse_length, List.length_reverse], fun i hi hi' => ?_⟩
  have a1 : i < rows.length := by rw [reverse_length] at hi; exact hi
  have e := reverse_get rows a1
  rw [List.getElem?_eq_getElem hi, Option.some.injEq] at e
  simp only [List.get_eq_getElem, List.getElem_reverse]
  rw [e]
  exact ⟨rfl, rfl, rfl⟩

/-- The structure built with its components in the opposite order, without the flag. -/
def byHand (s : Structure) : Structure := { s with data := s.data.reverse, reverse := false }

theorem plain_byHand {s : Structure} {cs : List Comp} (h : Plain s cs) : Plain (byHand s) cs.reverse where
  data := by simp [byHand, h.data]
  ne := by simpa using h.ne
  pkg := fun c hc => h.pkg c (by simpa using hc)
  dflt := fun c hc => h.dflt c (by simpa using hc)
  first := fun c hc => h.last c (by simpa using hc)
  last := fun c hc => h.first c (by simpa using hc)
  contract := h.contract
  ema := h.ema

/-- C132, slabs: the rows of a structure with `reverse_structure` and those of the structure whose
components are listed in the opposite order agree in thickness, index and solvent fraction, whether the solvent
is named or is the backing medium. -/
theorem C132_slabs (ext : Ext) (v : Vals) {s : Structure} {cs : List Comp} (h : Plain s cs)
    (hr : s.reverse = true) :
    ∃ rows rows', (slabs ext v s none).1 = .ok (some rows) ∧
      (slabs ext v (byHand s) none).1 = .ok (some rows') ∧ List.Forall₂ SameOptics rows rows' := by
  refine ⟨_, _, by rw [slabs_plain ext v h], by rw [slabs_plain ext v (plain_byHand h)], ?_⟩
  have hb : (byHand s).reverse = false := rfl
  simp only [hr, hb, if_true, Bool.false_eq_true, if_false]
  refine solvRows_optics ext v rfl rfl rfl rfl ?_
  have hcr : ∀ c, compRow ext v (byHand s).toSettings c = compRow ext v s.toSettings c :=
    fun c => by cases c <;> rfl
  rw [List.map_congr_left (g := compRow ext v s.toSettings) fun c _ => hcr c, List.map_reverse]
  exact reverse_optics _

/-- C132: so the model computes the same psi and delta from both. -/
theorem C132_model (ext : Ext) (zs : List Layer → ℝ → ℝ → Bool) (d : DType) (v : Vals) (m : RM)
    {s : Structure} {cs : List Comp} (h : Plain s cs) (hr : s.reverse = true) (pts : List (ℝ × ℝ)) :
    (model ext zs d v m s pts).1 = (model ext zs d v m (byHand s) pts).1 := by
  have key : ∀ (ws : List ℝ) (acc : List Cell) {s : Structure} {cs : List Comp}, Plain s cs → s.reverse = true →
      (modelLoop ext zs d v m pts ws acc s).1 = (modelLoop ext zs d v m pts ws acc (byHand s)).1 := by
    intro ws
    induction ws with
    | nil => intro acc s cs h hr; rfl
    | cons w ws ih =>
      intro acc s cs h hr
      have h' : Plain { s with wavelength := some w } cs :=
        ⟨h.data, h.ne, h.pkg, h.dflt, h.first, h.last, h.contract, h.ema⟩
      obtain ⟨rows, rows', e1, e2, ho⟩ := C132_slabs ext v h' hr
      have f1 := slabs_plain ext v h'
      have f2 := slabs_plain ext v (plain_byHand h')
      have g1 : slabs ext v { s with wavelength := some w } none = (.ok (some rows), { s with wavelength := some w }) := by
        rw [← e1, f1]
      have g2 : slabs ext v { byHand s with wavelength := some w } none =
          (.ok (some rows'), byHand { s with wavelength := some w }) := by
        rw [← e2]
        show slabs ext v (byHand { s with wavelength := some w }) none = _
        rw [f2]
      simp only [modelLoop, g1, g2]
      rw [deltaPsi_optics ho]
      split
      · rfl
      · exact ih _ h' hr
  exact key _ _ h hr

/-- Non-vacuity: a reversed structure with a solvated and a mixed layer, for each mixing rule. -/
example (ext : Ext) (zs : List Layer → ℝ → ℝ → Bool) {ema : String} (he : EMA.Known ema) :
    (mixedStruct ema).reverse = true ∧ byHand (mixedStruct ema) ≠ mixedStruct ema ∧
    ∃ l, (model ext zs .float exVals ⟨7, true⟩ (byHand (mixedStruct ema)) [(500, 0), (600, 0)]).1 = .ok l := by
  refine ⟨rfl, fun h => ?_, ?_⟩
  · have := congrArg (fun s => s.toSettings.reverse) h
    simp [byHand, mixedStruct] at this
  · rw [← C132_model ext zs .float exVals ⟨7, true⟩ (mixedStruct_plain he) rfl]
    obtain ⟨l, h1, -⟩ := mixedStruct_model ext zs he
    exact ⟨l, h1⟩

end Verif.RModel
