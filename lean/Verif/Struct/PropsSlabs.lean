import Verif.Struct.SlabLemmas
import Verif.Struct.PropsBuild
import Verif.EMA.PropsEMA

/-! # Properties of the slab representation (C36, C39 - C44) -/

namespace Verif.Struct
open Verif.Disp

/-! ### Auxiliary facts about the formula of `slabs_plain` -/

theorem reverse_length (rows : List Row) : (reverseRows rows).length = rows.length := by
  unfold reverseRows
  cases rows with
  | nil => simp
  | cons a t => simp

theorem reverse_get (rows : List Row) {i : ℕ} (hi : i < rows.length) :
    (reverseRows rows)[i]? = some { rows[rows.length - 1 - i] with
      rough := if h : i = 0 then 0 else (rows[rows.length - i]'(by omega)).rough } := by
  unfold reverseRows
  have h1 : i < rows.reverse.length := by simpa using hi
  cases i with
  | zero =>
    simp [List.getElem?_zipWith, List.getElem?_eq_getElem h1]
  | succ i =>
    have h2 : i < ((rows.tail.map Row.rough).reverse).length := by simp; omega
    simp only [List.getElem?_zipWith, List.getElem?_eq_getElem h1, List.getElem?_cons_succ,
      List.getElem?_eq_getElem h2, List.getElem_reverse, List.getElem_map, List.getElem_tail,
      Nat.add_eq_zero_iff, one_ne_zero, and_false, dite_false]
    congr 2
    congr 1
    simp
    congr 1
    omega

theorem solv_length (ext : Ext) (v : Vals) (st : Settings) (rows : List Row) :
    (solvRows ext v st rows).length = rows.length := by
  unfold solvRows
  split_ifs
  · exact setInterior_length _ _
  · rfl

/-- Row `i` after solvation. -/
theorem solv_get (ext : Ext) (v : Vals) (st : Settings) (rows : List Row) {i : ℕ}
    (hi : i < rows.length) :
    (solvRows ext v st rows)[i]? = some (open Classical in
      if (∃ r ∈ rows, 0 < r.vf) ∧ 0 < i ∧ i + 1 < rows.length then
        mixRow ext st (solventOf ext v st rows) rows[i] else rows[i]) := by
  unfold solvRows
  by_cases hv : ∃ r ∈ rows, 0 < r.vf
  · rw [if_pos hv, setInterior_get _ _ hi]
    simp only [hv, true_and]
  · rw [if_neg hv, List.getElem?_eq_getElem hi, if_neg (fun h => hv h.1)]

theorem solv_cols (ext : Ext) (v : Vals) (st : Settings) (rows : List Row) :
    (solvRows ext v st rows).map Row.cols = rows.map Row.cols := by
  apply List.ext_getElem?
  intro i
  by_cases hi : i < rows.length
  · rw [List.getElem?_map, solv_get ext v st rows hi, List.getElem?_map,
      List.getElem?_eq_getElem hi]
    split_ifs <;> rfl
  · rw [List.getElem?_eq_none (by simp [solv_length]; omega),
      List.getElem?_eq_none (by simp; omega)]

/-! ### C39 -/

/-- C39: an empty structure has no slabs. -/
theorem C39_empty (ext : Ext) (v : Vals) (s : Structure) (kw : Option ℝ) (h : s.data = []) :
    slabs ext v s kw = (.ok none, s) := by
  simp [slabs, h]

/-- C39: if the first or the last component is not a `SlabSE`, ValueError is raised and the
structure (also its wavelength) is unchanged. -/
theorem C39_ends (ext : Ext) (v : Vals) (s : Structure) (kw : Option ℝ) {a b : PyObj}
    (ha : s.data.head? = some a) (hb : s.data.getLast? = some b)
    (h : (∀ t r g f d, a ≠ .comp (.slab t r g f d)) ∨ (∀ t r g f d, b ≠ .comp (.slab t r g f d))) :
    slabs ext v s kw = (.error .valueError, s) := by
  have hne : s.data.isEmpty = false := by
    cases hd : s.data with
    | nil => simp [hd] at ha
    | cons => rfl
  have hends : endsAreSlabs s.data = false := by
    unfold endsAreSlabs
    rw [ha, hb]
    cases a with
    | comp c =>
      cases b with
      | comp c' =>
        rcases h with h | h
        · cases c with
          | slab t r g f d => exact absurd rfl (h t r g f d)
          | _ => rfl
        · cases c' with
          | slab t r g f d => exact absurd rfl (h t r g f d)
          | _ => simp [Comp.isSlab]
      | _ => rfl
    | _ => cases b <;> rfl
  simp [slabs, hne, hends]

/-- C39: one row per component, in order, with the current values of thickness, roughness and
solvent fraction; the structure is not changed. -/
theorem C39_rows (ext : Ext) (v : Vals) {s : Structure} {cs : List Comp} (h : Plain s cs)
    (hr : s.reverse = false) :
    ∃ rows, slabs ext v s none = (.ok (some rows), s) ∧ rows.map Row.cols = cs.map (cols v) := by
  refine ⟨_, slabs_plain ext v h, ?_⟩
  rw [hr, solv_cols]
  simp [compRow_cols]

/-- C39: as soon as one component has an interface that is not the default, the rows are those of the
micro-slab representation (refnx `_micro_slabs`), whatever the components themselves would return; thickness,
roughness and solvent fraction are taken over, and without solvated rows the indices too. -/
theorem C39_interface (ext : Ext) (v : Vals) {s : Structure} {t g f t' g' f' : PId} {r r' : ScatObj}
    {d d' : Bool} {mid : List Comp} {rows : List Row}
    (hd : s.data = (Comp.slab t r g f d :: (mid ++ [Comp.slab t' r' g' f' d'])).map .comp)
    (hi : ∃ c ∈ Comp.slab t r g f d :: (mid ++ [Comp.slab t' r' g' f' d']), ¬ NoInterface c)
    (hm : ext.micro v s = .ok rows) (hc : s.contract ≤ 0) (he : KnownEma s.toSettings)
    (hr : s.reverse = false) :
    ∃ out, slabs ext v s none = (.ok (some out), s) ∧ out.map Row.cols = rows.map Row.cols ∧
      ((∀ x ∈ rows, x.vf ≤ 0) → out = rows) := by
  have hall : ¬ s.data.all PyObj.dflt = true := by
    rw [hd]
    simp only [List.all_map, List.all_eq_true, Function.comp_apply, not_forall]
    obtain ⟨c, hc, hc'⟩ := hi
    exact ⟨c, hc, fun h => hc' (noInterface_iff.mpr h)⟩
  have hends : endsAreSlabs s.data = true := by
    have h1 : s.data.head? = some (.comp (.slab t r g f d)) := by rw [hd]; rfl
    have h2 : s.data.getLast? = some (.comp (.slab t' r' g' f' d')) := by
      rw [hd, List.getLast?_map, ← List.cons_append, List.getLast?_append]; rfl
    unfold endsAreSlabs
    rw [h1, h2]
    rfl
  have hcore : slabsCore ext v s = .ok (solvRows ext v s.toSettings rows) := by
    unfold slabsCore rawRows
    rw [if_neg hall, hm]
    change (do
      let rows ← solvate ext v s.toSettings (if s.reverse then reverseRows _ else _)
      return if 0 < s.contract then _ else _) = _
    rw [hr, solvate_known ext v he]
    change Except.ok (if 0 < s.contract then _ else _) = _
    rw [if_neg (not_lt.mpr hc)]
    rfl
  refine ⟨_, ?_, solv_cols ext v s.toSettings rows, fun h0 => ?_⟩
  · unfold slabs
    rw [if_neg (by rw [hd]; simp), if_pos hends]
    simp only [hcore]
    rfl
  · unfold solvRows
    rw [if_neg]
    rintro ⟨x, hx, hpos⟩
    exact absurd hpos (not_lt.mpr (h0 x hx))

/-- Not vacuous: two slabs, the second one with a rounded interface. -/
example : ∃ c ∈ Comp.slab 0 (fun _ => .const 658 1 0) 1 2 true :: ([] ++ [Comp.slab 3 (fun _ => .const 658 2 0) 4 5 false]),
    ¬ NoInterface c := ⟨.slab 3 (fun _ => .const 658 2 0) 4 5 false, by simp, Bool.false_ne_true⟩

/-! ### C40 reversal -/

/-- C40: reversing keeps thicknesses and solvent fractions in reverse order, and each interface keeps
its roughness: row `i >= 1` of the reversed representation has the roughness of row `n - i`. -/
theorem C40_columns (ext : Ext) (v : Vals) {s : Structure} {cs : List Comp} (h : Plain s cs)
    (hr : s.reverse = false) :
    ∃ rows rev, (slabs ext v s none).1 = .ok (some rows) ∧
      (slabs ext v { s with reverse := true } none).1 = .ok (some rev) ∧
      rev.length = rows.length ∧
      ∀ i, ∀ hi : i < rev.length, ∀ hj : rows.length - 1 - i < rows.length,
        rev[i].thick = rows[rows.length - 1 - i].thick ∧
        rev[i].vf = rows[rows.length - 1 - i].vf ∧
        (i = 0 → rev[i].rough = 0) ∧
        (∀ hk : rows.length - i < rows.length, 0 < i → rev[i].rough = rows[rows.length - i].rough) := by
  have h' : Plain { s with reverse := true } cs := ⟨h.data, h.ne, h.pkg, h.dflt, h.first, h.last,
    h.contract, h.ema⟩
  refine ⟨_, _, by rw [slabs_plain ext v h], by rw [slabs_plain ext v h'], ?_, ?_⟩
  · simp [solv_length, reverse_length, hr]
  · have hcr : ∀ c, compRow ext v { s.toSettings with reverse := true } c
        = compRow ext v s.toSettings c := fun c => by cases c <;> rfl
    set R := cs.map (compRow ext v s.toSettings) with hR
    have hR' : cs.map (compRow ext v { s.toSettings with reverse := true }) = R := by
      rw [hR]; exact List.map_congr_left fun c _ => hcr c
    simp only [hr, Bool.false_eq_true, if_false, if_true, hR']
    intro i hi hj
    have c1 := solv_cols ext v s.toSettings R
    have c2 := solv_cols ext v { s.toSettings with reverse := true } (reverseRows R)
    have hiR : i < R.length := by simpa [solv_length, reverse_length] using hi
    have get1 : ∀ j (hj : j < (solvRows ext v s.toSettings R).length) (hj' : j < R.length),
        Row.cols (solvRows ext v s.toSettings R)[j] = Row.cols R[j] := by
      intro j hj hj'
      have := congrArg (fun l => l[j]?) c1
      simp only [List.getElem?_map, List.getElem?_eq_getElem hj, List.getElem?_eq_getElem hj',
        Option.map_some, Option.some.injEq] at this
      exact this
    have get2 : Row.cols (solvRows ext v { s.toSettings with reverse := true } (reverseRows R))[i]
        = Row.cols { R[R.length - 1 - i] with
          rough := if h : i = 0 then 0 else (R[R.length - i]'(by omega)).rough } := by
      have := congrArg (fun l => l[i]?) c2
      simp only [List.getElem?_map, List.getElem?_eq_getElem hi, reverse_get R hiR,
        Option.map_some, Option.some.injEq] at this
      exact this
    have len1 := solv_length ext v s.toSettings R
    simp only [len1] at hj ⊢
    have g1 := get1 (R.length - 1 - i) (by omega) hj
    simp only [Row.cols, Prod.mk.injEq] at g1 get2
    refine ⟨by rw [get2.1, g1.1], by rw [get2.2.2, g1.2.2], ?_, ?_⟩
    · intro h0; rw [get2.2.1]; simp [h0]
    · intro hk h0
      have g3 := get1 (R.length - i) (by omega) hk
      simp only [Row.cols, Prod.mk.injEq] at g3
      rw [get2.2.1, g3.2.1, dif_neg (by omega)]

/-- C40: the indices come in reverse order too, if no layer is solvated or the solvent is given
explicitly.  (Without an explicit solvent the solvating medium changes with the direction, as
documented.) -/
theorem C40_index (ext : Ext) (v : Vals) {s : Structure} {cs : List Comp} (h : Plain s cs)
    (hr : s.reverse = false) (hs : (∃ r, s.solvent = some r) ∨ ∀ c ∈ cs, (cols v c).2.2 ≤ 0) :
    ∃ rows rev, (slabs ext v s none).1 = .ok (some rows) ∧
      (slabs ext v { s with reverse := true } none).1 = .ok (some rev) ∧
      rev.map Row.ri = (rows.map Row.ri).reverse := by
  have h' : Plain { s with reverse := true } cs := ⟨h.data, h.ne, h.pkg, h.dflt, h.first, h.last,
    h.contract, h.ema⟩
  refine ⟨_, _, by rw [slabs_plain ext v h], by rw [slabs_plain ext v h'], ?_⟩
  have hcr : ∀ c, compRow ext v { s.toSettings with reverse := true } c
      = compRow ext v s.toSettings c := fun c => by cases c <;> rfl
  set R := cs.map (compRow ext v s.toSettings) with hR
  have hR' : cs.map (compRow ext v { s.toSettings with reverse := true }) = R := by
    rw [hR]; exact List.map_congr_left fun c _ => hcr c
  simp only [hr, Bool.false_eq_true, if_false, if_true, hR']
  have hvf : (∃ r ∈ reverseRows R, 0 < r.vf) ↔ ∃ r ∈ R, 0 < r.vf := by
    constructor
    · rintro ⟨r, hm, hp⟩
      obtain ⟨i, hi, rfl⟩ := List.mem_iff_getElem.mp hm
      have hi' : i < R.length := by simpa [reverse_length] using hi
      have := reverse_get R hi'
      rw [List.getElem?_eq_getElem hi, Option.some.injEq] at this
      rw [this] at hp
      exact ⟨R[R.length - 1 - i], List.getElem_mem _, hp⟩
    · rintro ⟨r, hm, hp⟩
      obtain ⟨i, hi, rfl⟩ := List.mem_iff_getElem.mp hm
      have hi' : R.length - 1 - i < R.length := by omega
      have := reverse_get R hi'
      refine ⟨(reverseRows R)[R.length - 1 - i]'(by rw [reverse_length]; exact hi'),
        List.getElem_mem _, ?_⟩
      rw [List.getElem?_eq_getElem (by rw [reverse_length]; exact hi'), Option.some.injEq] at this
      rw [this]
      have e : R.length - 1 - (R.length - 1 - i) = i := by omega
      simpa [e] using hp
  apply List.ext_getElem?
  intro i
  by_cases hi : i < R.length
  · have hi' : i < (reverseRows R).length := by rw [reverse_length]; exact hi
    have hk : R.length - 1 - i < R.length := by omega
    have hk' : R.length - 1 - i < (solvRows ext v s.toSettings R).length := by
      rw [solv_length]; exact hk
    rw [List.getElem?_map, solv_get ext v _ _ hi', ← List.map_reverse, List.getElem?_map,
      List.getElem?_reverse (by rw [solv_length]; exact hi), solv_length, solv_get ext v _ _ hk]
    simp only [Option.map_some, Option.some.injEq]
    have e := reverse_get R hi
    rw [List.getElem?_eq_getElem hi', Option.some.injEq] at e
    rw [e]
    by_cases hany : ∃ r ∈ R, 0 < r.vf
    · obtain ⟨sol, hsol⟩ : ∃ r, s.solvent = some r := by
        rcases hs with hs | hs
        · exact hs
        · obtain ⟨r, hm, hp⟩ := hany
          rw [hR] at hm
          obtain ⟨c, hc, rfl⟩ := List.mem_map.mp hm
          have := hs c hc
          rw [← compRow_cols ext v s.toSettings c] at this
          exact absurd hp (not_lt.mpr this)
      have hso : solventOf ext v { s.toSettings with reverse := true } (reverseRows R)
          = solventOf ext v s.toSettings R := by
        simp [solventOf, hsol]
      by_cases hint : 0 < i ∧ i + 1 < R.length
      · rw [if_pos ⟨hvf.mpr hany, hint.1, by rw [reverse_length]; exact hint.2⟩,
          if_pos ⟨hany, by omega, by omega⟩, hso]
        rfl
      · rw [if_neg (by rw [reverse_length]; tauto), if_neg (by
          rintro ⟨-, h1, h2⟩; exact hint ⟨by omega, by omega⟩)]
    · rw [if_neg (fun h => hany (hvf.mp h.1)), if_neg (fun h => hany h.1)]
  · rw [List.getElem?_eq_none (by simp [solv_length, reverse_length]; omega),
      List.getElem?_eq_none (by simp [solv_length]; omega)]

/-! ### C41 solvation -/

/-- The index of a component's own material: for a slab the index of its scatterer, for a mixed slab
the mixture of its two materials. -/
noncomputable def ownIndex (ext : Ext) (v : Vals) (st : Settings) (c : Comp) : Option ℂ :=
  match (c.view v).rows ext st with
  | .ok (some [r]) => r.ri
  | _ => none

theorem compRow_ri (ext : Ext) (v : Vals) {st : Settings} (h : KnownEma st) {c : Comp} (hc : Pkg c) :
    (compRow ext v st c).ri = ownIndex ext v st c := by
  cases c with
  | slab t r g f d => rfl
  | mixed t a b f g d =>
    simp only [ownIndex, Comp.view, CompView.rows, compRow]
    rw [mixO_ok ext h]
    rfl
  | other r d => exact absurd hc id

/-- C41: solvation changes only the index of interior rows: the other columns are those of the
components, the first and last rows have the index of their own material, and if no solvent fraction
is positive then so have all rows. -/
theorem C41_interior_only (ext : Ext) (v : Vals) {s : Structure} {cs : List Comp} (h : Plain s cs)
    (hr : s.reverse = false) :
    ∃ rows, (slabs ext v s none).1 = .ok (some rows) ∧ rows.map Row.cols = cs.map (cols v) ∧
      ∀ i, ∀ hi : i < rows.length, ∀ hc : i < cs.length,
        (i = 0 ∨ i + 1 = cs.length ∨ ∀ c ∈ cs, (cols v c).2.2 ≤ 0) →
        rows[i].ri = ownIndex ext v s.toSettings cs[i] := by
  refine ⟨_, by rw [slabs_plain ext v h], by rw [hr, solv_cols]; simp [compRow_cols], ?_⟩
  simp only [hr, Bool.false_eq_true, if_false]
  intro i hi hc hcase
  have hiR : i < (cs.map (compRow ext v s.toSettings)).length := by simpa using hc
  have := solv_get ext v s.toSettings _ hiR
  rw [List.getElem?_eq_getElem hi, Option.some.injEq] at this
  rw [this, if_neg]
  · rw [List.getElem_map]
    exact compRow_ri ext v h.ema (h.pkg _ (List.getElem_mem _))
  · rintro ⟨⟨r, hm, hp⟩, h1, h2⟩
    simp only [List.length_map] at h2
    rcases hcase with h0 | h0 | h0
    · omega
    · omega
    · obtain ⟨c, hc', rfl⟩ := List.mem_map.mp hm
      have := h0 c hc'
      rw [← compRow_cols ext v s.toSettings c] at this
      exact absurd hp (not_lt.mpr this)

/-! ### C42 default solvent -/

theorem plain_solvent {s : Structure} {cs : List Comp} (h : Plain s cs) (r : Option ScatObj) :
    Plain { s with solvent := r } cs :=
  ⟨h.data, h.ne, h.pkg, h.dflt, h.first, h.last, h.contract, h.ema⟩

theorem compRow_solvent (ext : Ext) (v : Vals) (st : Settings) (r : Option ScatObj) (c : Comp) :
    compRow ext v { st with solvent := r } c = compRow ext v st c := by
  cases c <;> rfl

/-- C42, partial: without an explicit solvent, the result is that of naming the scatterer of the last
slab (of the first one if the structure is reversed) as the solvent, when that scatterer is
dispersive - as all scatterers of the package are.  Missing: user defined scatterers with
`dispersive = False`, see `C42_fails_nondispersive`. -/
theorem C42_backing_partial (ext : Ext) (v : Vals) {s : Structure} {cs : List Comp} (h : Plain s cs)
    (hs : s.solvent = none) {t g f : PId} {r : ScatObj} {d : Bool}
    (hc : (if s.reverse then cs.head? else cs.getLast?) = some (.slab t r g f d))
    (hd : (r v).dispersive = true) :
    (slabs ext v s none).1 = (slabs ext v { s with solvent := some r } none).1 := by
  rw [slabs_plain ext v h, slabs_plain ext v (plain_solvent h (some r))]
  simp only
  congr 2
  have hR : cs.map (compRow ext v { s.toSettings with solvent := some r })
      = cs.map (compRow ext v s.toSettings) :=
    List.map_congr_left fun c _ => compRow_solvent ext v _ _ c
  rw [hR]
  set R := cs.map (compRow ext v s.toSettings) with hRdef
  set R' := (if s.reverse = true then reverseRows R else R) with hR'
  have hlast : R'.getLast?.bind Row.ri = (r v).complex ext.zs s.wavelength := by
    have hrow : (compRow ext v s.toSettings (.slab t r g f d)).ri = (r v).complex ext.zs s.wavelength := by
      simp [compRow, layerRi, hd]
    cases hrev : s.reverse with
    | false =>
      rw [hrev] at hc
      simp only [hR', hrev, Bool.false_eq_true, if_false, hRdef, List.getLast?_map] at hc ⊢
      rw [hc]
      exact hrow
    | true =>
      rw [hrev] at hc
      simp only [if_true] at hc
      simp only [hR', hrev, if_true]
      have hlen : 0 < R.length := by
        rw [hRdef, List.length_map]
        cases cs with
        | nil => simp at hc
        | cons => simp
      have e := reverse_get R (i := R.length - 1) (by omega)
      rw [List.getLast?_eq_getElem?, reverse_length, e]
      have h0 : R[R.length - 1 - (R.length - 1)]'(by omega) = compRow ext v s.toSettings (.slab t r g f d) := by
        cases cs with
        | nil => simp at hc
        | cons c cs =>
          simp only [List.head?_cons, Option.some.injEq] at hc
          subst hc
          simp [hRdef]
      simp only [Option.bind_some]
      rw [h0]
      exact hrow
  unfold solvRows
  have hso : solventOf ext v s.toSettings R' = solventOf ext v { s.toSettings with solvent := some r } R' := by
    simp only [solventOf, hs]
    exact hlast
  rw [hso]
  rfl

/-- A user defined scatterer that is not dispersive, with an index that nevertheless depends on the
wavelength it is asked for. -/
noncomputable def odd : Scat := .other false fun w => if w = none then some 1 else some 2

/-- Parameters for concrete structures: 0 is a thickness of 100, 1 and 2 are zero, 3 is a solvent
fraction of one half. -/
noncomputable def exVals : Vals := fun p => if p = 0 then 100 else if p = 3 then 1 / 2 else 0

/-- A dry slab and a half solvated one. -/
noncomputable def dry (s : Scat) : Comp := .slab 0 (fun _ => s) 1 2 true
noncomputable def wet (s : Scat) : Comp := .slab 0 (fun _ => s) 1 3 true

theorem plain_of {s : Structure} {l : List Comp} (hl : s.data = l.map .comp)
    (hne : l ≠ []) (hcs : ∀ c ∈ l, c.isSlab = true ∧ c.dflt = true) (hc : s.contract ≤ 0)
    (he : KnownEma s.toSettings) : Plain s l := by
  have hall : ∀ c ∈ l, Pkg c ∧ c.dflt = true ∧ c.isSlab = true := by
    intro c hm
    obtain ⟨h1, h2⟩ := hcs c hm
    refine ⟨?_, h2, h1⟩
    cases c with
    | slab => trivial
    | _ => simp [Comp.isSlab] at h1
  exact ⟨hl, hne, fun c h => (hall c h).1, fun c h => noInterface_iff.mpr (hall c h).2.1,
    fun c h => (hall c (List.mem_of_head? h)).2.2, fun c h => (hall c (List.mem_of_getLast? h)).2.2,
    hc, he⟩

/-- The structure of `C42_fails_nondispersive`. -/
noncomputable def oddStruct (sol : Option ScatObj) : Structure :=
  { solvent := sol, wavelength := some 500,
    data := [dry (.const 658 1 0), wet (.const 658 1 0), dry odd].map .comp }

theorem oddStruct_plain (sol : Option ScatObj) :
    Plain (oddStruct sol) [dry (.const 658 1 0), wet (.const 658 1 0), dry odd] :=
  plain_of rfl (by simp) (by simp [dry, wet, Comp.isSlab, Comp.dflt]) le_rfl (.inl rfl)

/-- C42 fails for a scatterer with `dispersive = False`: as a layer it is evaluated with
`complex(None)`, as a solvent with `complex(structure.wavelength)`. -/
theorem C42_fails_nondispersive (ext : Ext) :
    (slabs ext exVals (oddStruct none) none).1
      ≠ (slabs ext exVals (oddStruct (some fun _ => odd)) none).1 := by
  rw [slabs_plain ext _ (oddStruct_plain _), slabs_plain ext _ (oddStruct_plain _)]
  intro h
  simp only [Except.ok.injEq, Option.some.injEq] at h
  have h1 := congrArg (fun l => l[1]?) h
  simp only [oddStruct, Bool.false_eq_true, if_false] at h1
  rw [solv_get _ _ _ _ (by simp), solv_get _ _ _ _ (by simp)] at h1
  have hv : ∀ st : Settings, ∃ r ∈ [dry (.const 658 1 0), wet (.const 658 1 0), dry odd].map
      (compRow ext exVals st), 0 < r.vf := by
    intro st
    refine ⟨compRow ext exVals st (wet (.const 658 1 0)), by simp, ?_⟩
    simp [compRow, wet, exVals]
  rw [if_pos ⟨hv _, by norm_num, by simp⟩, if_pos ⟨hv _, by norm_num, by simp⟩] at h1
  simp only [Option.some.injEq] at h1
  have h2 := congrArg Row.ri h1
  simp [mixRow, solventOf, compRow, dry, wet, layerRi, odd, Scat.dispersive, Scat.complex, mixO,
    EMA.overallRiO, EMA.overallRi, Except.map, Scat.at, EMA.linearE, exVals] at h2
  have h3 := congrArg (· ^ 2) h2
  simp only [npSqrt_sq] at h3
  have h4 := congrArg Complex.re h3
  norm_num [pow_two] at h4

/-! ### C43 dry layers -/

/-- The components in the order in which the light meets them. -/
def seen (s : Structure) (cs : List Comp) : List Comp := if s.reverse then cs.reverse else cs

/-- The index of the solvent: that of the scatterer named as the solvent, otherwise that of the last
component the light meets. -/
noncomputable def solventIndex (ext : Ext) (v : Vals) (s : Structure) (cs : List Comp) : Option ℂ :=
  match s.solvent with
  | some sol => (sol v).complex ext.zs s.wavelength
  | none => (seen s cs).getLast?.bind (ownIndex ext v s.toSettings)

theorem seen_get (ext : Ext) (v : Vals) {s : Structure} {cs : List Comp} (h : Plain s cs) {i : ℕ}
    (hi : i < (seen s cs).length) :
    ∃ r, (if s.reverse then reverseRows (cs.map (compRow ext v s.toSettings))
        else cs.map (compRow ext v s.toSettings))[i]? = some r ∧
      r.ri = ownIndex ext v s.toSettings (seen s cs)[i] ∧ r.vf = (cols v (seen s cs)[i]).2.2 ∧
      r.thick = (cols v (seen s cs)[i]).1 ∧
      (s.reverse = false → r.rough = (cols v (seen s cs)[i]).2.1) ∧
      (s.reverse = true → r.rough =
        if i = 0 then 0 else (cols v ((seen s cs)[i - 1]'(by omega))).2.1) := by
  have key : ∀ c ∈ cs, (compRow ext v s.toSettings c).ri = ownIndex ext v s.toSettings c ∧
      (compRow ext v s.toSettings c).vf = (cols v c).2.2 ∧
      (compRow ext v s.toSettings c).thick = (cols v c).1 := fun c hc =>
    ⟨compRow_ri ext v h.ema (h.pkg _ hc), by rw [← compRow_cols ext v s.toSettings c]; rfl,
      by rw [← compRow_cols ext v s.toSettings c]; rfl⟩
  have keyr : ∀ c, (compRow ext v s.toSettings c).rough = (cols v c).2.1 := fun c => by
    rw [← compRow_cols ext v s.toSettings c]; rfl
  cases hrev : s.reverse with
  | false =>
    simp only [seen, hrev, Bool.false_eq_true, if_false] at hi ⊢
    obtain ⟨k1, k2, k3⟩ := key cs[i] (List.getElem_mem _)
    exact ⟨compRow ext v s.toSettings cs[i], by simp [hi], k1, k2, k3, fun _ => keyr _, by simp⟩
  | true =>
    simp only [seen, hrev, if_true] at hi ⊢
    have hi' : i < (cs.map (compRow ext v s.toSettings)).length := by simpa using hi
    refine ⟨_, reverse_get _ hi', ?_⟩
    simp only [List.getElem_map, List.length_map, List.getElem_reverse]
    obtain ⟨k1, k2, k3⟩ := key (cs[cs.length - 1 - i]'(by simp at hi'; omega)) (List.getElem_mem _)
    refine ⟨k1, k2, k3, by simp, fun _ => ?_⟩
    by_cases h0 : i = 0
    · simp [h0]
    · simp only [h0, dite_false, if_false, keyr]
      congr 3
      simp at hi'
      congr 1
      omega

theorem seen_solvent (ext : Ext) (v : Vals) {s : Structure} {cs : List Comp} (h : Plain s cs) :
    solventOf ext v s.toSettings (if s.reverse then reverseRows (cs.map (compRow ext v s.toSettings))
        else cs.map (compRow ext v s.toSettings)) = solventIndex ext v s cs := by
  cases hs : s.solvent with
  | some sol => simp only [solventOf, solventIndex, hs]
  | none =>
    simp only [solventOf, solventIndex, hs]
    have hne : 0 < (seen s cs).length := by
      have := List.length_pos_iff.mpr h.ne
      unfold seen; split_ifs <;> simpa using this
    obtain ⟨r, hr, hri, _⟩ := seen_get ext v h (i := (seen s cs).length - 1) (by omega)
    have hlen : (if s.reverse then reverseRows (cs.map (compRow ext v s.toSettings))
        else cs.map (compRow ext v s.toSettings)).length = (seen s cs).length := by
      unfold seen; split_ifs <;> simp [reverse_length]
    rw [List.getLast?_eq_getElem?, hlen, hr, List.getLast?_eq_getElem?,
      List.getElem?_eq_getElem (by omega)]
    exact hri

/-- C43, partial: in a structure in which some layers are solvated (by an explicit solvent or by the
backing medium; reversed or not), a layer with solvent fraction 0 keeps its own index, for passive
materials and (with the Bruggeman rule) a weighted dielectric constant with positive real part.
Missing: metals with the Bruggeman rule, see `C43_fails_bruggeman`. -/
theorem C43_dry_partial (ext : Ext) (v : Vals) {s : Structure} {cs : List Comp} (h : Plain s cs)
    {A B : ℂ} {i : ℕ} (hi : i < (seen s cs).length) (hdry : (cols v (seen s cs)[i]).2.2 = 0)
    (hA : ownIndex ext v s.toSettings (seen s cs)[i] = some A)
    (hB : solventIndex ext v s cs = some B)
    (pA : EMA.PassiveRi A) (pB : EMA.PassiveRi B) (hL : EMA.GoodL s.ema s.dp)
    (hbr : s.ema = "bruggeman" → 0 < ((1 - s.dp) * A ^ 2 + s.dp * B ^ 2 : ℂ).re) :
    ∃ rows, (slabs ext v s none).1 = .ok (some rows) ∧ ∃ r, rows[i]? = some r ∧ r.ri = some A := by
  refine ⟨_, by rw [slabs_plain ext v h], ?_⟩
  obtain ⟨r, hr, hri, hvf, _⟩ := seen_get ext v h hi
  have hsol := seen_solvent ext v h
  rw [hA] at hri
  rw [hdry] at hvf
  rw [hB] at hsol
  generalize (if s.reverse then reverseRows (cs.map (compRow ext v s.toSettings))
        else cs.map (compRow ext v s.toSettings)) = R at hr hsol ⊢
  obtain ⟨hiR, he⟩ := List.getElem?_eq_some_iff.mp hr
  refine ⟨_, solv_get ext v s.toSettings R hiR, ?_⟩
  rw [he, hsol]
  split_ifs with hc
  · simp only [mixRow, hri, hvf]
    unfold mixO
    simp only [EMA.overallRiO]
    rw [EMA.C24_dry_partial _ pA pB h.ema hL hbr]
    rfl
  · exact hri

/-- C41 for structures in either order: thickness and solvent fraction of a row are those of the
component the light meets there, the first and last rows have the index of their own material, and if
no solvent fraction is positive then so have all rows; the roughness belongs to the interface in front
of the component (in a reversed structure it comes from the component before it). -/
theorem C41_interior_either (ext : Ext) (v : Vals) {s : Structure} {cs : List Comp} (h : Plain s cs) :
    ∃ rows, (slabs ext v s none).1 = .ok (some rows) ∧ rows.length = cs.length ∧
      ∀ i, ∀ hi : i < rows.length, ∀ hc : i < (seen s cs).length,
        rows[i].thick = (cols v (seen s cs)[i]).1 ∧
        rows[i].vf = (cols v (seen s cs)[i]).2.2 ∧
        (s.reverse = false → rows[i].rough = (cols v (seen s cs)[i]).2.1) ∧
        (s.reverse = true → rows[i].rough =
          if i = 0 then 0 else (cols v ((seen s cs)[i - 1]'(by omega))).2.1) ∧
        ((i = 0 ∨ i + 1 = cs.length ∨ ∀ c ∈ cs, (cols v c).2.2 ≤ 0) →
          rows[i].ri = ownIndex ext v s.toSettings (seen s cs)[i]) := by
  refine ⟨_, by rw [slabs_plain ext v h], ?_, ?_⟩
  · rw [solv_length]; split_ifs <;> simp [reverse_length]
  intro i hi hc
  have hget := fun (j : ℕ) (hj : j < (seen s cs).length) => seen_get ext v h hj
  have hlen : (if s.reverse then reverseRows (cs.map (compRow ext v s.toSettings))
      else cs.map (compRow ext v s.toSettings)).length = (seen s cs).length := by
    unfold seen; split_ifs <;> simp [reverse_length]
  have hlen' : (seen s cs).length = cs.length := by unfold seen; split_ifs <;> simp
  generalize (if s.reverse then reverseRows (cs.map (compRow ext v s.toSettings))
      else cs.map (compRow ext v s.toSettings)) = R at hi hget hlen ⊢
  obtain ⟨r, hr, hri, hvf, hth, hro, hro'⟩ := hget i hc
  obtain ⟨hiR, he⟩ := List.getElem?_eq_some_iff.mp hr
  have hrow := solv_get ext v s.toSettings R hiR
  rw [List.getElem?_eq_getElem hi, Option.some.injEq, he] at hrow
  rw [hrow]
  by_cases hc' : (∃ r ∈ R, 0 < r.vf) ∧ 0 < i ∧ i + 1 < R.length
  · rw [if_pos hc']
    refine ⟨hth, hvf, hro, hro', ?_⟩
    rintro (h0 | h0 | h0)
    · omega
    · omega
    · exfalso
      obtain ⟨r', hm, hp⟩ := hc'.1
      obtain ⟨j, hj, rfl⟩ := List.mem_iff_getElem.mp hm
      obtain ⟨r'', e, _, hv, _⟩ := hget j (by omega)
      rw [List.getElem?_eq_getElem hj, Option.some.injEq] at e
      rw [e, hv] at hp
      have hmem : (seen s cs)[j] ∈ cs := by
        have : (seen s cs)[j]'(by omega) ∈ seen s cs := List.getElem_mem _
        unfold seen at this ⊢
        split_ifs at this with hrv
        · simp [hrv]
        · simp [hrv]
      exact absurd hp (not_lt.mpr (h0 _ hmem))
  · rw [if_neg hc']
    exact ⟨hth, hvf, hro, hro', fun _ => hri⟩

/-- A metal (index 1/5 + 3i) between air and a half solvated film, backed by air, mixed with the
Bruggeman rule. -/
noncomputable def metalStruct : Structure :=
  { ema := "bruggeman",
    data := [dry (.const 658 1 0), dry (.const 658 (1 / 5) 3), wet (.const 658 (3 / 2) 0),
      dry (.const 658 1 0)].map .comp }

theorem metalStruct_plain : Plain metalStruct [dry (.const 658 1 0), dry (.const 658 (1 / 5) 3),
    wet (.const 658 (3 / 2) 0), dry (.const 658 1 0)] :=
  plain_of rfl (by simp) (by simp [dry, wet, Comp.isSlab, Comp.dflt]) le_rfl (.inr (.inr rfl))

/-- C43 fails: in this structure the dry metal layer does not keep its index. -/
theorem C43_fails_bruggeman (ext : Ext) :
    ∃ rows r, (slabs ext exVals metalStruct none).1 = .ok (some rows) ∧ rows[1]? = some r ∧
      r.vf = 0 ∧ r.ri ≠ some ⟨1 / 5, 3⟩ := by
  have hrow := slabs_plain ext exVals metalStruct_plain
  simp only [show metalStruct.reverse = false from rfl, Bool.false_eq_true, if_false] at hrow
  have hv : ∃ r ∈ [dry (.const 658 1 0), dry (.const 658 (1 / 5) 3), wet (.const 658 (3 / 2) 0),
      dry (.const 658 1 0)].map (compRow ext exVals metalStruct.toSettings), 0 < r.vf := by
    refine ⟨compRow ext exVals metalStruct.toSettings (wet (.const 658 (3 / 2) 0)), by simp, ?_⟩
    simp [compRow, wet, exVals]
  have hget := solv_get ext exVals metalStruct.toSettings ([dry (.const 658 1 0),
    dry (.const 658 (1 / 5) 3), wet (.const 658 (3 / 2) 0), dry (.const 658 1 0)].map
    (compRow ext exVals metalStruct.toSettings)) (i := 1) (by simp)
  rw [if_pos ⟨hv, by norm_num, by simp⟩] at hget
  refine ⟨_, _, by rw [hrow], hget, by simp [mixRow, compRow, dry, exVals], ?_⟩
  obtain ⟨N, hN, hne, -⟩ := EMA.C24_fails_bruggeman
    (ext.ze ⟨1 / 5, 3⟩ ⟨1, 0⟩ 0 "bruggeman" (1 / 3)) (A := ⟨1 / 5, 3⟩) (B := ⟨1, 0⟩) (L := 1 / 3)
    ⟨by norm_num, by norm_num⟩ (by norm_num [pow_two, Complex.add_re, Complex.mul_re])
  have hmix : mixO ext metalStruct.toSettings (some ⟨1 / 5, 3⟩) (some ⟨1, 0⟩) 0 = some N := by
    simp only [mixO, metalStruct, EMA.overallRiO, Option.getD_some, hN]
    rfl
  have h0 : exVals 2 = 0 := by simp [exVals]
  change mixO ext metalStruct.toSettings (some ⟨1 / 5, 3⟩) (some ⟨1, 0⟩) (exVals 2) ≠ _
  rw [h0, hmix]
  simpa using hne

/-- The hypotheses of C43 on a concrete structure: the same stack with a glass layer. -/
noncomputable def glassStruct (sol : Option ScatObj) (rev : Bool) : Structure :=
  { ema := "bruggeman", solvent := sol, reverse := rev,
    data := [dry (.const 658 1 0), dry (.const 658 (3 / 2) 0), wet (.const 658 (3 / 2) 0),
      dry (.const 658 1 0)].map .comp }

theorem glassStruct_plain (sol : Option ScatObj) (rev : Bool) : Plain (glassStruct sol rev)
    [dry (.const 658 1 0), dry (.const 658 (3 / 2) 0), wet (.const 658 (3 / 2) 0),
      dry (.const 658 1 0)] :=
  plain_of rfl (by simp) (by simp [dry, wet, Comp.isSlab, Comp.dflt]) le_rfl (.inr (.inr rfl))

/-- With an explicit solvent. -/
example (ext : Ext) : ∃ rows,
    (slabs ext exVals (glassStruct (some fun _ => .const 658 (4 / 3) 0) false) none).1
      = .ok (some rows) ∧ ∃ r, rows[1]? = some r ∧ r.ri = some ⟨3 / 2, 0⟩ :=
  C43_dry_partial ext exVals (glassStruct_plain _ _)
    (A := ⟨3 / 2, 0⟩) (B := ⟨4 / 3, 0⟩) (by simp [seen, glassStruct])
    (by simp [seen, glassStruct, cols, dry, exVals]) rfl rfl
    ⟨by norm_num, le_rfl⟩ ⟨by norm_num, le_rfl⟩
    ⟨by norm_num [glassStruct], by norm_num [glassStruct], by norm_num [glassStruct]⟩
    (by intro _; norm_num [glassStruct, pow_two, Complex.add_re, Complex.mul_re])

/-- Solvated by the backing medium of the reversed structure. -/
example (ext : Ext) : ∃ rows, (slabs ext exVals (glassStruct none true) none).1 = .ok (some rows) ∧
    ∃ r, rows[2]? = some r ∧ r.ri = some ⟨3 / 2, 0⟩ :=
  C43_dry_partial ext exVals (glassStruct_plain _ _)
    (A := ⟨3 / 2, 0⟩) (B := ⟨1, 0⟩) (by simp [seen, glassStruct])
    (by simp [seen, glassStruct, cols, dry, exVals]) rfl rfl
    ⟨by norm_num, le_rfl⟩ ⟨by norm_num, le_rfl⟩
    ⟨by norm_num [glassStruct], by norm_num [glassStruct], by norm_num [glassStruct]⟩
    (by intro _; norm_num [glassStruct, pow_two, Complex.add_re, Complex.mul_re])

/-! ### C36 copies -/

/-- C36, partial: a copy has the same components, name and solvent; if the remaining settings are the
defaults it has the same slabs.  Missing: the other settings are not copied, see
`C36_fails_reversed`. -/
theorem C36_copy_partial (ext : Ext) (v : Vals) (s : Structure) :
    (copyStructure s).data = s.data ∧ (copyStructure s).solvent = s.solvent ∧
    (copyStructure s).name = s.name ∧
    (s.toSettings = { solvent := s.solvent } →
      (slabs ext v (copyStructure s) none).1 = (slabs ext v s none).1) := by
  refine ⟨rfl, rfl, rfl, fun h => ?_⟩
  have : copyStructure s = s := by
    obtain ⟨st, name, data⟩ := s
    simp only at h
    simp only [copyStructure, mkStructure]
    rw [h]
  rw [this]

/-- A reversed two layer structure. -/
noncomputable def revStruct : Structure :=
  { reverse := true, data := [dry (.const 658 1 0), dry (.const 658 2 0)].map .comp }

theorem revStruct_plain : Plain revStruct [dry (.const 658 1 0), dry (.const 658 2 0)] :=
  plain_of rfl (by simp) (by simp [dry, Comp.isSlab, Comp.dflt]) le_rfl (.inl rfl)

/-- C36 fails: the copy of a reversed structure is not reversed. -/
theorem C36_fails_reversed (ext : Ext) :
    (slabs ext exVals (copyStructure revStruct) none).1 ≠ (slabs ext exVals revStruct none).1 := by
  have hp : Plain (copyStructure revStruct) [dry (.const 658 1 0), dry (.const 658 2 0)] :=
    plain_of rfl (by simp) (by simp [dry, Comp.isSlab, Comp.dflt]) le_rfl (.inl rfl)
  rw [slabs_plain ext _ hp, slabs_plain ext _ revStruct_plain]
  intro h
  simp only [Except.ok.injEq, Option.some.injEq] at h
  have h1 := congrArg (fun l => l[0]?) h
  simp only [show (copyStructure revStruct).reverse = false from rfl,
    show revStruct.reverse = true from rfl, Bool.false_eq_true, if_false, if_true] at h1
  rw [solv_get _ _ _ _ (by simp), solv_get _ _ _ _ (by simp [reverse_length]),
    if_neg (by simp), if_neg (by simp)] at h1
  simp [reverseRows, compRow, dry, layerRi, Scat.dispersive, Scat.complex, Scat.at, Complex.ext_iff]
    at h1

/-! ### C44 wavelength -/

/-- C44: `slabs(wavelength=w)` is `structure.wavelength = w; slabs()`, for every structure whose ends
are slabs. -/
theorem C44_keyword (ext : Ext) (v : Vals) (s : Structure) (w : ℝ) (h : endsAreSlabs s.data = true) :
    slabs ext v s (some w) = slabs ext v { s with wavelength := some w } none ∧
      (slabs ext v s (some w)).2 = { s with wavelength := some w } := by
  have hne : s.data.isEmpty = false := by
    cases hd : s.data with
    | nil => rw [hd] at h; simp [endsAreSlabs] at h
    | cons => rfl
  simp [slabs, hne, h]

/-- C44: without the keyword the structure is unchanged. -/
theorem C44_no_keyword (ext : Ext) (v : Vals) (s : Structure) : (slabs ext v s none).2 = s := by
  unfold slabs
  split_ifs <;> rfl

/-- Two scatterers that cannot be told apart at the wavelength `w`. -/
def SameAt (z : SqrtOracle) (w : Option ℝ) (a b : Scat) : Prop :=
  a.dispersive = true ∧ b.dispersive = true ∧ a.complex z w = b.complex z w

/-- Two components with the same numbers and scatterers that cannot be told apart at `w`. -/
def SameComp (z : SqrtOracle) (w : Option ℝ) (v : Vals) : Comp → Comp → Prop
  | .slab t r g f d, .slab t' r' g' f' d' =>
    v t = v t' ∧ v g = v g' ∧ v f = v f' ∧ d = d' ∧ SameAt z w (r v) (r' v)
  | .mixed t a b f g d, .mixed t' a' b' f' g' d' =>
    v t = v t' ∧ v g = v g' ∧ v f = v f' ∧ d = d' ∧ SameAt z w (a v) (a' v) ∧ SameAt z w (b v) (b' v)
  | _, _ => False

/-- C44: the slabs depend on the layers, mixtures and solvent only through their indices at
`structure.wavelength`. -/
theorem C44_only_at_wavelength (ext : Ext) (v : Vals) {s s' : Structure} {cs cs' : List Comp}
    (h : Plain s cs) (h' : Plain s' cs') (hc : List.Forall₂ (SameComp ext.zs s.wavelength v) cs cs')
    (hst : s'.toSettings = { s.toSettings with solvent := s'.solvent })
    (hsol : (s.solvent = none ∧ s'.solvent = none) ∨
      ∃ r r', s.solvent = some r ∧ s'.solvent = some r' ∧ SameAt ext.zs s.wavelength (r v) (r' v)) :
    (slabs ext v s none).1 = (slabs ext v s' none).1 := by
  rw [slabs_plain ext v h, slabs_plain ext v h']
  have hR : cs.map (compRow ext v s.toSettings) = cs'.map (compRow ext v s'.toSettings) := by
    rw [hst]
    rw [show cs'.map (compRow ext v { s.toSettings with solvent := s'.solvent })
      = cs'.map (compRow ext v s.toSettings) from
        List.map_congr_left fun c _ => compRow_solvent ext v _ _ c]
    clear h h'
    induction hc with
    | nil => rfl
    | @cons a b l l' hab _ ih =>
      rw [List.map_cons, List.map_cons, ih]
      congr 1
      cases a with
      | slab t r g f d =>
        cases b with
        | slab t' r' g' f' d' =>
          obtain ⟨h1, h2, h3, -, h4, h5, h6⟩ := hab
          simp [compRow, layerRi, h1, h2, h3, h4, h5, h6]
        | _ => exact absurd hab id
      | mixed t ra rb f g d =>
        cases b with
        | mixed t' a' b' f' g' d' =>
          obtain ⟨h1, h2, h3, -, ⟨h4, h5, h6⟩, h7, h8, h9⟩ := hab
          simp [compRow, layerRi, h1, h2, h3, h4, h5, h6, h7, h8, h9]
        | _ => exact absurd hab id
      | other r d => exact absurd hab (by cases b <;> exact id)
  rw [← hR]
  have hrev : s'.reverse = s.reverse := by
    have := congrArg Settings.reverse hst; simpa using this
  rw [hrev]
  simp only
  congr 2
  generalize (if s.reverse = true then reverseRows (cs.map (compRow ext v s.toSettings))
    else cs.map (compRow ext v s.toSettings)) = R
  have hso : solventOf ext v s.toSettings R = solventOf ext v s'.toSettings R := by
    have hwav : s'.wavelength = s.wavelength := by
      have := congrArg Settings.wavelength hst; simpa using this
    rcases hsol with ⟨a, b⟩ | ⟨r, r', a, b, -, -, e⟩
    · simp [solventOf, a, b]
    · simp only [solventOf, a, b, hwav]; exact e
  unfold solvRows
  rw [hso]
  have hmix : mixRow ext s.toSettings = mixRow ext s'.toSettings := by
    rw [hst]; rfl
  rw [hmix]

/-- C44: a scatterer of the package is evaluated at the structure's wavelength, and at its own default
wavelength if that is `None` or 0. -/
theorem C44_effective (z : SqrtOracle) (s : Scat) {own : ℝ} (h : s.ownWav = some own) :
    (∀ w : ℝ, w ≠ 0 → s.complex z (some w) = s.at z w) ∧ s.complex z none = s.at z own ∧
      s.complex z (some 0) = s.at z own := by
  cases s <;> simp_all [Scat.complex, Scat.ownWav, pickWav]

theorem evalAt_complex (z : SqrtOracle) (w : Option ℝ) {s : Scat} {own : ℝ} (h : s.ownWav = some own) :
    EvalAt z w s (s.complex z w) := by
  obtain ⟨h1, h2, h3⟩ := C44_effective z s h
  refine ⟨own, h, ?_⟩
  cases w with
  | none => exact .inr ⟨.inl rfl, h2⟩
  | some x =>
    by_cases hx : x = 0
    · subst hx; exact .inr ⟨.inr rfl, h3⟩
    · exact .inl ⟨x, rfl, hx, h1 x hx⟩

theorem evalAt_layer (ext : Ext) (st : Settings) {s : Scat} {own : ℝ} (h : s.ownWav = some own) :
    EvalAt ext.zs st.wavelength s (layerRi ext st s) := by
  have hd : s.dispersive = true := by cases s <;> simp_all [Scat.ownWav, Scat.dispersive]
  rw [layerRi, if_pos hd]
  exact evalAt_complex _ _ h

/-- C44: every row of the slabs has the index of its material at the structure's wavelength: that of the
scatterer of a slab, the mixture of the two scatterers of a mixed slab, and in the interior of a solvated
structure the mixture of that with the solvent, evaluated at the same wavelength. -/
theorem C44_index (ext : Ext) (v : Vals) {s : Structure} {cs : List Comp} (h : Plain s cs)
    (hr : s.reverse = false) :
    ∃ rows, (slabs ext v s none).1 = .ok (some rows) ∧ rows.length = cs.length ∧
      ∀ i, ∀ hi : i < rows.length, ∀ hc : i < cs.length, ∃ n,
        (∀ t r g f d own, cs[i] = .slab t r g f d → (r v).ownWav = some own →
          EvalAt ext.zs s.wavelength (r v) n) ∧
        (∀ t a b f g d own own', cs[i] = .mixed t a b f g d → (a v).ownWav = some own →
          (b v).ownWav = some own' → ∃ na nb, EvalAt ext.zs s.wavelength (a v) na ∧
            EvalAt ext.zs s.wavelength (b v) nb ∧
            EMA.overallRiO (ext.ze (na.getD 0) (nb.getD 0) (v f) s.ema s.dp) na nb (v f) s.ema s.dp = .ok n) ∧
        (i = 0 ∨ i + 1 = cs.length ∨ (∀ c ∈ cs, (cols v c).2.2 ≤ 0) → rows[i].ri = n) ∧
        (0 < i → i + 1 < cs.length → (∃ c ∈ cs, 0 < (cols v c).2.2) →
          ∀ q own, s.solvent = some q → (q v).ownWav = some own →
          ∃ m, EvalAt ext.zs s.wavelength (q v) m ∧
            EMA.overallRiO (ext.ze (n.getD 0) (m.getD 0) (cols v cs[i]).2.2 s.ema s.dp) n m
              (cols v cs[i]).2.2 s.ema s.dp = .ok rows[i].ri) := by
  refine ⟨_, by rw [slabs_plain ext v h], by simp [hr, solv_length], ?_⟩
  simp only [hr, Bool.false_eq_true, if_false]
  intro i hi hc
  have hiR : i < (cs.map (compRow ext v s.toSettings)).length := by simpa using hc
  have hrow := solv_get ext v s.toSettings _ hiR
  rw [List.getElem?_eq_getElem hi, Option.some.injEq] at hrow
  have hany : (∃ r ∈ cs.map (compRow ext v s.toSettings), 0 < r.vf) ↔ ∃ c ∈ cs, 0 < (cols v c).2.2 := by
    simp only [List.mem_map, exists_exists_and_eq_and, ← compRow_cols ext v s.toSettings]
    rfl
  refine ⟨(compRow ext v s.toSettings cs[i]).ri, ?_, ?_, ?_, ?_⟩
  · intro t r g f d own hci hown
    rw [hci]
    exact evalAt_layer ext s.toSettings hown
  · intro t a b f g d own own' hci ha hb
    rw [hci]
    exact ⟨_, _, evalAt_layer ext s.toSettings ha, evalAt_layer ext s.toSettings hb, mixO_ok ext h.ema _ _ _⟩
  · intro hcase
    rw [hrow, if_neg, List.getElem_map]
    rintro ⟨h0, h1, h2⟩
    simp only [List.length_map] at h2
    rcases hcase with hcase | hcase | hcase
    · omega
    · omega
    · obtain ⟨c, hm, hp⟩ := hany.mp h0
      exact absurd hp (not_lt.mpr (hcase c hm))
  · intro h1 h2 h0 q own hq hown
    refine ⟨_, evalAt_complex ext.zs s.wavelength hown, ?_⟩
    rw [hrow, if_pos ⟨hany.mpr h0, h1, by simpa using h2⟩, List.getElem_map]
    have hvf : (compRow ext v s.toSettings cs[i]).vf = (cols v cs[i]).2.2 := by
      rw [← compRow_cols ext v s.toSettings]; rfl
    simp only [mixRow, solventOf, hq, hvf]
    exact mixO_ok ext h.ema _ _ _

/-- Non-vacuity of C44: a constant index can be told apart from a Cauchy material, but not at the
wavelength where they cross. -/
example (z : SqrtOracle) : SameAt z (some 1000) (.const 658 2 0) (.cauchy 658 1 1 0) := by
  refine ⟨rfl, rfl, ?_⟩
  simp [Scat.complex, Scat.at, pickWav, rdiv, Complex.ext_iff]
  norm_num

/-- The roughness of the reversed structure belongs to the same interfaces. -/
example (ext : Ext) : ∃ rows, (slabs ext (fun p => if p = 1 then 7 else exVals p)
    (glassStruct none true) none).1 = .ok (some rows) ∧ ∃ h : 1 < rows.length,
      rows[1].rough = 7 := by
  obtain ⟨rows, h1, h2, h3⟩ := C41_interior_either ext (fun p => if p = 1 then 7 else exVals p)
    (glassStruct_plain none true)
  have hl : 1 < rows.length := by rw [h2]; simp
  refine ⟨rows, h1, hl, ?_⟩
  rw [(h3 1 hl (by simp [seen, glassStruct])).2.2.2.1 rfl]
  simp [seen, glassStruct, cols, dry]

/-- The hypotheses of C39 - C41 hold for a concrete structure. -/
example : Plain (glassStruct none false) [dry (.const 658 1 0), dry (.const 658 (3 / 2) 0),
    wet (.const 658 (3 / 2) 0), dry (.const 658 1 0)] ∧
      (glassStruct none false).reverse = false :=
  ⟨glassStruct_plain _ _, rfl⟩

end Verif.Struct
