import Verif.RModel.Model
import Verif.TMM.PropsObs
import Verif.Struct.PropsSlabs

/-! # Lemmas about the evaluation loop of `ReflectModelSE` -/

namespace Verif.RModel
open Verif.Struct Verif.TMM

theorem mem_npUnique {ws : List ℝ} {w : ℝ} : w ∈ npUnique ws ↔ w ∈ ws := by
  classical
  unfold npUnique
  rw [List.mem_mergeSort, List.mem_dedup]

theorem npUnique_sorted (ws : List ℝ) : (npUnique ws).Pairwise (· ≤ ·) := by
  classical
  have := List.pairwise_mergeSort (le := fun a b : ℝ => decide (a ≤ b))
    (by intro a b c; simpa using le_trans) (by intro a b; simpa using le_total a b) ws.dedup
  unfold npUnique
  simpa using this

theorem npUnique_nodup (ws : List ℝ) : (npUnique ws).Nodup := by
  classical
  unfold npUnique
  exact (List.mergeSort_perm _ _).nodup_iff.mpr (List.nodup_dedup ws)

theorem npUnique_eq_nil {ws : List ℝ} : npUnique ws = [] ↔ ws = [] := by
  constructor
  · intro h
    rw [List.eq_nil_iff_forall_not_mem] at h ⊢
    exact fun a ha => h a (mem_npUnique.mpr ha)
  · rintro rfl
    rw [List.eq_nil_iff_forall_not_mem]
    exact fun a ha => by simpa using mem_npUnique.mp ha

/-- The result at one point, as computed for that point alone: the slabs at its wavelength, passed
to `Delta_Psi_TMM` with its angle. -/
def PointVal (ext : Ext) (zs : List Layer → ℝ → ℝ → Bool) (d : DType) (v : Vals) (m : RM)
    (s : Structure) (pt : ℝ × ℝ) (x : Cell) : Prop :=
  ∃ rows y, (slabs ext v { s with wavelength := some pt.1 } none).1 = .ok (some rows) ∧
    (deltaPsiTMM zs [pt.2] rows pt.1 (v m.off) m.flip).1 = .ok [y] ∧ x = d.storeCell y

variable {ext : Ext} {zs : List Layer → ℝ → ℝ → Bool} {d : DType} {v : Vals} {m : RM}

theorem PointVal.unique {s : Structure} {pt : ℝ × ℝ} {x y : Cell}
    (h : PointVal ext zs d v m s pt x) (h' : PointVal ext zs d v m s pt y) : x = y := by
  obtain ⟨r, a, h1, h2, rfl⟩ := h
  obtain ⟨r', a', h1', h2', rfl⟩ := h'
  rw [h1] at h1'
  simp only [Except.ok.injEq, Option.some.injEq] at h1'
  subst h1'
  rw [h2] at h2'
  simp only [Except.ok.injEq, List.cons.injEq, and_true] at h2'
  rw [h2']

theorem pointVal_wavelength {s : Structure} {o : Option ℝ} {pt : ℝ × ℝ} {x : Cell} :
    PointVal ext zs d v m { s with wavelength := o } pt x ↔ PointVal ext zs d v m s pt x := Iff.rfl

theorem scatter_length {α : Type} (mask : List Bool) (vals old : List α) :
    (scatter mask vals old).length = old.length := by
  induction mask generalizing vals old with
  | nil => simp [scatter]
  | cons b mask ih =>
    cases b <;> cases vals <;> cases old <;> simp [scatter, ih]

theorem scatter_get {R : ℝ → Cell → Prop} {w : ℝ} : ∀ (pts : List (ℝ × ℝ)) (acc vals : List Cell),
    acc.length = pts.length →
    List.Forall₂ R (pick (maskEq (pts.map Prod.fst) w) (pts.map Prod.snd)) vals →
    ∀ (i : ℕ) (pt : ℝ × ℝ), pts[i]? = some pt →
      (pt.1 = w → ∃ x, (scatter (maskEq (pts.map Prod.fst) w) vals acc)[i]? = some x ∧ R pt.2 x) ∧
      (pt.1 ≠ w → (scatter (maskEq (pts.map Prod.fst) w) vals acc)[i]? = acc[i]?) := by
  intro pts
  induction pts with
  | nil => intro acc vals _ _ i pt h; simp at h
  | cons p pts ih =>
    intro acc vals hlen hf i pt hi
    cases acc with
    | nil => simp at hlen
    | cons a acc =>
      have hlen' : acc.length = pts.length := by simpa using hlen
      by_cases hp : p.1 = w
      · have hm : maskEq ((p :: pts).map Prod.fst) w = true :: maskEq (pts.map Prod.fst) w := by
          simp [maskEq, hp]
        rw [hm] at hf ⊢
        simp only [List.map_cons, pick] at hf
        cases hf with
        | @cons _ b _ vs hab hf =>
          simp only [scatter]
          cases i with
          | zero =>
            simp only [List.getElem?_cons_zero, Option.some.injEq] at hi
            subst hi
            exact ⟨fun _ => ⟨b, by simp, hab⟩, fun h => absurd hp h⟩
          | succ i =>
            simp only [List.getElem?_cons_succ] at hi ⊢
            exact ih acc vs hlen' hf i pt hi
      · have hm : maskEq ((p :: pts).map Prod.fst) w = false :: maskEq (pts.map Prod.fst) w := by
          simp [maskEq, hp]
        rw [hm] at hf ⊢
        simp only [List.map_cons, pick] at hf
        simp only [scatter]
        cases i with
        | zero =>
          simp only [List.getElem?_cons_zero, Option.some.injEq] at hi
          subst hi
          exact ⟨fun h => absurd h hp, fun _ => by simp⟩
        | succ i =>
          simp only [List.getElem?_cons_succ] at hi ⊢
          exact ih acc vals hlen' hf i pt hi

theorem mem_pick {pts : List (ℝ × ℝ)} {w a : ℝ} :
    a ∈ pick (maskEq (pts.map Prod.fst) w) (pts.map Prod.snd) ↔ (w, a) ∈ pts := by
  induction pts with
  | nil => simp [pick, maskEq]
  | cons p pts ih =>
    obtain ⟨p1, p2⟩ := p
    by_cases hp : p1 = w
    · have hm : maskEq (((p1, p2) :: pts).map Prod.fst) w = true :: maskEq (pts.map Prod.fst) w := by
        simp [maskEq, hp]
      rw [hm]
      simp only [List.map_cons, pick, List.mem_cons, ih, Prod.mk.injEq]
      constructor
      · rintro (rfl | h)
        · exact .inl ⟨hp.symm, rfl⟩
        · exact .inr h
      · rintro (⟨_, rfl⟩ | h)
        · exact .inl rfl
        · exact .inr h
    · have hm : maskEq (((p1, p2) :: pts).map Prod.fst) w = false :: maskEq (pts.map Prod.fst) w := by
        simp [maskEq, hp]
      rw [hm]
      simp only [List.map_cons, pick, List.mem_cons, ih, Prod.mk.injEq]
      constructor
      · exact .inr
      · rintro (⟨h, _⟩ | h)
        · exact absurd h.symm hp
        · exact h

/-- A stack with fewer than two rows never gives a result. -/
theorem two_rows {aoi : List ℝ} {rows : List Row} {wav off : ℝ} {r : Bool} {l : List Cell}
    (h : (deltaPsiTMM zs aoi rows wav off r).1 = .ok l) : ∃ a b t, rows = a :: b :: t := by
  match rows, h with
  | [], h => simp [deltaPsiTMM] at h
  | [a], h =>
    exfalso
    have h1 : ∀ (L : Layer) pts, ∃ e, cohTmm [L] pts = .error e := by
      intro L pts
      unfold cohTmm
      simp only
      by_cases hc : ∀ pt ∈ pts, assertOk L.n pt.1
      · exact ⟨_, by rw [if_pos hc, if_pos (by simp)]⟩
      · exact ⟨_, by rw [if_neg hc]⟩
    have h2 : toLayers (zeroFrontK [a]) = [⟨a.ri.map fun n => ((n.re : ℝ) : ℂ), .inf⟩] := rfl
    obtain ⟨e, he⟩ := h1 ⟨a.ri.map fun n => ((n.re : ℝ) : ℂ), .inf⟩
      (aoi.map fun a => (((a * (Real.pi / 180) : ℝ) : ℂ), wav))
    simp only [deltaPsiTMM, h2, he, Except.map] at h
    simp at h
  | a :: b :: t, _ => exact ⟨a, b, t, rfl⟩

/-- What the loop over a list `U` of wavelengths achieves. -/
theorem loop_ok {pts : List (ℝ × ℝ)} : ∀ (U : List ℝ) (acc : List Cell) (s : Structure)
    (l : List Cell), acc.length = pts.length → (∀ w ∈ U, ∃ a, (w, a) ∈ pts) →
    ((modelLoop ext zs d v m pts U acc s).1 = .ok l ↔
      l.length = pts.length ∧ ∀ (i : ℕ) (pt : ℝ × ℝ) (x : Cell), pts[i]? = some pt → l[i]? = some x →
        (pt.1 ∈ U → PointVal ext zs d v m s pt x) ∧ (pt.1 ∉ U → acc[i]? = some x)) := by
  intro U
  induction U with
  | nil =>
    intro acc s l hlen _
    simp only [modelLoop, Except.ok.injEq, List.not_mem_nil, false_imp_iff, not_false_eq_true,
      true_imp_iff, true_and]
    constructor
    · rintro rfl
      exact ⟨hlen, fun i pt x _ h => h⟩
    · rintro ⟨h1, h2⟩
      apply List.ext_getElem (by omega)
      intro i hi hi'
      have := h2 i pts[i] l[i] (by simp) (by simp)
      simpa [List.getElem?_eq_getElem hi] using this
  | cons w U ih =>
    intro acc s l hlen hU
    obtain ⟨a0, ha0⟩ := hU w (by simp)
    have hU' : ∀ w' ∈ U, ∃ a, (w', a) ∈ pts := fun w' h => hU w' (by simp [h])
    have hs2 := C44_no_keyword ext v { s with wavelength := some w }
    -- one step
    have key : ∀ rows vals, slabs ext v { s with wavelength := some w } none
          = (.ok (some rows), { s with wavelength := some w }) →
        (deltaPsiTMM zs (pick (maskEq (pts.map Prod.fst) w) (pts.map Prod.snd)) rows w (v m.off)
          m.flip).1 = .ok vals →
        ((modelLoop ext zs d v m pts (w :: U) acc s).1 = .ok l ↔
        l.length = pts.length ∧ ∀ (i : ℕ) (pt : ℝ × ℝ) (x : Cell), pts[i]? = some pt → l[i]? = some x →
        (pt.1 ∈ w :: U → PointVal ext zs d v m s pt x) ∧ (pt.1 ∉ w :: U → acc[i]? = some x)) := by
      intro rows vals h1 h2
      simp only [modelLoop, h1, h2]
      obtain ⟨r0, r1, rest, rfl⟩ := two_rows h2
      rw [C19_delta_psi_pointwise] at h2
      set acc' := scatter (maskEq (pts.map Prod.fst) w) (vals.map d.storeCell) acc with hacc'
      have hlen' : acc'.length = pts.length := by rw [hacc', scatter_length, hlen]
      rw [ih acc' _ l hlen' hU']
      have hg := scatter_get (R := fun a x => PointVal ext zs d v m s (w, a) x) (w := w) pts acc
        (vals.map d.storeCell) hlen (by
          rw [List.forall₂_map_right_iff]
          refine h2.imp ?_
          intro a x hx
          exact ⟨_, x, by rw [h1], hx, rfl⟩)
      refine and_congr_right fun hl => ?_
      refine forall_congr' fun i => forall_congr' fun pt => forall_congr' fun x =>
        forall_congr' fun hi => forall_congr' fun hx => ?_
      obtain ⟨g1, g2⟩ := hg i pt hi
      rw [← hacc'] at g1 g2
      by_cases hw : pt.1 = w
      · obtain ⟨y, hy, hR⟩ := g1 hw
        have hR' : PointVal ext zs d v m s pt y := by
          have : (w, pt.2) = pt := by rw [← hw]
          rwa [this] at hR
        rw [hy]
        simp only [hw, List.mem_cons, true_or, true_imp_iff, not_true_eq_false, false_imp_iff,
          and_true, Option.some.injEq]
        constructor
        · rintro ⟨q1, q2⟩
          by_cases hm : w ∈ U
          · exact q1 hm
          · rw [← q2 hm]; exact hR'
        · intro q
          exact ⟨fun _ => q, fun _ => hR'.unique q⟩
      · rw [g2 hw]
        simp [hw, pointVal_wavelength]
    constructor
    · intro h
      rcases hr : slabs ext v { s with wavelength := some w } none with ⟨r1, s1⟩
      rw [hr] at hs2
      simp only at hs2
      subst hs2
      cases r1 with
      | error e => simp [modelLoop, hr] at h
      | ok o =>
        cases o with
        | none => simp [modelLoop, hr] at h
        | some rows =>
          cases hd : (deltaPsiTMM zs (pick (maskEq (pts.map Prod.fst) w) (pts.map Prod.snd)) rows w
              (v m.off) m.flip).1 with
          | error e => simp [modelLoop, hr, hd] at h
          | ok vals => exact (key rows vals hr hd).mp h
    · rintro ⟨hl, h⟩
      have hp : ∀ a, (w, a) ∈ pts → ∃ x, PointVal ext zs d v m s (w, a) x := by
        intro a ha
        obtain ⟨i, hi⟩ := List.mem_iff_getElem?.mp ha
        have hil : i < l.length := by
          rw [hl]
          by_contra hc
          rw [List.getElem?_eq_none (by omega)] at hi
          simp at hi
        exact ⟨l[i], (h i _ _ hi (by simp)).1 (by simp)⟩
      obtain ⟨_, rows, y, hrow, hy, _⟩ := hp a0 ha0
      have hr : slabs ext v { s with wavelength := some w } none
          = (.ok (some rows), { s with wavelength := some w }) := Prod.ext hrow hs2
      obtain ⟨r0, r1, rest, rfl⟩ := two_rows hy
      have hv : ∃ vals, List.Forall₂ (fun a x => (deltaPsiTMM zs [a] (r0 :: r1 :: rest) w (v m.off)
          m.flip).1 = .ok [x]) (pick (maskEq (pts.map Prod.fst) w) (pts.map Prod.snd)) vals := by
        have : ∀ a ∈ pick (maskEq (pts.map Prod.fst) w) (pts.map Prod.snd), ∃ x,
            (deltaPsiTMM zs [a] (r0 :: r1 :: rest) w (v m.off) m.flip).1 = .ok [x] := by
          intro a ha
          obtain ⟨_, rows', y', hrow', hy', _⟩ := hp a (mem_pick.mp ha)
          simp only at hrow'
          rw [hrow] at hrow'
          simp only [Except.ok.injEq, Option.some.injEq] at hrow'
          subst hrow'
          exact ⟨y', hy'⟩
        generalize pick (maskEq (pts.map Prod.fst) w) (pts.map Prod.snd) = L at this
        induction L with
        | nil => exact ⟨[], .nil⟩
        | cons a L ihL =>
          obtain ⟨x, hx⟩ := this a (by simp)
          obtain ⟨vs, hvs⟩ := ihL fun b hb => this b (by simp [hb])
          exact ⟨x :: vs, .cons hx hvs⟩
      obtain ⟨vals, hvals⟩ := hv
      exact (key _ vals hr (C19_delta_psi_pointwise.mpr hvals)).mpr ⟨hl, h⟩

/-- The model evaluated on any array: at each row the result of that row alone. -/
theorem model_ok {s : Structure} {pts : List (ℝ × ℝ)} {l : List Cell} :
    (model ext zs d v m s pts).1 = .ok l ↔ List.Forall₂ (PointVal ext zs d v m s) pts l := by
  unfold model
  rw [loop_ok _ _ _ _ (by simp) (by
    intro w hw
    rw [mem_npUnique, List.mem_map] at hw
    obtain ⟨⟨w', a⟩, h, rfl⟩ := hw
    exact ⟨a, h⟩)]
  rw [List.forall₂_iff_get]
  constructor
  · rintro ⟨h1, h2⟩
    refine ⟨h1.symm, fun i hi hi' => ?_⟩
    exact (h2 i _ _ (by simp [hi]) (by simp [hi'])).1
      (mem_npUnique.mpr (List.mem_map_of_mem (List.getElem_mem _)))
  · rintro ⟨h1, h2⟩
    refine ⟨h1.symm, fun i pt x hi hx => ?_⟩
    obtain ⟨hi', rfl⟩ := List.getElem?_eq_some_iff.mp hi
    obtain ⟨hx', rfl⟩ := List.getElem?_eq_some_iff.mp hx
    exact ⟨fun _ => h2 i hi' hx', fun hn => absurd (mem_npUnique.mpr
      (List.mem_map_of_mem (List.getElem_mem _))) hn⟩

/-- The structure is left at the wavelength evaluated last. -/
theorem loop_state {pts : List (ℝ × ℝ)} : ∀ (U : List ℝ) (acc : List Cell) (s : Structure)
    (l : List Cell), (modelLoop ext zs d v m pts U acc s).1 = .ok l →
    (modelLoop ext zs d v m pts U acc s).2 =
      { s with wavelength := (U.getLast?).orElse fun _ => s.wavelength } := by
  intro U
  induction U with
  | nil => intro acc s l _; rfl
  | cons w U ih =>
    intro acc s l h
    have hs2 := C44_no_keyword ext v { s with wavelength := some w }
    rcases hr : slabs ext v { s with wavelength := some w } none with ⟨r1, s1⟩
    rw [hr] at hs2
    simp only at hs2
    subst hs2
    rcases r1 with _ | _ | rows
    · simp [modelLoop, hr] at h
    · simp [modelLoop, hr] at h
    · cases hd : (deltaPsiTMM zs (pick (maskEq (pts.map Prod.fst) w) (pts.map Prod.snd)) rows w
        (v m.off) m.flip).1 with
      | error e => simp [modelLoop, hr, hd] at h
      | ok vals =>
        simp only [modelLoop, hr, hd] at h ⊢
        rw [ih _ _ _ h]
        cases U with
        | nil => rfl
        | cons b U => rfl

/-- Whatever happens, only the wavelength of the structure changes. -/
theorem loop_state' {pts : List (ℝ × ℝ)} : ∀ (U : List ℝ) (acc : List Cell) (s : Structure),
    ∃ o, (modelLoop ext zs d v m pts U acc s).2 = { s with wavelength := o } := by
  intro U
  induction U with
  | nil => intro acc s; exact ⟨_, rfl⟩
  | cons w U ih =>
    intro acc s
    have hs2 := C44_no_keyword ext v { s with wavelength := some w }
    rcases hr : slabs ext v { s with wavelength := some w } none with ⟨r1, s1⟩
    rw [hr] at hs2
    simp only at hs2
    subst hs2
    rcases r1 with _ | _ | rows
    · exact ⟨some w, by simp [modelLoop, hr]⟩
    · exact ⟨some w, by simp [modelLoop, hr]⟩
    · cases hd : (deltaPsiTMM zs (pick (maskEq (pts.map Prod.fst) w) (pts.map Prod.snd)) rows w
        (v m.off) m.flip).1 with
      | error e => exact ⟨some w, by simp [modelLoop, hr, hd]⟩
      | ok vals =>
        simp only [modelLoop, hr, hd]
        obtain ⟨o, ho⟩ := ih (scatter (maskEq (pts.map Prod.fst) w) (vals.map d.storeCell) acc)
          { s with wavelength := some w }
        exact ⟨o, ho⟩

/-- The value does not depend on the wavelength found in the structure. -/
theorem loop_wavelength {pts : List (ℝ × ℝ)} : ∀ (U : List ℝ) (acc : List Cell) (s : Structure)
    (o : Option ℝ), (modelLoop ext zs d v m pts U acc { s with wavelength := o }).1 =
      (modelLoop ext zs d v m pts U acc s).1 := by
  intro U acc s o
  cases U with
  | nil => rfl
  | cons w U => rfl

end Verif.RModel
