import Verif.Obj.NaN
import Verif.Obj.PropsProbable

/-! # C178: points that are not numbers -/

namespace Verif.Obj
open Verif.Struct Verif.TMM Verif.RModel Verif.Data

/-- Spec: the rows that consist of numbers. -/
def numeric (pts : List (Option ℝ × Option ℝ)) : List (ℝ × ℝ) :=
  pts.filterMap fun p => match p with
    | (some w, some a) => some (w, a)
    | _ => none

/-- Spec: results for the rows with a wavelength, and 0 for the others. -/
def fill : List (Option ℝ × Option ℝ) → List Cell → List Cell
  | [], _ => []
  | (none, _) :: r, cs => (some 0, some 0) :: fill r cs
  | (some _, _) :: r, c :: cs => c :: fill r cs
  | (some _, _) :: r, [] => fill r []

/-- Spec: rows with a wavelength have an angle. -/
def Angled (pts : List (Option ℝ × Option ℝ)) : Prop := ∀ p ∈ pts, p.1.isSome → p.2.isSome

theorem numbers_map (l : List ℝ) : numbers (l.map some) = some l := by
  induction l with
  | nil => rfl
  | cons x l ih => simp [numbers, ih]

theorem numbers_none {l : List (Option ℝ)} (h : none ∈ l) : numbers l = none := by
  induction l with
  | nil => simp at h
  | cons x l ih =>
    cases x with
    | none => rfl
    | some x =>
      simp only [List.mem_cons, reduceCtorEq, false_or] at h
      simp [numbers, ih h]

theorem wav_numeric {pts : List (Option ℝ × Option ℝ)} (h : Angled pts) :
    (pts.map Prod.fst).filterMap id = (numeric pts).map Prod.fst := by
  induction pts with
  | nil => rfl
  | cons p pts ih =>
    have h' : Angled pts := fun q hq => h q (List.mem_cons_of_mem _ hq)
    have hp := h p List.mem_cons_self
    rcases p with ⟨_ | w, _ | a⟩
    · simpa [numeric] using ih h'
    · simpa [numeric] using ih h'
    · simp at hp
    · simpa [numeric] using ih h'

theorem pick_numeric {pts : List (Option ℝ × Option ℝ)} (h : Angled pts) (w : ℝ) :
    pick (nanMask (pts.map Prod.fst) (some w)) (pts.map Prod.snd) =
      (pick (maskEq ((numeric pts).map Prod.fst) w) ((numeric pts).map Prod.snd)).map some := by
  induction pts with
  | nil => rfl
  | cons p pts ih =>
    have h' : Angled pts := fun q hq => h q (List.mem_cons_of_mem _ hq)
    have hp := h p List.mem_cons_self
    have ih := ih h'
    rcases p with ⟨_ | u, a⟩
    · have e : numeric ((none, a) :: pts) = numeric pts := by simp [numeric]
      rw [e, ← ih]
      simp [nanMask, pick]
    · cases a with
      | none => simp at hp
      | some a =>
        have e : numeric ((some u, some a) :: pts) = (u, a) :: numeric pts := by simp [numeric]
        rw [e]
        by_cases hu : u = w
        · simpa [nanMask, maskEq, pick, hu] using ih
        · simpa [nanMask, maskEq, pick, hu] using ih

theorem scatter_numeric {pts : List (Option ℝ × Option ℝ)} (h : Angled pts) (w : ℝ) : ∀ (vals acc : List Cell),
    acc.length = (numeric pts).length →
    scatter (nanMask (pts.map Prod.fst) (some w)) vals (fill pts acc) =
      fill pts (scatter (maskEq ((numeric pts).map Prod.fst) w) vals acc) := by
  induction pts with
  | nil => intro vals acc _; simp [nanMask, fill, scatter]
  | cons p pts ih =>
    intro vals acc hl
    have h' : Angled pts := fun q hq => h q (List.mem_cons_of_mem _ hq)
    have hp := h p List.mem_cons_self
    have ih := ih h'
    rcases p with ⟨_ | u, a⟩
    · have e : numeric ((none, a) :: pts) = numeric pts := by simp [numeric]
      rw [e] at hl ⊢
      simpa [nanMask, fill, scatter] using ih vals acc hl
    · cases a with
      | none => simp at hp
      | some a =>
        have e : numeric ((some u, some a) :: pts) = (u, a) :: numeric pts := by simp [numeric]
        rw [e] at hl ⊢
        cases acc with
        | nil => simp at hl
        | cons c acc =>
          have hl' : acc.length = (numeric pts).length := by simpa using hl
          by_cases hu : u = w
          · cases vals with
            | nil =>
              have e1 : scatter (nanMask (((some u, some a) :: pts).map Prod.fst) (some w)) [] (fill ((some u, some a) :: pts) (c :: acc)) =
                fill ((some u, some a) :: pts) (c :: acc) := by simp [nanMask, hu, fill, scatter]
              rw [e1]
              simp [maskEq, hu, scatter]
            | cons x vals => simpa [nanMask, maskEq, fill, scatter, hu] using ih vals acc hl'
          · simpa [nanMask, maskEq, fill, scatter, hu] using ih vals acc hl'

theorem mask_none {α : Type} (ws : List (Option ℝ)) (l : List α) : pick (nanMask ws none) l = [] := by
  induction ws generalizing l with
  | nil => simp [nanMask, pick]
  | cons x ws ih =>
    cases l with
    | nil => simp [nanMask, pick]
    | cons a l => simpa [nanMask, pick] using ih l

theorem scatter_none {α : Type} (ws : List (Option ℝ)) (vals l : List α) : scatter (nanMask ws none) vals l = l := by
  induction ws generalizing l with
  | nil => simp [nanMask, scatter]
  | cons x ws ih =>
    cases l with
    | nil => simp [nanMask, scatter]
    | cons a l => simpa [nanMask, scatter] using ih l

variable {ext : Ext} {zs : List Layer → ℝ → ℝ → Bool} {d : DType} {v : Vals} {m : RM}
  {nanSlabs : Structure → Except PyErr (Option (List Row))}

/-- Spec: `structure.slabs()` works for the wavelength `nan` and gives at least two rows. -/
def SlabsAtNaN (nanSlabs : Structure → Except PyErr (Option (List Row))) : Prop :=
  ∀ s, ∃ a b t, nanSlabs s = .ok (some (a :: b :: t))

theorem no_angles {a b : Row} {t : List Row} {w off : ℝ} {f : Bool} :
    (deltaPsiTMM zs [] (a :: b :: t) w off f).1 = .ok [] := by
  have : ∃ x y l, toLayers (zeroFrontK (a :: b :: t)) = x :: y :: l := by
    cases t with
    | nil => exact ⟨_, _, _, rfl⟩
    | cons c t => exact ⟨_, _, _, rfl⟩
  obtain ⟨x, y, l, e⟩ := this
  simp [deltaPsiTMM, e, cohTmm, Except.map]

theorem nanLoop_numeric (hn : SlabsAtNaN nanSlabs) {pts : List (Option ℝ × Option ℝ)} (h : Angled pts) (b : Bool) :
    ∀ (U : List ℝ) (acc : List Cell) (s : Structure) (f : Bool), acc.length = (numeric pts).length →
    (nanLoop ext zs d v m nanSlabs pts (U.map some ++ if b then [none] else []) (fill pts acc) (s, f)).1 =
      (modelLoop ext zs d v m (numeric pts) U acc s).1.map (fill pts) ∧
    ∀ l, (modelLoop ext zs d v m (numeric pts) U acc s).1 = .ok l →
      (nanLoop ext zs d v m nanSlabs pts (U.map some ++ if b then [none] else []) (fill pts acc) (s, f)).2 =
        ((modelLoop ext zs d v m (numeric pts) U acc s).2, b || (f && U.isEmpty)) := by
  intro U
  induction U with
  | nil =>
    intro acc s f _
    cases b with
    | false => simp [nanLoop, modelLoop, Except.map]
    | true =>
      obtain ⟨a, b, t, e⟩ := hn s
      simp [nanLoop, modelLoop, Except.map, e, mask_none, nanDeltaPsi, numbers, no_angles, scatter_none]
  | cons w U ih =>
    intro acc s f hl
    simp only [List.map_cons, List.cons_append, nanLoop, modelLoop]
    rcases slabs ext v { s with wavelength := some w } none with ⟨r1, s1⟩
    rcases r1 with e | _ | rows
    · simp [Except.map]
    · simp [Except.map]
    · simp only [nanDeltaPsi, pick_numeric h, numbers_map]
      rcases (deltaPsiTMM zs (pick (maskEq ((numeric pts).map Prod.fst) w) ((numeric pts).map Prod.snd)) rows w (v m.off)
        m.flip).1 with e | vals
      · simp [Except.map]
      · simp only [scatter_numeric h w _ _ hl]
        have := ih (scatter (maskEq ((numeric pts).map Prod.fst) w) (vals.map d.storeCell) acc) s1 false
          (by rw [scatter_length, hl])
        refine ⟨this.1, fun l hl => ?_⟩
        rw [this.2 l hl]
        simp

theorem fill_zero {pts : List (Option ℝ × Option ℝ)} (h : Angled pts) :
    fill pts ((numeric pts).map fun _ => (some 0, some 0)) = pts.map fun _ => (some 0, some 0) := by
  induction pts with
  | nil => rfl
  | cons p pts ih =>
    have h' : Angled pts := fun q hq => h q (List.mem_cons_of_mem _ hq)
    have hp := h p List.mem_cons_self
    rcases p with ⟨_ | u, a⟩
    · have e : numeric ((none, a) :: pts) = numeric pts := by simp [numeric]
      rw [e]
      simpa [fill] using ih h'
    · cases a with
      | none => simp at hp
      | some a =>
        have e : numeric ((some u, some a) :: pts) = (u, a) :: numeric pts := by simp [numeric]
        rw [e]
        simpa [fill] using ih h'

/-- C178: a row whose wavelength is `nan` does not raise and does not give `nan`: its psi and delta are 0 (without the delta
offset).  The other rows have the values they have alone. -/
theorem C178_wavelength (hn : SlabsAtNaN nanSlabs) (s : Structure) {pts : List (Option ℝ × Option ℝ)} (h : Angled pts) :
    (nanModel ext zs d v m nanSlabs s pts).1 = (model ext zs d v m s (numeric pts)).1.map (fill pts) := by
  have := (nanLoop_numeric (ext := ext) (zs := zs) (d := d) (v := v) (m := m) hn h (decide (none ∈ pts.map Prod.fst))
    (npUnique ((numeric pts).map Prod.fst)) ((numeric pts).map fun _ => (some 0, some 0)) s false (by simp)).1
  rw [fill_zero h] at this
  rw [nanModel, nanUnique, wav_numeric h, model, ← this]
  congr 3
  by_cases hm : none ∈ pts.map Prod.fst <;> simp [hm]

/-- C178: afterwards `structure.wavelength` is `nan` if the wavelength of a row is. -/
theorem C178_state (hn : SlabsAtNaN nanSlabs) (s : Structure) {pts : List (Option ℝ × Option ℝ)} (h : Angled pts)
    {l : List Cell} (hl : (nanModel ext zs d v m nanSlabs s pts).1 = .ok l) :
    (nanModel ext zs d v m nanSlabs s pts).2 =
      ((model ext zs d v m s (numeric pts)).2, decide (none ∈ pts.map Prod.fst)) := by
  have h1 := C178_wavelength (ext := ext) (zs := zs) (d := d) (v := v) (m := m) hn s h
  rw [hl] at h1
  rcases hm : (model ext zs d v m s (numeric pts)).1 with e | l'
  · rw [hm] at h1
    simp [Except.map] at h1
  have := (nanLoop_numeric (ext := ext) (zs := zs) (d := d) (v := v) (m := m) hn h (decide (none ∈ pts.map Prod.fst))
    (npUnique ((numeric pts).map Prod.fst)) ((numeric pts).map fun _ => (some 0, some 0)) s false (by simp)).2 l' hm
  rw [fill_zero h] at this
  rw [nanModel, nanUnique, wav_numeric h, model]
  rw [Bool.false_and, Bool.or_false] at this
  rw [← this]
  congr 3
  by_cases hm : none ∈ pts.map Prod.fst <;> simp [hm]

theorem mem_nanPick {pts : List (Option ℝ × Option ℝ)} {w : ℝ} {a : Option ℝ} :
    a ∈ pick (nanMask (pts.map Prod.fst) (some w)) (pts.map Prod.snd) ↔ (some w, a) ∈ pts := by
  induction pts with
  | nil => simp [nanMask, pick]
  | cons p pts ih =>
    obtain ⟨u, b⟩ := p
    by_cases hu : u = some w
    · have e : pick (nanMask (((u, b) :: pts).map Prod.fst) (some w)) (((u, b) :: pts).map Prod.snd) =
          b :: pick (nanMask (pts.map Prod.fst) (some w)) (pts.map Prod.snd) := by simp [nanMask, pick, hu]
      rw [e, List.mem_cons, ih, List.mem_cons, hu]
      simp
    · have e : pick (nanMask (((u, b) :: pts).map Prod.fst) (some w)) (((u, b) :: pts).map Prod.snd) =
          pick (nanMask (pts.map Prod.fst) (some w)) (pts.map Prod.snd) := by simp [nanMask, pick, hu]
      rw [e, ih, List.mem_cons]
      simp [Ne.symm hu]

theorem numbers_cases (l : List (Option ℝ)) : none ∈ l ∨ ∃ as, l = as.map some ∧ numbers l = some as := by
  induction l with
  | nil => exact .inr ⟨[], rfl, rfl⟩
  | cons x l ih =>
    cases x with
    | none => exact .inl List.mem_cons_self
    | some x =>
      rcases ih with h | ⟨as, rfl, h⟩
      · exact .inl (List.mem_cons_of_mem _ h)
      · exact .inr ⟨x :: as, rfl, by simp [numbers, h]⟩

theorem nanLoop_angle {pts : List (Option ℝ × Option ℝ)} {s : Structure}
    (hs : ∀ w a, (some w, a) ∈ pts → ∃ r0 r1 t, (slabs ext v { s with wavelength := some w } none).1 = .ok (some (r0 :: r1 :: t)))
    (hp : ∀ w a, (some w, some a) ∈ pts → ∃ x, PointVal ext zs d v m s (w, a) x) (tail : List (Option ℝ)) :
    ∀ (U : List ℝ) (acc : List Cell) (o : Option ℝ) (f : Bool), (∀ w ∈ U, ∃ a, (some w, a) ∈ pts) →
    (∃ w ∈ U, (some w, none) ∈ pts) →
    (nanLoop ext zs d v m nanSlabs pts (U.map some ++ tail) acc ({ s with wavelength := o }, f)).1 =
      .error .assertionError := by
  intro U
  induction U with
  | nil => intro acc o f _ h; simp at h
  | cons w U ih =>
    intro acc o f hU h
    obtain ⟨a0, ha0⟩ := hU w List.mem_cons_self
    obtain ⟨r0, r1, t, hr⟩ := hs w a0 ha0
    have hr' : slabs ext v { s with wavelength := some w } none =
        (.ok (some (r0 :: r1 :: t)), { s with wavelength := some w }) :=
      Prod.ext hr (C44_no_keyword ext v { s with wavelength := some w })
    simp only [List.map_cons, List.cons_append, nanLoop, hr']
    rcases numbers_cases (pick (nanMask (pts.map Prod.fst) (some w)) (pts.map Prod.snd)) with hb | ⟨as, hb, hb'⟩
    · simp [nanDeltaPsi, numbers_none hb]
    · have hv : ∃ vals, List.Forall₂ (fun a x => (deltaPsiTMM zs [a] (r0 :: r1 :: t) w (v m.off) m.flip).1 = .ok [x]) as vals := by
        have : ∀ a ∈ as, ∃ x, (deltaPsiTMM zs [a] (r0 :: r1 :: t) w (v m.off) m.flip).1 = .ok [x] := by
          intro a ha
          obtain ⟨_, rows', y', hrow', hy', _⟩ := hp w a (mem_nanPick.mp (by rw [hb]; exact List.mem_map_of_mem ha))
          simp only at hrow'
          rw [hr] at hrow'
          simp only [Except.ok.injEq, Option.some.injEq] at hrow'
          subst hrow'
          exact ⟨y', hy'⟩
        clear hb hb'
        induction as with
        | nil => exact ⟨[], .nil⟩
        | cons a L ihL =>
          obtain ⟨x, hx⟩ := this a (by simp)
          obtain ⟨vs, hvs⟩ := ihL fun b hb => this b (by simp [hb])
          exact ⟨x :: vs, .cons hx hvs⟩
      obtain ⟨vals, hvals⟩ := hv
      have hok := C19_delta_psi_pointwise.mpr hvals
      simp only [nanDeltaPsi, hb', hok]
      refine ih _ (some w) false (fun w' h' => hU w' (List.mem_cons_of_mem _ h')) ?_
      obtain ⟨w', hw', hn'⟩ := h
      rcases List.mem_cons.mp hw' with rfl | hw'
      · have := mem_nanPick.mpr hn'
        rw [hb] at this
        simp at this
      · exact ⟨w', hw', hn'⟩

/-- C178: an angle of incidence that is `nan`, at a wavelength that is not, raises AssertionError although all other rows have
values: none of them is returned. -/
theorem C178_angle (s : Structure) {pts : List (Option ℝ × Option ℝ)}
    (hs : ∀ w a, (some w, a) ∈ pts → ∃ r0 r1 t, (slabs ext v { s with wavelength := some w } none).1 = .ok (some (r0 :: r1 :: t)))
    (hp : ∀ w a, (some w, some a) ∈ pts → ∃ x, PointVal ext zs d v m s (w, a) x) {w : ℝ} (h : (some w, none) ∈ pts) :
    (nanModel ext zs d v m nanSlabs s pts).1 = .error .assertionError := by
  have hm : ∀ w, w ∈ npUnique ((pts.map Prod.fst).filterMap id) ↔ ∃ a, (some w, a) ∈ pts := by
    intro w
    rw [mem_npUnique, List.mem_filterMap]
    constructor
    · rintro ⟨x, hx, e⟩
      obtain ⟨p, hp, rfl⟩ := List.mem_map.mp hx
      simp only [id] at e
      exact ⟨p.2, by rw [← e]; exact hp⟩
    · rintro ⟨a, ha⟩
      exact ⟨some w, List.mem_map.mpr ⟨_, ha, rfl⟩, rfl⟩
  exact nanLoop_angle (s := s) hs hp _ _ _ s.wavelength _ (fun w hw => (hm w).mp hw) ⟨w, (hm w).mpr ⟨_, h⟩, h⟩

theorem nanLoop_length {pts : List (Option ℝ × Option ℝ)} : ∀ (U : List (Option ℝ)) (acc : List Cell) (s : Structure × Bool)
    (l : List Cell), (nanLoop ext zs d v m nanSlabs pts U acc s).1 = .ok l → l.length = acc.length := by
  intro U
  induction U with
  | nil =>
    intro acc s l h
    simp only [nanLoop, Except.ok.injEq] at h
    rw [h]
  | cons w U ih =>
    intro acc s l h
    cases w with
    | none =>
      simp only [nanLoop] at h
      rcases hs : nanSlabs s.1 with e | _ | rows
      · simp [hs] at h
      · simp [hs] at h
      · simp only [hs] at h
        rcases hd : nanDeltaPsi zs (pick (nanMask (pts.map Prod.fst) none) (pts.map Prod.snd)) rows 0 (v m.off) m.flip with e | vals
        · simp [hd] at h
        · simp only [hd] at h
          rw [ih _ _ _ h, scatter_length]
    | some w =>
      simp only [nanLoop] at h
      rcases hs : slabs ext v { s.1 with wavelength := some w } none with ⟨e | _ | rows, s1⟩
      · simp [hs] at h
      · simp [hs] at h
      · simp only [hs] at h
        rcases hd : nanDeltaPsi zs (pick (nanMask (pts.map Prod.fst) (some w)) (pts.map Prod.snd)) rows w (v m.off) m.flip with
          e | vals
        · simp [hd] at h
        · simp only [hd] at h
          rw [ih _ _ _ h, scatter_length]

variable {env : Env} {o : Objective}

/-- C178: if a psi or a delta of the data is `nan`, chi-squared is never a number. -/
theorem C178_measured {st : St} {pts : List NPt} (h : ∃ p ∈ pts, p.2.2.1 = none ∨ p.2.2.2 = none) (u : ℝ) :
    nanChisqr env o nanSlabs pts st ≠ .ok (some u) := by
  intro hu
  unfold nanChisqr at hu
  rcases hc : (nanModel env.ext env.zs env.dt st.vals (st.models o.model).rm nanSlabs
    (st.structs (st.models o.model).str) (pts.map fun p => (p.1, p.2.1))).1 with e | cells
  · simp [hc] at hu
  have hl : cells.length = pts.length := by
    have := nanLoop_length _ _ _ _ hc
    simpa using this
  simp only [hc, Except.ok.injEq, Option.map_eq_some_iff] at hu
  obtain ⟨l, hf, -⟩ := hu
  have hall := finite_isSome.mp (by rw [hf]; rfl)
  obtain ⟨p, hp, hq⟩ := h
  obtain ⟨i, hi, rfl⟩ := List.mem_iff_getElem.mp hp
  unfold nanRes at hall
  rcases hq with hq | hq
  · have := hall none (List.mem_append_left _ (List.mem_iff_getElem.mpr ⟨i, by simp [hl, hi], by simp [hq]⟩))
    simp at this
  · have := hall none (List.mem_append_right _ (List.mem_iff_getElem.mpr ⟨i, by simp [hl, hi], by simp [hq]⟩))
    simp at this

/-- Spec: the points that have a wavelength and an angle. -/
def measured (q : List (Option ℝ × Option ℝ × ℝ × ℝ)) : List Pt :=
  q.filterMap fun p => match p with
    | (some w, some a, ψ, Δ) => some (w, a, ψ, Δ)
    | _ => none

/-- Spec: the points without a wavelength, compared with psi = delta = 0. -/
noncomputable def lost (q : List (Option ℝ × Option ℝ × ℝ × ℝ)) : ℝ :=
  (q.map fun p => match p.1 with
    | none => p.2.2.1 ^ 2 + circularDistance 0 p.2.2.2 360 ^ 2
    | some _ => 0).sum

theorem numeric_measured (q : List (Option ℝ × Option ℝ × ℝ × ℝ)) :
    numeric (q.map fun p => (p.1, p.2.1)) = (measured q).map fun p => (p.1, p.2.1) := by
  induction q with
  | nil => rfl
  | cons p q ih =>
    rcases p with ⟨_ | w, _ | a, ψ, Δ⟩ <;> simpa [numeric, measured] using ih

theorem fill_sum {q : List (Option ℝ × Option ℝ × ℝ × ℝ)} (h : Angled (q.map fun p => (p.1, p.2.1))) :
    ∀ ms : List (ℝ × ℝ), ms.length = (measured q).length →
    ∃ ns, fill (q.map fun p => (p.1, p.2.1)) (cellsOf ms) = cellsOf ns ∧ ns.length = q.length ∧
      ((q.zip ns).map fun y => (y.2.1 - y.1.2.2.1) ^ 2 + circularDistance y.2.2 y.1.2.2.2 360 ^ 2).sum =
        (((measured q).zip ms).map fun y => sqTerm y.1 y.2).sum + lost q := by
  induction q with
  | nil => intro ms _; exact ⟨[], rfl, rfl, by simp [measured, lost]⟩
  | cons p q ih =>
    intro ms hl
    have h' : Angled (q.map fun p => (p.1, p.2.1)) := fun r hr => h r (List.mem_cons_of_mem _ hr)
    have hp := h _ List.mem_cons_self
    rcases p with ⟨_ | w, a, ψ, Δ⟩
    · have e : measured ((none, a, ψ, Δ) :: q) = measured q := by simp [measured]
      rw [e] at hl ⊢
      obtain ⟨ns, h1, h2, h3⟩ := ih h' ms hl
      refine ⟨(0, 0) :: ns, ?_, by simp [h2], ?_⟩
      · simp only [List.map_cons, fill, h1]
        rfl
      · simp only [List.zip_cons_cons, List.map_cons, List.sum_cons, h3, lost, zero_sub]
        ring
    · cases a with
      | none => simp at hp
      | some a =>
        have e : measured ((some w, some a, ψ, Δ) :: q) = (w, a, ψ, Δ) :: measured q := by simp [measured]
        rw [e] at hl ⊢
        cases ms with
        | nil => simp at hl
        | cons x ms =>
          obtain ⟨ns, h1, h2, h3⟩ := ih h' ms (by simpa using hl)
          refine ⟨x :: ns, ?_, by simp [h2], ?_⟩
          · rw [show cellsOf (x :: ms) = (some x.1, some x.2) :: cellsOf ms from rfl]
            simp only [List.map_cons, fill, h1]
            rfl
          · simp only [List.zip_cons_cons, List.map_cons, List.sum_cons, h3, lost, sqTerm]
            ring

theorem fill_mem {pts : List (Option ℝ × Option ℝ)} (h : Angled pts) : ∀ cells : List Cell,
    cells.length = (numeric pts).length → (∀ c ∈ fill pts cells, c.1.isSome ∧ c.2.isSome) →
    ∀ c ∈ cells, c.1.isSome ∧ c.2.isSome := by
  induction pts with
  | nil =>
    intro cells hl _ c hc
    rw [List.length_eq_zero_iff.mp hl] at hc
    simp at hc
  | cons p pts ih =>
    intro cells hl hall
    have h' : Angled pts := fun q hq => h q (List.mem_cons_of_mem _ hq)
    have hp := h p List.mem_cons_self
    rcases p with ⟨_ | u, a⟩
    · have e : numeric ((none, a) :: pts) = numeric pts := by simp [numeric]
      rw [e] at hl
      exact ih h' cells hl fun c hc => hall c (by simp [fill, hc])
    · cases a with
      | none => simp at hp
      | some a =>
        have e : numeric ((some u, some a) :: pts) = (u, a) :: numeric pts := by simp [numeric]
        rw [e] at hl
        cases cells with
        | nil => simp at hl
        | cons c cells =>
          intro c' hc'
          rcases List.mem_cons.mp hc' with rfl | hc'
          · exact hall c' (by simp [fill])
          · exact ih h' cells (by simpa using hl) (fun c hc => hall c (by simp [fill, hc])) c' hc'

theorem nanRes_cellsOf (q : List (Option ℝ × Option ℝ × ℝ × ℝ)) (ns : List (ℝ × ℝ)) :
    nanRes (cellsOf ns) (q.map fun p => some p.2.2.1) (q.map fun p => some p.2.2.2) =
      (((q.zip ns).map fun y => y.2.1 - y.1.2.2.1) ++ (q.zip ns).map fun y => circularDistance y.2.2 y.1.2.2.2 360).map some := by
  unfold nanRes cellsOf
  rw [List.map_append]
  congr 1
  · induction q generalizing ns with
    | nil => simp
    | cons p q ih => cases ns <;> simp_all
  · induction q generalizing ns with
    | nil => simp
    | cons p q ih => cases ns <;> simp_all

/-- C178: chi-squared of data with wavelengths that are `nan` is chi-squared of the other points plus a constant, the distance
of the measured psi and delta of these points from 0: a fit does not notice them. -/
theorem C178_chisqr (hn : SlabsAtNaN nanSlabs) {st : St} {q : List (Option ℝ × Option ℝ × ℝ × ℝ)}
    (h : Angled (q.map fun p => (p.1, p.2.1))) (hp : Presents st.heap o.data (measured q)) {u : ℝ} :
    nanChisqr env o nanSlabs (q.map fun p => (p.1, p.2.1, some p.2.2.1, some p.2.2.2)) st = .ok (some u) ↔
      ∃ x, (chisqr env o none st).1 = .ok (some x) ∧ u = x + lost q := by
  have e1 : ((q.map fun p => (p.1, p.2.1, some p.2.2.1, some p.2.2.2) : List NPt).map fun p => (p.1, p.2.1)) =
      q.map fun p => (p.1, p.2.1) := by simp [Function.comp_def]
  have e2 : ((q.map fun p => (p.1, p.2.1, some p.2.2.1, some p.2.2.2) : List NPt).map (·.2.2.1)) =
      q.map fun p => some p.2.2.1 := by simp [Function.comp_def]
  have e3 : ((q.map fun p => (p.1, p.2.1, some p.2.2.1, some p.2.2.2) : List NPt).map (·.2.2.2)) =
      q.map fun p => some p.2.2.2 := by simp [Function.comp_def]
  have hw := C178_wavelength (ext := env.ext) (zs := env.zs) (d := env.dt) (v := st.vals) (m := (st.models o.model).rm) hn
    (st.structs (st.models o.model).str) h
  rw [numeric_measured] at hw
  have key : ∀ ms, Values env o st (measured q) (cellsOf ms) →
      nanChisqr env o nanSlabs (q.map fun p => (p.1, p.2.1, some p.2.2.1, some p.2.2.2)) st =
        .ok (some ((((measured q).zip ms).map fun y => sqTerm y.1 y.2).sum + lost q)) := by
    intro ms hv
    have hlen : ms.length = (measured q).length := by
      have := (model_ok.mp hv).length_eq
      simpa [cellsOf] using this.symm
    obtain ⟨ns, h1, h2, h3⟩ := fill_sum h ms hlen
    unfold Values at hv
    rw [hv, Except.map, h1] at hw
    unfold nanChisqr
    simp only [e1, e2, e3, hw]
    rw [nanRes_cellsOf, finite_some, Option.map_some, List.map_append, List.sum_append, List.map_map, List.map_map, sum_two,
      ← h3]
    simp only [Function.comp_def, ← sq]
  constructor
  · intro hu
    rcases hm : (model env.ext env.zs env.dt st.vals (st.models o.model).rm (st.structs (st.models o.model).str)
      ((measured q).map fun p => (p.1, p.2.1))).1 with e | cells
    · rw [hm, Except.map] at hw
      unfold nanChisqr at hu
      simp [e1, hw] at hu
    have hlen : cells.length = (measured q).length := by
      have := (model_ok.mp hm).length_eq
      simpa using this.symm
    have hcells : ∃ ms, cells = cellsOf ms := by
      refine exists_cellsOf (fill_mem h cells (by rw [numeric_measured, List.length_map, hlen]) ?_)
      have hu' := hu
      rw [hm, Except.map] at hw
      unfold nanChisqr at hu'
      simp only [e1, e2, e3, hw, Except.ok.injEq, Option.map_eq_some_iff] at hu'
      obtain ⟨l, hf, -⟩ := hu'
      have hall := finite_isSome.mp (by rw [hf]; rfl)
      have hfl : (fill (q.map fun p => (p.1, p.2.1)) cells).length = q.length := by
        have := nanLoop_length _ _ _ _ hw
        simpa using this
      intro c hc
      obtain ⟨i, hi, rfl⟩ := List.mem_iff_getElem.mp hc
      have hi' : i < q.length := by rw [← hfl]; exact hi
      unfold nanRes at hall
      constructor
      · have := hall _ (List.mem_append_left _ (List.mem_iff_getElem.mpr ⟨i, by simp [hfl, hi'], rfl⟩))
        simp only [List.getElem_zipWith, List.getElem_map, Option.map_some, Option.isSome_bind] at this
        cases hcc : (fill (q.map fun p => (p.1, p.2.1)) cells)[i].1 with
        | none => rw [hcc] at this; simp at this
        | some _ => rfl
      · have := hall _ (List.mem_append_right _ (List.mem_iff_getElem.mpr ⟨i, by simp [hfl, hi'], rfl⟩))
        simp only [List.getElem_zipWith, List.getElem_map, Option.map_some, Option.isSome_bind] at this
        cases hcc : (fill (q.map fun p => (p.1, p.2.1)) cells)[i].2 with
        | none => rw [hcc] at this; simp at this
        | some _ => rfl
    obtain ⟨ms, rfl⟩ := hcells
    rw [key ms hm] at hu
    simp only [Except.ok.injEq, Option.some.injEq] at hu
    exact ⟨_, (chisqr_iff hp).mpr ⟨ms, hm, rfl⟩, hu.symm⟩
  · rintro ⟨x, hx, rfl⟩
    obtain ⟨ms, hv, rfl⟩ := (chisqr_iff hp).mp hx
    exact key ms hv

/-- Three points, of which the second has no wavelength. -/
def nanPts : List (Option ℝ × Option ℝ × ℝ × ℝ) :=
  [(some 600, some 0, 45, 184), (none, some 70, 30, 100), (some 600, some 0, 45, 186)]

theorem nan_measured : measured nanPts = [(600, 0, 45, 184), (600, 0, 45, 186)] := rfl

theorem nan_angled : Angled (nanPts.map fun p => (p.1, p.2.1)) := by
  intro p hp
  simp only [nanPts, List.map_cons, List.map_nil, List.mem_cons, List.not_mem_nil, or_false] at hp
  rcases hp with rfl | rfl | rfl <;> simp

/-- Non-vacuity of `C178_wavelength`, `C178_state` and `C178_chisqr`: a bare substrate.  Chi-squared is 2 without the point that
has no wavelength, and 10902 with it. -/
example (ext : Ext) (zs : List Layer → ℝ → ℝ → Bool) (r : Row) :
    (nanModel ext zs .float (barSt 5 [184, 186]).vals ⟨7, false⟩ (fun _ => .ok (some [r, r])) ((barSt 5 [184, 186]).structs 0)
      (nanPts.map fun p => (p.1, p.2.1))).1 = .ok [(some 45, some 185), (some 0, some 0), (some 45, some 185)] ∧
    (nanModel ext zs .float (barSt 5 [184, 186]).vals ⟨7, false⟩ (fun _ => .ok (some [r, r])) ((barSt 5 [184, 186]).structs 0)
      (nanPts.map fun p => (p.1, p.2.1))).2.2 = true ∧
    nanChisqr (probEnv ext zs) (probObj none) (fun _ => .ok (some [r, r]))
      (nanPts.map fun p => (p.1, p.2.1, some p.2.2.1, some p.2.2.2)) (barSt 5 [184, 186]) = .ok (some 10902) := by
  have hn : SlabsAtNaN fun _ => .ok (some [r, r]) := fun _ => ⟨r, r, [], rfl⟩
  have hv := prob_values ext zs none 5
  unfold Values at hv
  have h1 := C178_wavelength (ext := ext) (zs := zs) (d := .float) (v := (barSt 5 [184, 186]).vals) (m := ⟨7, false⟩) hn
    ((barSt 5 [184, 186]).structs 0) nan_angled
  rw [numeric_measured, nan_measured] at h1
  erw [hv] at h1
  have h1' : (nanModel ext zs .float (barSt 5 [184, 186]).vals ⟨7, false⟩ (fun _ => .ok (some [r, r]))
      ((barSt 5 [184, 186]).structs 0) (nanPts.map fun p => (p.1, p.2.1))).1 =
      .ok [(some 45, some 185), (some 0, some 0), (some 45, some 185)] := by
    rw [h1]
    norm_num [Except.map, nanPts, fill, cellsOf]
  refine ⟨h1', ?_, ?_⟩
  · rw [C178_state hn _ nan_angled h1']
    simp [nanPts]
  · rw [C178_chisqr (o := probObj none) hn nan_angled (by rw [nan_measured]; exact (bar_presents 5 false 184 186).2)]
    refine ⟨2, ?_, ?_⟩
    · rw [chisqr_iff (o := probObj none) (bar_presents 5 false 184 186).2]
      refine ⟨_, prob_values ext zs none 5, ?_⟩
      norm_num [sqTerm, circularDistance, abs_of_pos, abs_of_neg]
    · norm_num [lost, nanPts, circularDistance, abs_of_neg]

/-- Non-vacuity of `C178_angle`: one angle of two is `nan`. -/
example (ext : Ext) (zs : List Layer → ℝ → ℝ → Bool) (ns : Structure → Except PyErr (Option (List Row))) :
    (nanModel ext zs .float (barSt 5 [184, 186]).vals ⟨7, false⟩ ns ((barSt 5 [184, 186]).structs 0)
      [(some 600, some 0), (some 600, none)]).1 = .error .assertionError := by
  have hv := prob_values ext zs none 5
  unfold Values at hv
  have hx : ∃ x, PointVal ext zs .float (barSt 5 [184, 186]).vals ⟨7, false⟩ ((barSt 5 [184, 186]).structs 0) (600, 0) x := by
    have := model_ok.mp hv
    cases this with
    | cons h _ => exact ⟨_, h⟩
  refine C178_angle (w := 600) _ (fun w a h => ?_) (fun w a h => ?_) (by simp)
  · simp only [List.mem_cons, Prod.mk.injEq, Option.some.injEq, List.not_mem_nil, or_false] at h
    obtain rfl : w = 600 := by rcases h with h | h <;> exact h.1
    obtain ⟨_, rows, y, h1, h2, -⟩ := hx
    obtain ⟨r0, r1, t, rfl⟩ := two_rows h2
    exact ⟨r0, r1, t, h1⟩
  · simp only [List.mem_cons, Prod.mk.injEq, Option.some.injEq, List.not_mem_nil, or_false, reduceCtorEq, and_false] at h
    obtain ⟨rfl, rfl⟩ := h
    exact hx

/-- Non-vacuity of `C178_measured`: one delta is `nan`. -/
example : ∃ p ∈ ([(some 600, some 0, some 45, some 184), (some 600, some 0, some 45, none)] : List NPt),
    p.2.2.1 = none ∨ p.2.2.2 = none := ⟨_, List.mem_cons_of_mem _ List.mem_cons_self, .inr rfl⟩

end Verif.Obj
