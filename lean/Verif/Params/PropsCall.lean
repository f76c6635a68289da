import Verif.Params.PropsParams
import Verif.Obj.PropsState

/-!
# Properties C104 (`model(x, p)`) and C105 (`StructureSE.plot`)
-/

namespace Verif.Params
open Verif.Struct Verif.Disp Verif.RModel Verif.TMM Verif.Obj

variable {ext : Ext} {zs : List Layer → ℝ → ℝ → Bool} {d : DType} {vary : PId → Bool} {h : Objs} {m : RM}
  {s : StructO} {pts : List (ℝ × ℝ)}

/-! ### C104 -/

/-- The varying parameters of a list, each once. -/
def varyingOf (vary : PId → Bool) (ps : List PId) : List PId := unique (ps.filter fun p => vary p)

theorem assign_agree : ∀ (ps : List PId) (xs : List ℝ) (v v' : Vals) (l : List PId),
    ps.length ≤ xs.length → (∀ p ∈ l, p ∉ ps → v p = v' p) →
    ∀ p ∈ l, assign ps xs v p = assign ps xs v' p
  | [], xs, v, v', l, _, hl, p, hp => by simpa [assign] using hl p hp (by simp)
  | q :: ps, [], _, _, _, h, _, _, _ => by simp at h
  | q :: ps, x :: xs, v, v', l, h, hl, p, hp => by
    rw [assign, assign]
    refine assign_agree ps xs _ _ l (by simpa using h) (fun r hr hr' => ?_) p hp
    by_cases hq : r = q
    · subst hq; simp
    · rw [Function.update_of_ne hq, Function.update_of_ne hq]
      exact hl r hr (by simp [hq, hr'])

/-- C104: a vector whose length is neither the number of varying parameters nor that of all parameters is a
ValueError; no parameter changes. -/
theorem C104_wrong_length {x : List ℝ} {v : Vals}
    (h1 : x.length ≠ (varyingOf vary (modelParameters h m.off s)).length)
    (h2 : x.length ≠ (modelParameters h m.off s).length) :
    call ext zs d vary h m s pts (some x) v = (.error .valueError, v, s.view h) := by
  unfold varyingOf at h1
  simp [call, setPvals, h1, h2]

/-- C104: with a vector for the varying parameters these have the values passed afterwards, no other
parameter is changed, and calling the model again without a vector gives the same result. -/
theorem C104_sets {x : List ℝ} {v : Vals}
    (hx : x.length = (varyingOf vary (modelParameters h m.off s)).length) :
    ∃ v', (call ext zs d vary h m s pts (some x) v).2.1 = v' ∧
      (varyingOf vary (modelParameters h m.off s)).map v' = x ∧
      (∀ p, p ∉ modelParameters h m.off s ∨ vary p = false → v' p = v p) ∧
      (call ext zs d vary h m s pts none v').1 = (call ext zs d vary h m s pts (some x) v).1 := by
  have hx' := hx
  unfold varyingOf at hx
  refine ⟨_, rfl, ?_, ?_, ?_⟩
  · simp only [call, setPvals, hx, if_true]
    exact assign_read (Consistent.of_nodup (unique_nodup _) x) hx v
  · intro p hp
    simp only [call, setPvals, hx, if_true]
    refine assign_not_mem _ _ _ fun hm => ?_
    have := List.mem_filter.mp (mem_unique.mp hm)
    rcases hp with hp | hp
    · exact hp this.1
    · simp [hp] at this
  · simp only [call, setPvals, hx, if_true]

/-- C104: what `model(x, p)` returns (value or exception) depends on the vector and on the values of the
fixed parameters that the model lists, on no other state; components are as constructors make them. -/
theorem C104_function (hm : MicroLocal ext) (hc : ∀ i ∈ s.comps, Complete (h i)) (x : List ℝ) {v v' : Vals}
    (ha : ∀ p ∈ modelParameters h m.off s, vary p = false → v p = v' p) :
    (call ext zs d vary h m s pts (some x) v).1 = (call ext zs d vary h m s pts (some x) v').1 := by
  have hmod : ∀ {u u' : Vals}, Agree (modelParameters h m.off s) u u' →
      model ext zs d u m (s.view h) pts = model ext zs d u' m (s.view h) pts := fun hu =>
    modelLoop_congr hm zs d hc hu pts _ _ s.wavelength
  simp only [call, setPvals]
  split_ifs with h1 h2
  · simp only
    rw [hmod (assign_agree _ x v v' _ h1.ge fun p hp hn => ha p hp ?_)]
    by_contra hv
    exact hn (mem_unique.mpr (List.mem_filter.mpr ⟨hp, by simpa using hv⟩))
  · simp only
    rw [hmod (assign_agree _ x v v' _ h2.ge fun p hp hn => absurd hp hn)]
  · rfl

/-! ### C105 -/

theorem setPvals_cases {ps : List PId} {x : List ℝ} {v v' : Vals} (hs : setPvals vary ps x v = .ok v') :
    (x.length = (unique (ps.filter fun p => vary p)).length ∧
      v' = assign (unique (ps.filter fun p => vary p)) x v) ∨
    (x.length = ps.length ∧ v' = assign ps x v) := by
  unfold setPvals at hs
  by_cases h1 : x.length = (unique (ps.filter fun p => vary p)).length
  · simp only [if_pos h1, Except.ok.injEq] at hs
    exact .inl ⟨h1, hs.symm⟩
  · by_cases h2 : x.length = ps.length
    · simp only [if_neg h1, if_pos h2, Except.ok.injEq] at hs
      exact .inr ⟨h2, hs.symm⟩
    · simp [h1, h2] at hs

theorem unique_length_le : ∀ l : List PId, (unique l).length ≤ l.length
  | [] => by simp [unique]
  | a :: l => by
    rw [unique, List.length_cons, List.length_cons]
    have h1 := List.length_filter_le (· ≠ a) (unique l)
    have h2 := unique_length_le l
    omega

theorem unique_eq_of_length : ∀ l : List PId, l.length = (unique l).length → unique l = l
  | [], _ => rfl
  | a :: l, hl => by
    rw [unique, List.length_cons, List.length_cons] at hl
    have h3 := List.length_filter_le (· ≠ a) (unique l)
    have h4 := unique_length_le l
    have h5 : (unique l).filter (· ≠ a) = unique l :=
      List.filter_eq_self.mpr (List.length_filter_eq_length_iff.mp (by omega))
    rw [unique, h5, unique_eq_of_length l (by omega)]

theorem plotSamples_outside {align : ℤ} : ∀ (xs : List (List ℝ)) (v : Vals) (p : PId),
    p ∉ s.parameters h → (plotSamples ext vary h s align xs v).2 p = v p
  | [], v, p, _ => rfl
  | x :: xs, v, p, hp => by
    have hset : ∀ v', setPvals vary (s.parameters h) x v = .ok v' → v' p = v p := by
      intro v' hv
      rcases setPvals_cases hv with ⟨_, rfl⟩ | ⟨_, rfl⟩
      · exact assign_not_mem _ _ _ fun hmem => hp (List.mem_filter.mp (mem_unique.mp hmem)).1
      · exact assign_not_mem _ _ _ hp
    unfold plotSamples
    cases hv : setPvals vary (s.parameters h) x v with
    | error e => rfl
    | ok v' =>
      simp only
      cases riProfile ext v' (s.view h) align with
      | error e => exact hset v' hv
      | ok c =>
        simp only
        have ih := plotSamples_outside (align := align) xs v' p hp
        rcases hr : plotSamples ext vary h s align xs v' with ⟨_ | cs, w⟩
        · rw [hr] at ih; simpa using ih.trans (hset v' hv)
        · rw [hr] at ih; simpa using ih.trans (hset v' hv)

/-- Putting back values read before restores everything, if nothing else changed. -/
theorem setPvals_restore {ps : List PId} {v w : Vals} (hw : ∀ p, p ∉ ps → w p = v p) {w' : Vals}
    (hs : setPvals vary ps (ps.map v) w = .ok w') : w' = v := by
  have key : ∀ (l : List PId) (u : Vals), (∀ p, p ∉ l → u p = v p) → assign l (l.map v) u = v := by
    intro l
    induction l with
    | nil => intro u hu; exact funext fun p => hu p (by simp)
    | cons q l ih =>
      intro u hu
      rw [List.map_cons, assign]
      apply ih
      intro p hp
      by_cases hq : p = q
      · subst hq; simp
      · rw [Function.update_of_ne hq]
        exact hu p (by simp [hq, hp])
  rcases setPvals_cases hs with ⟨h1, rfl⟩ | ⟨_, rfl⟩
  · -- as many varying parameters as parameters: all vary and none is repeated
    rw [List.length_map] at h1
    have eta : (ps.filter fun p => vary p) = ps.filter vary := rfl
    rw [eta] at h1
    have hle1 := unique_length_le (ps.filter vary)
    have hle2 := List.length_filter_le vary ps
    have hf : ps.filter vary = ps :=
      List.filter_eq_self.mpr (List.length_filter_eq_length_iff.mp (by omega))
    rw [eta]
    rw [hf] at h1 ⊢
    rw [unique_eq_of_length ps h1]
    exact key ps w hw
  · exact key ps w hw

/-- C105, partial: if `structure.plot()` with samples succeeds, every parameter has the value it had before,
and the last curve is the profile for these values.  Missing: a sample whose profile raises, see
`C105_fails`. -/
theorem C105_plot_partial {samples : Option (List (List ℝ))} {align : ℤ} {v w : Vals} {cs : List Curve}
    (hp : plot ext vary h s none samples align v = (.ok cs, w)) :
    w = v ∧ ∃ c, riProfile ext v (s.view h) align = .ok c ∧ cs.getLast? = some c := by
  have fin : ∀ {l : List Curve} {u : Vals}, (match riProfile ext u (s.view h) align with
      | .error e => (.error e, u)
      | .ok c => (.ok (l ++ [c]), u) : Except PyErr (List Curve) × Vals) = (.ok cs, w) →
      w = u ∧ ∃ c, riProfile ext u (s.view h) align = .ok c ∧ cs.getLast? = some c := by
    intro l u hu
    cases hr : riProfile ext u (s.view h) align with
    | error e => rw [hr] at hu; simp at hu
    | ok c =>
      rw [hr] at hu
      simp only [Prod.mk.injEq, Except.ok.injEq] at hu
      obtain ⟨rfl, rfl⟩ := hu
      exact ⟨rfl, c, rfl, by simp⟩
  cases samples with
  | none =>
    simp only [plot] at hp
    exact fin (l := []) hp
  | some xs =>
    simp only [plot] at hp
    have hout := plotSamples_outside (ext := ext) (vary := vary) (h := h) (s := s) (align := align) xs v
    rcases hr : plotSamples ext vary h s align xs v with ⟨_ | cs', w'⟩
    · rw [hr] at hp; simp at hp
    · rw [hr] at hp hout
      simp only at hp hout
      cases hs : setPvals vary (s.parameters h) ((s.parameters h).map v) w' with
      | error e => rw [hs] at hp; simp at hp
      | ok w'' =>
        rw [hs] at hp
        simp only at hp
        have : w'' = v := setPvals_restore hout hs
        rw [this] at hp
        exact fin hp

theorem plotSamples_curves {align : ℤ} {v₀ : Vals} : ∀ (xs : List (List ℝ)) (v : Vals) {cs : List Curve} {w : Vals},
    (∀ x ∈ xs, x.length = (varyingOf vary (s.parameters h)).length) →
    (∀ p, p ∉ s.parameters h ∨ vary p = false → v p = v₀ p) →
    plotSamples ext vary h s align xs v = (.ok cs, w) →
    List.Forall₂ (fun (x : List ℝ) (c : Curve) => ∃ v' : Vals, (varyingOf vary (s.parameters h)).map v' = x ∧
      (∀ p, p ∉ s.parameters h ∨ vary p = false → v' p = v₀ p) ∧ riProfile ext v' (s.view h) align = .ok c) xs cs
  | [], v, cs, w, _, _, hp => by
    simp only [plotSamples, Prod.mk.injEq, Except.ok.injEq] at hp
    rw [← hp.1]
    exact .nil
  | x :: xs, v, cs, w, hl, hv, hp => by
    have hx := hl x (by simp)
    unfold varyingOf at hx
    have hset : setPvals vary (s.parameters h) x v =
        .ok (assign (unique ((s.parameters h).filter fun p => vary p)) x v) := by
      simp only [setPvals, hx, if_true]
    have hout : ∀ p, p ∉ s.parameters h ∨ vary p = false →
        assign (unique ((s.parameters h).filter fun p => vary p)) x v p = v₀ p := by
      intro p hp
      rw [assign_not_mem _ _ _ fun hm => ?_]
      · exact hv p hp
      · have := List.mem_filter.mp (mem_unique.mp hm)
        rcases hp with hp | hp
        · exact hp this.1
        · simp [hp] at this
    unfold plotSamples at hp
    rw [hset] at hp
    simp only at hp
    cases hr : riProfile ext (assign (unique ((s.parameters h).filter fun p => vary p)) x v) (s.view h) align with
    | error e => rw [hr] at hp; simp at hp
    | ok c =>
      rw [hr] at hp
      simp only at hp
      rcases hq : plotSamples ext vary h s align xs
        (assign (unique ((s.parameters h).filter fun p => vary p)) x v) with ⟨_ | cs', w'⟩
      · rw [hq] at hp; simp at hp
      · rw [hq] at hp
        simp only [Prod.mk.injEq, Except.ok.injEq] at hp
        rw [← hp.1]
        exact .cons ⟨_, assign_read (Consistent.of_nodup (unique_nodup _) x) hx v, hout, hr⟩
          (plotSamples_curves xs _ (fun y hy => hl y (by simp [hy])) hout hq)

/-- C105, partial: before the last curve there is one for each sample, in their order: the profile with the
varying parameters at the values of the sample and all others as they were.  Missing: as above. -/
theorem C105_curves_partial {xs : List (List ℝ)} {align : ℤ} {v w : Vals} {cs : List Curve}
    (hl : ∀ x ∈ xs, x.length = (varyingOf vary (s.parameters h)).length)
    (hp : plot ext vary h s none (some xs) align v = (.ok cs, w)) :
    ∃ cs' c, cs = cs' ++ [c] ∧
      List.Forall₂ (fun (x : List ℝ) (c : Curve) => ∃ v' : Vals, (varyingOf vary (s.parameters h)).map v' = x ∧
        (∀ p, p ∉ s.parameters h ∨ vary p = false → v' p = v p) ∧
        riProfile ext v' (s.view h) align = .ok c) xs cs' := by
  simp only [plot] at hp
  rcases hr : plotSamples ext vary h s align xs v with ⟨_ | cs', w'⟩
  · rw [hr] at hp; simp at hp
  · rw [hr] at hp
    simp only at hp
    cases hs : setPvals vary (s.parameters h) ((s.parameters h).map v) w' with
    | error e => rw [hs] at hp; simp at hp
    | ok w'' =>
      rw [hs] at hp
      simp only at hp
      cases hq : riProfile ext w'' (s.view h) align with
      | error e => rw [hq] at hp; simp at hp
      | ok c =>
        rw [hq] at hp
        simp only [Prod.mk.injEq, Except.ok.injEq] at hp
        exact ⟨cs', c, hp.1.symm, plotSamples_curves xs v hl (fun _ _ => rfl) hr⟩

/-- C105: plotting with values given sets them, and they stay. -/
theorem C105_pvals {x : List ℝ} {align : ℤ} {v w : Vals} {cs : List Curve}
    (hx : x.length = (varyingOf vary (s.parameters h)).length)
    (hp : plot ext vary h s (some x) none align v = (.ok cs, w)) :
    (varyingOf vary (s.parameters h)).map w = x ∧
      ∀ p, p ∉ s.parameters h ∨ vary p = false → w p = v p := by
  unfold varyingOf at hx ⊢
  simp only [plot, setPvals, hx, if_true] at hp
  cases hr : riProfile ext (assign (unique ((s.parameters h).filter fun p => vary p)) x v) (s.view h)
      align with
  | error e => rw [hr] at hp; simp at hp
  | ok c =>
    rw [hr] at hp
    simp only [Prod.mk.injEq] at hp
    obtain ⟨_, rfl⟩ := hp
    refine ⟨assign_read (Consistent.of_nodup (unique_nodup _) x) hx v, fun p hp => ?_⟩
    refine assign_not_mem _ _ _ fun hm => ?_
    have := List.mem_filter.mp (mem_unique.mp hm)
    rcases hp with hp | hp
    · exact hp this.1
    · simp [hp] at this

/-- C105 fails: if the profile for a sample raises, the parameters stay at the values of the sample. -/
theorem C105_fails {x : List ℝ} {xs : List (List ℝ)} {align : ℤ} {v : Vals} {e : PyErr}
    (hx : x.length = (varyingOf vary (s.parameters h)).length)
    (he : ∀ v' : Vals, (varyingOf vary (s.parameters h)).map v' = x →
      (∀ p, p ∉ s.parameters h ∨ vary p = false → v' p = v p) →
      riProfile ext v' (s.view h) align = .error e) :
    ∃ w, plot ext vary h s none (some (x :: xs)) align v = (.error e, w) ∧
      (varyingOf vary (s.parameters h)).map w = x := by
  unfold varyingOf at hx he ⊢
  have h1 := assign_read (Consistent.of_nodup (unique_nodup _) x) hx v
  have h2 := he _ h1 (by
    intro p hp
    refine assign_not_mem _ _ _ fun hm => ?_
    have := List.mem_filter.mp (mem_unique.mp hm)
    rcases hp with hp | hp
    · exact hp this.1
    · simp [hp] at this)
  refine ⟨_, ?_, h1⟩
  simp [plot, plotSamples, setPvals, hx, h2]

/-! ### Non-vacuity -/

/-- Silicon below air; the name of the mixing rule is misspelt. -/
noncomputable def exS : StructO := { comps := [1, 0], wavelength := some 500, ema := "bruggemann" }

theorem exS_parameters : exS.parameters exW.objs = [3, 4, 5, 0, 1, 2] := by
  simp [exS, exW, StructO.parameters, mkSlab, CompO.parameters, ScatE.pars]

theorem exS_raw (ext : Ext) (v : Vals) : ∃ a b : Row, rawRows ext v (exS.view exW.objs) = .ok [a, b] ∧
    b.vf = v 2 ∧ a.vf = v 5 := by
  refine ⟨⟨v 3, layerRi ext (exS.view exW.objs).toSettings (.const 658 1 0), v 4, v 5⟩,
    ⟨v 0, layerRi ext (exS.view exW.objs).toSettings (.const 658 3 0), v 1, v 2⟩, ?_, rfl, rfl⟩
  simp [exS, exW, StructO.view, mkSlab, CompO.comp, rawRows, PyObj.dflt, Comp.dflt, componentRows,
    PyObj.rows, Comp.view, CompView.rows]
  rfl

theorem exS_profile (ext : Ext) (v : Vals) : (0 < v 2 → riProfile ext v (exS.view exW.objs) 0 =
      .error .runtimeError) ∧
    (v 2 = 0 → v 5 = 0 → ∃ c, riProfile ext v (exS.view exW.objs) 0 = .ok c) := by
  obtain ⟨a, b, h, hb, ha⟩ := exS_raw ext v
  have hd : (exS.view exW.objs).data.isEmpty = false := by simp [exS, StructO.view]
  have he : endsAreSlabs (exS.view exW.objs).data = true := by
    simp [exS, exW, StructO.view, mkSlab, CompO.comp, endsAreSlabs, Comp.isSlab]
  have hr : (exS.view exW.objs).reverse = false := rfl
  have hc : (exS.view exW.objs).contract = 0 := rfl
  have hema : (exS.view exW.objs).ema = "bruggemann" := rfl
  constructor
  · intro h2
    have hs : solvate ext v (exS.view exW.objs).toSettings [a, b] = .error .runtimeError := by
      unfold solvate
      rw [if_pos ⟨b, by simp, by rw [hb]; exact h2⟩]
      simp [mixRows, hema]
    simp [riProfile, slabs, hd, he, slabsCore, h, hr, hs, bind, Except.bind, Except.map]
  · intro h2 h5
    have hs : solvate ext v (exS.view exW.objs).toSettings [a, b] = .ok [a, b] := by
      unfold solvate
      rw [if_neg]
      rintro ⟨r, hr, hv⟩
      simp only [List.mem_cons, List.not_mem_nil, or_false] at hr
      rcases hr with rfl | rfl
      · rw [ha, h5] at hv; exact lt_irrefl _ hv
      · rw [hb, h2] at hv; exact lt_irrefl _ hv
    simp [riProfile, slabs, hd, he, slabsCore, h, hr, hs, hc, bind, Except.bind, Except.map, alignOffset,
      pure, Except.pure]

/-- `C105_fails` for the structure above and a sample with solvent in the backing medium; before, the
profile exists. -/
example (ext : Ext) : ∃ w, plot ext (fun p => p == 2) exW.objs exS none (some [[1 / 2]]) 0 (fun _ => 0) =
    (.error .runtimeError, w) ∧ w 2 = 1 / 2 ∧
    ∃ c, riProfile ext (fun _ => 0) (exS.view exW.objs) 0 = .ok c := by
  have hv : varyingOf (fun p => p == 2) (exS.parameters exW.objs) = [2] := by
    rw [exS_parameters]; simp [varyingOf, unique]
  obtain ⟨w, h1, h2⟩ := C105_fails (ext := ext) (vary := fun p => p == 2) (h := exW.objs) (s := exS)
    (x := [1 / 2]) (xs := []) (align := 0) (v := fun _ => 0) (e := .runtimeError) (by rw [hv]; rfl)
    (by
      intro v' h _
      rw [hv] at h
      refine (exS_profile ext v').1 ?_
      simp only [List.map_cons, List.map_nil, List.cons.injEq, and_true] at h
      rw [h]; norm_num)
  refine ⟨w, h1, ?_, (exS_profile ext _).2 rfl rfl⟩
  rw [hv] at h2
  simpa using h2

/-- `C105_plot_partial`, `C105_curves_partial` and `C105_pvals`: there are successful plots with a sample. -/
example (ext : Ext) : ∃ cs w, plot ext (fun p => p == 0) exW.objs exS none (some [[7]]) 0 (fun _ => 0) =
    (.ok cs, w) := by
  have hp : setPvals (fun p => p == 0) (exS.parameters exW.objs) [7] (fun _ => 0) =
      .ok (Function.update (fun _ => 0) 0 7) := by
    rw [exS_parameters]; simp [setPvals, unique, assign]
  obtain ⟨c, hc⟩ := (exS_profile ext (Function.update (fun _ => 0) 0 7)).2 (by simp) (by simp)
  obtain ⟨c', hc'⟩ := (exS_profile ext (fun _ => 0)).2 rfl rfl
  have hr : setPvals (fun p => p == 0) (exS.parameters exW.objs)
      ((exS.parameters exW.objs).map fun _ => (0 : ℝ)) (Function.update (fun _ => 0) 0 7) =
      .ok (fun _ => 0) := by
    rw [exS_parameters]
    simp [setPvals, unique, assign]
    funext p
    by_cases hp0 : p = 0 <;> simp [Function.update_apply, hp0]
  simp only [List.map_const'] at hr
  refine ⟨[c, c'], fun _ => 0, ?_⟩
  simp [plot, plotSamples, hp, hc, hr, hc']

/-- `C104_function` and `C104_sets`: both stores may differ in the parameters that vary. -/
example : varyingOf (fun p => p == 0) (modelParameters exW.objs 9 exS) = [0] ∧
    (modelParameters exW.objs 9 exS).length = 7 ∧ ∀ i ∈ exS.comps, Complete (exW.objs i) := by
  refine ⟨?_, ?_, ?_⟩
  · simp [modelParameters, exS_parameters, varyingOf, unique]
  · simp [modelParameters, exS_parameters]
  · intro i hi
    simp only [exS, List.mem_cons, List.not_mem_nil, or_false] at hi
    rcases hi with rfl | rfl
    · exact mkSlab_complete _ _ _ _ _
    · exact mkSlab_complete _ _ _ _ _

end Verif.Params
