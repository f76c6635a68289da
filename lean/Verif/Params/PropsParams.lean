import Verif.Params.Model
import Verif.RModel.PropsModel

/-!
# Properties C103-C105: what the `parameters` attributes contain
-/

namespace Verif.Params
open Verif.Struct Verif.Disp Verif.RModel Verif.TMM

/-- What is assumed of refnx's `_micro_slabs`: it uses the slabs of the components and the solvent. -/
def MicroLocal (ext : Ext) : Prop :=
  ∀ (v v' : Vals) (s : Structure),
    componentRows ext v s.toSettings s.data = componentRows ext v' s.toSettings s.data →
    s.solvent.map (fun r => r v) = s.solvent.map (fun r => r v') → ext.micro v s = ext.micro v' s

theorem eval_congr {v v' : Vals} (r : ScatE) (h : ∀ p ∈ r.pars, v p = v' p) : r.eval v = r.eval v' := by
  have key : ∀ l : List PId, (∀ p ∈ l, v p = v' p) → l.map v = l.map v' := fun l hl =>
    List.map_congr_left hl
  cases r with
  | const => rfl
  | table => rfl
  | cauchy wl A B C => simp_all [ScatE.eval, ScatE.pars]
  | sellmeier => simp_all [ScatE.eval, ScatE.pars]
  | lorentz wl a b c e =>
    simp only [ScatE.pars, List.mem_append, List.mem_singleton] at h
    simp only [ScatE.eval, osc, key a fun p hp => h p (.inl (.inl (.inl hp))),
      key b fun p hp => h p (.inl (.inl (.inr hp))), key c fun p hp => h p (.inl (.inr hp)),
      h e (.inr rfl)]
  | gauss wl a b c e =>
    simp only [ScatE.pars, List.mem_append, List.mem_singleton] at h
    simp only [ScatE.eval, osc, key a fun p hp => h p (.inl (.inl (.inl hp))),
      key b fun p hp => h p (.inl (.inl (.inr hp))), key c fun p hp => h p (.inl (.inr hp)),
      h e (.inr rfl)]
  | tauc wl a b c g e =>
    simp only [ScatE.pars, List.mem_append, List.mem_cons, List.not_mem_nil, or_false] at h
    simp only [ScatE.eval, osc, key a fun p hp => h p (.inl (.inl (.inl hp))),
      key b fun p hp => h p (.inl (.inl (.inr hp))), key c fun p hp => h p (.inl (.inr hp)),
      h e (.inr (.inl rfl)), h g (.inr (.inr rfl))]

/-- The stored list contains the parameters the component uses. -/
def Complete (c : CompO) : Prop :=
  match c with
  | .slab t r g f _ l => t ∈ l ∧ g ∈ l ∧ f ∈ l ∧ ∀ p ∈ r.pars, p ∈ l
  | .mixed t a b f g _ l => t ∈ l ∧ f ∈ l ∧ g ∈ l ∧ (∀ p ∈ a.pars, p ∈ l) ∧ ∀ p ∈ b.pars, p ∈ l

theorem mkSlab_complete (t : PId) (r : ScatE) (g f : PId) (d : Bool) : Complete (mkSlab t r g f d) := by
  refine ⟨?_, ?_, ?_, fun p hp => ?_⟩ <;> simp_all

theorem mkMixed_complete (t : PId) (a b : ScatE) (f g : PId) (d : Bool) :
    Complete (mkMixed t a b f g d) := by
  refine ⟨?_, ?_, ?_, fun p hp => ?_, fun p hp => ?_⟩ <;> simp_all

theorem view_congr {v v' : Vals} {c : CompO} (hc : Complete c) (h : ∀ p ∈ c.parameters, v p = v' p) :
    c.comp.view v = c.comp.view v' := by
  cases c with
  | slab t r g f d l =>
    obtain ⟨h1, h2, h3, h4⟩ := hc
    simp only [CompO.comp, Comp.view, h t h1, h g h2, h f h3, eval_congr r fun p hp => h p (h4 p hp)]
  | mixed t a b f g d l =>
    obtain ⟨h1, h2, h3, h4, h5⟩ := hc
    simp only [CompO.comp, Comp.view, h t h1, h g h3, h f h2, eval_congr a fun p hp => h p (h4 p hp),
      eval_congr b fun p hp => h p (h5 p hp)]

/-- Two stores that agree on the listed parameters. -/
def Agree (l : List PId) (v v' : Vals) : Prop := ∀ p ∈ l, v p = v' p

theorem slabs_congr {ext : Ext} (hm : MicroLocal ext) {h : Objs} {s : StructO}
    (hc : ∀ i ∈ s.comps, Complete (h i)) {v v' : Vals} (ha : Agree (s.parameters h) v v') (w kw : Option ℝ) :
    slabs ext v { s.view h with wavelength := w } kw = slabs ext v' { s.view h with wavelength := w } kw := by
  have hrow : ∀ st : Settings, componentRows ext v st (s.view h).data =
      componentRows ext v' st (s.view h).data := by
    intro st
    unfold componentRows
    have : (s.view h).data.mapM (PyObj.rows ext v st) = (s.view h).data.mapM (PyObj.rows ext v' st) := by
      simp only [StructO.view, List.mapM_map]
      have hl : ∀ l : List ℕ, (∀ i ∈ l, i ∈ s.comps) →
          l.mapM (fun i => PyObj.rows ext v st (.comp (h i).comp)) =
            l.mapM (fun i => PyObj.rows ext v' st (.comp (h i).comp)) := by
        intro l
        induction l with
        | nil => intro _; rfl
        | cons i l ih =>
          intro hl
          have hi := hl i (by simp)
          rw [List.mapM_cons, List.mapM_cons, ih fun j hj => hl j (by simp [hj])]
          have : PyObj.rows ext v st (.comp (h i).comp) = PyObj.rows ext v' st (.comp (h i).comp) := by
            simp only [PyObj.rows]
            rw [view_congr (hc i hi) fun p hp => ha p (by
              unfold StructO.parameters
              exact List.mem_append_left _ (List.mem_flatMap.mpr ⟨i, hi, hp⟩))]
          rw [this]
      exact hl _ fun _ h => h
    rw [this]
  have hsolv : ∀ r, s.solvent = some r → r.eval v = r.eval v' := fun r hr => eval_congr r fun p hp =>
    ha p (by unfold StructO.parameters; rw [hr]; exact List.mem_append_right _ hp)
  have hcore : ∀ w, slabsCore ext v { s.view h with wavelength := w } =
      slabsCore ext v' { s.view h with wavelength := w } := by
    intro w
    have h1 : rawRows ext v { s.view h with wavelength := w } =
        rawRows ext v' { s.view h with wavelength := w } := by
      unfold rawRows
      rw [hrow]
      have : ext.micro v { s.view h with wavelength := w } = ext.micro v' { s.view h with wavelength := w } :=
        hm v v' _ (hrow _) (by
          cases hs : s.solvent with
          | none => simp [StructO.view, hs]
          | some r => simp [StructO.view, hs, hsolv r hs])
      rw [this]
    have h2 : ∀ rows, solvate ext v { s.view h with wavelength := w }.toSettings rows =
        solvate ext v' { s.view h with wavelength := w }.toSettings rows := by
      intro rows
      unfold solvate
      cases hs : s.solvent with
      | none => simp [StructO.view, hs]
      | some r => simp only [StructO.view, hs, Option.map_some, hsolv r hs]
    unfold slabsCore
    rw [h1]
    simp only [h2]
  unfold slabs
  cases kw <;> simp only [hcore]

/-! ### C103 -/

/-- Every component object that exists lists what it uses. -/
def AllComplete (w : W) : Prop := ∀ i, Complete (w.objs i)

theorem run_complete {w : W} (hw : AllComplete w) {ops : List Op} (ho : ∀ o ∈ ops, o.reassigns = false) :
    AllComplete (run w ops) := by
  induction ops generalizing w with
  | nil => exact hw
  | cons o ops ih =>
    refine ih ?_ fun p hp => ho p (by simp [hp])
    have h1 := ho o (by simp)
    intro i
    cases o with
    | slab j t r g f d =>
      by_cases hij : i = j
      · subst hij; simpa [Op.run] using mkSlab_complete t r g f d
      · simpa [Op.run, Function.update_of_ne hij] using hw i
    | mixed j t a b f g d =>
      by_cases hij : i = j
      · subst hij; simpa [Op.run] using mkMixed_complete t a b f g d
      · simpa [Op.run, Function.update_of_ne hij] using hw i
    | assignRi => simp [Op.reassigns] at h1
    | assignThick => simp [Op.reassigns] at h1
    | _ => exact hw i

/-- A user starts with no structures but the empty ones, and with components as constructors make
them. -/
def Initial (w : W) : Prop :=
  ∀ i, (∃ t r g f d, w.objs i = mkSlab t r g f d) ∨ ∃ t a b f g d, w.objs i = mkMixed t a b f g d

theorem initial_complete {w : W} (hw : Initial w) : AllComplete w := by
  intro i
  rcases hw i with ⟨t, r, g, f, d, h⟩ | ⟨t, a, b, f, g, d, h⟩
  · rw [h]; exact mkSlab_complete ..
  · rw [h]; exact mkMixed_complete ..

/-- C103, partial: whatever a user does with components and structures (making components, appending and
removing them, changing values, solvent and settings), short of replacing an attribute of a component, the
slabs of each structure at each wavelength are determined by the values of the parameters it lists.
Missing: replacing an attribute of a component, see `C103_fails_ri` and `C103_fails_thick`. -/
theorem C103_slabs_partial {ext : Ext} (hm : MicroLocal ext) {w : W} (hw : Initial w) {ops : List Op}
    (ho : ∀ o ∈ ops, o.reassigns = false) (k : ℕ) {v v' : Vals}
    (ha : ∀ p ∈ ((run w ops).structs k).parameters (run w ops).objs, v p = v' p) (kw : Option ℝ) :
    slabs ext v (((run w ops).structs k).view (run w ops).objs) kw =
      slabs ext v' (((run w ops).structs k).view (run w ops).objs) kw :=
  slabs_congr hm (fun i _ => run_complete (initial_complete hw) ho i) ha
    ((run w ops).structs k).wavelength kw

theorem modelLoop_congr {ext : Ext} (hm : MicroLocal ext) (zs : List Layer → ℝ → ℝ → Bool) (d : DType)
    {h : Objs} {s : StructO} (hc : ∀ i ∈ s.comps, Complete (h i)) {m : RM} {v v' : Vals}
    (ha : Agree (modelParameters h m.off s) v v') (pts : List (ℝ × ℝ)) (ws : List ℝ) (acc : List Cell)
    (wl : Option ℝ) :
    modelLoop ext zs d v m pts ws acc { s.view h with wavelength := wl } =
      modelLoop ext zs d v' m pts ws acc { s.view h with wavelength := wl } := by
  have ha' : Agree (s.parameters h) v v' := fun p hp => ha p (List.mem_cons_of_mem _ hp)
  induction ws generalizing acc wl with
  | nil => rfl
  | cons w ws ih =>
    have hs := slabs_congr hm hc ha' (some w) none
    have h2 : (slabs ext v' { s.view h with wavelength := some w } none).2 =
        { s.view h with wavelength := some w } := by
      unfold slabs
      split_ifs <;> rfl
    unfold modelLoop
    simp only
    rw [hs, ha m.off (by simp [modelParameters])]
    rcases hr : slabs ext v' { s.view h with wavelength := some w } none with ⟨r, s'⟩
    rw [hr] at h2
    simp only at h2
    subst h2
    rcases r with e | _ | rows
    · rfl
    · rfl
    · simp only
      cases (deltaPsiTMM zs (pick (maskEq (pts.map Prod.fst) w) (pts.map Prod.snd)) rows w (v' m.off)
        m.flip).1 with
      | error e => rfl
      | ok vals => exact ih _ (some w)

/-- C103, partial: likewise psi and delta of a `ReflectModelSE` are determined by the values of the
parameters it lists.  Missing: replacing an attribute of a component. -/
theorem C103_model_partial {ext : Ext} (hm : MicroLocal ext) (zs : List Layer → ℝ → ℝ → Bool) (d : DType)
    {w : W} (hw : Initial w) {ops : List Op} (ho : ∀ o ∈ ops, o.reassigns = false) (k : ℕ) (m : RM)
    {v v' : Vals}
    (ha : ∀ p ∈ modelParameters (run w ops).objs m.off ((run w ops).structs k), v p = v' p)
    (pts : List (ℝ × ℝ)) :
    model ext zs d v m (((run w ops).structs k).view (run w ops).objs) pts =
      model ext zs d v' m (((run w ops).structs k).view (run w ops).objs) pts :=
  modelLoop_congr hm zs d (fun i _ => run_complete (initial_complete hw) ho i) ha pts _ _
    ((run w ops).structs k).wavelength

/-- The slabs of two layers: no solvation, because it acts on layers in between. -/
theorem slabs_two {ext : Ext} {v : Vals} {s : Structure} {t t' : PId} {r r' : ScatObj} {g g' f f' : PId}
    (hd : s.data = [.comp (.slab t r g f true), .comp (.slab t' r' g' f' true)]) (he : s.ema = "linear")
    (hc : s.contract = 0) (hr : s.reverse = false) :
    slabs ext v s none = (.ok (some [⟨v t, layerRi ext s.toSettings (r v), v g, v f⟩,
      ⟨v t', layerRi ext s.toSettings (r' v), v g', v f'⟩]), s) := by
  have hraw : rawRows ext v s = .ok [⟨v t, layerRi ext s.toSettings (r v), v g, v f⟩,
      ⟨v t', layerRi ext s.toSettings (r' v), v g', v f'⟩] := by
    simp [rawRows, hd, PyObj.dflt, Comp.dflt, componentRows, PyObj.rows, Comp.view, CompView.rows]
    rfl
  have hsol : ∀ a b : Row, solvate ext v s.toSettings [a, b] = .ok [a, b] := by
    intro a b
    unfold solvate
    split_ifs
    · simp [mixRows, he, Struct.interior, setInterior]
      rfl
    · rfl
  unfold slabs
  rw [if_neg (by simp [hd]), if_pos (by simp [hd, endsAreSlabs, Comp.isSlab])]
  simp only [slabsCore, hraw, hr, Bool.false_eq_true, if_false]
  simp only [bind, Except.bind, hsol, hc, lt_irrefl, if_false]
  rfl

/-- C103 fails after `slab.ri = Cauchy(A, B, C)`, here for the backing medium: whatever the slab was made
with, `A` is not listed (if it was not before), and changing it changes the slabs. -/
theorem C103_fails_ri (ext : Ext) {w : W} {t1 t : PId} {r1 r : ScatE} {g1 f1 g f : PId}
    (h1 : w.objs 1 = mkSlab t1 r1 g1 f1 true) (h0 : w.objs 0 = mkSlab t r g f true)
    {x : ℝ} (hx : x ≠ 0) (hs : w.structs 0 = { comps := [1, 0], wavelength := some x }) {A B C : PId}
    (wl : ℝ) (hA : A ∉ (w.structs 0).parameters w.objs) (hB : A ≠ B) (hC : A ≠ C) :
    let w' := run w [.assignRi 0 (.cauchy wl A B C)]
    ∃ v' : Vals, (∀ p ∈ (w'.structs 0).parameters w'.objs, w'.vals p = v' p) ∧
      slabs ext w'.vals ((w'.structs 0).view w'.objs) none ≠
        slabs ext v' ((w'.structs 0).view w'.objs) none := by
  intro w'
  have hs' : w'.structs 0 = { comps := [1, 0], wavelength := some x } := hs
  have ho1 : w'.objs 1 = mkSlab t1 r1 g1 f1 true := by
    simp [w', run, Op.run, h1]
  have ho0 : w'.objs 0 = (mkSlab t r g f true).setRi (.cauchy wl A B C) := by
    simp [w', run, Op.run, h0]
  have hp : (w'.structs 0).parameters w'.objs = (w.structs 0).parameters w.objs := by
    rw [hs', hs]
    simp [StructO.parameters, ho1, ho0, h1, h0, mkSlab, CompO.setRi, CompO.parameters]
  have key : ∀ u : Vals, ∃ r0 : Row, slabs ext u ((w'.structs 0).view w'.objs) none =
      (.ok (some [r0, ⟨u t, some (((u A + u B * 1000 ^ 2 / x ^ 2 + u C * 1000 ^ 4 / x ^ 4 : ℝ)) : ℂ),
        u g, u f⟩]), (w'.structs 0).view w'.objs) := by
    intro u
    refine ⟨⟨u t1, layerRi ext ((w'.structs 0).view w'.objs).toSettings (r1.eval u), u g1, u f1⟩,
      (slabs_two (t := t1) (r := r1.eval) (g := g1) (f := f1) (t' := t)
      (r' := (ScatE.cauchy wl A B C).eval) (g' := g) (f' := f) ?_ ?_ ?_ ?_).trans ?_⟩
    · simp [hs', StructO.view, ho1, ho0, mkSlab, CompO.setRi, CompO.comp]
    · simp [hs', StructO.view]
    · simp [hs', StructO.view]
    · simp [hs', StructO.view]
    · simp [layerRi, ScatE.eval, Scat.dispersive, hs', StructO.view, Scat.complex, Scat.at, pickWav, hx,
        rdiv]
  refine ⟨Function.update w'.vals A (w'.vals A + 1), fun p hp' => ?_, fun heq => ?_⟩
  · rw [Function.update_of_ne]
    rintro rfl
    exact hA (hp ▸ hp')
  · obtain ⟨a, ha⟩ := key w'.vals
    obtain ⟨b, hb⟩ := key (Function.update w'.vals A (w'.vals A + 1))
    rw [ha, hb] at heq
    simp only [Prod.mk.injEq, Except.ok.injEq, Option.some.injEq, List.cons.injEq, Row.mk.injEq,
      Function.update_self, Function.update_of_ne hB.symm, Function.update_of_ne hC.symm,
      Complex.ofReal_inj] at heq
    have := heq.1.2.1.2.1
    linarith

/-- C103 fails after `slab.thick = p` with another parameter: it is not listed, and changing it changes the
slabs. -/
theorem C103_fails_thick (ext : Ext) {w : W} {t1 t : PId} {r1 r : ScatE} {g1 f1 g f : PId}
    (h1 : w.objs 1 = mkSlab t1 r1 g1 f1 true) (h0 : w.objs 0 = mkSlab t r g f true)
    {x : ℝ} (hs : w.structs 0 = { comps := [1, 0], wavelength := some x }) {p : PId}
    (hp : p ∉ (w.structs 0).parameters w.objs) :
    let w' := run w [.assignThick 0 p]
    ∃ v' : Vals, (∀ q ∈ (w'.structs 0).parameters w'.objs, w'.vals q = v' q) ∧
      slabs ext w'.vals ((w'.structs 0).view w'.objs) none ≠
        slabs ext v' ((w'.structs 0).view w'.objs) none := by
  intro w'
  have hs' : w'.structs 0 = { comps := [1, 0], wavelength := some x } := hs
  have ho1 : w'.objs 1 = mkSlab t1 r1 g1 f1 true := by
    simp [w', run, Op.run, h1]
  have ho0 : w'.objs 0 = (mkSlab t r g f true).setThick p := by
    simp [w', run, Op.run, h0]
  have hpar : (w'.structs 0).parameters w'.objs = (w.structs 0).parameters w.objs := by
    rw [hs', hs]
    simp [StructO.parameters, ho1, ho0, h1, h0, mkSlab, CompO.setThick, CompO.parameters]
  refine ⟨Function.update w'.vals p (w'.vals p + 1), fun q hq => ?_, fun heq => ?_⟩
  · rw [Function.update_of_ne]
    rintro rfl
    exact hp (hpar ▸ hq)
  · have hd : ((w'.structs 0).view w'.objs).data =
        [.comp (.slab t1 r1.eval g1 f1 true), .comp (.slab p r.eval g f true)] := by
      simp [hs', StructO.view, ho1, ho0, mkSlab, CompO.setThick, CompO.comp]
    rw [slabs_two hd (by simp [hs', StructO.view]) (by simp [hs', StructO.view])
      (by simp [hs', StructO.view]), slabs_two hd (by simp [hs', StructO.view])
      (by simp [hs', StructO.view]) (by simp [hs', StructO.view])] at heq
    simp only [Prod.mk.injEq, Except.ok.injEq, Option.some.injEq, List.cons.injEq, Row.mk.injEq,
      Function.update_self] at heq
    have := heq.1.2.1.1
    linarith

/-- Non-vacuity: silicon (constant index) below air; its index is replaced by a Cauchy film model whose
parameters are new. -/
noncomputable def exW : W where
  vals := fun _ => 1
  objs := fun i => if i = 0 then mkSlab 0 (.const 658 3 0) 1 2 true else mkSlab 3 (.const 658 1 0) 4 5 true
  structs := fun _ => { comps := [1, 0], wavelength := some 500 }

example (ext : Ext) : ∃ v' : Vals,
    (∀ p ∈ [3, 4, 5, 0, 1, 2], v' p = 1) ∧ v' ≠ exW.vals := by
  obtain ⟨v', h1, h2⟩ := C103_fails_ri ext (w := exW) (A := 6) (B := 7) (C := 8) rfl rfl
    (x := 500) (by norm_num) rfl 658
    (by simp [exW, StructO.parameters, mkSlab, CompO.parameters, ScatE.pars]) (by simp) (by simp)
  refine ⟨v', fun p hp => ?_, fun he => h2 ?_⟩
  · refine (h1 p ?_).symm
    simpa [exW, run, Op.run, StructO.parameters, mkSlab, CompO.parameters, ScatE.pars, CompO.setRi] using hp
  · rw [he]; rfl

example : Initial exW := fun i => .inl (by
  by_cases h : i = 0
  · exact ⟨0, .const 658 3 0, 1, 2, true, by simp [exW, h]⟩
  · exact ⟨3, .const 658 1 0, 4, 5, true, by simp [exW, h]⟩)

end Verif.Params
