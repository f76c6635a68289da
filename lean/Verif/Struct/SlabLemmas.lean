import Verif.Struct.Spec

/-! # Lemmas about `StructureSE.slabs` -/

namespace Verif.Struct
open Verif.Disp

/-! ### `mapM` -/

theorem mapM_ok {α β : Type} {f : α → Except PyErr β} {g : α → β} :
    ∀ {l : List α}, (∀ a ∈ l, f a = .ok (g a)) → l.mapM f = .ok (l.map g)
  | [], _ => rfl
  | a :: l, h => by
    rw [List.mapM_cons, h a (by simp), mapM_ok (l := l) fun b hb => h b (by simp [hb])]
    rfl

/-! ### Mixing -/

/-- The index of a mixture. -/
noncomputable def mixO (ext : Ext) (st : Settings) (a b : Option ℂ) (f : ℝ) : Option ℂ :=
  match EMA.overallRiO (ext.ze (a.getD 0) (b.getD 0) f st.ema st.dp) a b f st.ema st.dp with
  | .ok n => n
  | .error _ => none

theorem mixO_ok (ext : Ext) {st : Settings} (h : KnownEma st) (a b : Option ℂ) (f : ℝ) :
    EMA.overallRiO (ext.ze (a.getD 0) (b.getD 0) f st.ema st.dp) a b f st.ema st.dp
      = .ok (mixO ext st a b f) := by
  have : ∃ n, EMA.overallRiO (ext.ze (a.getD 0) (b.getD 0) f st.ema st.dp) a b f st.ema st.dp
      = .ok n := by
    rcases h with h | h | h <;> rw [h] <;> cases a <;> cases b <;>
      simp [EMA.overallRiO, EMA.overallRi, Except.map]
  obtain ⟨n, hn⟩ := this
  unfold mixO
  rw [hn]

/-- The row after mixing with a solvent. -/
noncomputable def mixRow (ext : Ext) (st : Settings) (solv : Option ℂ) (r : Row) : Row :=
  { r with ri := mixO ext st r.ri solv r.vf }

theorem mixRows_known (ext : Ext) {st : Settings} (h : KnownEma st) (solv : Option ℂ)
    (rows : List Row) : mixRows ext st solv rows = .ok (rows.map (mixRow ext st solv)) := by
  unfold mixRows
  rw [if_pos (show st.ema = "linear" ∨ st.ema = "maxwell-garnett" ∨ st.ema = "bruggeman" from h)]
  apply mapM_ok
  intro r _
  rw [mixO_ok ext h]
  rfl

/-! ### Interior rows -/

theorem rows_cases (rows : List Row) :
    rows = [] ∨ (∃ a, rows = [a]) ∨ ∃ a mid b, rows = a :: (mid ++ [b]) := by
  cases rows with
  | nil => exact .inl rfl
  | cons a t =>
    right
    rcases List.eq_nil_or_concat t with rfl | ⟨mid, b, rfl⟩
    · exact .inl ⟨a, rfl⟩
    · exact .inr ⟨a, mid, b, by simp⟩

theorem setInterior_map (f : Row → Row) (a b : Row) (mid : List Row) :
    setInterior (a :: (mid ++ [b])) ((interior (a :: (mid ++ [b]))).map f)
      = a :: (mid.map f ++ [b]) := by
  have h1 : interior (a :: (mid ++ [b])) = mid := by simp [interior]
  rw [h1]
  cases mid with
  | nil => simp [setInterior]
  | cons c mid => 
    have h2 : (a :: c :: (mid ++ [b])).getLast? = some b := by
      rw [show a :: c :: (mid ++ [b]) = (a :: c :: mid) ++ [b] by simp, List.getLast?_concat]
    simp only [List.cons_append, setInterior, h2]
    simp

theorem setInterior_length (f : Row → Row) (rows : List Row) :
    (setInterior rows ((interior rows).map f)).length = rows.length := by
  rcases rows_cases rows with rfl | ⟨a, rfl⟩ | ⟨a, mid, b, rfl⟩
  · rfl
  · rfl
  · rw [setInterior_map]; simp

/-- Entry `i` after replacing the interior. -/
theorem setInterior_get (f : Row → Row) (rows : List Row) {i : ℕ} (hi : i < rows.length) :
    (setInterior rows ((interior rows).map f))[i]? =
      some (if 0 < i ∧ i + 1 < rows.length then f rows[i] else rows[i]) := by
  rcases rows_cases rows with rfl | ⟨a, rfl⟩ | ⟨a, mid, b, rfl⟩
  · simp at hi
  · simp at hi; subst hi; simp [setInterior]
  · rw [setInterior_map]
    cases i with
    | zero => simp
    | succ i =>
      simp only [List.length_cons, List.length_append, List.length_nil] at hi
      simp only [List.getElem?_cons_succ, List.getElem_cons_succ, List.length_cons,
        List.length_append, List.length_nil]
      by_cases h : i < mid.length
      · rw [if_pos ⟨by omega, by omega⟩, List.getElem?_append_left (by simpa using h)]
        simp [h, List.getElem_append_left]
      · have : i = mid.length := by omega
        subst this
        rw [if_neg (by omega)]
        simp

/-! ### Rows of a plain structure -/

/-- The row of a component of the package. -/
noncomputable def compRow (ext : Ext) (v : Vals) (st : Settings) : Comp → Row
  | .slab t r g f _ => ⟨v t, layerRi ext st (r v), v g, v f⟩
  | .mixed t a b f g _ =>
    ⟨v t, mixO ext st (layerRi ext st (a v)) (layerRi ext st (b v)) (v f), v g, 0⟩
  | .other .. => ⟨0, none, 0, 0⟩

theorem compRow_cols (ext : Ext) (v : Vals) (st : Settings) (c : Comp) :
    Row.cols (compRow ext v st c) = cols v c := by
  cases c <;> rfl

theorem componentRows_plain (ext : Ext) (v : Vals) {st : Settings} (h : KnownEma st)
    {cs : List Comp} (hp : ∀ c ∈ cs, Pkg c) :
    componentRows ext v st (cs.map .comp) = .ok (cs.map (compRow ext v st)) := by
  unfold componentRows
  have : (cs.map PyObj.comp).mapM (PyObj.rows ext v st)
      = .ok ((cs.map PyObj.comp).map fun o => match o with
        | .comp c => some [compRow ext v st c]
        | _ => none) := by
    apply mapM_ok
    intro o ho
    obtain ⟨c, hc, rfl⟩ := List.mem_map.mp ho
    have := hp c hc
    cases c with
    | slab t r g f d => rfl
    | mixed t a b f g d =>
      simp only [PyObj.rows, Comp.view, CompView.rows, compRow]
      rw [mixO_ok ext h]
      rfl
    | other r d => exact absurd this id
  rw [this]
  simp only [List.map_map]
  change Except.ok _ = _
  congr 1
  induction cs with
  | nil => rfl
  | cons c cs ih =>
    simp only [List.map_cons, List.flatten_cons, Function.comp_apply, Option.getD_some]
    rw [← ih (fun c hc => hp c (by simp [hc]))]
    · rfl
    · apply mapM_ok
      intro o ho
      obtain ⟨c', hc, rfl⟩ := List.mem_map.mp ho
      have := hp c' (by simp [hc])
      cases c' with
      | slab t r g f d => rfl
      | mixed t a b f g d =>
        simp only [PyObj.rows, Comp.view, CompView.rows, compRow]
        rw [mixO_ok ext h]
        rfl
      | other r d => exact absurd this id

/-- The solvent used by `slabs` for the given rows. -/
noncomputable def solventOf (ext : Ext) (v : Vals) (st : Settings) (rows : List Row) : Option ℂ :=
  match st.solvent with
  | some s => (s v).complex ext.zs st.wavelength
  | none => rows.getLast?.bind Row.ri

/-- Rows after solvation. -/
noncomputable def solvRows (ext : Ext) (v : Vals) (st : Settings) (rows : List Row) : List Row :=
  open Classical in
  if ∃ r ∈ rows, 0 < r.vf then
    setInterior rows ((interior rows).map (mixRow ext st (solventOf ext v st rows)))
  else rows

theorem solvate_known (ext : Ext) (v : Vals) {st : Settings} (h : KnownEma st) (rows : List Row) :
    solvate ext v st rows = .ok (solvRows ext v st rows) := by
  unfold solvate solvRows
  split_ifs with hv
  · simp only [mixRows_known ext h]
    rfl
  · rfl

theorem noInterface_iff {c : Comp} : NoInterface c ↔ c.dflt = true := by
  cases c <;> rfl

/-- `slabs` of a plain structure, as a formula. -/
theorem slabs_plain (ext : Ext) (v : Vals) {s : Structure} {cs : List Comp} (h : Plain s cs) :
    slabs ext v s none = (.ok (some (solvRows ext v s.toSettings
      (if s.reverse then reverseRows (cs.map (compRow ext v s.toSettings))
        else cs.map (compRow ext v s.toSettings)))), s) := by
  have hne : s.data.isEmpty = false := by
    rw [h.data]
    have := h.ne
    cases cs <;> simp_all
  have hends : endsAreSlabs s.data = true := by
    obtain ⟨a, ha⟩ : ∃ a, cs.head? = some a := by
      have := h.ne; cases cs with
      | nil => exact absurd rfl this
      | cons a t => exact ⟨a, rfl⟩
    obtain ⟨b, hb⟩ : ∃ b, cs.getLast? = some b := by
      exact ⟨_, List.getLast?_eq_getLast_of_ne_nil h.ne⟩
    have h1 : s.data.head? = some (.comp a) := by rw [h.data]; simp [ha]
    have h2 : s.data.getLast? = some (.comp b) := by rw [h.data]; simp [hb]
    unfold endsAreSlabs
    rw [h1, h2]
    simp [h.first a ha, h.last b hb]
  have hd : s.data.all PyObj.dflt = true := by
    rw [h.data]
    simp only [List.all_map, List.all_eq_true, Function.comp_apply]
    exact fun c hc => noInterface_iff.mp (h.dflt c hc)
  have hcore : slabsCore ext v s = .ok (solvRows ext v s.toSettings
      (if s.reverse then reverseRows (cs.map (compRow ext v s.toSettings))
        else cs.map (compRow ext v s.toSettings))) := by
    have hraw : rawRows ext v s = .ok (cs.map (compRow ext v s.toSettings)) := by
      unfold rawRows
      rw [if_pos hd, h.data, componentRows_plain ext v h.ema h.pkg]
    unfold slabsCore
    rw [hraw]
    change (do
      let rows ← solvate ext v s.toSettings (if s.reverse then reverseRows _ else _)
      return if 0 < s.contract then _ else _) = _
    rw [solvate_known ext v h.ema]
    change Except.ok (if 0 < s.contract then _ else _) = _
    rw [if_neg (not_lt.mpr h.contract)]
  unfold slabs
  rw [if_neg (by simp [hne]), if_pos hends]
  simp only [hcore]
  rfl

end Verif.Struct
