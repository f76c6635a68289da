import Verif.RModel.Lemmas
import Verif.Struct.PropsProfile

/-! # Properties of `ReflectModelSE` (C16, C19 - C21) and of `plot_structure` (C94) -/

namespace Verif.RModel
open Verif.Struct Verif.TMM Verif.Disp

/-! ### C19 batches -/

/-- C19: calling the model on an array gives at every row exactly what calling it on that row alone
gives, and it succeeds if and only if it does on every row. -/
theorem C19_model (ext : Ext) (zs : List Layer → ℝ → ℝ → Bool) (d : DType) (v : Vals) (m : RM)
    (s : Structure) (pts : List (ℝ × ℝ)) (l : List Cell) :
    (model ext zs d v m s pts).1 = .ok l ↔
      List.Forall₂ (fun pt x => (model ext zs d v m s [pt]).1 = .ok [x]) pts l := by
  simp only [model_ok, List.forall₂_cons, List.forall₂_nil_left_iff, and_true]

/-- C19: permuting, repeating and leaving out rows permutes, repeats and leaves out results: any
array all of whose rows occur in an array that can be evaluated can be evaluated, and equal rows have
equal results. -/
theorem C19_rearranged (ext : Ext) (zs : List Layer → ℝ → ℝ → Bool) (d : DType) (v : Vals) (m : RM)
    (s : Structure) (pts pts' : List (ℝ × ℝ)) (l : List Cell)
    (h : (model ext zs d v m s pts).1 = .ok l) (hsub : pts' ⊆ pts) :
    ∃ l', (model ext zs d v m s pts').1 = .ok l' ∧ l'.length = pts'.length ∧
      ∀ i j : ℕ, pts'[i]? ≠ none → pts'[i]? = pts[j]? → l'[i]? = l[j]? := by
  rw [model_ok] at h
  have hex : ∀ pt ∈ pts', ∃ x, PointVal ext zs d v m s pt x := by
    intro pt hpt
    have := hsub hpt
    clear hsub hpt
    induction h with
    | nil => simp at this
    | @cons a b _ _ hab _ ih =>
      rcases List.mem_cons.mp this with rfl | h
      · exact ⟨_, hab⟩
      · exact ih h
  have hl : ∃ l', List.Forall₂ (PointVal ext zs d v m s) pts' l' := by
    clear hsub
    induction pts' with
    | nil => exact ⟨[], .nil⟩
    | cons a t ih =>
      obtain ⟨x, hx⟩ := hex a (by simp)
      obtain ⟨vs, hvs⟩ := ih fun b hb => hex b (by simp [hb])
      exact ⟨x :: vs, .cons hx hvs⟩
  obtain ⟨l', hl'⟩ := hl
  refine ⟨l', model_ok.mpr hl', hl'.length_eq.symm, fun i j hi hij => ?_⟩
  obtain ⟨hlen, hg⟩ := List.forall₂_iff_get.mp h
  obtain ⟨hlen', hg'⟩ := List.forall₂_iff_get.mp hl'
  have hi' : i < pts'.length := by
    by_contra hc
    exact hi (List.getElem?_eq_none (by omega))
  rw [List.getElem?_eq_getElem hi'] at hij
  obtain ⟨hj, hij⟩ := List.getElem?_eq_some_iff.mp hij.symm
  have e1 := hg' i hi' (by omega)
  have e2 := hg j hj (by omega)
  simp only [List.get_eq_getElem] at e1 e2
  rw [hij] at e2
  rw [List.getElem?_eq_getElem (by omega), List.getElem?_eq_getElem (by omega), e1.unique e2]

/-! ### C20 history -/

/-- What can happen to a structure and the parameters between two evaluations of a model. -/
inductive Event
  /-- evaluation of the model, which may raise -/
  | call (d : DType) (m : RM) (pts : List (ℝ × ℝ))
  /-- `structure.slabs(wavelength=kw)` -/
  | slabs (kw : Option ℝ)
  /-- `structure.wavelength = o` -/
  | wavelength (o : Option ℝ)
  /-- `parameter.value = x` -/
  | param (p : PId) (x : ℝ)

/-- The state after an event. -/
noncomputable def Event.run (ext : Ext) (zs : List Layer → ℝ → ℝ → Bool) (st : Vals × Structure) :
    Event → Vals × Structure
  | .call d m pts => (st.1, (model ext zs d st.1 m st.2 pts).2)
  | .slabs kw => (st.1, (Verif.Struct.slabs ext st.1 st.2 kw).2)
  | .wavelength o => (st.1, { st.2 with wavelength := o })
  | .param p x => (Function.update st.1 p x, st.2)

/-- The parameter values after a history, which are those assigned, whatever was evaluated. -/
def assigned (v : Vals) (es : List Event) : Vals :=
  es.foldl (fun v e => match e with
    | .param p x => Function.update v p x
    | _ => v) v

theorem run_state (ext : Ext) (zs : List Layer → ℝ → ℝ → Bool) (v : Vals) (s : Structure) (e : Event) :
    ∃ o, (e.run ext zs (v, s)) = (assigned v [e], { s with wavelength := o }) := by
  cases e with
  | call d m pts =>
    obtain ⟨o, ho⟩ := loop_state' (ext := ext) (zs := zs) (d := d) (v := v) (m := m) (pts := pts)
      (npUnique (pts.map Prod.fst)) (pts.map fun _ => (some 0, some 0)) s
    exact ⟨o, Prod.ext rfl ho⟩
  | slabs kw =>
    simp only [Event.run, assigned, List.foldl, Verif.Struct.slabs]
    split_ifs
    · exact ⟨s.wavelength, rfl⟩
    · cases kw with
      | none => exact ⟨s.wavelength, rfl⟩
      | some w => exact ⟨some w, rfl⟩
    · exact ⟨s.wavelength, rfl⟩
  | wavelength o => exact ⟨o, rfl⟩
  | param p x => exact ⟨s.wavelength, rfl⟩

/-- C20: the result of calling the model depends on the current parameter values and the settings
only, whatever was evaluated or left in the structure before. -/
theorem C20_history (ext : Ext) (zs : List Layer → ℝ → ℝ → Bool) (v : Vals) (s : Structure)
    (es : List Event) (d : DType) (m : RM) (pts : List (ℝ × ℝ)) :
    let st := es.foldl (Event.run ext zs) (v, s)
    st.1 = assigned v es ∧
      (model ext zs d st.1 m st.2 pts).1 = (model ext zs d (assigned v es) m s pts).1 := by
  induction es generalizing v s with
  | nil => exact ⟨rfl, rfl⟩
  | cons e es ih =>
    obtain ⟨o, ho⟩ := run_state ext zs v s e
    simp only [List.foldl_cons, ho]
    obtain ⟨h1, h2⟩ := ih (assigned v [e]) { s with wavelength := o }
    have ha : assigned (assigned v [e]) es = assigned v (e :: es) := by
      simp [assigned]
    rw [ha] at h1 h2
    exact ⟨h1, by rw [h2]; exact loop_wavelength _ _ _ _⟩

/-- C20: after a successful call on a non-empty array the structure is as before except that its
wavelength is the largest one of the array. -/
theorem C20_after (ext : Ext) (zs : List Layer → ℝ → ℝ → Bool) (d : DType) (v : Vals) (m : RM)
    (s : Structure) (pts : List (ℝ × ℝ)) (hne : pts ≠ []) (l : List Cell)
    (h : (model ext zs d v m s pts).1 = .ok l) :
    ∃ w, (∃ a, (w, a) ∈ pts) ∧ (∀ pt ∈ pts, pt.1 ≤ w) ∧
      (model ext zs d v m s pts).2 = { s with wavelength := some w } := by
  have hn : npUnique (pts.map Prod.fst) ≠ [] := by
    rw [Ne, npUnique_eq_nil]
    simpa using hne
  refine ⟨(npUnique (pts.map Prod.fst)).getLast hn, ?_, ?_, ?_⟩
  · have := mem_npUnique.mp (List.getLast_mem hn)
    obtain ⟨⟨w, a⟩, h1, h2⟩ := List.mem_map.mp this
    exact ⟨a, by rw [← h2]; exact h1⟩
  · intro pt hpt
    have hm : pt.1 ∈ npUnique (pts.map Prod.fst) := mem_npUnique.mpr (List.mem_map_of_mem hpt)
    have hs := npUnique_sorted (pts.map Prod.fst)
    generalize npUnique (pts.map Prod.fst) = U at hm hs hn
    rw [← List.dropLast_append_getLast hn, List.pairwise_append] at hs
    rw [← List.dropLast_append_getLast hn, List.mem_append] at hm
    rcases hm with hm | hm
    · exact hs.2.2 _ hm _ (by simp)
    · rw [List.mem_singleton] at hm
      exact hm.le
  · unfold model at h ⊢
    rw [loop_state _ _ _ _ h, List.getLast?_eq_some_getLast hn]
    rfl

/-! ### C21 dtype -/

/-- C21, partial: for arrays of floats the values returned are those computed by `Delta_Psi_TMM` from
the slabs at the wavelength of the row.  Missing: integer arrays, see `C21_fails_integer`. -/
theorem C21_float_partial (ext : Ext) (zs : List Layer → ℝ → ℝ → Bool) (v : Vals) (m : RM)
    (s : Structure) (pts : List (ℝ × ℝ)) (l : List Cell)
    (h : (model ext zs .float v m s pts).1 = .ok l) :
    List.Forall₂ (fun pt x => ∃ rows,
      (slabs ext v { s with wavelength := some pt.1 } none).1 = .ok (some rows) ∧
      (deltaPsiTMM zs [pt.2] rows pt.1 (v m.off) m.flip).1 = .ok [x]) pts l := by
  refine (model_ok.mp h).imp ?_
  rintro pt x ⟨rows, y, h1, h2, rfl⟩
  exact ⟨rows, h1, h2⟩

/-- `y` is what is left of the float `x` after truncation towards zero: an integer between 0 and
`x`, less than 1 away from it.  A float that is not finite becomes some integer. -/
def Truncated (x y : Option ℝ) : Prop :=
  ∃ k : ℤ, y = some (k : ℝ) ∧
    ∀ a, x = some a → |(k : ℝ)| ≤ |a| ∧ |a| < |(k : ℝ)| + 1 ∧ 0 ≤ a * k

theorem trunc0_spec (a : ℝ) :
    |(trunc0 a : ℝ)| ≤ |a| ∧ |a| < |(trunc0 a : ℝ)| + 1 ∧ 0 ≤ a * trunc0 a := by
  unfold trunc0
  split_ifs with h
  · have h0 : (0 : ℝ) ≤ ⌊a⌋ := by exact_mod_cast Int.floor_nonneg.mpr h
    rw [abs_of_nonneg h0, abs_of_nonneg h]
    exact ⟨Int.floor_le a, Int.lt_floor_add_one a, mul_nonneg h h0⟩
  · have h' : a < 0 := not_le.mp h
    have h0 : (⌈a⌉ : ℝ) ≤ 0 := by exact_mod_cast Int.ceil_le.mpr (by simpa using h'.le)
    rw [abs_of_nonpos h0, abs_of_neg h']
    have h1 := Int.ceil_lt_add_one a
    have h2 := Int.le_ceil a
    exact ⟨by linarith, by linarith, mul_nonneg_of_nonpos_of_nonpos h'.le h0⟩

theorem trunc0_unique {a : ℝ} {k : ℤ} (h : |(k : ℝ)| ≤ |a|) (h1 : |a| < |(k : ℝ)| + 1)
    (ha : 0 ≤ a) (h2 : 0 ≤ a * k) : (k : ℤ) = ⌊a⌋ := by
  rw [abs_of_nonneg ha] at h h1
  have hk : (0 : ℝ) ≤ k := by
    by_contra hk
    have hk' : (k : ℝ) < 0 := not_le.mp hk
    have hk1 : k < 0 := by exact_mod_cast hk'
    have : (k : ℝ) ≤ -1 := by exact_mod_cast (by omega : k ≤ -1)
    have ha' : a = 0 := by nlinarith
    rw [abs_of_neg hk'] at h
    linarith
  rw [abs_of_nonneg hk] at h h1
  exact (Int.floor_eq_iff.mpr ⟨h, h1⟩).symm

theorem store_truncated (j : ℤ) (x : Option ℝ) : Truncated x ((DType.int j).store x) := by
  cases x with
  | none => exact ⟨j, rfl, by simp⟩
  | some a =>
    refine ⟨trunc0 a, rfl, fun b hb => ?_⟩
    cases hb
    exact trunc0_spec a

/-- C21: an integer array gives the float results truncated towards zero. -/
theorem C21_integer_truncates (ext : Ext) (zs : List Layer → ℝ → ℝ → Bool) (v : Vals) (m : RM)
    (s : Structure) (pts : List (ℝ × ℝ)) (j : ℤ) (l : List Cell)
    (h : (model ext zs .float v m s pts).1 = .ok l) :
    ∃ l', (model ext zs (.int j) v m s pts).1 = .ok l' ∧
      List.Forall₂ (fun x y => Truncated x.1 y.1 ∧ Truncated x.2 y.2) l l' := by
  refine ⟨l.map (DType.int j).storeCell, ?_, ?_⟩
  · rw [model_ok] at h ⊢
    rw [List.forall₂_map_right_iff]
    refine h.imp ?_
    rintro pt x ⟨rows, y, h1, h2, rfl⟩
    exact ⟨rows, y, h1, h2, rfl⟩
  · rw [List.forall₂_map_right_iff]
    exact List.forall₂_same.mpr fun x _ => ⟨store_truncated j _, store_truncated j _⟩

/-- Two media, index 1 over index 3. -/
noncomputable def twoMedia : Structure :=
  { data := [dry (.const 658 1 0), dry (.const 658 3 0)].map .comp }

theorem twoMedia_plain : Plain twoMedia [dry (.const 658 1 0), dry (.const 658 3 0)] :=
  plain_of rfl (by simp) (by simp [dry, Comp.isSlab, Comp.dflt]) le_rfl (.inl rfl)

theorem twoMedia_rows (ext : Ext) (w : ℝ) (v : Vals) (hv : ∀ p : ℕ, p < 5 → v p = 0) :
    (slabs ext v { twoMedia with wavelength := some w } none).1 = .ok (some (exRows [])) := by
  have hp : Plain { twoMedia with wavelength := some w }
      [dry (.const 658 1 0), dry (.const 658 3 0)] :=
    plain_of rfl (by simp) (by simp [dry, Comp.isSlab, Comp.dflt]) le_rfl (.inl rfl)
  rw [slabs_plain ext v hp]
  change Except.ok (some (solvRows ext v _ ([dry (.const 658 1 0), dry (.const 658 3 0)].map _))) = _
  simp only [solvRows]
  have h2 := hv 2 (by norm_num)
  have h0 := hv 0 (by norm_num)
  have h1 := hv 1 (by norm_num)
  rw [if_neg (by simp [compRow, dry, h2, h1, h0])]
  simp only [compRow, dry, layerRi, Scat.dispersive, Scat.complex, Scat.at, exRows, twoMedia, h0, h1,
    h2, List.map_cons, List.map_nil, List.cons_append, List.nil_append]
  simp [Complex.ext_iff]

theorem twoMedia_value (ext : Ext) (zs : List Layer → ℝ → ℝ → Bool) {v : Vals} (hv : ∀ p : ℕ, p < 5 → v p = 0) {w : ℝ}
    (hw : w ≠ 0) (p : PId) :
    (model ext zs .float v ⟨p, false⟩ twoMedia [(w, 0)]).1 = .ok [(some 45, some (180 + v p))] := by
  rw [model_ok]
  exact .cons ⟨_, _, twoMedia_rows ext w v hv, ex_normal zs hw _ _, rfl⟩ .nil

/-- Non-vacuity of C19 and C20: a call with two rows at different wavelengths that succeeds. -/
example (ext : Ext) (zs : List Layer → ℝ → ℝ → Bool) :
    (model ext zs .float (fun _ => 0) ⟨7, false⟩ twoMedia [(600, 0), (500, 0), (600, 0)]).1 =
      .ok [(some 45, some 180), (some 45, some 180), (some 45, some 180)] := by
  have h : ∀ w : ℝ, w ≠ 0 →
      (model ext zs .float (fun _ => 0) ⟨7, false⟩ twoMedia [(w, 0)]).1 = .ok [(some 45, some 180)] := by
    intro w hw
    rw [twoMedia_value ext zs (fun _ _ => rfl) hw]
    norm_num
  rw [C19_model]
  exact .cons (h _ (by norm_num)) (.cons (h _ (by norm_num)) (.cons (h _ (by norm_num)) .nil))

/-- C21 fails: with an array of integers, a delta of 180.5 degrees is returned as 180. -/
theorem C21_fails_integer (ext : Ext) (zs : List Layer → ℝ → ℝ → Bool) (j : ℤ) :
    ∃ (v : Vals) (m : RM) (s : Structure),
      (model ext zs .float v m s [(500, 0)]).1 = .ok [(some 45, some (361 / 2))] ∧
      (model ext zs (.int j) v m s [(500, 0)]).1 = .ok [(some 45, some 180)] := by
  refine ⟨Function.update (fun _ => 0) 7 (1 / 2), ⟨7, false⟩, twoMedia, ?_, ?_⟩
  · rw [twoMedia_value ext zs (fun p hp => Function.update_of_ne (ne_of_lt (lt_trans hp (by norm_num : (5 : ℕ) < 7))) _ _) (by norm_num)]
    norm_num
  · obtain ⟨l', hl', ht⟩ := C21_integer_truncates ext zs
      (Function.update (fun _ => 0) 7 (1 / 2)) ⟨7, false⟩ twoMedia [(500, 0)] j _
      (twoMedia_value ext zs (fun p hp => Function.update_of_ne (ne_of_lt (lt_trans hp (by norm_num : (5 : ℕ) < 7))) _ _) (by norm_num) 7)
    rw [hl']
    obtain ⟨y, t, ⟨⟨k1, hk1, e1⟩, k2, hk2, e2⟩, ht', rfl⟩ := List.forall₂_cons_left_iff.mp ht
    rw [List.forall₂_nil_left_iff.mp ht']
    obtain ⟨a1, b1, c1⟩ := e1 _ rfl
    obtain ⟨a2, b2, c2⟩ := e2 _ rfl
    simp only [Function.update_self] at a2 b2 c2
    have h1 := trunc0_unique a1 b1 (by norm_num) c1
    have h2 := trunc0_unique a2 b2 (by norm_num) c2
    have f1 : ⌊(45 : ℝ)⌋ = 45 := by rw [Int.floor_eq_iff]; norm_num
    have f2 : ⌊(180 + 1 / 2 : ℝ)⌋ = 180 := by rw [Int.floor_eq_iff]; norm_num
    rw [f1] at h1
    rw [f2] at h2
    rw [show y = (y.1, y.2) from rfl, hk1, hk2, h1, h2]
    norm_num

/-! ### C16 at the level of the model -/

/-- C16: raising the delta offset parameter by `c` raises every delta by `c`, if no other quantity
uses that parameter. -/
theorem C16_model (ext : Ext) (zs : List Layer → ℝ → ℝ → Bool) (v : Vals) (m : RM)
    (s : Structure) (c : ℝ) (pts : List (ℝ × ℝ)) (l : List Cell)
    (hloc : ∀ w, slabs ext (Function.update v m.off (v m.off + c)) { s with wavelength := w } none =
      slabs ext v { s with wavelength := w } none)
    (h : (model ext zs .float v m s pts).1 = .ok l) :
    (model ext zs .float (Function.update v m.off (v m.off + c)) m s pts).1 =
      .ok (l.map fun x => (x.1, x.2.map (· + c))) := by
  rw [model_ok] at h ⊢
  rw [List.forall₂_map_right_iff]
  refine h.imp ?_
  rintro pt x ⟨rows, y, h1, h2, rfl⟩
  refine ⟨rows, (y.1, y.2.map (· + c)), by rw [hloc]; exact h1, ?_, rfl⟩
  rw [Function.update_self, C16_offset, h2]
  rfl

/-! ### C94 plotting -/

theorem plotLoop_state (ext : Ext) (v : Vals) (ws : List ℝ) (s : Structure) :
    ∃ o, (plotLoop ext v ws s).2 = { s with wavelength := o } := by
  induction ws generalizing s with
  | nil => exact ⟨s.wavelength, rfl⟩
  | cons w ws ih =>
    simp only [plotLoop]
    cases riProfile ext v { s with wavelength := some w } 0 with
    | error e => exact ⟨some w, rfl⟩
    | ok c =>
      obtain ⟨o, ho⟩ := ih { s with wavelength := some w }
      exact ⟨o, ho⟩

/-- C94, partial: plotting changes nothing but `wavelength` and `reverse_structure`; if the structure
was not reversed and plotting succeeds, models of the structure give the same values as before.
Missing: the wavelength is not restored, a reversed structure is un-reversed (`C94_fails_reverse`),
and if plotting raises, the structure stays reversed (`C94_fails_error`). -/
theorem C94_plot_partial (ext : Ext) (zs : List Layer → ℝ → ℝ → Bool) (v : Vals) (s : Structure)
    (data : Option (List ℝ)) (rev : Bool) :
    (∃ o r, (plotStructure ext v s data rev).2 = { s with wavelength := o, reverse := r }) ∧
    ∀ cs, (plotStructure ext v s data rev).1 = .ok cs → s.reverse = false →
      (plotStructure ext v s data rev).2.reverse = false ∧
      ∀ d m pts, (model ext zs d v m (plotStructure ext v s data rev).2 pts).1 =
        (model ext zs d v m s pts).1 := by
  obtain ⟨o, ho⟩ := plotLoop_state ext v (plotWavs data) { s with reverse := rev }
  unfold plotStructure
  rcases hp : plotLoop ext v (plotWavs data) { s with reverse := rev } with ⟨r, s'⟩
  rw [hp] at ho
  simp only at ho
  subst ho
  cases r with
  | error e => exact ⟨⟨o, rev, rfl⟩, fun cs h => by simp at h⟩
  | ok cs =>
    refine ⟨⟨o, false, rfl⟩, fun _ _ hs => ⟨rfl, fun d m pts => ?_⟩⟩
    have : ({ s with wavelength := o, reverse := false } : Structure) = { s with wavelength := o } := by
      rw [← hs]
    change (model ext zs d v m { s with wavelength := o, reverse := false } pts).1 = _
    rw [this]
    exact loop_wavelength _ _ _ _

/-- C94 fails: plotting a reversed structure leaves it not reversed. -/
theorem C94_fails_reverse (ext : Ext) (v : Vals) (s : Structure) (data : Option (List ℝ))
    (cs : List Curve) (rev : Bool)
    (h : (plotStructure ext v s data rev).1 = .ok cs) :
    (plotStructure ext v s data rev).2.reverse = false := by
  unfold plotStructure at h ⊢
  rcases hp : plotLoop ext v (plotWavs data) { s with reverse := rev } with ⟨r, s'⟩
  rw [hp] at h
  cases r with
  | error e => simp at h
  | ok cs => rfl

/-- Non-vacuity: plotting the reversed two media structure succeeds. -/
theorem C94_fails_reverse_example (ext : Ext) : ∃ cs,
    plotStructure ext (fun _ => 0) { twoMedia with reverse := true } none true =
      (.ok cs, { twoMedia with wavelength := some 658, reverse := false }) := by
  have hp : Plain { twoMedia with wavelength := some 658, reverse := true }
      [dry (.const 658 1 0), dry (.const 658 3 0)] :=
    plain_of rfl (by simp) (by simp [dry, Comp.isSlab, Comp.dflt]) le_rfl (.inl rfl)
  have hr : ∃ c, riProfile ext (fun _ => 0) { twoMedia with wavelength := some 658, reverse := true } 0
      = .ok c := by
    rw [show (0 : ℤ) = ((0 : ℕ) : ℤ) from rfl]
    refine ⟨_, C45_align ext _ _ (by rw [slabs_plain ext _ hp]) ?_⟩
    have := congrArg List.length (solv_cols ext (fun _ => 0) { twoMedia with wavelength := some 658, reverse := true }.toSettings
      (reverseRows ([dry (.const 658 1 0), dry (.const 658 3 0)].map (compRow ext (fun _ => 0) { twoMedia with wavelength := some 658, reverse := true }.toSettings))))
    simp only [List.length_map, reverse_length] at this
    simp only [if_true]
    rw [this]
    simp
  obtain ⟨c, hc⟩ := hr
  refine ⟨[(658, c)], ?_⟩
  simp only [plotStructure, plotWavs, plotLoop, hc, Except.map]

/-- C94 fails: plotting an empty structure raises ValueError and leaves it reversed and with another
wavelength. -/
theorem C94_fails_error (ext : Ext) (v : Vals) :
    plotStructure ext v {} none true =
      (.error .valueError, { reverse := true, wavelength := some 658 }) := by
  simp [plotStructure, plotWavs, plotLoop, riProfile, slabs, bind, Except.bind, throw, throwThe,
    MonadExceptOf.throw]

/-! ### C110: what plot_structure draws -/

theorem plotLoop_curves (ext : Ext) (v : Vals) (ws : List ℝ) (s : Structure) (cs : List Curve) :
    (plotLoop ext v ws s).1 = .ok cs ↔ List.Forall₂ (fun w c => c.1 = w ∧
      riProfile ext v { s with wavelength := some w } 0 = .ok c.2) ws cs := by
  induction ws generalizing s cs with
  | nil => simp [plotLoop, eq_comm]
  | cons w ws ih =>
    simp only [plotLoop]
    cases hr : riProfile ext v { s with wavelength := some w } 0 with
    | error e =>
      simp only [List.forall₂_cons_left_iff, hr]
      simp
    | ok c =>
      simp only [List.forall₂_cons_left_iff, hr, Except.ok.injEq]
      have ih' := ih { s with wavelength := some w }
      simp only at ih'
      constructor
      · intro h
        cases hl : (plotLoop ext v ws { s with wavelength := some w }).1 with
        | error e => rw [hl] at h; simp [Except.map] at h
        | ok l =>
          rw [hl] at h
          simp only [Except.map, Except.ok.injEq] at h
          exact ⟨(w, c), l, ⟨rfl, rfl⟩, (ih' l).1 hl, h.symm⟩
      · rintro ⟨⟨w', c'⟩, l, ⟨h1, h2⟩, hl, rfl⟩
        simp only at h1 h2
        rw [(ih' l).2 hl, h1, h2]
        rfl

/-- C110: the wavelengths of the curves are 658 nm for a structure; for an objective all those of its data
if there are at most eight different ones, and otherwise six, equidistant, from the smallest to the
largest. -/
def PlotWavelengths : Option (List ℝ) → List ℝ → Prop
  | none, us => us = [658]
  | some ws, us =>
    (ws.toFinset.card ≤ 8 → us.Pairwise (· < ·) ∧ ∀ w, w ∈ us ↔ w ∈ ws) ∧
    (8 < ws.toFinset.card → ∃ a ∈ ws, ∃ b ∈ ws, (∀ w ∈ ws, a ≤ w ∧ w ≤ b) ∧
      us = [a, a + (b - a) / 5, a + 2 * (b - a) / 5, a + 3 * (b - a) / 5, a + 4 * (b - a) / 5, b])

theorem plotWavs_spec (data : Option (List ℝ)) : PlotWavelengths data (plotWavs data) := by
  cases data with
  | none => rfl
  | some ws =>
    have hlen : (npUnique ws).length = ws.toFinset.card := by
      have : (npUnique ws).toFinset = ws.toFinset := by
        ext w; simp [mem_npUnique]
      rw [← this, List.toFinset_card_of_nodup (npUnique_nodup ws)]
    have hlt : (npUnique ws).Pairwise (· < ·) := by
      have h := List.Pairwise.and (npUnique_sorted ws) (npUnique_nodup ws)
      exact h.imp fun h => lt_of_le_of_ne h.1 h.2
    unfold PlotWavelengths plotWavs
    simp only
    rw [← hlen]
    have hmem : ∀ w, w ∈ npUnique ws ↔ w ∈ ws := fun w => mem_npUnique
    generalize npUnique ws = u at *
    cases u with
    | nil => exact ⟨fun _ => ⟨hlt, hmem⟩, fun h => by simp at h⟩
    | cons a t =>
      have hb := List.getLast?_eq_some_getLast (l := a :: t) (by simp)
      rw [hb]
      simp only
      constructor
      · intro h
        rw [if_neg (by omega)]
        exact ⟨hlt, hmem⟩
      · intro h
        rw [if_pos h]
        set b := (a :: t).getLast (by simp) with hbd
        refine ⟨a, (hmem a).1 (by simp), b, (hmem b).1 (List.getLast_mem _), fun w hw => ?_, ?_⟩
        · have hw' := (hmem w).2 hw
          refine ⟨?_, ?_⟩
          · rcases List.mem_cons.1 hw' with rfl | hw'
            · rfl
            · exact ((List.pairwise_cons.1 hlt).1 w hw').le
          · rw [← List.dropLast_concat_getLast (l := a :: t) (by simp), ← hbd] at hw' hlt
            rcases List.mem_append.1 hw' with h' | h'
            · exact ((List.pairwise_append.1 hlt).2.2 w h' b (by simp)).le
            · simp only [List.mem_singleton] at h'; exact h'.le
        · unfold linspace6
          rw [show List.range 6 = [0, 1, 2, 3, 4, 5] from rfl]
          simp only [List.map_cons, List.map_nil, List.cons.injEq, and_true]
          push_cast
          refine ⟨by ring, by ring, by ring, by ring, by ring, by ring⟩

/-- C110: each curve `plot_structure` draws shows the profile of the structure at the wavelength of its label,
in the orientation asked for, whatever the wavelength and the orientation of the structure are; the curves
are those for the wavelengths of `PlotWavelengths`; and it succeeds if all these profiles exist. -/
theorem C110_curves (ext : Ext) (v : Vals) (s : Structure) (data : Option (List ℝ)) (rev : Bool)
    (cs : List Curve) :
    (plotStructure ext v s data rev).1 = .ok cs ↔
    PlotWavelengths data (cs.map Prod.fst) ∧
      ∀ c ∈ cs, riProfile ext v { s with wavelength := some c.1, reverse := rev } 0 = .ok c.2 := by
  have key : (plotStructure ext v s data rev).1 = .ok cs ↔
      (plotLoop ext v (plotWavs data) { s with reverse := rev }).1 = .ok cs := by
    unfold plotStructure
    rcases plotLoop ext v (plotWavs data) { s with reverse := rev } with ⟨r, s'⟩
    cases r <;> rfl
  rw [key, plotLoop_curves]
  have e : List.Forall₂ (fun w (c : Curve) => c.1 = w ∧
      riProfile ext v { s with reverse := rev, wavelength := some w } 0 = .ok c.2) (plotWavs data) cs ↔
      cs.map Prod.fst = plotWavs data ∧
      ∀ c ∈ cs, riProfile ext v { s with wavelength := some c.1, reverse := rev } 0 = .ok c.2 := by
    clear key
    generalize plotWavs data = ws
    induction cs generalizing ws with
    | nil => simp [eq_comm]
    | cons c cs ih =>
      rw [List.forall₂_cons_right_iff]
      constructor
      · rintro ⟨w, ws', ⟨h1, h2⟩, h3, rfl⟩
        obtain ⟨h4, h5⟩ := (ih ws').1 h3
        subst h1
        exact ⟨by simp [h4], by simpa using ⟨h2, fun a b c h => h5 _ h⟩⟩
      · rintro ⟨h1, h2⟩
        refine ⟨c.1, cs.map Prod.fst, ⟨rfl, h2 c (by simp)⟩, (ih _).2 ⟨rfl, fun c' h => h2 c' (by simp [h])⟩, ?_⟩
        rw [← h1]; rfl
  rw [e]
  refine and_congr_left fun _ => ⟨fun h => h ▸ plotWavs_spec data, fun h => ?_⟩
  have h' := plotWavs_spec data
  cases data with
  | none => rw [show cs.map Prod.fst = [658] from h]; rfl
  | some ws =>
    by_cases hc : ws.toFinset.card ≤ 8
    · obtain ⟨a1, a2⟩ := h.1 hc
      obtain ⟨b1, b2⟩ := h'.1 hc
      exact List.Perm.eq_of_pairwise (le := (· < ·)) (fun a b _ _ h1 h2 => absurd h1 (lt_asymm h2)) a1 b1
        ((List.perm_ext_iff_of_nodup (a1.imp fun h => h.ne) (b1.imp fun h => h.ne)).2 fun w => by rw [a2, b2])
    · obtain ⟨a, ha, b, hb, hab, e1⟩ := h.2 (by omega)
      obtain ⟨a', ha', b', hb', hab', e2⟩ := h'.2 (by omega)
      have ea : a = a' := le_antisymm (hab a' ha').1 (hab' a ha).1
      have eb : b = b' := le_antisymm (hab' b hb).2 (hab b' hb').2
      rw [e1, e2, ea, eb]

/-- Non-vacuity: the reversed two media structure is drawn with one curve, labelled 658. -/
example (ext : Ext) : ∃ cs, (plotStructure ext (fun _ => 0) { twoMedia with reverse := true } none true).1 =
    .ok cs ∧ cs.map Prod.fst = [658] := by
  obtain ⟨cs, h⟩ := C94_fails_reverse_example ext
  have h' : (plotStructure ext (fun _ => 0) { twoMedia with reverse := true } none true).1 = .ok cs := by rw [h]
  exact ⟨cs, h', ((C110_curves ext _ _ none _ cs).1 h').1⟩

/-- Non-vacuity: nine wavelengths are thinned out. -/
example : 8 < ([1, 2, 3, 4, 5, 6, 7, 8, 9] : List ℝ).toFinset.card := by
  rw [List.toFinset_card_of_nodup (by norm_num)]; simp

end Verif.RModel
