import Verif.Struct.ListOps
import Verif.Struct.PropsSlabs

/-! # C150: editing a structure as a list -/

namespace Verif.Struct
open Verif.Disp

theorem pyIndex_of {n : ℕ} {i : ℤ} {k : ℕ} (h : Position n i k) : pyIndex n i = some k := by
  obtain ⟨h1, h2⟩ := h
  unfold pyIndex
  rcases h2 with ⟨h3, h4⟩ | ⟨h3, h4⟩
  · simp only [if_neg (not_lt.mpr h3)]
    rw [if_pos (by omega)]
    simp [h4]
  · simp only [if_pos h3]
    rw [if_pos (by omega)]
    simp [h4]

theorem pyIndex_none {n : ℕ} {i : ℤ} (h : ∀ k, ¬ Position n i k) : pyIndex n i = none := by
  unfold pyIndex
  rw [if_neg]
  rintro ⟨h1, h2⟩
  split_ifs at h1 h2 with h3
  · exact h (i + n).toNat ⟨by omega, .inr ⟨h3, by omega⟩⟩
  · exact h i.toNat ⟨by omega, .inl ⟨by omega, by omega⟩⟩

theorem pyBound_of {n : ℕ} {i : ℤ} {k : ℕ} (h : Position n i k) : pyBound n i = k := by
  obtain ⟨h1, h2⟩ := h
  unfold pyBound
  rcases h2 with ⟨h3, h4⟩ | ⟨h3, h4⟩
  · simp only [if_neg (not_lt.mpr h3)]
    omega
  · simp only [if_pos h3]
    omega

theorem replicate_get {α : Type} (l : List α) (n i : ℕ) (h : i < n * l.length) :
    (List.replicate n l).flatten[i]? = l[i % l.length]? := by
  induction n generalizing i with
  | zero => simp at h
  | succ n ih =>
    rw [List.replicate_succ, List.flatten_cons]
    by_cases hi : i < l.length
    · rw [List.getElem?_append_left hi, Nat.mod_eq_of_lt hi]
    · rw [not_lt] at hi
      rw [List.getElem?_append_right hi, ih _ (by rw [Nat.add_mul] at h; omega), Nat.mod_eq_sub_mod hi]

theorem insertIdx_mid {α : Type} (l r : List α) (x : α) : (l ++ r).insertIdx l.length x = l ++ x :: r := by
  induction l with
  | nil => simp
  | cons y l ih => simpa using ih

theorem edited_onList {e : Edit} {a b : List Comp} (h : Edited e a b) :
    e.onList (a.map .comp) = .ok (b.map .comp) := by
  cases h with
  | @set i c d a b hp =>
    have : pyIndex ((a ++ d :: b).map PyObj.comp).length i = some a.length := by
      apply pyIndex_of
      simpa [Nat.add_assoc, Nat.add_comm 1] using hp
    simp only [Edit.onList, this]
    simp
  | @del i d a b hp =>
    have : pyIndex ((a ++ d :: b).map PyObj.comp).length i = some a.length := by
      apply pyIndex_of
      simpa [Nat.add_assoc, Nat.add_comm 1] using hp
    simp only [Edit.onList, this]
    rw [List.map_append, List.eraseIdx_append_of_length_le (by simp)]
    simp
  | @pop i d a b hp =>
    have : pyIndex ((a ++ d :: b).map PyObj.comp).length i = some a.length := by
      apply pyIndex_of
      simpa [Nat.add_assoc, Nat.add_comm 1] using hp
    simp only [Edit.onList, this]
    rw [List.map_append, List.eraseIdx_append_of_length_le (by simp)]
    simp
  | @insert i c d a b hp =>
    have : pyBound ((a ++ d :: b).map PyObj.comp).length i = a.length := by
      apply pyBound_of
      simpa [Nat.add_assoc, Nat.add_comm 1] using hp
    simp only [Edit.onList, this]
    have hi := insertIdx_mid (a.map PyObj.comp) ((d :: b).map PyObj.comp) (.comp c)
    rw [List.length_map] at hi
    rw [List.map_append, hi]
    simp
  | @insertEnd i c a hp =>
    have : pyBound (a.map PyObj.comp).length i = (a.map PyObj.comp).length := by
      unfold pyBound; simp only [List.length_map]; split_ifs <;> omega
    simp only [Edit.onList, this]
    rw [List.insertIdx_length_self]
    simp
  | @insertStart i c a hp =>
    have : pyBound (a.map PyObj.comp).length i = 0 := by
      unfold pyBound; simp only [List.length_map]; split_ifs <;> omega
    simp only [Edit.onList, this]
    simp
  | extend => simp [Edit.onList]
  | iadd => simp [Edit.onList]
  | @times _ _ n hl hg =>
    simp only [Edit.onList, Int.toNat_natCast, Except.ok.injEq]
    apply List.ext_getElem?
    intro i
    by_cases hi : i < b.length
    · rw [replicate_get _ _ _ (by rw [List.length_map, ← hl]; exact hi), List.length_map, List.getElem?_map,
        List.getElem?_map, hg i hi]
    · rw [List.getElem?_eq_none, List.getElem?_eq_none]
      · simpa using hi
      · simpa [hl] using hi
  | noTimes hn =>
    simp only [Edit.onList]
    rw [show Int.toNat _ = 0 from Int.toNat_of_nonpos hn]
    simp
  | reverse hl hg =>
    simp only [Edit.onList, Except.ok.injEq]
    rw [← List.map_reverse]
    congr 1
    apply List.ext_getElem?
    intro i
    by_cases hi : i < a.length
    · rw [List.getElem?_reverse hi, hg i hi]
    · rw [List.getElem?_eq_none, List.getElem?_eq_none]
      · omega
      · simpa using hi
  | clear => rfl

theorem out_onList {e : Edit} {l : List PyObj} (h : OutOfRange l.length e) : e.onList l = .error .indexError := by
  cases e <;> simp only [OutOfRange] at h <;> simp [Edit.onList, pyIndex_none h]

theorem position_cases (n : ℕ) (i : ℤ) : (∃ k, Position n i k) ∨ (n : ℤ) ≤ i ∨ i + n < 0 := by
  by_cases h : 0 ≤ i
  · by_cases h2 : i < n
    · exact .inl ⟨i.toNat, by omega, .inl ⟨h, by omega⟩⟩
    · exact .inr (.inl (by omega))
  · by_cases h2 : 0 ≤ i + n
    · exact .inl ⟨(i + n).toNat, by omega, .inr ⟨by omega, by omega⟩⟩
    · exact .inr (.inr (by omega))

theorem split_at {a : List Comp} {k : ℕ} (h : k < a.length) : ∃ l d r, a = l ++ d :: r ∧ l.length = k :=
  ⟨a.take k, a[k], a.drop (k + 1), by simp, by simp; omega⟩

theorem comps_list {xs : List PyObj} (h : ∀ x ∈ xs, ∃ c, x = .comp c) : ∃ b : List Comp, xs = b.map .comp := by
  induction xs with
  | nil => exact ⟨[], rfl⟩
  | cons x xs ih =>
    obtain ⟨c, rfl⟩ := h x (by simp)
    obtain ⟨b, rfl⟩ := ih fun x hx => h x (List.mem_cons_of_mem _ hx)
    exact ⟨c :: b, rfl⟩

/-- Every edit with components has an effect or is out of range. -/
theorem edited_total (e : Edit) (he : e.Comps) (a : List Comp) : (∃ b, Edited e a b) ∨ OutOfRange a.length e := by
  have pos : ∀ i : ℤ, (∃ l d r, a = l ++ d :: r ∧ Position (l.length + 1 + r.length) i l.length) ∨
      ∀ k, ¬ Position a.length i k := by
    intro i
    by_cases h : ∃ k, Position a.length i k
    · obtain ⟨k, hk⟩ := h
      obtain ⟨l, d, r, rfl, rfl⟩ := split_at hk.1
      refine .inl ⟨l, d, r, rfl, ?_⟩
      simpa [Nat.add_assoc, Nat.add_comm 1] using hk
    · exact .inr (not_exists.mp h)
  cases e with
  | setItem i x =>
    obtain ⟨c, rfl⟩ := he
    rcases pos i with ⟨l, d, r, rfl, h⟩ | h
    · exact .inl ⟨_, .set h⟩
    · exact .inr h
  | delItem i =>
    rcases pos i with ⟨l, d, r, rfl, h⟩ | h
    · exact .inl ⟨_, .del h⟩
    · exact .inr h
  | pop i =>
    rcases pos i with ⟨l, d, r, rfl, h⟩ | h
    · exact .inl ⟨_, .pop h⟩
    · exact .inr h
  | insert i x =>
    obtain ⟨c, rfl⟩ := he
    rcases pos i with ⟨l, d, r, rfl, h⟩ | h
    · exact .inl ⟨_, .insert h⟩
    · rcases position_cases a.length i with ⟨k, hk⟩ | h2 | h2
      · exact absurd hk (h k)
      · exact .inl ⟨_, .insertEnd h2⟩
      · exact .inl ⟨_, .insertStart h2⟩
  | extend xs => obtain ⟨b, rfl⟩ := comps_list he; exact .inl ⟨_, .extend⟩
  | iadd xs => obtain ⟨b, rfl⟩ := comps_list he; exact .inl ⟨_, .iadd⟩
  | imul n =>
    rcases le_or_gt n 0 with h | h
    · exact .inl ⟨_, .noTimes h⟩
    · obtain ⟨n, rfl⟩ := Int.eq_ofNat_of_zero_le h.le
      have hl : (List.replicate n a).flatten.length = n * a.length := by simp
      exact .inl ⟨(List.replicate n a).flatten, .times hl fun i hi => replicate_get _ _ _ (by rwa [hl] at hi)⟩
  | reverse => exact .inl ⟨a.reverse, .reverse (by simp) fun i hi => List.getElem?_reverse hi⟩
  | clear => exact .inl ⟨_, .clear⟩

theorem history_total {es : List Edit} (he : ∀ e ∈ es, e.Comps) (a : List Comp) : ∃ b, History es a b := by
  induction es generalizing a with
  | nil => exact ⟨a, .nil⟩
  | cons e es ih =>
    have ih := ih fun e he' => he e (List.mem_cons_of_mem _ he')
    rcases edited_total e (he e (by simp)) a with ⟨b, hb⟩ | h
    · obtain ⟨c, hc⟩ := ih b
      exact ⟨c, .step hb hc⟩
    · obtain ⟨c, hc⟩ := ih a
      exact ⟨c, .skip h hc⟩

theorem history_runs {es : List Edit} {a b : List Comp} (h : History es a b) {s : Structure}
    (hs : s.data = a.map .comp) : Edit.runs s es = { s with data := b.map .comp } := by
  induction h generalizing s with
  | nil => rw [Edit.runs, ← hs]
  | step h1 _ ih =>
    have := edited_onList h1
    rw [← hs] at this
    simp only [Edit.runs, Edit.run, this]
    exact ih rfl
  | @skip e es a c h1 _ ih =>
    have : OutOfRange s.data.length e := by rw [hs, List.length_map]; exact h1
    simp only [Edit.runs, Edit.run, out_onList this]
    exact ih hs

/-- C150. Editing a structure with the methods of a list, in place, in any order, changes its components as it
would change a list of them (edits that name no position raise IndexError and have no effect) and nothing else,
and the slabs follow: one row for each component, in order, with its thickness, roughness and solvent fraction
(for a structure that is not reversed).  Partial: only components may be put in (`C150_fails_scatterer`); slices, sums,
multiples and copies are not in this claim (`C150_fails_slice`). -/
theorem C150_edits_partial {s : Structure} {cs : List Comp} (hs : s.data = cs.map .comp) {es : List Edit}
    (he : ∀ e ∈ es, e.Comps) :
    ∃ cs', History es cs cs' ∧ (∀ cs'', History es cs cs'' → cs'' = cs') ∧
      (Edit.runs s es).data = cs'.map .comp ∧ (Edit.runs s es).toSettings = s.toSettings ∧
      (Edit.runs s es).name = s.name ∧
      ∀ (ext : Ext) (v : Vals), Plain (Edit.runs s es) cs' → s.reverse = false →
        ∃ rows, slabs ext v (Edit.runs s es) none = (.ok (some rows), Edit.runs s es) ∧
          rows.map Row.cols = cs'.map (cols v) := by
  obtain ⟨b, hb⟩ := history_total he cs
  have hr := history_runs hb hs
  refine ⟨b, hb, fun c hc => ?_, by rw [hr], by rw [hr], by rw [hr], fun ext v hp hrev => ?_⟩
  · have := hr.symm.trans (history_runs hc hs)
    have := congrArg Structure.data this
    simp only at this
    exact ((List.map_injective_iff.mpr fun x y h => by simpa using h) this).symm
  · exact C39_rows ext v hp (by rw [hr]; exact hrev)

/-- C150: every edit, and whether it is refused. -/
theorem C150_refused {s : Structure} {cs : List Comp} (hs : s.data = cs.map .comp) {e : Edit} (he : e.Comps) :
    (e.run s = .error .indexError ↔ OutOfRange cs.length e) ∧
      (OutOfRange cs.length e ∨ ∃ s', e.run s = .ok s' ∧ OnlyComps s') := by
  have ho : OutOfRange cs.length e → e.run s = .error .indexError := by
    intro h
    have : OutOfRange s.data.length e := by rw [hs, List.length_map]; exact h
    simp only [Edit.run, out_onList this]
  rcases edited_total e he cs with ⟨b, hb⟩ | h
  · have := edited_onList hb
    rw [← hs] at this
    have hrun : e.run s = .ok { s with data := b.map .comp } := by simp only [Edit.run, this]
    refine ⟨⟨fun h => by rw [hrun] at h; simp at h, ho⟩, .inr ⟨_, hrun, ?_⟩⟩
    intro o h
    simp only [List.mem_map] at h
    obtain ⟨c, -, rfl⟩ := h
    exact ⟨c, rfl⟩
  · exact ⟨⟨fun _ => h, ho⟩, .inl h⟩

/-- Non-vacuity of C150: insert a film between two media, reverse the list, remove the last entry, name a position
that is not there. -/
example (a b c : Comp) : History [.insert (-1) (.comp c), .reverse, .pop (-1), .delItem 5] [a, b] [b, c] ∧
    Edit.runs { data := [.comp a, .comp b], ema := "bruggeman" }
      [.insert (-1) (.comp c), .reverse, .pop (-1), .delItem 5] =
        { data := [.comp b, .comp c], ema := "bruggeman" } := by
  constructor
  · refine .step (b := [a, c, b]) (.insert (a := [a]) (b := []) ?_) (.step (b := [b, c, a]) (.reverse rfl ?_)
      (.step (b := [b, c]) (.pop (a := [b, c]) (b := []) ?_) (.skip ?_ .nil)))
    · exact ⟨by simp, .inr ⟨by simp, by simp⟩⟩
    · intro i hi
      simp only [List.length_cons, List.length_nil] at hi
      match i, hi with
      | 0, _ => rfl
      | 1, _ => rfl
      | 2, _ => rfl
    · exact ⟨by simp, .inr ⟨by simp, by simp⟩⟩
    · rintro k ⟨h1, h2⟩
      simp only [List.length_cons, List.length_nil] at h1 h2
      omega
  · rfl

/-- C150 fails for scatterers: `append` makes a slab of a scatterer, `insert`, item assignment and `extend` put in
the scatterer as it is, and the slabs of the structure cannot be computed any more, whatever the other
components are. -/
theorem C150_fails_scatterer (ext : Ext) (v : Vals) {s : Structure} {first last : Comp} {mid : List Comp}
    (hs : s.data = (first :: mid ++ [last]).map .comp) (h1 : first.isSlab = true) (h2 : last.isSlab = true)
    (hd : ∀ c ∈ first :: mid ++ [last], Comp.dflt c = true) (r : ScatObj) :
    ∃ s', (Edit.insert 1 (.scat r)).run s = .ok s' ∧ ∃ e, (slabs ext v s' none).1 = .error e := by
  have hins : (Edit.insert 1 (.scat r)).run s =
      .ok { s with data := .comp first :: .scat r :: (mid ++ [last]).map .comp } := by
    have hb : pyBound s.data.length 1 = 1 := by
      rw [hs]; simp [pyBound]; omega
    simp only [Edit.run, Edit.onList, hb]
    rw [hs]
    rfl
  refine ⟨_, hins, ?_⟩
  have hends : endsAreSlabs (.comp first :: .scat r :: (mid ++ [last]).map PyObj.comp) = true := by
    unfold endsAreSlabs
    have : (.comp first :: .scat r :: (mid ++ [last]).map PyObj.comp).getLast? = some (.comp last) := by
      rw [List.map_append, ← List.cons_append, ← List.cons_append, List.getLast?_append]
      rfl
    rw [this, List.head?_cons]
    simp [h1, h2]
  have hall : (.comp first :: .scat r :: (mid ++ [last]).map PyObj.comp).all PyObj.dflt = true := by
    rw [List.all_eq_true]
    intro x hx
    simp only [List.mem_cons, List.mem_map] at hx
    rcases hx with rfl | rfl | ⟨c, hc, rfl⟩
    · exact hd first (by simp)
    · rfl
    · exact hd c (by simp at hc ⊢; tauto)
  simp only [slabs, List.isEmpty_cons, Bool.false_eq_true, if_false, hends, if_true]
  simp only [slabsCore, rawRows, hall, if_true, componentRows, List.mapM_cons, PyObj.rows]
  cases h : (first.view v).rows ext s.toSettings with
  | error e => exact ⟨e, by simp [bind, Except.bind, Except.map]⟩
  | ok x => exact ⟨.attributeError, by simp [bind, Except.bind, Except.map]⟩

/-- C150 fails for slices, sums, multiples and copies: the whole of a reversed structure as a slice, as a sum, once,
or as a copy has other slabs than the structure. -/
theorem C150_fails_slice (ext : Ext) :
    (slabs ext exVals (sliceOf revStruct 0 2) none).1 ≠ (slabs ext exVals revStruct none).1 ∧
    (slabs ext exVals (addTo revStruct []) none).1 ≠ (slabs ext exVals revStruct none).1 ∧
    (slabs ext exVals (timesOf revStruct 1) none).1 ≠ (slabs ext exVals revStruct none).1 ∧
    (slabs ext exVals (copyMethod revStruct) none).1 ≠ (slabs ext exVals revStruct none).1 := by
  have h := C36_fails_reversed ext
  have e : ∀ s : Structure, s = copyStructure revStruct →
      (slabs ext exVals s none).1 ≠ (slabs ext exVals revStruct none).1 := fun s hs => hs ▸ h
  refine ⟨e _ ?_, e _ ?_, e _ ?_, e _ ?_⟩ <;>
    simp [sliceOf, addTo, timesOf, copyMethod, copyStructure, mkStructure, revStruct, pyBound]

/-! ### New structures from old ones -/

theorem pyBound_cut {n : ℕ} {i : ℤ} {k : ℕ} (h : CutAt n i k) : pyBound n i = k := by
  unfold pyBound
  rcases h with ⟨h1, h2, h3⟩ | ⟨h1, h2⟩ | ⟨h1, h2, h3⟩ | ⟨h1, h2⟩ <;> simp only <;> split_ifs <;> omega

theorem keepComps (xs : List Comp) (ys : List PyObj) :
    (mkStructure (xs.map .comp ++ ys) {} "").data = xs.map .comp ++ (mkStructure ys {} "").data := by
  induction xs with
  | nil => rfl
  | cons x xs ih =>
    simp only [mkStructure, List.map_cons, List.cons_append, List.filter_cons_of_pos] at ih ⊢
    rw [ih]

theorem fresh_rows (ext : Ext) (v : Vals) {cs : List Comp} (hne : cs ≠ []) (hp : ∀ c ∈ cs, Pkg c)
    (hd : ∀ c ∈ cs, NoInterface c) (h1 : ∀ c, cs.head? = some c → c.isSlab = true)
    (h2 : ∀ c, cs.getLast? = some c → c.isSlab = true) {s : Structure} (hs : s.data = cs.map .comp)
    (ht : s.toSettings = {}) : ∃ rows, slabs ext v s none = (.ok (some rows), s) ∧ rows.map Row.cols = cs.map (cols v) :=
  C39_rows ext v ⟨hs, hne, hp, hd, h1, h2, by rw [ht], by rw [ht]; exact .inl rfl⟩ (by rw [ht])

/-- C150: slices, sums, multiples and copies are new structures with the components one expects of a list, without
name and with the settings of a new structure (not, as one would expect, those of the old structure:
`C150_fails_slice`); whatever is added and is no component is left out. -/
theorem C150_new_partial {s : Structure} {cs : List Comp} (hs : s.data = cs.map .comp) :
    (∀ xs : List PyObj, (addTo s xs).data =
        (cs ++ xs.filterMap fun o => match o with | .comp c => some c | _ => none).map .comp) ∧
    (∀ (a b : ℤ) (pre mid post : List Comp), cs = pre ++ mid ++ post → CutAt cs.length a pre.length →
        CutAt cs.length b (pre.length + mid.length) → (sliceOf s a b).data = mid.map .comp) ∧
    (∀ (a b : ℤ) (i j : ℕ), CutAt cs.length a i → CutAt cs.length b j → j ≤ i → (sliceOf s a b).data = []) ∧
    (∀ n : ℤ, n ≤ 0 → (timesOf s n).data = []) ∧
    (∀ (n : ℕ) (ds : List Comp), ds.length = n * cs.length → (∀ i < ds.length, ds[i]? = cs[i % cs.length]?) →
        (timesOf s n).data = ds.map .comp) ∧
    (copyMethod s).data = cs.map .comp ∧
    ∀ s', (∃ xs, s' = addTo s xs) ∨ (∃ a b, s' = sliceOf s a b) ∨ (∃ n, s' = timesOf s n) ∨ s' = copyMethod s →
      s'.name = "" ∧ s'.toSettings = {} ∧ OnlyComps s' ∧
      ∀ (ext : Ext) (v : Vals) (ds : List Comp), s'.data = ds.map .comp → ds ≠ [] → (∀ c ∈ ds, Pkg c) →
        (∀ c ∈ ds, NoInterface c) → (∀ c, ds.head? = some c → c.isSlab = true) →
        (∀ c, ds.getLast? = some c → c.isSlab = true) →
        ∃ rows, slabs ext v s' none = (.ok (some rows), s') ∧ rows.map Row.cols = ds.map (cols v) := by
  have hself : ∀ ds : List Comp, (mkStructure (ds.map PyObj.comp) {} "").data = ds.map PyObj.comp := fun ds => by
    have := keepComps ds []
    rw [List.append_nil] at this
    rw [this]
    simp [mkStructure]
  refine ⟨fun xs => ?_, fun a b pre mid post h h1 h2 => ?_, fun a b i j h1 h2 h3 => ?_, fun n hn => ?_,
    fun n ds h1 h2 => ?_, ?_, ?_⟩
  · rw [addTo, hs, keepComps, List.map_append]
    congr 1
    induction xs with
    | nil => rfl
    | cons o xs ih =>
      simp only [mkStructure] at ih ⊢
      cases o <;> simp [ih]
  · have hl : s.data.length = cs.length := by rw [hs, List.length_map]
    unfold sliceOf
    simp only
    rw [hl, pyBound_cut h1, pyBound_cut h2, hs, h, Nat.add_sub_cancel_left]
    have : (((pre ++ mid ++ post).map PyObj.comp).drop pre.length).take mid.length = mid.map PyObj.comp := by
      rw [← List.map_drop, ← List.map_take, List.append_assoc, List.drop_left, List.take_left]
    rw [this, hself]
  · have hl : s.data.length = cs.length := by rw [hs, List.length_map]
    unfold sliceOf
    simp only
    rw [hl, pyBound_cut h1, pyBound_cut h2, Nat.sub_eq_zero_of_le h3]
    simp [mkStructure]
  · have : n.toNat = 0 := by omega
    simp [timesOf, this, mkStructure]
  · have h3 : (List.replicate n cs).flatten = ds := by
      apply List.ext_getElem?
      intro i
      by_cases hi : i < ds.length
      · rw [h2 i hi, replicate_get _ _ _ (h1 ▸ hi)]
      · have hlen : (List.replicate n cs).flatten.length = ds.length := by simp [h1]
        rw [List.getElem?_eq_none (by rw [hlen]; omega), List.getElem?_eq_none (by omega)]
    have h4 : (List.replicate n s.data).flatten = ds.map PyObj.comp := by
      rw [← h3, hs, List.map_flatten, List.map_replicate]
    simp only [timesOf, Int.toNat_natCast]
    rw [h4, hself]
  · rw [copyMethod, hs, hself]
  · intro s' h
    obtain ⟨l, rfl⟩ : ∃ l, s' = mkStructure l {} "" := by
      rcases h with ⟨xs, rfl⟩ | ⟨a, b, rfl⟩ | ⟨n, rfl⟩ | rfl <;> exact ⟨_, rfl⟩
    refine ⟨rfl, rfl, ?_, fun ext v ds h1 h2 h3 h4 h5 h6 => fresh_rows ext v h2 h3 h4 h5 h6 h1 rfl⟩
    intro o ho
    have := (List.mem_filter.mp ho).2
    cases o with
    | comp c => exact ⟨c, rfl⟩
    | _ => simp at this

/-- Non-vacuity: the middle of a structure, its last two components, a sum with something that is no component, and
the structure twice. -/
example (a b c : Comp) (r : ScatObj) {s : Structure} (hs : s.data = [a, b, c].map .comp) :
    (sliceOf s 1 2).data = [b].map .comp ∧ (sliceOf s (-2) 7).data = [b, c].map .comp ∧
    (addTo s [.scat r, .comp a]).data = [a, b, c, a].map .comp ∧
    (timesOf s 2).data = [a, b, c, a, b, c].map .comp := by
  obtain ⟨h1, h2, -, -, h5, -⟩ := C150_new_partial hs
  refine ⟨h2 1 2 [a] [b] [c] rfl (.inl (by simp)) (.inl (by simp)),
    h2 (-2) 7 [a] [b, c] [] rfl (.inr (.inr (.inl (by simp)))) (.inr (.inl (by simp))),
    h1 _, h5 2 _ rfl ?_⟩
  intro i hi
  match i, hi with
  | 0, _ | 1, _ | 2, _ | 3, _ | 4, _ | 5, _ => simp

end Verif.Struct
