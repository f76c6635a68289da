import Verif.Parse.PropsEP4

/-!
# Positions and names of EP4 datasets (C69, C70, C109)
-/

namespace Verif.Parse
open Verif.Data (Line)

/-! ### C69: the reported position -/

/-- `m` lies among the values of a column of the rows. -/
def Among (rows : List EpRow) (f : EpRow → ℝ) (m : ℝ) : Prop :=
  (∃ r ∈ rows, f r ≤ m) ∧ ∃ r ∈ rows, m ≤ f r

theorem mean_among : ∀ (l : List ℝ), l ≠ [] → (∃ x ∈ l, x ≤ mean l) ∧ ∃ x ∈ l, mean l ≤ x := by
  intro l hl
  have hn : (0 : ℝ) < l.length := by exact_mod_cast List.length_pos_iff.2 hl
  have e : mean l * l.length = l.sum := by unfold mean; field_simp
  constructor
  · by_contra hc
    push Not at hc
    have := List.sum_lt_sum_of_ne_nil (f := fun _ => mean l) (g := fun x => x) hl hc
    simp only [List.map_const', List.sum_replicate, nsmul_eq_mul, List.map_id'] at this
    linarith
  · by_contra hc
    push Not at hc
    have := List.sum_lt_sum_of_ne_nil (f := fun x => x) (g := fun _ => mean l) hl hc
    simp only [List.map_const', List.sum_replicate, nsmul_eq_mul, List.map_id'] at this
    linarith

theorem groupMean_among (rows : List EpRow) (h : rows ≠ []) (f : EpRow → ℝ) :
    Among rows f (mean ((groupKeys rows).map fun k => mean ((groupOf rows k).map f))) := by
  have hne : ∀ k ∈ groupKeys rows, groupOf rows k ≠ [] := by
    intro k hk
    obtain ⟨r, hr, h1, h2⟩ := (mem_groupKeys rows k).1 hk
    refine List.ne_nil_of_mem (a := r) ?_
    simp [groupOf, hr, h1, h2, Prod.ext_iff]
  have hk : (groupKeys rows).map (fun k => mean ((groupOf rows k).map f)) ≠ [] := by
    obtain ⟨r, hr⟩ := List.exists_mem_of_ne_nil _ h
    exact fun h0 => List.ne_nil_of_mem ((mem_groupKeys rows (r.aoi, r.lam)).2 ⟨r, hr, rfl, rfl⟩)
      (List.map_eq_nil_iff.1 h0)
  have hsub : ∀ k, ∀ r ∈ groupOf rows k, r ∈ rows := fun k r hr => (List.mem_filter.1 hr).1
  obtain ⟨⟨a, ha, h1⟩, b, hb, h2⟩ := mean_among _ hk
  obtain ⟨k, hk1, rfl⟩ := List.mem_map.1 ha
  obtain ⟨k', hk2, rfl⟩ := List.mem_map.1 hb
  obtain ⟨⟨x, hx, h3⟩, -⟩ := mean_among ((groupOf rows k).map f) (by simpa using hne k hk1)
  obtain ⟨-, y, hy, h4⟩ := mean_among ((groupOf rows k').map f) (by simpa using hne k' hk2)
  obtain ⟨r, hr, rfl⟩ := List.mem_map.1 hx
  obtain ⟨r', hr', rfl⟩ := List.mem_map.1 hy
  exact ⟨⟨r, hsub _ r hr, h3.trans h1⟩, r', hsub _ r' hr', h2.trans h4⟩

/-- The position reported for an area: multiples of a hundredth which, up to rounding, are
among the coordinates of the rows. -/
def PositionOf (a : List EpRow) (pos : Option (ℝ × ℝ)) : Prop :=
  ∃ X Y m m', pos = some (X, Y) ∧ ((∃ k : ℤ, X = k / 100) ∧ ∃ k : ℤ, Y = k / 100) ∧ |X - m| ≤ 0.005 ∧ Among a EpRow.x m ∧ |Y - m'| ≤ 0.005 ∧ Among a EpRow.y m'

/-- **C69.**  Each area becomes one dataset, whose reported position is that of its rows. -/
theorem C69_position (tb : EpTable) (hl : Labelled tb.rows) (hs : SingleTime tb) (hloc : tb.hasLoc = true)
    (hm : SeveralPlaces tb.rows) :
    ∃ parts out, Areas tb.rows parts ∧ openEP4 tb = .ok out ∧
      List.Forall₂ (fun a (o : List Pt × Option (ℝ × ℝ) × Option ℝ) =>
        Averages a o.1 ∧ PositionOf a o.2.1 ∧ o.2.2 = none) parts out := by
  classical
  have h1 : ¬ (tb.hasTime = true ∧ 1 < (times tb.rows).length) := fun h => times_le_one (hs h.1) h.2
  refine ⟨areas tb.rows, (areas tb.rows).map fun a => ((groupMean a).map Avg.pt,
      some (npRound 2 (mean ((groupMean a).map Avg.x)), npRound 2 (mean ((groupMean a).map Avg.y))), none),
    areas_spec _ hl, ?_, ?_⟩
  · unfold openEP4 ep4Outputs loadEP4; rw [several_eq]
    rw [if_neg h1, if_pos ⟨hloc, hm⟩]
    rw [mapM_ok _ _ (fun o => (o.pts, o.pos, none))]
    · simp [Function.comp_def]
    · intro o ho
      simp only [List.map_map, List.mem_map, Function.comp] at ho
      obtain ⟨a, _, rfl⟩ := ho
      rfl
  · rw [List.forall₂_map_right_iff, List.forall₂_same]
    intro a ha
    have hne : a ≠ [] := by
      rintro rfl
      exact (areas_spec _ hl).area _ ha
    refine ⟨groupMean_averages a, ⟨_, _, mean ((groupMean a).map Avg.x), mean ((groupMean a).map Avg.y), rfl,
      ⟨⟨_, by rw [npRound]; norm_num; rfl⟩, ⟨_, by rw [npRound]; norm_num; rfl⟩⟩,
      (abs_npRound_sub 2 _).trans (by norm_num), ?_, (abs_npRound_sub 2 _).trans (by norm_num), ?_⟩, rfl⟩
    · have := groupMean_among a hne EpRow.x
      simpa [groupMean, Function.comp_def] using this
    · have := groupMean_among a hne EpRow.y
      simpa [groupMean, Function.comp_def] using this

/-! ### C70: a file that maps several places over time -/

/-- **C70 fails for mapping time series**: a file begins with the rows of one time, measured at different
places (one of them further from the first than the tolerance), and goes on with other times.  It cannot be
read: KeyError. -/
theorem C70_fails_mapping (f : EpRow) (A B : List EpRow) (hA : ∀ r ∈ A, r.time = f.time)
    (hB : ∀ r ∈ B, r.time ≠ f.time) (hne : B ≠ []) (hl : Labelled (f :: A ++ B))
    (hm : ∃ r ∈ A, ¬ SamePlace f r) : openEP4 ⟨f :: A ++ B, true, true⟩ = .error .keyError := by
  classical
  have h1 : atTime (f :: A ++ B) f.time = f :: A := by
    unfold atTime
    rw [List.filter_append, List.filter_eq_self.2 (by simpa using hA),
      List.filter_eq_nil_iff.2 (by simpa using hB), List.append_nil]
  have hlA : Labelled (f :: A) := by
    intro i r hi
    refine hl i r ?_
    rw [List.getElem?_append_left (by exact (List.getElem?_eq_some_iff.1 hi).1)]
    exact hi
  obtain ⟨b, hb⟩ := List.exists_mem_of_ne_nil _ hne
  have hft : f.time ∈ times (f :: A ++ B) := (mem_times _ _).2 ⟨f, by simp, rfl⟩
  have hbt : b.time ∈ times (f :: A ++ B) := (mem_times _ _).2 ⟨b, by simp [hb], rfl⟩
  have hlen : 1 < (times (f :: A ++ B)).length := by
    generalize times (f :: A ++ B) = l at hft hbt
    match l, hft, hbt with
    | [x], h, h' =>
      rw [List.mem_singleton] at h h'
      exact absurd (h'.trans h.symm) (hB b hb)
    | _ :: _ :: _, _, _ => simp
  refine C70_fails_places _ rfl hlen f.time hft ?_
  simp only [h1]
  have hmany : SeveralPlaces (f :: A) := by
    obtain ⟨r, hr, hsp⟩ := hm
    by_contra hc
    rw [← several_eq] at hc
    unfold manyPositions at hc
    push Not at hc
    refine hsp ⟨?_, ?_⟩
    · rw [hc.1 f (by simp) r (by simp [hr])]; simp; positivity
    · rw [hc.2 f (by simp) r (by simp [hr])]; simp; positivity
  unfold loadEP4; rw [several_eq]
  rw [if_pos ⟨rfl, hmany⟩, List.length_map]
  have hs := areas_spec _ hlA
  generalize areas (f :: A) = parts at hs
  match parts, hs with
  | [], hs => exact absurd hs.cover (by simp)
  | [a], hs =>
    have h2 := hs.cover
    have h3 := hs.area a (by simp)
    simp only [List.flatten_cons, List.flatten_nil, List.append_nil] at h2
    subst h2
    obtain ⟨r, hr, hsp⟩ := hm
    exact absurd (h3 r hr) hsp
  | _ :: _ :: _, _ => simp

/-- Not vacuous: two places at the first of two times. -/
example : ∃ (f : EpRow) (A B : List EpRow), (∀ r ∈ A, r.time = f.time) ∧ (∀ r ∈ B, r.time ≠ f.time) ∧ B ≠ [] ∧
    Labelled (f :: A ++ B) ∧ ∃ r ∈ A, ¬ SamePlace f r := by
  refine ⟨⟨0, 500, 60, 10, 100, 0, 0, 0⟩, [⟨1, 500, 60, 20, 110, 1, 0, 0⟩], [⟨2, 500, 60, 30, 120, 0, 0, 60⟩],
    by simp, by simp, by simp, ?_, ?_⟩
  · intro i r h
    rcases i with _ | _ | _ | i <;> simp at h <;> subst h <;> rfl
  · norm_num [SamePlace]

/-! ### C109: names -/

/-- The texts of the numbers in `S`: different numbers have different texts, which contain none of the letters
that separate the parts of a name.  (The floats, and the multiples of a hundredth, are such sets; the reals
are not.) -/
structure NumText (S : Set ℝ) (fmt : ℝ → Line) : Prop where
  inj : Set.InjOn fmt S
  clean : ∀ x ∈ S, 'm' ∉ fmt x

/-- Position and time are in `S`. -/
def InSet (S : Set ℝ) (p : Option (ℝ × ℝ)) (t : Option ℝ) : Prop :=
  (∀ x y, p = some (x, y) → x ∈ S ∧ y ∈ S) ∧ ∀ x, t = some x → x ∈ S

theorem split_at {α : Type} {c : α} : ∀ {a b u v : List α}, c ∉ a → c ∉ b → a ++ c :: u = b ++ c :: v →
    a = b ∧ u = v
  | [], [], _, _, _, _, h => by simpa using h
  | [], b :: bs, _, _, _, hb, h => by
    simp only [List.nil_append, List.cons_append, List.cons.injEq] at h
    exact absurd (by simp [h.1]) hb
  | a :: as, [], _, _, ha, _, h => by
    simp only [List.nil_append, List.cons_append, List.cons.injEq] at h
    exact absurd (by simp [h.1]) ha
  | a :: as, b :: bs, u, v, ha, hb, h => by
    simp only [List.cons_append, List.cons.injEq] at h
    obtain ⟨h1, h2⟩ := split_at (fun h' => ha (by simp [h'])) (fun h' => hb (by simp [h'])) h.2
    exact ⟨by rw [h.1, h1], h2⟩

/-- **C109**: the name of a dataset is the file name without its last 23 characters (the time stamp and the
extension), followed by its position and its time if it has them. -/
theorem C109_text (fmt : ℝ → Line) (sample stamp : Line) (h : stamp.length = 23) (x y t : ℝ) :
    makeEP4dname fmt (sample ++ stamp) none none = sample ∧
    makeEP4dname fmt (sample ++ stamp) none (some t) = sample ++ "_t=".toList ++ fmt t ++ "s".toList ∧
    makeEP4dname fmt (sample ++ stamp) (some (x, y)) none =
      sample ++ "_x=".toList ++ fmt x ++ "mm_y=".toList ++ fmt y ++ "mm".toList ∧
    makeEP4dname fmt (sample ++ stamp) (some (x, y)) (some t) =
      sample ++ "_x=".toList ++ fmt x ++ "mm_y=".toList ++ fmt y ++ "mm_t=".toList ++ fmt t ++ "s".toList := by
  have e : "mm_t=".toList = "mm".toList ++ "_t=".toList := by decide
  simp only [makeEP4dname, List.length_append, h, Nat.add_sub_cancel, List.take_left', e, List.append_assoc,
    and_self]

/-- **C109 fails** between files with short names: two files whose names have at most 23 characters give
datasets with the same name. -/
theorem C109_fails_short (fmt : ℝ → Line) {n n' : Line} (h : n.length ≤ 23) (h' : n'.length ≤ 23)
    (p : Option (ℝ × ℝ)) (t : Option ℝ) : makeEP4dname fmt n p t = makeEP4dname fmt n' p t := by
  have e : ∀ {m : Line}, m.length ≤ 23 → m.take (m.length - 23) = [] := fun hm => by
    rw [Nat.sub_eq_zero_of_le hm, List.take_zero]
  simp only [makeEP4dname, e h, e h']

example : "_20200929-083122.ds.dat".toList.length = 23 ∧ "gold.dat".toList.length ≤ 23 ∧
    "silver.dat".toList.length ≤ 23 ∧ "gold.dat".toList ≠ "silver.dat".toList := by decide

/-- **C109**: the name of a dataset identifies its position and its time. -/
theorem C109_name {S : Set ℝ} {fmt : ℝ → Line} (hf : NumText S fmt) (name : Line) {p q : Option (ℝ × ℝ)}
    {t u : Option ℝ} (hp : InSet S p t) (hq : InSet S q u) :
    makeEP4dname fmt name p t = makeEP4dname fmt name q u ↔ p = q ∧ t = u := by
  refine ⟨fun h => ?_, by rintro ⟨rfl, rfl⟩; rfl⟩
  have htime : ∀ {t u : ℝ}, t ∈ S → u ∈ S → fmt t ++ ['s'] = fmt u ++ ['s'] → t = u := fun ht hu h =>
    hf.inj ht hu (List.append_cancel_right h)
  have hpos : ∀ {x y x' y' : ℝ} {l l' : Line}, x ∈ S ∧ y ∈ S → x' ∈ S ∧ y' ∈ S →
      fmt x ++ ('m' :: 'm' :: '_' :: 'y' :: '=' :: (fmt y ++ 'm' :: 'm' :: l)) =
      fmt x' ++ ('m' :: 'm' :: '_' :: 'y' :: '=' :: (fmt y' ++ 'm' :: 'm' :: l')) → (x, y) = (x', y') ∧ l = l' := by
    intro x y x' y' l l' hx hx' h
    obtain ⟨h1, h2⟩ := split_at (hf.clean x hx.1) (hf.clean x' hx'.1) h
    simp only [List.cons.injEq, true_and] at h2
    obtain ⟨h3, h4⟩ := split_at (hf.clean y hx.2) (hf.clean y' hx'.2) h2
    simp only [List.cons.injEq, true_and] at h4
    exact ⟨by rw [hf.inj hx.1 hx'.1 h1, hf.inj hx.2 hx'.2 h3], h4⟩
  unfold makeEP4dname at h
  have e1 : "_x=".toList = ['_', 'x', '='] := rfl
  have e2 : "mm_y=".toList = ['m', 'm', '_', 'y', '='] := rfl
  have e3 : "mm".toList = ['m', 'm'] := rfl
  have e4 : "_t=".toList = ['_', 't', '='] := rfl
  have e5 : "s".toList = ['s'] := rfl
  have hxt : 'x' ≠ 't' := by decide
  simp only [e1, e2, e3, e4, e5] at h
  rcases p with _ | ⟨x, y⟩ <;> rcases q with _ | ⟨x', y'⟩ <;> rcases t with _ | t <;> rcases u with _ | u <;>
    simp only [List.append_assoc, List.append_cancel_left_eq, List.cons_append, List.nil_append, List.cons.injEq,
      true_and, hxt, hxt.symm, false_and, reduceCtorEq, List.self_eq_append_right, List.append_right_eq_self] at h
  · exact ⟨rfl, rfl⟩
  · exact ⟨rfl, by rw [htime (hp.2 _ rfl) (hq.2 _ rfl) h]⟩
  · obtain ⟨h1, -⟩ := hpos (hp.1 _ _ rfl) (hq.1 _ _ rfl) h
    exact ⟨by rw [h1], rfl⟩
  · obtain ⟨-, h2⟩ := hpos (l := []) (hp.1 _ _ rfl) (hq.1 _ _ rfl) h
    simp at h2
  · obtain ⟨-, h2⟩ := hpos (l' := []) (hp.1 _ _ rfl) (hq.1 _ _ rfl) h
    simp at h2
  · obtain ⟨h1, h2⟩ := hpos (hp.1 _ _ rfl) (hq.1 _ _ rfl) h
    simp only [List.cons.injEq, true_and] at h2
    exact ⟨by rw [h1], by rw [htime (hp.2 _ rfl) (hq.2 _ rfl) h2]⟩

/-- **C109**: the datasets of a time series have different names. -/
theorem C109_series {S : Set ℝ} {fmt : ℝ → Line} (hf : NumText S fmt) (name : Line) (tb : EpTable)
    (hS : ∀ r ∈ tb.rows, r.time ∈ S) (ht : tb.hasTime = true) (h1 : ¬ SingleTime tb)
    (hpos : ∀ t, ¬ (tb.hasLoc = true ∧ SeveralPlaces (tb.rows.filter fun r => open Classical in r.time = t))) :
    ∃ names, ep4Names fmt name tb = .ok names ∧ names.Nodup := by
  obtain ⟨ts, out, hn, hts', ho, hf2⟩ := C70_series_partial tb ht h1 hpos
  refine ⟨_, by rw [ep4Names, ho]; rfl, ?_⟩
  have hnd : (out.map fun o => o.2.2).Nodup := by
    have hts : out.map (fun o => o.2.2) = ts.map some := by
      clear hn ho hts'
      induction hf2 with
      | nil => rfl
      | cons h _ ih => rw [List.map_cons, List.map_cons, ih, h.2.2]
    rw [hts]
    exact hn.map (Option.some_injective ℝ)
  have hin : ∀ o ∈ out, InSet S o.2.1 o.2.2 := by
    intro o ho'
    obtain ⟨i, hi, rfl⟩ := List.mem_iff_getElem.1 ho'
    have hl := hf2.length_eq
    have := (List.forall₂_iff_get.1 hf2).2 i (by omega) hi
    simp only [List.get_eq_getElem] at this
    obtain ⟨r, hr, e⟩ := (hts' ts[i]).1 (List.getElem_mem _)
    refine ⟨fun x y h => ?_, fun x h => ?_⟩
    · rw [this.2.1] at h; simp at h
    · rw [this.2.2, Option.some.injEq] at h
      rw [← h, ← e]; exact hS r hr
  rw [List.Nodup, List.pairwise_map] at hnd ⊢
  exact List.Pairwise.imp_of_mem (fun ha hb hne heq => hne ((C109_name hf name (hin _ ha) (hin _ hb)).1 heq).2) hnd

/-- **C109** for maps, partial: datasets with different reported positions have different names.  Missing:
different visits of the same place, see `C109_fails_return`. -/
theorem C109_map_partial {fmt : ℝ → Line} (hf : NumText {x | ∃ k : ℤ, x = k / 100} fmt) (name : Line) (tb : EpTable)
    (hl : Labelled tb.rows) (hs : SingleTime tb) (hloc : tb.hasLoc = true) (hm : SeveralPlaces tb.rows) :
    ∃ out names, openEP4 tb = .ok out ∧ ep4Names fmt name tb = .ok names ∧ names.length = out.length ∧
      ∀ (i j : ℕ) (hi : i < out.length) (hj : j < out.length), out[i].2.1 ≠ out[j].2.1 → names[i]? ≠ names[j]? := by
  obtain ⟨parts, out, -, ho, hf2⟩ := C69_position tb hl hs hloc hm
  refine ⟨out, _, ho, by rw [ep4Names, ho]; rfl, by simp, fun i j hi hj hne heq => ?_⟩
  have hin : ∀ o ∈ out, InSet {x | ∃ k : ℤ, x = k / 100} o.2.1 o.2.2 := by
    intro o ho'
    obtain ⟨i, hi, rfl⟩ := List.mem_iff_getElem.1 ho'
    have hl := hf2.length_eq
    have := (List.forall₂_iff_get.1 hf2).2 i (by omega) hi
    simp only [List.get_eq_getElem] at this
    obtain ⟨-, ⟨X, Y, m, m', e, hX, -⟩, hn⟩ := this
    obtain ⟨h1, h2⟩ := hX
    refine ⟨fun x y h => ?_, fun x h => ?_⟩
    · rw [e, Option.some.injEq, Prod.mk.injEq] at h
      exact ⟨h.1 ▸ h1, h.2 ▸ h2⟩
    · rw [hn] at h; simp at h
  simp only [List.getElem?_map, List.getElem?_eq_getElem hi, List.getElem?_eq_getElem hj, Option.map_some,
    Option.some.injEq] at heq
  exact hne ((C109_name hf name (hin _ (List.getElem_mem hi)) (hin _ (List.getElem_mem hj))).1 heq).1

/-- A file of three rows: a place, another one, and the first one again. -/
def returnTable : EpTable :=
  ⟨[⟨0, 500, 60, 10, 100, 0, 0, 0⟩, ⟨1, 500, 60, 20, 110, 1, 0, 0⟩, ⟨2, 500, 60, 30, 120, 0, 0, 0⟩], false, true⟩

theorem groupKeys_one (r : EpRow) : groupKeys [r] = [(r.aoi, r.lam)] := by
  simp [groupKeys]

/-- **C109 fails** if the stage comes back: the first and the third dataset have the same name. -/
theorem C109_fails_return (fmt : ℝ → Line) (name : Line) :
    ∃ n n', ep4Names fmt name returnTable = .ok [n, n', n] := by
  classical
  have hm : SeveralPlaces returnTable.rows := by rw [← several_eq]; left; simp [returnTable]
  have hc : ¬ close 0 1 := by norm_num [close]
  have hc' : ¬ close 1 0 := by norm_num [close]
  have ha : areas returnTable.rows = [[⟨0, 500, 60, 10, 100, 0, 0, 0⟩], [⟨1, 500, 60, 20, 110, 1, 0, 0⟩],
      [⟨2, 500, 60, 30, 120, 0, 0, 0⟩]] := by
    simp [areas, areaStarts, returnTable, hc, hc', slices, locSlice]
  refine ⟨makeEP4dname fmt name (some (npRound 2 0, npRound 2 0)) none,
    makeEP4dname fmt name (some (npRound 2 1, npRound 2 0)) none, ?_⟩
  · unfold ep4Names openEP4 ep4Outputs loadEP4; rw [several_eq]
    rw [if_neg (by simp [returnTable]), if_pos ⟨rfl, hm⟩, ha]
    simp [groupMean, groupKeys_one, groupOf, mean]
    rfl

/-- Not vacuous: such texts of the multiples of a hundredth exist. -/
example : ∃ fmt : ℝ → Line, NumText {x | ∃ k : ℤ, x = k / 100} fmt := by
  refine ⟨fun x => List.replicate (Encodable.encode ⌊x * 100⌋) '1', ?_, ?_⟩
  · rintro _ ⟨k, rfl⟩ _ ⟨l, rfl⟩ h
    have h1 := congrArg List.length h
    simp only [List.length_replicate] at h1
    have e : ∀ n : ℤ, ⌊(n / 100 : ℝ) * 100⌋ = n := fun n => by
      rw [show (n / 100 : ℝ) * 100 = n by ring, Int.floor_intCast]
    rw [e, e] at h1
    rw [Encodable.encode_injective h1]
  · intro x _ h
    exact absurd (List.eq_of_mem_replicate h) (by decide)

end Verif.Parse
