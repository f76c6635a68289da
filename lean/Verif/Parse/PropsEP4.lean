import Verif.Parse.LemmasEP4

/-!
# C69-C73: the EP4 reader and `custom_round`
-/

namespace Verif.Parse

/-- The table is not a time series: no column of times, or the same time everywhere. -/
def SingleTime (tb : EpTable) : Prop :=
  tb.hasTime = true → ∀ r ∈ tb.rows, ∀ r' ∈ tb.rows, r.time = r'.time

theorem mem_times (rows : List EpRow) (t : ℝ) : t ∈ times rows ↔ ∃ r ∈ rows, r.time = t := by
  unfold times
  simp [List.mem_dedup]

theorem times_nodup (rows : List EpRow) : (times rows).Nodup := by
  unfold times
  rw [List.nodup_reverse]
  exact List.nodup_dedup _

theorem times_le_one {rows : List EpRow} (h : ∀ r ∈ rows, ∀ r' ∈ rows, r.time = r'.time) :
    ¬ 1 < (times rows).length := by
  intro hlt
  have h0 := List.getElem_mem (l := times rows) (n := 0) (by omega)
  have h1 := List.getElem_mem (l := times rows) (n := 1) hlt
  obtain ⟨r, hr, e⟩ := (mem_times _ _).1 h0
  obtain ⟨r', hr', e'⟩ := (mem_times _ _).1 h1
  have := (List.Nodup.getElem_inj_iff (times_nodup rows) (i := 0) (j := 1) (hi := by omega) (hj := hlt)).1
    (by rw [← e, ← e', h r hr r' hr'])
  omega

/-- **C71.**  The summary of an area has one point per distinct angle and wavelength, in order, with the
arithmetic means of the repeats. -/
theorem C71_averages (rows : List EpRow) : Averages rows ((groupMean rows).map Avg.pt) :=
  groupMean_averages rows

theorem Averages.repeats_ne {rows : List EpRow} {pts : List Pt} (h : Averages rows pts) {p : Pt}
    (hp : p ∈ pts) : repeats rows p ≠ [] := by
  obtain ⟨r, hr, h1, h2⟩ := (h.keys p.2.1 p.1).1 ⟨p, hp, rfl, rfl⟩
  refine List.ne_nil_of_mem (a := r) ?_
  simp [repeats, hr, h1, h2]

/-- **C71.**  The summary is determined by these demands and does not depend on the order of the rows. -/
theorem C71_order {rows rows' : List EpRow} {pts pts' : List Pt} (hp : rows.Perm rows')
    (h : Averages rows pts) (h' : Averages rows' pts') : pts = pts' := by
  have hrep : ∀ p, (repeats rows p).Perm (repeats rows' p) := fun p => hp.filter _
  have hsub : ∀ {rows rows' : List EpRow} {pts pts' : List Pt}, rows.Perm rows' → Averages rows pts →
      Averages rows' pts' → ∀ p ∈ pts, p ∈ pts' := by
    intro rows rows' pts pts' hp h h' p hpm
    obtain ⟨r, hr, h1, h2⟩ := (h.keys p.2.1 p.1).1 ⟨p, hpm, rfl, rfl⟩
    obtain ⟨q, hq, hq1, hq2⟩ := (h'.keys p.2.1 p.1).2 ⟨r, hp.mem_iff.1 hr, h1, h2⟩
    have hrep : (repeats rows p).Perm (repeats rows' p) := hp.filter _
    have e : repeats rows' q = repeats rows' p := by unfold repeats; rw [hq1, hq2]
    have hne := h.repeats_ne hpm
    have hlen : ((repeats rows p).length : ℝ) ≠ 0 := by
      have := List.length_pos_iff.2 hne
      positivity
    have hpsi : p.2.2.1 = q.2.2.1 := by
      have a := h.psi p hpm
      have b := h'.psi q hq
      rw [e, ← hrep.length_eq, ← (hrep.map EpRow.psi).sum_eq, ← a] at b
      exact (mul_right_cancel₀ hlen b).symm
    have hdlt : p.2.2.2 = q.2.2.2 := by
      have a := h.dlt p hpm
      have b := h'.dlt q hq
      rw [e, ← hrep.length_eq, ← (hrep.map EpRow.dlt).sum_eq, ← a] at b
      exact (mul_right_cancel₀ hlen b).symm
    have : p = q := by
      ext1
      · exact hq2.symm
      · ext1
        · exact hq1.symm
        · exact Prod.ext hpsi hdlt
    rw [this]
    exact hq
  have hnd : ∀ {rows : List EpRow} {pts : List Pt}, Averages rows pts → pts.Nodup := fun h =>
    List.Nodup.of_map key (h.sorted.imp fun h => ne_of_lt h)
  have hperm : pts.Perm pts' := (List.perm_ext_iff_of_nodup (hnd h) (hnd h')).2 fun p =>
    ⟨hsub hp h h' p, hsub hp.symm h' h p⟩
  refine hperm.eq_of_pairwise (le := fun p q => key p < key q) ?_ ?_ ?_
  · intro a b _ _ h1 h2
    exact (lt_asymm h1 h2).elim
  · exact List.pairwise_map.1 h.sorted
  · exact List.pairwise_map.1 h'.sorted

/-- **C71**, for the code: rows in another order give the same summary. -/
theorem C71_code {rows rows' : List EpRow} (hp : rows.Perm rows') :
    (groupMean rows).map Avg.pt = (groupMean rows').map Avg.pt :=
  C71_order hp (C71_averages rows) (C71_averages rows')

/-- Two rows repeating one measurement. -/
def exRows : List EpRow := [⟨0, 500, 60, 10, 100, 0, 0, 0⟩, ⟨1, 500, 60, 20, 110, 0, 0, 0⟩]

/-- Not vacuous: two repeats are averaged. -/
example : Averages exRows [(500, 60, 15, 105)] := by
  refine ⟨by simp, ?_, ?_, ?_⟩
  · intro a l
    simp [exRows]
  · simp [repeats, exRows]; norm_num
  · simp [repeats, exRows]; norm_num

/-- **C69.**  A file of a single time is divided into contiguous areas that cover every row once, each
within the tolerance of its first row, and each area becomes one dataset. -/
theorem C69_areas (tb : EpTable) (hl : Labelled tb.rows) (hs : SingleTime tb) (hloc : tb.hasLoc = true)
    (hm : SeveralPlaces tb.rows) :
    ∃ parts out, Areas tb.rows parts ∧ openEP4 tb = .ok out ∧
      List.Forall₂ (fun a (o : List Pt × Option (ℝ × ℝ) × Option ℝ) =>
        Averages a o.1 ∧ o.2.1.isSome ∧ o.2.2 = none) parts out := by
  classical
  have h1 : ¬ (tb.hasTime = true ∧ 1 < (times tb.rows).length) := fun h => times_le_one (hs h.1) h.2
  refine ⟨areas tb.rows, (areas tb.rows).map fun a => ((groupMean a).map Avg.pt,
      some (npRound 2 (mean ((groupMean a).map Avg.x)), npRound 2 (mean ((groupMean a).map Avg.y))), none),
    areas_spec _ hl, ?_, ?_⟩
  · unfold openEP4 ep4Outputs loadEP4; rw [several_eq]
    rw [if_neg h1, if_pos ⟨hloc, hm⟩]
    rw [mapM_ok _ _ (fun o => (o.pts, o.pos, none))]
    · simp [Function.comp_def]
    · intro o ho
      simp only [List.map_map, List.mem_map, Function.comp] at ho
      obtain ⟨a, _, rfl⟩ := ho
      rfl
  · rw [List.forall₂_map_right_iff, List.forall₂_same]
    exact fun a _ => ⟨groupMean_averages a, rfl, rfl⟩

/-- **C69**, without positions (or with a single one): the whole file is one dataset. -/
theorem C69_single (tb : EpTable) (hs : SingleTime tb)
    (hm : ¬ (tb.hasLoc = true ∧ SeveralPlaces tb.rows)) :
    ∃ pts, Averages tb.rows pts ∧ openEP4 tb = .ok [(pts, none, none)] := by
  classical
  have h1 : ¬ (tb.hasTime = true ∧ 1 < (times tb.rows).length) := fun h => times_le_one (hs h.1) h.2
  refine ⟨_, groupMean_averages _, ?_⟩
  unfold openEP4 ep4Outputs loadEP4; rw [several_eq]
  rw [if_neg h1, if_neg hm]
  rfl

/-- Two places, the second visited twice. -/
def exTable : EpTable :=
  ⟨[⟨0, 500, 60, 10, 100, 0, 0, 0⟩, ⟨1, 500, 60, 20, 110, 1, 0, 0⟩, ⟨2, 500, 60, 30, 120, 1.1, 0, 0⟩],
    false, true⟩

/-- Not vacuous: the hypotheses of `C69_areas`, and the areas of the example. -/
example : Labelled exTable.rows ∧ SingleTime exTable ∧ SeveralPlaces exTable.rows ∧
    Areas exTable.rows [exTable.rows.take 1, exTable.rows.drop 1] := by
  refine ⟨?_, by simp [SingleTime, exTable], ?_, ?_⟩
  · intro i r h
    rcases i with _ | _ | _ | i <;> simp [exTable] at h <;> subst h <;> rfl
  · rw [← several_eq]
    left
    refine ⟨_, List.mem_cons_self, _, List.mem_cons_of_mem _ List.mem_cons_self, ?_⟩
    norm_num
  · refine ⟨by simp [exTable], ?_, ?_⟩
    · intro a ha
      simp only [exTable, List.take_succ_cons, List.take_zero, List.drop_succ_cons, List.drop_zero,
        List.mem_cons, List.not_mem_nil, or_false] at ha
      rcases ha with rfl | rfl
      · simp [Area]
      · norm_num [Area, SamePlace, abs_le, abs_of_pos]
    · refine List.IsChain.cons_cons ?_ (by simp)
      norm_num [Moved, SamePlace, exTable]

/-- Not vacuous: a file without positions. -/
example : SingleTime ⟨exRows, false, false⟩ ∧
    ¬ ((⟨exRows, false, false⟩ : EpTable).hasLoc = true ∧ SeveralPlaces exRows) := by
  simp [SingleTime]

/-! ### Time series -/

/-- **C70**, for files in which the position does not change within a time: every time gives one
dataset, made of all rows of that time and labelled with it.
*Missing*: files in which a time has rows at several positions; for them the claim is false, see
`C70_fails_places` and `C70_fails_jitter`. -/
theorem C70_series_partial (tb : EpTable) (ht : tb.hasTime = true) (h1 : ¬ SingleTime tb)
    (hpos : ∀ t, ¬ (tb.hasLoc = true ∧ SeveralPlaces (tb.rows.filter fun r => open Classical in r.time = t))) :
    ∃ ts out, ts.Nodup ∧ (∀ t, t ∈ ts ↔ ∃ r ∈ tb.rows, r.time = t) ∧ openEP4 tb = .ok out ∧
      List.Forall₂ (fun t (o : List Pt × Option (ℝ × ℝ) × Option ℝ) =>
        Averages (tb.rows.filter fun r => open Classical in r.time = t) o.1 ∧ o.2.1 = none ∧ o.2.2 = some t) ts out := by
  classical
  have hlen : 1 < (times tb.rows).length := by
    by_contra hc
    apply h1
    intro _ r hr r' hr'
    have h0 := (mem_times tb.rows r.time).2 ⟨r, hr, rfl⟩
    have h0' := (mem_times tb.rows r'.time).2 ⟨r', hr', rfl⟩
    generalize times tb.rows = l at hc h0 h0'
    match l, hc, h0, h0' with
    | [a], _, h0, h0' =>
      rw [List.mem_singleton.1 h0, List.mem_singleton.1 h0']
    | a :: b :: l, hc, _, _ => exact absurd (by simp) hc
  have hloop : ∀ (ts : List ℝ) (out : List EpOut), timeLoop tb.hasLoc tb.rows ts out =
      out ++ ts.map fun t => ⟨(groupMean (atTime tb.rows t)).map Avg.pt, none, some (some t)⟩ := by
    intro ts
    induction ts with
    | nil => intro out; simp [timeLoop]
    | cons t ts ih =>
      intro out
      have hl : loadEP4 tb.hasLoc (atTime tb.rows t) =
          [{ pts := (groupMean (atTime tb.rows t)).map Avg.pt, pos := none }] := by
        unfold loadEP4; rw [several_eq]
        rw [if_neg]
        have := hpos t
        unfold atTime
        convert this
      rw [timeLoop, hl, ih]
      simp [labelLast]
  refine ⟨times tb.rows, (times tb.rows).map fun t => ((groupMean (atTime tb.rows t)).map Avg.pt, none, some t),
    times_nodup _, mem_times _, ?_, ?_⟩
  · unfold openEP4 ep4Outputs
    rw [if_pos ⟨ht, hlen⟩, hloop, mapM_ok _ _ (fun o => (o.pts, o.pos, o.time.getD none))]
    · simp [Function.comp_def]
    · intro o ho
      simp only [List.nil_append, List.mem_map] at ho
      obtain ⟨t, _, rfl⟩ := ho
      rfl
  · rw [List.forall₂_map_right_iff, List.forall₂_same]
    intro t _
    refine ⟨?_, rfl, rfl⟩
    have := groupMean_averages (atTime tb.rows t)
    unfold atTime at this ⊢
    convert this

/-- Not vacuous: two times at one position. -/
example : ∃ tb : EpTable, tb.hasTime = true ∧ tb.hasLoc = true ∧ ¬ SingleTime tb ∧
    ∀ t, ¬ (tb.hasLoc = true ∧ SeveralPlaces (tb.rows.filter fun r => open Classical in r.time = t)) := by
  refine ⟨⟨[⟨0, 500, 60, 10, 100, 3, 4, 0⟩, ⟨1, 500, 60, 20, 110, 3, 4, 1⟩], true, true⟩, rfl, rfl, ?_, ?_⟩
  · simp [SingleTime]
  · rintro t ⟨-, h⟩
    rw [← several_eq] at h
    simp only [manyPositions, List.mem_filter, List.mem_cons, List.not_mem_nil, or_false] at h
    rcases h with ⟨r, ⟨hr | hr, -⟩, r', ⟨hr' | hr', -⟩, h⟩ | ⟨r, ⟨hr | hr, -⟩, r', ⟨hr' | hr', -⟩, h⟩ <;>
      (subst hr hr'; exact h rfl)

theorem labelLast_dropLast (t : ℝ) (l : List EpOut) : (labelLast t l).dropLast = l.dropLast := by
  unfold labelLast
  cases h : l.getLast? with
  | none => simp [List.getLast?_eq_none_iff.1 h]
  | some o => simp

theorem timeLoop_unlabelled (hasLoc : Bool) (rows : List EpRow) : ∀ (ts : List ℝ) (out : List EpOut),
    (∃ o ∈ out.dropLast, o.time = none) → ∃ o ∈ (timeLoop hasLoc rows ts out).dropLast, o.time = none
  | [], _, h => h
  | t :: ts, out, h => by
    rw [timeLoop]
    refine timeLoop_unlabelled hasLoc rows ts _ ?_
    rw [labelLast_dropLast]
    obtain ⟨o, ho, e⟩ := h
    refine ⟨o, ?_, e⟩
    rcases List.eq_nil_or_concat' (loadEP4 hasLoc (atTime rows t)) with h | ⟨l, a, h⟩
    · rw [h, List.append_nil]; exact ho
    · rw [h, ← List.append_assoc, List.dropLast_concat]
      exact List.mem_append_left _ (List.dropLast_subset _ ho)

theorem loadEP4_time (hasLoc : Bool) (rows : List EpRow) : ∀ o ∈ loadEP4 hasLoc rows, o.time = none := by
  classical
  intro o ho
  unfold loadEP4 at ho; rw [several_eq] at ho
  split at ho
  · simp only [List.mem_map] at ho
    obtain ⟨a, _, rfl⟩ := ho
    rfl
  · obtain rfl := List.mem_singleton.1 ho
    rfl

/-- **C70 fails for mapping time series**: as soon as the rows of one time fall into two areas, only the
last of them is labelled with the time and naming the others raises KeyError; the file cannot be read. -/
theorem C70_fails_places (tb : EpTable) (ht : tb.hasTime = true) (hlen : 1 < (times tb.rows).length)
    (t : ℝ) (htm : t ∈ times tb.rows) (h2 : 2 ≤ (loadEP4 tb.hasLoc (atTime tb.rows t)).length) :
    openEP4 tb = .error .keyError := by
  classical
  have key : ∀ (ts : List ℝ) (out : List EpOut), t ∈ ts →
      ∃ o ∈ (timeLoop tb.hasLoc tb.rows ts out).dropLast, o.time = none := by
    intro ts
    induction ts with
    | nil => intro out h; simp at h
    | cons u ts ih =>
      intro out h
      rcases List.mem_cons.1 h with rfl | h
      · rw [timeLoop]
        refine timeLoop_unlabelled _ _ ts _ ?_
        rw [labelLast_dropLast]
        generalize hl : loadEP4 tb.hasLoc (atTime tb.rows t) = l at h2
        have htime := loadEP4_time tb.hasLoc (atTime tb.rows t)
        rw [hl] at htime
        match l, h2, htime with
        | a :: b :: l, _, htime =>
          refine ⟨a, ?_, htime a (by simp)⟩
          rw [List.dropLast_append_of_ne_nil (by simp)]
          simp
      · rw [timeLoop]; exact ih _ h
  obtain ⟨o, ho, e⟩ := key (times tb.rows) [] htm
  unfold openEP4 ep4Outputs
  rw [if_pos ⟨ht, hlen⟩]
  refine mapM_error _ _ _ ?_ ⟨o, List.dropLast_subset _ ho, by simp [e]⟩
  intro a _
  cases a.time with
  | none => exact Or.inl rfl
  | some t => exact Or.inr ⟨_, rfl⟩

theorem areaStarts_close (p : ℝ × ℝ) : ∀ rows : List EpRow,
    (∀ r ∈ rows, close p.1 r.x ∧ close p.2 r.y) → areaStarts (some p) rows = []
  | [], _ => rfl
  | r :: rows, h => by
    have hr := h r (by simp)
    rw [areaStarts, if_neg (by tauto), areaStarts_close p rows fun q hq => h q (by simp [hq])]

theorem areaStarts_area (f : EpRow) (rest : List EpRow) (h : Area (f :: rest)) :
    areaStarts none (f :: rest) = [f.label] := by
  rw [areaStarts, areaStarts_close]
  intro r hr
  exact (close_iff f r).1 (h r hr)

theorem dedup_replicate_append {α : Type} [DecidableEq α] (a b : α) (hab : a ≠ b) (m : ℕ) :
    ∀ n, (List.replicate (n + 1) a ++ List.replicate (m + 1) b).dedup = [a, b]
  | 0 => by
    rw [List.replicate_succ, List.replicate_zero, List.singleton_append, List.dedup_cons_of_notMem,
      List.replicate_dedup (by omega)]
    simp [hab]
  | n + 1 => by
    rw [List.replicate_succ, List.cons_append, List.dedup_cons_of_mem,
      dedup_replicate_append a b hab m n]
    simp

theorem times_two (A B : List EpRow) (t₁ t₂ : ℝ) (hne : t₁ ≠ t₂) (hA : ∀ r ∈ A, r.time = t₁)
    (hB : ∀ r ∈ B, r.time = t₂) (hA' : A ≠ []) (hB' : B ≠ []) : times (A ++ B) = [t₁, t₂] := by
  classical
  have eA : A.map (·.time) = List.replicate A.length t₁ := by
    rw [List.eq_replicate_iff]
    simpa using hA
  have eB : B.map (·.time) = List.replicate B.length t₂ := by
    rw [List.eq_replicate_iff]
    simpa using hB
  obtain ⟨a, ha⟩ := Nat.exists_eq_succ_of_ne_zero (fun h => hA' (List.length_eq_zero_iff.1 h))
  obtain ⟨b, hb⟩ := Nat.exists_eq_succ_of_ne_zero (fun h => hB' (List.length_eq_zero_iff.1 h))
  unfold times
  rw [List.map_append, eA, eB, List.reverse_append, List.reverse_replicate, List.reverse_replicate, ha, hb]
  rw [dedup_replicate_append t₂ t₁ hne.symm]
  rfl

/-- **C70 fails silently when the position jitters**: take a file with two times, measured at one place but
with positions that are not all exactly equal (within the tolerance).  One dataset is returned: the
data of the first time labelled as the second.  The data of the second time is gone. -/
theorem C70_fails_jitter (A B : List EpRow) (t₁ t₂ : ℝ) (hne : t₁ ≠ t₂) (hA : ∀ r ∈ A, r.time = t₁)
    (hB : ∀ r ∈ B, r.time = t₂) (hl : Labelled (A ++ B)) (hlen : B.length ≤ A.length)
    (aA : Area A) (aB : Area B) (mA : SeveralPlaces A) (mB : SeveralPlaces B) :
    ∃ pts pos, openEP4 ⟨A ++ B, true, true⟩ = .ok [(pts, pos, some t₂)] ∧ Averages A pts := by
  classical
  have hA' : A ≠ [] := by rintro rfl; exact aA
  have hB' : B ≠ [] := by rintro rfl; exact aB
  have hts := times_two A B t₁ t₂ hne hA hB hA' hB'
  have h1 : atTime (A ++ B) t₁ = A := by
    unfold atTime
    rw [List.filter_append, List.filter_eq_self.2 (by simpa using hA),
      List.filter_eq_nil_iff.2 (by intro r hr; simp [hB r hr, hne.symm]), List.append_nil]
  have h2 : atTime (A ++ B) t₂ = B := by
    unfold atTime
    rw [List.filter_append, List.filter_eq_nil_iff.2 (by intro r hr; simp [hA r hr, hne]),
      List.filter_eq_self.2 (by simpa using hB), List.nil_append]
  have hlA : Labelled A := by
    intro i r hi
    refine hl i r ?_
    rw [List.getElem?_append_left (by exact (List.getElem?_eq_some_iff.1 hi).1)]
    exact hi
  have hlB : ∀ r ∈ B, A.length ≤ r.label := by
    intro r hr
    obtain ⟨i, hi, rfl⟩ := List.mem_iff_getElem.1 hr
    have := hl (A.length + i) B[i] (by rw [List.getElem?_append_right (by omega)]; simp [hi])
    omega
  have e1 : areas A = [A] := by
    obtain ⟨f, rest, rfl⟩ := List.exists_cons_of_ne_nil hA'
    have hs := locSlice_mid [] (f :: rest) [] (by simpa using hlA)
    have hf : f.label = 0 := hlA 0 f rfl
    unfold areas
    rw [areaStarts_area f rest aA]
    simp only [List.cons_append, List.nil_append, slices, hf]
    simp only [List.nil_append, List.append_nil, List.length_nil, Nat.zero_add] at hs
    rw [hs]
    rfl
  have e2 : areas B = [] := by
    obtain ⟨f, rest, rfl⟩ := List.exists_cons_of_ne_nil hB'
    unfold areas
    rw [areaStarts_area f rest aB]
    simp only [List.cons_append, List.nil_append, slices]
    have : locSlice (f :: rest) f.label (f :: rest).length = [] := by
      unfold locSlice
      rw [List.filter_eq_nil_iff]
      intro r hr
      have := hlB r hr
      simp only [decide_eq_true_eq, not_and]
      intro _
      omega
    rw [this]
    rfl
  refine ⟨(groupMean A).map Avg.pt, some (npRound 2 (mean ((groupMean A).map Avg.x)),
    npRound 2 (mean ((groupMean A).map Avg.y))), ?_, groupMean_averages A⟩
  unfold openEP4 ep4Outputs
  simp only [hts]
  rw [if_pos (by simp)]
  simp only [timeLoop, h1, h2, loadEP4, several_eq, mA, mB, e1, e2, and_self, if_true]
  rfl

/-- Not vacuous: positions 0 and 0.1 at each of the times 0 and 60. -/
example : ∃ A B : List EpRow, (∀ r ∈ A, r.time = 0) ∧ (∀ r ∈ B, r.time = 60) ∧ Labelled (A ++ B) ∧
    B.length ≤ A.length ∧ Area A ∧ Area B ∧ SeveralPlaces A ∧ SeveralPlaces B := by
  refine ⟨[⟨0, 500, 60, 10, 100, 0, 0, 0⟩, ⟨1, 600, 60, 20, 110, 1 / 10, 0, 0⟩],
    [⟨2, 500, 60, 30, 120, 0, 0, 60⟩, ⟨3, 600, 60, 40, 130, 1 / 10, 0, 60⟩], by simp, by simp, ?_, by simp,
    ?_, ?_, ?_, ?_⟩
  · intro i r h
    rcases i with _ | _ | _ | _ | i <;> simp at h <;> subst h <;> rfl
  · norm_num [Area, SamePlace, abs_le, abs_of_pos]
  · norm_num [Area, SamePlace, abs_le, abs_of_pos]
  · rw [← several_eq]; left; simp
  · rw [← several_eq]; left; simp

/-- Not vacuous: a file with two times, one of which has two places. -/
example : ∃ tb : EpTable, tb.hasTime = true ∧ 1 < (times tb.rows).length ∧ ∃ t ∈ times tb.rows,
    2 ≤ (loadEP4 tb.hasLoc (atTime tb.rows t)).length := by
  classical
  let A : List EpRow := [⟨0, 500, 60, 10, 100, 0, 0, 0⟩, ⟨1, 500, 60, 20, 110, 1, 0, 0⟩]
  let B : List EpRow := [⟨2, 500, 60, 30, 120, 0, 0, 60⟩]
  have hts : times (A ++ B) = [0, 60] :=
    times_two A B 0 60 (by norm_num) (by simp [A]) (by simp [B]) (by simp [A]) (by simp [B])
  have h1 : atTime (A ++ B) 0 = A := by
    unfold atTime
    rw [List.filter_append, List.filter_eq_self.2 (by simp [A]),
      List.filter_eq_nil_iff.2 (by simp [B]), List.append_nil]
  refine ⟨⟨A ++ B, true, true⟩, rfl, by simp [hts], 0, by simp [hts], ?_⟩
  simp only [h1]
  have hm : SeveralPlaces A := by rw [← several_eq]; left; simp [A]
  unfold loadEP4; rw [several_eq]
  rw [if_pos ⟨rfl, hm⟩]
  have hc : ¬ close 0 1 := by norm_num [close]
  have : areas A = [[⟨0, 500, 60, 10, 100, 0, 0, 0⟩], [⟨1, 500, 60, 20, 110, 1, 0, 0⟩]] := by
    simp [areas, areaStarts, A, hc, slices, locSlice]
  rw [this]
  simp

/-- **C71**, for the file: whatever the table, every dataset that is read consists of averages of rows of the
file. -/
theorem C71_open {tb : EpTable} {out : List (List Pt × Option (ℝ × ℝ) × Option ℝ)}
    (h : openEP4 tb = .ok out) : ∀ o ∈ out, ∃ part, part.Sublist tb.rows ∧ Averages part o.1 := by
  classical
  have hload : ∀ (b : Bool) (rows : List EpRow), ∀ o ∈ loadEP4 b rows,
      ∃ part, part.Sublist rows ∧ Averages part o.pts := by
    intro b rows o ho
    unfold loadEP4 at ho; rw [several_eq] at ho
    split at ho
    · simp only [List.mem_map] at ho
      obtain ⟨a, ha, rfl⟩ := ho
      refine ⟨a, ?_, groupMean_averages a⟩
      have ha' := List.mem_of_mem_filter ha
      have key : ∀ l : List ℕ, ∀ a ∈ slices rows l, a.Sublist rows := by
        intro l
        induction l with
        | nil => simp [slices]
        | cons x l ih =>
          cases l with
          | nil => simp [slices]
          | cons y l =>
            intro a ha
            rcases List.mem_cons.mp ha with rfl | ha
            · exact List.filter_sublist
            · exact ih a ha
      exact key _ a ha'
    · obtain rfl := List.mem_singleton.1 ho
      exact ⟨rows, List.Sublist.refl _, groupMean_averages rows⟩
  have hlab : ∀ (t : ℝ) (l : List EpOut), ∀ o ∈ labelLast t l, ∃ o' ∈ l, o.pts = o'.pts := by
    intro t l o ho
    unfold labelLast at ho
    rcases List.mem_append.mp ho with ho | ho
    · exact ⟨o, List.dropLast_subset _ ho, rfl⟩
    · cases hl : l.getLast? with
      | none => simp [hl] at ho
      | some o' =>
        simp only [hl, Option.map_some, Option.toList_some, List.mem_singleton] at ho
        subst ho
        exact ⟨o', List.mem_of_getLast? hl, rfl⟩
  have hloop : ∀ (ts : List ℝ) (acc : List EpOut),
      (∀ o ∈ acc, ∃ part, part.Sublist tb.rows ∧ Averages part o.pts) →
      ∀ o ∈ timeLoop tb.hasLoc tb.rows ts acc, ∃ part, part.Sublist tb.rows ∧ Averages part o.pts := by
    intro ts
    induction ts with
    | nil => intro acc ha; exact ha
    | cons t ts ih =>
      intro acc ha
      rw [timeLoop]
      refine ih _ fun o ho => ?_
      obtain ⟨o', ho', e⟩ := hlab t _ o ho
      rw [e]
      rcases List.mem_append.mp ho' with ho' | ho'
      · exact ha o' ho'
      · obtain ⟨part, h1, h2⟩ := hload _ _ o' ho'
        exact ⟨part, h1.trans List.filter_sublist, h2⟩
  have hall : ∀ o ∈ ep4Outputs tb, ∃ part, part.Sublist tb.rows ∧ Averages part o.pts := by
    unfold ep4Outputs
    split
    · exact hloop _ [] (by simp)
    · intro o ho
      obtain ⟨o', ho', rfl⟩ := List.mem_map.mp ho
      exact hload _ _ o' ho'
  have hmap : ∀ (f : EpOut → Except PyErr (List Pt × Option (ℝ × ℝ) × Option ℝ)),
      (∀ o y, f o = .ok y → y.1 = o.pts) → ∀ (l : List EpOut) (r : List (List Pt × Option (ℝ × ℝ) × Option ℝ)),
      l.mapM f = .ok r → ∀ y ∈ r, ∃ o ∈ l, y.1 = o.pts := by
    intro f hf l
    induction l with
    | nil => intro r hr; cases hr; simp
    | cons a l ih =>
      intro r hr
      rw [List.mapM_cons] at hr
      cases ha : f a with
      | error e => rw [ha] at hr; cases hr
      | ok b =>
        cases hl : l.mapM f with
        | error e => rw [ha, hl] at hr; cases hr
        | ok r' =>
          rw [ha, hl] at hr
          cases hr
          intro y hy
          rcases List.mem_cons.mp hy with rfl | hy
          · exact ⟨a, by simp, hf a y ha⟩
          · obtain ⟨o, ho, e⟩ := ih r' hl y hy
            exact ⟨o, by simp [ho], e⟩
  intro y hy
  obtain ⟨o, ho, e⟩ := hmap _ (by
    intro o y hy
    cases ht : o.time with
    | none => simp [ht] at hy
    | some t => simp only [ht] at hy; cases hy; rfl) _ _ h y hy
  rw [e]
  exact hall o ho

/-- Not vacuous: the table of two places is read. -/
example : ∃ out, openEP4 exTable = .ok out := by
  have hs : SingleTime exTable := by simp [SingleTime, exTable]
  by_cases hm : SeveralPlaces exTable.rows
  · obtain ⟨_, out, -, h, -⟩ := C69_areas exTable (by
      intro i r h
      rcases i with _ | _ | _ | i <;> simp [exTable] at h <;> subst h <;> rfl) hs rfl hm
    exact ⟨out, h⟩
  · obtain ⟨_, -, h⟩ := C69_single exTable hs (by simp [hm])
    exact ⟨_, h⟩

/-! ### Averaging on the circle -/

/-- **C72**, for repeats within half a turn of each other: the averaged delta is no further on the circle
from any repeat than two of the repeats are from each other.
*Missing*: repeats on both sides of 0/360, for which it is false (`C72_fails_wrap`). -/
theorem C72_circle_partial {rows : List EpRow} {pts : List Pt} (h : Averages rows pts) (p : Pt) (hp : p ∈ pts)
    (hhalf : ∀ r ∈ repeats rows p, ∀ r' ∈ repeats rows p, |r.dlt - r'.dlt| ≤ 180) :
    ∀ r ∈ repeats rows p, ∃ r' ∈ repeats rows p, circ p.2.2.2 r.dlt ≤ circ r'.dlt r.dlt := by
  intro r hr
  set g := repeats rows p with hg
  have hne : g ≠ [] := h.repeats_ne hp
  have hlen : (0 : ℝ) < g.length := by exact_mod_cast List.length_pos_iff.2 hne
  have hm := h.dlt p hp
  rw [← hg] at hm
  obtain ⟨q, hq, hmax⟩ : ∃ q ∈ g, ∀ r' ∈ g, |r'.dlt - r.dlt| ≤ |q.dlt - r.dlt| := by
    have : ∀ l : List EpRow, l ≠ [] → ∃ q ∈ l, ∀ r' ∈ l, |r'.dlt - r.dlt| ≤ |q.dlt - r.dlt| := by
      intro l
      induction l with
      | nil => intro h; exact absurd rfl h
      | cons a l ih =>
        intro _
        rcases eq_or_ne l [] with rfl | hl
        · exact ⟨a, by simp, by simp⟩
        · obtain ⟨q, hq, h⟩ := ih hl
          by_cases hc : |a.dlt - r.dlt| ≤ |q.dlt - r.dlt|
          · refine ⟨q, by simp [hq], fun r' hr' => ?_⟩
            rcases List.mem_cons.1 hr' with rfl | hr'
            · exact hc
            · exact h r' hr'
          · refine ⟨a, by simp, fun r' hr' => ?_⟩
            rcases List.mem_cons.1 hr' with rfl | hr'
            · exact le_refl _
            · exact (h r' hr').trans (le_of_not_ge hc)
    exact this g hne
  have hsum : ∀ l : List EpRow, (∀ r' ∈ l, |r'.dlt - r.dlt| ≤ |q.dlt - r.dlt|) →
      |(l.map EpRow.dlt).sum - r.dlt * l.length| ≤ |q.dlt - r.dlt| * l.length := by
    intro l
    induction l with
    | nil => simp
    | cons a l ih =>
      intro hl
      have h1 := hl a (by simp)
      have h2 := ih fun r' hr' => hl r' (by simp [hr'])
      have e : ((a :: l).map EpRow.dlt).sum - r.dlt * (a :: l).length =
          (a.dlt - r.dlt) + ((l.map EpRow.dlt).sum - r.dlt * l.length) := by
        simp; ring
      rw [e]
      refine (abs_add_le _ _).trans ?_
      simp only [List.length_cons]
      push_cast
      linarith
  have hb := hsum g hmax
  rw [← hm, ← sub_mul, abs_mul, abs_of_pos hlen] at hb
  have hb' : |p.2.2.2 - r.dlt| ≤ |q.dlt - r.dlt| := le_of_mul_le_mul_right hb hlen
  refine ⟨q, hq, ?_⟩
  have hq180 := hhalf q hq r hr
  rw [circ_eq hq180, circ_eq (hb'.trans hq180)]
  exact hb'

/-- Two repeats on both sides of zero. -/
def wrapRows : List EpRow := [⟨0, 500, 60, 10, 1, 0, 0, 0⟩, ⟨1, 500, 60, 10, 359, 0, 0, 0⟩]

/-- **C72 fails**: repeats at 1 and 359 degrees, 2 degrees apart, are averaged to 180. -/
theorem C72_fails_wrap :
    ∃ p ∈ (groupMean wrapRows).map Avg.pt, p.2.2.2 = 180 ∧
      (∀ r ∈ repeats wrapRows p, ∀ r' ∈ repeats wrapRows p, circ r.dlt r'.dlt ≤ 2) ∧
      ∀ r ∈ repeats wrapRows p, circ p.2.2.2 r.dlt = 179 := by
  have h := groupMean_averages wrapRows
  obtain ⟨p, hp, h1, h2⟩ := (h.keys 60 500).2 ⟨_, List.mem_cons_self, rfl, rfl⟩
  have hrep : repeats wrapRows p = wrapRows := by
    simp [repeats, wrapRows, h1, h2]
  have hd := h.dlt p hp
  rw [hrep] at hd
  have hd' : p.2.2.2 = 180 := by
    simp [wrapRows] at hd
    linarith
  refine ⟨p, hp, hd', ?_, ?_⟩
  · rw [hrep]
    intro r hr r' hr'
    simp only [wrapRows, List.mem_cons, List.not_mem_nil, or_false] at hr hr'
    rcases hr with rfl | rfl <;> rcases hr' with rfl | rfl
    · exact (circ_le _ _ 0).trans (by norm_num)
    · exact (circ_le _ _ 1).trans (by norm_num)
    · exact (circ_le _ _ (-1)).trans (by norm_num)
    · exact (circ_le _ _ 0).trans (by norm_num)
  · rw [hrep, hd']
    intro r hr
    simp only [wrapRows, List.mem_cons, List.not_mem_nil, or_false] at hr
    rcases hr with rfl | rfl
    · rw [circ_eq (by norm_num)]; norm_num
    · rw [circ_eq (by norm_num)]; norm_num

/-- Not vacuous: repeats at 100 and 110 degrees. -/
example : ∀ r ∈ repeats exRows (500, 60, 15, 105), ∀ r' ∈ repeats exRows (500, 60, 15, 105),
    |r.dlt - r'.dlt| ≤ 180 := by
  simp [repeats, exRows]
  norm_num [abs_le]

/-! ### `custom_round` -/

theorem abs_roundEven_sub (x : ℝ) : |(roundEven x : ℝ) - x| ≤ 1 / 2 := by
  have h1 := Int.floor_add_fract x
  have h2 := Int.fract_nonneg x
  have h3 := Int.fract_lt_one x
  unfold roundEven
  split_ifs with ha hb hc
  · rw [abs_le]; constructor <;> linarith
  · push_cast; rw [abs_le]; constructor <;> linarith
  · rw [abs_le]; constructor <;> linarith
  · push_cast; rw [abs_le]; constructor <;> linarith

theorem roundEven_int (n : ℤ) : roundEven n = n := by
  have : Int.fract (n : ℝ) = 0 := Int.fract_intCast n
  unfold roundEven
  rw [this, if_pos (by norm_num), Int.floor_intCast]

theorem abs_npRound_sub (k : ℕ) (x : ℝ) : |npRound k x - x| ≤ 1 / 2 / 10 ^ k := by
  have h10 : (0 : ℝ) < 10 ^ k := by positivity
  have := abs_roundEven_sub (x * 10 ^ k)
  have e : npRound k x - x = ((roundEven (x * 10 ^ k) : ℝ) - x * 10 ^ k) / 10 ^ k := by
    unfold npRound; field_simp
  rw [e, abs_div, abs_of_pos h10]
  gcongr

/-- **C73.**  `custom_round` fails only for base 0; otherwise its result is a multiple of a hundredth,
within half a hundredth of a multiple of the base, and within base/2 + 0.005 of the input. -/
theorem C73_custom_round (base x : ℝ) :
    (customRound base x = none ↔ base = 0) ∧ ∀ y, customRound base x = some y →
      (∃ n : ℤ, y = n / 100) ∧ (∃ k : ℤ, |y - base * k| ≤ 0.005 ∧ |base * k - x| ≤ |base| / 2) ∧
      |y - x| ≤ |base| / 2 + 0.005 := by
  constructor
  · unfold customRound
    by_cases h : base = 0 <;> simp [rdiv, h]
  · intro y hy
    unfold customRound at hy
    by_cases hb : base = 0
    · simp [rdiv, hb] at hy
    · simp only [rdiv, if_neg hb, Option.map_some, Option.some.injEq] at hy
      have hk : |base * (roundEven (x / base) : ℝ) - x| ≤ |base| / 2 := by
        have := abs_roundEven_sub (x / base)
        have e : base * (roundEven (x / base) : ℝ) - x = base * ((roundEven (x / base) : ℝ) - x / base) := by
          field_simp
        rw [e, abs_mul]
        have := mul_le_mul_of_nonneg_left this (abs_nonneg base)
        linarith
      have hr : |y - base * (roundEven (x / base) : ℝ)| ≤ 0.005 := by
        rw [← hy]
        refine (abs_npRound_sub 2 _).trans ?_
        norm_num
      refine ⟨⟨roundEven (base * roundEven (x / base) * 10 ^ 2), ?_⟩, ⟨_, hr, hk⟩, ?_⟩
      · rw [← hy, npRound]; norm_num
      · have := abs_add_le (y - base * (roundEven (x / base) : ℝ)) (base * (roundEven (x / base) : ℝ) - x)
        rw [sub_add_sub_cancel] at this
        linarith

/-- **C73.**  If the base is a whole number of hundredths the result is exactly a multiple of the base, and
multiples of the base are left alone. -/
theorem C73_exact (n : ℤ) (hn : n ≠ 0) (x : ℝ) :
    (∃ k : ℤ, customRound (n / 100) x = some ((n / 100 : ℝ) * k)) ∧
      ∀ k : ℤ, customRound (n / 100) (n / 100 * k) = some ((n / 100 : ℝ) * k) := by
  have hb : (n / 100 : ℝ) ≠ 0 := by
    have : (n : ℝ) ≠ 0 := by exact_mod_cast hn
    positivity
  have key : ∀ k : ℤ, npRound 2 ((n / 100 : ℝ) * k) = n / 100 * k := by
    intro k
    have e : (n / 100 : ℝ) * k * 10 ^ 2 = ((n * k : ℤ) : ℝ) := by push_cast; ring
    rw [npRound, e, roundEven_int]
    push_cast; ring
  constructor
  · refine ⟨roundEven (x / (n / 100)), ?_⟩
    simp only [customRound, rdiv, if_neg hb, Option.map_some, key]
  · intro k
    have e : (n / 100 : ℝ) * k / (n / 100) = k := by field_simp
    simp only [customRound, rdiv, if_neg hb, Option.map_some, e, roundEven_int, key]

/-- Not vacuous: the default base 0.25 is 25 hundredths. -/
example : customRound (25 / 100) (25 / 100 * 3) = some (25 / 100 * 3) := by
  have := (C73_exact 25 (by norm_num) 0).2 3
  push_cast at this
  exact this

end Verif.Parse
