import Verif.Parse.LemmasText
import Verif.Parse.PropsEP4
import Verif.Parse.PropsHoriba
import Verif.RModel.Lemmas

/-!
# C76, C77, C99: the Woollam M-2000 reader
-/

namespace Verif.Parse
open Verif.Data (Line Codec)
open Verif.RModel (npUnique mem_npUnique npUnique_nodup npUnique_sorted)

/-- Three lines are the record of a measurement: the first has wavelength, angle, psi, delta and two
errors; the others have numbers in fields 2, 3 and 4. -/
def Record (c : Codec) (l1 l2 l3 : Line) (p : Pt) : Prop :=
  (∃ e e', List.Forall₂ (FieldIs c (fields l1)) [0, 1, 2, 3, 4, 5] [p.1, p.2.1, p.2.2.1, p.2.2.2, e, e']) ∧
  (∃ xs, List.Forall₂ (FieldIs c (fields l2)) [2, 3, 4] xs) ∧
  ∃ xs, List.Forall₂ (FieldIs c (fields l3)) [2, 3, 4] xs

/-- A list of lines is a list of records followed by the end of the file or a line without tabs. -/
inductive Records (c : Codec) : List Line → List Pt → Prop
  | eof : Records c [] []
  | stop (l : Line) (rest : List Line) : '\t' ∉ l → Records c (l :: rest) []
  | cons {l1 l2 l3 : Line} {rest : List Line} {p : Pt} {ps : List Pt} :
      Record c l1 l2 l3 p → Records c rest ps → Records c (l1 :: l2 :: l3 :: rest) (p :: ps)

theorem record_ok {c : Codec} {l1 l2 l3 : Line} {p : Pt} (h : Record c l1 l2 l3 p) :
    m2000Record c l1 l2 l3 = .ok p ∧ (fields l1).length ≠ 1 := by
  obtain ⟨⟨e, e', h1⟩, ⟨xs, h2⟩, ys, h3⟩ := h
  constructor
  · unfold m2000Record
    rw [nums_ok _ _ _ _ h1, nums_ok _ _ _ _ h2, nums_ok _ _ _ _ h3]
    rfl
  · cases h1 with
    | cons _ h1 =>
      cases h1 with
      | cons h _ =>
        obtain ⟨f, hf, _⟩ := h
        have := (List.getElem?_eq_some_iff.1 hf).1
        omega

theorem loop_records {c : Codec} {lines : List Line} {ps : List Pt} (h : Records c lines ps) :
    m2000Loop c lines = .ok ps := by
  induction h with
  | eof => rfl
  | stop l rest hl =>
    rw [m2000Loop.eq_def]
    have : (fields l).length = 1 := by
      unfold fields
      rw [List.splitOn_eq_singleton hl]
      rfl
    simp [this]
  | cons hr _ ih =>
    obtain ⟨h1, h2⟩ := record_ok hr
    rw [m2000Loop, if_neg h2, h1, ih]
    rfl

/-- **C76.**  Reading a static file gives the wavelength, angle, psi and delta of the measurements with
index 0, m, 2m, ..., in order. -/
theorem C76_static (c : Codec) (skip m : ℕ) (hm : 0 < m) (lines : List Line) (ps : List Pt)
    (h : Records c (lines.drop skip) ps) (hne : ps ≠ []) :
    ∃ out, m2000Static c skip m lines = .ok out ∧ ∀ j, out[j]? = ps[m * j]? := by
  refine ⟨everyNth m ps, ?_, getElem?_everyNth m hm ps⟩
  unfold m2000Static
  rw [loop_records h]
  have : ps.isEmpty = false := by simpa using hne
  simp [bind, Except.bind, this, pure, Except.pure]

/-- **C76.**  A file without measurements is refused. -/
theorem C76_empty (c : Codec) (skip m : ℕ) (lines : List Line) (h : Records c (lines.drop skip) []) :
    m2000Static c skip m lines = .error .indexError := by
  unfold m2000Static
  rw [loop_records h]
  rfl

/-- A codec that reads a word as its length. -/
def lengthCodec : Codec := ⟨fun l => some l.length, fun l => some l.length, fun _ => []⟩

/-- Not vacuous: a file with one measurement. -/
example : Records lengthCodec
    ["a\tab\tabc\tabcd\ta\ta".toList, "a\tb\tc\td\te".toList, "a\tb\tc\td\te".toList, "".toList]
    [(1, 2, 3, 4)] := by
  have f1 : fields "a\tab\tabc\tabcd\ta\ta".toList =
      ["a".toList, "ab".toList, "abc".toList, "abcd".toList, "a".toList, "a".toList] := by decide
  have f2 : fields "a\tb\tc\td\te".toList = ["a".toList, "b".toList, "c".toList, "d".toList, "e".toList] := by
    decide
  refine Records.cons ⟨⟨1, 1, ?_⟩, ⟨[1, 1, 1], ?_⟩, ⟨[1, 1, 1], ?_⟩⟩ (Records.stop _ _ (by simp))
  · rw [f1]; simp [FieldIs, lengthCodec]
  · rw [f2]; simp [FieldIs, lengthCodec]
  · rw [f2]; simp [FieldIs, lengthCodec]

/-! ### Kinetic files -/

/-- Number of distinct times before `t`. -/
noncomputable def rank (rows : List KRow) (t : ℝ) : ℕ :=
  (((rows.map Prod.snd).toFinset).filter (· < t)).card

/-- The measurements at a time. -/
noncomputable def measuredAt (rows : List KRow) (t : ℝ) : List Pt :=
  open Classical in (rows.filter fun r => r.2 = t).map Prod.fst

/-- A time that is kept. -/
def Kept (take : ℕ) (rows : List KRow) (t : ℝ) : Prop := (∃ r ∈ rows, r.2 = t) ∧ take ∣ rank rows t

theorem foldl_put {α κ β : Type} (P : α → Prop) [DecidablePred P] (k : α → κ) (f : α → β) :
    ∀ (l : List α) (d : List (κ × β)),
    l.foldl (fun d a => if P a then put d (k a) (f a) else d) d =
      ((l.filter fun a => P a).map fun a => (k a, f a)).reverse ++ d
  | [], d => by simp
  | a :: l, d => by
    rw [List.foldl_cons, foldl_put P k f l]
    by_cases h : P a
    · simp [h, put]
    · simp [h]

theorem get_of_mem {κ α : Type} {d : List (κ × α)} (hd : (d.map Prod.fst).Nodup) {k : κ} {x : α}
    (h : (k, x) ∈ d) : get d k = some x := by
  classical
  induction d with
  | nil => simp at h
  | cons e d ih =>
    have e1 : get (e :: d) k = if k = e.1 then some e.2 else get d k := get_put d e.1 k e.2
    rw [e1]
    rw [List.map_cons, List.nodup_cons] at hd
    rcases List.mem_cons.1 h with rfl | h
    · simp
    · rw [if_neg, ih hd.2 h]
      rintro rfl
      exact hd.1 (List.mem_map.2 ⟨_, h, rfl⟩)

theorem mem_of_get {κ α : Type} {d : List (κ × α)} {k : κ} {x : α} (h : get d k = some x) : (k, x) ∈ d := by
  classical
  unfold get at h
  obtain ⟨e, he, rfl⟩ := Option.map_eq_some_iff.1 h
  have h1 := List.find?_some he
  have h2 := List.mem_of_find?_eq_some he
  simp only [decide_eq_true_eq] at h1
  rw [← h1]
  exact h2

theorem rank_getElem (rows : List KRow) (i : ℕ) (hi : i < (npUnique (rows.map Prod.snd)).length) :
    rank rows (npUnique (rows.map Prod.snd))[i] = i := by
  classical
  set l := npUnique (rows.map Prod.snd) with hl
  have hs : l.Pairwise (· < ·) := (List.pairwise_and_iff.2 ⟨npUnique_sorted _, npUnique_nodup _⟩).imp
    fun h => lt_of_le_of_ne h.1 h.2
  unfold rank
  have e : ((rows.map Prod.snd).toFinset).filter (· < l[i]) = (l.take i).toFinset := by
    ext t
    simp only [Finset.mem_filter, List.mem_toFinset]
    rw [← mem_npUnique, ← hl]
    constructor
    · rintro ⟨ht, hlt⟩
      obtain ⟨j, hj, rfl⟩ := List.mem_iff_getElem.1 ht
      have hji : j < i := by
        by_contra hc
        rcases Nat.lt_or_ge i j with h | h
        · exact lt_asymm hlt (List.pairwise_iff_getElem.1 hs i j hi hj h)
        · have : j = i := by omega
          subst this
          exact lt_irrefl _ hlt
      exact List.mem_take_iff_getElem.2 ⟨j, by omega, rfl⟩
    · intro ht
      obtain ⟨j, hj, rfl⟩ := List.mem_take_iff_getElem.1 ht
      have hj' : j < i := by omega
      exact ⟨List.getElem_mem _, List.pairwise_iff_getElem.1 hs j i _ hi hj'⟩
  rw [e, List.toFinset_card_of_nodup ((npUnique_nodup _).sublist (List.take_sublist _ _)), List.length_take]
  omega

theorem mem_kinetic (take m : ℕ) (rows : List KRow) :
    ∃ l : List ℝ, l.Nodup ∧ (∀ t, t ∈ l ↔ Kept take rows t) ∧
      m2000Kinetic take m rows =
        (l.map fun t => (npRound 1 (t * 60), everyNth m (measuredAt rows t))).reverse := by
  classical
  set ts := npUnique (rows.map Prod.snd) with hts
  refine ⟨((ts.zipIdx).filter fun ti => ti.2 % take = 0).map Prod.fst, ?_, ?_, ?_⟩
  · have h1 : (ts.zipIdx.map Prod.fst).Nodup := by
      rw [List.zipIdx_map_fst]
      exact npUnique_nodup _
    exact h1.sublist (List.filter_sublist.map _)
  · intro t
    simp only [List.mem_map, List.mem_filter, decide_eq_true_eq]
    constructor
    · rintro ⟨⟨a, i⟩, ⟨hmem, hdiv⟩, rfl⟩
      have hget := List.mem_zipIdx_iff_getElem?.1 hmem
      obtain ⟨hi, hget⟩ := List.getElem?_eq_some_iff.1 hget
      simp only at hget hdiv ⊢
      refine ⟨?_, ?_⟩
      · have : a ∈ ts := hget ▸ List.getElem_mem _
        rw [hts, mem_npUnique] at this
        obtain ⟨r, hr, e⟩ := List.mem_map.1 this
        exact ⟨r, hr, e⟩
      · rw [← hget, rank_getElem rows i hi]
        exact Nat.dvd_of_mod_eq_zero hdiv
    · rintro ⟨⟨r, hr, rfl⟩, hdiv⟩
      have : r.2 ∈ ts := mem_npUnique.2 (List.mem_map_of_mem hr)
      obtain ⟨i, hi, hget⟩ := List.mem_iff_getElem.1 this
      refine ⟨(r.2, i), ⟨List.mem_zipIdx_iff_getElem?.2 (by simp [hget, hi]), ?_⟩, rfl⟩
      rw [← hget, rank_getElem rows i hi] at hdiv
      exact Nat.mod_eq_zero_of_dvd hdiv
  · unfold m2000Kinetic
    rw [← hts]
    have := foldl_put (fun ti : ℝ × ℕ => ti.2 % take = 0) (fun ti => npRound 1 (ti.1 * 60))
      (fun ti => everyNth m ((rows.filter fun r => r.2 = ti.1).map Prod.fst)) ts.zipIdx []
    rw [List.append_nil] at this
    rw [List.map_map]
    convert this using 2
    unfold measuredAt
    rfl

/-- **C77**, for files whose kept times differ after rounding to a tenth of a second: each time whose rank
is a multiple of `take_every` gives one dataset, under its time in seconds (to 0.05 s), with every m-th
of its points.  There are no other datasets.
*Missing*: times closer than a tenth of a second, for which it is false (`C77_fails_close_times`). -/
theorem C77_kinetic_partial (take m : ℕ) (hm : 0 < m) (rows : List KRow)
    (hinj : ∀ t t', Kept take rows t → Kept take rows t' → npRound 1 (t * 60) = npRound 1 (t' * 60) → t = t') :
    ∃ key : ℝ → ℝ, (∀ t, |key t - 60 * t| ≤ 0.05) ∧
      (∀ t, Kept take rows t → ∃ pts, get (m2000Kinetic take m rows) (key t) = some pts ∧
        ∀ j, pts[j]? = (measuredAt rows t)[m * j]?) ∧
      ∀ k pts, get (m2000Kinetic take m rows) k = some pts → ∃ t, Kept take rows t ∧ k = key t := by
  classical
  obtain ⟨l, hnd, hmem, e⟩ := mem_kinetic take m rows
  refine ⟨fun t => npRound 1 (t * 60), ?_, ?_, ?_⟩
  · intro t
    have := abs_npRound_sub 1 (t * 60)
    rw [mul_comm 60 t]
    norm_num at this ⊢
    exact this
  · intro t ht
    refine ⟨everyNth m (measuredAt rows t), ?_, getElem?_everyNth m hm _⟩
    rw [e]
    refine get_of_mem ?_ ?_
    · rw [List.map_reverse, List.nodup_reverse, List.map_map]
      refine (List.nodup_map_iff_inj_on hnd).2 ?_
      intro a ha b hb hab
      exact hinj a b ((hmem a).1 ha) ((hmem b).1 hb) hab
    · rw [List.mem_reverse, List.mem_map]
      exact ⟨t, (hmem t).2 ht, rfl⟩
  · intro k pts hk
    rw [e] at hk
    have := mem_of_get hk
    rw [List.mem_reverse, List.mem_map] at this
    obtain ⟨t, ht, h⟩ := this
    exact ⟨t, (hmem t).1 ht, (congrArg Prod.fst h).symm⟩

theorem npRound_zero (k : ℕ) : npRound k 0 = 0 := by
  have := roundEven_int 0
  simp only [Int.cast_zero] at this
  simp [npRound, this]

theorem roundEven_of_lt {x : ℝ} (h0 : 0 ≤ x) (h1 : x < 1 / 2) : roundEven x = 0 := by
  have hf : ⌊x⌋ = 0 := Int.floor_eq_zero_iff.2 ⟨h0, by linarith⟩
  have hfr : Int.fract x = x := by rw [Int.fract, hf]; simp
  unfold roundEven
  rw [hfr, if_pos h1, hf]

/-- **C77 fails for close times**: of two measurements 0.03 s apart only one is returned. -/
theorem C77_fails_close_times (p q : Pt) (hpq : p ≠ q) :
    let rows : List KRow := [(p, 0), (q, 1 / 2000)]
    Kept 1 rows 0 ∧ Kept 1 rows (1 / 2000) ∧ (∃ k, get (m2000Kinetic 1 1 rows) k = some [q]) ∧
      ∀ k, get (m2000Kinetic 1 1 rows) k ≠ some [p] := by
  classical
  intro rows
  have hu : npUnique (rows.map Prod.snd) = [0, 1 / 2000] := by
    have hs : (npUnique (rows.map Prod.snd)).Pairwise (· ≤ ·) := npUnique_sorted _
    have hp : (npUnique (rows.map Prod.snd)).Perm [0, 1 / 2000] := by
      rw [List.perm_ext_iff_of_nodup (npUnique_nodup _) (by norm_num)]
      intro a
      rw [mem_npUnique]
      simp [rows]
    exact hp.eq_of_pairwise (fun a b _ _ => le_antisymm) hs (by norm_num)
  have hr : npRound 1 (1 / 2000 * 60) = 0 := by
    rw [npRound, roundEven_of_lt (by norm_num) (by norm_num)]
    simp
  have e : m2000Kinetic 1 1 rows = [(0, [q]), (0, [p])] := by
    unfold m2000Kinetic
    rw [hu]
    have h0 : npRound 1 0 = 0 := npRound_zero 1
    simp only [List.zipIdx_cons, List.zipIdx_nil, List.foldl_cons, List.foldl_nil, Nat.mod_one, if_true,
      zero_mul, h0, hr]
    simp [put, rows, everyNth]
  refine ⟨⟨⟨(p, 0), by simp [rows], rfl⟩, one_dvd _⟩, ⟨⟨(q, 1 / 2000), by simp [rows], rfl⟩, one_dvd _⟩,
    ⟨0, ?_⟩, fun k hk => ?_⟩
  · rw [e]; simp [get]
  · rw [e] at hk
    by_cases h0 : k = 0
    · subst h0
      simp [get] at hk
      exact hpq hk.symm
    · have := mem_of_get hk
      simp [h0] at this

/-- Not vacuous: two times a minute apart. -/
example : ∃ rows : List KRow, (∃ t t', t ≠ t' ∧ Kept 1 rows t ∧ Kept 1 rows t') ∧
    ∀ t t', Kept 1 rows t → Kept 1 rows t' → npRound 1 (t * 60) = npRound 1 (t' * 60) → t = t' := by
  refine ⟨[((500, 60, 10, 100), 0), ((500, 60, 20, 110), 1)],
    ⟨0, 1, by norm_num, ⟨⟨_, List.mem_cons_self, rfl⟩, one_dvd _⟩,
      ⟨⟨_, List.mem_cons_of_mem _ List.mem_cons_self, rfl⟩, one_dvd _⟩⟩, ?_⟩
  rintro t t' ⟨⟨r, hr, rfl⟩, -⟩ ⟨⟨r', hr', rfl⟩, -⟩ h
  have h1 : npRound 1 (1 * 60) = 60 := by
    have := roundEven_int 600
    rw [npRound, show (1 * 60 * 10 ^ 1 : ℝ) = ((600 : ℤ) : ℝ) by norm_num, this]
    norm_num
  have h0 : npRound 1 (0 * 60) = 0 := by rw [zero_mul, npRound_zero]
  simp only [List.mem_cons, List.not_mem_nil, or_false] at hr hr'
  rcases hr with rfl | rfl <;> rcases hr' with rfl | rfl
  · rfl
  · simp only [h0, h1] at h; norm_num at h
  · simp only [h0, h1] at h; norm_num at h
  · rfl

/-! ### The header -/

/-- A key or a value of the header: without "=" and without commas. -/
def Plain (l : Line) : Prop := '=' ∉ l ∧ ',' ∉ l

/-- The text of the header. -/
def headerText (kvs : List (Line × Line)) : Line :=
  "VASEmethod[".toList ++ (", ".toList).intercalate (kvs.map fun kv => kv.1 ++ '=' :: kv.2) ++ "]".toList

theorem splitComma_plain : ∀ l : Line, ',' ∉ l → splitComma l = [l]
  | [], _ => rfl
  | [ch], _ => rfl
  | ch :: ch' :: r, h => by
    have h1 : ch ≠ ',' := fun e => h (by simp [e])
    have ih := splitComma_plain (ch' :: r) (fun hm => h (by simp [List.mem_cons.1 hm]))
    rw [splitComma, if_neg (fun e => h1 e.1), ih]

theorem splitComma_cons (rest : Line) : ∀ l : Line, ',' ∉ l →
    splitComma (l ++ ',' :: ' ' :: rest) = l :: splitComma rest
  | [], _ => by rw [List.nil_append, splitComma]; simp
  | [ch], h => by
    have h1 : ch ≠ ',' := fun e => h (by simp [e])
    have ih := splitComma_cons rest [] (by simp)
    rw [List.nil_append] at ih
    rw [List.singleton_append, splitComma, if_neg (fun e => h1 e.1), ih]
  | ch :: ch' :: r, h => by
    have h1 : ch ≠ ',' := fun e => h (by simp [e])
    have ih := splitComma_cons rest (ch' :: r) (fun hm => h (by simp [List.mem_cons.1 hm]))
    rw [List.cons_append, List.cons_append, splitComma, if_neg (fun e => h1 e.1), ← List.cons_append, ih]

theorem splitComma_intercalate : ∀ (ls : List Line), ls ≠ [] → (∀ l ∈ ls, ',' ∉ l) →
    splitComma ((", ".toList).intercalate ls) = ls
  | [], h, _ => absurd rfl h
  | [l], _, h => by
    rw [List.intercalate_singleton]
    exact splitComma_plain l (h l (by simp))
  | l :: l' :: ls, _, h => by
    have ih := splitComma_intercalate (l' :: ls) (by simp) (fun x hx => h x (by simp [List.mem_cons.1 hx]))
    rw [List.intercalate_cons_of_ne_nil (by simp)]
    have := splitComma_cons ((", ".toList).intercalate (l' :: ls)) l (h l (by simp))
    rw [ih] at this
    simpa using this

theorem keyVal_ok (k x : Line) (hk : '=' ∉ k) (hx : '=' ∉ x) : keyVal (k ++ '=' :: x) = .ok (k, x) := by
  unfold keyVal
  rw [List.splitOn_append_cons_of_beq k x (by simp), List.splitOn_eq_singleton hk,
    List.splitOn_eq_singleton hx]
  rfl

/-- **C99.**  A header `VASEmethod[k1=v1, k2=v2, ...]` becomes metadata with exactly these values. -/
theorem C99_header (kvs : List (Line × Line)) (hne : kvs ≠ []) (hp : ∀ kv ∈ kvs, Plain kv.1 ∧ Plain kv.2)
    (hk : (kvs.map Prod.fst).Nodup) :
    ∃ md, m2000Header (headerText kvs) = .ok md ∧ ∀ k x, get md k = some x ↔ (k, x) ∈ kvs := by
  have h1 : (headerText kvs).drop 11 = (", ".toList).intercalate (kvs.map fun kv => kv.1 ++ '=' :: kv.2) ++
      "]".toList := by
    unfold headerText
    rw [List.append_assoc]
    exact List.drop_left' (by decide)
  have h2 : ((headerText kvs).drop 11).dropLast =
      (", ".toList).intercalate (kvs.map fun kv => kv.1 ++ '=' :: kv.2) := by
    rw [h1]
    exact List.dropLast_concat
  refine ⟨kvs.reverse, ?_, ?_⟩
  · unfold m2000Header
    rw [h2, splitComma_intercalate _ (by simpa using hne), List.mapM_map,
      mapM_ok (keyVal ∘ fun kv : Line × Line => kv.1 ++ '=' :: kv.2) kvs id
        (fun kv hkv => keyVal_ok _ _ (hp kv hkv).1.1 (hp kv hkv).2.1)]
    · simp [Except.map]
    · intro l hl
      obtain ⟨kv, hkv, rfl⟩ := List.mem_map.1 hl
      have := hp kv hkv
      simp [this.1.2, this.2.2]
  · intro k x
    have hnd : (kvs.reverse.map Prod.fst).Nodup := by
      rw [List.map_reverse, List.nodup_reverse]
      exact hk
    constructor
    · intro h
      exact List.mem_reverse.1 (mem_of_get h)
    · intro h
      exact get_of_mem hnd (List.mem_reverse.2 h)

/-- **C99.**  An entry without "=" makes the file unreadable: ValueError. -/
theorem C99_refuses (es : List Line) (hp : ∀ e ∈ es, ',' ∉ e) (e : Line) (he : e ∈ es) (hno : '=' ∉ e) :
    m2000Header ("VASEmethod[".toList ++ (", ".toList).intercalate es ++ "]".toList) =
      .error .valueError := by
  have h2 : (("VASEmethod[".toList ++ (", ".toList).intercalate es ++ "]".toList).drop 11).dropLast =
      (", ".toList).intercalate es := by
    rw [List.append_assoc, List.drop_left' (by decide)]
    exact List.dropLast_concat
  unfold m2000Header
  rw [h2, splitComma_intercalate _ (List.ne_nil_of_mem he) hp, mapM_error keyVal .valueError]
  · rfl
  · intro a _
    unfold keyVal
    split
    · exact Or.inr ⟨_, rfl⟩
    · exact Or.inl rfl
  · refine ⟨e, he, ?_⟩
    unfold keyVal
    rw [List.splitOn_eq_singleton hno]

/-- Not vacuous: an empty header. -/
example : m2000Header "VASEmethod[]".toList = .error .valueError :=
  C99_refuses [[]] (by simp) [] (by simp) (by simp)

/-- Not vacuous: a header with two entries. -/
example : ∃ kvs : List (Line × Line), 2 ≤ kvs.length ∧ (∀ kv ∈ kvs, Plain kv.1 ∧ Plain kv.2) ∧
    (kvs.map Prod.fst).Nodup ∧ headerText kvs = "VASEmethod[Type=1, Zone=2 av]".toList := by
  refine ⟨[("Type".toList, "1".toList), ("Zone".toList, "2 av".toList)], by simp, ?_, by decide, by decide⟩
  intro kv hkv
  simp only [List.mem_cons, List.not_mem_nil, or_false] at hkv
  rcases hkv with rfl | rfl <;> simp [Plain]

/-- **C76**, for the whole reader: a file whose third line is `nm`, with a good header. -/
theorem C76_open (c : Codec) (csv : List Line → Except PyErr (List KRow)) (take m : ℕ) (hm : 0 < m)
    (l0 : Line) (kvs : List (Line × Line)) (rest : List Line) (hne : kvs ≠ [])
    (hp : ∀ kv ∈ kvs, Plain kv.1 ∧ Plain kv.2) (hk : (kvs.map Prod.fst).Nodup) (ps : List Pt)
    (h : Records c rest ps) (hps : ps ≠ []) :
    ∃ out md, openM2000 c csv take m (l0 :: headerText kvs :: "nm".toList :: rest) = .ok (.static out, md) ∧
      (∀ j, out[j]? = ps[m * j]?) ∧ ∀ k x, get md k = some x ↔ (k, x) ∈ kvs := by
  obtain ⟨md, h1, h2⟩ := C99_header kvs hne hp hk
  obtain ⟨out, h3, h4⟩ := C76_static c 3 m hm (l0 :: headerText kvs :: "nm".toList :: rest) ps h hps
  refine ⟨out, md, ?_, h4, h2⟩
  unfold openM2000
  have hmode : m2000Mode "nm".toList = .ok .single := by decide
  simp only [List.getD_cons_succ, List.getD_cons_zero, hmode, h1, h3]
  rfl

/-- **C77**, for the whole reader: a file whose third line is `Dynamic` is read by rows. -/
theorem C77_open (c : Codec) (csv : List Line → Except PyErr (List KRow)) (take m : ℕ)
    (l0 : Line) (kvs : List (Line × Line)) (rest : List Line) (hne : kvs ≠ [])
    (hp : ∀ kv ∈ kvs, Plain kv.1 ∧ Plain kv.2) (hk : (kvs.map Prod.fst).Nodup) (rows : List KRow)
    (h : csv (l0 :: headerText kvs :: "Dynamic".toList :: rest) = .ok rows) :
    ∃ md, openM2000 c csv take m (l0 :: headerText kvs :: "Dynamic".toList :: rest) =
        .ok (.kinetic (m2000Kinetic take m rows), md) ∧ ∀ k x, get md k = some x ↔ (k, x) ∈ kvs := by
  obtain ⟨md, h1, h2⟩ := C99_header kvs hne hp hk
  refine ⟨md, ?_, h2⟩
  unfold openM2000
  have hmode : m2000Mode "Dynamic".toList = .ok .dynamic := by decide
  simp only [List.getD_cons_succ, List.getD_cons_zero, hmode, h1, bind, Except.bind, h]
  rfl

/-- **C76.**  Any other third line is refused with ValueError. -/
theorem C76_mode (c : Codec) (csv : List Line → Except PyErr (List KRow)) (take m : ℕ)
    (l0 l1 l2 : Line) (rest : List Line) (h1 : l2 ≠ "nm".toList) (h2 : l2 ≠ "Dynamic".toList) :
    openM2000 c csv take m (l0 :: l1 :: l2 :: rest) = .error .valueError := by
  unfold openM2000 m2000Mode
  simp only [List.getD_cons_succ, List.getD_cons_zero, if_neg h1, if_neg h2]
  rfl

end Verif.Parse
