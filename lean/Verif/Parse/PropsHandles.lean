import Verif.Parse.Handles
import Verif.Parse.PropsM2000

/-! # Instrument files given as open files (C67) -/

namespace Verif.Parse
open Verif.Data (Line Codec)

/-- **C67 fails for static Woollam files**: whatever the file, the lines of the first measurement are not read from an
open file, and the result is that of a file without them. -/
theorem C67_fails_m2000 (c : Codec) (csv : List Line → Except PyErr (List KRow)) (take m : ℕ)
    (blank second : Line) {third : Line} (h3 : third = "nm".toList) (l1 l2 l3 : Line) (rest : List Line) :
    openM2000Handle c csv take m (blank :: second :: third :: l1 :: l2 :: l3 :: rest) =
      openM2000 c csv take m (blank :: second :: third :: rest) := by
  subst h3
  unfold openM2000Handle openM2000
  rfl

/-- The same for a file of well-formed measurements: by name the first one is there, from the open file it is not. -/
theorem C67_fails_m2000_first (c : Codec) (csv : List Line → Except PyErr (List KRow)) (take : ℕ) (blank : Line)
    {second : Line} {md : List (Line × Line)} (h2 : m2000Header second = .ok md) {third : Line}
    (h3 : third = "nm".toList) {l1 l2 l3 : Line} {rest : List Line} {p : Pt} {ps : List Pt}
    (hr : Record c l1 l2 l3 p) (hrs : Records c rest ps) (hne : ps ≠ []) :
    openM2000 c csv take 1 (blank :: second :: third :: l1 :: l2 :: l3 :: rest) = .ok (.static (p :: ps), md) ∧
      openM2000Handle c csv take 1 (blank :: second :: third :: l1 :: l2 :: l3 :: rest) = .ok (.static ps, md) := by
  have key : ∀ (lines : List Line) (qs : List Pt), Records c lines qs → qs ≠ [] →
      openM2000 c csv take 1 (blank :: second :: third :: lines) = .ok (.static qs, md) := by
    intro lines qs hq hqs
    subst h3
    have hm : m2000Mode "nm".toList = .ok .single := by simp [m2000Mode]
    obtain ⟨out, ho, hj⟩ := C76_static c 3 1 one_pos (blank :: second :: "nm".toList :: lines) qs hq hqs
    have : out = qs := List.ext_getElem? fun j => by rw [hj, one_mul]
    subst this
    unfold openM2000
    simp only [List.getD_cons_succ, List.getD_cons_zero, hm, h2, bind, Except.bind, ho]
    rfl
  refine ⟨key _ _ (.cons hr hrs) (by simp), ?_⟩
  rw [C67_fails_m2000 c csv take 1 blank second h3]
  exact key _ _ hrs hne

/-- Not vacuous: a file of two measurements, the first of which is lost. -/
example (csv : List Line → Except PyErr (List KRow)) :
    ∃ lines md p q, p ≠ q ∧ openM2000 lengthCodec csv 1 1 lines = .ok (.static [p, q], md) ∧
      openM2000Handle lengthCodec csv 1 1 lines = .ok (.static [q], md) := by
  have f1 : fields "a\tab\tabc\tabcd\ta\ta".toList =
      ["a".toList, "ab".toList, "abc".toList, "abcd".toList, "a".toList, "a".toList] := by decide
  have f3 : fields "ab\tab\tabc\tabcd\ta\ta".toList =
      ["ab".toList, "ab".toList, "abc".toList, "abcd".toList, "a".toList, "a".toList] := by decide
  have f2 : fields "a\tb\tc\td\te".toList = ["a".toList, "b".toList, "c".toList, "d".toList, "e".toList] := by
    decide
  have r1 : Record lengthCodec "a\tab\tabc\tabcd\ta\ta".toList "a\tb\tc\td\te".toList
      "a\tb\tc\td\te".toList (1, 2, 3, 4) := by
    refine ⟨⟨1, 1, ?_⟩, ⟨[1, 1, 1], ?_⟩, ⟨[1, 1, 1], ?_⟩⟩
    · rw [f1]; simp [FieldIs, lengthCodec]
    · rw [f2]; simp [FieldIs, lengthCodec]
    · rw [f2]; simp [FieldIs, lengthCodec]
  have r2 : Record lengthCodec "ab\tab\tabc\tabcd\ta\ta".toList "a\tb\tc\td\te".toList
      "a\tb\tc\td\te".toList (2, 2, 3, 4) := by
    refine ⟨⟨1, 1, ?_⟩, ⟨[1, 1, 1], ?_⟩, ⟨[1, 1, 1], ?_⟩⟩
    · rw [f3]; simp [FieldIs, lengthCodec]
    · rw [f2]; simp [FieldIs, lengthCodec]
    · rw [f2]; simp [FieldIs, lengthCodec]
  obtain ⟨md, h2, -⟩ := C99_header [("Type".toList, "1".toList)] (by simp) (by simp [Plain]) (by simp)
  have := C67_fails_m2000_first lengthCodec csv 1 [] h2 rfl r1 (.cons r2 .eof) (by simp)
  exact ⟨_, md, _, _, by simp, this⟩

/-- **C67 fails for kinetic Woollam files**: the first three rows are not read from an open file. -/
theorem C67_fails_m2000_kinetic (c : Codec) (table : List Line → Except PyErr (List KRow)) (take m : ℕ)
    (blank second : Line) {third : Line} (h3 : third = "Dynamic".toList) (fourth r1 r2 r3 : Line)
    (rest : List Line) :
    openM2000Handle c (csvSkip4 table) take m (blank :: second :: third :: fourth :: r1 :: r2 :: r3 :: rest) =
      openM2000 c (csvSkip4 table) take m (blank :: second :: third :: fourth :: rest) := by
  subst h3
  unfold openM2000Handle openM2000
  rfl

/-- Not vacuous: with rows read one by one, four rows by name and one from the open file. -/
example (c : Codec) : ∃ (table : List Line → Except PyErr (List KRow)) (lines : List Line) (rows : List KRow)
    (md : List (Line × Line)), rows.length = 4 ∧
      openM2000 c (csvSkip4 table) 1 1 lines = .ok (.kinetic (m2000Kinetic 1 1 rows), md) ∧
      openM2000Handle c (csvSkip4 table) 1 1 lines = .ok (.kinetic (m2000Kinetic 1 1 (rows.drop 3)), md) := by
  obtain ⟨md, h2, -⟩ := C99_header [("Type".toList, "1".toList)] (by simp) (by simp [Plain]) (by simp)
  have hm : m2000Mode "Dynamic".toList = .ok .dynamic := by simp [m2000Mode]
  refine ⟨fun ls => .ok (ls.map fun l => ((l.length, 60, 10, 100), 0)),
    [[], headerText [("Type".toList, "1".toList)], "Dynamic".toList, [], ['a'], ['b'], ['c'], ['d', 'd']],
    [((1, 60, 10, 100), 0), ((1, 60, 10, 100), 0), ((1, 60, 10, 100), 0), ((2, 60, 10, 100), 0)], md, rfl, ?_, ?_⟩
  · unfold openM2000
    simp only [List.getD_cons_succ, List.getD_cons_zero, hm, h2, bind, Except.bind, csvSkip4, pure, Except.pure,
      List.drop_succ_cons, List.drop_zero, List.map_cons, List.map_nil, List.length_cons, List.length_nil]
    norm_num
  · rw [C67_fails_m2000_kinetic c _ 1 1 _ _ rfl]
    unfold openM2000
    simp only [List.getD_cons_succ, List.getD_cons_zero, hm, h2, bind, Except.bind, csvSkip4, pure, Except.pure,
      List.drop_succ_cons, List.drop_zero, List.map_cons, List.map_nil, List.length_cons, List.length_nil]
    norm_num

end Verif.Parse
