import Verif.Parse.Model
import Mathlib.Data.List.TakeWhile

/-!
# C74, C75, C130: the Horiba reader
-/

namespace Verif.Parse
open Verif.Data (Line Codec)

/-- A block of a .spe file: a title, lines, and at least one blank line, after which anything may follow
that does not start a block. -/
structure Block where
  title : Line
  body : List Line
  blank : Line
  rest : List Line

/-- The text of a block. -/
def Block.text (b : Block) : List Line :=
  ('#' :: ' ' :: b.title ++ [':']) :: b.body ++ b.blank :: b.rest

/-- A line that is empty or white. -/
def Blank (l : Line) : Prop := ∀ ch ∈ l, ch.isWhitespace = true

/-- A line that starts a block. -/
def Starts (l : Line) : Prop := ∃ rest, strip l = '#' :: rest

/-- Lines of the body are not blank, the blank line is, and what follows starts no block. -/
structure Block.Ok (b : Block) : Prop where
  body : ∀ l ∈ b.body, ¬ Blank l
  blank : Blank b.blank
  rest : ∀ l ∈ b.rest, ¬ Starts l

/-- The entry a block should give. -/
def Block.entry (b : Block) : Meta :=
  match b.body.map strip with
  | [] => .none
  | [l] => .line l
  | ls => .lines ls

theorem strip_eq_nil (l : Line) : strip l = [] ↔ Blank l := by
  unfold strip Blank
  rw [List.reverse_eq_nil_iff, List.dropWhile_eq_nil_iff]
  constructor
  · intro h ch hch
    by_contra hc
    have : (l.dropWhile Char.isWhitespace) ≠ [] := by
      intro h0
      exact hc (List.dropWhile_eq_nil_iff.1 h0 ch hch)
    have hh := List.head_dropWhile_not Char.isWhitespace this
    have hmem := List.head_mem this
    have := h _ (List.mem_reverse.2 hmem)
    rw [hh] at this
    cases this
  · intro h ch hch
    exact h ch ((List.dropWhile_suffix _).subset (List.mem_reverse.1 hch))

theorem strip_header (t : Line) : strip ('#' :: ' ' :: t ++ [':']) = '#' :: ' ' :: t ++ [':'] := by
  have h1 : Char.isWhitespace '#' = false := by decide
  have h2 : Char.isWhitespace ':' = false := by decide
  unfold strip
  rw [List.cons_append, List.dropWhile_cons, h1]
  simp [h2]

theorem intercalate_splitOn (l : Line) : [' '].intercalate (l.splitOn ' ') = l :=
  List.intercalate_splitOn ' '

theorem blockTitle_header (t : Line) : blockTitle ('#' :: ' ' :: t ++ [':']) = t := by
  have h : ('#' :: ' ' :: t ++ [':']).splitOn ' ' = ['#'] :: (t ++ [':']).splitOn ' ' := by
    have := List.splitOn_append_cons_of_beq (sep := ' ') (a := ' ') ['#'] (t ++ [':']) (by simp)
    rw [List.splitOn_eq_singleton (xs := ['#']) (by simp)] at this
    exact this
  unfold blockTitle
  rw [h, List.tail_cons, intercalate_splitOn, List.dropLast_concat]

theorem hLoop_append (st : HState) (i : ℕ) (l l' : List Line) :
    hLoop st i (l ++ l') = hLoop (hLoop st i l) (i + l.length) l' := by
  induction l generalizing st i with
  | nil => rfl
  | cons a l ih =>
    rw [List.cons_append, hLoop, hLoop, ih, List.length_cons]
    congr 1
    omega

theorem hLoop_idle (st : HState) (h : st.current = none) (l : List Line) (hl : ∀ x ∈ l, ¬ Starts x) :
    ∀ i, hLoop st i l = st := by
  induction l with
  | nil => intro i; rfl
  | cons a l ih =>
    intro i
    have : hStep st i a = st := by
      have ha := hl a (by simp)
      unfold hStep
      rw [h]
      simp only
      split
      · rename_i rest e
        exact absurd ⟨_, e⟩ ha
      · rfl
    rw [hLoop, this]
    exact ih (fun x hx => hl x (by simp [hx])) _

theorem get_put {κ α : Type} (d : List (κ × α)) (k k' : κ) (x : α) :
    get (put d k x) k' = open Classical in if k' = k then some x else get d k' := by
  classical
  unfold get put
  by_cases h : k' = k
  · subst h; simp
  · rw [if_neg h, List.find?_cons_of_neg (by simpa using fun e => h e.symm)]

/-- Reading the body of a block. -/
theorem hLoop_body (t : Line) (body : List Line) (hb : ∀ l ∈ body, ¬ Blank l) :
    ∀ (st : HState) (ls : List Line) (i : ℕ), st.current = some (t, ls) →
      (hLoop st i body).current = some (t, ls ++ body.map strip) ∧
      (hLoop st i body).lineno = st.lineno ∧
      ∀ k, k ≠ t → get (hLoop st i body).metadata k = get st.metadata k := by
  classical
  induction body with
  | nil => intro st ls i h; simp [hLoop, h]
  | cons a body ih =>
    intro st ls i h
    have ha : (strip a).isEmpty = false := by
      rw [List.isEmpty_eq_false_iff]
      exact fun e => hb a (by simp) ((strip_eq_nil a).1 e)
    have hs : hStep st i a = { st with
        metadata := put st.metadata t (.lines (ls ++ [strip a])), current := some (t, ls ++ [strip a]) } := by
      unfold hStep
      rw [h]
      simp [ha]
    obtain ⟨h1, h2, h3⟩ := ih (fun l hl => hb l (by simp [hl])) (hStep st i a) (ls ++ [strip a]) (i + 1)
      (by rw [hs])
    rw [hLoop]
    refine ⟨by rw [h1]; simp, by rw [h2, hs], fun k hk => ?_⟩
    rw [h3 k hk, hs]
    simp [get_put, hk]

/-- Reading a whole block. -/
theorem hLoop_block (b : Block) (hb : b.Ok) (st : HState) (i : ℕ) (h : st.current = none) :
    (hLoop st i b.text).current = none ∧
    (∀ k, get (hLoop st i b.text).metadata k =
      open Classical in if k = b.title then some b.entry else get st.metadata k) ∧
    ∀ k, get (hLoop st i b.text).lineno k =
      open Classical in if k = b.title then some i else get st.lineno k := by
  classical
  have hs : hStep st i ('#' :: ' ' :: b.title ++ [':']) =
      ⟨put st.metadata b.title (.lines []), put st.lineno b.title i, some (b.title, [])⟩ := by
    unfold hStep
    rw [h, strip_header]
    simp only [List.cons_append]
    rw [← List.cons_append, ← List.cons_append, blockTitle_header]
  have htext : b.text = [('#' :: ' ' :: b.title ++ [':'])] ++ b.body ++ [b.blank] ++ b.rest := by
    simp [Block.text]
  obtain ⟨h1, h2, h3⟩ := hLoop_body b.title b.body hb.body
    (hStep st i ('#' :: ' ' :: b.title ++ [':'])) [] (i + 1) (by rw [hs])
  have e1 : hLoop st i ([('#' :: ' ' :: b.title ++ [':'])] ++ b.body) =
      hLoop (hStep st i ('#' :: ' ' :: b.title ++ [':'])) (i + 1) b.body := rfl
  generalize hst : hLoop (hStep st i ('#' :: ' ' :: b.title ++ [':'])) (i + 1) b.body = st' at h1 h2 h3 e1
  have hblank : (strip b.blank).isEmpty = true := by
    rw [List.isEmpty_iff]
    exact (strip_eq_nil _).2 hb.blank
  have e2 : ∀ j, hStep st' j b.blank = { st' with
      metadata := put st'.metadata b.title (closeBlock (b.body.map strip)), current := none } := by
    intro j
    unfold hStep
    rw [h1]
    simp [hblank]
  have e3 : hLoop st i b.text = { st' with
      metadata := put st'.metadata b.title (closeBlock (b.body.map strip)), current := none } := by
    rw [htext, hLoop_append, hLoop_append, e1]
    rw [hLoop_idle]
    · rw [hLoop, hLoop, e2]
    · rw [hLoop, hLoop, e2]
    · exact hb.rest
  have hentry : closeBlock (b.body.map strip) = b.entry := by
    unfold closeBlock Block.entry
    generalize b.body.map strip = l
    match l with
    | [] => rfl
    | [a] => rfl
    | a :: b :: l => rfl
  rw [e3]
  refine ⟨rfl, fun k => ?_, fun k => ?_⟩
  · simp only [get_put, hentry]
    by_cases hk : k = b.title
    · simp [hk]
    · rw [if_neg hk, if_neg hk, h3 k hk, hs]
      simp [get_put, hk]
  · simp only [h2, hs, get_put]
    congr

/-- Reading many blocks. -/
theorem hLoop_blocks : ∀ (bs : List Block) (st : HState) (i : ℕ), (∀ b ∈ bs, b.Ok) → st.current = none →
    (hLoop st i (bs.flatMap Block.text)).current = none ∧
    ∀ k, k ∉ bs.map Block.title → get (hLoop st i (bs.flatMap Block.text)).metadata k = get st.metadata k ∧
      get (hLoop st i (bs.flatMap Block.text)).lineno k = get st.lineno k
  | [], st, i, _, h => by simp [hLoop, h]
  | b :: bs, st, i, hb, h => by
    obtain ⟨h1, h2, h3⟩ := hLoop_block b (hb b (by simp)) st i h
    obtain ⟨g1, g2⟩ := hLoop_blocks bs (hLoop st i b.text) (i + b.text.length)
      (fun c hc => hb c (by simp [hc])) h1
    rw [List.flatMap_cons, hLoop_append]
    refine ⟨g1, fun k hk => ?_⟩
    simp only [List.map_cons, List.mem_cons, not_or] at hk
    rw [(g2 k hk.2).1, (g2 k hk.2).2, h2, h3, if_neg hk.1, if_neg hk.1]
    exact ⟨rfl, rfl⟩

/-- **C74.**  In a file made of blank-line terminated blocks (after lines that start no block), each
block gives one entry under its title, with its line number: nothing, the line, or the list of lines.
A later block with the same title replaces an earlier one. -/
theorem C74_blocks (pre : List Line) (hpre : ∀ l ∈ pre, ¬ Starts l) (bs₁ : List Block) (b : Block)
    (bs₂ : List Block) (hb : ∀ c ∈ bs₁ ++ b :: bs₂, c.Ok) (hlast : b.title ∉ bs₂.map Block.title) :
    let st := horibaMeta (pre ++ (bs₁ ++ b :: bs₂).flatMap Block.text)
    get st.metadata b.title = some b.entry ∧
      get st.lineno b.title = some (pre ++ bs₁.flatMap Block.text).length := by
  classical
  intro st
  have e : st = hLoop (hLoop (hLoop {} (0 + pre.length) (bs₁.flatMap Block.text))
      (0 + pre.length + (bs₁.flatMap Block.text).length) b.text)
      (0 + pre.length + (bs₁.flatMap Block.text).length + b.text.length) (bs₂.flatMap Block.text) := by
    show hLoop {} 0 _ = _
    rw [List.flatMap_append, List.flatMap_cons, hLoop_append, hLoop_append, hLoop_append,
      hLoop_idle _ rfl pre hpre]
  obtain ⟨h1, -⟩ := hLoop_blocks bs₁ {} (0 + pre.length) (fun c hc => hb c (by simp [hc])) rfl
  obtain ⟨h2, h3, h4⟩ := hLoop_block b (hb b (by simp)) _ (0 + pre.length + (bs₁.flatMap Block.text).length) h1
  obtain ⟨-, h5⟩ := hLoop_blocks bs₂ _
    (0 + pre.length + (bs₁.flatMap Block.text).length + b.text.length) (fun c hc => hb c (by simp [hc])) h2
  rw [e, (h5 _ hlast).1, (h5 _ hlast).2, h3, h4, if_pos rfl, if_pos rfl]
  simp

/-- **C74.**  There are no other entries. -/
theorem C74_only (pre : List Line) (hpre : ∀ l ∈ pre, ¬ Starts l) (bs : List Block) (hb : ∀ c ∈ bs, c.Ok)
    (t : Line) (ht : t ∉ bs.map Block.title) :
    get (horibaMeta (pre ++ bs.flatMap Block.text)).metadata t = none ∧
      get (horibaMeta (pre ++ bs.flatMap Block.text)).lineno t = none := by
  classical
  unfold horibaMeta
  rw [hLoop_append, hLoop_idle _ rfl pre hpre]
  have := (hLoop_blocks bs {} (0 + pre.length) hb rfl).2 t ht
  rw [this.1, this.2]
  exact ⟨rfl, rfl⟩

/-- A data block of two lines and the angle of incidence. -/
def exBlocks : List Block :=
  [⟨"INCIDENCE ANGLE".toList, ["70.00 deg".toList], [], []⟩,
    ⟨"DATA".toList, ["nm Psi Delta".toList, "500 30 120".toList], " ".toList, ["end".toList]⟩]

/-- Not vacuous: the example consists of blocks. -/
theorem exBlocks_ok : ∀ b ∈ exBlocks, b.Ok := by
  intro b hb
  simp only [exBlocks, List.mem_cons, List.not_mem_nil, or_false] at hb
  have hb1 : ∀ l : Line, (l.any fun c => !c.isWhitespace) = true → ¬ Blank l := by
    intro l h hl
    obtain ⟨c, hc, h'⟩ := List.any_eq_true.1 h
    simp [hl c hc] at h'
  rcases hb with rfl | rfl
  · refine ⟨?_, by simp [Blank], by simp⟩
    intro l hl
    obtain rfl := List.mem_singleton.1 hl
    exact hb1 _ (by decide)
  · refine ⟨?_, ?_, ?_⟩
    · intro l hl
      simp only [List.mem_cons, List.not_mem_nil, or_false] at hl
      rcases hl with rfl | rfl
      · exact hb1 _ (by decide)
      · exact hb1 _ (by decide)
    · intro c hc
      have : c = ' ' := by simpa using hc
      subst this; decide
    · intro l hl
      obtain rfl := List.mem_singleton.1 hl
      rintro ⟨rest, h⟩
      have : strip "end".toList = "end".toList := by decide
      rw [this] at h
      simp at h

/-- **C75.**  The points are those with a wavelength strictly between the cut-offs (either may be
infinite), in the order of the file, all with the angle of incidence. -/
theorem C75_cutoffs (aoi : ℝ) (lo hi : Option ℝ) (table : List (ℝ × ℝ × ℝ)) :
    horibaPoints aoi lo hi table =
      (open Classical in (table.filter fun r => (∀ c ∈ lo, c < r.1) ∧ ∀ c ∈ hi, r.1 < c)).map
        fun r => (r.1, aoi, r.2.1, r.2.2) := by
  classical
  unfold horibaPoints
  rw [List.filter_filter, List.filter_map]
  congr 1
  refine List.filter_congr fun r _ => ?_
  cases lo <;> cases hi <;> simp [Function.comp, Bool.and_comm]

/-- **C75**, for the whole reader: a file with a DATA block of a heading and at least one row, and an
angle of incidence; the table read is exactly the DATA block, and the points are its rows between the
cut-offs. -/
theorem C75_file (c : Codec) (csv : List Line → ℕ → ℕ → Except PyErr (List (ℝ × ℝ × ℝ))) (lo hi : Option ℝ)
    (pre : List Line) (hpre : ∀ l ∈ pre, ¬ Starts l) (bs₁ : List Block) (b : Block)
    (bs₂ : List Block) (hb : ∀ c ∈ bs₁ ++ b :: bs₂, c.Ok) (hd : b.title = "DATA".toList)
    (hlast : b.title ∉ bs₂.map Block.title) (hrows : 2 ≤ b.body.length)
    (as₁ : List Block) (a : Block) (as₂ : List Block) (hsame : bs₁ ++ b :: bs₂ = as₁ ++ a :: as₂)
    (ha : a.title = "INCIDENCE ANGLE".toList) (halast : a.title ∉ as₂.map Block.title)
    (l : Line) (hal : a.body = [l]) (aoi : ℝ) (haoi : c.pf ((strip l).take 5) = some aoi) :
    let lines := pre ++ (bs₁ ++ b :: bs₂).flatMap Block.text
    ∃ skip n, (lines.drop skip).take (n + 1) = b.body ∧
      openHoriba c csv lo hi lines = (csv lines skip n).map fun table =>
        (open Classical in (table.filter fun r => (∀ c ∈ lo, c < r.1) ∧ ∀ c ∈ hi, r.1 < c)).map
          fun r => (r.1, aoi, r.2.1, r.2.2) := by
  classical
  intro lines
  obtain ⟨h1, h2⟩ := C74_blocks pre hpre bs₁ b bs₂ hb hlast
  obtain ⟨h3, -⟩ := C74_blocks pre hpre as₁ a as₂ (by rw [← hsame]; exact hb) halast
  rw [← hsame] at h3
  have hentry : b.entry = .lines (b.body.map strip) := by
    unfold Block.entry
    match b.body, hrows with
    | x :: y :: r, _ => rfl
  have haentry : a.entry = .line (strip l) := by
    unfold Block.entry
    rw [hal]
    rfl
  refine ⟨(pre ++ bs₁.flatMap Block.text).length + 1, b.body.length - 1, ?_, ?_⟩
  · have : lines = (pre ++ bs₁.flatMap Block.text ++ ['#' :: ' ' :: b.title ++ [':']]) ++
        (b.body ++ (b.blank :: b.rest ++ bs₂.flatMap Block.text)) := by
      simp [lines, Block.text]
    rw [this, show b.body.length - 1 + 1 = b.body.length by omega,
      List.drop_left' (by simp; omega), List.take_left']
    rfl
  · unfold openHoriba
    rw [hd] at h1 h2
    rw [ha] at h3
    simp only [item, lines, h1, h2, h3, hentry, haentry, Meta.len, Meta.angle]
    simp only [bind, Except.bind, List.length_map, pure, Except.pure]
    cases csv (pre ++ List.flatMap Block.text (bs₁ ++ b :: bs₂))
      ((pre ++ List.flatMap Block.text bs₁).length + 1) (b.body.length - 1) with
    | error e => rfl
    | ok table =>
      rw [haoi]
      show Except.ok _ = Except.ok _
      rw [C75_cutoffs]

/-- **C130**, partial: if the DATA block has a heading and at least one row, the lines from which the table is
taken (skip these, then a heading, then so many rows) are exactly the block.  Missing: a heading without rows,
see `C130_fails_heading`. -/
theorem C130_block_partial (c : Codec) (lo hi : Option ℝ) (pre : List Line) (hpre : ∀ l ∈ pre, ¬ Starts l)
    (bs₁ : List Block) (b : Block) (bs₂ : List Block) (hb : ∀ c ∈ bs₁ ++ b :: bs₂, c.Ok)
    (hd : b.title = "DATA".toList) (hlast : b.title ∉ bs₂.map Block.title) (hrows : 2 ≤ b.body.length)
    (as₁ : List Block) (a : Block) (as₂ : List Block) (hsame : bs₁ ++ b :: bs₂ = as₁ ++ a :: as₂)
    (ha : a.title = "INCIDENCE ANGLE".toList) (halast : a.title ∉ as₂.map Block.title)
    (l : Line) (hal : a.body = [l]) (aoi : ℝ) (haoi : c.pf ((strip l).take 5) = some aoi)
    (table : List Line → List (ℝ × ℝ × ℝ)) :
    openHoriba c (fun ls skip n => .ok (table ((ls.drop skip).take (n + 1)))) lo hi
        (pre ++ (bs₁ ++ b :: bs₂).flatMap Block.text) =
      .ok ((open Classical in ((table b.body).filter fun r => (∀ c ∈ lo, c < r.1) ∧ ∀ c ∈ hi, r.1 < c)).map
        fun r => (r.1, aoi, r.2.1, r.2.2)) := by
  obtain ⟨skip, n, h1, h2⟩ := C75_file c (fun ls skip n => .ok (table ((ls.drop skip).take (n + 1)))) lo hi pre hpre
    bs₁ b bs₂ hb hd hlast hrows as₁ a as₂ hsame ha halast l hal aoi haoi
  rw [h2, h1]
  rfl

/-- **C130 fails** for a DATA block that has a heading only: it is kept as a string, and the number of rows asked
for is the number of its characters less one, so that the lines after the block are read as data. -/
theorem C130_fails_heading (c : Codec) (csv : List Line → ℕ → ℕ → Except PyErr (List (ℝ × ℝ × ℝ))) (lo hi : Option ℝ)
    (pre : List Line) (hpre : ∀ l ∈ pre, ¬ Starts l) (bs₁ : List Block) (b : Block)
    (bs₂ : List Block) (hb : ∀ c ∈ bs₁ ++ b :: bs₂, c.Ok) (hd : b.title = "DATA".toList)
    (hlast : b.title ∉ bs₂.map Block.title) (head : Line) (hrows : b.body = [head])
    (as₁ : List Block) (a : Block) (as₂ : List Block) (hsame : bs₁ ++ b :: bs₂ = as₁ ++ a :: as₂)
    (ha : a.title = "INCIDENCE ANGLE".toList) (halast : a.title ∉ as₂.map Block.title)
    (l : Line) (hal : a.body = [l]) (aoi : ℝ) (haoi : c.pf ((strip l).take 5) = some aoi) :
    let lines := pre ++ (bs₁ ++ b :: bs₂).flatMap Block.text
    ∃ skip, (lines.drop skip).take 1 = b.body ∧
      openHoriba c csv lo hi lines = (csv lines skip ((strip head).length - 1)).map fun table =>
        (open Classical in (table.filter fun r => (∀ c ∈ lo, c < r.1) ∧ ∀ c ∈ hi, r.1 < c)).map
          fun r => (r.1, aoi, r.2.1, r.2.2) := by
  classical
  intro lines
  obtain ⟨h1, h2⟩ := C74_blocks pre hpre bs₁ b bs₂ hb hlast
  obtain ⟨h3, -⟩ := C74_blocks pre hpre as₁ a as₂ (by rw [← hsame]; exact hb) halast
  rw [← hsame] at h3
  have hentry : b.entry = .line (strip head) := by
    unfold Block.entry
    rw [hrows]
    rfl
  have haentry : a.entry = .line (strip l) := by
    unfold Block.entry
    rw [hal]
    rfl
  refine ⟨(pre ++ bs₁.flatMap Block.text).length + 1, ?_, ?_⟩
  · have : lines = (pre ++ bs₁.flatMap Block.text ++ ['#' :: ' ' :: b.title ++ [':']]) ++
        (b.body ++ (b.blank :: b.rest ++ bs₂.flatMap Block.text)) := by
      simp [lines, Block.text]
    rw [this, List.drop_left' (by simp; omega), List.take_left' (by simp [hrows])]
  · unfold openHoriba
    rw [hd] at h1 h2
    rw [ha] at h3
    simp only [item, lines, h1, h2, h3, hentry, haentry, Meta.len, Meta.angle]
    simp only [bind, Except.bind, pure, Except.pure]
    cases csv (pre ++ List.flatMap Block.text (bs₁ ++ b :: bs₂))
      ((pre ++ List.flatMap Block.text bs₁).length + 1) ((strip head).length - 1) with
    | error e => rfl
    | ok table =>
      rw [haoi]
      show Except.ok _ = Except.ok _
      rw [C75_cutoffs]

end Verif.Parse
