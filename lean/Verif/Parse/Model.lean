import Verif.Data.Model
import Mathlib.Analysis.SpecialFunctions.Trigonometric.Inverse
import Mathlib.Data.Prod.Lex

/-!
# Model of the file readers (/repo/refellips/dataSE.py, lines 258-922)

`pd.read_csv` is not modelled: the readers that use it start from the table of numbers it returns.
Other files are lists of lines without line ends.  Numbers are exact reals; float32 rounding in the
FilmSense reader is left out.  A Python `dict` is an association list in which the first entry for a
key counts and assignment puts the new entry first (the order of insertion is not modelled).
-/

namespace Verif.Parse
open Verif.Data (Line Codec)
open Verif.RModel (npUnique)

/-- A point of a dataset: wavelength, angle of incidence, psi, delta. -/
abbrev Pt := ℝ × ℝ × ℝ × ℝ

/-- `d[k] = x`. -/
def put {κ α : Type} (d : List (κ × α)) (k : κ) (x : α) : List (κ × α) := (k, x) :: d

/-- `d[k]`, if there. -/
noncomputable def get {κ α : Type} (d : List (κ × α)) (k : κ) : Option α :=
  open Classical in (d.find? fun e => decide (e.1 = k)).map Prod.snd

/-- `l[::m]`. -/
def everyNth {α : Type} (m : ℕ) (l : List α) : List α :=
  (List.range l.length).filterMap fun i => if i % m = 0 then l[i]? else none

/-- `np.round` to integers: halves go to the even neighbour. -/
noncomputable def roundEven (x : ℝ) : ℤ :=
  if Int.fract x < 1 / 2 then ⌊x⌋
  else if 1 / 2 < Int.fract x then ⌊x⌋ + 1
  else if Even ⌊x⌋ then ⌊x⌋ else ⌊x⌋ + 1

/-- `np.round(x, k)`. -/
noncomputable def npRound (k : ℕ) (x : ℝ) : ℝ := roundEven (x * 10 ^ k) / 10 ^ k

/-- `custom_round(x, base)` on one value.  dataSE.py:354-372. -/
noncomputable def customRound (base x : ℝ) : Option ℝ :=
  (rdiv x base).map fun q => npRound 2 (base * roundEven q)

/-! ### Accurion EP4 -/

/-- A row of the table; `label` is its index label after `reset_index`. -/
structure EpRow where
  label : ℕ
  lam : ℝ
  aoi : ℝ
  psi : ℝ
  dlt : ℝ
  x : ℝ
  y : ℝ
  time : ℝ

/-- The table read, with or without the optional columns. -/
structure EpTable where
  rows : List EpRow
  hasTime : Bool
  hasLoc : Bool

/-- `np.allclose(a, b, atol=0.2)` (rtol is 1e-5). -/
def close (a b : ℝ) : Prop := |a - b| ≤ 1 / 5 + 1 / 100000 * |b|

/-- Sum over number. -/
noncomputable def mean (l : List ℝ) : ℝ := l.sum / l.length

/-- The distinct (AOI, wavelength) pairs in increasing order, as `groupby` enumerates them. -/
noncomputable def groupKeys (rows : List EpRow) : List (ℝ × ℝ) :=
  open Classical in
  ((rows.map fun r => (r.aoi, r.lam)).dedup).mergeSort fun a b => decide (toLex a ≤ toLex b)

/-- The rows of one group. -/
noncomputable def groupOf (rows : List EpRow) (k : ℝ × ℝ) : List EpRow :=
  open Classical in rows.filter fun r => (r.aoi, r.lam) = k

/-- Psi, delta and position averaged over the rows with the same angle and wavelength. -/
structure Avg where
  pt : Pt
  x : ℝ
  y : ℝ

/-- `df.groupby(["AOI", "#Lambda"]).mean().reset_index()`.  dataSE.py:431-432, 448-449. -/
noncomputable def groupMean (rows : List EpRow) : List Avg :=
  (groupKeys rows).map fun k =>
    let g := groupOf rows k
    ⟨(k.2, k.1, mean (g.map (·.psi)), mean (g.map (·.dlt))), mean (g.map (·.x)), mean (g.map (·.y))⟩

/-- What `_loadEP4` returns for an area; `time` is entered later. -/
structure EpOut where
  pts : List Pt
  pos : Option (ℝ × ℝ)
  time : Option (Option ℝ) := none

/-- The labels of the rows where the position moves by more than the tolerance from the first row of
the current area (`none`: no area yet).  dataSE.py:403-416. -/
noncomputable def areaStarts : Option (ℝ × ℝ) → List EpRow → List ℕ
  | _, [] => []
  | cur, r :: rows =>
    open Classical in
    match cur with
    | some (x, y) =>
      if ¬ close x r.x ∨ ¬ close y r.y then r.label :: areaStarts (some (r.x, r.y)) rows
      else areaStarts cur rows
    | none => r.label :: areaStarts (some (r.x, r.y)) rows

/-- `df.loc[a : b - 1]` for an increasing index. -/
def locSlice (rows : List EpRow) (a b : ℕ) : List EpRow :=
  rows.filter fun r => decide (a ≤ r.label ∧ r.label + 1 ≤ b)

/-- Slices between consecutive indices. -/
def slices (rows : List EpRow) : List ℕ → List (List EpRow)
  | a :: b :: l => locSlice rows a b :: slices rows (b :: l)
  | _ => []

/-- The rows grouped into areas (empty ones are dropped); the last one ends at `len(df)`.
dataSE.py:403-430. -/
noncomputable def areas (rows : List EpRow) : List (List EpRow) :=
  (slices rows (areaStarts none rows ++ [rows.length])).filter fun l => !l.isEmpty

/-- There is more than one distinct position. -/
def manyPositions (rows : List EpRow) : Prop :=
  (∃ r ∈ rows, ∃ r' ∈ rows, r.x ≠ r'.x) ∨ ∃ r ∈ rows, ∃ r' ∈ rows, r.y ≠ r'.y

/-- `_loadEP4(df)`.  dataSE.py:375-461. -/
noncomputable def loadEP4 (hasLoc : Bool) (rows : List EpRow) : List EpOut :=
  open Classical in
  if hasLoc = true ∧ manyPositions rows then
    (areas rows).map fun a =>
      let g := groupMean a
      { pts := g.map Avg.pt, pos := some (npRound 2 (mean (g.map Avg.x)), npRound 2 (mean (g.map Avg.y))) }
  else [{ pts := (groupMean rows).map Avg.pt, pos := none }]

/-- `output[-1]["time"] = t`. -/
def labelLast (t : ℝ) (l : List EpOut) : List EpOut :=
  l.dropLast ++ (l.getLast?.map fun o => { o with time := some (some t) }).toList

/-- Times in order of first appearance. -/
noncomputable def times (rows : List EpRow) : List ℝ :=
  open Classical in (rows.map (·.time)).reverse.dedup.reverse

/-- The rows measured at a time. -/
noncomputable def atTime (rows : List EpRow) (t : ℝ) : List EpRow :=
  open Classical in rows.filter fun r => r.time = t

/-- The loop over the times.  dataSE.py:296-301. -/
noncomputable def timeLoop (hasLoc : Bool) (rows : List EpRow) : List ℝ → List EpOut → List EpOut
  | [], out => out
  | t :: ts, out => timeLoop hasLoc rows ts (labelLast t (out ++ loadEP4 hasLoc (atTime rows t)))

/-- The summaries from which datasets are made.  dataSE.py:286-305. -/
noncomputable def ep4Outputs (tb : EpTable) : List EpOut :=
  open Classical in
  if tb.hasTime = true ∧ 1 < (times tb.rows).length then timeLoop tb.hasLoc tb.rows (times tb.rows) []
  else (loadEP4 tb.hasLoc tb.rows).map fun o => { o with time := some none }

/-- The datasets, as points with position and time.  Naming a dataset without an entry "time" is a
KeyError.  dataSE.py:307-323, 326-351. -/
noncomputable def openEP4 (tb : EpTable) : Except PyErr (List (List Pt × Option (ℝ × ℝ) × Option ℝ)) :=
  (ep4Outputs tb).mapM fun o =>
    match o.time with
    | some t => .ok (o.pts, o.pos, t)
    | none => .error .keyError

/-- `_make_EP4dname(name, metadata)`; `fmt` is the text of a number in an f-string.  The last 23 characters
of the file name (`_20200929-083122.ds.dat`) are cut off.  dataSE.py:326-351. -/
def makeEP4dname (fmt : ℝ → Line) (name : Line) (pos : Option (ℝ × ℝ)) (time : Option ℝ) : Line :=
  let base := name.take (name.length - 23)
  let base := match pos with
    | some (x, y) => base ++ ("_x=".toList ++ fmt x ++ "mm_y=".toList ++ fmt y ++ "mm".toList)
    | none => base
  match time with
  | some t => base ++ ("_t=".toList ++ fmt t ++ "s".toList)
  | none => base

/-- The names of the datasets `open_EP4file` returns.  dataSE.py:307-318. -/
noncomputable def ep4Names (fmt : ℝ → Line) (name : Line) (tb : EpTable) : Except PyErr (List Line) :=
  (openEP4 tb).map fun out => out.map fun o => makeEP4dname fmt name o.2.1 o.2.2

/-! ### Horiba -/

/-- `str.strip`. -/
def strip (l : Line) : Line :=
  ((l.dropWhile Char.isWhitespace).reverse.dropWhile Char.isWhitespace).reverse

/-- A metadata entry. -/
inductive Meta
  | none
  | line (l : Line)
  | lines (ls : List Line)

/-- `" ".join(line.split(" ")[1:])[:-1]`.  dataSE.py:507. -/
def blockTitle (l : Line) : Line := ([' '].intercalate (l.splitOn ' ').tail).dropLast

/-- State of the reading loop: the entries, the line numbers and the open block. -/
structure HState where
  metadata : List (Line × Meta) := []
  lineno : List (Line × ℕ) := []
  current : Option (Line × List Line) := none

/-- What an open block is stored as while it is read. -/
def closeBlock : List Line → Meta
  | [] => .none
  | [l] => .line l
  | ls => .lines ls

/-- One line of the file.  dataSE.py:503-526. -/
def hStep (st : HState) (i : ℕ) (raw : Line) : HState :=
  let l := strip raw
  match st.current with
  | none =>
    match l with
    | '#' :: _ =>
      { metadata := put st.metadata (blockTitle l) (.lines []),
        lineno := put st.lineno (blockTitle l) i, current := some (blockTitle l, []) }
    | _ => st
  | some (t, ls) =>
    if l.isEmpty then { st with metadata := put st.metadata t (closeBlock ls), current := none }
    else { st with metadata := put st.metadata t (.lines (ls ++ [l])), current := some (t, ls ++ [l]) }

/-- The loop over all lines, from line number `i`. -/
def hLoop : HState → ℕ → List Line → HState
  | st, _, [] => st
  | st, i, l :: ls => hLoop (hStep st i l) (i + 1) ls

/-- Metadata and line numbers of a file.  dataSE.py:495-526. -/
def horibaMeta (lines : List Line) : HState := hLoop {} 0 lines

/-- The table (wavelength, psi, delta) with the angle of incidence, between the cut-offs (`none`:
infinite).  dataSE.py:537-543. -/
noncomputable def horibaPoints (aoi : ℝ) (lo hi : Option ℝ) (table : List (ℝ × ℝ × ℝ)) : List Pt :=
  open Classical in
  ((table.map fun r => ((r.1, aoi, r.2.1, r.2.2) : Pt)).filter
    fun r => match lo with | some c => decide (r.1 > c) | none => true).filter
    fun r => match hi with | some c => decide (r.1 < c) | none => true

/-- `len(metadata["DATA"])`: of a list or of a string. -/
def Meta.len : Meta → Except PyErr ℕ
  | .none => .error .typeError
  | .line l => .ok l.length
  | .lines ls => .ok ls.length

/-- `float(metadata["INCIDENCE ANGLE"][:5])`.  dataSE.py:538. -/
def Meta.angle (c : Codec) : Meta → Except PyErr ℝ
  | .line l =>
    match c.pf (l.take 5) with
    | some x => .ok x
    | Option.none => .error .valueError
  | _ => .error .typeError

/-- `d[k]`. -/
noncomputable def item {κ α : Type} (d : List (κ × α)) (k : κ) : Except PyErr α :=
  match get d k with
  | some x => .ok x
  | none => .error .keyError

/-- `open_HORIBAfile`: the points.  `csv skiprows nrows` is what `pd.read_csv` makes of the file: the
columns nm, Psi, Delta.  dataSE.py:464-545. -/
noncomputable def openHoriba (c : Codec) (csv : List Line → ℕ → ℕ → Except PyErr (List (ℝ × ℝ × ℝ)))
    (lo hi : Option ℝ) (lines : List Line) : Except PyErr (List Pt) := do
  let st := horibaMeta lines
  let no ← item st.lineno "DATA".toList
  let dat ← item st.metadata "DATA".toList
  let n ← dat.len
  let table ← csv lines (no + 1) (n - 1)
  let ang ← item st.metadata "INCIDENCE ANGLE".toList
  let aoi ← ang.angle c
  return horibaPoints aoi lo hi table

/-! ### Woollam M-2000 -/

/-- Fields of a line. -/
def fields (l : Line) : List Line := l.splitOn '\t'

/-- `float(line[i])`. -/
def num (c : Codec) (fs : List Line) (i : ℕ) : Except PyErr ℝ :=
  match fs[i]? with
  | none => .error .indexError
  | some f =>
    match c.pf f with
    | none => .error .valueError
    | some x => .ok x

/-- The numbers at the given positions. -/
def nums (c : Codec) (fs : List Line) : List ℕ → Except PyErr (List ℝ)
  | [] => .ok []
  | i :: is => do return (← num c fs i) :: (← nums c fs is)

/-- Lines `readline` delivers when the file is finished. -/
def readLine : List Line → Line × List Line
  | [] => ([], [])
  | l :: ls => (l, ls)

/-- One record: three lines.  dataSE.py:639-659. -/
def m2000Record (c : Codec) (l1 l2 l3 : Line) : Except PyErr Pt := do
  let a ← nums c (fields l1) [0, 1, 2, 3, 4, 5]
  let _ ← nums c (fields l2) [2, 3, 4]
  let _ ← nums c (fields l3) [2, 3, 4]
  return (a.getD 0 0, a.getD 1 0, a.getD 2 0, a.getD 3 0)

/-- The reading loop.  dataSE.py:631-659. -/
def m2000Loop (c : Codec) : List Line → Except PyErr (List Pt)
  | [] => .ok []
  | l1 :: rest =>
    if (fields l1).length = 1 then .ok []
    else
      match rest with
      | [] => (m2000Record c l1 [] []).map fun p => [p]
      | [l2] => (m2000Record c l1 l2 []).map fun p => [p]
      | l2 :: l3 :: rest' => do return (← m2000Record c l1 l2 l3) :: (← m2000Loop c rest')

/-- `_open_M2000file_standard`: the points.  Selecting columns of an empty array is an IndexError.
dataSE.py:625-663. -/
def m2000Static (c : Codec) (skip m : ℕ) (lines : List Line) : Except PyErr (List Pt) := do
  let pts ← m2000Loop c (lines.drop skip)
  if pts.isEmpty then throw .indexError
  return everyNth m pts

/-- A row of a kinetic file: a point and the time in minutes. -/
abbrev KRow := Pt × ℝ

/-- `_open_M2000file_kinetic`: times in seconds with the points measured.  dataSE.py:666-703. -/
noncomputable def m2000Kinetic (take m : ℕ) (rows : List KRow) : List (ℝ × List Pt) :=
  open Classical in
  ((npUnique (rows.map Prod.snd)).zipIdx).foldl (fun d ti =>
    if ti.2 % take = 0 then
      put d (npRound 1 (ti.1 * 60))
        (everyNth m ((rows.filter fun r => r.2 = ti.1).map Prod.fst))
    else d) []

/-- How the format is recognised from the third line.  dataSE.py:592-601. -/
inductive M2000Mode
  | single
  | dynamic
  deriving DecidableEq

def m2000Mode (third : Line) : Except PyErr M2000Mode :=
  if third = "nm".toList then .ok .single
  else if third = "Dynamic".toList then .ok .dynamic
  else .error .valueError

/-- `str.split(", ")`. -/
def splitComma : Line → List Line
  | [] => [[]]
  | [ch] => [[ch]]
  | ch :: ch' :: r =>
    if ch = ',' ∧ ch' = ' ' then [] :: splitComma r
    else
      match splitComma (ch' :: r) with
      | f :: fs => (ch :: f) :: fs
      | [] => [[ch]]

/-- `key, val = ele.split("=")`. -/
def keyVal (e : Line) : Except PyErr (Line × Line) :=
  match e.splitOn '=' with
  | [k, x] => .ok (k, x)
  | _ => .error .valueError

/-- The metadata in the second line, later keys replacing earlier ones.  dataSE.py:603-606. -/
def m2000Header (second : Line) : Except PyErr (List (Line × Line)) :=
  ((splitComma (second.drop 11).dropLast).mapM keyVal).map List.reverse

/-- Result of `open_M2000file`: points of one measurement, or times with points. -/
inductive M2000Result
  | static (pts : List Pt)
  | kinetic (d : List (ℝ × List Pt))

/-- `open_M2000file`, with the metadata.  `csv` stands for `pd.read_csv` skipping 4 lines.
dataSE.py:548-622. -/
noncomputable def openM2000 (c : Codec) (csv : List Line → Except PyErr (List KRow)) (take m : ℕ)
    (lines : List Line) : Except PyErr (M2000Result × List (Line × Line)) := do
  let mode ← m2000Mode (lines.getD 2 [])
  let h ← m2000Header (lines.getD 1 [])
  match mode with
  | .single =>
    let pts ← m2000Static c 3 m lines
    return (.static pts, h)
  | .dynamic =>
    let rows ← csv lines
    return (.kinetic (m2000Kinetic take m rows), h)

/-! ### FilmSense -/

/-- `np.rad2deg`. -/
noncomputable def deg (x : ℝ) : ℝ := x * (180 / Real.pi)

/-- `np.arccos`, which is not a number outside [-1, 1]. -/
noncomputable def npArccos (x : ℝ) : Option ℝ := if -1 ≤ x ∧ x ≤ 1 then some (Real.arccos x) else none

/-- Delta before it is brought to [0, 360): `np.angle((C + 1j S) / (1 + N))`; `σ` is the sign of zero.
dataSE.py:813, 882. -/
noncomputable def fsAngle (σ : Bool) (N C S : ℝ) : Option ℝ :=
  (cdiv (⟨C, S⟩ : ℂ) ((1 + N : ℝ) : ℂ)).map fun z =>
    open Classical in
    if z.im = 0 ∧ z.re < 0 then (if σ then Real.pi else -Real.pi) else Complex.arg z

/-- Psi and delta from N, C, S.  dataSE.py:806-819, 876-887. -/
noncomputable def fsPsiDelta (σ : Bool) (N C S : ℝ) : Option ℝ × Option ℝ :=
  ((npArccos N).map fun a => deg (a / 2),
    (fsAngle σ N C S).map fun a => if deg a < 0 then 360 + deg a else deg a)

/-- A point whose psi or delta may not be finite. -/
abbrev FPt := ℝ × ℝ × Option ℝ × Option ℝ

/-- Integers in the header. -/
structure FCodec extends Codec where
  pi : Line → Option ℕ

/-- `int(line[i])`; negative integers are not modelled. -/
def inum (c : FCodec) (fs : List Line) (i : ℕ) : Except PyErr ℕ :=
  match fs[i]? with
  | none => .error .indexError
  | some f =>
    match c.pi f with
    | none => .error .valueError
    | some x => .ok x

/-- Number of wavelengths, of datasets, and the nominal angle; `extra` further numbers must follow.
dataSE.py:740-759. -/
def fsHeader (c : FCodec) (l : Line) (extra : List ℕ) : Except PyErr (ℕ × ℕ × ℝ) := do
  let fs := fields l
  let nw ← inum c fs 0
  let nd ← inum c fs 1
  let a ← num c.toCodec fs 2
  let _ ← nums c.toCodec fs extra
  return (nw, nd, a)

/-- The numbers at positions `is` of each of the next `n` lines, and the rest of the file. -/
def readRows (c : Codec) (is : List ℕ) : ℕ → List Line → Except PyErr (List (List ℝ) × List Line)
  | 0, ls => .ok ([], ls)
  | n + 1, ls => do
    let a ← nums c (fields (readLine ls).1) is
    let r ← readRows c is n (readLine ls).2
    return (a :: r.1, r.2)

/-- One point from a row of wavelengths and a row of N, C, S, ... -/
noncomputable def fsPoint (σ : ℝ → ℝ → ℝ → Bool) (aoi : ℝ) (w ncs : List ℝ) : FPt :=
  let N := ncs.getD 0 0
  let C := ncs.getD 1 0
  let S := ncs.getD 2 0
  (w.getD 0 0, aoi, fsPsiDelta (σ N C S) N C S)

/-- `_open_FilmSenseFile_standard` on the lines after the first.  dataSE.py:762-824. -/
noncomputable def fsStatic (c : FCodec) (σ : ℝ → ℝ → ℝ → Bool) (ls : List Line) :
    Except PyErr (List FPt) := do
  let (nw, _, a) ← fsHeader c (readLine ls).1 [3, 4, 5]
  let (ws, ls) ← readRows c.toCodec [0, 1, 2, 3] nw (readLine ls).2
  let (ds, _) ← readRows c.toCodec [0, 1, 2, 3, 4] nw ls
  return List.zipWith (fsPoint σ a) ws ds

/-- The five numbers of each wavelength in one line of a dynamic file. -/
def fsBlocks (c : Codec) (fs : List Line) : ℕ → ℕ → Except PyErr (List (List ℝ))
  | _, 0 => .ok []
  | j, n + 1 => do
    let a ← nums c fs [5 * j + 1, 5 * j + 2, 5 * j + 3, 5 * j + 4, 5 * j + 5]
    let r ← fsBlocks c fs (j + 1) n
    return a :: r

/-- One line of a dynamic file: the time and the numbers.  The last character before the line end is
dropped.  dataSE.py:863-874. -/
def fsDynLine (c : Codec) (nw : ℕ) (l : Line) : Except PyErr (ℝ × List (List ℝ)) := do
  let fs := fields l.dropLast
  let t ← num c fs 0
  let r ← fsBlocks c fs 0 nw
  return (t, r)

/-- The loop over the datasets. -/
noncomputable def fsDynLoop (c : Codec) (σ : ℝ → ℝ → ℝ → Bool) (a : ℝ) (ws : List (List ℝ)) (nw : ℕ) :
    ℕ → List Line → List (ℝ × List FPt) → Except PyErr (List (ℝ × List FPt))
  | 0, _, d => .ok d
  | n + 1, ls, d => do
    let r ← fsDynLine c nw (readLine ls).1
    fsDynLoop c σ a ws nw n (readLine ls).2 (put d r.1 (List.zipWith (fsPoint σ a) ws r.2))

/-- `_open_FilmSenseFile_dynamic` on the lines after the first.  dataSE.py:827-922. -/
noncomputable def fsDynamic (c : FCodec) (σ : ℝ → ℝ → ℝ → Bool) (ls : List Line) :
    Except PyErr (List (ℝ × List FPt)) := do
  let (nw, nd, a) ← fsHeader c (readLine ls).1 [3]
  let (ws, ls) ← readRows c.toCodec [0, 1, 2, 3] nw (readLine ls).2
  fsDynLoop c.toCodec σ a ws nw nd (readLine ls).2 []

/-- A static or a dynamic file. -/
inductive FSResult
  | static (pts : List FPt)
  | dynamic (d : List (ℝ × List FPt))

/-- `open_FilmSenseFile`.  dataSE.py:706-737. -/
noncomputable def openFilmSense (c : FCodec) (σ : ℝ → ℝ → ℝ → Bool) (ls : List Line) :
    Except PyErr FSResult :=
  if (readLine ls).1 = "Film_Sense_Data".toList then
    (fsStatic c σ (readLine ls).2).map .static
  else if (readLine ls).1 = "Film_Sense_Dyn_Data".toList then
    (fsDynamic c σ (readLine ls).2).map .dynamic
  else .error .assertionError

end Verif.Parse
