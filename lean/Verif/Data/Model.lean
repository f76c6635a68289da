import Mathlib.Data.Real.Basic
import Verif.Base
import Verif.RModel.Model

/-!
# Model of the class `DataSE` (/repo/refellips/dataSE.py, lines 16-255)

Arrays are mutable objects behind references (`Heap`), so that aliasing between datasets and the
arrays of the caller is visible.  A text file is a list of lines without line ends.  The conversions
between numbers and text (`float`, those of `np.loadtxt` and `np.savetxt`) are arguments.

Simplified: masks are values, not shared arrays; integer arrays are not distinguished from float
arrays; metadata are left out.
-/

namespace Verif.Data
open Verif.RModel (npUnique maskEq pick)

/-! ### Arrays -/

/-- A column: a 1-d array, or a scalar (`np.float64`) holding one value. -/
structure Col where
  scalar : Bool := false
  vals : List ℝ

/-- The arrays that exist. -/
structure Heap where
  arr : ℕ → Col
  next : ℕ

/-- Creation of an array. -/
def Heap.new (h : Heap) (c : Col) : ℕ × Heap :=
  (h.next, ⟨fun r => if r = h.next then c else h.arr r, h.next + 1⟩)

/-- In place modification. -/
def Heap.write (h : Heap) (r : ℕ) (l : List ℝ) : Heap :=
  { h with arr := fun r' => if r' = r then { h.arr r with vals := l } else h.arr r' }

/-! ### Text -/

/-- Lines are lists of characters. -/
abbrev Line := List Char

/-- Number formats: `float`, the conversion of `np.loadtxt`, and `"%.18e"`. -/
structure Codec where
  pf : Line → Option ℝ
  pl : Line → Option ℝ
  fmt : ℝ → Line

/-- `line.split(delimiter)[0]`. -/
def firstField (d : Char) (l : Line) : Line := l.takeWhile (· ≠ d)

/-- The loop that looks for the first line of data among the first `n` lines: the number of lines to
skip and the lines left in the stream.  At the end of the file `readline` returns `''`, which is not
a number.  dataSE.py:236-243. -/
def countSkip (c : Codec) (d : Char) : ℕ → List Line → ℕ × List Line
  | 0, ls => (0, ls)
  | n + 1, [] => (n + 1, [])
  | n + 1, l :: ls =>
    match c.pf (firstField d l) with
    | some _ => (0, ls)
    | none => ((countSkip c d n ls).1 + 1, (countSkip c d n ls).2)

/-- One row of numbers. -/
def parseRow (c : Codec) (d : Char) (l : Line) : Option (List ℝ) := (l.splitOn d).mapM c.pl

/-- Lines with the comment removed; empty ones are ignored. -/
def dataLines (ls : List Line) : List Line :=
  (ls.map fun l => l.takeWhile (· ≠ '#')).filter fun l => !l.isEmpty

/-- `np.loadtxt(f, skiprows=skip, delimiter=d)` before squeezing: a rectangular table. -/
def loadtxt (c : Codec) (d : Char) (skip : ℕ) (ls : List Line) : Except PyErr (List (List ℝ)) :=
  match (dataLines (ls.drop skip)).mapM (parseRow c d) with
  | none => .error .valueError
  | some rows => if ∀ r ∈ rows, ∀ r' ∈ rows, r.length = r'.length then .ok rows else .error .valueError

/-- The four columns of a table. -/
structure Cols where
  wav : Col
  aoi : Col
  psi : Col
  dlt : Col

/-- `w, a, p, d = table.T`, where `np.loadtxt` has squeezed a table with one row or column to 1-d.
dataSE.py:244-246. -/
def unpack : List (List ℝ) → Except PyErr Cols
  | [] => .error .valueError
  | [[w, a, p, d]] | [[w], [a], [p], [d]] =>
    .ok ⟨⟨true, [w]⟩, ⟨true, [a]⟩, ⟨true, [p]⟩, ⟨true, [d]⟩⟩
  | [[_]] => .error .typeError
  | rows =>
    if 1 < rows.length ∧ ∀ r ∈ rows, r.length = 4 then
      .ok ⟨⟨false, rows.map (·.getD 0 0)⟩, ⟨false, rows.map (·.getD 1 0)⟩,
        ⟨false, rows.map (·.getD 2 0)⟩, ⟨false, rows.map (·.getD 3 0)⟩⟩
    else .error .valueError

/-- Reading by name: the file is opened once to find the header and again by `np.loadtxt`.
dataSE.py:223-246. -/
def loadName (c : Codec) (d : Char) (ls : List Line) : Except PyErr Cols :=
  match loadtxt c d (countSkip c d 100 ls).1 ls with
  | .error e => .error e
  | .ok rows => unpack rows

/-- Reading from an open handle with the lines `ls` ahead of it: `np.loadtxt` continues where the
search for the header stopped.  dataSE.py:223-246. -/
def loadHandle (c : Codec) (d : Char) (ls : List Line) : Except PyErr Cols :=
  match loadtxt c d (countSkip c d 100 ls).1 (countSkip c d 100 ls).2 with
  | .error e => .error e
  | .ok rows => unpack rows

/-! ### The class -/

/-- A `DataSE`; `mask = none` is the Python `None`. -/
structure DS where
  wav : ℕ
  aoi : ℕ
  psi : ℕ
  dlt : ℕ
  mask : Option (List Bool)
  flipped : Bool
  delim : Char := '\t'
  name : Option String := none
  filename : Option String := none
  /-- the attribute `weighted`: the constructor sets it to False (dataSE.py:72), nothing else assigns it -/
  weighted : Bool := false

/-- The `data` argument of the constructor; a file is given by its content. -/
inductive Source
  | none
  | file (name : String) (lines : List Line)
  | handle (lines : List Line)
  | ds (o : DS)
  | arrays (w a p d : ℕ)

/-- Allocation of four columns. -/
def newCols (h : Heap) (t : Cols) : (ℕ × ℕ × ℕ × ℕ) × Heap :=
  let (w, h) := h.new t.wav
  let (a, h) := h.new t.aoi
  let (p, h) := h.new t.psi
  let (d, h) := h.new t.dlt
  ((w, a, p, d), h)

/-- `delta[delta > 180] = 360 - delta[delta > 180]`, on one value. -/
noncomputable def reflect1 (x : ℝ) : ℝ := if x > 180 then 360 - x else x

/-- `np.ones_like(self._wavelength, dtype=bool)`. -/
def onesLike (c : Col) : List Bool := c.vals.map fun _ => true

/-- Where the columns come from.  dataSE.py:66-95. -/
def gather (c : Codec) (h : Heap) (delim : Char) (name : Option String) :
    Source → Except PyErr (DS × Heap)
  | .none =>
    let (r, h) := newCols h ⟨⟨false, []⟩, ⟨false, []⟩, ⟨false, []⟩, ⟨false, []⟩⟩
    .ok ({ wav := r.1, aoi := r.2.1, psi := r.2.2.1, dlt := r.2.2.2, mask := .none, flipped := false,
           delim := delim, name := name }, h)
  | .file f ls => (loadName c delim ls).map fun t =>
    let (r, h) := newCols h t
    ({ wav := r.1, aoi := r.2.1, psi := r.2.2.1, dlt := r.2.2.2, mask := .none, flipped := false,
       delim := delim, name := name, filename := some f }, h)
  | .handle ls => (loadHandle c delim ls).map fun t =>
    let (r, h) := newCols h t
    ({ wav := r.1, aoi := r.2.1, psi := r.2.2.1, dlt := r.2.2.2, mask := .none, flipped := false,
       delim := delim, name := name }, h)
  | .ds o =>
    .ok ({ wav := o.wav, aoi := o.aoi, psi := o.psi, dlt := o.dlt, mask := .none, flipped := false,
           delim := delim, name := o.name, filename := o.filename }, h)
  | .arrays w a p d =>
    .ok ({ wav := w, aoi := a, psi := p, dlt := d, mask := .none, flipped := false,
           delim := delim, name := name }, h)

/-- `DataSE(data, reflect_delta=reflect)`.  A scalar does not support item assignment.
dataSE.py:60-107. -/
noncomputable def mk (c : Codec) (h : Heap) (src : Source) (reflect : Bool) (delim : Char := '\t')
    (name : Option String := none) : Except PyErr (DS × Heap) :=
  match gather c h delim name src with
  | .error e => .error e
  | .ok (o, h) =>
    if reflect then
      if (h.arr o.dlt).scalar then .error .typeError
      else
        .ok ({ o with flipped := true, mask := some (onesLike (h.arr o.wav)) },
          h.write o.dlt ((h.arr o.dlt).vals.map reflect1))
    else .ok ({ o with mask := some (onesLike (h.arr o.wav)) }, h)

/-- What an accessor returns: a 1-d array, or a 2-d array with one row. -/
inductive Sel
  | vec (l : List ℝ)
  | row (l : List ℝ)

/-- `self._x[self.mask] if self._x.size > 0 else self._x`; indexing with `None` adds an axis.
dataSE.py:142-173. -/
def access (col : Col) : Option (List Bool) → Except PyErr Sel
  | some m =>
    if col.vals.isEmpty then .ok (.vec col.vals)
    else if m.length = col.vals.length then .ok (.vec (pick m col.vals)) else .error .indexError
  | .none => if col.vals.isEmpty then .ok (.vec col.vals) else .ok (.row col.vals)

/-- The accessors.  dataSE.py:142-178. -/
def wavelength (h : Heap) (o : DS) := access (h.arr o.wav) o.mask
def aoi (h : Heap) (o : DS) := access (h.arr o.aoi) o.mask
def psi (h : Heap) (o : DS) := access (h.arr o.psi) o.mask
def delta (h : Heap) (o : DS) := access (h.arr o.dlt) o.mask

/-- `len(data)`: the number of elements, whatever the shape.  dataSE.py:109-111. -/
def len (h : Heap) (o : DS) : Except PyErr ℕ :=
  match wavelength h o with
  | .ok (.vec l) | .ok (.row l) => .ok l.length
  | .error e => .error e

/-- `self.data = (w, a, p, d)` where the four values are (array-likes with) these contents.
dataSE.py:180-201. -/
def setData (h : Heap) (o : DS) (w a p d : List ℝ) : DS × Heap :=
  let (r, h) := newCols h ⟨⟨false, w⟩, ⟨false, a⟩, ⟨false, p⟩, ⟨false, d⟩⟩
  ({ o with wav := r.1, aoi := r.2.1, psi := r.2.2.1, dlt := r.2.2.2, mask := some (onesLike ⟨false, w⟩) }, h)

/-- The header line written by `np.savetxt`. -/
def headerLine : Line := "# wavelength\tAOI\tPsi\tDelta".toList

/-- One line of the file. -/
def fmtRow (c : Codec) (r : List ℝ) : Line := ['\t'].intercalate (r.map c.fmt)

/-- The rows of `np.column_stack` (columns of different lengths are an error). -/
def stack4 : List ℝ → List ℝ → List ℝ → List ℝ → Except PyErr (List (List ℝ))
  | w :: ws, a :: as, p :: ps, d :: ds => (stack4 ws as ps ds).map ([w, a, p, d] :: ·)
  | [], [], [], [] => .ok []
  | _, _, _, _ => .error .valueError

/-- `self.save(f)`: the lines written.  The delimiter is always a tab.  dataSE.py:203-221. -/
def save (c : Codec) (h : Heap) (o : DS) : Except PyErr (List Line) :=
  (stack4 (h.arr o.wav).vals (h.arr o.aoi).vals (h.arr o.psi).vals (h.arr o.dlt).vals).map fun rows =>
    headerLine :: rows.map (fmtRow c)

/-- `self.load(f)` for a file name, on an existing dataset: only the columns are replaced.
dataSE.py:223-246. -/
def loadInto (c : Codec) (h : Heap) (o : DS) (ls : List Line) : Except PyErr (DS × Heap) :=
  (loadName c o.delim ls).map fun t =>
    let (r, h) := newCols h t
    ({ o with wav := r.1, aoi := r.2.1, psi := r.2.2.1, dlt := r.2.2.2 }, h)

/-- How refnx opens a file for `refresh`, which does not pass a mode. -/
inductive OpenMode
  | read
  | write

/-- `self.refresh()` for a dataset loaded from a named file with content `ls`: the dataset, the arrays
and the content of the file afterwards.  A file opened for writing is emptied, and cannot be read.
dataSE.py:248-255. -/
def refresh (c : Codec) (mode : OpenMode) (h : Heap) (o : DS) (ls : List Line) :
    Except PyErr (DS × Heap) × List Line :=
  match o.filename, mode with
  | .none, _ => (.ok (o, h), ls)
  | some _, .write => (.error .external, [])
  | some _, .read =>
    ((loadHandle c o.delim ls).map fun t =>
      let (r, h) := newCols h t
      ({ o with wav := r.1, aoi := r.2.1, psi := r.2.2.1, dlt := r.2.2.2 }, h), ls)

/-- The items of `unique_wavelength_data()`, given the four accessors.  dataSE.py:137-140. -/
noncomputable def uniqueData (w a p d : List ℝ) : List (ℝ × List ℝ × List ℝ × List ℝ) :=
  (npUnique w).map fun u =>
    (u, pick (maskEq w u) a, pick (maskEq w u) p, pick (maskEq w u) d)

/-- `list(self.unique_wavelength_data())` for 1-d accessors (2-d ones are not modelled).
dataSE.py:127-140. -/
noncomputable def uniqueWavelengthData (h : Heap) (o : DS) :
    Except PyErr (List (ℝ × List ℝ × List ℝ × List ℝ)) :=
  match wavelength h o, aoi h o, psi h o, delta h o with
  | .ok (.vec w), .ok (.vec a), .ok (.vec p), .ok (.vec d) => .ok (uniqueData w a p d)
  | .error e, _, _, _ => .error e
  | _, _, _, _ => .error .external

end Verif.Data
