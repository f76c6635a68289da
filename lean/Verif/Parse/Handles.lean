import Verif.Parse.Model

/-!
# Model of `open_M2000file` for an open file (/repo/refellips/dataSE.py, lines 548-703)

`possibly_open_file` leaves an open file as it is, so that the two passes over the file share one position: the
first pass takes three lines, and the second one skips its header lines from there on.
-/

namespace Verif.Parse
open Verif.Data (Line Codec)

/-- `pd.read_csv(f, skiprows=4, ...)` on the text ahead of the position; `table` is what becomes of the lines
after these. -/
def csvSkip4 (table : List Line → Except PyErr (List KRow)) (ahead : List Line) : Except PyErr (List KRow) :=
  table (ahead.drop 4)

/-- `open_M2000file(f)` for a file opened at its beginning.  dataSE.py:585-622 (first pass), 625-663 and 666-703
(second pass). -/
noncomputable def openM2000Handle (c : Codec) (csv : List Line → Except PyErr (List KRow)) (take m : ℕ)
    (lines : List Line) : Except PyErr (M2000Result × List (Line × Line)) := do
  let (_, ahead) := readLine lines
  let (first, ahead) := readLine ahead
  let (second, ahead) := readLine ahead
  let mode ← m2000Mode second
  let h ← m2000Header first
  match mode with
  | .single =>
    let pts ← m2000Static c 3 m ahead
    return (.static pts, h)
  | .dynamic =>
    let rows ← csv ahead
    return (.kinetic (m2000Kinetic take m rows), h)

end Verif.Parse
