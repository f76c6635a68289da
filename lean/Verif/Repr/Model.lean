import Mathlib.Data.List.Basic
import Mathlib.Data.String.Defs

/-! # Printed forms of objects

Texts are lists of characters.  The printed forms of parameters, scatterers, interfaces, arrays and
functions, which come from refnx, numpy and python, are parameters of the model. -/

namespace Verif.Repr

/-- The characters of a literal. -/
def lit (s : String) : List Char := s.toList

/-- A hexadecimal digit. -/
def hexDigit (n : ℕ) : Char := "0123456789abcdef".toList.getD (n % 16) '0'

/-- `n` hexadecimal digits of a number. -/
def hex : ℕ → ℕ → List Char
  | 0, _ => []
  | k + 1, n => hex k (n / 16) ++ [hexDigit n]

/-- One character of the printed form of a `str` that is quoted with `q`; `printable` is
`str.isprintable` (CPython's `unicode_repr`). -/
def escChar (printable : Char → Bool) (q c : Char) : List Char :=
  if c = q ∨ c = '\\' then ['\\', c]
  else if c = '\t' then lit "\\t"
  else if c = '\n' then lit "\\n"
  else if c = '\r' then lit "\\r"
  else if c.toNat < 32 ∨ c.toNat = 127 then lit "\\x" ++ hex 2 c.toNat
  else if printable c then [c]
  else if c.toNat < 256 then lit "\\x" ++ hex 2 c.toNat
  else if c.toNat < 65536 then lit "\\u" ++ hex 4 c.toNat
  else lit "\\U" ++ hex 8 c.toNat

/-- `repr` of a `str`: in single quotes unless it contains these and no double quotes. -/
def strRepr (printable : Char → Bool) (s : List Char) : List Char :=
  let q := if '\'' ∈ s ∧ '"' ∉ s then '"' else '\''
  q :: s.flatMap (escChar printable q) ++ [q]

/-- `repr` of something that is a `str` or, as by default, `None`. -/
def nameRepr (printable : Char → Bool) : Option (List Char) → List Char
  | none => lit "None"
  | some s => strRepr printable s

/-- `SlabSE.__repr__`.  structureSE.py:254-259. -/
def slabRepr (thick ri rough name vfsolv interfaces : List Char) : List Char :=
  lit "SlabSE(" ++ thick ++ lit ", " ++ ri ++ lit ", " ++ rough ++ lit "," ++
    lit " name=" ++ name ++ lit ", vfsolv=" ++ vfsolv ++ lit "," ++
    lit " interface=" ++ interfaces ++ lit ")"

/-- `MixedSlabSE.__repr__`.  structureSE.py:353-358. -/
def mixedRepr (thick riA riB vfB rough name interfaces : List Char) : List Char :=
  lit "MixedSlabSE(" ++ thick ++ lit ", " ++ riA ++ lit ", " ++ riB ++ lit "," ++
    lit " " ++ vfB ++ lit ", " ++ rough ++ lit ", name=" ++ name ++ lit "," ++
    lit " interface=" ++ interfaces ++ lit ")"

/-- `", ".join(l)` -/
def joinComma : List (List Char) → List Char
  | [] => []
  | [a] => a
  | a :: l => a ++ lit ", " ++ joinComma l

/-- `StructureSE` has no `__repr__`, that of `UserList` prints the list of components.
structureSE.py:407 (`class StructureSE(UserList)`). -/
def structureRepr (comps : List (List Char)) : List Char := lit "[" ++ joinComma comps ++ lit "]"

/-- `ReflectModelSE.__repr__`.  reflect_modelSE.py:349-353. -/
def modelRepr (struct name offset : List Char) : List Char :=
  lit "ReflectModel(" ++ struct ++ lit ", name=" ++ name ++ lit "," ++
    lit " delta_offset = " ++ offset ++ lit " "

/-- `DataSE.__repr__`: the file name, if there is one, otherwise the data; the mask unless everything is
unmasked.  `filename` is `none` for `None`.  dataSE.py:116-125. -/
def dataRepr (filename : Option (List Char)) (data mask : List Char) (allTrue : Bool) : List Char :=
  let msk := if allTrue then lit "None" else mask
  match filename with
  | some f => lit "Data1D(data=" ++ f ++ lit "," ++ lit " mask=" ++ msk ++ lit ")"
  | none => lit "Data1D(data=" ++ data ++ lit "," ++ lit " mask=" ++ msk ++ lit ")"

/-- `ObjectiveSE.__repr__`.  objectiveSE.py:138-146. -/
def objectiveRepr (model data lnsigma useWeights transform logpExtra name : List Char) : List Char :=
  lit "Objective(" ++ model ++ lit ", " ++ data ++ lit "," ++
    lit " lnsigma=" ++ lnsigma ++ lit "," ++
    lit " use_weights=" ++ useWeights ++ lit "," ++
    lit " transform=" ++ transform ++ lit "," ++
    lit " logp_extra=" ++ logpExtra ++ lit "," ++
    lit " name=" ++ name ++ lit ")"

/-- The named parameters of the constructors.  structureSE.py:229, structureSE.py:320-329,
reflect_modelSE.py:307-312, dataSE.py:60-62 (any other keyword is kept as metadata), objectiveSE.py:89-98. -/
def ctorParams : List (String × List String) :=
  [("SlabSE", ["thick", "ri", "rough", "name", "vfsolv", "interface"]),
   ("MixedSlabSE", ["thick", "ri_A", "ri_B", "vf_B", "rough", "name", "interface"]),
   ("ReflectModelSE", ["structure", "delta_offset", "name"]),
   ("DataSE", ["data", "name", "delimiter", "reflect_delta"]),
   ("ObjectiveSE", ["model", "data", "lnsigma", "use_weights", "transform", "logp_extra", "name"])]

end Verif.Repr
