import Verif.Struct.Spec

/-! # Structures as lists

`StructureSE` derives from refnx's `Structure`, which derives from `collections.UserList`; of the methods that
change the list only `append` is overridden (structureSE.py:401, 510-527).  The others are python's. -/

namespace Verif.Struct

/-! ### Python's lists -/

/-- The position that an index denotes in a list of length `n`; `none` is an IndexError. -/
def pyIndex (n : ℕ) (i : ℤ) : Option ℕ :=
  let k := if i < 0 then i + n else i
  if 0 ≤ k ∧ k < n then some k.toNat else none

/-- The position that a bound of a slice, or the first argument of `insert`, denotes. -/
def pyBound (n : ℕ) (i : ℤ) : ℕ :=
  let k := if i < 0 then i + n else i
  (max 0 (min k n)).toNat

/-- What can be done to a structure with the methods of a list, in place. -/
inductive Edit
  | setItem (i : ℤ) (x : PyObj)
  | delItem (i : ℤ)
  | pop (i : ℤ)
  | insert (i : ℤ) (x : PyObj)
  | extend (xs : List PyObj)
  | iadd (xs : List PyObj)
  | imul (n : ℤ)
  | reverse
  | clear

/-- The effect on the list.  python's `collections.UserList`, called through structureSE.py:401. -/
def Edit.onList (l : List PyObj) : Edit → Except PyErr (List PyObj)
  | .setItem i x => match pyIndex l.length i with
    | some k => .ok (l.set k x)
    | none => .error .indexError
  | .delItem i => match pyIndex l.length i with
    | some k => .ok (l.eraseIdx k)
    | none => .error .indexError
  | .pop i => match pyIndex l.length i with
    | some k => .ok (l.eraseIdx k)
    | none => .error .indexError
  | .insert i x => .ok (l.insertIdx (pyBound l.length i) x)
  | .extend xs => .ok (l ++ xs)
  | .iadd xs => .ok (l ++ xs)
  | .imul n => .ok (List.replicate n.toNat l).flatten
  | .reverse => .ok l.reverse
  | .clear => .ok []

/-- `structure[i] = x`, `del structure[i]`, `structure.pop(i)`, ...: they change `structure.data`.
structureSE.py:401. -/
def Edit.run (s : Structure) (e : Edit) : Except PyErr Structure :=
  match e.onList s.data with
  | .ok l => .ok { s with data := l }
  | .error x => .error x

/-- A sequence of edits; it stops at the first error, which leaves the structure as it is. -/
def Edit.runs (s : Structure) : List Edit → Structure
  | [] => s
  | e :: es => match e.run s with
    | .ok s' => Edit.runs s' es
    | .error _ => Edit.runs s es

/-- `structure[a:b]`: `self.__class__(self.data[a:b])`, a call of the constructor with components only.
structureSE.py:401, 441-471. -/
noncomputable def sliceOf (s : Structure) (a b : ℤ) : Structure :=
  let i := pyBound s.data.length a
  mkStructure ((s.data.drop i).take (pyBound s.data.length b - i)) {} ""

/-- `structure + xs`, for a structure or list `xs`: `self.__class__(self.data + xs)`. -/
noncomputable def addTo (s : Structure) (xs : List PyObj) : Structure := mkStructure (s.data ++ xs) {} ""

/-- `structure * n`: `self.__class__(self.data * n)`. -/
noncomputable def timesOf (s : Structure) (n : ℤ) : Structure := mkStructure (List.replicate n.toNat s.data).flatten {} ""

/-- `structure.copy()`: `self.__class__(self)`. -/
noncomputable def copyMethod (s : Structure) : Structure := mkStructure s.data {} ""

/-! ### Specification -/

/-- Spec: `k` is the position that index `i` denotes: counted from the start, or from the end if negative. -/
def Position (n : ℕ) (i : ℤ) (k : ℕ) : Prop := k < n ∧ ((0 ≤ i ∧ i = k) ∨ (i < 0 ∧ i + n = k))

/-- Spec: `k` is where the bound `i` of a slice cuts a list of length `n`: counted from the start, or from the end if
negative; bounds beyond an end are that end. -/
def CutAt (n : ℕ) (i : ℤ) (k : ℕ) : Prop :=
  (0 ≤ i ∧ i ≤ n ∧ k = i) ∨ (n < i ∧ k = n) ∨ (i < 0 ∧ 0 ≤ i + n ∧ (k : ℤ) = i + n) ∨ (i + n < 0 ∧ k = 0)

/-- Spec: the effect of an edit on the components of a structure. -/
inductive Edited : Edit → List Comp → List Comp → Prop
  | set {i : ℤ} {c d : Comp} {a b : List Comp} : Position (a.length + 1 + b.length) i a.length →
      Edited (.setItem i (.comp c)) (a ++ d :: b) (a ++ c :: b)
  | del {i : ℤ} {d : Comp} {a b : List Comp} : Position (a.length + 1 + b.length) i a.length →
      Edited (.delItem i) (a ++ d :: b) (a ++ b)
  | pop {i : ℤ} {d : Comp} {a b : List Comp} : Position (a.length + 1 + b.length) i a.length →
      Edited (.pop i) (a ++ d :: b) (a ++ b)
  /-- before the component at that position -/
  | insert {i : ℤ} {c d : Comp} {a b : List Comp} : Position (a.length + 1 + b.length) i a.length →
      Edited (.insert i (.comp c)) (a ++ d :: b) (a ++ c :: d :: b)
  /-- beyond the end -/
  | insertEnd {i : ℤ} {c : Comp} {a : List Comp} : (a.length : ℤ) ≤ i → Edited (.insert i (.comp c)) a (a ++ [c])
  /-- beyond the start -/
  | insertStart {i : ℤ} {c : Comp} {a : List Comp} : i + a.length < 0 → Edited (.insert i (.comp c)) a (c :: a)
  | extend {a b : List Comp} : Edited (.extend (b.map .comp)) a (a ++ b)
  | iadd {a b : List Comp} : Edited (.iadd (b.map .comp)) a (a ++ b)
  | times {a b : List Comp} {n : ℕ} : b.length = n * a.length → (∀ i < b.length, b[i]? = a[i % a.length]?) →
      Edited (.imul n) a b
  | noTimes {a : List Comp} {n : ℤ} : n ≤ 0 → Edited (.imul n) a []
  | reverse {a b : List Comp} : b.length = a.length → (∀ i < a.length, b[i]? = a[a.length - 1 - i]?) →
      Edited .reverse a b
  | clear {a : List Comp} : Edited .clear a []

/-- Spec: the edit names a position that does not exist. -/
def OutOfRange (n : ℕ) : Edit → Prop
  | .setItem i _ | .delItem i | .pop i => ∀ k, ¬ Position n i k
  | _ => False

/-- Spec: what is put in are components. -/
def Edit.Comps : Edit → Prop
  | .setItem _ x | .insert _ x => ∃ c, x = .comp c
  | .extend xs | .iadd xs => ∀ x ∈ xs, ∃ c, x = .comp c
  | _ => True

/-- Spec: a history of edits of a list of components; edits out of range do not change it. -/
inductive History : List Edit → List Comp → List Comp → Prop
  | nil {a : List Comp} : History [] a a
  | step {e : Edit} {es : List Edit} {a b c : List Comp} : Edited e a b → History es b c → History (e :: es) a c
  | skip {e : Edit} {es : List Edit} {a c : List Comp} : OutOfRange a.length e → History es a c → History (e :: es) a c

end Verif.Struct
