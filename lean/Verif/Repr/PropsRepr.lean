import Verif.Repr.Model

/-! # Printed forms are complete (C147) -/

namespace Verif.Repr

/-! ### Specification: a reader of brackets and quotes -/

/-- Spec: where a reader of python text is: outside of strings, with the closing brackets it waits for,
inside a string, or behind a backslash in a string. -/
inductive Mode
  | code (wait : List Char)
  | str (wait : List Char) (q : Char)
  | esc (wait : List Char) (q : Char)
  deriving DecidableEq

/-- Spec: reading one character; `none` if it cannot stand there. -/
def step : Mode → Char → Option Mode
  | .code w, c =>
    if c = '(' then some (.code (')' :: w))
    else if c = '[' then some (.code (']' :: w))
    else if c = '{' then some (.code ('}' :: w))
    else if c = ')' ∨ c = ']' ∨ c = '}' then
      match w with
      | [] => none
      | d :: w => if c = d then some (.code w) else none
    else if c = '\'' ∨ c = '"' then some (.str w c)
    else some (.code w)
  | .str w q, c =>
    if c = q then some (.code w) else if c = '\\' then some (.esc w q)
    else if c = '\n' then none else some (.str w q)
  | .esc w q, _ => some (.str w q)

/-- Spec: reading a text. -/
def scan : Mode → List Char → Option Mode
  | m, [] => some m
  | m, c :: l => (step m c).bind fun m => scan m l

/-- Spec: a text in which all brackets and strings are closed. -/
def Complete (s : List Char) : Prop := scan (.code []) s = some (.code [])

/-- Spec: a text is a complete call of `name`. -/
def IsCall (name : String) (s : List Char) : Prop :=
  ∃ args, s = name.toList ++ '(' :: args ++ [')'] ∧ Complete args

/-! ### Lemmas -/

/-- The same place, with more brackets open. -/
def Mode.under (t : List Char) : Mode → Mode
  | .code w => .code (w ++ t)
  | .str w q => .str (w ++ t) q
  | .esc w q => .esc (w ++ t) q

theorem step_under {m m' : Mode} {c : Char} (t : List Char) (h : step m c = some m') :
    step (m.under t) c = some (m'.under t) := by
  cases m with
  | code w =>
    simp only [step, Mode.under] at h ⊢
    split_ifs at h ⊢ with h1 h2 h3 h4 h5
    · cases h; rfl
    · cases h; rfl
    · cases h; rfl
    · cases w with
      | nil => simp at h
      | cons d w =>
        simp only [List.cons_append] at h ⊢
        split_ifs at h ⊢
        cases h; rfl
    · cases h; rfl
    · cases h; rfl
  | str w q =>
    simp only [step, Mode.under] at h ⊢
    split_ifs at h ⊢ <;> cases h <;> rfl
  | esc w q => simp only [step, Mode.under] at h ⊢; cases h; rfl

theorem scan_under {m m' : Mode} {s : List Char} (t : List Char) (h : scan m s = some m') :
    scan (m.under t) s = some (m'.under t) := by
  induction s generalizing m with
  | nil => simp only [scan, Option.some.injEq] at h ⊢; rw [h]
  | cons c l ih =>
    simp only [scan, Option.bind_eq_some_iff] at h ⊢
    obtain ⟨k, h1, h2⟩ := h
    exact ⟨_, step_under t h1, ih h2⟩

theorem Complete.anywhere {s : List Char} (h : Complete s) (w : List Char) :
    scan (.code w) s = some (.code w) := by
  simpa [Mode.under] using scan_under w h

theorem scan_append (m : Mode) (a b : List Char) :
    scan m (a ++ b) = (scan m a).bind fun m => scan m b := by
  induction a generalizing m with
  | nil => rfl
  | cons c a ih =>
    simp only [List.cons_append, scan]
    cases step m c with
    | none => rfl
    | some k => simp [ih]

theorem Complete.append {a b : List Char} (ha : Complete a) (hb : Complete b) : Complete (a ++ b) := by
  unfold Complete at *
  rw [scan_append, ha]
  exact hb

theorem complete_lit {s : String} (h : scan (.code []) (lit s) = some (.code [])) : Complete (lit s) := h

/-- Texts composed of complete parts. -/
macro "complete_parts" : tactic =>
  `(tactic| (repeat' with_reducible apply Complete.append) <;>
    first | with_reducible assumption | exact complete_lit (by decide +kernel))

theorem isCall_complete {name : String} (hn : Complete name.toList) {s : List Char} (h : IsCall name s) :
    Complete s := by
  obtain ⟨args, rfl, h⟩ := h
  unfold Complete
  rw [scan_append, scan_append, hn]
  simp only [Option.bind_some, scan, step, if_true]
  rw [h.anywhere]
  rfl

theorem hexDigit_ne (n : ℕ) : hexDigit n ≠ '\\' ∧ hexDigit n ≠ '\n' ∧ hexDigit n ≠ '\'' ∧ hexDigit n ≠ '"' := by
  unfold hexDigit
  have h : ∀ k < 16, let d := "0123456789abcdef".toList.getD k '0'
      d ≠ '\\' ∧ d ≠ '\n' ∧ d ≠ '\'' ∧ d ≠ '"' := by decide +kernel
  exact h _ (Nat.mod_lt _ (by decide))

theorem scan_hex (q : Char) (hq : q = '\'' ∨ q = '"') (w : List Char) (k n : ℕ) :
    scan (.str w q) (hex k n) = some (.str w q) := by
  induction k generalizing n with
  | zero => rfl
  | succ k ih =>
    rw [hex, scan_append, ih]
    have h := hexDigit_ne n
    have h1 : hexDigit n ≠ q := by rcases hq with rfl | rfl <;> simp [h]
    simp [scan, step, h1, h.1, h.2.1]

/-- An escaped character leaves the reader in the string. -/
theorem scan_escChar (p : Char → Bool) {q : Char} (hq : q = '\'' ∨ q = '"') (w : List Char) (c : Char) :
    scan (.str w q) (escChar p q c) = some (.str w q) := by
  have hb : '\\' ≠ q := by rcases hq with rfl | rfl <;> decide
  have hx : ∀ (d : Char) (k n : ℕ), scan (.str w q) (['\\', d] ++ hex k n) = some (.str w q) := by
    intro d k n
    rw [scan_append]
    simp [scan, step, hb, scan_hex q hq]
  unfold escChar
  by_cases h1 : c = q ∨ c = '\\'
  · rw [if_pos h1]
    simp [scan, step, hb]
  rw [if_neg h1]
  push Not at h1
  by_cases h2 : c = '\t'
  · rw [if_pos h2]; simp [lit, scan, step, hb]
  rw [if_neg h2]
  by_cases h3 : c = '\n'
  · rw [if_pos h3]; simp [lit, scan, step, hb]
  rw [if_neg h3]
  by_cases h4 : c = '\r'
  · rw [if_pos h4]; simp [lit, scan, step, hb]
  rw [if_neg h4]
  split_ifs
  · exact hx 'x' 2 _
  · simp [scan, step, h1.1, h1.2, h3]
  · exact hx 'x' 2 _
  · exact hx 'u' 4 _
  · exact hx 'U' 8 _

theorem scan_flatMap (p : Char → Bool) {q : Char} (hq : q = '\'' ∨ q = '"') (w s : List Char) :
    scan (.str w q) (s.flatMap (escChar p q)) = some (.str w q) := by
  induction s with
  | nil => rfl
  | cons c s ih => rw [List.flatMap_cons, scan_append, scan_escChar p hq]; exact ih

/-- The printed form of every `str` is complete. -/
theorem strRepr_complete (p : Char → Bool) (s : List Char) : Complete (strRepr p s) := by
  unfold Complete strRepr
  obtain ⟨q, hqd⟩ : ∃ q, q = (if '\'' ∈ s ∧ '"' ∉ s then '"' else '\'') := ⟨_, rfl⟩
  rw [← hqd]
  have hq : q = '\'' ∨ q = '"' := by rw [hqd]; split_ifs <;> simp
  simp only
  have h0 : step (.code []) q = some (.str [] q) := by rcases hq with rfl | rfl <;> rfl
  rw [List.cons_append, scan, h0]
  simp only [Option.bind_some]
  rw [scan_append, scan_flatMap p hq]
  simp [scan, step]

theorem nameRepr_complete (p : Char → Bool) (s : Option (List Char)) : Complete (nameRepr p s) := by
  cases s with
  | none => rfl
  | some s => exact strRepr_complete p s

theorem joinComma_complete {l : List (List Char)} (h : ∀ a ∈ l, Complete a) : Complete (joinComma l) := by
  induction l with
  | nil => rfl
  | cons a l ih =>
    cases l with
    | nil => exact h a (by simp)
    | cons b l =>
      exact ((h a (by simp)).append (complete_lit (by decide +kernel))).append
        (ih fun x hx => h x (List.mem_cons_of_mem _ hx))

attribute [local irreducible] lit Complete

/-! ### C147 -/

/-- C147 for slabs: whatever characters the name consists of, the printed form is a complete call of
`SlabSE`, provided the printed forms of its parts are complete. -/
theorem C147_slab (p : Char → Bool) {thick ri rough vfsolv interfaces : List Char} (name : List Char)
    (h1 : Complete thick) (h2 : Complete ri) (h3 : Complete rough) (h4 : Complete vfsolv)
    (h5 : Complete interfaces) :
    IsCall "SlabSE" (slabRepr thick ri rough (strRepr p name) vfsolv interfaces) := by
  refine ⟨thick ++ lit ", " ++ ri ++ lit ", " ++ rough ++ lit "," ++
    lit " name=" ++ strRepr p name ++ lit ", vfsolv=" ++ vfsolv ++ lit "," ++
    lit " interface=" ++ interfaces, ?_, ?_⟩
  · have e1 : lit "SlabSE(" = "SlabSE".toList ++ ['('] := by decide +kernel
    have e2 : lit ")" = [')'] := by decide +kernel
    unfold slabRepr
    rw [e1, e2]
    simp only [List.append_assoc, List.cons_append, List.nil_append]
  · have hn := strRepr_complete p name
    complete_parts

/-- C147 for slabs of mixtures. -/
theorem C147_mixed (p : Char → Bool) {thick riA riB vfB rough interfaces : List Char} (name : List Char)
    (h1 : Complete thick) (h2 : Complete riA) (h3 : Complete riB) (h4 : Complete vfB)
    (h5 : Complete rough) (h6 : Complete interfaces) :
    IsCall "MixedSlabSE" (mixedRepr thick riA riB vfB rough (strRepr p name) interfaces) := by
  refine ⟨thick ++ lit ", " ++ riA ++ lit ", " ++ riB ++ lit "," ++
    lit " " ++ vfB ++ lit ", " ++ rough ++ lit ", name=" ++ strRepr p name ++ lit "," ++
    lit " interface=" ++ interfaces, ?_, ?_⟩
  · have e1 : lit "MixedSlabSE(" = "MixedSlabSE".toList ++ ['('] := by decide +kernel
    have e2 : lit ")" = [')'] := by decide +kernel
    unfold mixedRepr
    rw [e1, e2]
    simp only [List.append_assoc, List.cons_append, List.nil_append]
  · have hn := strRepr_complete p name
    complete_parts

/-- C147 for structures and datasets: the brackets are closed.  Missing: the class is not the one that is
printed (`C147_fails_class`). -/
theorem C147_complete_partial {comps : List (List Char)} (h : ∀ c ∈ comps, Complete c)
    {filename : Option (List Char)} (hf : ∀ f, filename = some f → Complete f) {data mask : List Char}
    (hd : Complete data) (hm : Complete mask) (b : Bool) :
    Complete (structureRepr comps) ∧ IsCall "Data1D" (dataRepr filename data mask b) := by
  constructor
  · unfold Complete structureRepr
    have e1 : scan (.code []) (lit "[") = some (.code [']']) := by decide +kernel
    have e2 : scan (.code [']']) (lit "]") = some (.code []) := by decide +kernel
    rw [scan_append, scan_append, e1]
    simp only [Option.bind_some]
    rw [(joinComma_complete h).anywhere]
    exact e2
  · obtain ⟨msk, hmd⟩ : ∃ msk, msk = if b then lit "None" else mask := ⟨_, rfl⟩
    have hmsk : Complete msk := by
      rw [hmd]
      cases b
      · exact hm
      · exact complete_lit (by decide +kernel)
    have e1 : lit "Data1D(data=" = "Data1D".toList ++ ['('] ++ lit "data=" := by decide +kernel
    have e2 : lit ")" = [')'] := by decide +kernel
    simp only [dataRepr, ← hmd]
    cases filename with
    | none =>
      refine ⟨lit "data=" ++ data ++ lit "," ++ lit " mask=" ++ msk, ?_, by complete_parts⟩
      simp only [e1, e2, List.append_assoc, List.cons_append, List.nil_append]
    | some f =>
      have hff := hf f rfl
      refine ⟨lit "data=" ++ f ++ lit "," ++ lit " mask=" ++ msk, ?_, by complete_parts⟩
      simp only [e1, e2, List.append_assoc, List.cons_append, List.nil_append]

/-- C147 fails for models: if the parts are complete, the printed form lacks the closing bracket, for every
structure, name and offset. -/
theorem C147_fails_model (p : Char → Bool) {struct offset : List Char} (name : Option (List Char))
    (h1 : Complete struct) (h2 : Complete offset) :
    scan (.code []) (modelRepr struct (nameRepr p name) offset) = some (.code [')']) ∧
    ¬ Complete (modelRepr struct (nameRepr p name) offset) := by
  have e : scan (.code []) (modelRepr struct (nameRepr p name) offset) = some (.code [')']) := by
    have h3 := nameRepr_complete p name
    have key : Complete (struct ++ lit ", name=" ++ nameRepr p name ++ lit "," ++
        lit " delta_offset = " ++ offset ++ lit " ") :=
      by complete_parts
    have e : modelRepr struct (nameRepr p name) offset = lit "ReflectModel(" ++
        (struct ++ lit ", name=" ++ nameRepr p name ++ lit "," ++
        lit " delta_offset = " ++ offset ++ lit " ") := by
      simp only [modelRepr, List.append_assoc]
    have e1 : scan (.code []) (lit "ReflectModel(") = some (.code [')']) := by decide +kernel
    rw [e, scan_append, e1]
    exact key.anywhere _
  refine ⟨e, fun h => ?_⟩
  rw [Complete, e] at h
  simp at h

theorem objective_assoc (a b c d e f g h i j k l m n o p q r s t : List Char) :
    a ++ b ++ c ++ d ++ e ++ f ++ g ++ h ++ i ++ j ++ k ++ l ++ m ++ n ++ o ++ p ++ q ++ r ++ s ++ t =
      a ++ (b ++ ((c ++ d ++ e ++ f ++ g ++ h ++ i ++ j ++ k ++ l ++ m ++ n ++ o ++ p ++ q ++ r ++ s) ++
        t)) := by
  simp only [List.append_assoc]

/-- C147 fails for objectives, whose printed form contains that of the model: it lacks a bracket too. -/
theorem C147_fails_objective (p : Char → Bool) {struct offset data lnsigma useWeights transform
    logpExtra name : List Char} (mname : Option (List Char)) (h1 : Complete struct)
    (h2 : Complete offset) (h3 : Complete data) (h4 : Complete lnsigma) (h5 : Complete useWeights)
    (h6 : Complete transform) (h7 : Complete logpExtra) (h8 : Complete name) :
    ¬ Complete (objectiveRepr (modelRepr struct (nameRepr p mname) offset) data lnsigma useWeights
      transform logpExtra name) := by
  have key : Complete (lit ", " ++ data ++ lit "," ++ lit " lnsigma=" ++ lnsigma ++ lit "," ++
      lit " use_weights=" ++ useWeights ++ lit "," ++ lit " transform=" ++ transform ++ lit "," ++
      lit " logp_extra=" ++ logpExtra ++ lit "," ++ lit " name=" ++ name) :=
    by complete_parts
  have e : objectiveRepr (modelRepr struct (nameRepr p mname) offset) data lnsigma useWeights
      transform logpExtra name = lit "Objective(" ++ (modelRepr struct (nameRepr p mname) offset ++
      ((lit ", " ++ data ++ lit "," ++ lit " lnsigma=" ++ lnsigma ++ lit "," ++
      lit " use_weights=" ++ useWeights ++ lit "," ++ lit " transform=" ++ transform ++ lit "," ++
      lit " logp_extra=" ++ logpExtra ++ lit "," ++ lit " name=" ++ name) ++ lit ")")) := by
    unfold objectiveRepr
    exact objective_assoc _ _ _ _ _ _ _ _ _ _ _ _ _ _ _ _ _ _ _ _
  have e1 : scan (.code []) (lit "Objective(") = some (.code [')']) := by decide +kernel
  have e2 : scan (.code [')', ')']) (lit ")") = some (.code [')']) := by decide +kernel
  intro h
  rw [e, Complete, scan_append, e1] at h
  simp only [Option.bind_some] at h
  have hm := scan_under [')'] (C147_fails_model p mname h1 h2).1
  simp only [Mode.under, List.nil_append, List.cons_append] at hm
  rw [scan_append, hm] at h
  simp only [Option.bind_some] at h
  rw [scan_append, key.anywhere] at h
  simp only [Option.bind_some] at h
  rw [e2] at h
  simp at h

/-- C147 fails for the names: the printed forms of structures, models, datasets and objectives do not call
their classes, and `mask`, which is printed for datasets, is not a parameter of their constructor. -/
theorem C147_fails_class (comps : List (List Char)) (s n d f data mask m l w t x : List Char)
    (fn : Option (List Char)) (b : Bool) :
    (∀ r, structureRepr comps ≠ lit "StructureSE(" ++ r) ∧
    (∀ r, modelRepr s n d ≠ lit "ReflectModelSE(" ++ r) ∧
    (∀ r, dataRepr fn data mask b ≠ lit "DataSE(" ++ r) ∧
    (∀ r, objectiveRepr m f l w t x n ≠ lit "ObjectiveSE(" ++ r) ∧
    "mask" ∉ (ctorParams.lookup "DataSE").getD [] := by
  have key : ∀ {a b x y : List Char}, ¬ a <+: b → ¬ b <+: a → a ++ x ≠ b ++ y := by
    intro a b x y h1 h2 h
    rcases List.prefix_or_prefix_of_prefix ⟨x, rfl⟩ (h ▸ ⟨y, rfl⟩ : b <+: a ++ x) with h3 | h3
    · exact h1 h3
    · exact h2 h3
  refine ⟨?_, ?_, ?_, ?_, by decide +kernel⟩
  · intro r
    simp only [structureRepr, List.append_assoc]
    (with_reducible apply key) <;> decide +kernel
  · intro r
    simp only [modelRepr, List.append_assoc]
    (with_reducible apply key) <;> decide +kernel
  · intro r
    cases fn <;> simp only [dataRepr, List.append_assoc] <;> (with_reducible apply key) <;> decide +kernel
  · intro r
    unfold objectiveRepr
    rw [objective_assoc]
    (with_reducible apply key) <;> decide +kernel

/-- Non-vacuity of C147: a slab whose name contains both quotes, a bracket and a line break. -/
example : slabRepr (lit "10.0") (lit "RI([1.5, 0])") (lit "0") (strRepr (fun _ => true) (lit "a'(\"\n"))
      (lit "0") (lit "None") =
      lit "SlabSE(10.0, RI([1.5, 0]), 0, name='a\\'(\"\\n', vfsolv=0, interface=None)" ∧
    Complete (lit "RI([1.5, 0])") ∧ Complete (lit "10.0") ∧ ¬ Complete (lit "'a'('") := by
  refine ⟨by decide +kernel, complete_lit (by decide +kernel), complete_lit (by decide +kernel), ?_⟩
  unfold Complete
  have : scan (.code []) (lit "'a'('") = some (.str [')'] '\'') := by decide +kernel
  rw [this]
  simp

/-- Non-vacuity of C147: parts of models, datasets and objectives. -/
example : Complete (structureRepr [lit "SlabSE()", lit "SlabSE()"]) ∧
    modelRepr (lit "[]") (nameRepr (fun _ => true) none) (lit "0.0") =
      lit "ReflectModel([], name=None, delta_offset = 0.0 " ∧
    dataRepr (some (strRepr (fun _ => true) (lit "a.txt"))) [] [] true =
      lit "Data1D(data='a.txt', mask=None)" := by
  refine ⟨(C147_complete_partial (fun c hc => ?_) (filename := none) (by simp) (data := lit "")
    (mask := lit "") (complete_lit (by decide +kernel)) (complete_lit (by decide +kernel)) true).1,
    by decide +kernel, by decide +kernel⟩
  have : c = lit "SlabSE()" := by simpa using hc
  rw [this]
  exact complete_lit (by decide +kernel)

end Verif.Repr
