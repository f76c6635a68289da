import Verif.Struct.BuildLemmas

/-! # Properties of building structures (C33 - C38) -/

namespace Verif.Struct
open Verif.Disp

/-! ### C33 depolarisation factor -/

/-- A sequence of attempted assignments `structure.depolarisation_factor = x`; a rejected one leaves
the structure as it was. -/
noncomputable def assignDps (s : Structure) : List ℝ → Structure
  | [] => s
  | x :: xs => assignDps (match setDp s x with | .ok s' => s' | .error _ => s) xs

/-- C33: an assignment is rejected with ValueError exactly for values outside [0, 1]; an accepted one
is stored and changes nothing else. -/
theorem C33_setter (s : Structure) (x : ℝ) :
    (0 ≤ x ∧ x ≤ 1 → setDp s x = .ok { s with dp := x }) ∧
    (x < 0 ∨ 1 < x → setDp s x = .error .valueError) := by
  unfold setDp
  constructor
  · intro h; rw [if_pos h]
  · intro h; rw [if_neg (by rcases h with h | h <;> intro h' <;> linarith [h'.1, h'.2])]

/-- C33, partial: if the constructor got a value in [0, 1] then every later value is in [0, 1].
Missing: the constructor does not check its argument, see `C33_fails_constructor`. -/
theorem C33_invariant_partial (comps : List PyObj) (st : Settings) (name : String)
    (h : 0 ≤ st.dp ∧ st.dp ≤ 1) (xs : List ℝ) :
    0 ≤ (assignDps (mkStructure comps st name) xs).dp ∧
      (assignDps (mkStructure comps st name) xs).dp ≤ 1 := by
  have key : ∀ (xs : List ℝ) (s : Structure), 0 ≤ s.dp ∧ s.dp ≤ 1 →
      0 ≤ (assignDps s xs).dp ∧ (assignDps s xs).dp ≤ 1 := by
    intro xs
    induction xs with
    | nil => exact fun s h => h
    | cons x xs ih =>
      intro s hs
      unfold assignDps
      apply ih
      by_cases hx : 0 ≤ x ∧ x ≤ 1
      · rw [(C33_setter s x).1 hx]; exact hx
      · rw [(C33_setter s x).2 (by
          by_contra hc; push Not at hc; exact hx hc)]
        exact hs
  exact key xs _ h

/-- C33 fails: the constructor stores any value, also one that the setter would reject, and no number of rejected
assignments repairs it. -/
theorem C33_fails_constructor (comps : List PyObj) (st : Settings) (name : String) {x : ℝ} (hx : x < 0 ∨ 1 < x)
    (xs : List ℝ) (hxs : ∀ y ∈ xs, y < 0 ∨ 1 < y) :
    (assignDps (mkStructure comps { st with dp := x } name) xs).dp = x ∧
    setDp (mkStructure comps { st with dp := x } name) x = .error .valueError := by
  refine ⟨?_, (C33_setter _ x).2 hx⟩
  have key : ∀ (xs : List ℝ) (s : Structure), (∀ y ∈ xs, y < 0 ∨ 1 < y) → assignDps s xs = s := by
    intro xs
    induction xs with
    | nil => exact fun s _ => rfl
    | cons y xs ih =>
      intro s h
      unfold assignDps
      rw [(C33_setter s y).2 (h y (by simp))]
      exact ih s fun z hz => h z (by simp [hz])
  rw [key xs _ hxs]
  rfl

example : 1 < (assignDps (mkStructure [] { dp := 7 } "") [-1, 2]).dp := by
  rw [(C33_fails_constructor [] {} "" (x := 7) (by norm_num) [-1, 2] (by intro y hy; simp at hy; rcases hy with rfl | rfl <;> norm_num)).1]
  norm_num

/-! ### C34, C35 composition -/

theorem or_of {w w1 w2 : World} {a b : PyObj} {r : Except PyErr Unit}
    (h1 : (w.newStruct {}).1.ior w.nextS a = (w1, .ok ())) (h2 : w1.ior w.nextS b = (w2, r)) :
    w.or a b = (w2, r.map fun _ => w.nextS) := by
  have h1' : (w.newStruct {}).1.ior (w.newStruct {}).2 a = (w1, .ok ()) := h1
  have h2' : w1.ior (w.newStruct {}).2 b = (w2, r) := h2
  simp only [World.or, h1', h2']
  cases r <;> rfl

/-- C34: `a | b` is a new structure with the components of `a` followed by those of `b`; nothing
that existed before - in particular neither operand - is changed. -/
theorem C34_concat {w : World} (hw : w.Ok) {a b : PyObj} (ha : OperandOk w a) (hb : OperandOk w b)
    (hja : NotJunk a) (hjb : NotJunk b) :
    ∃ w' p, w.or a b = (w', .ok p) ∧ w.nextS ≤ p ∧ OperandOk w' (.struct p) ∧ w'.Ok ∧
      Preserved w w' ∧ content w' (.struct p) = content w a ++ content w b := by
  set w0 := (w.newStruct {}).1 with hw0
  have hp0 := newStruct_preserved w {}
  have hok0 : w0.Ok := newStruct_ok hw (by simp)
  have hlt0 : w.nextS < w0.nextS := by simp [hw0, World.newStruct]
  obtain ⟨w1, e1, ok1, p1, s1, v1, st1, -, -, c1, -⟩ :=
    ior_spec hok0 hlt0 (ha.mono hp0) hja
  have pres1 : Preserved w w1 := by
    refine ⟨hp0.1.trans p1, by rw [s1]; exact hp0.2.1, ?_, ?_⟩
    · intro q hq; rw [v1 q (hq.trans_le hp0.1), hp0.2.2.1 q hq]
    · intro i hi; rw [st1 i (by omega), hp0.2.2.2 i hi]
  obtain ⟨w2, e2, ok2, p2, s2, v2, st2, -, -, c2, -⟩ :=
    ior_spec ok1 (by rw [s1]; exact hlt0) (hb.mono pres1) hjb
  refine ⟨w2, w.nextS, ?_, le_rfl, ?_, ok2, ?_, ?_⟩
  · exact or_of e1 e2
  · show w.nextS < w2.nextS
    rw [s2, s1]; exact hlt0
  · refine ⟨pres1.1.trans p2, by rw [s2]; exact pres1.2.1, ?_, ?_⟩
    · intro q hq; rw [v2 q (hq.trans_le pres1.1), pres1.2.2.1 q hq]
    · intro i hi; rw [st2 i (by omega), pres1.2.2.2 i hi]
  · rw [c2, c1, content_preserved hp0 hw ha, content_preserved pres1 hw hb]
    simp [content, hw0, World.newStruct]

/-- C34: bracketing does not matter. -/
theorem C34_assoc {w : World} (hw : w.Ok) {a b c : PyObj} (ha : OperandOk w a) (hb : OperandOk w b)
    (hc : OperandOk w c) (hja : NotJunk a) (hjb : NotJunk b) (hjc : NotJunk c) :
    ∃ w1 p1 w2 p2 w3 p3 w4 p4,
      w.or a b = (w1, .ok p1) ∧ w1.or (.struct p1) c = (w2, .ok p2) ∧
      w.or b c = (w3, .ok p3) ∧ w3.or a (.struct p3) = (w4, .ok p4) ∧
      content w2 (.struct p2) = content w4 (.struct p4) := by
  obtain ⟨w1, p1, e1, -, o1, k1, r1, c1⟩ := C34_concat hw ha hb hja hjb
  obtain ⟨w2, p2, e2, -, -, -, -, c2⟩ := C34_concat k1 o1 (hc.mono r1) trivial hjc
  obtain ⟨w3, p3, e3, -, o3, k3, r3, c3⟩ := C34_concat hw hb hc hjb hjc
  obtain ⟨w4, p4, e4, -, -, -, -, c4⟩ := C34_concat k3 (ha.mono r3) o3 hja trivial
  refine ⟨w1, p1, w2, p2, w3, p3, w4, p4, e1, e2, e3, e4, ?_⟩
  rw [c2, c1, c4, c3, content_preserved r1 hw hc, content_preserved r3 hw ha, List.append_assoc]

/-- C34: a foreign object raises ValueError and changes nothing that existed. -/
theorem C34_foreign {w : World} (hw : w.Ok) {a : PyObj} (ha : OperandOk w a) (hja : NotJunk a) :
    ∃ w', w.or a .junk = (w', .error .valueError) ∧ Preserved w w' := by
  set w0 := (w.newStruct {}).1 with hw0
  have hp0 := newStruct_preserved w {}
  have hok0 : w0.Ok := newStruct_ok hw (by simp)
  have hlt0 : w.nextS < w0.nextS := by simp [hw0, World.newStruct]
  obtain ⟨w1, e1, ok1, p1, s1, v1, st1, -, -, c1, -⟩ :=
    ior_spec hok0 hlt0 (ha.mono hp0) hja
  refine ⟨w1, ?_, hp0.1.trans p1, by rw [s1]; exact hp0.2.1, ?_, ?_⟩
  · exact or_of e1 (r := .error .valueError) rfl
  · intro q hq; rw [v1 q (hq.trans_le hp0.1), hp0.2.2.1 q hq]
  · intro i hi; rw [st1 i (by omega), hp0.2.2.2 i hi]

/-- C34: `append` puts one component at the end: a component itself, or a slab of zero thickness, roughness and
solvent fraction for a bare scatterer.  It keeps the settings and touches nothing else. -/
theorem C34_append {w : World} (hw : w.Ok) {p : ℕ} (hp : p < w.nextS) {o : PyObj}
    (ho : OperandOk w o) (hj : NotJunk o) (hs : ∀ j, o ≠ .struct j) :
    ∃ w', w.append p o = (w', .ok ()) ∧ (w'.structs p).toSettings = (w.structs p).toSettings ∧
      content w' (.struct p) = content w (.struct p) ++ content w o ∧
      (∀ q < w.nextP, w'.vals q = w.vals q) ∧ ∀ id, id ≠ p → w'.structs id = w.structs id := by
  have key : w.append p o = w.ior p o := by
    cases o with
    | comp c => rfl
    | scat s => rfl
    | struct j => exact absurd rfl (hs j)
    | junk => exact absurd hj id
  obtain ⟨w', e, -, -, -, hv, hst, h1, -, h2, -⟩ := ior_spec hw hp ho hj
  exact ⟨w', by rw [key, e], h1, h2, hv, hst⟩

/-- C35, partial: the in-place form `s |= b` keeps all settings of `s`. -/
theorem C35_inplace_partial {w : World} (hw : w.Ok) {p : ℕ} (hp : p < w.nextS) {o : PyObj}
    (ho : OperandOk w o) (hj : NotJunk o) :
    ∃ w', w.ior p o = (w', .ok ()) ∧ (w'.structs p).toSettings = (w.structs p).toSettings ∧
      content w' (.struct p) = content w (.struct p) ++ content w o := by
  obtain ⟨w', h1, -, -, -, -, -, h2, -, h3, -⟩ := ior_spec hw hp ho hj
  exact ⟨w', h1, h2, h3⟩

/-- C35 fails: the result of `a | b` always has the default settings, whatever was set on `a`. -/
theorem C35_fails_or {w : World} (hw : w.Ok) {a b : PyObj} (ha : OperandOk w a)
    (hb : OperandOk w b) (hja : NotJunk a) (hjb : NotJunk b) :
    ∃ w' p, w.or a b = (w', .ok p) ∧ (w'.structs p).toSettings = {} := by
  set w0 := (w.newStruct {}).1 with hw0
  have hp0 := newStruct_preserved w {}
  have hok0 : w0.Ok := newStruct_ok hw (by simp)
  have hlt0 : w.nextS < w0.nextS := by simp [hw0, World.newStruct]
  obtain ⟨w1, e1, ok1, p1, s1, v1, st1, t1, -, -, -⟩ :=
    ior_spec hok0 hlt0 (ha.mono hp0) hja
  have pres1 : Preserved w w1 := by
    refine ⟨hp0.1.trans p1, by rw [s1]; exact hp0.2.1, ?_, ?_⟩
    · intro q hq; rw [v1 q (hq.trans_le hp0.1), hp0.2.2.1 q hq]
    · intro i hi; rw [st1 i (by omega), hp0.2.2.2 i hi]
  obtain ⟨w2, e2, -, -, -, -, -, t2, -, -, -⟩ :=
    ior_spec ok1 (by rw [s1]; exact hlt0) (hb.mono pres1) hjb
  refine ⟨w2, w.nextS, ?_, ?_⟩
  · exact or_of e1 e2
  · rw [t2, t1]
    simp [hw0, World.newStruct]

/-! ### A concrete world -/

/-- Air, a film and silicon as constant indices. -/
noncomputable def exAir : ScatObj := fun _ => .const 658 1 0
noncomputable def exFilm : ScatObj := fun _ => .const 658 (3 / 2) 0
noncomputable def exSi : ScatObj := fun _ => .const 658 (19 / 5) (1 / 50)

/-- Slabs whose thickness, roughness and solvent fraction are the parameters 0, 1, 2. -/
noncomputable def exComp (s : ScatObj) : Comp := .slab 0 s 1 2 true

/-- Three parameters and one structure, reversed and with its own mixing rule. -/
noncomputable def exWorld : World where
  vals := fun p => if p = 0 then 100 else 0
  nextP := 3
  structs := fun _ =>
    { reverse := true, ema := "bruggeman", data := [.comp (exComp exAir), .comp (exComp exSi)] }
  nextS := 1

theorem exLocal (n : ℕ) (s : Scat) : Local n (fun _ => s) := fun _ _ _ => rfl

theorem exComp_ok (s : Scat) : CompOk 3 (exComp fun _ => s) :=
  ⟨by norm_num, by norm_num, by norm_num, exLocal _ _⟩

theorem exWorld_ok : exWorld.Ok := by
  intro i _ o ho
  simp only [exWorld, List.mem_cons, List.not_mem_nil, or_false] at ho
  rcases ho with rfl | rfl <;> exact exComp_ok _

/-- Non-vacuity: a structure, a component and a bare scatterer are legal operands. -/
example : OperandOk exWorld (.struct 0) ∧ OperandOk exWorld (.comp (exComp exFilm)) ∧
    OperandOk exWorld (.scat exSi) :=
  ⟨by show 0 < 1; norm_num, exComp_ok _, exLocal _ _⟩

/-- C35 fails on it: the reversed Bruggeman structure loses both settings. -/
theorem C35_fails_example : ∃ w' p, exWorld.or (.struct 0) (.scat exSi) = (w', .ok p) ∧
    (exWorld.structs 0).reverse = true ∧ (w'.structs p).reverse = false ∧
    (exWorld.structs 0).ema = "bruggeman" ∧ (w'.structs p).ema = "linear" := by
  obtain ⟨w', p, h, hs⟩ := C35_fails_or exWorld_ok (a := .struct 0) (b := .scat exSi)
    (by show 0 < 1; norm_num) (exLocal _ _) trivial trivial
  refine ⟨w', p, h, rfl, ?_, rfl, ?_⟩
  · rw [hs]
  · rw [hs]

/-! ### C37 repetition -/

/-- C37: `component * n`. -/
theorem C37_repeat (w : World) (c : Comp) (n : ℤ) :
    ∃ w' o, w.mul c n = (w', o) ∧ Preserved w w' ∧
      (n < 1 → content w' o = [] ∧ ∃ p, o = .struct p ∧ (w'.structs p).data = []) ∧
      (n = 1 → o = .comp c) ∧
      (2 ≤ n → ∃ p, o = .struct p ∧ w.nextS ≤ p ∧
        (w'.structs p).data = List.replicate n.toNat (.comp c)) := by
  unfold World.mul
  by_cases h1 : n < 1
  · rw [if_pos h1]
    refine ⟨_, _, rfl, newStruct_preserved w {}, fun _ => ?_, fun h => by omega, fun h => by omega⟩
    simp [content]
  · rw [if_neg h1]
    by_cases h2 : n = 1
    · rw [if_pos h2]
      exact ⟨_, _, rfl, Preserved.refl w, fun h => by omega, fun _ => rfl, fun h => by omega⟩
    · rw [if_neg h2]
      refine ⟨_, _, rfl, ?_, fun h => by omega, fun h => by omega, fun _ => ?_⟩
      · obtain ⟨a, b, c', d⟩ := newStruct_preserved w {}
        refine ⟨a, b, c', fun i hi => ?_⟩
        simp only [World.setStruct]
        rw [if_neg (by show i ≠ w.nextS; omega)]
        exact d i hi
      · exact ⟨_, rfl, le_rfl, by simp [World.setStruct]⟩

/-! ### C38 only components -/

/-- Operations that put something into structure `id`. -/
inductive BuildOp
  | append (id : ℕ) (o : PyObj)
  | ior (id : ℕ) (o : PyObj)
  | or (a b : PyObj)
  | new (components : List PyObj) (st : Settings) (name : String)
  | copy (id : ℕ)

/-- Effect of an operation on the heap. -/
noncomputable def BuildOp.run (w : World) : BuildOp → World
  | .append id o => (w.append id o).1
  | .ior id o => (w.ior id o).1
  | .or a b => (w.or a b).1
  | .new cs st name => (w.newStruct (mkStructure cs st name)).1
  | .copy id => (w.newStruct (copyStructure (w.structs id))).1

theorem set_only {w : World} (h : ∀ i, OnlyComps (w.structs i)) {id : ℕ} {s : Structure}
    (hs : OnlyComps s) (i : ℕ) : OnlyComps ((w.setStruct id s).structs i) := by
  simp only [World.setStruct]
  split_ifs
  · exact hs
  · exact h i

theorem append_only {s : Structure} (h : OnlyComps s) {es : List PyObj}
    (he : ∀ o ∈ es, ∃ c, o = .comp c) : OnlyComps { s with data := s.data ++ es } := by
  intro o ho
  rcases List.mem_append.mp ho with ho | ho
  · exact h o ho
  · exact he o ho

theorem ior_only {w : World} (h : ∀ i, OnlyComps (w.structs i)) (id : ℕ) (o : PyObj) (i : ℕ) :
    OnlyComps ((w.ior id o).1.structs i) := by
  cases o with
  | comp c => exact set_only h (append_only (h id) (by simp)) i
  | struct j => exact set_only h (append_only (h id) (h j)) i
  | scat s =>
    exact set_only (w := (w.callScat s 0 0 0).1) h (append_only (h id) (by simp)) i
  | junk => exact h i

/-- C38: whatever sequence of appends, `|=`, `|`, constructions and copies is executed, no structure
ever holds anything but components. -/
theorem C38_only_components {w : World} (h : ∀ i, OnlyComps (w.structs i)) (ops : List BuildOp)
    (i : ℕ) : OnlyComps ((ops.foldl BuildOp.run w).structs i) := by
  have new_only : ∀ {w : World}, (∀ i, OnlyComps (w.structs i)) → ∀ {s : Structure}, OnlyComps s →
      ∀ i, OnlyComps ((w.newStruct s).1.structs i) := by
    intro w h s hs i
    simp only [World.newStruct]
    split_ifs
    · exact hs
    · exact h i
  have step : ∀ (w : World), (∀ i, OnlyComps (w.structs i)) → ∀ op i,
      OnlyComps ((BuildOp.run w op).structs i) := by
    intro w h op i
    cases op with
    | append id o =>
      cases o with
      | comp c => exact set_only h (append_only (h id) (by simp)) i
      | scat s =>
        exact set_only (w := (w.callScat s 0 0 0).1) h (append_only (h id) (by simp)) i
      | struct j => exact h i
      | junk => exact h i
    | ior id o => exact ior_only h id o i
    | or a b =>
      have h0 := new_only h (s := {}) (fun o ho => by simp at ho)
      simp only [BuildOp.run, World.or]
      split
      · rename_i w1 e he
        have := ior_only h0 (w.newStruct {}).2 a i
        rw [he] at this; exact this
      · rename_i w1 he
        have h1 : ∀ i, OnlyComps (w1.structs i) := fun i => by
          have := ior_only h0 (w.newStruct {}).2 a i
          rw [he] at this; exact this
        split
        · rename_i w2 e he2
          have := ior_only h1 (w.newStruct {}).2 b i
          rw [he2] at this; exact this
        · rename_i w2 he2
          have := ior_only h1 (w.newStruct {}).2 b i
          rw [he2] at this; exact this
    | new cs st name =>
      refine new_only h ?_ i
      intro o ho
      simp only [mkStructure, List.mem_filter] at ho
      cases o with
      | comp c => exact ⟨c, rfl⟩
      | scat s => simp at ho
      | struct j => simp at ho
      | junk => simp at ho
    | copy id => exact new_only h (s := copyStructure (w.structs id)) (fun o ho => h id o ho) i
  induction ops generalizing w with
  | nil => exact h i
  | cons op ops ih => exact ih (step w h op)

/-- C38: `append` raises ValueError exactly for objects that are neither components nor dispersions, `|=` exactly for
those that are not structures either; there is no other exception, and then nothing changes.  What `append` accepts adds
exactly one component at the end and leaves all other structures. -/
theorem C38_rejects (w : World) (id : ℕ) (x : PyObj) :
    ((w.append id x).2 = .error .valueError ↔ (∀ c, x ≠ .comp c) ∧ ∀ s, x ≠ .scat s) ∧
    ((w.ior id x).2 = .error .valueError ↔ (∀ c, x ≠ .comp c) ∧ (∀ s, x ≠ .scat s) ∧ ∀ j, x ≠ .struct j) ∧
    (∀ r ∈ [w.append id x, w.ior id x], r = (w, .error .valueError) ∨ r.2 = .ok ()) ∧
    ((w.append id x).2 = .ok () → ∃ c, ((w.append id x).1.structs id).data = (w.structs id).data ++ [.comp c] ∧
      ∀ j, j ≠ id → (w.append id x).1.structs j = w.structs j) := by
  cases x with
  | comp c =>
    refine ⟨by simp [World.append], by simp [World.append, World.ior], by simp [World.append, World.ior], fun _ =>
      ⟨c, by simp [World.append, World.setStruct], fun j hj => by simp [World.append, World.setStruct, hj]⟩⟩
  | scat s =>
    refine ⟨by simp [World.append], by simp [World.append, World.ior], by simp [World.append, World.ior], fun _ =>
      ⟨(w.callScat s 0 0 0).2, ?_, fun j hj => ?_⟩⟩
    · simp [World.append, World.setStruct, World.callScat, World.newParam]
    · simp [World.append, World.setStruct, World.callScat, World.newParam, hj]
  | struct j => simp [World.append, World.ior]
  | junk => simp [World.append, World.ior]

/-- C38: the constructor keeps exactly the components, in order. -/
theorem C38_constructor (cs : List PyObj) (st : Settings) (name : String) :
    (mkStructure cs st name).data.Sublist cs ∧
    (∀ c, .comp c ∈ cs → .comp c ∈ (mkStructure cs st name).data) ∧
    OnlyComps (mkStructure cs st name) := by
  refine ⟨List.filter_sublist, fun c hc => by simp [mkStructure, hc], ?_⟩
  intro o ho
  simp only [mkStructure, List.mem_filter] at ho
  cases o with
  | comp c => exact ⟨c, rfl⟩
  | scat s => simp at ho
  | struct j => simp at ho
  | junk => simp at ho

example : ∀ i, OnlyComps (exWorld.structs i) := by
  intro i o ho
  simp only [exWorld, List.mem_cons, List.not_mem_nil, or_false] at ho
  rcases ho with rfl | rfl <;> exact ⟨_, rfl⟩

/-! ### Solvent setter -/

/-- The solvent can only be a scatterer or `None`. -/
theorem C38_solvent (s : Structure) (x : Option PyObj) :
    (∃ s', setSolvent s x = .ok s' ∧ s' = { s with solvent := s'.solvent } ∧
      (x = none ∧ s'.solvent = none ∨ ∃ r, x = some (.scat r) ∧ s'.solvent = some r)) ∨
    setSolvent s x = .error .valueError ∧ ∃ o, x = some o ∧ ∀ r, o ≠ .scat r := by
  cases x with
  | none => exact .inl ⟨_, rfl, rfl, .inl ⟨rfl, rfl⟩⟩
  | some o =>
    cases o with
    | scat r => exact .inl ⟨_, rfl, rfl, .inr ⟨r, rfl, rfl⟩⟩
    | comp c => exact .inr ⟨rfl, _, rfl, by simp⟩
    | struct j => exact .inr ⟨rfl, _, rfl, by simp⟩
    | junk => exact .inr ⟨rfl, _, rfl, by simp⟩

end Verif.Struct
