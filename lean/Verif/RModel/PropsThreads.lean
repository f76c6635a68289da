import Verif.RModel.Threads
import Verif.RModel.Lemmas
import Verif.TMM.PropsBare
import Verif.Struct.PropsSlabs

/-! # C151: models evaluated in several threads -/

namespace Verif.RModel
open Verif.Struct Verif.TMM Verif.Disp

variable {α β ε : Type}

/-! ### The program is the function -/

theorem run_bind (p : Prog α) (f : α → Prog β) (c : Option ℝ) :
    (p.bind f).run c = (f (p.run c).1).run (p.run c).2 := by
  induction p generalizing c with
  | ret a => rfl
  | write w k ih => exact ih _
  | read k ih => exact ih _ _

theorem run_andThen (p : Prog (Except ε α)) (f : α → Prog (Except ε β)) (c : Option ℝ) :
    (p.andThen f).run c = match (p.run c).1 with
      | .ok a => (f a).run (p.run c).2
      | .error e => (.error e, (p.run c).2) := by
  unfold Prog.andThen
  rw [run_bind]
  cases (p.run c).1 <;> rfl

theorem run_map (f : α → Prog (Except ε β)) (g : α → Except ε β) (c : Option ℝ)
    (h : ∀ a, (f a).run c = (g a, c)) (l : List α) : (mapProg f l).run c = (l.mapM g, c) := by
  induction l with
  | nil => rfl
  | cons a l ih =>
    rw [mapProg, run_andThen, h, List.mapM_cons]
    cases hg : g a with
    | error e => rfl
    | ok b =>
      simp only [run_andThen, ih]
      cases hm : l.mapM g <;> rfl

theorem run_entry (ext : Ext) (v : Vals) (st : Settings) (c : Option ℝ) (o : PyObj) :
    (entryProg ext v st o).run c = (PyObj.rows ext v { st with wavelength := c } o, c) := by
  cases o with
  | comp x =>
    simp only [entryProg, PyObj.rows]
    cases x <;> rfl
  | _ => rfl

theorem run_raw (ext : Ext) (v : Vals) (s : Structure) (c : Option ℝ) :
    (rawProg ext v s).run c = (rawRows ext v { s with wavelength := c }, c) := by
  unfold rawProg rawRows
  by_cases h : s.data.all PyObj.dflt = true
  · rw [if_pos h, if_pos h, run_andThen, run_map _ _ _ (run_entry ext v s.toSettings c), componentRows]
    simp only
    generalize List.mapM (PyObj.rows ext v { s.toSettings with wavelength := c }) s.data = x
    cases x <;> rfl
  · rw [if_neg h, if_neg h]
    rfl

theorem run_solv (ext : Ext) (v : Vals) (st : Settings) (rows : List Row) (c : Option ℝ) :
    (solvProg ext v st rows).run c = (solvate ext v { st with wavelength := c } rows, c) := by
  unfold solvProg solvate
  by_cases h : ∃ r ∈ rows, 0 < r.vf
  · rw [if_pos h, if_pos h]
    have e : ∀ x, mixRows ext { st with wavelength := c } x (interior rows) = mixRows ext st x (interior rows) :=
      fun x => rfl
    simp only [e]
    cases hs : st.solvent with
    | none =>
      simp only [Prog.run]
      generalize mixRows ext st (rows.getLast?.bind Row.ri) (interior rows) = y
      cases y <;> rfl
    | some s =>
      simp only [Prog.run]
      generalize mixRows ext st _ (interior rows) = y
      cases y <;> rfl
  · rw [if_neg h, if_neg h]
    rfl

theorem run_slabs (ext : Ext) (v : Vals) (s : Structure) (c : Option ℝ) :
    (slabsProg ext v s).run c = ((slabs ext v { s with wavelength := c } none).1, c) := by
  unfold slabsProg slabs
  cases h : s.data.isEmpty with
  | true => simp [Prog.run]
  | false =>
    simp only [Bool.false_eq_true, if_false]
    cases he : endsAreSlabs s.data with
    | false => simp [Prog.run]
    | true =>
      simp only [if_true, run_andThen, run_raw, slabsCore]
      cases hr : rawRows ext v { s with wavelength := c } with
      | error e => simp [Except.map, bind, Except.bind]
      | ok raw =>
        simp only [run_solv]
        cases hv : solvate ext v { s.toSettings with wavelength := c }
            (if s.reverse = true then reverseRows raw else raw) with
        | error e => simp [hv, Except.map, bind, Except.bind]
        | ok rows => simp [hv, Except.map, bind, Except.bind, Prog.run, pure, Except.pure]

theorem run_loop (ext : Ext) (zs : List Layer → ℝ → ℝ → Bool) (d : DType) (v : Vals) (m : RM) (pts : List (ℝ × ℝ))
    (ws : List ℝ) (acc : List Cell) (s : Structure) (c : Option ℝ) :
    (loopProg ext zs d v m s pts ws acc).run c =
      ((modelLoop ext zs d v m pts ws acc { s with wavelength := c }).1,
        (modelLoop ext zs d v m pts ws acc { s with wavelength := c }).2.wavelength) := by
  induction ws generalizing acc c with
  | nil => rfl
  | cons w ws ih =>
    have hs : (slabs ext v { s with wavelength := some w } none).2 = { s with wavelength := some w } := by
      unfold slabs; split_ifs <;> rfl
    simp only [loopProg, Prog.run, run_andThen, run_slabs, modelLoop]
    cases hr : slabs ext v { s with wavelength := some w } none with
    | mk r s' =>
      rw [hr] at hs
      simp only at hs
      subst hs
      cases r with
      | error e => rfl
      | ok o =>
        cases o with
        | none => rfl
        | some rows =>
          simp only
          cases (deltaPsiTMM zs (pick (maskEq (pts.map Prod.fst) w) (pts.map Prod.snd)) rows w (v m.off) m.flip).1 with
          | error e => rfl
          | ok vals =>
            simp only
            exact ih _ _

theorem run_model (ext : Ext) (zs : List Layer → ℝ → ℝ → Bool) (d : DType) (v : Vals) (m : RM) (pts : List (ℝ × ℝ))
    (s : Structure) (c : Option ℝ) :
    (modelProg ext zs d v m s pts).run c = ((model ext zs d v m { s with wavelength := c } pts).1,
      (model ext zs d v m { s with wavelength := c } pts).2.wavelength) := run_loop ..

/-! ### Schedules -/

/-- What a thread evaluates: a model, the reference of its structure, the points. -/
structure Job where
  rm : RM
  sid : ℕ
  pts : List (ℝ × ℝ)

/-- All threads at their start. -/
noncomputable def start (ext : Ext) (zs : List Layer → ℝ → ℝ → Bool) (d : DType) (v : Vals) (S : ℕ → Structure)
    (jobs : ℕ → Job) : Conf (Except PyErr (List Cell)) :=
  ⟨fun i => modelProg ext zs d v (jobs i).rm (S (jobs i).sid) (jobs i).pts, fun k => (S k).wavelength⟩

theorem step_other {sid : ℕ → ℕ} {c : Conf α} {i j : ℕ} (h : j ≠ i) : (c.step sid j).prog i = c.prog i := by
  unfold Conf.step
  cases c.prog j <;> simp [Function.update_of_ne h.symm]

theorem step_cell {sid : ℕ → ℕ} {c : Conf α} {i j : ℕ} (h : sid j ≠ sid i) :
    (c.step sid j).cell (sid i) = c.cell (sid i) := by
  unfold Conf.step
  cases c.prog j <;> simp [Function.update_of_ne h.symm]

/-- A thread that shares its structure with no other goes its way. -/
theorem exec_alone {sid : ℕ → ℕ} {i : ℕ} (sched : List ℕ) (h : ∀ j ∈ sched, j ≠ i → sid j ≠ sid i) (c : Conf α) :
    ((c.exec sid sched).prog i).run ((c.exec sid sched).cell (sid i)) = (c.prog i).run (c.cell (sid i)) ∧
      ((c.exec sid sched).prog i).len ((c.exec sid sched).cell (sid i)) =
        (c.prog i).len (c.cell (sid i)) - sched.count i := by
  induction sched generalizing c with
  | nil => exact ⟨rfl, rfl⟩
  | cons j sched ih =>
    have ih := ih (fun k hk => h k (List.mem_cons_of_mem _ hk)) (c.step sid j)
    rw [Conf.exec, List.foldl_cons, ← Conf.exec, ih.1, ih.2]
    by_cases hj : j = i
    · subst hj
      rw [List.count_cons_self]
      have hs : ∀ p, c.prog j = p → ((c.step sid j).prog j).run ((c.step sid j).cell (sid j)) =
          p.run (c.cell (sid j)) ∧ ((c.step sid j).prog j).len ((c.step sid j).cell (sid j)) =
          p.len (c.cell (sid j)) - 1 := by
        intro p hp
        unfold Conf.step
        rw [hp]
        cases p with
        | ret a => simp [hp, Prog.len]
        | write w k => simp [Prog.run, Prog.len]
        | read k => simp [Prog.run, Prog.len]
      obtain ⟨h1, h2⟩ := hs _ rfl
      exact ⟨h1, by rw [h2]; omega⟩
    · rw [List.count_cons_of_ne hj, step_other hj, step_cell (h j (by simp) hj)]
      exact ⟨rfl, rfl⟩

theorem ret_of_len {p : Prog α} {c : Option ℝ} (h : p.len c = 0) : ∃ a, p = .ret a := by
  cases p with
  | ret a => exact ⟨a, rfl⟩
  | write w k => simp [Prog.len] at h
  | read k => simp [Prog.len] at h

/-- C151: a thread whose structure no other thread uses returns what it would return alone, whatever the other
threads do and in whatever order the threads make their steps; and it returns after a number of its own steps that
does not depend on the others.  Partial: structures that are shared, for which it is false (`C151_fails_race`). -/
theorem C151_alone_partial (ext : Ext) (zs : List Layer → ℝ → ℝ → Bool) (d : DType) (v : Vals) (S : ℕ → Structure)
    (jobs : ℕ → Job) (i : ℕ) : ∃ N : ℕ, ∀ sched : List ℕ, (∀ j ∈ sched, j ≠ i → (jobs j).sid ≠ (jobs i).sid) →
      (∀ r, ((start ext zs d v S jobs).exec (fun j => (jobs j).sid) sched).prog i = .ret r →
        r = (model ext zs d v (jobs i).rm (S (jobs i).sid) (jobs i).pts).1) ∧
      (N ≤ sched.count i → ((start ext zs d v S jobs).exec (fun j => (jobs j).sid) sched).prog i =
        .ret (model ext zs d v (jobs i).rm (S (jobs i).sid) (jobs i).pts).1) := by
  refine ⟨((start ext zs d v S jobs).prog i).len ((start ext zs d v S jobs).cell (jobs i).sid), fun sched h => ?_⟩
  obtain ⟨h1, h2⟩ := exec_alone (sid := fun j => (jobs j).sid) sched h (start ext zs d v S jobs)
  have key : ∀ r, ((start ext zs d v S jobs).exec (fun j => (jobs j).sid) sched).prog i = .ret r →
      r = (model ext zs d v (jobs i).rm (S (jobs i).sid) (jobs i).pts).1 := by
    intro r hr
    rw [hr] at h1
    have := congrArg Prod.fst h1
    simp only [start, run_model, Prog.run] at this
    exact this
  refine ⟨key, fun hN => ?_⟩
  obtain ⟨a, ha⟩ := ret_of_len (h2.trans (Nat.sub_eq_zero_of_le hN))
  rw [ha, key a ha]

/-! ### Shared structures -/

/-- All writes of a program are writes of `w`. -/
inductive OnlyW (w : ℝ) : Prog α → Prop
  | ret (a : α) : OnlyW w (.ret a)
  | write {k : Prog α} : OnlyW w k → OnlyW w (.write w k)
  | read {k : Option ℝ → Prog α} : (∀ x, OnlyW w (k x)) → OnlyW w (.read k)

theorem OnlyW.bind {w : ℝ} {p : Prog α} (h : OnlyW w p) {f : α → Prog β} (hf : ∀ a, OnlyW w (f a)) :
    OnlyW w (p.bind f) := by
  induction h with
  | ret a => exact hf a
  | write _ ih => exact .write ih
  | read _ ih => exact .read ih

theorem OnlyW.andThen {w : ℝ} {p : Prog (Except ε α)} (h : OnlyW w p) {f : α → Prog (Except ε β)}
    (hf : ∀ a, OnlyW w (f a)) : OnlyW w (p.andThen f) := by
  refine h.bind fun r => ?_
  cases r with
  | error e => exact .ret _
  | ok a => exact hf a

theorem onlyW_map {w : ℝ} {f : α → Prog (Except ε β)} (h : ∀ a, OnlyW w (f a)) (l : List α) :
    OnlyW w (mapProg f l) := by
  induction l with
  | nil => exact .ret _
  | cons a l ih => exact (h a).andThen fun b => ih.andThen fun bs => .ret _

theorem onlyW_raw (w : ℝ) (ext : Ext) (v : Vals) (s : Structure) : OnlyW w (rawProg ext v s) := by
  unfold rawProg
  split_ifs
  · refine OnlyW.andThen (onlyW_map (fun o => ?_) _) fun _ => .ret _
    cases o with
    | comp c =>
      simp only [entryProg]
      cases c with
      | slab => exact .read fun _ => .ret _
      | mixed => exact .read fun _ => .read fun _ => .ret _
      | other => exact .read fun _ => .ret _
    | _ => exact .ret _
  · exact .read fun _ => .ret _

theorem onlyW_solv (w : ℝ) (ext : Ext) (v : Vals) (st : Settings) (rows : List Row) :
    OnlyW w (solvProg ext v st rows) := by
  unfold solvProg
  split_ifs
  · split
    · exact .read fun _ => .ret _
    · exact .ret _
  · exact .ret _

theorem onlyW_slabs (w : ℝ) (ext : Ext) (v : Vals) (s : Structure) : OnlyW w (slabsProg ext v s) := by
  unfold slabsProg
  by_cases h1 : s.data.isEmpty = true
  · rw [if_pos h1]; exact .ret _
  · rw [if_neg h1]
    by_cases h2 : endsAreSlabs s.data = true
    · rw [if_pos h2]
      exact (onlyW_raw w ext v s).andThen fun raw => (onlyW_solv w ext v _ _).andThen fun rows => .ret _
    · rw [if_neg h2]; exact .ret _

theorem onlyW_loop {w : ℝ} (ext : Ext) (zs : List Layer → ℝ → ℝ → Bool) (d : DType) (v : Vals) (m : RM)
    (s : Structure) (pts : List (ℝ × ℝ)) (ws : List ℝ) (acc : List Cell) (h : ∀ x ∈ ws, x = w) :
    OnlyW w (loopProg ext zs d v m s pts ws acc) := by
  induction ws generalizing acc with
  | nil => exact .ret _
  | cons x ws ih =>
    have := h x (by simp)
    subst this
    refine .write ((onlyW_slabs _ ext v s).andThen fun o => ?_)
    cases o with
    | none => exact .ret _
    | some rows =>
      simp only
      split
      · exact .ret _
      · exact ih _ fun y hy => h y (List.mem_cons_of_mem _ hy)

/-- The state of a thread that starts with a write of `w`, in a program in which every write to its structure is a
write of `w`. -/
def Steady (w : ℝ) (sid : ℕ → ℕ) (i : ℕ) (R : α) (n : ℕ) (c : Conf α) : Prop :=
  (∃ k, c.prog i = .write w k ∧ (k.run (some w)).1 = R ∧ k.len (some w) + 1 ≤ n) ∨
    (c.cell (sid i) = some w ∧ ((c.prog i).run (some w)).1 = R ∧ (c.prog i).len (some w) ≤ n) ∨
    c.prog i = .ret R

theorem exec_steady {w : ℝ} {sid : ℕ → ℕ} {i : ℕ} {R : α} (sched : List ℕ) {n : ℕ} {c : Conf α}
    (hc : Steady w sid i R n c) (ho : ∀ j ∈ sched, sid j = sid i → OnlyW w (c.prog j)) :
    Steady w sid i R (n - sched.count i) (c.exec sid sched) := by
  induction sched generalizing c n with
  | nil => exact hc
  | cons j sched ih =>
    have hw : ∀ k ∈ sched, sid k = sid i → OnlyW w ((c.step sid j).prog k) := by
      intro k hk hs
      have h1 := ho k (List.mem_cons_of_mem _ hk) hs
      by_cases hkj : k = j
      · subst hkj
        revert h1
        unfold Conf.step
        generalize hp : c.prog k = p
        intro h1
        cases h1 with
        | ret a => simp only [hp]; exact .ret _
        | write h2 => simpa using h2
        | read h2 => simpa using h2 _
      · rw [step_other (Ne.symm hkj)]
        exact h1
    have hstep : Steady w sid i R (if j = i then n - 1 else n) (c.step sid j) := by
      by_cases hj : j = i
      · subst hj
        rw [if_pos rfl]
        unfold Steady Conf.step
        rcases hc with ⟨k, h1, h2, h3⟩ | ⟨h1, h2, h3⟩ | h1
        · right; left
          simp only [h1, Function.update_self]
          exact ⟨trivial, h2, by omega⟩
        · cases hp : c.prog j with
          | ret a =>
            right; right
            simp only [hp]
            rw [hp] at h2
            rw [← h2]; rfl
          | write x k =>
            have := ho j (by simp) rfl
            rw [hp] at this
            cases this
            right; left
            rw [hp] at h2 h3
            simp only [Function.update_self]
            exact ⟨trivial, h2, by simp only [Prog.len] at h3; omega⟩
          | read k =>
            right; left
            rw [hp] at h2 h3
            simp only [Function.update_self, h1]
            exact ⟨trivial, h2, by simp only [Prog.len] at h3; omega⟩
        · right; right
          simp only [h1]
      · rw [if_neg hj]
        unfold Steady
        rw [step_other hj]
        rcases hc with h | ⟨h1, h2, h3⟩ | h
        · exact .inl h
        · refine .inr (.inl ⟨?_, h2, h3⟩)
          by_cases hs : sid j = sid i
          · have := ho j (by simp) hs
            unfold Conf.step
            revert this
            generalize c.prog j = p
            intro this
            cases this with
            | ret a => exact h1
            | write h2 => simp [hs]
            | read h2 => exact h1
          · rw [step_cell hs]; exact h1
        · exact .inr (.inr h)
    have := ih hstep hw
    rw [Conf.exec, List.foldl_cons, ← Conf.exec]
    by_cases hj : j = i
    · subst hj
      rw [if_pos rfl] at this
      rw [List.count_cons_self]
      rwa [Nat.sub_sub, Nat.add_comm 1] at this
    · rw [if_neg hj] at this
      rwa [List.count_cons_of_ne hj]

/-- C151: threads may share a structure if all of them evaluate it at one and the same wavelength. -/
theorem C151_one_wavelength_partial (ext : Ext) (zs : List Layer → ℝ → ℝ → Bool) (d : DType) (v : Vals)
    (S : ℕ → Structure) (jobs : ℕ → Job) (i : ℕ) (w : ℝ) : ∃ N : ℕ, ∀ sched : List ℕ,
      (∀ p ∈ (jobs i).pts, p.1 = w) →
      (∀ j ∈ sched, (jobs j).sid = (jobs i).sid → ∀ p ∈ (jobs j).pts, p.1 = w) →
      (∀ r, ((start ext zs d v S jobs).exec (fun j => (jobs j).sid) sched).prog i = .ret r →
        r = (model ext zs d v (jobs i).rm (S (jobs i).sid) (jobs i).pts).1) ∧
      (N ≤ sched.count i → ((start ext zs d v S jobs).exec (fun j => (jobs j).sid) sched).prog i =
        .ret (model ext zs d v (jobs i).rm (S (jobs i).sid) (jobs i).pts).1) := by
  have hw : ∀ j, (∀ p ∈ (jobs j).pts, p.1 = w) → ∀ x ∈ npUnique ((jobs j).pts.map Prod.fst), x = w := by
    intro j h x hx
    obtain ⟨p, hp, rfl⟩ := List.mem_map.mp (mem_npUnique.mp hx)
    exact h p hp
  obtain ⟨R, hR⟩ : ∃ R, R = (model ext zs d v (jobs i).rm (S (jobs i).sid) (jobs i).pts).1 := ⟨_, rfl⟩
  obtain ⟨N, hN⟩ : ∃ N, N = ((start ext zs d v S jobs).prog i).len ((start ext zs d v S jobs).cell (jobs i).sid) :=
    ⟨_, rfl⟩
  refine ⟨N, fun sched hi ho => ?_⟩
  have h0 : Steady w (fun j => (jobs j).sid) i R N (start ext zs d v S jobs) := by
    have hrun := run_model ext zs d v (jobs i).rm (jobs i).pts (S (jobs i).sid) (S (jobs i).sid).wavelength
    have hrun := congrArg Prod.fst hrun
    rw [← show (start ext zs d v S jobs).prog i = modelProg ext zs d v (jobs i).rm (S (jobs i).sid) (jobs i).pts from
      rfl] at hrun
    have hlen : N = ((start ext zs d v S jobs).prog i).len (S (jobs i).sid).wavelength := hN
    cases hu : npUnique ((jobs i).pts.map Prod.fst) with
    | nil =>
      right; right
      have hp : (start ext zs d v S jobs).prog i = .ret (.ok ((jobs i).pts.map fun _ => (some 0, some 0))) := by
        simp only [start, modelProg, hu, loopProg]
      rw [hp] at hrun ⊢
      rw [hR, ← hrun]
      rfl
    | cons x ws =>
      left
      have hx := hw i hi x (by rw [hu]; simp)
      subst hx
      have hp : ∃ k, (start ext zs d v S jobs).prog i = .write x k := by
        simp only [start, modelProg, hu, loopProg]
        exact ⟨_, rfl⟩
      obtain ⟨k, hp⟩ := hp
      rw [hp] at hrun hlen
      exact ⟨k, hp, by rw [hR, ← hrun]; rfl, by rw [hlen]; exact le_rfl⟩
  have := exec_steady sched h0 fun j hj hs => onlyW_loop _ _ _ _ _ _ _ _ _ (hw j (ho j hj hs))
  have key : ∀ r, ((start ext zs d v S jobs).exec (fun j => (jobs j).sid) sched).prog i = .ret r → r = R := by
    intro r hr
    rcases this with ⟨k, h1, -⟩ | ⟨-, h2, -⟩ | h1
    · rw [hr] at h1; simp at h1
    · rw [hr] at h2; exact h2
    · rw [hr] at h1; simpa using h1
  rw [← hR]
  refine ⟨key, fun hc => ?_⟩
  rw [Nat.sub_eq_zero_of_le hc] at this
  rcases this with ⟨k, -, -, h3⟩ | ⟨-, -, h3⟩ | h1
  · omega
  · obtain ⟨a, ha⟩ := ret_of_len (Nat.le_zero.mp h3)
    rw [ha, key a ha]
  · exact h1

/-! ### Structures whose indices do not depend on the wavelength -/

/-- The index of a scatterer is the same at all wavelengths (and if none is given). -/
def Flat (ext : Ext) (s : Scat) : Prop := ∀ x y, s.complex ext.zs x = s.complex ext.zs y

/-- All scatterers of a component. -/
def FlatComp (ext : Ext) (v : Vals) : Comp → Prop
  | .slab _ r _ _ _ => Flat ext (r v)
  | .mixed _ a b _ _ _ => Flat ext (a v) ∧ Flat ext (b v)
  | .other _ _ => False

/-- The values that are read make no difference. -/
inductive Blind : Prog α → Prop
  | ret (a : α) : Blind (.ret a)
  | write {w : ℝ} {k : Prog α} : Blind k → Blind (.write w k)
  | read {k : Option ℝ → Prog α} : (∀ x y, k x = k y) → (∀ x, Blind (k x)) → Blind (.read k)

theorem Blind.bind {p : Prog α} (h : Blind p) {f : α → Prog β} (hf : ∀ a, Blind (f a)) : Blind (p.bind f) := by
  induction h with
  | ret a => exact hf a
  | write _ ih => exact .write ih
  | read he _ ih => exact .read (fun x y => by simp only [he x y]) ih

theorem Blind.andThen {p : Prog (Except ε α)} (h : Blind p) {f : α → Prog (Except ε β)}
    (hf : ∀ a, Blind (f a)) : Blind (p.andThen f) := by
  refine h.bind fun r => ?_
  cases r with
  | error e => exact .ret _
  | ok a => exact hf a

theorem Blind.run_eq {p : Prog α} (h : Blind p) (c c' : Option ℝ) : (p.run c).1 = (p.run c').1 := by
  induction h generalizing c c' with
  | ret a => rfl
  | write _ ih => exact ih _ _
  | read he _ ih => simp only [Prog.run]; rw [he c c']; exact ih _ _ _

theorem Blind.len_eq {p : Prog α} (h : Blind p) (c c' : Option ℝ) : p.len c = p.len c' := by
  induction h generalizing c c' with
  | ret a => rfl
  | write _ ih => rfl
  | read he _ ih => simp only [Prog.len]; rw [he c c', ih]

theorem blind_map {f : α → Prog (Except ε β)} {l : List α} (h : ∀ a ∈ l, Blind (f a)) : Blind (mapProg f l) := by
  induction l with
  | nil => exact .ret _
  | cons a l ih =>
    exact (h a (by simp)).andThen fun b => (ih fun x hx => h x (List.mem_cons_of_mem _ hx)).andThen fun bs => .ret _

theorem Flat.layer {ext : Ext} {s : Scat} (h : Flat ext s) (st st' : Settings) :
    layerRi ext st s = layerRi ext st' s := by
  unfold layerRi
  split_ifs
  · exact h _ _
  · rfl

theorem blind_solv {ext : Ext} {v : Vals} {st : Settings} (hs : ∀ q, st.solvent = some q → Flat ext (q v))
    (rows : List Row) : Blind (solvProg ext v st rows) := by
  unfold solvProg
  split_ifs
  · cases hq : st.solvent with
    | none => exact .ret _
    | some q =>
      have := hs q hq
      exact .read (fun x y => by simp only [this x y]) fun _ => .ret _
  · exact .ret _

theorem blind_slabs {ext : Ext} {v : Vals} {s : Structure} {cs : List Comp} (hd : s.data = cs.map .comp)
    (hi : ∀ c ∈ cs, NoInterface c) (hf : ∀ c ∈ cs, FlatComp ext v c) (hs : ∀ q, s.solvent = some q → Flat ext (q v)) :
    Blind (slabsProg ext v s) := by
  unfold slabsProg
  by_cases h1 : s.data.isEmpty = true
  · rw [if_pos h1]; exact .ret _
  · rw [if_neg h1]
    by_cases h2 : endsAreSlabs s.data = true
    · rw [if_pos h2]
      refine Blind.andThen ?_ fun raw => Blind.andThen ?_ fun rows => .ret _
      · unfold rawProg
        rw [if_pos (by
          rw [hd]
          simp only [List.all_map, List.all_eq_true, Function.comp]
          exact fun c hc => noInterface_iff.mp (hi c hc))]
        refine Blind.andThen (blind_map fun o ho => ?_) fun _ => .ret _
        rw [hd] at ho
        obtain ⟨c, hc, rfl⟩ := List.mem_map.mp ho
        have := hf c hc
        cases c with
        | slab t r g f d =>
          have hl := Flat.layer this
          exact .read (fun x y => by rw [hl]) fun _ => .ret _
        | mixed t a b f g d =>
          have hl := Flat.layer this.1
          have hl' := Flat.layer this.2
          refine .read (fun x y => ?_) fun x => .read (fun x y => ?_) fun _ => .ret _
          · simp only [hl { s.toSettings with wavelength := x } { s.toSettings with wavelength := y }]
          · simp only [hl' { s.toSettings with wavelength := x } { s.toSettings with wavelength := y }]
        | other => exact this.elim
      · exact blind_solv hs _
    · rw [if_neg h2]; exact .ret _

theorem blind_loop {ext : Ext} {v : Vals} {s : Structure} (h : Blind (slabsProg ext v s))
    (zs : List Layer → ℝ → ℝ → Bool) (d : DType) (m : RM) (pts : List (ℝ × ℝ)) (ws : List ℝ) (acc : List Cell) :
    Blind (loopProg ext zs d v m s pts ws acc) := by
  induction ws generalizing acc with
  | nil => exact .ret _
  | cons x ws ih =>
    refine .write (h.andThen fun o => ?_)
    cases o with
    | none => exact .ret _
    | some rows =>
      simp only
      split
      · exact .ret _
      · exact ih _

theorem exec_blind {sid : ℕ → ℕ} {i : ℕ} (sched : List ℕ) {c : Conf α} (h : Blind (c.prog i)) (x : Option ℝ) :
    Blind ((c.exec sid sched).prog i) ∧ (((c.exec sid sched).prog i).run x).1 = ((c.prog i).run x).1 ∧
      ((c.exec sid sched).prog i).len x = (c.prog i).len x - sched.count i := by
  induction sched generalizing c with
  | nil => exact ⟨h, rfl, rfl⟩
  | cons j sched ih =>
    rw [Conf.exec, List.foldl_cons, ← Conf.exec]
    by_cases hj : j = i
    · subst hj
      have hs : Blind ((c.step sid j).prog j) ∧ (((c.step sid j).prog j).run x).1 = ((c.prog j).run x).1 ∧
          ((c.step sid j).prog j).len x = (c.prog j).len x - 1 := by
        unfold Conf.step
        revert h
        generalize hp : c.prog j = p
        intro h
        cases h with
        | ret a => simpa [hp, Prog.len] using .ret _
        | write hk => simpa [Prog.run, Prog.len] using ⟨hk, hk.run_eq _ _, hk.len_eq _ _⟩
        | read he hk =>
          simp only [Function.update_self, Prog.run, Prog.len, Nat.add_sub_cancel]
          rw [he _ x]
          exact ⟨hk _, rfl, rfl⟩
      obtain ⟨h1, h2, h3⟩ := ih hs.1
      rw [List.count_cons_self]
      exact ⟨h1, h2.trans hs.2.1, by rw [h3, hs.2.2]; omega⟩
    · have e := step_other (sid := sid) (c := c) hj
      rw [List.count_cons_of_ne hj, ← e]
      exact ih (by rw [e]; exact h)

/-- C151: threads may share a structure whose indices do not depend on the wavelength. -/
theorem C151_flat_partial (ext : Ext) (zs : List Layer → ℝ → ℝ → Bool) (d : DType) (v : Vals)
    (S : ℕ → Structure) (jobs : ℕ → Job) (i : ℕ) {cs : List Comp} (hd : (S (jobs i).sid).data = cs.map .comp)
    (hi : ∀ c ∈ cs, NoInterface c) (hf : ∀ c ∈ cs, FlatComp ext v c)
    (hs : ∀ q, (S (jobs i).sid).solvent = some q → Flat ext (q v)) : ∃ N : ℕ, ∀ sched : List ℕ,
      (∀ r, ((start ext zs d v S jobs).exec (fun j => (jobs j).sid) sched).prog i = .ret r →
        r = (model ext zs d v (jobs i).rm (S (jobs i).sid) (jobs i).pts).1) ∧
      (N ≤ sched.count i → ((start ext zs d v S jobs).exec (fun j => (jobs j).sid) sched).prog i =
        .ret (model ext zs d v (jobs i).rm (S (jobs i).sid) (jobs i).pts).1) := by
  have hb : Blind ((start ext zs d v S jobs).prog i) := blind_loop (blind_slabs hd hi hf hs) _ _ _ _ _ _
  refine ⟨((start ext zs d v S jobs).prog i).len (S (jobs i).sid).wavelength, fun sched => ?_⟩
  obtain ⟨-, h1, h2⟩ := exec_blind (sid := fun j => (jobs j).sid) sched hb (S (jobs i).sid).wavelength
  have key : ∀ r, ((start ext zs d v S jobs).exec (fun j => (jobs j).sid) sched).prog i = .ret r →
      r = (model ext zs d v (jobs i).rm (S (jobs i).sid) (jobs i).pts).1 := by
    intro r hr
    rw [hr] at h1
    simp only [start, run_model, Prog.run] at h1
    exact h1
  refine ⟨key, fun hN => ?_⟩
  obtain ⟨a, ha⟩ := ret_of_len (h2.trans (Nat.sub_eq_zero_of_le hN))
  rw [ha, key a ha]

/-- Non-vacuity: constant indices, with a constant solvent. -/
example (ext : Ext) (v : Vals) : FlatComp ext v (dry (.const 658 2 1)) ∧
    FlatComp ext v (.mixed 0 (fun _ => .const 658 2 1) (fun _ => .const 500 1 0) 1 2 true) := by
  have : ∀ w n k, Flat ext (.const w n k) := by
    intro w n k x y
    cases x <;> cases y <;> simp [Scat.complex, Scat.at]
  exact ⟨this _ _ _, this _ _ _, this _ _ _⟩

/-! ### The race -/

/-- A material of index 2 at 1000 nm and of index 1 at 500 nm. -/
noncomputable def raceScat : Scat := .cauchy 658 (7 / 3) (-1 / 3) 0

/-- Its surface in air. -/
noncomputable def raceStruct : Structure := { data := [dry (.const 658 1 0), dry raceScat].map .comp }

theorem raceStruct_plain (c : Option ℝ) :
    Plain { raceStruct with wavelength := c } [dry (.const 658 1 0), dry raceScat] :=
  plain_of rfl (by simp) (by simp [dry, Comp.isSlab, Comp.dflt]) (by simp [raceStruct]) (by
    left; rfl)

theorem race_rows (ext : Ext) {w x : ℝ} (h : raceScat.complex ext.zs (some w) = some (x : ℂ)) :
    (slabs ext (fun _ => 0) { raceStruct with wavelength := some w } none).1 =
      .ok (some [⟨0, some 1, 0, 0⟩, ⟨0, some (x : ℂ), 0, 0⟩]) := by
  rw [slabs_plain ext _ (raceStruct_plain (some w))]
  have h1 : ∀ st : Settings, layerRi ext st (.const 658 1 0) = some 1 := by
    intro st
    simp only [layerRi, Scat.dispersive, if_true]
    cases st.wavelength <;> simp [Scat.complex, Scat.at, Complex.ext_iff]
  have h2 : ∀ st : Settings, st.wavelength = some w → layerRi ext st raceScat = some (x : ℂ) := by
    intro st hst
    simp only [layerRi, hst]
    rw [if_pos (by rfl)]
    exact h
  simp [raceStruct, solvRows, compRow, dry, h1, h2]

theorem race_at (zs : List Layer → ℝ → ℝ → Bool) {x : ℝ} (hx : 0 < x) :
    (deltaPsiTMM zs [0] [⟨0, some 1, 0, 0⟩, ⟨0, some (x : ℂ), 0, 0⟩] 1000 0 false).1 =
      .ok [if x = 1 then (none, none) else (some 45, some 180)] := by
  have hp : Physical ⟨((1 : ℝ) : ℂ), [], (x : ℂ)⟩ 1 (rad 0) 1000 := by
    rw [rad, zero_mul]
    exact physical_normal one_pos (by norm_num) (by simp) (by simp [PassiveIndex, hx])
  have hr : RowsOf [⟨0, some 1, 0, 0⟩, ⟨0, some (x : ℂ), 0, 0⟩] ⟨((1 : ℝ) : ℂ), [], (x : ℂ)⟩ :=
    ⟨_, [], _, 1, rfl, rfl, by simp, .nil, rfl⟩
  obtain ⟨rs, ts, rp, tp, h1, h2, -, -, h3, -⟩ := bare_amps hp
  rw [deltaPsi_rows hr hp.nz hp.lam_pos.ne']
  have e0 : rad 0 = 0 := by simp [rad]
  have h1' := h1
  have h2' := h2
  rw [e0] at h1' h2'
  obtain ⟨e1, e2⟩ := solveSt_normal h1' h2'
  subst e1 e2
  simp only [List.map_cons, List.map_nil]
  rw [h1, h2, psiDelta_opposite]
  have hx' : (x : ℂ) ≠ 0 := Complex.ofReal_ne_zero.mpr hx.ne'
  rw [e0] at h3
  simp only [Real.sin_zero, Real.cos_zero, mul_zero, mul_one, qOf, Complex.ofReal_zero, zero_div, root1m_zero,
    Complex.ofReal_one] at h3
  have hz : rs = 0 ↔ x = 1 := by
    constructor
    · rintro rfl
      rw [zero_mul] at h3
      exact_mod_cast (sub_eq_zero.mp h3.symm).symm
    · rintro rfl
      rw [Complex.ofReal_one, sub_self] at h3
      exact (mul_eq_zero.mp h3).resolve_right (by norm_num)
  by_cases h : x = 1
  · rw [if_pos h, if_pos (hz.mpr h)]
  · rw [if_neg h, if_neg (fun e => h (hz.mp e)), add_zero]

theorem race_scat (z : SqrtOracle) : raceScat.complex z (some 1000) = some ((2 : ℝ) : ℂ) ∧
    raceScat.complex z (some 500) = some ((1 : ℝ) : ℂ) := by
  constructor <;> simp [raceScat, Scat.complex, Scat.at, pickWav, rdiv, Complex.ext_iff] <;> norm_num

theorem npUnique_one (w : ℝ) : npUnique [w] = [w] := by
  simp [npUnique]

/-- Two threads, one structure, two wavelengths. -/
noncomputable def raceJobs : ℕ → Job
  | 0 => ⟨{ off := 0 }, 0, [(1000, 0)]⟩
  | _ => ⟨{ off := 0 }, 0, [(500, 0)]⟩

theorem race_model (ext : Ext) (zs : List Layer → ℝ → ℝ → Bool) :
    (model ext zs .float (fun _ => 0) { off := 0 } raceStruct [(1000, 0)]).1 = .ok [(some 45, some 180)] :=
  model_ok.mpr (.cons ⟨_, _, race_rows ext (race_scat ext.zs).1, race_at zs two_pos, by
    rw [if_neg (by norm_num)]; simp [DType.storeCell, DType.store]⟩ .nil)

/-- C151 fails for a structure that two threads evaluate at different wavelengths.  At 1000 nm psi of this surface
is 45 and delta 180 degrees at normal incidence.  If the second thread asks for 500 nm just after the first has
set the wavelength, the first thread returns the values for the index at 500 nm, of which there are none. -/
theorem C151_fails_race (ext : Ext) (zs : List Layer → ℝ → ℝ → Bool) :
    (model ext zs .float (fun _ => 0) (raceJobs 0).rm raceStruct (raceJobs 0).pts).1 =
      .ok [(some 45, some 180)] ∧
    ∃ sched : List ℕ, ((start ext zs .float (fun _ => 0) (fun _ => raceStruct) raceJobs).exec
      (fun j => (raceJobs j).sid) sched).prog 0 = .ret (.ok [(none, none)]) := by
  have hm : maskEq [(1000 : ℝ)] 1000 = [true] := by simp [maskEq]
  constructor
  · exact race_model ext zs
  · obtain ⟨c, hc⟩ : ∃ c, c = (start ext zs .float (fun _ => 0) (fun _ => raceStruct) raceJobs).exec
      (fun j => (raceJobs j).sid) [0, 1] := ⟨_, rfl⟩
    obtain ⟨k, hk⟩ : ∃ k, (start ext zs .float (fun _ => 0) (fun _ => raceStruct) raceJobs).prog 0 =
        .write 1000 k ∧ (k.run (some 500)).1 = .ok [(none, none)] := by
      simp only [start, modelProg, raceJobs, List.map_cons, List.map_nil, npUnique_one, loopProg]
      refine ⟨_, rfl, ?_⟩
      rw [run_andThen, run_slabs, race_rows ext (race_scat ext.zs).2]
      simp only [hm, pick]
      rw [race_at zs one_pos, if_pos rfl]
      simp [scatter, DType.storeCell, DType.store, Prog.run]
    obtain ⟨k', hk'⟩ : ∃ k', (start ext zs .float (fun _ => 0) (fun _ => raceStruct) raceJobs).prog 1 =
        .write 500 k' := by
      simp only [start, modelProg, raceJobs, List.map_cons, List.map_nil, npUnique_one, loopProg]
      exact ⟨_, rfl⟩
    have h0 : c.prog 0 = k ∧ c.cell 0 = some 500 := by
      rw [hc]
      simp only [Conf.exec, List.foldl_cons, List.foldl_nil]
      rw [Conf.step.eq_def]
      rw [step_other (by decide)]
      simp only [Conf.step, hk.1, hk']
      simp [raceJobs]
    obtain ⟨h1, h2⟩ := exec_alone (sid := fun j => (raceJobs j).sid) (i := 0)
      (List.replicate ((c.prog 0).len (c.cell 0)) 0) (fun j hj hne => absurd (List.eq_of_mem_replicate hj) hne) c
    rw [List.count_replicate_self] at h2
    obtain ⟨a, ha⟩ := ret_of_len (h2.trans (Nat.sub_self _))
    refine ⟨[0, 1] ++ List.replicate ((c.prog 0).len (c.cell 0)) 0, ?_⟩
    rw [Conf.exec, List.foldl_append, ← Conf.exec, ← Conf.exec, ← hc]
    rw [ha]
    rw [ha] at h1
    have := congrArg Prod.fst h1
    rw [show c.cell (raceJobs 0).sid = some 500 from h0.2, h0.1, hk.2] at this
    exact congrArg _ this

/-- Non-vacuity: the same two threads with a structure for each of them. -/
example (ext : Ext) (zs : List Layer → ℝ → ℝ → Bool) : ∃ N : ℕ, ∀ sched : List ℕ, (∀ j ∈ sched, j ≤ 1) →
    N ≤ sched.count 0 → ((start ext zs .float (fun _ => 0) (fun _ => raceStruct)
      (fun j => { raceJobs j with sid := j })).exec (fun j => j) sched).prog 0 =
        .ret (.ok [(some 45, some 180)]) := by
  obtain ⟨N, hN⟩ := C151_alone_partial ext zs .float (fun _ => 0) (fun _ => raceStruct)
    (fun j => { raceJobs j with sid := j }) 0
  refine ⟨N, fun sched _ hc => ?_⟩
  rw [(hN sched fun j _ hj => hj).2 hc]
  exact congrArg _ (race_model ext zs)

/-- Non-vacuity: any number of threads with one structure, all at 1000 nm. -/
example (ext : Ext) (zs : List Layer → ℝ → ℝ → Bool) : ∃ N : ℕ, ∀ sched : List ℕ, N ≤ sched.count 7 →
    ((start ext zs .float (fun _ => 0) (fun _ => raceStruct) (fun _ => raceJobs 0)).exec
      (fun _ => (raceJobs 0).sid) sched).prog 7 = .ret (.ok [(some 45, some 180)]) := by
  obtain ⟨N, hN⟩ := C151_one_wavelength_partial ext zs .float (fun _ => 0) (fun _ => raceStruct)
    (fun _ => raceJobs 0) 7 1000
  refine ⟨N, fun sched hc => ?_⟩
  rw [(hN sched (by simp [raceJobs]) (by simp [raceJobs])).2 hc]
  exact congrArg _ (race_model ext zs)

end Verif.RModel
