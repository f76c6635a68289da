import Verif.Struct.Spec

/-! # Lemmas about building structures -/

namespace Verif.Struct
open Verif.Disp

theorem Local.mono {α : Type} {f : Vals → α} {n m : ℕ} (h : Local n f) (hnm : n ≤ m) : Local m f :=
  fun v v' hv => h v v' fun p hp => hv p (by omega)

theorem CompOk.mono {c : Comp} {n m : ℕ} (h : CompOk n c) (hnm : n ≤ m) : CompOk m c := by
  cases c with
  | slab t r g f d => exact ⟨h.1.trans_le hnm, h.2.1.trans_le hnm, h.2.2.1.trans_le hnm, h.2.2.2.mono hnm⟩
  | mixed t a b f g d =>
    exact ⟨h.1.trans_le hnm, h.2.1.trans_le hnm, h.2.2.1.trans_le hnm, h.2.2.2.1.mono hnm,
      h.2.2.2.2.mono hnm⟩
  | other r d => exact Local.mono h hnm

theorem EntryOk.mono {o : PyObj} {n m : ℕ} (h : EntryOk n o) (hnm : n ≤ m) : EntryOk m o := by
  cases o with
  | comp c => exact CompOk.mono h hnm
  | _ => trivial

theorem view_congr {c : Comp} {n : ℕ} (h : CompOk n c) {v v' : Vals} (hv : ∀ p < n, v' p = v p) :
    c.view v' = c.view v := by
  cases c with
  | slab t r g f d =>
    simp only [Comp.view, hv t h.1, hv g h.2.1, hv f h.2.2.1, h.2.2.2 v' v hv]
  | mixed t a b f g d =>
    simp only [Comp.view, hv t h.1, hv g h.2.1, hv f h.2.2.1, h.2.2.2.1 v' v hv, h.2.2.2.2 v' v hv]
  | other r d => simp only [Comp.view, h v' v hv]

theorem entryView_congr {o : PyObj} {n : ℕ} (h : EntryOk n o) {v v' : Vals}
    (hv : ∀ p < n, v' p = v p) : entryView v' o = entryView v o := by
  cases o with
  | comp c => simp [entryView, view_congr h hv]
  | _ => rfl

theorem Preserved.refl (w : World) : Preserved w w := ⟨le_rfl, le_rfl, fun _ _ => rfl, fun _ _ => rfl⟩

theorem Preserved.trans {w w' w'' : World} (h : Preserved w w') (h' : Preserved w' w'') :
    Preserved w w'' :=
  ⟨h.1.trans h'.1, h.2.1.trans h'.2.1,
    fun p hp => (h'.2.2.1 p (hp.trans_le h.1)).trans (h.2.2.1 p hp),
    fun i hi => (h'.2.2.2 i (hi.trans_le h.2.1)).trans (h.2.2.2 i hi)⟩

theorem content_preserved {w w' : World} (hp : Preserved w w') (hw : w.Ok) {o : PyObj}
    (ho : OperandOk w o) : content w' o = content w o := by
  cases o with
  | comp c => simp only [content, view_congr ho hp.2.2.1]
  | scat s => simp only [content, ho w'.vals w.vals hp.2.2.1]
  | struct id =>
    simp only [content, hp.2.2.2 id ho]
    apply List.map_congr_left
    intro e he
    exact entryView_congr (hw id ho e he) hp.2.2.1
  | junk => rfl

theorem OperandOk.mono {w w' : World} (hp : Preserved w w') {o : PyObj} (ho : OperandOk w o) :
    OperandOk w' o := by
  cases o with
  | comp c => exact CompOk.mono ho hp.1
  | scat s => exact Local.mono ho hp.1
  | struct id => exact lt_of_lt_of_le ho hp.2.1
  | junk => trivial

/-! ### Allocation -/

theorem callScat_spec (w : World) (s : ScatObj) (hs : Local w.nextP s) :
    ∃ w' c, w.callScat s 0 0 0 = (w', c) ∧ Preserved w w' ∧ w'.structs = w.structs ∧
      w'.nextS = w.nextS ∧ CompOk w'.nextP c ∧ c.view w'.vals = .slab 0 (s w.vals) 0 0 true := by
  have hfresh : ∀ p < w.nextP, (if p = w.nextP + 1 + 1 then (0 : ℝ) else
      if p = w.nextP + 1 then 0 else if p = w.nextP then 0 else w.vals p) = w.vals p := by
    intro p hp
    rw [if_neg (by omega), if_neg (by omega), if_neg (by omega)]
  refine ⟨{ w with
      vals := fun p => if p = w.nextP + 1 + 1 then 0 else if p = w.nextP + 1 then 0 else
        if p = w.nextP then 0 else w.vals p
      nextP := w.nextP + 1 + 1 + 1 }, .slab w.nextP s (w.nextP + 1) (w.nextP + 1 + 1) true, rfl,
    ⟨?_, le_rfl, hfresh, fun _ _ => rfl⟩, rfl, rfl, ?_, ?_⟩
  · show w.nextP ≤ w.nextP + 1 + 1 + 1
    omega
  · exact ⟨by show _ < w.nextP + 1 + 1 + 1; omega, by show _ < w.nextP + 1 + 1 + 1; omega,
      by show _ < w.nextP + 1 + 1 + 1; omega,
      hs.mono (by show _ ≤ w.nextP + 1 + 1 + 1; omega)⟩
  · simp only [Comp.view]
    congr 1
    · simp
    · exact hs _ _ hfresh
    · simp

theorem newStruct_preserved (w : World) (s : Structure) : Preserved w (w.newStruct s).1 := by
  refine ⟨le_rfl, Nat.le_succ _, fun _ _ => rfl, fun i hi => ?_⟩
  simp only [World.newStruct]
  rw [if_neg (by omega)]

theorem newStruct_ok {w : World} (hw : w.Ok) {s : Structure} (hs : ∀ o ∈ s.data, EntryOk w.nextP o) :
    (w.newStruct s).1.Ok := by
  intro i hi o ho
  simp only [World.newStruct] at hi ho ⊢
  by_cases h : i = w.nextS
  · rw [if_pos h] at ho; exact hs o ho
  · rw [if_neg h] at ho
    exact hw i (by omega) o ho

/-- `|=` on structure `p` with a legal operand: the content is appended, everything else stays. -/
theorem ior_spec {w : World} (hw : w.Ok) {p : ℕ} (hp : p < w.nextS) {o : PyObj}
    (ho : OperandOk w o) (hj : NotJunk o) :
    ∃ w', w.ior p o = (w', .ok ()) ∧ w'.Ok ∧ w.nextP ≤ w'.nextP ∧ w'.nextS = w.nextS ∧
      (∀ q < w.nextP, w'.vals q = w.vals q) ∧ (∀ id, id ≠ p → w'.structs id = w.structs id) ∧
      (w'.structs p).toSettings = (w.structs p).toSettings ∧
      (w'.structs p).name = (w.structs p).name ∧
      content w' (.struct p) = content w (.struct p) ++ content w o ∧
      (OnlyComps (w.structs p) → (∀ id, o = .struct id → OnlyComps (w.structs id)) →
        OnlyComps (w'.structs p)) := by
  have happ : ∀ (w0 : World) (es : List PyObj), w0.Ok → w0.nextS = w.nextS →
      w0.structs = w.structs → Preserved w w0 → (∀ e ∈ es, EntryOk w0.nextP e) →
      es.map (entryView w0.vals) = content w o → 
      (OnlyComps (w.structs p) → (∀ id, o = .struct id → OnlyComps (w.structs id)) → 
        ∀ e ∈ es, ∃ c, e = .comp c) →
      ∃ w', (w0.setStruct p { w0.structs p with data := (w0.structs p).data ++ es }, 
          (Except.ok () : Except PyErr Unit)) = (w', .ok ()) ∧
        w'.Ok ∧ w.nextP ≤ w'.nextP ∧ w'.nextS = w.nextS ∧
        (∀ q < w.nextP, w'.vals q = w.vals q) ∧ (∀ id, id ≠ p → w'.structs id = w.structs id) ∧
        (w'.structs p).toSettings = (w.structs p).toSettings ∧
        (w'.structs p).name = (w.structs p).name ∧
        content w' (.struct p) = content w (.struct p) ++ content w o ∧
        (OnlyComps (w.structs p) → (∀ id, o = .struct id → OnlyComps (w.structs id)) →
          OnlyComps (w'.structs p)) := by
    intro w0 es h0 hS hst hpres hes hcont honly
    refine ⟨_, rfl, ?_, hpres.1, hS, hpres.2.2.1, ?_, ?_, ?_, ?_, ?_⟩
    · intro i hi e he
      simp only [World.setStruct] at hi he ⊢
      by_cases h : i = p
      · rw [if_pos h] at he
        simp only [List.mem_append] at he
        rcases he with he | he
        · exact h0 p (by omega) e he
        · exact hes e he
      · rw [if_neg h] at he
        exact h0 i hi e he
    · intro id hid
      simp [World.setStruct, hid, hst]
    · simp [World.setStruct, hst]
    · simp [World.setStruct, hst]
    · simp only [content, World.setStruct, if_true, List.map_append, hcont, hst]
      congr 1
      apply List.map_congr_left
      intro e he
      exact entryView_congr (hw p hp e he) hpres.2.2.1
    · intro h1 h2 e he
      simp only [World.setStruct, if_true, List.mem_append, hst] at he
      rcases he with he | he
      · exact h1 e he
      · exact honly h1 h2 e he
  cases o with
  | comp c =>
    exact happ w [.comp c] hw rfl rfl (Preserved.refl w) (by simpa [EntryOk, OperandOk] using ho)
      (by simp [entryView, content]) (by simp)
  | struct j =>
    exact happ w (w.structs j).data hw rfl rfl (Preserved.refl w) (hw j ho) rfl
      (fun _ h => h j rfl)
  | scat s =>
    obtain ⟨w0, c, hc, hpres, hst, hS, hok, hv⟩ := callScat_spec w s ho
    simp only [World.ior, hc, World.append]
    refine happ w0 [.comp c] ?_ hS hst hpres (by simpa [EntryOk] using hok)
      (by simp [entryView, content, hv]) (by simp)
    intro i hi e he
    rw [hst] at he
    exact (hw i (by omega) e he).mono hpres.1
  | junk => exact absurd hj id

end Verif.Struct
