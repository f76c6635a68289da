import Verif.Obj.PropsSim

/-! # Folding delta into 0..180 (C141) -/

namespace Verif.Obj
open Verif.Struct Verif.TMM Verif.RModel Verif.Data

variable {env : Env}

/-- One residual, with unfolded and with folded data: both are not finite, or the second is not larger. -/
def NotWorse (x y : Option ℝ) : Prop :=
  (x = none ∧ y = none) ∨ ∃ a b : ℝ, x = some a ∧ y = some b ∧ 0 ≤ b ∧ b ≤ a

/-- Folding two angles between 0 and 360 does not move them apart. -/
theorem fold_contracts {a b : ℝ} (ha : 0 ≤ a ∧ a ≤ 360) (hb : 0 ≤ b ∧ b ≤ 360) :
    0 ≤ circularDistance (reflect1 a) (reflect1 b) 360 ∧
    circularDistance (reflect1 a) (reflect1 b) 360 ≤ circularDistance a b 360 := by
  unfold circularDistance reflect1
  constructor
  · refine le_min (abs_nonneg _) ?_
    split_ifs <;> rw [sub_nonneg, abs_le] <;> constructor <;> linarith
  · refine (min_le_left _ _).trans (le_min ?_ ?_)
    · split_ifs <;> rw [abs_le] <;> rcases abs_cases (a - b) with ⟨h, _⟩ | ⟨h, _⟩ <;> rw [h] <;> constructor <;> linarith
    · split_ifs <;> rw [abs_le] <;> rcases abs_cases (a - b) with ⟨h, _⟩ | ⟨h, _⟩ <;> rw [h] <;> constructor <;> linarith

theorem psiDelta_fold (σ : Bool) (am : Amps) :
    psiDelta σ true 0 am = ((psiDelta σ false 0 am).1, (psiDelta σ false 0 am).2.map reflect1) ∧
    ∀ x ∈ (psiDelta σ false 0 am).2, 0 ≤ x ∧ x ≤ 360 := by
  have hpi := Real.pi_pos
  obtain ⟨_ | ⟨rs, ts⟩, _ | ⟨rp, tp⟩⟩ := am <;> simp only [psiDelta, Option.map_none, Option.not_mem_none,
    false_implies, implies_true, and_true]
  have hr : ∀ x ∈ deltaRad σ rs rp, 0 ≤ x ∧ x ≤ 2 * Real.pi := by
    intro x hx
    unfold deltaRad at hx
    cases h1 : cdiv (-rp) rs with
    | none => simp [h1] at hx
    | some z =>
      cases h2 : cdiv 1 z with
      | none => simp [h1, h2] at hx
      | some w =>
        simp only [h1, h2, Option.bind_eq_bind, Option.bind_some, Option.mem_def, Option.some.injEq] at hx
        have := npAngle_mem σ w
        constructor <;> linarith
  cases hd : deltaRad σ rs rp with
  | none => simp
  | some x =>
    obtain ⟨h1, h2⟩ := hr x (by rw [hd]; rfl)
    simp only [Option.map_some, add_zero, reflectRad, if_true, Bool.false_eq_true, if_false, Option.mem_def,
      Option.some.injEq, forall_eq']
    have e : ∀ y : ℝ, y * (180 / Real.pi) = y / Real.pi * 180 := fun y => by field_simp
    refine ⟨?_, by positivity, ?_⟩
    · congr 2
      unfold reflect1
      by_cases h : Real.pi < x
      · have : 180 < x * (180 / Real.pi) := by
          rw [e]; have := (one_lt_div hpi).mpr h; linarith
        rw [if_pos h, if_pos this]
        field_simp
        ring
      · have : ¬ 180 < x * (180 / Real.pi) := by
          rw [e]; have := (div_le_one hpi).mpr (not_lt.mp h); linarith
        rw [if_neg h, if_neg this]
    · rw [e]
      have : x / Real.pi ≤ 2 := by rw [div_le_iff₀ hpi]; exact h2
      linarith

theorem pointVal_fold {ext : Ext} {zs : List Layer → ℝ → ℝ → Bool} {v : Vals} {off : PId} (h0 : v off = 0)
    {s : Structure} {pt : ℝ × ℝ} {x : Cell} (h : PointVal ext zs .float v ⟨off, false⟩ s pt x) :
    PointVal ext zs .float v ⟨off, true⟩ s pt (x.1, x.2.map reflect1) ∧ ∀ d ∈ x.2, 0 ≤ d ∧ d ≤ 360 := by
  obtain ⟨rows, y, h1, h2, rfl⟩ := h
  have hst : ∀ c : Cell, DType.float.storeCell c = c := fun c => rfl
  rw [hst]
  simp only [h0] at h2
  cases rows with
  | nil => simp [deltaPsiTMM] at h2
  | cons r rest =>
    simp only [deltaPsiTMM, List.map_cons, List.map_nil] at h2
    cases hc : cohTmm (toLayers (zeroFrontK (r :: rest))) [(((pt.2 * (Real.pi / 180) : ℝ) : ℂ), pt.1)] with
    | error e => rw [hc] at h2; simp [Except.map] at h2
    | ok amps =>
      rw [hc] at h2
      simp only [Except.map, Except.ok.injEq] at h2
      cases amps with
      | nil => simp at h2
      | cons am amps =>
        simp only [List.zipWith_cons_cons, List.zipWith_nil_left, List.cons.injEq, and_true] at h2
        obtain ⟨f1, f2⟩ := psiDelta_fold (zs (toLayers (zeroFrontK (r :: rest))) pt.2 pt.1) am
        rw [h2] at f1 f2
        refine ⟨⟨r :: rest, (y.1, y.2.map reflect1), h1, ?_, rfl⟩, f2⟩
        simp only [deltaPsiTMM, List.map_cons, List.map_nil, h0, hc, Except.map, List.zipWith_cons_cons,
          List.zipWith_nil_left, f1]

/-- The state in which the arrays of `h` are in memory. -/
def withHeap (st : St) (h : Heap) : St := { st with heap := h }

/-- C141, partial: reading data with `reflect_delta=True` instead of as it is does not change the residuals of
psi and does not increase those of delta, whatever the model did before.  In particular a perfect fit remains
one.  Missing: models with an offset of delta, for which this is false (`C141_fails_offset`); wavelengths that
are integers. -/
theorem C141_residuals_partial (c : Codec) (hdt : env.dt = .float) {st : St} {m : ℕ}
    (h0 : st.vals (st.models m).rm.off = 0) {h : Heap} {w a p d : ℕ} {pts : List Pt}
    (hw : h.arr w = ⟨false, pts.map (·.1)⟩) (ha : h.arr a = ⟨false, pts.map (·.2.1)⟩)
    (hp : h.arr p = ⟨false, pts.map (·.2.2.1)⟩) (hd : h.arr d = ⟨false, pts.map (·.2.2.2)⟩)
    (hwd : w ≠ d) (had : a ≠ d) (hpd : p ≠ d) (hrange : ∀ q ∈ pts, 0 ≤ q.2.2.2 ∧ q.2.2.2 ≤ 360)
    (ln : Option PId) (use : Bool) (lp : Option (MObj → DS → St → ℝ)) :
    ∃ ds ds' h', mk c h (.arrays w a p d) false = .ok (ds, h) ∧ mk c h (.arrays w a p d) true = .ok (ds', h') ∧
      let r := mkObjective (withHeap st h) m ds ln use lp
      let r' := mkObjective (withHeap st h') m ds' ln use lp
      (∀ x y : List (Option ℝ), x.length = pts.length → (residuals env r.1 none r.2).1 = .ok (x ++ y) →
        ∃ y', (residuals env r'.1 none r'.2).1 = .ok (x ++ y') ∧ List.Forall₂ NotWorse y y') ∧
      ∀ x, (chisqr env r.1 none r.2).1 = .ok (some x) →
        ∃ x', (chisqr env r'.1 none r'.2).1 = .ok (some x') ∧ x' ≤ x := by
  have hmk := mk_arrays c h (w := w) (a := a) (p := p) (d := d) (by rw [hd]) false
  obtain ⟨ds', h', k1, k2, -⟩ := C61_reflect_partial c h
    (o := { wav := w, aoi := a, psi := p, dlt := d, mask := none, flipped := false }) (pts := pts)
    ⟨hw, ha, hp, hd⟩ hwd had hpd
  have hfl := (C98_new_partial c h h' _ _ _ _ ds' k1).1
  refine ⟨_, ds', h', hmk, k1, ?_⟩
  intro r r'
  have hpres : Presents r.2.heap r.1.data pts := presents_all ⟨hw, ha, hp, hd⟩ rfl
  have hpres' : Presents r'.2.heap r'.1.data (pts.map fun q => (q.1, q.2.1, q.2.2.1,
      if 180 < q.2.2.2 then 360 - q.2.2.2 else q.2.2.2)) := k2
  have hres : ∀ x y : List (Option ℝ), x.length = pts.length → (residuals env r.1 none r.2).1 = .ok (x ++ y) →
      ∃ y', (residuals env r'.1 none r'.2).1 = .ok (x ++ y') ∧ List.Forall₂ NotWorse y y' := by
    intro x y hx hxy
    obtain ⟨cells, hv, he⟩ := (C81_residuals hpres).mp hxy
    have hlen : pts.length = cells.length := hv.length_eq
    have hsplit := List.append_inj he (by rw [hx]; simp [hlen])
    have hpv := values_iff.mp hv
    have hm : (r.2.models r.1.model).rm = ⟨(st.models m).rm.off, false⟩ := by simp [r, mkObjective, withHeap]
    have hm' : (r'.2.models r'.1.model).rm = ⟨(st.models m).rm.off, true⟩ := by
      simp [r', mkObjective, withHeap, hfl]
    have hs' : r'.2.structs (r'.2.models r'.1.model).str = r.2.structs (r.2.models r.1.model).str := by
      simp [r, r', mkObjective, withHeap]
    unfold PointValues at hpv
    rw [hm, hdt] at hpv
    have hvals : r.2.vals = st.vals := rfl
    rw [hvals] at hpv
    have hall : List.Forall₂ (fun (pt : Pt) (x : Cell) =>
        PointVal env.ext env.zs .float st.vals ⟨(st.models m).rm.off, true⟩
          (r.2.structs (r.2.models r.1.model).str) (pt.1, pt.2.1) (x.1, x.2.map reflect1) ∧
        ∀ d ∈ x.2, 0 ≤ d ∧ d ≤ 360) pts cells := hpv.imp fun pt x hx => pointVal_fold h0 hx
    have hv' : Values env r'.1 r'.2 (pts.map fun q => (q.1, q.2.1, q.2.2.1,
        if 180 < q.2.2.2 then 360 - q.2.2.2 else q.2.2.2)) (cells.map fun x => (x.1, x.2.map reflect1)) := by
      rw [values_iff]
      unfold PointValues
      rw [hm', hs', hdt, List.forall₂_map_left_iff, List.forall₂_map_right_iff]
      exact hall.imp fun pt x hx => hx.1
    have hr' := (C81_residuals hpres').mpr ⟨_, hv', rfl⟩
    rw [List.zip_map, List.map_map, List.map_map] at hr'
    refine ⟨_, hr'.trans (congrArg (fun u => Except.ok (u ++ _)) hsplit.1.symm), ?_⟩
    rw [hsplit.2]
    clear hr' hv' hpv he hsplit hpres hpres' hx hxy hlen hv k2 hw ha hp hd hmk k1
    induction hall with
    | nil => exact .nil
    | @cons q x l l' h1 _ ih =>
      simp only [List.zip_cons_cons, List.map_cons, Function.comp]
      refine .cons ?_ (ih fun q hq => hrange q (by simp [hq]))
      obtain ⟨ψ, _ | Δ⟩ := x
      · exact .inl ⟨rfl, rfl⟩
      · obtain ⟨f1, f2⟩ := fold_contracts (h1.2 Δ rfl) (hrange q (by simp))
        exact .inr ⟨_, _, rfl, rfl, f1, f2⟩
  refine ⟨hres, ?_⟩
  intro x hx
  rw [chisqr_eq] at hx ⊢
  cases hR : (residuals env r.1 none r.2).1 with
  | error e => rw [hR] at hx; simp [Except.map] at hx
  | ok l =>
    have hl : ∃ u v, l = u ++ v ∧ u.length = pts.length := by
      obtain ⟨cells, hv, he⟩ := (C81_residuals hpres).mp hR
      exact ⟨_, _, he, by simp [hv.length_eq]⟩
    obtain ⟨u, v, rfl, hu⟩ := hl
    obtain ⟨v', hv', hnw⟩ := hres u v hu hR
    rw [hR] at hx
    rw [hv']
    simp only [Except.map, Except.ok.injEq] at hx ⊢
    -- sums of squares
    have hsum : ∀ (u v v' : List (Option ℝ)) x, List.Forall₂ NotWorse v v' →
        (finite (u ++ v)).map (fun l => (l.map fun x => x * x).sum) = some x →
        ∃ x', (finite (u ++ v')).map (fun l => (l.map fun x => x * x).sum) = some x' ∧ x' ≤ x := by
      intro u v v' x hnw
      induction u generalizing x with
      | nil =>
        simp only [List.nil_append]
        induction hnw generalizing x with
        | nil => intro h; exact ⟨x, h, le_rfl⟩
        | @cons a b l l' hab _ ih =>
          rcases hab with ⟨rfl, rfl⟩ | ⟨a, b, rfl, rfl, h1, h2⟩
          · simp [finite]
          · simp only [finite, Option.map_map]
            cases hf : finite l with
            | none => simp
            | some k =>
              intro hx
              obtain ⟨x', e', le'⟩ := ih (x := (k.map fun x => x * x).sum) (by rw [hf]; rfl)
              cases hf' : finite l' with
              | none => rw [hf'] at e'; simp at e'
              | some k' =>
                rw [hf'] at e'
                simp only [Option.map_some, Option.some.injEq, Function.comp, List.map_cons, List.sum_cons] at hx e' ⊢
                refine ⟨_, rfl, ?_⟩
                rw [← hx, e']
                nlinarith
      | cons a u ih =>
        cases a with
        | none => simp [finite]
        | some a =>
          simp only [List.cons_append, finite, Option.map_map]
          cases hf : finite (u ++ v) with
          | none => simp
          | some k =>
            intro hx
            obtain ⟨x', e', le'⟩ := ih (x := (k.map fun x => x * x).sum) (by rw [hf]; rfl)
            cases hf' : finite (u ++ v') with
            | none => rw [hf'] at e'; simp at e'
            | some k' =>
              rw [hf'] at e'
              simp only [Option.map_some, Option.some.injEq, Function.comp, List.map_cons, List.sum_cons] at hx e' ⊢
              refine ⟨_, rfl, ?_⟩
              rw [← hx, e']
              linarith
    exact hsum u v v' x hnw hx

/-- Non-vacuity: the film of C89, whose data have a delta above 180 and are fitted exactly. -/
example (env : Env) (hdt : env.dt = .float) : ∃ ψ Δ : ℝ, 180 < Δ ∧ Δ ≤ 360 ∧
    (filmOffSt ψ Δ 0 false).vals ((filmOffSt ψ Δ 0 false).models 0).rm.off = 0 ∧
    Holds (filmOffSt ψ Δ 0 false).heap (filmData false) [(480, filmAoi, ψ, Δ)] ∧
    Simulates env (filmOffSt ψ Δ 0 false) 0 [(480, filmAoi, ψ, Δ)] := by
  obtain ⟨ψ, Δ, h1, h2, h⟩ := film_delta env.zs
  have hf := (h 0).1
  rw [add_zero] at hf
  exact ⟨ψ, Δ, h1, h2.le, by simp [filmOffSt], ⟨rfl, rfl, rfl, rfl⟩, filmOff_simulates hdt _ _ hf⟩

/-- C141 fails with an offset of delta: the data are fitted exactly as they are, but not if they are read with
`reflect_delta=True`, because the model adds the offset after folding. -/
theorem C141_fails_offset (c : Codec) (env : Env) (hdt : env.dt = .float) : ∃ (st : St) (pts : List Pt),
    Holds st.heap (filmData false) pts ∧ (∀ q ∈ pts, 0 ≤ q.2.2.2 ∧ q.2.2.2 ≤ 360) ∧
    ∃ ds ds' h', mk c st.heap (.arrays 0 1 2 3) false = .ok (ds, st.heap) ∧
      mk c st.heap (.arrays 0 1 2 3) true = .ok (ds', h') ∧
      let r := mkObjective st 0 ds none false none
      let r' := mkObjective (withHeap st h') 0 ds' none false none
      (residuals env r.1 none r.2).1 = .ok [some 0, some 0] ∧
      ∃ x : ℝ, 0 < x ∧ (residuals env r'.1 none r'.2).1 = .ok [some 0, some x] := by
  obtain ⟨ψ, Δ, h1, h2, h⟩ := film_delta env.zs
  obtain ⟨off, ho⟩ : ∃ off : ℝ, off = (360 - Δ) / 2 := ⟨_, rfl⟩
  obtain ⟨hf, ht⟩ := h off
  have hold : Holds (filmOffSt ψ (Δ + off) off false).heap (filmData false) [(480, filmAoi, ψ, Δ + off)] :=
    ⟨rfl, rfl, rfl, rfl⟩
  obtain ⟨ds', h', k1, k2, -⟩ := C61_reflect_partial c (filmOffSt ψ (Δ + off) off false).heap
    (o := filmData false) (pts := [(480, filmAoi, ψ, Δ + off)]) hold (by decide) (by decide) (by decide)
  have hfl := (C98_new_partial c _ h' _ _ _ _ ds' k1).1
  refine ⟨filmOffSt ψ (Δ + off) off false, [(480, filmAoi, ψ, Δ + off)], hold, ?_, _, ds', h',
    mk_arrays c _ rfl false, k1, ?_, 360 - Δ, by linarith, ?_⟩
  · simp only [List.mem_singleton, forall_eq]
    constructor <;> linarith
  · refine (C81_residuals (pts := [(480, filmAoi, ψ, Δ + off)]) ?_).mpr ⟨[(some ψ, some (Δ + off))],
      values_iff.mpr (.cons ⟨filmRows, (some ψ, some (Δ + off)), filmOff_slabs env.ext 480 off, ?_, by rw [hdt]; rfl⟩ .nil),
      by simp [circularDistance]⟩
    · exact filmOff_presents ψ (Δ + off) off false _ ⟨rfl, rfl, rfl, rfl⟩ rfl
    · simpa [filmOffSt, mkObjective] using hf
  · have e : ([(480, filmAoi, ψ, Δ + off)] : List Pt).map (fun q : Pt => (q.1, q.2.1, q.2.2.1,
        if 180 < q.2.2.2 then 360 - q.2.2.2 else q.2.2.2)) = [(480, filmAoi, ψ, 360 - (Δ + off))] := by
      simp only [List.map_cons, List.map_nil]
      rw [if_pos (by linarith)]
    rw [e] at k2
    refine (C81_residuals k2).mpr ⟨[(some ψ, some (360 - Δ + off))],
      values_iff.mpr (.cons ⟨filmRows, (some ψ, some (360 - Δ + off)), filmOff_slabs env.ext 480 off, ?_,
        by rw [hdt]; rfl⟩ .nil), ?_⟩
    · simpa [filmOffSt, mkObjective, withHeap, hfl] using ht
    · have e2 : circularDistance (360 - Δ + off) (360 - (Δ + off)) 360 = 360 - Δ := by
        unfold circularDistance
        rw [show 360 - Δ + off - (360 - (Δ + off)) = 360 - Δ by rw [ho]; ring, abs_of_pos (by linarith),
          min_eq_left (by linarith)]
      simp [e2]

end Verif.Obj
