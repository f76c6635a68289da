import Verif.RModel.AlikeSpec
import Verif.RModel.PropsEndToEnd
import Verif.Disp.PropsUser

/-! # C161: a material acts through its index only -/

namespace Verif.RModel
open Verif.Struct Verif.Disp Verif.TMM

variable {ext : Ext} {v : Vals} {w : ℝ}

theorem layerRi_same {st st' : Settings} (h1 : st.wavelength = some w) (h2 : st'.wavelength = some w) {a b : ScatObj}
    (h : Same ext.zs v w a b) : layerRi ext st (a v) = layerRi ext st' (b v) := by
  obtain ⟨d1, d2, h⟩ := h
  simp [layerRi, d1, d2, h1, h2, h]

theorem rows_same {s t : Structure} (h1 : s.wavelength = some w) (h2 : t.wavelength = some w)
    (h : SameStruct ext.zs v w s t) {c c' : Comp} (hc : SameComp ext.zs v w c c') :
    PyObj.rows ext v s.toSettings (.comp c) = PyObj.rows ext v t.toSettings (.comp c') := by
  cases hc with
  | slab ha => simp only [PyObj.rows, Comp.view, CompView.rows, layerRi_same h1 h2 ha]
  | mixed ha hb =>
    simp only [PyObj.rows, Comp.view, CompView.rows, layerRi_same h1 h2 ha, layerRi_same h1 h2 hb, h.ema, h.dp]
  | other hr =>
    simp only [PyObj.rows, Comp.view, CompView.rows]
    have : t.toSettings = { s.toSettings with solvent := t.solvent } := by
      have e1 := h.reverse; have e2 := h.contract; have e3 := h.ema; have e4 := h.dp
      cases hs : s.toSettings; cases ht : t.toSettings
      simp_all
    rw [this]
    exact (hr s.toSettings t.solvent).symm

theorem componentRows_same {s t : Structure} (h1 : s.wavelength = some w) (h2 : t.wavelength = some w)
    (h : SameStruct ext.zs v w s t) :
    componentRows ext v s.toSettings s.data = componentRows ext v t.toSettings t.data := by
  obtain ⟨l, l', e1, e2, hl⟩ := h.data
  have key : ∀ {l l' : List Comp}, List.Forall₂ (SameComp ext.zs v w) l l' →
      (l.map PyObj.comp).mapM (PyObj.rows ext v s.toSettings) =
        (l'.map PyObj.comp).mapM (PyObj.rows ext v t.toSettings) := by
    intro l l' hl
    induction hl with
    | nil => rfl
    | cons hc _ ih => simp only [List.map_cons, List.mapM_cons, rows_same h1 h2 h hc, ih]
  simp only [componentRows, e1, e2, key hl]

theorem slabs_same {s t : Structure} (h1 : s.wavelength = some w) (h2 : t.wavelength = some w)
    (h : SameStruct ext.zs v w s t) : (slabs ext v s none).1 = (slabs ext v t none).1 := by
  obtain ⟨l, l', e1, e2, hl⟩ := h.data
  have hempty : s.data.isEmpty = t.data.isEmpty := by
    rw [e1, e2]
    cases hl <;> rfl
  have hends : endsAreSlabs s.data = endsAreSlabs t.data := by
    have : ∀ {c c' : Comp}, SameComp ext.zs v w c c' → c.isSlab = c'.isSlab := by
      intro c c' hc
      cases hc <;> rfl
    have hh : Option.Rel (SameComp ext.zs v w) l.head? l'.head? := by cases hl <;> constructor; assumption
    have ht : Option.Rel (SameComp ext.zs v w) l.getLast? l'.getLast? := by
      rw [← List.head?_reverse, ← List.head?_reverse]
      have := List.forall₂_reverse_iff.2 hl
      revert this
      generalize l.reverse = a, l'.reverse = b
      intro hl; cases hl <;> constructor; assumption
    rw [e1, e2]
    simp only [endsAreSlabs, List.head?_map, List.getLast?_map]
    revert hh ht
    generalize l.head? = a, l'.head? = a', l.getLast? = b, l'.getLast? = b'
    intro hh ht
    cases hh with
    | none => rfl
    | some p => cases ht with
      | none => rfl
      | some q => simp [this p, this q]
  have hd : s.data.all PyObj.dflt = true ∧ t.data.all PyObj.dflt = true := by
    rw [e1, e2]
    clear e1 e2 hempty hends
    induction hl with
    | nil => simp
    | cons hc _ ih => cases hc <;> simpa [PyObj.dflt, Comp.dflt] using ih
  have hsolv : ∀ rows, solvate ext v s.toSettings rows = solvate ext v t.toSettings rows := by
    intro rows
    have hm : ∀ o r, mixRows ext s.toSettings o r = mixRows ext t.toSettings o r := by
      intro o r
      simp only [mixRows, h.ema, h.dp]
    unfold solvate
    split_ifs
    · cases hs : s.solvent <;> cases ht : t.solvent
      all_goals
        have := h.solvent
        rw [hs, ht] at this
        cases this
      · simp only [hm]
      · rename_i q
        simp only [hm, h1, h2, q.2.2]
    · rfl
  have hcore : slabsCore ext v s = slabsCore ext v t := by
    simp only [slabsCore, rawRows, hd.1, hd.2, if_true, componentRows_same h1 h2 h, hsolv, h.reverse, h.contract]
  unfold slabs
  rw [hempty, hends]
  split_ifs
  · rfl
  · simp only [hcore]
  · rfl

theorem SameStruct.wav {zs : SqrtOracle} {s t : Structure} (h : SameStruct zs v w s t) (a b : Option ℝ) :
    SameStruct zs v w { s with wavelength := a } { t with wavelength := b } :=
  ⟨h.data, h.solvent, h.reverse, h.contract, h.ema, h.dp⟩

theorem loop_same {zs : List Layer → ℝ → ℝ → Bool} {d : DType} {m : RM} {pts : List (ℝ × ℝ)} :
    ∀ (U : List ℝ) (acc : List Cell) (s t : Structure), (∀ w ∈ U, SameStruct ext.zs v w s t) →
    (modelLoop ext zs d v m pts U acc s).1 = (modelLoop ext zs d v m pts U acc t).1 := by
  intro U
  induction U with
  | nil => intro acc s t _; rfl
  | cons w U ih =>
    intro acc s t h
    have e := slabs_same (ext := ext) rfl rfl ((h w (by simp)).wav (some w) (some w))
    have es := C44_no_keyword ext v { s with wavelength := some w }
    have et := C44_no_keyword ext v { t with wavelength := some w }
    rcases hs : slabs ext v { s with wavelength := some w } none with ⟨r, s1⟩
    rcases ht : slabs ext v { t with wavelength := some w } none with ⟨r', t1⟩
    rw [hs] at es e
    rw [ht] at et e
    simp only at es et e
    subst es et e
    rcases r with _ | _ | rows
    · simp [modelLoop, hs, ht]
    · simp [modelLoop, hs, ht]
    · cases hd : (deltaPsiTMM zs (pick (maskEq (pts.map Prod.fst) w) (pts.map Prod.snd)) rows w (v m.off) m.flip).1 with
      | error e => simp [modelLoop, hs, ht, hd]
      | ok vals =>
        simp only [modelLoop, hs, ht, hd]
        exact ih _ _ _ fun w' hw' => (h w' (by simp [hw'])).wav _ _

/-- C161: two structures that differ only in materials that have the same index at the wavelengths asked for give the
same psi and delta (or the same error), whatever classes the materials belong to. -/
theorem C161_model {zs : List Layer → ℝ → ℝ → Bool} {d : DType} {m : RM} {pts : List (ℝ × ℝ)} {s t : Structure}
    (h : ∀ pt ∈ pts, SameStruct ext.zs v pt.1 s t) :
    (model ext zs d v m s pts).1 = (model ext zs d v m t pts).1 := by
  refine loop_same _ _ _ _ fun w hw => ?_
  rw [mem_npUnique, List.mem_map] at hw
  obtain ⟨pt, hpt, rfl⟩ := hw
  exact h pt hpt

/-- C161: a user defined subclass of `ScattererSE` whose `epsilon` is that of a Lorentz, Gauss or Tauc-Lorentz model has
the same index as the package's class (`zu`: the sign of zero is the same, too), so the two can be exchanged in
`C161_model`. -/
theorem C161_user {zs : SqrtOracle} {zu : ℝ → Bool} {a : ScatObj} {own : Vals → Option ℝ} (hw : w ≠ 0)
    (hs : (∃ wl osc einf, a v = .lorentz wl osc einf) ∨ (∃ wl osc einf, a v = .gauss wl osc einf) ∨
      (∃ wl osc Eg einf, a v = .tauc wl osc Eg einf)) (hz : zu w = zs (a v) w) :
    Same zs v w a fun v => ({ wavelength := own v, epsilon := some (a v).epsilon } : UserScat).scat zu := by
  refine ⟨?_, rfl, ?_⟩
  · rcases hs with ⟨wl, osc, einf, e⟩ | ⟨wl, osc, einf, e⟩ | ⟨wl, osc, Eg, einf, e⟩ <;> rw [e] <;> rfl
  · have hc : (a v).complex zs (some w) = ((a v).epsilon (1239.841984055 / w)).bind fun x =>
        some (npSqrt (zs (a v) w) x) := by
      rcases hs with ⟨wl, osc, einf, e⟩ | ⟨wl, osc, einf, e⟩ | ⟨wl, osc, Eg, einf, e⟩ <;> rw [e] <;>
        simp [Scat.complex, Scat.at, Scat.ownWav, pick_ne hw, nmEV, rdiv, hw]
    rw [hc, ← hz]
    simp [UserScat.scat, Scat.complex, UserScat.complex, pickWavO, hw, nmEV, rdiv]

/-- C161: four ways to write a transparent material of constant index `n`: `RI([n, 0])`, `Cauchy(n)`,
`Sellmeier(0, En, 0, n²)` (away from `En`) and `Lorentz(0, Br, En', n²)` with `Br ≠ 0`. -/
theorem C161_constant (zs : SqrtOracle) {n En Br En' : ℝ} (wl : ℝ) (hn : 0 ≤ n) (hw : w ≠ 0)
    (hE : (w / 1000) ^ 2 ≠ En ^ 2) (hB : Br ≠ 0) {a : ScatObj}
    (ha : (a v = .const wl n 0) ∨ (a v = .cauchy wl n 0 0) ∨ (a v = .sellmeier wl 0 En 0 (n ^ 2)) ∨
      (a v = .lorentz wl [(0, Br, En')] (n ^ 2))) :
    Same zs v w (fun _ => .const 658 n 0) a := by
  have hsq : Real.sqrt (n ^ 2) = n := Real.sqrt_sq hn
  have hconst : (Scat.const 658 n 0).complex zs (some w) = some (n : ℂ) := rfl
  refine ⟨rfl, ?_, ?_⟩
  · rcases ha with e | e | e | e <;> rw [e] <;> rfl
  · rw [hconst]
    rcases ha with e | e | e | e <;> rw [e]
    · rfl
    · simp [Scat.complex, Scat.at, Scat.ownWav, pick_ne hw, rdiv, hw]
    · have h1 : w * 1e-3 = w / 1000 := by norm_num; ring
      have h2 : (w / 1000) ^ 2 - En ^ 2 ≠ 0 := sub_ne_zero.2 hE
      have h3 : ¬ (n ^ 2 < 0) := not_lt.2 (sq_nonneg n)
      simp [Scat.complex, Scat.at, Scat.ownWav, pick_ne hw, sellmeierReal, rdiv, rsqrt, h1, h2, h3, hsq]
    · have he : (1239.841984055 / w : ℝ) ≠ 0 := div_ne_zero (by norm_num) hw
      have hd : ((En' : ℂ) ^ 2 - ((1239.841984055 / w : ℝ) : ℂ) ^ 2 -
          Complex.I * Br * ((1239.841984055 / w : ℝ) : ℂ)) ≠ 0 := by
        generalize (1239.841984055 / w : ℝ) = e at he ⊢
        intro h0
        have := congrArg Complex.im h0
        rw [← Complex.ofReal_pow, ← Complex.ofReal_pow, Complex.sub_im, Complex.sub_im, Complex.ofReal_im,
          Complex.ofReal_im, mul_assoc, ← Complex.ofReal_mul, Complex.I_mul_im, Complex.ofReal_re, Complex.zero_im] at this
        exact mul_ne_zero hB he (by linarith)
      have hs : npSqrt (zs (.lorentz wl [(0, Br, En')] (n ^ 2)) w) ((n : ℂ) ^ 2) = n := by
        rw [← Complex.ofReal_pow, EMA.npSqrt_ofReal_nonneg _ (sq_nonneg n), hsq]
      simp only [Scat.complex, Scat.at, Scat.ownWav, Option.getD_some, pick_ne hw, nmEV, rdiv, hw, if_false,
        Scat.epsilon, lorentzEps, List.map_cons, List.map_nil, sumO, lorentzTerm, cdiv, hd, Option.bind_eq_bind,
        Option.bind_some, Option.pure_def]
      simp [hs]

/-- Non-vacuity: air, a film of index 1.5 and a substrate, written with `RI` and with `Cauchy`. -/
example (ext : Ext) (v : Vals) (w : ℝ) (hw : w ≠ 0) :
    SameStruct ext.zs v w
      { data := [.comp (.slab 0 (fun _ => .const 658 1 0) 1 2 true), .comp (.slab 3 (fun _ => .const 658 1.5 0) 4 5 true),
        .comp (.slab 6 (fun _ => .const 658 3.9 0.02) 7 8 true)] }
      { data := [.comp (.slab 0 (fun _ => .const 658 1 0) 1 2 true), .comp (.slab 3 (fun _ => .cauchy 633 1.5 0 0) 4 5 true),
        .comp (.slab 6 (fun _ => .const 658 3.9 0.02) 7 8 true)], wavelength := some 500 } := by
  refine ⟨⟨[.slab 0 (fun _ => .const 658 1 0) 1 2 true, .slab 3 (fun _ => .const 658 1.5 0) 4 5 true,
    .slab 6 (fun _ => .const 658 3.9 0.02) 7 8 true], [.slab 0 (fun _ => .const 658 1 0) 1 2 true,
    .slab 3 (fun _ => .cauchy 633 1.5 0 0) 4 5 true, .slab 6 (fun _ => .const 658 3.9 0.02) 7 8 true], rfl, rfl, ?_⟩, .none, rfl, rfl, rfl, rfl⟩
  refine .cons (.slab ⟨rfl, rfl, rfl⟩) (.cons (.slab ?_) (.cons (.slab ⟨rfl, rfl, rfl⟩) .nil))
  exact C161_constant _ (En := |w| / 1000 + 1) (Br := 1) (En' := 0) 633 (by norm_num) hw (by
    have : (w / 1000) ^ 2 = (|w| / 1000) ^ 2 := by rw [div_pow, div_pow, sq_abs]
    rw [this]
    have := abs_nonneg w
    nlinarith) one_ne_zero (.inr (.inl rfl))

end Verif.RModel
