import Verif.TMM.ArrayLemmas
import Verif.TMM.PropsMaxwell
import Verif.TMM.PropsObs
import Mathlib.Tactic.IntervalCases

/-!
# Property C123: the array program computes every point as if it were alone
-/

namespace Verif.TMM
open Complex (I)
open Arr (A2 Num Full Fits)

/-- A thickness as an entry of `d_list`. -/
def Thick.num : Thick → Num
  | .fin x => some (x : ℂ)
  | .inf => none

/-- `n_list` and `d_list` hold the layers. -/
def ListsOf (ls : List Layer) (nl d : A2 Num) : Prop :=
  Full nl 1 ls.length (fun _ i => (ls[i]?).bind Layer.n) ∧
    Full d 1 ls.length fun _ i => (ls[i]?).bind fun l => l.d.num

/-- `th_0` and `lam_vac` broadcast to these points. -/
def PointsOf (pts : List (ℂ × ℝ)) (th0 lam : A2 ℂ) : Prop :=
  Fits th0 1 pts.length (fun _ j => (pts.map Prod.fst).getD j 0) ∧
    Fits lam 1 pts.length (fun _ j => (pts.map fun p => (p.2 : ℂ)).getD j 0) ∧
    (th0.c = pts.length ∨ lam.c = pts.length) ∧ (th0.r = 1 ∧ lam.r = 1)

/-- Column `j` of the result of the array program. -/
def Arr.Results.at (res : Arr.Results) (j : ℕ) : Pol → Num × Num
  | .s => (res.rs.get 0 j, res.ts.get 0 j)
  | .p => (res.rp.get 0 j, res.tp.get 0 j)

/-- The columns of the result are the amplitudes at the points. -/
def Arr.Results.Are (res : Arr.Results) (l : List Amps) : Prop :=
  (∀ x ∈ [res.rs, res.ts, res.rp, res.tp], x.r = 1 ∧ x.c = l.length) ∧
    ∀ j a, l[j]? = some a → ∀ pol, res.at j pol = ((a.of pol).map Prod.fst, (a.of pol).map Prod.snd)

theorem getD_map_lt {α β : Type} (f : α → β) (l : List α) {j : ℕ} (hj : j < l.length) (b : β) :
    (l.map f).getD j b = f l[j] := by
  simp [List.getD, hj]

/-- **C123.**  The program as it is written, with arrays of shape (layers, points), gives in each column
what the point by point description gives, and raises the same exceptions. -/
theorem C123_refines {ls : List Layer} {pts : List (ℂ × ℝ)} {nl d : A2 Num} {th0 lam : A2 ℂ}
    (hls : ListsOf ls nl d) (hpts : PointsOf pts th0 lam) :
    match Arr.cohTmm nl d th0 lam, cohTmm ls pts with
    | .ok res, .ok l => l.length = pts.length ∧ res.Are l
    | .error e, .error e' => e = e'
    | _, _ => False := by
  classical
  obtain ⟨hn, hd⟩ := hls
  obtain ⟨p1, p2, p3, p4, p5⟩ := hpts
  set k := pts.length with hk
  obtain ⟨th, eth, fth⟩ := Arr.bin_full (fun a _ => a) p1 p2 (.inl p4) p3
  obtain ⟨lm, elm, flm⟩ := Arr.bin_full (fun _ b => b) p1 p2 (.inl p4) p3
  unfold Arr.cohTmm
  simp only [eth, elm]
  rcases ls with - | ⟨l0, rest⟩
  · have : nl.col.row 0 = .error .indexError := by
      rw [A2.row, if_neg]
      have := hn.2.1
      simp [A2.col]
      simpa using this
    simp [cohTmm, bind, Except.bind, this]
  set ls := l0 :: rest with hls
  have hL : ls.length = rest.length + 1 := rfl
  set n : ℕ → Num := fun i => (ls[i]?).bind Layer.n with hndef
  set t : ℕ → ℂ := fun j => (pts.map Prod.fst).getD j 0 with htdef
  set w : ℕ → ℂ := fun j => (pts.map fun p => (p.2 : ℂ)).getD j 0 with hwdef
  have ht : ∀ j (hj : j < k), t j = pts[j].1 := fun j hj => getD_map_lt _ _ hj _
  have hw : ∀ j (hj : j < k), w j = pts[j].2 := fun j hj => getD_map_lt _ _ hj _
  have hn0 : n 0 = l0.n := by simp [hndef, hls]
  have hnc : Full nl.col ls.length 1 fun i _ => n i := hn.col
  obtain ⟨n0, en0, fn0'⟩ := hnc.row (i := 0) (by omega)
  have fn0 : Full n0 1 1 fun _ _ => n 0 := fn0'
  have fsin := fth.map fun a => some (Complex.sin a)
  obtain ⟨s, es, fs'⟩ := Arr.bin_full Arr.mul (fn0.widen k) fsin.fits (.inl fn0.1) (.inr fsin.2.1)
  have fs : Full s 1 k fun _ j => Arr.mul (n 0) (some (Complex.sin (t j))) := fs'
  clear fs' fn0'
  have hass : (∀ j < s.c, ∃ z, s.get 0 j = some z ∧ |z.im| < assertTol) ↔ ∀ pt ∈ pts, assertOk l0.n pt.1 := by
    rw [fs.2.1]
    constructor
    · intro h pt hpt
      obtain ⟨j, hj, rfl⟩ := List.mem_iff_getElem.mp hpt
      obtain ⟨z, hz, hz2⟩ := h j hj
      rw [fs.2.2 0 one_pos j hj] at hz
      beta_reduce at hz
      rw [hn0, ht j hj] at hz
      rcases hl : l0.n with - | m
      · simp [hl, Arr.mul] at hz
      · simp [hl, Arr.mul] at hz
        exact ⟨m, rfl, by rw [hz]; exact hz2⟩
    · intro h j hj
      obtain ⟨m, hm, hm2⟩ := h _ (List.getElem_mem hj)
      refine ⟨m * Complex.sin pts[j].1, ?_, hm2⟩
      rw [fs.2.2 0 one_pos j hj]
      beta_reduce
      rw [hn0, ht j hj, hm]
      rfl
  by_cases hok : ∀ pt ∈ pts, assertOk l0.n pt.1
  swap
  · have h1 : cohTmm ls pts = .error .assertionError := by
      rw [hls, cohTmm, if_neg hok]
    rw [h1]
    simp only [bind, Except.bind, en0, es]
    rw [if_neg (mt hass.mp hok)]
    rfl
  obtain ⟨q, eq, fq⟩ := Arr.bin_full Arr.div (fs.deepen ls.length) (hnc.widen k) (.inr hnc.1) (.inl fs.2.1)
  have fth2 := fq.map (Option.map npArcsin)
  set TH : ℕ → ℕ → Num := fun i j =>
    Option.map npArcsin (Arr.div (Arr.mul (n 0) (some (Complex.sin (t j)))) (n i)) with hTH
  have fn2 : Full (nl.col.map (Arr.mul (some (2 * (Real.pi : ℂ))))) ls.length 1
      fun i _ => Arr.mul (some (2 * (Real.pi : ℂ))) (n i) := hnc.map _
  obtain ⟨x1, ex1, fx1⟩ := Arr.bin_full Arr.mul (fn2.widen k) (fth2.map (Option.map Complex.cos)).fits
    (.inl fn2.1) (.inr fth2.2.1)
  have flw : Full (lm.map some) 1 k fun _ j => some (w j) := flm.map some
  obtain ⟨kz, ekz, fkz⟩ := Arr.bin_full Arr.div fx1.fits (flw.deepen ls.length) (.inl fx1.1) (.inl fx1.2.1)
  set KZ : ℕ → ℕ → Num := fun i j =>
    Arr.div (Arr.mul (Arr.mul (some (2 * (Real.pi : ℂ))) (n i)) (Option.map Complex.cos (TH i j))) (some (w j))
    with hKZ
  have fkz2 : Full kz ls.length k KZ := fkz
  have hnlc : nl.c = ls.length := hn.2.1
  -- the lists of the point by point description
  have hths : ∀ j (hj : j < k), angles (l0.n.getD 0) pts[j].1 ls =
      (List.range ls.length).map fun i => Arr.pair (n i) (TH i j) := by
    intro j hj
    obtain ⟨m, hm, -⟩ := hok _ (List.getElem_mem hj)
    apply List.ext_getElem
    · simp [angles]
    · intro i h1 h2
      have hi : i < ls.length := by simpa [angles] using h1
      simp only [angles, List.getElem_map, List.getElem_range]
      have hni : n i = ls[i].n := by simp [hndef, hi]
      rw [hni]
      rcases hc : ls[i].n with - | z
      · simp [Arr.pair]
      · simp only [hTH, hn0, hm, hni, hc, ht j hj, Option.getD_some]
        by_cases hz : z = 0 <;> simp [Arr.pair, Arr.div, Arr.mul, cdiv, hz]
  rcases rest with - | ⟨l1, rest⟩
  · have h1 : cohTmm ls pts = .error .indexError := by
      rw [hls, cohTmm, if_pos hok]
      simp
    rw [h1]
    have a1 : Full (nl.col.slice 0 1) 0 1 fun i _ => n i := by simpa [hls] using hnc.slice 0 1
    have a2 : Full (nl.col.slice 1 0) 0 1 fun i _ => n (i + 1) := by simpa [hls] using hnc.slice 1 0
    have a3 : Full ((q.map (Option.map npArcsin)).slice 0 1) 0 k TH := by simpa [hls] using fth2.slice 0 1
    have a4 : Full ((q.map (Option.map npArcsin)).slice 1 0) 0 k fun i j => TH (i + 1) j := by
      simpa [hls] using fth2.slice 1 0
    obtain ⟨r, er, -⟩ := Arr.interfaceR_full .s a1 a2 a3 a4
    obtain ⟨t', et, ft⟩ := Arr.interfaceT_full .s a1 a2 a3 a4
    have hrow : t'.row 0 = .error .indexError := by
      rw [A2.row, if_neg (by rw [ft.1]; omega)]
    simp only [bind, Except.bind, en0, es, eq]
    rw [if_pos (hass.mpr hok)]
    have hc2 : ¬ 2 < nl.c := by rw [hnlc, hls]; simp
    simp only [ex1, ekz, if_neg hc2, Arr.polRun, bind, Except.bind, er, et, hrow]
  have hL2 : ls.length = rest.length + 2 := rfl
  set m := rest.length with hm
  rw [hL2] at fth2 fkz2 hn hd hths
  -- phases
  set D : ℕ → ℕ → Num := fun i j => Arr.mul (KZ (i + 1) j) ((ls[i + 1]?).bind fun l => l.d.num) with hD
  have hdc : Full (d.col.slice 1 1) m 1 fun i _ => (ls[i + 1]?).bind fun l => l.d.num := by
    have := hd.col.slice 1 1
    simpa using this
  have fks : Full (kz.slice 1 1) m k fun i j => KZ (i + 1) j := by simpa using fkz2.slice 1 1
  obtain ⟨de, ede, fde⟩ := Arr.bin_full Arr.mul fks.fits (hdc.widen k) (.inl fks.1) (.inl fks.2.1)
  have fde2 : Full de m k D := fde
  have hlist : ∀ j (hj : j < k), deltas (kzs pts[j].2 (angles (l0.n.getD 0) pts[j].1 ls)) ls =
      (List.range m).map fun i => D i j := by
    intro j hj
    rw [hths j hj]
    apply List.ext_getElem
    · simp [deltas, kzs, hls, hm]
    · intro i h1 h2
      have hi : i < m := by simpa using h2
      have hi1 : i + 1 < ls.length := by omega
      simp only [deltas, kzs, List.getElem_zipWith, List.getElem_dropLast, List.getElem_tail, List.getElem_map,
        List.getElem_range, hD, hKZ, hw j hj]
      have e1 : ls[i + 1]? = some ls[i + 1] := by simp
      rw [e1, Option.bind_some]
      rcases n (i + 1) with - | a
      · simp [Arr.pair, phase, Arr.mul, Arr.div]
      · rcases TH (i + 1) j with - | b
        · simp [Arr.pair, phase, Arr.mul, Arr.div]
        · by_cases h0 : ((pts[j].2 : ℝ) : ℂ) = 0
          · simp [Arr.pair, phase, Arr.mul, Arr.div, cdiv, h0]
          · rcases ls[i + 1].d with x | - <;> simp [Arr.pair, phase, Arr.mul, Arr.div, cdiv, h0, Thick.num]
  have hany : (∃ i < de.r, ∃ j < de.c, opaque35 (de.get i j)) ↔
      ∃ pt ∈ pts, ∃ δ ∈ deltas (kzs pt.2 (angles (l0.n.getD 0) pt.1 ls)) ls, opaque35 δ := by
    rw [fde2.1, fde2.2.1]
    constructor
    · rintro ⟨i, hi, j, hj, h⟩
      refine ⟨pts[j], List.getElem_mem hj, D i j, ?_, ?_⟩
      · rw [hlist j hj]
        exact List.mem_map.mpr ⟨i, List.mem_range.mpr hi, rfl⟩
      · rwa [fde2.2.2 i hi j hj] at h
    · rintro ⟨pt, hpt, δ, hδ, h⟩
      obtain ⟨j, hj, rfl⟩ := List.mem_iff_getElem.mp hpt
      rw [hlist j hj] at hδ
      obtain ⟨i, hi, rfl⟩ := List.mem_map.mp hδ
      have hi := List.mem_range.mp hi
      exact ⟨i, hi, j, hj, by rwa [fde2.2.2 i hi j hj]⟩
  set any : Prop := ∃ pt ∈ pts, ∃ δ ∈ deltas (kzs pt.2 (angles (l0.n.getD 0) pt.1 ls)) ls, opaque35 δ with hanyd
  set Δ : ℕ → ℕ → Num := fun i j => if any then Option.map clip35 (D i j) else D i j with hΔ
  have hph : ∃ x, Arr.phases kz d = .ok x ∧ Full x m k Δ := by
    refine ⟨_, by simp only [Arr.phases, ede]; rfl, ?_⟩
    by_cases h : any
    · rw [if_pos (hany.mpr h)]
      refine (fde2.map _).congr fun i _ j _ => ?_
      simp only [hΔ, if_pos h]
    · rw [if_neg (mt hany.mp h)]
      refine fde2.congr fun i _ j _ => ?_
      simp only [hΔ, if_neg h]
  obtain ⟨ph, eph, fph⟩ := hph
  set delta : Option (A2 Num) := if 2 < nl.c then some ph else none with hdelta
  set ths : ℕ → List (Option (ℂ × ℂ)) := fun j => angles (l0.n.getD 0) (t j) ls with hthsd
  set δs : ℕ → List Num := fun j => (List.range m).map fun i => Δ i j with hδsd
  have hrun : ∀ pol, ∃ r t, Arr.polRun pol (m + 2) nl (q.map (Option.map npArcsin)) delta = .ok (r, t) ∧
      Full r 1 k (fun _ j => (polResult pol (ths j) (δs j)).map Prod.fst) ∧
      Full t 1 k fun _ j => (polResult pol (ths j) (δs j)).map Prod.snd := by
    intro pol
    refine Arr.polRun_full pol hn fth2 ?_ ?_ ths δs (fun j hj => ?_) (fun j hj => rfl)
    · intro x hx
      rw [hdelta] at hx
      split_ifs at hx
      cases hx
      exact fph
    · intro h
      rw [hdelta] at h
      split_ifs at h with h'
      rw [hnlc] at h'
      omega
    · rw [hthsd]
      simp only [ht j hj]
      exact hths j hj
  obtain ⟨rs, ts, es1, frs, fts⟩ := hrun .s
  obtain ⟨rp, tp, ep1, frp, ftp⟩ := hrun .p
  have hlen : nl.c = m + 2 := hnlc.trans hL2
  have hgoal : cohTmm ls pts = .ok (pts.map fun pt =>
      ⟨polResult .s (angles (l0.n.getD 0) pt.1 ls) (if any then
          (deltas (kzs pt.2 (angles (l0.n.getD 0) pt.1 ls)) ls).map (Option.map clip35)
        else deltas (kzs pt.2 (angles (l0.n.getD 0) pt.1 ls)) ls),
      polResult .p (angles (l0.n.getD 0) pt.1 ls) (if any then
          (deltas (kzs pt.2 (angles (l0.n.getD 0) pt.1 ls)) ls).map (Option.map clip35)
        else deltas (kzs pt.2 (angles (l0.n.getD 0) pt.1 ls)) ls)⟩) := by
    have h2 : ¬ (l0 :: l1 :: rest).length < 2 := by simp
    show cohTmm (l0 :: l1 :: rest) pts = _
    rw [cohTmm, if_pos hok, if_neg h2]
  have hfin : (pts.map fun pt => (⟨polResult .s (angles (l0.n.getD 0) pt.1 ls) (if any then
          (deltas (kzs pt.2 (angles (l0.n.getD 0) pt.1 ls)) ls).map (Option.map clip35)
        else deltas (kzs pt.2 (angles (l0.n.getD 0) pt.1 ls)) ls),
      polResult .p (angles (l0.n.getD 0) pt.1 ls) (if any then
          (deltas (kzs pt.2 (angles (l0.n.getD 0) pt.1 ls)) ls).map (Option.map clip35)
        else deltas (kzs pt.2 (angles (l0.n.getD 0) pt.1 ls)) ls)⟩ : Amps)).length = k ∧
      (⟨rs, ts, rp, tp⟩ : Arr.Results).Are (pts.map fun pt =>
      ⟨polResult .s (angles (l0.n.getD 0) pt.1 ls) (if any then
          (deltas (kzs pt.2 (angles (l0.n.getD 0) pt.1 ls)) ls).map (Option.map clip35)
        else deltas (kzs pt.2 (angles (l0.n.getD 0) pt.1 ls)) ls),
      polResult .p (angles (l0.n.getD 0) pt.1 ls) (if any then
          (deltas (kzs pt.2 (angles (l0.n.getD 0) pt.1 ls)) ls).map (Option.map clip35)
        else deltas (kzs pt.2 (angles (l0.n.getD 0) pt.1 ls)) ls)⟩) := by
    refine ⟨by simp [hk], ?_, ?_⟩
    · intro x hx
      simp only [List.length_map]
      simp only [List.mem_cons, List.not_mem_nil, or_false] at hx
      rcases hx with rfl | rfl | rfl | rfl
      · exact ⟨frs.1, frs.2.1⟩
      · exact ⟨fts.1, fts.2.1⟩
      · exact ⟨frp.1, frp.2.1⟩
      · exact ⟨ftp.1, ftp.2.1⟩
    · intro j a ha pol
      rw [List.getElem?_map] at ha
      obtain ⟨pt, hpt, rfl⟩ := Option.map_eq_some_iff.mp ha
      obtain ⟨hj, rfl⟩ := List.getElem?_eq_some_iff.mp hpt
      have hδ : (if any then (deltas (kzs pts[j].2 (angles (l0.n.getD 0) pts[j].1 ls)) ls).map (Option.map clip35)
          else deltas (kzs pts[j].2 (angles (l0.n.getD 0) pts[j].1 ls)) ls) = δs j := by
        rw [hlist j hj]
        by_cases h : any
        · rw [if_pos h]
          simp [hδsd, hΔ, if_pos h]
        · rw [if_neg h]
          simp [hδsd, hΔ, if_neg h]
      have hth : ths j = angles (l0.n.getD 0) pts[j].1 ls := by
        rw [hthsd]
        simp only [ht j hj]
      rw [← hth] at hδ
      simp only [← hth, hδ]
      cases pol
      · exact Prod.ext (frs.2.2 0 one_pos j hj) (fts.2.2 0 one_pos j hj)
      · exact Prod.ext (frp.2.2 0 one_pos j hj) (ftp.2.2 0 one_pos j hj)
  rw [hgoal]
  simp only [bind, Except.bind, en0, es, eq]
  rw [if_pos (hass.mpr hok)]
  simp only [ex1, ekz]
  rw [← hlen] at es1 ep1
  by_cases h2 : 2 < nl.c
  · rw [hdelta, if_pos h2] at es1 ep1
    simp only [if_pos h2, eph, Except.map, es1, ep1]
    exact hfin
  · rw [hdelta, if_neg h2] at es1 ep1
    simp only [if_neg h2, es1, ep1]
    exact hfin

theorem refines_ok {ls : List Layer} {pts : List (ℂ × ℝ)} {nl d : A2 Num} {th0 lam : A2 ℂ}
    (hls : ListsOf ls nl d) (hpts : PointsOf pts th0 lam) {res : Arr.Results}
    (h : Arr.cohTmm nl d th0 lam = .ok res) : ∃ l, cohTmm ls pts = .ok l ∧ l.length = pts.length ∧ res.Are l := by
  have := C123_refines hls hpts
  rw [h] at this
  rcases hc : cohTmm ls pts with e | l
  · rw [hc] at this
    exact this.elim
  · rw [hc] at this
    exact ⟨l, rfl, this⟩

theorem refines_ok' {ls : List Layer} {pts : List (ℂ × ℝ)} {nl d : A2 Num} {th0 lam : A2 ℂ}
    (hls : ListsOf ls nl d) (hpts : PointsOf pts th0 lam) {l : List Amps}
    (h : cohTmm ls pts = .ok l) : ∃ res, Arr.cohTmm nl d th0 lam = .ok res ∧ l.length = pts.length ∧ res.Are l := by
  have := C123_refines hls hpts
  rw [h] at this
  rcases hc : Arr.cohTmm nl d th0 lam with e | res
  · rw [hc] at this
    exact this.elim
  · rw [hc] at this
    exact ⟨res, rfl, this⟩

theorem points_one (pt : ℂ × ℝ) : PointsOf [pt] (Arr.scalar pt.1) (Arr.scalar (pt.2 : ℂ)) := by
  refine ⟨⟨.inl rfl, .inl rfl, ?_⟩, ⟨.inl rfl, .inl rfl, ?_⟩, .inl rfl, rfl, rfl⟩ <;>
  · intro i hi j hj
    have : j = 0 := by simpa using hj
    subst this
    rfl

/-- **C123.**  Each column of the result is what the same call with this angle and this wavelength alone
gives, and the call with all of them succeeds exactly when each of these calls does. -/
theorem C123_alone {l0 l1 : Layer} {rest : List Layer} {pts : List (ℂ × ℝ)} {nl d : A2 Num} {th0 lam : A2 ℂ}
    (hls : ListsOf (l0 :: l1 :: rest) nl d) (hpts : PointsOf pts th0 lam) :
    ((∃ res, Arr.cohTmm nl d th0 lam = .ok res) ↔
      ∀ pt ∈ pts, ∃ res, Arr.cohTmm nl d (Arr.scalar pt.1) (Arr.scalar (pt.2 : ℂ)) = .ok res) ∧
    ∀ res, Arr.cohTmm nl d th0 lam = .ok res → ∀ j pt, pts[j]? = some pt →
      ∃ res', Arr.cohTmm nl d (Arr.scalar pt.1) (Arr.scalar (pt.2 : ℂ)) = .ok res' ∧
        ∀ pol, res.at j pol = res'.at 0 pol := by
  have key : ∀ res, Arr.cohTmm nl d th0 lam = .ok res → ∀ j pt, pts[j]? = some pt →
      ∃ res', Arr.cohTmm nl d (Arr.scalar pt.1) (Arr.scalar (pt.2 : ℂ)) = .ok res' ∧
        ∀ pol, res.at j pol = res'.at 0 pol := by
    intro res h j pt hj
    obtain ⟨l, hl, hlen, hare⟩ := refines_ok hls hpts h
    have h2 := C19_coh_tmm_pointwise.mp hl
    obtain ⟨hjl, rfl⟩ := List.getElem?_eq_some_iff.mp hj
    have hjl' : j < l.length := by omega
    have h3 := h2.get hjl hjl'
    obtain ⟨res', hr, -, hare'⟩ := refines_ok' hls (points_one _) h3
    refine ⟨res', hr, fun pol => ?_⟩
    rw [hare.2 j l[j] (by simp [hjl']) pol, hare'.2 0 l[j] rfl pol]
  refine ⟨⟨fun ⟨res, h⟩ pt hpt => ?_, fun h => ?_⟩, key⟩
  · obtain ⟨j, hj⟩ := List.getElem?_of_mem hpt
    obtain ⟨res', h', -⟩ := key res h j pt hj
    exact ⟨res', h'⟩
  · have hall : ∀ pt ∈ pts, ∃ a, cohTmm (l0 :: l1 :: rest) [pt] = .ok [a] := by
      intro pt hpt
      obtain ⟨res, hres⟩ := h pt hpt
      obtain ⟨l, hl, hlen, -⟩ := refines_ok hls (points_one pt) hres
      match l, hlen with
      | [a], _ => exact ⟨a, hl⟩
    have hf : ∀ ps : List (ℂ × ℝ), (∀ pt ∈ ps, ∃ a, cohTmm (l0 :: l1 :: rest) [pt] = .ok [a]) →
        ∃ l, List.Forall₂ (fun pt a => cohTmm (l0 :: l1 :: rest) [pt] = .ok [a]) ps l := by
      intro ps
      induction ps with
      | nil => exact fun _ => ⟨[], .nil⟩
      | cons p ps ih =>
        intro h
        obtain ⟨a, ha⟩ := h p List.mem_cons_self
        obtain ⟨l, hl⟩ := ih fun pt hpt => h pt (List.mem_cons_of_mem _ hpt)
        exact ⟨a :: l, .cons ha hl⟩
    obtain ⟨l, hl⟩ := hf pts hall
    obtain ⟨res, hres, -⟩ := refines_ok' hls hpts (C19_coh_tmm_pointwise.mpr hl)
    exact ⟨res, hres⟩

/-- **C123.**  In each column the amplitudes `r` and `t` of the array program solve Maxwell's boundary
value problem of the stack at that angle and wavelength, and nothing else does. -/
theorem C123_maxwell {st : Stack} (hnz : st.NZ) {d0 db : Thick} {pts : List (ℝ × ℝ)} {nl d : A2 Num}
    {th0 lam : A2 ℂ} (hls : ListsOf (st.layers d0 db) nl d)
    (hpts : PointsOf (pts.map fun p => ((p.1 : ℂ), p.2)) th0 lam) {res : Arr.Results}
    (h : Arr.cohTmm nl d th0 lam = .ok res) {j : ℕ} {θ l : ℝ} (hj : pts[j]? = some (θ, l))
    (hθ : |θ| ≤ Real.pi / 2) (hl : l ≠ 0) :
    ∃ cb : ℂ, cb ^ 2 = 1 - (st.front * Complex.sin θ / st.back) ^ 2 ∧
      ∀ {pol : Pol} {r t : ℂ}, res.at j pol = (some r, some t) →
      ∀ {ms : List Medium}, List.Forall₂ (IsFilm (st.front * Complex.sin θ) l) st.films ms →
      (∀ m ∈ ms, |m.δ.im| ≤ 35) →
      Solves pol st θ ms cb r t ∧ ∀ r' t', Solves pol st θ ms cb r' t' → r' = r ∧ t' = t := by
  obtain ⟨cb, hcb, hmax⟩ := C01_coh_tmm_maxwell hnz hθ hl
  refine ⟨cb, hcb, fun {pol r t} hr {ms} hms hc => ?_⟩
  obtain ⟨L, hL, hlen, hare⟩ := refines_ok hls hpts h
  obtain ⟨hjl, hjp⟩ := List.getElem?_eq_some_iff.mp hj
  have hjl1 : j < (pts.map fun p => ((p.1 : ℂ), p.2)).length := by simpa using hjl
  have hjl' : j < L.length := by omega
  obtain ⟨l0, l1, rest, hl2⟩ : ∃ l0 l1 rest, st.layers d0 db = l0 :: l1 :: rest := by
    have hln : 2 ≤ (st.layers d0 db).length := by simp [Stack.layers]
    generalize st.layers d0 db = x at hln
    match x, hln with
    | a :: b :: c, _ => exact ⟨a, b, c, rfl⟩
  rw [hl2] at hL
  have h3 := (C19_coh_tmm_pointwise.mp hL).get hjl1 hjl'
  rw [← hl2] at h3
  simp only [List.get_eq_getElem, List.getElem_map, hjp] at h3
  refine hmax h3 ?_ hms hc
  have := hare.2 j L[j] (by simp [hjl']) pol
  rw [hr] at this
  rcases ho : (L[j]).of pol with - | ⟨x, y⟩
  · simp [ho] at this
  · simp [ho] at this
    rw [← this.1, ← this.2]

/-- **C123.**  Numbers of angles and wavelengths that differ, neither of them one, are refused. -/
theorem C123_shapes {nl d : A2 Num} {th0 lam : A2 ℂ} (h1 : th0.r = 1) (h2 : lam.r = 1) (h : th0.c ≠ lam.c)
    (ht : th0.c ≠ 1) (hl : lam.c ≠ 1) : Arr.cohTmm nl d th0 lam = .error .valueError := by
  have : Arr.bin (fun a _ => a) th0 lam = .error .valueError := by
    simp [Arr.bin, h1, h2, Arr.bdim, h, ht, hl, bind, Except.bind]
  simp only [Arr.cohTmm, this]
  rfl

/-- `layers` holds these rows (thickness, index, extinction, one more column that is not read). -/
def RowsAre (rows : List Row) (layers : A2 (Option ℝ)) : Prop :=
  layers.r = rows.length ∧ 2 < layers.c ∧ ∀ i row, rows[i]? = some row →
    layers.get i 0 = some row.thick ∧
    match row.ri with
    | some n => layers.get i 1 = some n.re ∧ layers.get i 2 = some n.im
    | none => layers.get i 1 = none ∨ (i ≠ 0 ∧ layers.get i 2 = none)

theorem toLayers_get {rows : List Row} {i : ℕ} {row : Row} (h : rows[i]? = some row) :
    (toLayers rows)[i]? = some ⟨row.ri, if i = 0 ∨ i = rows.length - 1 then .inf else .fin (row.thick / 10)⟩ := by
  have hi := (List.getElem?_eq_some_iff.mp h).1
  have he := (List.getElem?_eq_some_iff.mp h).2
  rw [List.getElem?_eq_some_iff]
  refine ⟨by simp [toLayers, infEnds, hi], ?_⟩
  simp only [toLayers, infEnds, List.getElem_zipWith, List.getElem_map, List.getElem_set, List.length_map, he]
  by_cases h0 : i = 0
  · subst h0; simp
  · by_cases h1 : rows.length - 1 = i
    · rw [if_pos h1, if_pos (.inr h1.symm)]
    · rw [if_neg h1, if_neg (Ne.symm h0), if_neg (by rintro (h | h) <;> omega)]

theorem toLayers_length (rows : List Row) : (toLayers rows).length = rows.length := by
  simp [toLayers, infEnds]

theorem psiDeltaArr_full (σ : ℕ → Bool) (reflect : Bool) (off : ℝ) {rs rp : A2 Num} {k : ℕ} {a : ℕ → Amps}
    (hs : Full rs 1 k fun _ j => (a j).s.map Prod.fst) (hp : Full rp 1 k fun _ j => (a j).p.map Prod.fst) :
    ∃ psi delta, Arr.psiDeltaArr σ reflect off rs rp = .ok (psi, delta) ∧
      Full psi 1 k (fun _ j => (psiDelta (σ j) reflect off (a j)).1) ∧
      Full delta 1 k fun _ j => (psiDelta (σ j) reflect off (a j)).2 := by
  classical
  obtain ⟨psi, e1, f1⟩ := Arr.bin_full_full (fun rp rs : Num => do psiRad (← rs) (← rp)) hp hs
  obtain ⟨q, e2, f2⟩ := Arr.bin_full_full (fun rp rs : Num => do cdiv (-(← rp)) (← rs)) hp hs
  have f3 := f2.map (Arr.div (some 1))
  refine ⟨_, _, by simp only [Arr.psiDeltaArr, e1, e2]; rfl, ?_, ?_⟩
  · refine (f1.map _).congr fun i _ j _ => ?_
    simp only [psiDelta]
    rcases (a j).s with - | ⟨x, y⟩
    · rcases (a j).p with - | ⟨x', y'⟩ <;> simp
    · rcases (a j).p with - | ⟨x', y'⟩ <;> simp
  · refine ⟨?_, ?_, fun i hi j hj => ?_⟩
    · have := f3.1
      cases reflect <;> simpa [A2.map] using this
    · have := f3.2.1
      cases reflect <;> simpa [A2.map] using this
    · have := f3.2.2 i hi j hj
      cases reflect
      · simp only [Bool.false_eq_true, if_false, A2.map] at this ⊢
        rw [this]
        simp only [psiDelta]
        rcases (a j).s with - | ⟨x, y⟩
        · rcases (a j).p with - | ⟨x', y'⟩ <;> simp [Arr.div]
        · rcases (a j).p with - | ⟨x', y'⟩
          · simp [Arr.div]
          · simp only [Option.map_some, deltaRad, Arr.div, reflectRad]
            rcases h0 : cdiv (-x') x with - | z
            · simp [h0]
            · rcases h : cdiv 1 z with - | z' <;> simp [h0, h]
      · simp only [if_true, A2.map] at this ⊢
        rw [this]
        simp only [psiDelta]
        rcases (a j).s with - | ⟨x, y⟩
        · rcases (a j).p with - | ⟨x', y'⟩ <;> simp [Arr.div]
        · rcases (a j).p with - | ⟨x', y'⟩
          · simp [Arr.div]
          · simp only [Option.map_some, deltaRad, Arr.div, reflectRad]
            rcases h0 : cdiv (-x') x with - | z
            · simp [h0]
            · rcases h : cdiv 1 z with - | z' <;> simp [h0, h]

/-- **C123.**  `Delta_Psi_TMM` as it is written gives psi and delta of the point by point description,
angle by angle, leaves the same array `layers` behind and raises the same exceptions. -/
theorem C123_delta_psi (zs : List Layer → ℝ → ℝ → Bool) {σ : ℕ → Bool} {aois : List ℝ} {aoi : A2 ℝ}
    {rows : List Row} {layers : A2 (Option ℝ)} (wav off : ℝ) (reflect : Bool) (hrows : RowsAre rows layers)
    (haoi : Full aoi 1 aois.length fun _ j => aois.getD j 0)
    (hσ : ∀ j a, aois[j]? = some a → σ j = zs (toLayers (zeroFrontK rows)) a wav) :
    match Arr.deltaPsi σ aoi layers wav off reflect, deltaPsiTMM zs aois rows wav off reflect with
    | .ok (psi, delta, layers'), (.ok l, rows') =>
      RowsAre rows' layers' ∧ l.length = aois.length ∧ (psi.r = 1 ∧ psi.c = l.length) ∧
        (delta.r = 1 ∧ delta.c = l.length) ∧
        ∀ j x, l[j]? = some x → (psi.get 0 j, delta.get 0 j) = x
    | .error e, (.error e', _) => e = e'
    | _, _ => False := by
  obtain ⟨hr, hc, hent⟩ := hrows
  rcases rows with - | ⟨r0, rest⟩
  · have : layers.set 0 2 (some 0) = .error .indexError := by
      rw [A2.set, if_neg (by rw [hr]; simp)]
    simp [Arr.deltaPsi, deltaPsiTMM, this, bind, Except.bind]
  have hset : layers.set 0 2 (some 0) =
      .ok { layers with get := fun i' j' => if i' = 0 ∧ j' = 2 then some 0 else layers.get i' j' } := by
    rw [A2.set, if_pos ⟨by rw [hr]; simp, hc⟩]
  set lay : A2 (Option ℝ) :=
    { layers with get := fun i' j' => if i' = 0 ∧ j' = 2 then some 0 else layers.get i' j' } with hlay
  set rows := zeroFrontK (r0 :: rest) with hrows
  have hlen : rows.length = rest.length + 1 := by simp [hrows, zeroFrontK]
  have hR : RowsAre rows lay := by
    refine ⟨by simp [hlay, hr, hlen], hc, ?_⟩
    intro i row hi
    rcases i with - | i
    · have h0 := hent 0 r0 rfl
      simp only [hrows, zeroFrontK, List.getElem?_cons_zero, Option.some.injEq] at hi
      subst hi
      simp only [hlay]
      refine ⟨by simpa using h0.1, ?_⟩
      rcases hri : r0.ri with - | n
      · simp only [hri] at h0
        simpa using h0.2
      · simp only [hri] at h0
        simpa using h0.2.1
    · have h0 := hent (i + 1) row (by simpa [hrows, zeroFrontK] using hi)
      simpa [hlay] using h0
  -- the lists handed to coh_tmm
  have hcol : ∀ k < 3, lay.colAt k = .ok ⟨1, lay.r, fun _ i => lay.get i k⟩ := by
    intro k hk
    rw [A2.colAt, if_pos (lt_of_lt_of_le hk hc)]
  have fcol : ∀ k, Full (⟨1, lay.r, fun _ i => lay.get i k⟩ : A2 (Option ℝ)) 1 rows.length fun _ i => lay.get i k :=
    fun k => ⟨rfl, hR.1, fun _ _ _ _ => rfl⟩
  obtain ⟨ris, eris, fris⟩ := Arr.bin_full_full
    (fun (a b : Option ℝ) => do return ((← a : ℝ) : ℂ) + ((← b : ℝ) : ℂ) * I) (fcol 1) (fcol 2)
  set th1 : A2 Num := (⟨1, lay.r, fun _ i => lay.get i 0⟩ : A2 (Option ℝ)).map
    (Option.map fun x => ((x / 10 : ℝ) : ℂ)) with hth1
  have e1 : th1.set 0 0 none =
      .ok { th1 with get := fun i' j' => if i' = 0 ∧ j' = 0 then none else th1.get i' j' } := by
    rw [A2.set, if_pos ⟨by simp [hth1, A2.map], by simp [hth1, A2.map, hR.1, hlen]⟩]
  set th2 : A2 Num := { th1 with get := fun i' j' => if i' = 0 ∧ j' = 0 then none else th1.get i' j' } with hth2
  have hc2 : th2.c = rows.length := by simp [hth2, hth1, A2.map, hR.1]
  have e2 : th2.set 0 (th2.c - 1) none =
      .ok { th2 with get := fun i' j' => if i' = 0 ∧ j' = th2.c - 1 then none else th2.get i' j' } := by
    rw [A2.set, if_pos ⟨by simp [hth2, hth1, A2.map], by omega⟩]
  set th3 : A2 Num := { th2 with get := fun i' j' => if i' = 0 ∧ j' = th2.c - 1 then none else th2.get i' j' }
    with hth3
  have hLs : ListsOf (toLayers rows) ris th3 := by
    rw [ListsOf, toLayers_length]
    constructor
    · refine fris.congr fun _ _ i hi => ?_
      have hrow : rows[i]? = some rows[i] := by simp
      have := hR.2.2 i _ hrow
      rw [toLayers_get hrow]
      simp only [Option.bind_some]
      rcases hri : rows[i].ri with - | n
      · simp only [hri] at this
        rcases this.2 with h | ⟨-, h⟩
        · simp [h]
        · rcases lay.get i 1 <;> simp [h]
      · simp only [hri] at this
        simp [this.2.1, this.2.2, Complex.re_add_im]
    · refine ⟨rfl, hc2, fun i0 hi0 i hi => ?_⟩
      have h00 : i0 = 0 := by omega
      subst h00
      have hrow : rows[i]? = some rows[i] := by simp
      have := (hR.2.2 i _ hrow).1
      beta_reduce
      rw [toLayers_get hrow]
      simp only [Option.bind_some, hth3, hc2, true_and]
      by_cases h1 : i = rows.length - 1
      · rw [if_pos h1, if_pos (.inr h1)]; rfl
      · rw [if_neg h1]
        simp only [hth2, true_and]
        by_cases h2 : i = 0
        · rw [if_pos h2, if_pos (.inl h2)]; rfl
        · rw [if_neg h2, if_neg (by rintro (h | h) <;> omega)]
          simp [hth1, A2.map, this, Thick.num]
  set pts : List (ℂ × ℝ) := aois.map fun a => (((a * (Real.pi / 180) : ℝ) : ℂ), wav) with hpts
  have hP : PointsOf pts ((aoi.map (· * (Real.pi / 180))).map fun a => ((a : ℝ) : ℂ)) (Arr.scalar (wav : ℂ)) := by
    have f1 := (haoi.map (· * (Real.pi / 180))).map fun a => ((a : ℝ) : ℂ)
    have hl : pts.length = aois.length := by simp [hpts]
    rw [PointsOf, hl]
    refine ⟨(f1.congr fun i _ j hj => ?_).fits, ⟨.inl rfl, .inr rfl, fun i _ j hj => ?_⟩, .inl f1.2.1, f1.1, rfl⟩
    · simp [hpts, List.getD, hj]
    · simp [hpts, List.getD, hj, Arr.scalar, A2.bget]
  have hmain := C123_refines hLs hP
  have hgoal : deltaPsiTMM zs aois (r0 :: rest) wav off reflect = ((cohTmm (toLayers rows) pts).map fun amps =>
      List.zipWith (fun a am => psiDelta (zs (toLayers rows) a wav) reflect off am) aois amps, rows) := rfl
  rw [hgoal]
  simp only [Arr.deltaPsi, hset, hcol 0 (by norm_num), hcol 1 (by norm_num), hcol 2 (by norm_num), bind, Except.bind]
  simp only [bind] at eris
  simp only [eris, e1, e2, ← hth1]
  rcases hA : Arr.cohTmm ris th3 ((aoi.map (· * (Real.pi / 180))).map fun a => ((a : ℝ) : ℂ))
    (Arr.scalar (wav : ℂ)) with e | res
  · rw [hA] at hmain
    rcases hB : cohTmm (toLayers rows) pts with e' | l
    · rw [hB] at hmain
      simpa [Except.map] using hmain
    · rw [hB] at hmain
      exact hmain.elim
  · rw [hA] at hmain
    rcases hB : cohTmm (toLayers rows) pts with e' | l
    · rw [hB] at hmain
      exact hmain.elim
    · rw [hB] at hmain
      obtain ⟨hl, hsh, hval⟩ := hmain
      have hlk : l.length = aois.length := by rw [hl]; simp [hpts]
      set a : ℕ → Amps := fun j => l.getD j ⟨none, none⟩ with ha
      have hget : ∀ j < aois.length, l[j]? = some (a j) := by
        intro j hj
        have hj' : j < l.length := by omega
        simp [ha, List.getD, hj']
      have hs : Full res.rs 1 aois.length fun _ j => (a j).s.map Prod.fst := by
        refine ⟨(hsh res.rs (by simp)).1, (hsh res.rs (by simp)).2.trans hlk, fun i hi j hj => ?_⟩
        have h00 : i = 0 := by omega
        subst h00
        exact congrArg Prod.fst (hval j _ (hget j hj) .s)
      have hp : Full res.rp 1 aois.length fun _ j => (a j).p.map Prod.fst := by
        refine ⟨(hsh res.rp (by simp)).1, (hsh res.rp (by simp)).2.trans hlk, fun i hi j hj => ?_⟩
        have h00 : i = 0 := by omega
        subst h00
        exact congrArg Prod.fst (hval j _ (hget j hj) .p)
      obtain ⟨psi, delta, epd, fpsi, fdelta⟩ := psiDeltaArr_full σ reflect off hs hp
      simp only [epd, Except.map, pure, Except.pure]
      have hzl : (List.zipWith (fun a am => psiDelta (zs (toLayers rows) a wav) reflect off am) aois l).length =
          aois.length := by simp [hlk]
      refine ⟨hR, hzl, ⟨fpsi.1, fpsi.2.1.trans hzl.symm⟩, ⟨fdelta.1, fdelta.2.1.trans hzl.symm⟩, ?_⟩
      intro j x hx
      obtain ⟨hj, hx⟩ := List.getElem?_eq_some_iff.mp hx
      rw [hzl] at hj
      have hj' : j < l.length := by omega
      rw [fpsi.2.2 0 one_pos j hj, fdelta.2.2 0 one_pos j hj, ← hx]
      simp [ha, List.getD, hj', hσ j aois[j] (by simp [hj])]

/-! ### The hypotheses can be met -/

theorem listsOf_mk (ls : List Layer) :
    ListsOf ls ⟨1, ls.length, fun _ i => (ls[i]?).bind Layer.n⟩
      ⟨1, ls.length, fun _ i => (ls[i]?).bind fun l => l.d.num⟩ :=
  ⟨⟨rfl, rfl, fun _ _ _ _ => rfl⟩, ⟨rfl, rfl, fun _ _ _ _ => rfl⟩⟩

theorem pointsOf_mk (pts : List (ℂ × ℝ)) :
    PointsOf pts ⟨1, pts.length, fun _ j => (pts.map Prod.fst).getD j 0⟩
      ⟨1, pts.length, fun _ j => (pts.map fun p => (p.2 : ℂ)).getD j 0⟩ :=
  ⟨Arr.Full.fits ⟨rfl, rfl, fun _ _ _ _ => rfl⟩, Arr.Full.fits ⟨rfl, rfl, fun _ _ _ _ => rfl⟩, .inl rfl, rfl, rfl⟩

/-- A film of index 3/2 and 100 nm on an absorbing substrate, at two angles and two wavelengths: the call
succeeds, with two columns. -/
theorem arr_example : ∃ res, Arr.cohTmm
      ⟨1, 3, fun _ i => [some 1, some (3 / 2), some (4 + I)].getD i none⟩
      ⟨1, 3, fun _ i => [none, some 100, none].getD i none⟩
      ⟨1, 2, fun _ j => [((1 : ℝ) : ℂ), ((1 / 2 : ℝ) : ℂ)].getD j 0⟩
      ⟨1, 2, fun _ j => [((500 : ℝ) : ℂ), ((600 : ℝ) : ℂ)].getD j 0⟩ = .ok res ∧ res.rs.c = 2 := by
  classical
  set ls : List Layer := [⟨some 1, .inf⟩, ⟨some (3 / 2), .fin 100⟩, ⟨some (4 + I), .inf⟩] with hls
  set pts : List (ℂ × ℝ) := [(((1 : ℝ) : ℂ), 500), (((1 / 2 : ℝ) : ℂ), 600)] with hpts
  have h1 : ListsOf ls ⟨1, 3, fun _ i => [some 1, some (3 / 2), some (4 + I)].getD i none⟩
      ⟨1, 3, fun _ i => [none, some 100, none].getD i none⟩ := by
    refine ⟨⟨rfl, rfl, fun _ _ i hi => ?_⟩, ⟨rfl, rfl, fun _ _ i hi => ?_⟩⟩ <;>
    · have : i < 3 := hi
      interval_cases i <;> simp [hls, Thick.num]
  have h2 : PointsOf pts ⟨1, 2, fun _ j => [((1 : ℝ) : ℂ), ((1 / 2 : ℝ) : ℂ)].getD j 0⟩
      ⟨1, 2, fun _ j => [((500 : ℝ) : ℂ), ((600 : ℝ) : ℂ)].getD j 0⟩ := by
    refine ⟨Arr.Full.fits ⟨rfl, rfl, fun _ _ j hj => ?_⟩, Arr.Full.fits ⟨rfl, rfl, fun _ _ j hj => ?_⟩, .inl rfl,
      rfl, rfl⟩ <;>
    · have : j < 2 := hj
      interval_cases j <;> simp [hpts]
  have hok : ∀ pt ∈ pts, assertOk (some 1) pt.1 := by
    intro pt hpt
    refine ⟨1, rfl, ?_⟩
    simp only [hpts, List.mem_cons, List.not_mem_nil, or_false] at hpt
    rcases hpt with rfl | rfl <;> simp only [one_mul, ← Complex.ofReal_sin, Complex.ofReal_im, abs_zero] <;>
      norm_num [assertTol]
  obtain ⟨res, hr, -, hare⟩ := refines_ok' h1 h2 (l := pts.map (pointAmps ⟨some 1, .inf⟩ ls)) (by
    rw [hls, cohTmm_eq, if_pos hok])
  exact ⟨res, hr, by simpa [hpts] using (hare.1 res.rs (by simp)).2⟩

/-- `C123_maxwell` speaks about such a call: two points, both within its hypotheses. -/
example : (∀ p ∈ [((1 : ℝ), (500 : ℝ)), (1 / 2, 600)], |p.1| ≤ Real.pi / 2 ∧ p.2 ≠ 0) ∧
    (⟨1, [(3 / 2, 100)], 4 + I⟩ : Stack).NZ := by
  constructor
  · intro p hp
    have := Real.two_le_pi
    simp only [List.mem_cons, List.not_mem_nil, or_false] at hp
    rcases hp with rfl | rfl
    · exact ⟨by rw [abs_of_pos] <;> linarith, by norm_num⟩
    · exact ⟨by rw [abs_of_pos] <;> linarith, by norm_num⟩
  · refine ⟨one_ne_zero, fun f hf => ?_, fun h => ?_⟩
    · simp only [List.mem_singleton] at hf
      subst hf
      norm_num
    · have := congrArg Complex.im h
      simp at this

/-- An array `layers` as `structure.slabs()` gives it, with an extinction coefficient in the fronting row and
an index that is not a number in the last one. -/
example : RowsAre [⟨0, some (1 + I), 0, 0⟩, ⟨200, some (3 / 2 : ℝ), 5, 0⟩, ⟨0, none, 3, 0⟩]
    ⟨3, 4, fun i j => ([[some 0, some 1, some 1, some 0], [some 200, some (3 / 2), some 0, some 5],
      [some 0, none, none, some 3]].getD i []).getD j none⟩ := by
  refine ⟨rfl, by norm_num, fun i row hi => ?_⟩
  have h3 : i < 3 := (List.getElem?_eq_some_iff.mp hi).1
  interval_cases i <;> (simp only [List.getElem?_cons_zero, List.getElem?_cons_succ, Option.some.injEq] at hi; subst hi) <;>
    simp

/-- Two angles and three wavelengths are refused. -/
example (nl d : A2 Num) : Arr.cohTmm nl d ⟨1, 2, fun _ _ => 1⟩ ⟨1, 3, fun _ _ => 500⟩ = .error .valueError :=
  C123_shapes rfl rfl (by norm_num) (by norm_num) (by norm_num)

end Verif.TMM
