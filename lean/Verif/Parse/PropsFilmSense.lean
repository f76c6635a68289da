import Verif.Parse.LemmasText
import Verif.Parse.PropsM2000

/-!
# C78, C79: the FilmSense reader
-/

namespace Verif.Parse
open Verif.Data (Line Codec)

/-- Degrees to radians. -/
noncomputable def rad (x : ℝ) : ℝ := x * (Real.pi / 180)

theorem deg_rad (x : ℝ) : deg (rad x) = x := by
  unfold deg rad
  have := Real.pi_ne_zero
  field_simp

theorem deg_pi : deg Real.pi = 180 := by
  unfold deg
  have := Real.pi_ne_zero
  field_simp

theorem deg_strictMono : StrictMono deg := by
  intro a b h
  unfold deg
  have : (0 : ℝ) < 180 / Real.pi := by positivity
  exact mul_lt_mul_of_pos_right h this

/-- Delta does not depend on the sign of zero. -/
theorem fsDelta_eq (σ : Bool) (N C S : ℝ) :
    (fsPsiDelta σ N C S).2 = (cdiv (⟨C, S⟩ : ℂ) ((1 + N : ℝ) : ℂ)).map fun z =>
      if deg (Complex.arg z) < 0 then 360 + deg (Complex.arg z) else deg (Complex.arg z) := by
  unfold fsPsiDelta fsAngle
  simp only [Option.map_map]
  congr 1
  funext z
  simp only [Function.comp]
  split_ifs with h1 h2 h3 h4 h5 h6 h7 h8 h9 <;> try rfl
  all_goals
    have harg : Complex.arg z = Real.pi := Complex.arg_eq_pi_iff.2 ⟨h1.2, h1.1⟩
    have hneg : deg (-Real.pi) = -180 := by unfold deg; have := Real.pi_ne_zero; field_simp
    simp only [harg, deg_pi, hneg] at *
    try norm_num at *

/-- **C78.**  Psi and delta are recovered from N = cos 2psi, C = sin 2psi cos delta, S = sin 2psi sin delta,
whatever the sign of zero. -/
theorem C78_inverse (σ : Bool) (ψ δ : ℝ) (h0 : 0 < ψ) (h1 : ψ < 90) (h2 : 0 ≤ δ) (h3 : δ < 360) :
    fsPsiDelta σ (Real.cos (2 * rad ψ)) (Real.sin (2 * rad ψ) * Real.cos (rad δ))
      (Real.sin (2 * rad ψ) * Real.sin (rad δ)) = (some ψ, some δ) := by
  have hpi := Real.pi_pos
  have hψ0 : 0 < 2 * rad ψ := by unfold rad; positivity
  have hψ1 : 2 * rad ψ < Real.pi := by
    unfold rad
    have : ψ * (Real.pi / 180) < 90 * (Real.pi / 180) := mul_lt_mul_of_pos_right h1 (by positivity)
    linarith
  have hδ0 : 0 ≤ rad δ := by unfold rad; positivity
  have hδ1 : rad δ < 2 * Real.pi := by
    unfold rad
    have : δ * (Real.pi / 180) < 360 * (Real.pi / 180) := mul_lt_mul_of_pos_right h3 (by positivity)
    linarith
  have hs : 0 < Real.sin (2 * rad ψ) := Real.sin_pos_of_pos_of_lt_pi hψ0 hψ1
  have hN : 0 < 1 + Real.cos (2 * rad ψ) := by
    have : Real.cos Real.pi < Real.cos (2 * rad ψ) :=
      Real.cos_lt_cos_of_nonneg_of_le_pi hψ0.le le_rfl hψ1
    rw [Real.cos_pi] at this
    linarith
  refine Prod.ext ?_ ?_
  · simp only [fsPsiDelta, npArccos, if_pos (And.intro (Real.neg_one_le_cos _) (Real.cos_le_one _)),
      Real.arccos_cos hψ0.le hψ1.le, Option.map_some]
    rw [mul_div_cancel_left₀ _ (by norm_num : (2 : ℝ) ≠ 0), deg_rad]
  · rw [fsDelta_eq]
    have hne : ((1 + Real.cos (2 * rad ψ) : ℝ) : ℂ) ≠ 0 := by exact_mod_cast hN.ne'
    rw [cdiv, if_neg hne, Option.map_some]
    set r : ℝ := Real.sin (2 * rad ψ) / (1 + Real.cos (2 * rad ψ)) with hr
    have hr0 : 0 < r := div_pos hs hN
    have hz : (⟨Real.sin (2 * rad ψ) * Real.cos (rad δ), Real.sin (2 * rad ψ) * Real.sin (rad δ)⟩ : ℂ) /
        ((1 + Real.cos (2 * rad ψ) : ℝ) : ℂ) =
        (r : ℂ) * (Complex.cos (rad δ) + Complex.sin (rad δ) * Complex.I) := by
      rw [← Complex.ofReal_cos, ← Complex.ofReal_sin]
      apply Complex.ext
      · rw [Complex.div_ofReal_re, Complex.re_ofReal_mul]
        simp [-Complex.ofReal_cos, -Complex.ofReal_sin, hr]
        ring
      · rw [Complex.div_ofReal_im, Complex.im_ofReal_mul]
        simp [-Complex.ofReal_cos, -Complex.ofReal_sin, hr]
        ring
    rw [hz]
    congr 1
    by_cases hle : rad δ ≤ Real.pi
    · rw [Complex.arg_mul_cos_add_sin_mul_I hr0 ⟨by linarith, hle⟩, deg_rad, if_neg (not_lt.2 h2)]
    · have e : (Complex.cos (rad δ) + Complex.sin (rad δ) * Complex.I) =
          Complex.cos ((rad δ - 2 * Real.pi : ℝ) : ℂ) + Complex.sin ((rad δ - 2 * Real.pi : ℝ) : ℂ) * Complex.I := by
        push_cast
        rw [Complex.cos_sub_two_pi, Complex.sin_sub_two_pi]
      have hd : deg (rad δ - 2 * Real.pi) = δ - 360 := by
        have : deg (rad δ - 2 * Real.pi) = deg (rad δ) - 2 * deg Real.pi := by unfold deg; ring
        rw [this, deg_rad, deg_pi]; ring
      rw [e, Complex.arg_mul_cos_add_sin_mul_I hr0 ⟨by linarith, by linarith⟩, hd,
        if_pos (by linarith)]
      ring

/-- **C78.**  Whatever N, C, S: psi, if it is a number, is in [0, 90] and delta in [0, 360); psi is not a
number only for N outside [-1, 1], delta only for N = -1. -/
theorem C78_range (σ : Bool) (N C S : ℝ) :
    (∀ ψ, (fsPsiDelta σ N C S).1 = some ψ → 0 ≤ ψ ∧ ψ ≤ 90) ∧
    (∀ δ, (fsPsiDelta σ N C S).2 = some δ → 0 ≤ δ ∧ δ < 360) ∧
    ((fsPsiDelta σ N C S).1 = none ↔ N < -1 ∨ 1 < N) ∧ ((fsPsiDelta σ N C S).2 = none ↔ N = -1) := by
  have hpi := Real.pi_pos
  refine ⟨?_, ?_, ?_, ?_⟩
  · intro ψ h
    simp only [fsPsiDelta, npArccos] at h
    by_cases hN : -1 ≤ N ∧ N ≤ 1
    swap
    · rw [if_neg hN] at h; cases h
    rw [if_pos hN] at h
    simp only [Option.map_some, Option.some.injEq] at h
    rw [← h]
    constructor
    · have h0 := Real.arccos_nonneg N
      unfold deg; positivity
    · have := deg_strictMono.monotone (by linarith [Real.arccos_le_pi N] : Real.arccos N / 2 ≤ Real.pi / 2)
      refine this.trans (le_of_eq ?_)
      unfold deg; field_simp; norm_num
  · intro δ h
    rw [fsDelta_eq] at h
    obtain ⟨z, _, rfl⟩ := Option.map_eq_some_iff.1 h
    have h1 := deg_strictMono (Complex.neg_pi_lt_arg z)
    have h2 := deg_strictMono.monotone (Complex.arg_le_pi z)
    have hneg : deg (-Real.pi) = -180 := by unfold deg; have := Real.pi_ne_zero; field_simp
    rw [deg_pi] at h2
    rw [hneg] at h1
    split_ifs with hc
    · constructor <;> linarith
    · constructor <;> linarith
  · simp only [fsPsiDelta, npArccos]
    split_ifs with hN
    · simp only [Option.map_some, reduceCtorEq, false_iff, not_or, not_lt]
      exact hN
    · simp only [Option.map_none, true_iff]
      rw [not_and_or, not_le, not_le] at hN
      exact hN
  · rw [fsDelta_eq]
    unfold cdiv
    split_ifs with h
    · simp only [Option.map_none, true_iff]
      have : 1 + N = 0 := by exact_mod_cast h
      linarith
    · simp only [Option.map_some, reduceCtorEq, false_iff]
      rintro rfl
      exact h (by norm_num)

/-- Not vacuous: psi 45, delta 270. -/
example : fsPsiDelta true (Real.cos (2 * rad 45)) (Real.sin (2 * rad 45) * Real.cos (rad 270))
    (Real.sin (2 * rad 45) * Real.sin (rad 270)) = (some 45, some 270) :=
  C78_inverse _ _ _ (by norm_num) (by norm_num) (by norm_num) (by norm_num)

/-! ### Whole files -/

/-- What is measured at one wavelength. -/
structure Meas where
  N : ℝ
  C : ℝ
  S : ℝ

/-- The point the reader should make of it. -/
noncomputable def Meas.point (σ : ℝ → ℝ → ℝ → Bool) (aoi w : ℝ) (x : Meas) : FPt :=
  (w, aoi, fsPsiDelta (σ x.N x.C x.S) x.N x.C x.S)

/-- The header line: number of wavelengths, of datasets, nominal angle and further numbers. -/
structure Head (c : FCodec) (l : Line) (nw nd : ℕ) (aoi : ℝ) (extra : List ℕ) : Prop where
  nw : ∃ f, (fields l)[0]? = some f ∧ c.pi f = some nw
  nd : ∃ f, (fields l)[1]? = some f ∧ c.pi f = some nd
  aoi : FieldIs c.toCodec (fields l) 2 aoi
  extra : ∀ i ∈ extra, ∃ x, FieldIs c.toCodec (fields l) i x

/-- A line with a wavelength and three numbers. -/
def WaveLine (c : Codec) (l : Line) (w : ℝ) : Prop :=
  ∃ x y z, List.Forall₂ (FieldIs c (fields l)) [0, 1, 2, 3] [w, x, y, z]

/-- A line with N, C, S and two numbers. -/
def MeasLine (c : Codec) (l : Line) (x : Meas) : Prop :=
  ∃ y z, List.Forall₂ (FieldIs c (fields l)) [0, 1, 2, 3, 4] [x.N, x.C, x.S, y, z]

theorem inum_ok (c : FCodec) (fs : List Line) (i n : ℕ) (h : ∃ f, fs[i]? = some f ∧ c.pi f = some n) :
    inum c fs i = .ok n := by
  obtain ⟨f, h1, h2⟩ := h
  simp [inum, h1, h2]

theorem nums_exists (c : Codec) (fs : List Line) : ∀ (is : List ℕ), (∀ i ∈ is, ∃ x, FieldIs c fs i x) →
    ∃ xs, nums c fs is = .ok xs
  | [], _ => ⟨[], rfl⟩
  | i :: is, h => by
    obtain ⟨x, hx⟩ := h i (by simp)
    obtain ⟨xs, hxs⟩ := nums_exists c fs is fun j hj => h j (by simp [hj])
    refine ⟨x :: xs, ?_⟩
    rw [nums, (num_ok c fs i x).2 hx, hxs]
    rfl

theorem head_ok {c : FCodec} {l : Line} {nw nd : ℕ} {aoi : ℝ} {extra : List ℕ}
    (h : Head c l nw nd aoi extra) : fsHeader c l extra = .ok (nw, nd, aoi) := by
  obtain ⟨xs, hxs⟩ := nums_exists c.toCodec (fields l) extra h.extra
  unfold fsHeader
  simp only [inum_ok c _ 0 nw h.nw, inum_ok c _ 1 nd h.nd, (num_ok c.toCodec _ 2 aoi).2 h.aoi, hxs]
  rfl

theorem readRows_ok (c : Codec) (is : List ℕ) : ∀ (ls : List Line) (xs : List (List ℝ)) (rest : List Line),
    List.Forall₂ (fun l x => List.Forall₂ (FieldIs c (fields l)) is x) ls xs →
    readRows c is ls.length (ls ++ rest) = .ok (xs, rest)
  | [], _, rest, h => by cases h; rfl
  | l :: ls, _, rest, h => by
    cases h with
    | cons h1 h2 =>
      rw [List.length_cons, List.cons_append, readRows]
      simp only [readLine, nums_ok c _ _ _ h1, readRows_ok c is ls _ rest h2]
      rfl

theorem waves_ok (c : Codec) {ls : List Line} {ws : List ℝ} (h : List.Forall₂ (WaveLine c) ls ws) :
    ∃ xs, List.Forall₂ (fun l x => List.Forall₂ (FieldIs c (fields l)) [0, 1, 2, 3] x) ls xs ∧
      xs.map (fun x => x.getD 0 0) = ws := by
  induction h with
  | nil => exact ⟨[], .nil, rfl⟩
  | cons h _ ih =>
    obtain ⟨x, y, z, h⟩ := h
    obtain ⟨xs, h1, h2⟩ := ih
    exact ⟨_ :: xs, .cons h h1, by rw [List.map_cons, h2]; rfl⟩

theorem meas_ok (c : Codec) {ls : List Line} {ms : List Meas} (h : List.Forall₂ (MeasLine c) ls ms) :
    ∃ xs, List.Forall₂ (fun l x => List.Forall₂ (FieldIs c (fields l)) [0, 1, 2, 3, 4] x) ls xs ∧
      xs.map (fun x => (⟨x.getD 0 0, x.getD 1 0, x.getD 2 0⟩ : Meas)) = ms := by
  induction h with
  | nil => exact ⟨[], .nil, rfl⟩
  | cons h _ ih =>
    obtain ⟨x, y, h⟩ := h
    obtain ⟨xs, h1, h2⟩ := ih
    exact ⟨_ :: xs, .cons h h1, by rw [List.map_cons, h2]; rfl⟩

theorem zipWith_points (σ : ℝ → ℝ → ℝ → Bool) (a : ℝ) (ws : List (List ℝ)) (ds : List (List ℝ)) :
    List.zipWith (fsPoint σ a) ws ds =
      List.zipWith (Meas.point σ a) (ws.map fun x => x.getD 0 0)
        (ds.map fun x => (⟨x.getD 0 0, x.getD 1 0, x.getD 2 0⟩ : Meas)) := by
  rw [List.zipWith_map]
  rfl

theorem open_static (c : FCodec) (σ : ℝ → ℝ → ℝ → Bool) (ls : List Line) :
    openFilmSense c σ ("Film_Sense_Data".toList :: ls) = (fsStatic c σ ls).map .static :=
  if_pos rfl

theorem open_dynamic (c : FCodec) (σ : ℝ → ℝ → ℝ → Bool) (ls : List Line) :
    openFilmSense c σ ("Film_Sense_Dyn_Data".toList :: ls) = (fsDynamic c σ ls).map .dynamic := by
  have h : ¬ ("Film_Sense_Dyn_Data".toList = "Film_Sense_Data".toList) := by decide
  exact (if_neg h).trans (if_pos rfl)

/-- **C79.**  A static file: as many points as there are wavelengths, each wavelength with its own line of
N, C, S and the nominal angle. -/
theorem C79_static (c : FCodec) (σ : ℝ → ℝ → ℝ → Bool) (hd : Line) (nd : ℕ) (aoi : ℝ)
    (wl ml rest : List Line) (ws : List ℝ) (ms : List Meas)
    (hh : Head c hd wl.length nd aoi [3, 4, 5]) (hw : List.Forall₂ (WaveLine c.toCodec) wl ws)
    (hm : List.Forall₂ (MeasLine c.toCodec) ml ms) (hlen : ml.length = wl.length) :
    ∃ pts, openFilmSense c σ ("Film_Sense_Data".toList :: hd :: wl ++ ml ++ rest) = .ok (.static pts) ∧
      pts.length = wl.length ∧
      ∀ (i : ℕ) (w : ℝ) (x : Meas), ws[i]? = some w → ms[i]? = some x → pts[i]? = some (x.point σ aoi w) := by
  obtain ⟨xs, hx1, hx2⟩ := waves_ok c.toCodec hw
  obtain ⟨ys, hy1, hy2⟩ := meas_ok c.toCodec hm
  refine ⟨List.zipWith (Meas.point σ aoi) ws ms, ?_, ?_, ?_⟩
  · rw [List.cons_append, List.cons_append, List.cons_append, List.cons_append, open_static]
    unfold fsStatic
    simp only [readLine, head_ok hh]
    have e1 := readRows_ok c.toCodec [0, 1, 2, 3] wl xs (ml ++ rest) hx1
    have e2 := readRows_ok c.toCodec [0, 1, 2, 3, 4] ml ys rest hy1
    rw [hlen] at e2
    simp only [bind, Except.bind, List.append_assoc, e1, e2, zipWith_points, hx2, hy2]
    rfl
  · rw [List.length_zipWith, ← hw.length_eq, ← hm.length_eq, hlen, min_self]
  · intro i w x h1 h2
    rw [List.getElem?_zipWith, h1, h2]

/-- A line of a dynamic file, whose last character is dropped: a time, then five numbers for each
wavelength, the first three being N, C, S. -/
structure DynLine (c : Codec) (l : Line) (t : ℝ) (ms : List Meas) : Prop where
  time : FieldIs c (fields l.dropLast) 0 t
  meas : ∀ (j : ℕ) (x : Meas), ms[j]? = some x → ∃ y z, List.Forall₂ (FieldIs c (fields l.dropLast))
    [5 * j + 1, 5 * j + 2, 5 * j + 3, 5 * j + 4, 5 * j + 5] [x.N, x.C, x.S, y, z]

theorem fsBlocks_ok (c : Codec) (fs : List Line) : ∀ (ms : List Meas) (k : ℕ),
    (∀ (j : ℕ) (x : Meas), ms[j]? = some x → ∃ y z, List.Forall₂ (FieldIs c fs)
      [5 * (k + j) + 1, 5 * (k + j) + 2, 5 * (k + j) + 3, 5 * (k + j) + 4, 5 * (k + j) + 5]
      [x.N, x.C, x.S, y, z]) →
    ∃ xs, fsBlocks c fs k ms.length = .ok xs ∧
      xs.map (fun x => (⟨x.getD 0 0, x.getD 1 0, x.getD 2 0⟩ : Meas)) = ms
  | [], k, _ => ⟨[], rfl, rfl⟩
  | x :: ms, k, h => by
    obtain ⟨y, z, h0⟩ := h 0 x rfl
    obtain ⟨xs, h1, h2⟩ := fsBlocks_ok c fs ms (k + 1) (by
      intro j x' hj
      have := h (j + 1) x' (by simpa using hj)
      rwa [show k + (j + 1) = k + 1 + j by omega] at this)
    refine ⟨[x.N, x.C, x.S, y, z] :: xs, ?_, by rw [List.map_cons, h2]; rfl⟩
    rw [List.length_cons, fsBlocks]
    have := nums_ok c fs _ _ h0
    simp only [Nat.add_zero] at this
    simp only [this, h1]
    rfl

theorem fsDynLoop_ok (c : Codec) (σ : ℝ → ℝ → ℝ → Bool) (a : ℝ) (ws : List (List ℝ)) (nw : ℕ) (rest : List Line) :
    ∀ (ls : List Line) (ds : List (ℝ × List Meas)) (d : List (ℝ × List FPt)),
    List.Forall₂ (fun l (x : ℝ × List Meas) => DynLine c l x.1 x.2) ls ds → (∀ x ∈ ds, x.2.length = nw) →
    fsDynLoop c σ a ws nw ls.length (ls ++ rest) d = .ok ((ds.map fun x =>
      (x.1, List.zipWith (Meas.point σ a) (ws.map fun x => x.getD 0 0) x.2)).reverse ++ d)
  | [], _, d, h, _ => by cases h; rfl
  | l :: ls, _, d, h, hn => by
    cases h with
    | @cons _ x _ ds h1 h2 =>
      obtain ⟨xs, hx, hy⟩ := fsBlocks_ok c (fields l.dropLast) x.2 0 (by simpa using h1.meas)
      rw [hn x (by simp)] at hx
      have hline : fsDynLine c nw l = .ok (x.1, xs) := by
        unfold fsDynLine
        simp only [(num_ok c _ 0 x.1).2 h1.time, hx]
        rfl
      rw [List.length_cons, List.cons_append, fsDynLoop]
      simp only [readLine, hline, bind, Except.bind]
      rw [fsDynLoop_ok c σ a ws nw rest ls ds _ h2 fun y hy => hn y (by simp [hy])]
      rw [zipWith_points, hy]
      simp [put]

/-- The dictionary made of a dynamic file: later lines come first, so they are found first. -/
theorem dynamic_dict (c : FCodec) (σ : ℝ → ℝ → ℝ → Bool) (hd title : Line) (aoi : ℝ)
    (wl dl rest : List Line) (ws : List ℝ) (ds : List (ℝ × List Meas))
    (hh : Head c hd wl.length dl.length aoi [3]) (hw : List.Forall₂ (WaveLine c.toCodec) wl ws)
    (hm : List.Forall₂ (fun l (x : ℝ × List Meas) => DynLine c.toCodec l x.1 x.2) dl ds)
    (hlen : ∀ x ∈ ds, x.2.length = wl.length) :
    openFilmSense c σ ("Film_Sense_Dyn_Data".toList :: hd :: wl ++ title :: dl ++ rest) =
      .ok (.dynamic (ds.map fun x => (x.1, List.zipWith (Meas.point σ aoi) ws x.2)).reverse) := by
  obtain ⟨xs, hx1, hx2⟩ := waves_ok c.toCodec hw
  rw [List.cons_append, List.cons_append, List.cons_append, List.cons_append, open_dynamic]
  unfold fsDynamic
  simp only [readLine, head_ok hh]
  have e1 := readRows_ok c.toCodec [0, 1, 2, 3] wl xs (title :: (dl ++ rest)) hx1
  have e2 := fsDynLoop_ok c.toCodec σ aoi xs wl.length rest dl ds [] hm hlen
  simp only [bind, Except.bind, List.append_assoc, List.cons_append, e1, e2, hx2, List.append_nil]
  rfl

/-- The dictionary finds the last of the entries with a key. -/
theorem get_reverse_append {κ α : Type} (as bs : List (κ × α)) (k : κ) (x : α)
    (hb : k ∉ bs.map Prod.fst) : get (as ++ (k, x) :: bs).reverse k = some x := by
  classical
  unfold get
  rw [List.reverse_append, List.find?_append, List.reverse_cons, List.find?_append]
  have h1 : bs.reverse.find? (fun e => decide (e.1 = k)) = none := by
    rw [List.find?_eq_none]
    intro e he h
    simp only [decide_eq_true_eq] at h
    exact hb (List.mem_map.2 ⟨e, List.mem_reverse.1 he, h⟩)
  rw [h1]
  simp

/-- **C79** (dynamic files with distinct times).  Under each time there is a dataset with as many points
as there are wavelengths, each with its own N, C, S and the nominal angle; there is nothing else.  Missing:
files in which a time occurs twice, where a dataset is lost (`C79_fails_equal_times`, `C79_last`). -/
theorem C79_dynamic_partial (c : FCodec) (σ : ℝ → ℝ → ℝ → Bool) (hd title : Line) (aoi : ℝ)
    (wl dl rest : List Line) (ws : List ℝ) (ds : List (ℝ × List Meas))
    (hh : Head c hd wl.length dl.length aoi [3]) (hw : List.Forall₂ (WaveLine c.toCodec) wl ws)
    (hm : List.Forall₂ (fun l (x : ℝ × List Meas) => DynLine c.toCodec l x.1 x.2) dl ds)
    (hlen : ∀ x ∈ ds, x.2.length = wl.length) (hnd : (ds.map Prod.fst).Nodup) :
    ∃ d, openFilmSense c σ ("Film_Sense_Dyn_Data".toList :: hd :: wl ++ title :: dl ++ rest) = .ok (.dynamic d) ∧
      d.length = dl.length ∧
      (∀ t ms, (t, ms) ∈ ds → ∃ pts, get d t = some pts ∧ pts.length = wl.length ∧
        ∀ (i : ℕ) (w : ℝ) (x : Meas), ws[i]? = some w → ms[i]? = some x → pts[i]? = some (x.point σ aoi w)) ∧
      ∀ t pts, get d t = some pts → t ∈ ds.map Prod.fst := by
  refine ⟨(ds.map fun x => (x.1, List.zipWith (Meas.point σ aoi) ws x.2)).reverse, ?_, ?_, ?_, ?_⟩
  · exact dynamic_dict c σ hd title aoi wl dl rest ws ds hh hw hm hlen
  · simp [hm.length_eq]
  · intro t ms hmem
    refine ⟨List.zipWith (Meas.point σ aoi) ws ms, ?_, ?_, ?_⟩
    · refine get_of_mem ?_ ?_
      · rw [List.map_reverse, List.nodup_reverse, List.map_map]
        exact hnd
      · rw [List.mem_reverse, List.mem_map]
        exact ⟨(t, ms), hmem, rfl⟩
    · have := hlen _ hmem
      simp only at this
      rw [List.length_zipWith, ← hw.length_eq, this, min_self]
    · intro i w x h1 h2
      rw [List.getElem?_zipWith, h1, h2]
  · intro t pts h
    have := mem_of_get h
    rw [List.mem_reverse, List.mem_map] at this
    obtain ⟨x, hx, e⟩ := this
    exact List.mem_map.2 ⟨x, hx, (congrArg Prod.fst e)⟩

/-- **C79.**  Whatever the times: a line which no later line with the same time follows is read. -/
theorem C79_last (c : FCodec) (σ : ℝ → ℝ → ℝ → Bool) (hd title : Line) (aoi : ℝ)
    (wl dl rest : List Line) (ws : List ℝ) (before after : List (ℝ × List Meas)) (t : ℝ) (ms : List Meas)
    (hh : Head c hd wl.length dl.length aoi [3]) (hw : List.Forall₂ (WaveLine c.toCodec) wl ws)
    (hm : List.Forall₂ (fun l (x : ℝ × List Meas) => DynLine c.toCodec l x.1 x.2) dl (before ++ (t, ms) :: after))
    (hlen : ∀ x ∈ before ++ (t, ms) :: after, x.2.length = wl.length) (ht : t ∉ after.map Prod.fst) :
    ∃ d, openFilmSense c σ ("Film_Sense_Dyn_Data".toList :: hd :: wl ++ title :: dl ++ rest) = .ok (.dynamic d) ∧
      ∃ pts, get d t = some pts ∧ pts.length = wl.length ∧
        ∀ (i : ℕ) (w : ℝ) (x : Meas), ws[i]? = some w → ms[i]? = some x → pts[i]? = some (x.point σ aoi w) := by
  refine ⟨_, dynamic_dict c σ hd title aoi wl dl rest ws _ hh hw hm hlen,
    List.zipWith (Meas.point σ aoi) ws ms, ?_, ?_, ?_⟩
  · rw [List.map_append, List.map_cons]
    refine get_reverse_append _ _ _ _ ?_
    rw [List.map_map]
    exact ht
  · have := hlen (t, ms) (by simp)
    simp only at this
    rw [List.length_zipWith, ← hw.length_eq, this, min_self]
  · intro i w x h1 h2
    rw [List.getElem?_zipWith, h1, h2]

/-- **C79 is false of the code when a time occurs twice.**  Of the lines with one time only the last can be
had from the result: a dataset found under the time of two lines is not that of the earlier line, as soon as
their points differ somewhere, and there are fewer times to ask for than datasets in the file. -/
theorem C79_fails_equal_times (c : FCodec) (σ : ℝ → ℝ → ℝ → Bool) (hd title : Line) (aoi : ℝ)
    (wl dl rest : List Line) (ws : List ℝ) (t : ℝ) (ms ms' : List Meas)
    (hh : Head c hd wl.length dl.length aoi [3]) (hw : List.Forall₂ (WaveLine c.toCodec) wl ws)
    (hm : List.Forall₂ (fun l (x : ℝ × List Meas) => DynLine c.toCodec l x.1 x.2) dl [(t, ms), (t, ms')])
    (hl : ms.length = wl.length) (hl' : ms'.length = wl.length)
    (hne : ∃ (i : ℕ) (w : ℝ) (x x' : Meas), ws[i]? = some w ∧ ms[i]? = some x ∧ ms'[i]? = some x' ∧
      x.point σ aoi w ≠ x'.point σ aoi w) :
    ∃ d, openFilmSense c σ ("Film_Sense_Dyn_Data".toList :: hd :: wl ++ title :: dl ++ rest) = .ok (.dynamic d) ∧
      (∃ pts, get d t = some pts) ∧
      ∀ t' pts, get d t' = some pts → t' = t ∧
        ¬ ∀ (i : ℕ) (w : ℝ) (x : Meas), ws[i]? = some w → ms[i]? = some x → pts[i]? = some (x.point σ aoi w) := by
  have hlen : ∀ x ∈ [(t, ms), (t, ms')], x.2.length = wl.length := by
    intro x hx
    simp only [List.mem_cons, List.not_mem_nil, or_false] at hx
    rcases hx with rfl | rfl
    · exact hl
    · exact hl'
  have key : get ([(t, ms), (t, ms')].map fun x =>
      (x.1, List.zipWith (Meas.point σ aoi) ws x.2)).reverse t = some (List.zipWith (Meas.point σ aoi) ws ms') :=
    get_reverse_append [(t, List.zipWith (Meas.point σ aoi) ws ms)] [] t _ (by simp)
  refine ⟨_, dynamic_dict c σ hd title aoi wl dl rest ws _ hh hw hm hlen, ⟨_, key⟩, ?_⟩
  intro t' pts h
  have ht : t' = t := by
    have := mem_of_get h
    rw [List.mem_reverse] at this
    simp only [List.map_cons, List.map_nil, List.mem_cons, List.not_mem_nil, or_false, Prod.mk.injEq] at this
    rcases this with h | h <;> exact h.1
  subst ht
  refine ⟨rfl, fun hall => ?_⟩
  rw [key] at h
  obtain ⟨i, w, x, x', h1, h2, h3, h4⟩ := hne
  have e := hall i w x h1 h2
  rw [← Option.some.inj h, List.getElem?_zipWith, h1, h3] at e
  exact h4 (Option.some.inj e).symm

/-- **C79.**  A file of another kind is refused. -/
theorem C79_unknown (c : FCodec) (σ : ℝ → ℝ → ℝ → Bool) (l : Line) (ls : List Line)
    (h1 : l ≠ "Film_Sense_Data".toList) (h2 : l ≠ "Film_Sense_Dyn_Data".toList) :
    openFilmSense c σ (l :: ls) = .error .assertionError := by
  exact (if_neg h1).trans (if_neg h2)

/-- Words read as their length. -/
def fLengthCodec : FCodec := { lengthCodec with pi := fun l => some l.length }

/-- Not vacuous: a static file with one wavelength. -/
example : Head fLengthCodec "a\tb\tabc\ta\tb\tc".toList 1 1 3 [3, 4, 5] ∧
    WaveLine fLengthCodec.toCodec "ab\tb\tc\td".toList 2 ∧
    MeasLine fLengthCodec.toCodec "a\tab\tabc\ta\tb".toList ⟨1, 2, 3⟩ := by
  have f1 : fields "a\tb\tabc\ta\tb\tc".toList =
    ["a".toList, "b".toList, "abc".toList, "a".toList, "b".toList, "c".toList] := by decide
  have f2 : fields "ab\tb\tc\td".toList = ["ab".toList, "b".toList, "c".toList, "d".toList] := by decide
  have f3 : fields "a\tab\tabc\ta\tb".toList =
    ["a".toList, "ab".toList, "abc".toList, "a".toList, "b".toList] := by decide
  refine ⟨⟨?_, ?_, ?_, ?_⟩, ⟨1, 1, 1, ?_⟩, ⟨1, 1, ?_⟩⟩
  · rw [f1]; exact ⟨_, rfl, rfl⟩
  · rw [f1]; exact ⟨_, rfl, rfl⟩
  · rw [f1]; exact ⟨_, rfl, by simp [fLengthCodec, lengthCodec]⟩
  · rw [f1]
    intro i hi
    simp only [List.mem_cons, List.not_mem_nil, or_false] at hi
    rcases hi with rfl | rfl | rfl <;> exact ⟨1, _, rfl, by simp [fLengthCodec, lengthCodec]⟩
  · rw [f2]; simp [FieldIs, fLengthCodec, lengthCodec]
  · rw [f3]; simp [FieldIs, fLengthCodec, lengthCodec]

/-- Not vacuous: a line of a dynamic file, ended by a tab, for one wavelength. -/
example : DynLine fLengthCodec.toCodec "a\ta\tab\tabc\ta\tb\t".toList 1 [⟨1, 2, 3⟩] := by
  have f : fields ("a\ta\tab\tabc\ta\tb\t".toList).dropLast =
    ["a".toList, "a".toList, "ab".toList, "abc".toList, "a".toList, "b".toList] := by decide
  refine ⟨?_, ?_⟩
  · rw [f]; exact ⟨_, rfl, by simp [fLengthCodec, lengthCodec]⟩
  · intro j x hj
    rw [f]
    rcases j with _ | j
    · simp at hj
      subst hj
      refine ⟨1, 1, ?_⟩
      simp [FieldIs, fLengthCodec, lengthCodec]
    · simp at hj

/-- Not vacuous: two lines of the same time, the first with psi 0 and the second with psi 45. -/
example (σ : ℝ → ℝ → ℝ → Bool) : DynLine fLengthCodec.toCodec "a\ta\tab\tabc\ta\tb\t".toList 1 [⟨1, 2, 3⟩] ∧
    DynLine fLengthCodec.toCodec "a\t\tab\tabc\ta\tb\t".toList 1 [⟨0, 2, 3⟩] ∧
    Meas.point σ 70 500 ⟨1, 2, 3⟩ ≠ Meas.point σ 70 500 ⟨0, 2, 3⟩ := by
  have f : fields ("a\ta\tab\tabc\ta\tb\t".toList).dropLast =
    ["a".toList, "a".toList, "ab".toList, "abc".toList, "a".toList, "b".toList] := by decide
  have f' : fields ("a\t\tab\tabc\ta\tb\t".toList).dropLast =
    ["a".toList, "".toList, "ab".toList, "abc".toList, "a".toList, "b".toList] := by decide
  refine ⟨⟨?_, ?_⟩, ⟨?_, ?_⟩, ?_⟩
  · rw [f]; exact ⟨_, rfl, by simp [fLengthCodec, lengthCodec]⟩
  · intro j x hj
    rw [f]
    rcases j with _ | j
    · simp at hj
      subst hj
      refine ⟨1, 1, ?_⟩
      simp [FieldIs, fLengthCodec, lengthCodec]
    · simp at hj
  · rw [f']; exact ⟨_, rfl, by simp [fLengthCodec, lengthCodec]⟩
  · intro j x hj
    rw [f']
    rcases j with _ | j
    · simp at hj
      subst hj
      refine ⟨1, 1, ?_⟩
      simp [FieldIs, fLengthCodec, lengthCodec]
    · simp at hj
  · intro h
    have h1 := congrArg (fun x : FPt => x.2.2.1) h
    simp [Meas.point, fsPsiDelta, npArccos, Real.arccos_one, Real.arccos_zero, deg] at h1

end Verif.Parse
