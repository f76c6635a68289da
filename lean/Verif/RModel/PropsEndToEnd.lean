import Verif.RModel.PropsModel
import Verif.EMA.PropsRules
import Verif.TMM.PropsCont

/-!
# From the structure to psi and delta (C117)

The pieces put together: components with materials, mixing with a solvent and the reverse flag on one
side, Maxwell's boundary value problem on the other.
-/

namespace Verif.RModel
open Verif.Struct Verif.TMM Verif.Disp
open Complex (I)

/-! ### What a structure describes -/

/-- `n` is the index of the material `s` (a scatterer class of the package) at the wavelength `w`, and
it does not amplify. -/
def MaterialAt (z : SqrtOracle) (w : ℝ) (s : Scat) (n : ℂ) : Prop :=
  (∃ own, s.ownWav = some own) ∧ s.at z w = some n ∧ PassiveIndex n

/-- `n` is the index of the mixture of a fraction `1 - f` of index `a` and a fraction `f` of index `b` under a
rule: it is passive and its square solves the equation of the rule.  Under the Bruggeman rule all three are
dielectrics. -/
structure Mix (ema : String) (L f : ℝ) (a b n : ℂ) : Prop where
  fraction : 0 ≤ f ∧ f ≤ 1
  depol : EMA.GoodL ema L
  passive : PassiveIndex n
  dielectric : ema = "bruggeman" → EMA.Dielectric a ∧ EMA.Dielectric b ∧ EMA.Dielectric n
  eq : EMA.MixEq ema (a ^ 2) (b ^ 2) f L (n ^ 2)

/-- The medium a component describes at either end of the structure. -/
inductive EndIs (z : SqrtOracle) (v : Vals) (w : ℝ) : Comp → ℂ → Prop
  | slab {t g f : PId} {r : ScatObj} {d : Bool} {n : ℂ} (h : MaterialAt z w (r v) n) :
    EndIs z v w (.slab t r g f d) n

/-- The film (index, thickness in nm) a component describes in a solvent of index `nS`, under a mixing rule with
depolarisation factor `L`. -/
inductive FilmIs (z : SqrtOracle) (v : Vals) (ema : String) (L w : ℝ) (nS : ℂ) : Comp → ℂ × ℝ → Prop
  | slab {t g f : PId} {r : ScatObj} {d : Bool} {a n : ℂ} (h : MaterialAt z w (r v) a)
      (hm : Mix ema L (v f) a nS n) : FilmIs z v ema L w nS (.slab t r g f d) (n, v t / 10)
  | mixed {t g f : PId} {ra rb : ScatObj} {d : Bool} {a b n : ℂ} (ha : MaterialAt z w (ra v) a)
      (hb : MaterialAt z w (rb v) b) (hm : Mix ema L (v f) a b n)
      (hS : ema = "bruggeman" → EMA.Dielectric nS) :
      FilmIs z v ema L w nS (.mixed t ra rb f g d) (n, v t / 10)

/-- The stack that light of wavelength `w` meets in a structure of components `cs`: the components in
order, or in the opposite order if the structure is reversed; the solvent is the one of the structure or
else the backing medium. -/
def Sees (z : SqrtOracle) (v : Vals) (s : Structure) (cs : List Comp) (w : ℝ) (st : Stack) : Prop :=
  ∃ c0 mid cb n0 nS, (if s.reverse then cs.reverse else cs) = c0 :: mid ++ [cb] ∧
    EndIs z v w c0 n0 ∧ st.front = (n0.re : ℂ) ∧ EndIs z v w cb st.back ∧
    (match s.solvent with
      | none => nS = st.back
      | some r => MaterialAt z w (r v) nS) ∧
    List.Forall₂ (FilmIs z v s.ema s.dp w nS) mid st.films

/-! ### The slabs -/

/-- Rows that differ in roughness only. -/
def SameRow (r r' : Row) : Prop := r'.ri = r.ri ∧ r'.thick = r.thick ∧ r'.vf = r.vf

theorem sameRow_zip : ∀ (l : List Row) (g : List ℝ), g.length = l.length →
    List.Forall₂ SameRow l (List.zipWith (fun r g => { r with rough := g }) l g)
  | [], _, _ => by simp
  | r :: l, [], h => by simp at h
  | r :: l, x :: g, h => by
    refine .cons ⟨rfl, rfl, rfl⟩ (sameRow_zip l g (by simpa using h))

theorem sameRow_reverse (rows : List Row) :
    List.Forall₂ SameRow rows.reverse (reverseRows rows) := by
  unfold reverseRows
  cases rows with
  | nil => simp
  | cons a t => exact sameRow_zip _ _ (by simp)

theorem layerRi_material {ext : Ext} {st : Settings} {w : ℝ} (hw : w ≠ 0) (hst : st.wavelength = some w)
    {s : Scat} {n : ℂ} (h : MaterialAt ext.zs w s n) : layerRi ext st s = some n := by
  obtain ⟨⟨own, ho⟩, hn, -⟩ := h
  have hd : s.dispersive = true := by cases s <;> simp_all [Scat.ownWav, Scat.dispersive]
  rw [layerRi, if_pos hd, hst, (C44_effective ext.zs s ho).1 w hw, hn]

theorem mixO_mix {ext : Ext} {st : Settings} (he : EMA.Known st.ema) {f : ℝ} {a b n : ℂ} (ha : PassiveIndex a)
    (hb : PassiveIndex b) (h : Mix st.ema st.dp f a b n) : mixO ext st (some a) (some b) f = some n := by
  unfold mixO
  obtain ⟨N, h1, -, -, h2⟩ := EMA.C122_unique_partial (ext.ze a b f st.ema st.dp) ha hb h.fraction he h.depol
    (fun e => ⟨(h.dielectric e).1, (h.dielectric e).2.1⟩)
  have := (h2 n h.passive fun e => (h.dielectric e).2.2).mp h.eq
  subst this
  simp only [EMA.overallRiO, Option.getD_some, h1, Except.map]

theorem mix_zero {ema : String} (he : EMA.Known ema) {L : ℝ} {a b n : ℂ} (ha : PassiveIndex a)
    (hb : PassiveIndex b) (h : Mix ema L 0 a b n) : n = a := by
  obtain ⟨N, -, -, -, h2⟩ := EMA.C122_unique_partial (true, true) ha hb h.fraction he h.depol
    (fun e => ⟨(h.dielectric e).1, (h.dielectric e).2.1⟩)
  rw [(h2 n h.passive fun e => (h.dielectric e).2.2).mp h.eq]
  refine ((h2 a ha fun e => (h.dielectric e).1).mp ?_).symm
  refine ⟨fun _ => by simp, fun _ => by simp [EMA.GarnettEq], fun _ => by simp [EMA.BruggemanEq]⟩

theorem mix_dry {ema : String} {L : ℝ} (hL : EMA.GoodL ema L) {n b : ℂ} (h : PassiveIndex n)
    (hd : ema = "bruggeman" → EMA.Dielectric n ∧ EMA.Dielectric b) : Mix ema L 0 n b n :=
  ⟨⟨le_rfl, zero_le_one⟩, hL, h, fun e => ⟨(hd e).1, (hd e).2, (hd e).1⟩,
    fun _ => by simp, fun _ => by simp [EMA.GarnettEq], fun _ => by simp [EMA.BruggemanEq]⟩

/-- A row of a component, before and after solvation, has the index of the film. -/
theorem film_row {ext : Ext} {v : Vals} {st : Settings} {w : ℝ} (hw : w ≠ 0)
    (hst : st.wavelength = some w) (he : EMA.Known st.ema) {nS : ℂ} (hnS : PassiveIndex nS) {c : Comp} {f : ℂ × ℝ}
    (h : FilmIs ext.zs v st.ema st.dp w nS c f) {r : Row} (hr : SameRow (compRow ext v st c) r) :
    r.thick = 10 * f.2 ∧ mixO ext st r.ri (some nS) r.vf = some f.1 ∧ (r.vf ≤ 0 → r.ri = some f.1) := by
  obtain ⟨h1, h2, h3⟩ := hr
  rw [h1, h2, h3]
  cases h with
  | slab hm hx =>
    simp only [compRow, layerRi_material hw hst hm]
    refine ⟨by ring, mixO_mix he hm.2.2 hnS hx, fun hf => ?_⟩
    have h0 := le_antisymm hf hx.fraction.1
    rw [h0] at hx
    rw [mix_zero he hm.2.2 hnS hx]
  | mixed ha hb hx hS =>
    simp only [compRow, layerRi_material hw hst ha, layerRi_material hw hst hb, mixO_mix he ha.2.2 hb.2.2 hx]
    exact ⟨by ring, mixO_mix he hx.passive hnS (mix_dry hx.depol hx.passive fun e =>
      ⟨(hx.dielectric e).2.2, hS e⟩), fun _ => trivial⟩

theorem end_row {ext : Ext} {v : Vals} {st : Settings} {w : ℝ} (hw : w ≠ 0)
    (hst : st.wavelength = some w) {c : Comp} {n : ℂ} (h : EndIs ext.zs v w c n) {r : Row}
    (hr : SameRow (compRow ext v st c) r) : r.ri = some n := by
  rw [hr.1]
  cases h with
  | slab hm => simp only [compRow, layerRi_material hw hst hm]

theorem setInterior_mid (r0 rb : Row) (mid mid' : List Row) :
    setInterior (r0 :: mid ++ [rb]) mid' = r0 :: mid' ++ [rb] := by
  cases mid with
  | nil => simp [setInterior]
  | cons a t =>
    have : (r0 :: a :: (t ++ [rb])).getLast? = some rb := by
      rw [show r0 :: a :: (t ++ [rb]) = (r0 :: a :: t) ++ [rb] from rfl, List.getLast?_append]
      rfl
    simp [setInterior, this]

theorem forall₂_split {α β : Type} {P : α → β → Prop} : ∀ {l₁ l₂ : List α} {l : List β},
    List.Forall₂ P (l₁ ++ l₂) l → ∃ m₁ m₂, l = m₁ ++ m₂ ∧ List.Forall₂ P l₁ m₁ ∧ List.Forall₂ P l₂ m₂
  | [], _, l, h => ⟨[], l, rfl, .nil, h⟩
  | a :: l₁, l₂, l, h => by
    rw [List.cons_append, List.forall₂_cons_left_iff] at h
    obtain ⟨b, l', hb, hl, rfl⟩ := h
    obtain ⟨m₁, m₂, rfl, h1, h2⟩ := forall₂_split hl
    exact ⟨b :: m₁, m₂, rfl, .cons hb h1, h2⟩

theorem films_rows {ext : Ext} {v : Vals} {S : Settings} {P : Comp → ℂ × ℝ → Prop} {g : Row → Row}
    {mid : List Comp} {fs : List (ℂ × ℝ)} (h : List.Forall₂ P mid fs) {R : List Row}
    (hR : List.Forall₂ SameRow (mid.map (compRow ext v S)) R)
    (hg : ∀ c f r, P c f → SameRow (compRow ext v S c) r → r ∈ R →
      (g r).ri = some f.1 ∧ (g r).thick = 10 * f.2) :
    List.Forall₂ (fun (r : Row) (f : ℂ × ℝ) => r.ri = some f.1 ∧ r.thick = 10 * f.2) (R.map g) fs := by
  induction h generalizing R with
  | nil =>
    cases hR
    exact .nil
  | @cons c f _ _ hc _ ih =>
    rw [List.map_cons, List.forall₂_cons_left_iff] at hR
    obtain ⟨r, R', hr, hR', rfl⟩ := hR
    exact .cons (hg c f r hc hr (by simp)) (ih hR' fun c f r h1 h2 h3 => hg c f r h1 h2 (by simp [h3]))

/-- C117, slabs: the slab array of a structure describes the stack that light meets. -/
theorem C117_slabs {ext : Ext} {v : Vals} {s : Structure} {cs : List Comp} (h : Plain s cs)
    {w : ℝ} (hw : w ≠ 0) {st : Stack} (hs : Sees ext.zs v s cs w st) :
    ∃ rows, (slabs ext v { s with wavelength := some w } none).1 = .ok (some rows) ∧ RowsOf rows st := by
  have h' : Plain { s with wavelength := some w } cs := ⟨h.data, h.ne, h.pkg, h.dflt, h.first, h.last,
    h.contract, h.ema⟩
  refine ⟨_, by rw [slabs_plain ext v h'], ?_⟩
  set S : Settings := { s.toSettings with wavelength := some w } with hS
  obtain ⟨c0, mid, cb, n0, nS, hseen, e0, hf, eb, hsol, hmid⟩ := hs
  have hrows : List.Forall₂ SameRow ((c0 :: mid ++ [cb]).map (compRow ext v S))
      (if s.reverse then reverseRows (cs.map (compRow ext v S)) else cs.map (compRow ext v S)) := by
    rw [← hseen]
    by_cases hr : s.reverse = true
    · rw [if_pos hr, if_pos hr, List.map_reverse]
      exact sameRow_reverse _
    · rw [if_neg hr, if_neg hr]
      exact List.forall₂_same.mpr fun r _ => ⟨rfl, rfl, rfl⟩
  change RowsOf (solvRows ext v S
    (if s.reverse then reverseRows (cs.map (compRow ext v S)) else cs.map (compRow ext v S))) st
  generalize (if s.reverse then reverseRows (cs.map (compRow ext v S))
    else cs.map (compRow ext v S)) = R at hrows
  rw [List.cons_append, List.map_cons, List.map_append, List.forall₂_cons_left_iff] at hrows
  obtain ⟨r0, R', hr0, hR', rfl⟩ := hrows
  obtain ⟨R1, R2, rfl, h1, h2⟩ := forall₂_split hR'
  simp only [List.map_cons, List.map_nil, List.forall₂_cons_left_iff, List.forall₂_nil_left_iff] at h2
  obtain ⟨rb, _, hrb, rfl, rfl⟩ := h2
  have hnS : PassiveIndex nS := by
    cases hso : s.solvent with
    | none =>
      rw [hso] at hsol
      simp only at hsol
      rw [hsol]
      cases eb with
      | slab h => exact h.2.2
    | some r =>
      rw [hso] at hsol
      exact hsol.2.2
  have he : EMA.Known S.ema := h.ema
  have i0 := end_row hw rfl e0 hr0
  have ib := end_row hw rfl eb hrb
  have hsolv : solventOf ext v S (r0 :: (R1 ++ [rb])) = some nS := by
    unfold solventOf
    change (match s.solvent with
      | some r => (r v).complex ext.zs (some w)
      | none => (r0 :: (R1 ++ [rb])).getLast?.bind Row.ri) = some nS
    cases hso : s.solvent with
    | none =>
      rw [hso] at hsol
      simp only at hsol
      rw [← List.cons_append, List.getLast?_append]
      simp [ib, hsol]
    | some r =>
      rw [hso] at hsol
      obtain ⟨⟨own, ho⟩, hn, -⟩ := hsol
      simp only
      rw [(C44_effective ext.zs (r v) ho).1 w hw, hn]
  unfold solvRows
  by_cases hx : ∃ r ∈ r0 :: (R1 ++ [rb]), 0 < r.vf
  · rw [if_pos hx, hsolv]
    rw [← List.cons_append, setInterior_mid]
    have hint : Struct.interior (r0 :: R1 ++ [rb]) = R1 := by simp [Struct.interior]
    rw [hint]
    refine ⟨r0, _, rb, n0, rfl, i0, hf, films_rows hmid h1 ?_, ib⟩
    intro c f r hc hr _
    have := film_row (st := S) hw rfl he hnS hc hr
    exact ⟨this.2.1, this.1⟩
  · rw [if_neg hx]
    refine ⟨r0, R1, rb, n0, rfl, i0, hf, ?_, ib⟩
    rw [← List.map_id R1]
    refine films_rows hmid h1 ?_
    intro c f r hc hr hm
    have := film_row (st := S) hw rfl he hnS hc hr
    refine ⟨this.2.2 ?_, this.1⟩
    by_contra hlt
    exact hx ⟨r, by simp [hm], not_le.mp hlt⟩

/-! ### psi and delta -/

/-- (psi, delta) of the amplitudes `rs`, `rp`, with offset `off` and optional reflection of delta. -/
def Encodes (off : ℝ) (flip : Bool) (rs rp : ℂ) (x : Option ℝ × Option ℝ) : Prop :=
  (rs ≠ 0 → rp ≠ 0 → ∃ ψ Δ : ℝ, x = (some ψ, some ((if flip then min Δ (360 - Δ) else Δ) + off)) ∧
    0 < ψ ∧ ψ < 90 ∧ 0 ≤ Δ ∧ Δ ≤ 360 ∧
    rp = rs * (Real.tan (rad ψ) : ℝ) * Complex.exp (-(I * (rad Δ : ℝ)))) ∧
  (rs ≠ 0 → rp = 0 → x = (some 0, none)) ∧ (rs = 0 → rp ≠ 0 → x = (some 90, none)) ∧
  (rs = 0 → rp = 0 → x = (none, none))

theorem encodes_psiDelta (σ flip : Bool) (off : ℝ) (rs ts rp tp : ℂ) :
    Encodes off flip rs rp (psiDelta σ flip off ⟨some (rs, ts), some (rp, tp)⟩) := by
  have hpi := Real.pi_pos
  refine ⟨fun hs hp => ?_, fun hs hp => ?_, fun hs hp => ?_, fun hs hp => ?_⟩
  · have hd := deltaRad_of_ne (σ := σ) hs hp
    have hps : psiRad rs rp = some (Real.arctan ‖rp / rs‖) := by simp [psiRad, hs]
    set y := npAngle σ (-(rs / rp)) + Real.pi with hy
    have h0 : psiDelta σ false 0 ⟨some (rs, ts), some (rp, tp)⟩
        = (some (Real.arctan ‖rp / rs‖ * (180 / Real.pi)), some (y * (180 / Real.pi))) := by
      simp [psiDelta, hd, hps, reflectRad]
    obtain ⟨h1, h2, h3, h4, h5⟩ := psiDelta_encodes h0
    rw [sub_zero] at h1 h4 h5
    refine ⟨_, y * (180 / Real.pi), ?_, h2, h3, h4, h5, h1⟩
    simp only [psiDelta, hd, hps, Option.map_some, Prod.mk.injEq, Option.some.injEq, true_and]
    congr 1
    cases flip with
    | false => simp [reflectRad]
    | true =>
      have e : Real.pi * (180 / Real.pi) = 180 := by field_simp
      have k : 0 < 180 / Real.pi := by positivity
      simp only [reflectRad, if_true]
      split_ifs with hlt
      · rw [min_eq_right (by nlinarith)]
        nlinarith
      · rw [min_eq_left (by nlinarith)]
  · simp [psiDelta, psiRad, deltaRad, hs, hp, cdiv]
  · simp [psiDelta, psiRad, deltaRad, hs, hp, cdiv]
    field_simp; norm_num
  · simp [psiDelta, psiRad, deltaRad, hs, hp, cdiv]

/-- C117: calling a model on an array of (wavelength, angle) gives for every point psi and delta of the
unique solution of Maxwell's boundary value problem for the stack that light of this wavelength meets in
the structure, with the offset of the model and, if `flip` is set, delta reflected to 0..180. -/
theorem C117_model {ext : Ext} {zs : List Layer → ℝ → ℝ → Bool} {v : Vals} {m : RM} {s : Structure}
    {cs : List Comp} (h : Plain s cs) {pts : List (ℝ × ℝ)}
    {st : ℝ → Stack} {n₀ : ℝ → ℝ}
    (hs : ∀ pt ∈ pts, Sees ext.zs v s cs pt.1 (st pt.1) ∧ Physical (st pt.1) (n₀ pt.1) (rad pt.2) pt.1 ∧
      ¬ ((st pt.1).back.im = 0 ∧ (st pt.1).back.re < n₀ pt.1 * Real.sin (rad pt.2))) :
    ∃ l, (model ext zs .float v m s pts).1 = .ok l ∧
      List.Forall₂ (fun pt x => ∃ rs ts rp tp, Encodes (v m.off) m.flip rs rp x ∧
        ∀ ms cb, List.Forall₂ (IsFilm ((st pt.1).front * Complex.sin (rad pt.2)) pt.1) (st pt.1).films ms →
          (∀ k ∈ ms, |k.δ.im| ≤ 35) →
          cb ^ 2 = 1 - ((st pt.1).front * Complex.sin (rad pt.2) / (st pt.1).back) ^ 2 →
          Outgoing (st pt.1).back cb →
          (∀ r t, Solves .s (st pt.1) (rad pt.2) ms cb r t ↔ r = rs ∧ t = ts) ∧
          (∀ r t, Solves .p (st pt.1) (rad pt.2) ms cb r t ↔ r = rp ∧ t = tp)) pts l := by
  simp only [model_ok]
  induction pts with
  | nil => exact ⟨[], .nil, .nil⟩
  | cons pt pts ih =>
    obtain ⟨l, h1, h2⟩ := ih fun q hq => hs q (by simp [hq])
    obtain ⟨hse, hph, htir⟩ := hs pt (by simp)
    have hw : pt.1 ≠ 0 := hph.lam_pos.ne'
    obtain ⟨rows, hrows, hro⟩ := C117_slabs h hw hse
    obtain ⟨rs, ts, hrs⟩ := hph.solved .s
    obtain ⟨rp, tp, hrp⟩ := hph.solved .p
    have hd := deltaPsi_rows hro hph.nz hw zs [pt.2] (v m.off) m.flip
    simp only [List.map_cons, List.map_nil, hrs, hrp] at hd
    refine ⟨_ :: l, .cons ⟨rows, _, hrows, by rw [hd], rfl⟩ h1, .cons ?_ h2⟩
    refine ⟨rs, ts, rp, tp, encodes_psiDelta _ _ _ _ ts _ tp, ?_⟩
    intro ms cb hms h35 hcb hout
    have hco := coh_real hph.front hph.nz hw .inf .inf (θ := rad pt.2)
    have key : ∀ (pol : Pol) (r₀ t₀ : ℂ), solveSt pol (st pt.1) (rad pt.2) pt.1 = some (r₀, t₀) →
        ∀ r t, Solves pol (st pt.1) (rad pt.2) ms cb r t ↔ r = r₀ ∧ t = t₀ := by
      intro pol r₀ t₀ hsol r t
      have := C12_outgoing_partial hph.nz hph.front hph.angle.le hw hph.back htir hco (pol := pol)
        (r := r₀) (t := t₀) (by rw [← hsol]; cases pol <;> rfl) hms h35 hcb hout
      constructor
      · exact this.2 r t
      · rintro ⟨rfl, rfl⟩; exact this.1
    exact ⟨key .s rs ts hrs, key .p rp tp hrp⟩

/-! ### A case -/

/-- Reversed: substrate of index 3, a half solvated layer and a mixed layer (17/10 and 7/10), air; solvent
of index 7/10. -/
noncomputable def mixedStruct (ema : String) : Structure :=
  { solvent := some fun _ => .const 658 (7 / 10) 0
    reverse := true
    ema := ema
    data := [dry (.const 658 3 0), wet (.const 658 (17 / 10) 0),
      .mixed 0 (fun _ => .const 658 (17 / 10) 0) (fun _ => .const 658 (7 / 10) 0) 3 1 true,
      dry (.const 658 1 0)].map .comp }

theorem mixedStruct_plain {ema : String} (he : EMA.Known ema) : Plain (mixedStruct ema)
    [dry (.const 658 3 0), wet (.const 658 (17 / 10) 0),
      .mixed 0 (fun _ => .const 658 (17 / 10) 0) (fun _ => .const 658 (7 / 10) 0) 3 1 true,
      dry (.const 658 1 0)] where
  data := rfl
  ne := by simp
  pkg := by simp [dry, wet, Pkg]
  dflt := by simp [dry, wet, NoInterface]
  first := by simp [dry, Comp.isSlab]
  last := by simp [dry, Comp.isSlab]
  contract := le_rfl
  ema := he

theorem const_material (z : SqrtOracle) (w : ℝ) {n : ℝ} (h : 0 < n) :
    MaterialAt z w (.const 658 n 0) ⟨n, 0⟩ :=
  ⟨⟨658, rfl⟩, rfl, h, le_rfl⟩

/-- Transparent materials: the mixture is transparent. -/
theorem real_mix {ema : String} (he : EMA.Known ema) {L : ℝ} (hL : EMA.GoodL ema L) {f a b : ℝ} (hf : 0 ≤ f ∧ f ≤ 1)
    (ha : 0 < a) (hb : 0 < b) : ∃ n : ℝ, 0 < n ∧ Mix ema L f ⟨a, 0⟩ ⟨b, 0⟩ ⟨n, 0⟩ := by
  have da : EMA.Dielectric (a : ℂ) := by simpa [EMA.Dielectric] using ha
  have db : EMA.Dielectric (b : ℂ) := by simpa [EMA.Dielectric] using hb
  obtain ⟨n, h1, h2, -⟩ := EMA.C29_between (true, true) ha hb hf he hL
  obtain ⟨N, h3, h4, h5, h6⟩ := EMA.C122_unique_partial (true, true) (A := a) (B := b) ⟨by simpa using ha, by simp⟩
    ⟨by simpa using hb, by simp⟩ hf he hL (fun _ => ⟨da, db⟩)
  have : N = n := by rw [h1] at h3; exact (Except.ok.inj h3).symm
  subst this
  exact ⟨n, by simpa using h4.1, hf, hL, h4, fun e => ⟨da, db, h5 e⟩, (h6 n h4 h5).mpr rfl⟩

/-- The stack light meets in it (the films are 10 nm thick). -/
noncomputable def mixedStack (n : ℝ) : Stack :=
  ⟨((1 : ℝ) : ℂ), [(⟨n, 0⟩, exVals 0 / 10), (⟨n, 0⟩, exVals 0 / 10)], ⟨3, 0⟩⟩

theorem mixedStruct_sees (z : SqrtOracle) (w : ℝ) {ema : String} {n : ℝ}
    (h : Mix ema (1 / 3) (exVals 3) ⟨17 / 10, 0⟩ ⟨7 / 10, 0⟩ ⟨n, 0⟩) : Sees z exVals (mixedStruct ema)
    [dry (.const 658 3 0), wet (.const 658 (17 / 10) 0),
      .mixed 0 (fun _ => .const 658 (17 / 10) 0) (fun _ => .const 658 (7 / 10) 0) 3 1 true,
      dry (.const 658 1 0)] w (mixedStack n) := by
  refine ⟨_, [_, _], _, ⟨1, 0⟩, ⟨7 / 10, 0⟩, rfl, .slab (const_material z w one_pos), rfl,
    .slab (const_material z w (by norm_num)), const_material z w (by norm_num), ?_⟩
  exact .cons (.mixed (const_material z w (by norm_num)) (const_material z w (by norm_num)) h
    (fun _ => by norm_num [EMA.Dielectric])) (.cons (.slab (const_material z w (by norm_num)) h) .nil)

theorem mixedStack_physical {n : ℝ} (hn : 0 < n) {w : ℝ} (hw : 0 < w) : Physical (mixedStack n) 1 (rad 0) w := by
  refine ⟨rfl, one_pos, by simp [rad, Real.pi_pos], hw, ?_, ⟨by norm_num [mixedStack], by norm_num [mixedStack]⟩,
    ?_, ?_⟩
  · intro f hf
    simp only [mixedStack, List.mem_cons, List.not_mem_nil, or_false, or_self] at hf
    subst hf
    exact ⟨⟨hn, le_rfl⟩, by norm_num [exVals]⟩
  · intro f hf
    simp only [mixedStack, List.mem_cons, List.not_mem_nil, or_false, or_self] at hf
    subst hf
    simp [rad, Complex.ext_iff, hn.ne']
  · intro f hf m hm
    simp only [mixedStack, List.mem_cons, List.not_mem_nil, or_false, or_self] at hf
    subst hf
    obtain ⟨h1, h2, h3⟩ := hm
    have h4 : m.c = 1 ∨ m.c = -1 := by
      refine sq_eq_sq_iff_eq_or_eq_neg.mp ?_
      rw [h2]
      simp [rad]
    have hr : m.δ.im = 0 := by
      rw [h3]
      rcases h4 with h4 | h4 <;> rw [h4] <;> simp [Complex.div_im]
    rw [hr]
    positivity

/-- A reversed structure with a solvent and a mixed slab, at two wavelengths, with each of the three rules. -/
theorem mixedStruct_model (ext : Ext) (zs : List Layer → ℝ → ℝ → Bool) {ema : String} (he : EMA.Known ema) :
    ∃ l, (model ext zs .float exVals ⟨7, true⟩ (mixedStruct ema) [(500, 0), (600, 0)]).1 = .ok l ∧
      l.length = 2 := by
  obtain ⟨n, hn, hm⟩ := real_mix he (L := 1 / 3) ⟨by norm_num, by norm_num, fun _ => by norm_num⟩
    (f := exVals 3) (a := 17 / 10) (b := 7 / 10) ⟨by norm_num [exVals], by norm_num [exVals]⟩ (by norm_num)
    (by norm_num)
  obtain ⟨l, h1, h2⟩ := C117_model (ext := ext) (zs := zs) (m := ⟨7, true⟩) (mixedStruct_plain he)
    (pts := [(500, 0), (600, 0)]) (st := fun _ => mixedStack n) (n₀ := fun _ => 1) (v := exVals) (by
      intro pt hpt
      simp only [List.mem_cons, List.not_mem_nil, or_false] at hpt
      rcases hpt with rfl | rfl
      · exact ⟨mixedStruct_sees _ _ hm, mixedStack_physical hn (by norm_num), by norm_num [mixedStack, rad]⟩
      · exact ⟨mixedStruct_sees _ _ hm, mixedStack_physical hn (by norm_num), by norm_num [mixedStack, rad]⟩)
  exact ⟨l, h1, h2.length_eq.symm⟩

/-- Non-vacuity of C117: `C117_model` applies to this structure. -/
example (ext : Ext) (zs : List Layer → ℝ → ℝ → Bool) :
    ∃ l, (model ext zs .float exVals ⟨7, true⟩ (mixedStruct "bruggeman") [(500, 0), (600, 0)]).1 = .ok l ∧
      l.length = 2 := mixedStruct_model ext zs (.inr (.inr rfl))

end Verif.RModel
