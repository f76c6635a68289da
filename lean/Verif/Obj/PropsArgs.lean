import Verif.Obj.PropsHist
import Verif.Data.PropsFile

/-! # Properties of the arguments of `ObjectiveSE` (C118, C119) -/

namespace Verif.Obj
open Verif.Struct Verif.TMM Verif.RModel Verif.Data

variable {env : Env} {o : Objective}

/-! ### C118 transform -/

/-- The residuals of transformed model and data: differences of psi, circular distances of delta. -/
noncomputable def transformedResiduals (T : List (ℝ × ℝ) → List ℝ → List ℝ) (pts : List Pt)
    (vals : List (ℝ × ℝ)) : List ℝ :=
  let x := pts.map fun p => (p.1, p.2.1)
  List.zipWith (· - ·) (T x (vals.map Prod.fst)) (T x (pts.map (·.2.2.1))) ++
    List.zipWith (circDist 360) (T x (vals.map Prod.snd)) (T x (pts.map (·.2.2.2)))

/-- C118 fails: residuals, chi-squared, likelihood and posterior do not depend on `transform`. -/
theorem C118_fails (f g : Option (List (ℝ × ℝ) → List ℝ → List ℝ)) (p : Option (List ℝ)) (st : St) :
    residuals env { o with transform := f } p st = residuals env { o with transform := g } p st ∧
    chisqr env { o with transform := f } p st = chisqr env { o with transform := g } p st ∧
    logl env { o with transform := f } p st = logl env { o with transform := g } p st ∧
    logpost env { o with transform := f } p st = logpost env { o with transform := g } p st :=
  ⟨rfl, rfl, rfl, rfl⟩

/-- C118, partial: the residuals are those of the transformed model and data if the transform leaves the
four columns alone.  Missing: every other transform, for which the claim is false. -/
theorem C118_identity_partial {st : St} {pts : List Pt} (hp : Presents st.heap o.data pts)
    {T : List (ℝ × ℝ) → List ℝ → List ℝ} (_ho : o.transform = some T) {vals : List (ℝ × ℝ)}
    (hv : Values env o st pts (vals.map fun c => (some c.1, some c.2)))
    (hT : ∀ l ∈ [vals.map Prod.fst, vals.map Prod.snd, pts.map (·.2.2.1), pts.map (·.2.2.2)],
      T (pts.map fun p => (p.1, p.2.1)) l = l)
    (hd : List.Forall₂ (fun (pt : Pt) (c : ℝ × ℝ) => |c.2 - pt.2.2.2| ≤ 360) pts vals) :
    (residuals env o none st).1 = .ok ((transformedResiduals T pts vals).map some) := by
  rw [C81_residuals hp]
  refine ⟨_, hv, ?_⟩
  simp only [List.mem_cons, List.not_mem_nil, or_false, forall_eq_or_imp, forall_eq] at hT
  obtain ⟨h1, h2, h3, h4⟩ := hT
  simp only [transformedResiduals, h1, h2, h3, h4, List.map_append]
  clear h1 h2 h3 h4 hv hp
  congr 1
  · induction hd with
    | nil => rfl
    | @cons a b l l' hab _ ih => simp only [List.map_cons, List.zip_cons_cons, List.zipWith_cons_cons]; rw [ih]; rfl
  · induction hd with
    | nil => rfl
    | @cons a b l l' hab _ ih =>
      simp only [List.map_cons, List.zip_cons_cons, List.zipWith_cons_cons]
      rw [ih, ← C80_partial (by norm_num) hab]
      rfl

/-- C118 fails, concretely: doubled angles differ by 20 degrees, the residual is 10. -/
theorem C118_fails_example (env : Env) (hdt : env.dt = .float) :
    (residuals env { exObj with transform := some fun _ l => l.map (2 * ·) } none (exSt 0 190)).1 =
      .ok [some 0, some 10] ∧
    transformedResiduals (fun _ l => l.map (2 * ·)) [(600, 0, 45, 190)] [(45, 180)] = [0, 20] := by
  constructor
  · have := ex_residuals env hdt 0 190
    refine (congrArg Prod.fst (C118_fails (o := exObj) (some fun _ l => l.map (2 * ·)) none none _).1).trans ?_
    refine this.trans ?_
    norm_num [circularDistance, abs_of_neg]
  · simp only [transformedResiduals, List.map_cons, List.map_nil, List.zipWith_cons_cons, List.zipWith_nil_left]
    rw [← C80_partial (by norm_num) (by norm_num [abs_of_neg])]
    norm_num [circularDistance, abs_of_neg]

/-- Non-vacuity of `C118_identity_partial`. -/
example (env : Env) (hdt : env.dt = .float) :
    (residuals env { exObj with transform := some fun _ l => l } none (exSt 0 190)).1 =
      .ok ((transformedResiduals (fun _ l => l) [(600, 0, 45, 190)] [(45, 180)]).map some) := by
  refine C118_identity_partial (o := { exObj with transform := some fun _ l => l }) (ex_presents 0 190) rfl ?_
    (by simp) (.cons (by norm_num [abs_of_neg]) .nil)
  have := ex_values env hdt { exObj with transform := some fun _ l => l } 0 190
  simpa using this

/-! ### C119 the data argument -/

theorem pick_all (l : List Pt) : pick (l.map fun _ => true) l = l := by
  induction l with
  | nil => rfl
  | cons x l ih => rw [List.map_cons, pick, ih]

theorem presents_all {h : Heap} {d : DS} {pts : List Pt} (hd : Holds h d pts)
    (hm : d.mask = some (onesLike (h.arr d.wav))) : Presents h d pts := by
  have e : d.mask = some (pts.map fun _ => true) := by rw [hm, hd.wav]; simp [onesLike]
  have key : ∀ f : Pt → ℝ, access ⟨false, pts.map f⟩ (some (pts.map fun _ => true)) = .ok (.vec (pts.map f)) := by
    intro f
    rw [access_pick f (by simp), pick_all]
  refine ⟨?_, ?_, ?_, ?_, ?_⟩
  · rw [wavelength, hd.wav, e, key]
  · rw [aoi, hd.aoi, e, key]
  · rw [psi, hd.psi, e, key]
  · rw [delta, hd.dlt, e, key]
  · rw [len, wavelength, hd.wav, e, key]
    simp

/-- C119: with four arrays as data, the objective has the points with these columns (all of them, in the
convention without reflection), so its residuals are those of these points (`C81_residuals`); the arrays,
the parameters and the structures are not changed. -/
theorem C119_arrays (c : Codec) {st : St} {w a p d : ℕ} {pts : List Pt}
    (hw : st.heap.arr w = ⟨false, pts.map (·.1)⟩) (ha : st.heap.arr a = ⟨false, pts.map (·.2.1)⟩)
    (hp : st.heap.arr p = ⟨false, pts.map (·.2.2.1)⟩) (hd : st.heap.arr d = ⟨false, pts.map (·.2.2.2)⟩)
    (model : ℕ) :
    ∃ o st', mkObjectiveFrom c st model (.other (.arrays w a p d)) = .ok (o, st') ∧
      Presents st'.heap o.data pts ∧ o.model = model ∧ (st'.models model).rm.flip = false ∧
      st'.heap = st.heap ∧ st'.vals = st.vals ∧ st'.structs = st.structs := by
  refine ⟨_, _, rfl, presents_all ⟨hw, ha, hp, hd⟩ rfl, rfl, ?_, rfl, rfl, rfl⟩
  simp

/-- C119: with the name of a file as data (a header of at most 100 lines, then lines of data), the objective
has the points in the file. -/
theorem C119_file {c : Codec} {hdr body : List Line} {pts : List Pt}
    (hh : ∀ l ∈ hdr, NotNumber c '\t' l) (hn : hdr.length ≤ 100)
    (hf : hdr.length = 100 ∨ ∃ l rest, body = l :: rest ∧ StartsNumber c '\t' l)
    (hb : List.Forall₂ (IsDataLine c '\t') body pts) (hne : pts ≠ []) (st : St) (f : String) (model : ℕ) :
    ∃ o st', mkObjectiveFrom c st model (.other (.file f (hdr ++ body))) = .ok (o, st') ∧
      Presents st'.heap o.data pts ∧ o.model = model := by
  obtain ⟨d, h', h1, h2⟩ := C66_header hh hn hf hb hne st.heap f
  refine ⟨(mkObjective { st with heap := h' } model d none true none).1,
    (mkObjective { st with heap := h' } model d none true none).2, ?_, h2, rfl⟩
  simp only [mkObjectiveFrom, h1]

theorem mk_none (c : Codec) (h : Heap) : ∃ d h', mk c h .none false = .ok (d, h') ∧ Presents h' d [] := by
  refine ⟨_, _, rfl, presents_all (pts := []) ⟨?_, ?_, ?_, ?_⟩ rfl⟩ <;> simp

/-- C119 fails: an object that `DataSE` does not know (a data frame, say) gives an objective without points:
no residuals and chi-squared 0, whatever the model. -/
theorem C119_fails_other (c : Codec) (st : St) (model : ℕ) :
    ∃ o st', mkObjectiveFrom c st model (.other .none) = .ok (o, st') ∧
      (residuals env o none st').1 = .ok [] ∧ (chisqr env o none st').1 = .ok (some 0) := by
  obtain ⟨d, h', h1, h2⟩ := mk_none c st.heap
  refine ⟨(mkObjective { st with heap := h' } model d none true none).1,
    (mkObjective { st with heap := h' } model d none true none).2, by simp only [mkObjectiveFrom, h1], ?_⟩
  have hr : (residuals env (mkObjective { st with heap := h' } model d none true none).1 none
      (mkObjective { st with heap := h' } model d none true none).2).1 = .ok [] :=
    (C81_residuals h2).mpr ⟨[], values_iff.mpr .nil, by simp⟩
  exact ⟨hr, by rw [chisqr_eq, hr]; simp [Except.map, finite]⟩

/-- C119, partial: an instance of a subclass of `DataSE` is used like a `DataSE` if nothing is masked and
delta is not reflected.  Missing: masked or reflected data, see `C119_fails_subclass`. -/
theorem C119_subclass_partial (c : Codec) (st : St) (model : ℕ) (d : DS)
    (hm : d.mask = some (onesLike (st.heap.arr d.wav))) (hf : d.flipped = false) :
    ∃ o o' st', mkObjectiveFrom c st model (.exact d) = .ok (o, st') ∧
      mkObjectiveFrom c st model (.other (.ds d)) = .ok (o', st') ∧
      ∀ p s, s.heap = st'.heap → residuals env o' p s = residuals env o p s := by
  refine ⟨_, { (mkObjective st model d none true none).1 with data := { d with delim := '\t', weighted := false } },
    _, rfl, ?_, ?_⟩
  · simp only [mkObjectiveFrom, mk, gather, Bool.false_eq_true, if_false, mkObjective, hf, hm]
  · intro p s _
    rfl

/-- C119 fails: an instance of a subclass of `DataSE` loses its mask and its convention for delta.  In the
first world the only point is masked, but is compared; in the second the model fits the data, which are
reflected, but the objective reports a residual above 0. -/
theorem C119_fails_subclass (c : Codec) (env : Env) (hdt : env.dt = .float) :
    (∃ o st', mkObjectiveFrom c (exSt 0 190) 0 (.other (.ds { exObj.data with mask := some [false] })) =
        .ok (o, st') ∧ (residuals env o none st').1 = .ok [some 0, some 10]) ∧
    (∃ o st', mkObjectiveFrom c (exSt 0 190) 0 (.exact { exObj.data with mask := some [false] }) =
        .ok (o, st') ∧ (residuals env o none st').1 = .ok []) ∧
    ∃ ψ Δ x : ℝ, 0 < x ∧
      (∃ o st', mkObjectiveFrom c (filmSt ψ Δ) 0 (.exact (filmData true)) = .ok (o, st') ∧
        (residuals env o none st').1 = .ok [some 0, some 0]) ∧
      ∃ o st', mkObjectiveFrom c (filmSt ψ Δ) 0 (.other (.ds (filmData true))) = .ok (o, st') ∧
        (residuals env o none st').1 = .ok [some 0, some x] := by
  have hs : (mkObjective (exSt 0 190) 0 exObj.data none false none).2 = exSt 0 190 := by
    simp [mkObjective, exSt, exObj]
  refine ⟨⟨exObj, exSt 0 190, ?_, ?_⟩, ⟨_, _, rfl, ?_⟩, ?_⟩
  · conv_rhs => rw [← hs]
    rfl
  · rw [ex_residuals env hdt]
    norm_num [circularDistance, abs_of_neg]
  · refine (C81_residuals (pts := []) ?_).mpr ⟨[], values_iff.mpr .nil, by simp⟩
    constructor <;> simp [exSt, exObj, wavelength, aoi, psi, delta, len, access, pick]
  · obtain ⟨ψ, Δ, h1, h2, h⟩ := film_delta env.zs
    obtain ⟨hf, ht⟩ := h 0
    rw [add_zero] at hf ht
    have hpres : ∀ b, Presents (filmSt ψ (360 - Δ)).heap (filmData b) [(480, filmAoi, ψ, 360 - Δ)] := by
      intro b
      constructor <;> simp [filmSt, filmData, wavelength, aoi, psi, delta, len, access, pick]
    refine ⟨ψ, 360 - Δ, circularDistance Δ (360 - Δ) 360, ?_, ⟨_, _, rfl, ?_⟩, ⟨_, _, rfl, ?_⟩⟩
    · unfold circularDistance
      rw [show Δ - (360 - Δ) = 2 * (Δ - 180) by ring, abs_of_pos (by linarith)]
      exact lt_min (by linarith) (by linarith)
    · rw [C81_residuals (hpres true)]
      refine ⟨[(some ψ, some (360 - Δ))], values_iff.mpr (.cons
        ⟨filmRows, (some ψ, some (360 - Δ)), film_slabs env.ext 480, ?_, by rw [hdt]; rfl⟩ .nil),
        by simp [circularDistance]⟩
      exact ht
    · rw [C81_residuals (hpres false)]
      refine ⟨[(some ψ, some Δ)], values_iff.mpr (.cons
        ⟨filmRows, (some ψ, some Δ), film_slabs env.ext 480, ?_, by rw [hdt]; rfl⟩ .nil), by simp⟩
      exact hf

/-- Non-vacuity of `C119_arrays`: the objective made of the four arrays of the example has the residuals of
the point in them. -/
example (c : Codec) (env : Env) (hdt : env.dt = .float) :
    ∃ o st', mkObjectiveFrom c (exSt 0 190) 0 (.other (.arrays 0 1 2 3)) = .ok (o, st') ∧
      (residuals env o none st').1 = .ok [some 0, some 10] := by
  obtain ⟨o, st', h1, h2, h3, h4, h5, h6, h7⟩ :=
    C119_arrays c (st := exSt 0 190) (w := 0) (a := 1) (p := 2) (d := 3) (pts := [(600, 0, 45, 190)])
      rfl rfl rfl rfl 0
  refine ⟨o, st', h1, (C81_residuals h2).mpr ⟨[(some 45, some (180 + 0))], ?_, ?_⟩⟩
  · have hs : st' = exSt 0 190 := by
      have := (Prod.mk.inj (Except.ok.inj h1)).2
      rw [← this]
      simp [exSt]
    rw [hs]
    exact ex_values env hdt o 0 190
  · norm_num [circularDistance, abs_of_neg]

/-- Non-vacuity of `C119_subclass_partial`. -/
example : exObj.data.mask = some (onesLike ((exSt 0 190).heap.arr exObj.data.wav)) ∧
    exObj.data.flipped = false := ⟨rfl, rfl⟩

end Verif.Obj
