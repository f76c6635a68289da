import Verif.Disp.Materials
import Verif.Disp.InterpLemmas
import Verif.Disp.Spec

/-! # Properties of the bundled materials (C57, C97)

The checks over rows are evaluated by the kernel; the quantifiers over names and rows really are the
finite tables shipped with the package, and the conclusions hold at every wavelength. -/

namespace Verif.Disp

/-- The names of the files in refellips/materials. -/
def materialNames : List String :=
  ["air", "aluminium_oxide", "dmso", "gold", "pnipam", "polymer_diffuse", "polystyrene", "silica",
   "silicon", "void", "water"]

/-- Check of one file: it has rows, every index and every wavelength is positive. -/
def RawMaterial.check (m : RawMaterial) : Bool :=
  !m.rows.isEmpty && m.rows.all (fun r => 0 < r.2.1 && 0 < r.1)

/-- Wavelengths strictly increase. -/
def sortedNat : List (ℕ × ℕ × ℕ) → Bool
  | a :: b :: t => decide (a.1 < b.1) && sortedNat (b :: t)
  | _ => true

theorem bundled_check : bundled.all RawMaterial.check = true := by decide +kernel

theorem bundled_names : bundled.map (·.name) = materialNames := by decide +kernel

theorem bundled_sorted :
    bundled.all (fun m => m.name == "aluminium_oxide" || sortedNat m.rows) = true := by
  decide +kernel

theorem sortedNat_pairwise {l : List (ℕ × ℕ × ℕ)} (h : sortedNat l = true) :
    l.Pairwise fun a b => a.1 < b.1 := by
  rw [← List.isChain_iff_pairwise (R := fun a b : ℕ × ℕ × ℕ => a.1 < b.1)]
  induction l with
  | nil => simp
  | cons a t ih =>
    cases t with
    | nil => simp
    | cons b t =>
      simp only [sortedNat, Bool.and_eq_true, decide_eq_true_eq] at h
      exact List.isChain_cons_cons.mpr ⟨h.1, ih h.2⟩

theorem loadMaterial_ok {name : String} {s : Scat} (h : loadMaterial name = .ok s) :
    ∃ m ∈ bundled, m.name = name ∧ s = riOfRows (m.rows.map m.row) := by
  unfold loadMaterial at h
  split at h
  · rename_i m hm
    simp only [Except.ok.injEq] at h
    exact ⟨m, List.mem_of_find?_eq_some hm, by simpa using List.find?_some hm, h.symm⟩
  · cases h

/-- C57: `load_material` raises exactly for names that are not names of files, with ValueError. -/
theorem C57_load (name : String) :
    (name ∈ materialNames → ∃ s, loadMaterial name = .ok s) ∧
    (name ∉ materialNames → loadMaterial name = .error .valueError) := by
  have key : name ∈ materialNames ↔ ∃ m ∈ bundled, m.name = name := by
    rw [← bundled_names, List.mem_map]
  constructor
  · intro h
    unfold loadMaterial
    obtain ⟨m, hm, hn⟩ := key.mp h
    cases hf : bundled.find? fun m => m.name = name with
    | some m => exact ⟨_, rfl⟩
    | none =>
      rw [List.find?_eq_none] at hf
      exact absurd hn (by simpa using hf m hm)
  · intro h
    unfold loadMaterial
    cases hf : bundled.find? fun m => m.name = name with
    | some m =>
      exact absurd (key.mpr ⟨m, List.mem_of_find?_eq_some hf, by simpa using List.find?_some hf⟩) h
    | none => rfl

/-- C57: every bundled material has a positive index and no gain, at every wavelength (also outside
the range of its file, and when no wavelength is given). -/
theorem C57_physical (z : SqrtOracle) {name : String} {s : Scat} (h : loadMaterial name = .ok s)
    (w : Option ℝ) : ∃ N, s.complex z w = some N ∧ 0 < N.re ∧ 0 ≤ N.im := by
  obtain ⟨m, hm, -, rfl⟩ := loadMaterial_ok h
  have hc := List.all_eq_true.mp bundled_check m hm
  simp only [RawMaterial.check, Bool.and_eq_true, Bool.not_eq_true', List.isEmpty_eq_false_iff,
    List.all_eq_true, decide_eq_true_eq] at hc
  obtain ⟨hne, hpos⟩ := hc
  set v := pickWav 658 w with hv
  have p10 : ∀ d : ℕ, (0 : ℝ) < 10 ^ d := fun d => by positivity
  obtain ⟨a, ha, ha0⟩ := interp_ge (lo := 1 / 10 ^ m.dn)
    (tab := ((m.rows.map m.row).map fun r => (r.1 * 1000, r.2.1, r.2.2.getD 0)).map
      fun r => (r.1, r.2.1)) (by simpa using hne) v (by
      simp only [List.map_map, List.mem_map, Function.comp_apply, RawMaterial.row]
      rintro p ⟨r, hr, rfl⟩
      apply div_le_div_of_nonneg_right _ (p10 _).le
      exact_mod_cast (hpos r hr).1)
  obtain ⟨b, hb, hb0⟩ := interp_ge (lo := 0)
    (tab := ((m.rows.map m.row).map fun r => (r.1 * 1000, r.2.1, r.2.2.getD 0)).map
      fun r => (r.1, r.2.2)) (by simpa using hne) v (by
      simp only [List.map_map, List.mem_map, Function.comp_apply, RawMaterial.row]
      rintro p ⟨r, hr, rfl⟩
      split_ifs
      · simp only [Option.getD_some]; positivity
      · simp)
  refine ⟨⟨a, b⟩, ?_, ?_, hb0⟩
  · simp only [riOfRows, Scat.complex, Scat.ownWav, Option.getD_some, Scat.at, ← hv, ha, hb]
  · exact lt_of_lt_of_le (by have := p10 m.dn; positivity) ha0

/-- C57, partial: the wavelengths of every curve except `aluminium_oxide` increase strictly, so C46
applies to them. -/
theorem C57_increasing_partial {name : String} {s : Scat} (h : loadMaterial name = .ok s)
    (hname : name ≠ "aluminium_oxide") :
    ∃ tab, s = .table 658 tab ∧ Increasing tab ∧ ∀ r ∈ tab, 0 < r.1 := by
  obtain ⟨m, hm, hn, rfl⟩ := loadMaterial_ok h
  have hs := List.all_eq_true.mp bundled_sorted m hm
  simp only [Bool.or_eq_true, beq_iff_eq] at hs
  have hs := sortedNat_pairwise (hs.resolve_left (by rw [hn]; exact hname))
  have hc := List.all_eq_true.mp bundled_check m hm
  simp only [RawMaterial.check, Bool.and_eq_true, Bool.not_eq_true', List.isEmpty_eq_false_iff,
    List.all_eq_true, decide_eq_true_eq] at hc
  refine ⟨_, rfl, ?_, ?_⟩
  · unfold Increasing
    rw [List.pairwise_map, List.pairwise_map]
    refine hs.imp fun {a b} hab => ?_
    have : (a.1 : ℝ) < b.1 := by exact_mod_cast hab
    simp only [RawMaterial.row]
    have p10 : (0 : ℝ) < 10 ^ m.dw := by positivity
    have := div_lt_div_of_pos_right this p10
    linarith
  · simp only [List.map_map, List.mem_map, Function.comp_apply, RawMaterial.row]
    rintro p ⟨r, hr, rfl⟩
    have : (0 : ℝ) < r.1 := by exact_mod_cast (hc.2 r hr).2
    positivity

theorem load_raw {m : RawMaterial} (hm : m ∈ bundled)
    (hu : ∀ m' ∈ bundled, m'.name = m.name → m' = m) :
    loadMaterial m.name = .ok (riOfRows (m.rows.map m.row)) := by
  have : m.name ∈ materialNames := by rw [← bundled_names]; exact List.mem_map_of_mem hm
  obtain ⟨s, hs⟩ := (C57_load m.name).1 this
  obtain ⟨m', hm', hn, rfl⟩ := loadMaterial_ok hs
  rw [hs, hu m' hm' hn]

theorem names_nodup : (bundled.map (·.name)).Nodup := by
  rw [bundled_names]; decide +kernel

theorem load_of_mem {m : RawMaterial} (hm : m ∈ bundled) :
    loadMaterial m.name = .ok (riOfRows (m.rows.map m.row)) :=
  load_raw hm fun _ hm' hn => List.inj_on_of_nodup_map names_nodup hm' hm hn

theorem aluminium_mem : aluminiumOxideRaw ∈ bundled := by simp [bundled]

/-- C57 fails: `aluminium_oxide` lists some wavelengths twice (2.9499 and 3.7594 micron), so its
table is not strictly increasing. -/
theorem C57_fails_increasing :
    ∃ tab, loadMaterial "aluminium_oxide" = .ok (.table 658 tab) ∧ ¬ Increasing tab := by
  refine ⟨_, load_of_mem aluminium_mem, ?_⟩
  intro hinc
  have ha : aluminiumOxideRaw.rows[290]? = some (29499, 5539, 26619) := by decide +kernel
  have hb : aluminiumOxideRaw.rows[291]? = some (29499, 5507, 26546) := by decide +kernel
  unfold Increasing at hinc
  rw [List.pairwise_map, List.pairwise_map] at hinc
  rw [List.pairwise_iff_getElem] at hinc
  obtain ⟨hi, ha⟩ := List.getElem?_eq_some_iff.mp ha
  obtain ⟨hj, hb⟩ := List.getElem?_eq_some_iff.mp hb
  have := hinc 290 291 hi hj (by norm_num)
  rw [ha, hb] at this
  exact lt_irrefl _ this

/-- Bounds on the stored extinction coefficients hold at every wavelength. -/
theorem k_bounds (z : SqrtOracle) {m : RawMaterial} (hm : m ∈ bundled) {lo hi : ℕ}
    (hk : m.hasK = true) (hb : m.rows.all (fun r => lo ≤ r.2.2 && r.2.2 ≤ hi) = true)
    (w : Option ℝ) : ∃ s N, loadMaterial m.name = .ok s ∧ s.complex z w = some N ∧
      (lo : ℝ) / 10 ^ m.dk ≤ N.im ∧ N.im ≤ (hi : ℝ) / 10 ^ m.dk := by
  have hl := load_of_mem hm
  obtain ⟨N, hN, -, -⟩ := C57_physical z hl w
  refine ⟨_, N, hl, hN, ?_⟩
  have hc := List.all_eq_true.mp bundled_check m hm
  simp only [RawMaterial.check, Bool.and_eq_true, Bool.not_eq_true', List.isEmpty_eq_false_iff] at hc
  simp only [List.all_eq_true, Bool.and_eq_true, decide_eq_true_eq] at hb
  have p10 : (0 : ℝ) ≤ 10 ^ m.dk := by positivity
  obtain ⟨y, hy, h1, h2⟩ := interp_mem (lo := (lo : ℝ) / 10 ^ m.dk) (hi := (hi : ℝ) / 10 ^ m.dk)
    (tab := ((m.rows.map m.row).map fun r => (r.1 * 1000, r.2.1, r.2.2.getD 0)).map
      fun r => (r.1, r.2.2)) (by simpa using hc.1) (pickWav 658 w) (by
      simp only [List.map_map, List.mem_map, Function.comp_apply, RawMaterial.row, hk, if_true]
      rintro p ⟨r, hr, rfl⟩
      simp only [Option.getD_some]
      exact ⟨div_le_div_of_nonneg_right (by exact_mod_cast (hb r hr).1) p10,
        div_le_div_of_nonneg_right (by exact_mod_cast (hb r hr).2) p10⟩)
  simp only [riOfRows, Scat.complex, Scat.ownWav, Option.getD_some, Scat.at, hy] at hN
  split at hN
  · rename_i heq
    simp only [Except.ok.injEq] at heq
    simp only [Option.some.injEq] at hN
    rw [← hN, ← heq]
    exact ⟨h1, h2⟩
  · cases hN

/-- The same for files without a third column. -/
theorem k_zero (z : SqrtOracle) {m : RawMaterial} (hm : m ∈ bundled) (hk : m.hasK = false)
    (w : Option ℝ) : ∃ s N, loadMaterial m.name = .ok s ∧ s.complex z w = some N ∧ N.im = 0 := by
  have hl := load_of_mem hm
  obtain ⟨N, hN, -, -⟩ := C57_physical z hl w
  refine ⟨_, N, hl, hN, ?_⟩
  have hc := List.all_eq_true.mp bundled_check m hm
  simp only [RawMaterial.check, Bool.and_eq_true, Bool.not_eq_true', List.isEmpty_eq_false_iff] at hc
  obtain ⟨y, hy, h1, h2⟩ := interp_mem (lo := 0) (hi := 0)
    (tab := ((m.rows.map m.row).map fun r => (r.1 * 1000, r.2.1, r.2.2.getD 0)).map
      fun r => (r.1, r.2.2)) (by simpa using hc.1) (pickWav 658 w) (by
      simp only [List.map_map, List.mem_map, Function.comp_apply, RawMaterial.row, hk]
      rintro p ⟨r, hr, rfl⟩
      simp)
  simp only [riOfRows, Scat.complex, Scat.ownWav, Option.getD_some, Scat.at, hy] at hN
  split at hN
  · rename_i heq
    simp only [Except.ok.injEq] at heq
    simp only [Option.some.injEq] at hN
    rw [← hN, ← heq]
    linarith
  · cases hN

/-- C97, partial: air, void, dmso, silica and the two polymers have `0 ≤ k ≤ 0.01` at every
wavelength.  Missing: `aluminium_oxide`, see `C97_fails_aluminium_oxide`. -/
theorem C97_transparent_partial (z : SqrtOracle) {name : String}
    (h : name ∈ ["air", "void", "dmso", "silica", "pnipam", "polymer_diffuse"]) (w : Option ℝ) :
    ∃ s N, loadMaterial name = .ok s ∧ s.complex z w = some N ∧ 0 ≤ N.im ∧ N.im ≤ 1 / 100 := by
  have hz : ∀ {m : RawMaterial}, m ∈ bundled → m.hasK = false → ∃ s N, loadMaterial m.name = .ok s ∧
      s.complex z w = some N ∧ 0 ≤ N.im ∧ N.im ≤ 1 / 100 := by
    intro m hm hk
    obtain ⟨s, N, h1, h2, h3⟩ := k_zero z hm hk w
    exact ⟨s, N, h1, h2, by rw [h3], by rw [h3]; norm_num⟩
  have hb : ∀ {m : RawMaterial} (hi : ℕ), m ∈ bundled → m.hasK = true → 100 * hi ≤ 10 ^ m.dk →
      m.rows.all (fun r => 0 ≤ r.2.2 && r.2.2 ≤ hi) = true → ∃ s N, loadMaterial m.name = .ok s ∧
      s.complex z w = some N ∧ 0 ≤ N.im ∧ N.im ≤ 1 / 100 := by
    intro m hi hm hk hle hall
    obtain ⟨s, N, h1, h2, h3, h4⟩ := k_bounds z hm (lo := 0) (hi := hi) hk hall w
    refine ⟨s, N, h1, h2, by simpa using h3, h4.trans ?_⟩
    rw [div_le_div_iff₀ (by positivity) (by norm_num)]
    have : (100 : ℝ) * hi ≤ 10 ^ m.dk := by exact_mod_cast hle
    linarith
  simp only [List.mem_cons, List.not_mem_nil, or_false] at h
  rcases h with rfl | rfl | rfl | rfl | rfl | rfl
  · exact hz (m := airRaw) (by simp [bundled]) rfl
  · exact hb (m := voidRaw) 0 (by simp [bundled]) rfl (by simp) (by decide +kernel)
  · exact hz (m := dmsoRaw) (by simp [bundled]) rfl
  · exact hb (m := silicaRaw) 10000 (by simp [bundled]) rfl (by decide +kernel) (by decide +kernel)
  · exact hb (m := pnipamRaw) 10000 (by simp [bundled]) rfl (by decide +kernel) (by decide +kernel)
  · exact hb (m := polymerDiffuseRaw) 10000 (by simp [bundled]) rfl (by decide +kernel)
      (by decide +kernel)

/-- C97 fails: the curve bundled as `aluminium_oxide` absorbs like a metal - it is the curve of
aluminium; its extinction coefficient is at least 1.976 at every wavelength. -/
theorem C97_fails_aluminium_oxide (z : SqrtOracle) (w : Option ℝ) :
    ∃ s N, loadMaterial "aluminium_oxide" = .ok s ∧ s.complex z w = some N ∧ 1.976 ≤ N.im := by
  obtain ⟨s, N, h1, h2, h3, -⟩ := k_bounds z aluminium_mem (lo := 1976) (hi := 70623) rfl
    (by decide +kernel) w
  refine ⟨s, N, h1, h2, le_trans ?_ h3⟩
  have : aluminiumOxideRaw.dk = 3 := rfl
  rw [this]
  norm_num

/-- Non-vacuity: names that load and names that do not. -/
example : (∃ s, loadMaterial "gold" = .ok s) ∧ loadMaterial "kryptonite" = .error .valueError :=
  ⟨(C57_load _).1 (by decide +kernel), (C57_load _).2 (by decide +kernel)⟩

end Verif.Disp
