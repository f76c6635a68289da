import Verif.Parse.Model

/-!
# What the EP4 reader should deliver, without reference to how it does it
-/

namespace Verif.Parse

/-- Order of the points: by angle, then by wavelength. -/
def key (p : Pt) : Lex (ℝ × ℝ) := toLex (p.2.1, p.1)

/-- The rows repeating the measurement of a point. -/
noncomputable def repeats (rows : List EpRow) (p : Pt) : List EpRow :=
  open Classical in rows.filter fun r => r.aoi = p.2.1 ∧ r.lam = p.1

/-- `pts` has, in increasing order, one point for each angle and wavelength that occurs in `rows`,
with the arithmetic mean of psi and delta over the repeats. -/
structure Averages (rows : List EpRow) (pts : List Pt) : Prop where
  sorted : (pts.map key).Pairwise (· < ·)
  keys : ∀ a l, (∃ p ∈ pts, p.2.1 = a ∧ p.1 = l) ↔ ∃ r ∈ rows, r.aoi = a ∧ r.lam = l
  psi : ∀ p ∈ pts, p.2.2.1 * (repeats rows p).length = ((repeats rows p).map EpRow.psi).sum
  dlt : ∀ p ∈ pts, p.2.2.2 * (repeats rows p).length = ((repeats rows p).map EpRow.dlt).sum

/-- Two rows were measured at the same place: coordinates agree to 0.2 (and a relative 1e-5 of the
second). -/
def SamePlace (f r : EpRow) : Prop :=
  |f.x - r.x| ≤ 0.2 + 1e-5 * |r.x| ∧ |f.y - r.y| ≤ 0.2 + 1e-5 * |r.y|

/-- All rows were measured at the place of the first one. -/
def Area : List EpRow → Prop
  | [] => False
  | f :: rest => ∀ r ∈ rest, SamePlace f r

/-- The first rows of two areas are at different places. -/
def Moved (a b : List EpRow) : Prop :=
  ∃ f ∈ a.head?, ∃ g ∈ b.head?, ¬ SamePlace f g

/-- A division of the rows into contiguous areas, a new one each time the position moves. -/
structure Areas (rows : List EpRow) (parts : List (List EpRow)) : Prop where
  cover : parts.flatten = rows
  area : ∀ a ∈ parts, Area a
  moved : parts.IsChain Moved

/-- Not all rows have the same recorded position. -/
def SeveralPlaces (rows : List EpRow) : Prop :=
  ∃ r ∈ rows, ∃ r' ∈ rows, r.x ≠ r'.x ∨ r.y ≠ r'.y

theorem several_eq : manyPositions = SeveralPlaces := by
  funext rows
  refine propext ⟨?_, ?_⟩
  · rintro (⟨r, hr, r', hr', h⟩ | ⟨r, hr, r', hr', h⟩)
    · exact ⟨r, hr, r', hr', .inl h⟩
    · exact ⟨r, hr, r', hr', .inr h⟩
  · rintro ⟨r, hr, r', hr', h | h⟩
    · exact .inl ⟨r, hr, r', hr', h⟩
    · exact .inr ⟨r, hr, r', hr', h⟩

/-- The labels `reset_index` gives. -/
def Labelled (rows : List EpRow) : Prop := ∀ (i : ℕ) (r : EpRow), rows[i]? = some r → r.label = i

/-- Distance of two angles in degrees on the circle. -/
noncomputable def circ (a b : ℝ) : ℝ := ⨅ k : ℤ, |a - b + 360 * k|

theorem circ_bdd (a b : ℝ) : BddBelow (Set.range fun k : ℤ => |a - b + 360 * k|) :=
  ⟨0, by rintro _ ⟨k, rfl⟩; exact abs_nonneg _⟩

theorem circ_le (a b : ℝ) (k : ℤ) : circ a b ≤ |a - b + 360 * k| := ciInf_le (circ_bdd a b) k

theorem circ_eq {a b : ℝ} (h : |a - b| ≤ 180) : circ a b = |a - b| := by
  refine le_antisymm (by simpa using circ_le a b 0) (le_ciInf fun k => ?_)
  rcases eq_or_ne k 0 with rfl | hk
  · simp
  · have h1 : (1 : ℝ) ≤ |(k : ℝ)| := by exact_mod_cast Int.one_le_abs hk
    have h2 : |360 * (k : ℝ)| = 360 * |(k : ℝ)| := by rw [abs_mul]; norm_num
    have h3 : |360 * (k : ℝ)| ≤ |a - b + 360 * k| + |a - b| := by
      have := abs_sub_abs_le_abs_sub (360 * (k : ℝ)) (-(a - b))
      rw [abs_neg] at this
      have e : 360 * (k : ℝ) - -(a - b) = a - b + 360 * k := by ring
      rw [e] at this
      linarith
    linarith

end Verif.Parse
