import Verif.TMM.PropsBare
import Mathlib.Analysis.SpecialFunctions.Pow.Continuity

/-!
# The direction chosen in a film does not matter: the product of matrices

Used for continuity (C116) and smoothness (C138): where the code's choice of the direction in a film jumps
(transparent film beyond its critical angle), the product of the matrices does not.
-/

namespace Verif.TMM

open Complex (I)
open Filter Topology

/-- The product with the direction of the first medium reversed: the rows are exchanged. -/
theorem prod_flip_left {pol : Pol} {m : Medium} : ∀ {L : List Medium}, L ≠ [] →
    prod pol m.flip L = ⟨(prod pol m L).c, (prod pol m L).d, (prod pol m L).a, (prod pol m L).b⟩ := by
  have hi : ∀ m', iMat pol m.flip m' =
      ⟨(iMat pol m m').c, (iMat pol m m').d, (iMat pol m m').a, (iMat pol m m').b⟩ := by
    intro m'
    have h2 : 2 * m.n * -m.c = -(2 * m.n * m.c) := by ring
    have e1 : den pol m.flip m' = -num pol m m' := by
      cases pol <;> simp only [den, num, Medium.flip] <;> ring
    have e2 : num pol m.flip m' = -den pol m m' := by
      cases pol <;> simp only [den, num, Medium.flip] <;> ring
    simp only [iMat, e1, e2]
    simp only [Medium.flip, h2, neg_div_neg_eq]
  intro L hL
  rcases L with _ | ⟨b, _ | ⟨b', rest⟩⟩
  · exact absurd rfl hL
  · exact hi b
  · simp only [prod, hi, TMM.step]

/-- The product does not depend on the directions chosen in the films. -/
theorem prod_flip_films {pol : Pol} {ms ms' : List Medium} {b : Medium}
    (h : List.Forall₂ (fun m m' => m' = m ∨ m' = m.flip) ms ms') :
    ∀ m : Medium, prod pol m (ms' ++ [b]) = prod pol m (ms ++ [b]) := by
  induction h with
  | nil => intro m; rfl
  | @cons a a' l l' ha hl ih =>
    intro m
    have hc : ∀ (x : Medium) (L : List Medium), L ≠ [] → prod pol m (x :: L) =
        TMM.step (iMat pol m x) ⟨Complex.exp (-(I * x.δ)) * (prod pol x L).a,
          Complex.exp (-(I * x.δ)) * (prod pol x L).b, Complex.exp (I * x.δ) * (prod pol x L).c,
          Complex.exp (I * x.δ) * (prod pol x L).d⟩ := by
      intro x L hL
      cases L with
      | nil => exact absurd rfl hL
      | cons b' rest => rfl
    rw [List.cons_append, List.cons_append, hc _ _ (by simp), hc _ _ (by simp)]
    rcases ha with rfl | rfl
    · rw [ih]
    · rw [ih, prod_flip_left (by simp)]
      have hi : iMat pol m a.flip = ⟨(iMat pol m a).b, (iMat pol m a).a, (iMat pol m a).d, (iMat pol m a).c⟩ := by
        have e1 : den pol m a.flip = num pol m a := by
          cases pol <;> simp only [den, num, Medium.flip] <;> ring
        have e2 : num pol m a.flip = den pol m a := by
          cases pol <;> simp only [den, num, Medium.flip] <;> ring
        simp only [iMat, e1, e2]
      rw [hi]
      simp only [TMM.step, Medium.flip, mul_neg, neg_neg, Mat.mk.injEq]
      refine ⟨?_, ?_, ?_, ?_⟩ <;> ring

/-- The direction cosine in a film, continued from its value at `x0`. -/
noncomputable def dirFrom {X : Type*} (s : X → ℝ) (n : X → ℂ) (x0 x : X) : ℂ :=
  root1m ((s x0 : ℂ) / n x0) * Complex.sqrt ((1 - ((s x : ℂ) / n x) ^ 2) / (1 - ((s x0 : ℂ) / n x0) ^ 2))

theorem dirFrom_self {X : Type*} {s : X → ℝ} {n : X → ℂ} {x0 : X} (h : 1 - ((s x0 : ℂ) / n x0) ^ 2 ≠ 0) :
    dirFrom s n x0 x0 = root1m ((s x0 : ℂ) / n x0) := by
  rw [dirFrom, div_self h]
  simp [Complex.sqrt]

theorem dirFrom_eq {X : Type*} {s : X → ℝ} {n : X → ℂ} {x0 : X} (h : 1 - ((s x0 : ℂ) / n x0) ^ 2 ≠ 0) (x : X) :
    root1m ((s x : ℂ) / n x) = dirFrom s n x0 x ∨ root1m ((s x : ℂ) / n x) = -dirFrom s n x0 x := by
  apply sq_eq_sq_iff_eq_or_eq_neg.mp
  have hs : ∀ z : ℂ, Complex.sqrt z ^ 2 = z := by
    intro z
    unfold Complex.sqrt
    rw [← Complex.cpow_nat_mul]
    norm_num
  rw [dirFrom, mul_pow, root1m_sq, root1m_sq, hs, mul_div_cancel₀ _ h]

/-- The film with the direction continued from `x0`, and without the limit on the attenuation. -/
noncomputable def medFrom {X : Type*} (s lam : X → ℝ) (n : X → ℂ) (d : X → ℝ) (x0 x : X) : Medium :=
  ⟨n x, dirFrom s n x0 x, 2 * Real.pi * n x * dirFrom s n x0 x / lam x * d x⟩

/-- Where the attenuation is below the limit, this is the film of the code, up to the direction. -/
theorem medFrom_flip {X : Type*} {s lam : X → ℝ} {n : X → ℂ} {d : X → ℝ} {x0 : X}
    (h : 1 - ((s x0 : ℂ) / n x0) ^ 2 ≠ 0) {x : X} (hx : |(medFrom s lam n d x0 x).δ.im| < 35) :
    codeMed (s x) (lam x) (n x, d x) = medFrom s lam n d x0 x ∨
      codeMed (s x) (lam x) (n x, d x) = (medFrom s lam n d x0 x).flip := by
  have hx' := abs_lt.mp hx
  rcases dirFrom_eq h x with e | e
  · left
    simp only [codeMed, e, medFrom] at hx' ⊢
    rw [clip35_of_le hx'.2.le]
  · right
    have e2 : 2 * (Real.pi : ℂ) * n x * -dirFrom s n x0 x / (lam x : ℂ) * (d x : ℂ) =
        -(medFrom s lam n d x0 x).δ := by simp only [medFrom]; ring
    simp only [codeMed, e, e2]
    rw [clip35_of_le (by rw [Complex.neg_im]; linarith)]
    simp only [medFrom, Medium.flip]

end Verif.TMM
