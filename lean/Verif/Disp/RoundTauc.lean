import Verif.Disp.RoundMat

/-! # Tauc-Lorentz oscillators in the arithmetic of a machine (for C153) -/

namespace Verif.Disp

open Filter Topology Asymptotics EMA

theorem near_tlE2 {E : Mach × ℝ → ℝ} {e : ℝ} (hE : Near E e) {o : ℝ × ℝ × ℝ} {Eg x : ℝ} (he : e ≠ Eg)
    (h : tlE2 o Eg e = some x) : NearS (fun p : Mach × ℝ => p.1.tlE2 o Eg (E p)) x := by
  simp only [tlE2, Option.bind_eq_bind, Option.bind_eq_some_iff, Option.pure_def, Option.some.injEq, rdiv_eq_some] at h
  obtain ⟨q, ⟨h1, rfl⟩, rfl⟩ := h
  have nd : Near (fun p : Mach × ℝ => p.1.rsub (E p) Eg) (e - Eg) := hE.mrsub (near_const Eg)
  have nh : Near (fun p : Mach × ℝ => heaviside (p.1.rsub (E p) Eg)) (heaviside (e - Eg)) := by
    refine (near_const _).congr ?_
    rcases lt_or_gt_of_ne he with hl | hl
    · filter_upwards [nd.tendsto.eventually (gt_mem_nhds (sub_neg.mpr hl))] with p hp
      simp only [heaviside]
      rw [if_neg (not_lt.mpr hp.le), if_neg (by linarith)]
    · filter_upwards [nd.tendsto.eventually (lt_mem_nhds (sub_pos.mpr hl))] with p hp
      simp only [heaviside]
      rw [if_pos hp, if_pos (by linarith)]
  simp only [Mach.tlE2, Option.bind_eq_bind, Option.pure_def]
  refine NearS.bind (((((near_const _).mrmul (near_const _)).mrmul (near_const _)).mrmul (nd.mrpow 2)).mquot
    (hE.mrmul ((((hE.mrpow 2).mrsub ((near_const _).mrpow 2)).mrpow 2).mradd
      (((near_const _).mrmul hE).mrpow 2))) h1) fun G hG => (hG.mrmul nh).some

/-- At the gap itself the real part is not finite. -/
theorem tlE1_ne {o : ℝ × ℝ × ℝ} {Eg e x : ℝ} (h : tlE1 o Eg e = some x) : e ≠ Eg := by
  unfold tlE1 at h
  obtain ⟨α, c1, h⟩ := Option.bind_eq_some_iff.mp h
  obtain ⟨γ, c2, h⟩ := Option.bind_eq_some_iff.mp h
  obtain ⟨y1, c3, h⟩ := Option.bind_eq_some_iff.mp h
  obtain ⟨l1, c4, h⟩ := Option.bind_eq_some_iff.mp h
  obtain ⟨t1, c5, h⟩ := Option.bind_eq_some_iff.mp h
  obtain ⟨t2, c6, h⟩ := Option.bind_eq_some_iff.mp h
  obtain ⟨q1, c7, h⟩ := Option.bind_eq_some_iff.mp h
  obtain ⟨q2, c8, h⟩ := Option.bind_eq_some_iff.mp h
  obtain ⟨t3, c9, h⟩ := Option.bind_eq_some_iff.mp h
  obtain ⟨q3, c10, h⟩ := Option.bind_eq_some_iff.mp h
  obtain ⟨t4, c11, h⟩ := Option.bind_eq_some_iff.mp h
  obtain ⟨y4, c12, h⟩ := Option.bind_eq_some_iff.mp h
  obtain ⟨l4, c13, h⟩ := Option.bind_eq_some_iff.mp h
  obtain ⟨-, rfl⟩ := rdiv_eq_some.mp c12
  obtain ⟨hp, -⟩ := rlog_eq_some.mp c13
  rintro rfl
  simp at hp

theorem near_tlE1 {E : Mach × ℝ → ℝ} {e : ℝ} (hE : Near E e) {o : ℝ × ℝ × ℝ} {Eg x : ℝ}
    (hg : o.2.1 ^ 2 ≠ 2 * o.2.2 ^ 2) (h : tlE1 o Eg e = some x) :
    NearS (fun p : Mach × ℝ => p.1.tlE1 o Eg (E p)) x := by
  obtain ⟨A, C, Ei⟩ := o
  unfold tlE1 at h
  obtain ⟨α, cα, h⟩ := Option.bind_eq_some_iff.mp h
  obtain ⟨γ, cγ, h⟩ := Option.bind_eq_some_iff.mp h
  obtain ⟨y1, cy1, h⟩ := Option.bind_eq_some_iff.mp h
  obtain ⟨l1, cl1, h⟩ := Option.bind_eq_some_iff.mp h
  obtain ⟨t1, ct1, h⟩ := Option.bind_eq_some_iff.mp h
  obtain ⟨t2, ct2, h⟩ := Option.bind_eq_some_iff.mp h
  obtain ⟨q1, cq1, h⟩ := Option.bind_eq_some_iff.mp h
  obtain ⟨q2, cq2, h⟩ := Option.bind_eq_some_iff.mp h
  obtain ⟨t3, ct3, h⟩ := Option.bind_eq_some_iff.mp h
  obtain ⟨q3, cq3, h⟩ := Option.bind_eq_some_iff.mp h
  obtain ⟨t4, ct4, h⟩ := Option.bind_eq_some_iff.mp h
  obtain ⟨y4, cy4, h⟩ := Option.bind_eq_some_iff.mp h
  obtain ⟨l4, cl4, h⟩ := Option.bind_eq_some_iff.mp h
  obtain ⟨t5, ct5, h⟩ := Option.bind_eq_some_iff.mp h
  obtain ⟨y5, cy5, h⟩ := Option.bind_eq_some_iff.mp h
  obtain ⟨l5, cl5, h⟩ := Option.bind_eq_some_iff.mp h
  obtain ⟨hα0, hα⟩ := rsqrt_eq_some.mp cα
  obtain ⟨hγ0, hγ⟩ := rsqrt_eq_some.mp cγ
  obtain ⟨hy1, ey1⟩ := rdiv_eq_some.mp cy1
  obtain ⟨hl1, el1⟩ := rlog_eq_some.mp cl1
  obtain ⟨ht1, et1⟩ := rdiv_eq_some.mp ct1
  obtain ⟨ht2, et2⟩ := rdiv_eq_some.mp ct2
  obtain ⟨hq1, eq1⟩ := rdiv_eq_some.mp cq1
  obtain ⟨hq2, eq2⟩ := rdiv_eq_some.mp cq2
  obtain ⟨ht3, et3⟩ := rdiv_eq_some.mp ct3
  obtain ⟨hq3, eq3⟩ := rdiv_eq_some.mp cq3
  obtain ⟨ht4, et4⟩ := rdiv_eq_some.mp ct4
  obtain ⟨hy4, ey4⟩ := rdiv_eq_some.mp cy4
  obtain ⟨hl4, el4⟩ := rlog_eq_some.mp cl4
  obtain ⟨ht5, et5⟩ := rdiv_eq_some.mp ct5
  obtain ⟨hy5, ey5⟩ := rdiv_eq_some.mp cy5
  obtain ⟨hl5, el5⟩ := rlog_eq_some.mp cl5
  have hx := Option.some.inj h
  clear * - hE hg hα0 hα hγ0 hγ hy1 ey1 hl1 el1 ht1 et1 ht2 et2 hq1 eq1 hq2 eq2 ht3 et3 hq3 eq3 ht4 et4 hy4 ey4 hl4 el4 ht5 et5 hy5 ey5 hl5 el5 hx
  simp only at hα0 hα hγ0 hγ hy1 ey1 hl1 et1 et2 hq1 eq1 hq2 eq2 ht3 et3 eq3 et4 ey4 et5 ht5 ht4 ht2 ht1 hy5 ey5 hx
  simp only at hg
  have hα' : α ≠ 0 := fun h => ht3 (by rw [h, mul_zero])
  have hαp : 0 < 4 * Ei ^ 2 - C ^ 2 := lt_of_le_of_ne hα0 fun h => hα' (by rw [hα, ← h, Real.sqrt_zero])
  have hγp : 0 < Ei ^ 2 - C ^ 2 / 2 := lt_of_le_of_ne hγ0 fun h => hg (by linarith)
  have nc : ∀ c : ℝ, Near (fun _ : Mach × ℝ => c) c := near_const
  have nA := nc A
  have nC := nc C
  have nEi := nc Ei
  have nEg := nc Eg
  have n2 := nc 2
  have hEi : Ei ≠ 0 := fun h => ht2 (by rw [h, mul_zero])
  unfold Mach.tlE1
  refine NearS.bind (((nc 4).mrmul (nEi.mrpow 2)).mrsub (nC.mrpow 2) |>.mroot hαp) fun Al nAl => ?_
  refine NearS.bind ((nEi.mrpow 2).mrsub ((nC.mrpow 2).mrdiv n2 two_ne_zero) |>.mroot hγp) fun Ga nGa => ?_
  rw [← hα] at nAl
  rw [← hγ] at nGa
  have nz : Near (fun p : Mach × ℝ => p.1.tlZeta C (Al p) (Ga p) (E p))
      ((e ^ 2 - γ ^ 2) ^ 2 + 0.25 * α ^ 2 * C ^ 2) :=
    (((hE.mrpow 2).mrsub (nGa.mrpow 2)).mrpow 2).mradd (((near_lit 0.25).mrmul (nAl.mrpow 2)).mrmul (nC.mrpow 2))
  have hζ := ht5
  obtain ⟨ζ, hζd⟩ : ∃ ζ : ℝ, ζ = (e ^ 2 - γ ^ 2) ^ 2 + 0.25 * α ^ 2 * C ^ 2 := ⟨_, rfl⟩
  rw [← hζd] at hζ nz et1 et2 et3 et4 et5
  have nln : Near (fun p : Mach × ℝ => p.1.tlLn (A, C, Ei) Eg (E p))
      ((Eg ^ 2 - Ei ^ 2) * e ^ 2 + Eg ^ 2 * C ^ 2 - Ei ^ 2 * (Ei ^ 2 + 3 * Eg ^ 2)) :=
    ((((nEg.mrpow 2).mrsub (nEi.mrpow 2)).mrmul (hE.mrpow 2)).mradd ((nEg.mrpow 2).mrmul (nC.mrpow 2))).mrsub
      ((nEi.mrpow 2).mrmul ((nEi.mrpow 2).mradd ((nc 3).mrmul (nEg.mrpow 2))))
  have nat : Near (fun p : Mach × ℝ => p.1.tlAtan (A, C, Ei) Eg (E p))
      ((e ^ 2 - Ei ^ 2) * (Ei ^ 2 + Eg ^ 2) + Eg ^ 2 * C ^ 2) :=
    (((hE.mrpow 2).mrsub (nEi.mrpow 2)).mrmul ((nEi.mrpow 2).mradd (nEg.mrpow 2))).mradd
      ((nEg.mrpow 2).mrmul (nC.mrpow 2))
  have ns : Near (fun p : Mach × ℝ => p.1.radd (p.1.rpow Ei 2) (p.1.rpow Eg 2)) (Ei ^ 2 + Eg ^ 2) :=
    (nEi.mrpow 2).mradd (nEg.mrpow 2)
  have npi := near_mpi
  have hpi := Real.pi_ne_zero
  refine NearS.bind (((((nA.mrmul nC).mrmul nln).mrdiv n2 two_ne_zero).mrdiv npi hpi).mquot nz hζ) fun g1 ng1 => ?_
  refine NearS.bind (ng1.mquot nAl hα') fun g2 ng2 => ?_
  refine NearS.bind (ng2.mquot nEi hEi) fun g3 ng3 => ?_
  refine NearS.bind ((ns.mradd (nAl.mrmul nEg)).mquot (ns.mrsub (nAl.mrmul nEg)) hy1) fun y1' ny1 => ?_
  rw [← ey1] at ny1
  refine NearS.bind (ny1.mln hl1) fun l1' nl1 => ?_
  refine NearS.bind (((nA.mrdiv npi hpi).mrmul nat).mquot nz hζ) fun g4 ng4 => ?_
  refine NearS.bind (ng4.mquot nEi hEi) fun g5 ng5 => ?_
  refine NearS.bind (((n2.mrmul nEg).mradd nAl).mquot nC hq1) fun q1' nq1 => ?_
  refine NearS.bind ((nAl.mrsub (n2.mrmul nEg)).mquot nC hq1) fun q2' nq2 => ?_
  refine NearS.bind ((((((n2.mrmul nA).mrmul nEi).mrmul nEg).mrmul ((hE.mrpow 2).mrsub (nGa.mrpow 2))).mrdiv npi hpi).mquot nz hζ)
    fun g6 ng6 => ?_
  refine NearS.bind (ng6.mquot nAl hα') fun g7 ng7 => ?_
  refine NearS.bind ((n2.mrmul ((nGa.mrpow 2).mrsub (nEg.mrpow 2))).mquot nAl hα') fun q3' nq3 => ?_
  refine NearS.bind (nq3.mquot nC hq1) fun q4' nq4 => ?_
  have he : e ≠ 0 := fun h => ht4 (by rw [h, mul_zero])
  refine NearS.bind (((((nA.mrmul nEi).mrmul nC).mrmul ((hE.mrpow 2).mradd (nEg.mrpow 2))).mrdiv npi hpi).mquot nz hζ)
    fun g8 ng8 => ?_
  refine NearS.bind (ng8.mquot hE he) fun g9 ng9 => ?_
  refine NearS.bind ((hE.mrsub nEg).mabs.mquot (hE.mradd nEg) hy4) fun y4' ny4 => ?_
  rw [← ey4] at ny4
  refine NearS.bind (ny4.mln hl4) fun l4' nl4 => ?_
  refine NearS.bind ((((((n2.mrmul nA).mrmul nEi).mrmul nEg).mrmul nC).mrdiv npi hpi).mquot nz hζ) fun g10 ng10 => ?_
  have hd : 0 < (Ei ^ 2 - Eg ^ 2) ^ 2 + Eg ^ 2 * C ^ 2 := Real.sqrt_pos.mp (lt_of_le_of_ne (Real.sqrt_nonneg _) (Ne.symm hy5))
  refine NearS.bind ((((nEi.mrpow 2).mrsub (nEg.mrpow 2)).mrpow 2).mradd ((nEg.mrpow 2).mrmul (nC.mrpow 2)) |>.mroot hd)
    fun d' nd' => ?_
  refine NearS.bind (((hE.mrsub nEg).mabs.mrmul (hE.mradd nEg)).mquot nd' hy5) fun y5' ny5 => ?_
  rw [← ey5] at ny5
  refine NearS.bind (ny5.mln hl5) fun l5' nl5 => ?_
  have fin := (((((ng3.mrmul nl1).mrsub (ng5.mrmul ((npi.mrsub nq1.marctan).mradd nq2.marctan))).mradd
    (ng7.mrmul (npi.mradd (n2.mrmul nq4.marctan)))).mrsub (ng9.mrmul nl4)).mradd (ng10.mrmul nl5))
  refine (fin.congr_val ?_).some
  rw [← hx, ← el1, ← el4, ← el5, ← eq1, ← eq2, et1, et2, et3, et4, et5, eq3]
  simp only [div_div, ← mul_assoc]

theorem near_tlEps {E : Mach × ℝ → ℝ} {e : ℝ} (hE : Near E e) {osc : List (ℝ × ℝ × ℝ)} {Eg einf : ℝ} {x : ℂ}
    (hg : ∀ o ∈ osc, o.2.1 ^ 2 ≠ 2 * o.2.2 ^ 2)
    (h : tlEps osc Eg einf e = some x) : NearS (fun p : Mach × ℝ => p.1.tlEps osc Eg einf (E p)) x := by
  simp only [tlEps, tlParts, Option.bind_eq_bind, Option.bind_eq_some_iff, Option.pure_def, Option.some.injEq,
    Option.map_eq_some_iff] at h
  obtain ⟨a, ⟨s, hs, rfl⟩, b, hb, rfl⟩ := h
  have h1 : List.Forall₂ (fun (V : Mach × ℝ → Option ℝ) v => ∃ x, v = some x ∧ NearS V x)
      (osc.map fun o (p : Mach × ℝ) => p.1.tlE1 o Eg (E p)) (osc.map fun o => tlE1 o Eg e) := by
    rw [List.forall₂_map_left_iff, List.forall₂_map_right_iff, List.forall₂_same]
    intro o ho
    obtain ⟨x, hx⟩ := sumO_all hs _ (List.mem_map_of_mem ho)
    exact ⟨x, hx, near_tlE1 hE (hg o ho) hx⟩
  have h2 : List.Forall₂ (fun (V : Mach × ℝ → Option ℝ) v => ∃ x, v = some x ∧ NearS V x)
      (osc.map fun o (p : Mach × ℝ) => p.1.tlE2 o Eg (E p)) (osc.map fun o => tlE2 o Eg e) := by
    rw [List.forall₂_map_left_iff, List.forall₂_map_right_iff, List.forall₂_same]
    intro o ho
    obtain ⟨x, hx⟩ := sumO_all hb _ (List.mem_map_of_mem ho)
    obtain ⟨y, hy⟩ := sumO_all hs _ (List.mem_map_of_mem ho)
    exact ⟨x, hx, near_tlE2 hE (tlE1_ne hy) hx⟩
  have n1 := near_rsum h1 (near_const (0 : ℝ)) hs
  have n2 := near_rsum h2 (near_const (0 : ℝ)) hb
  simp only [List.map_map, Function.comp_def, zero_add] at n1 n2
  unfold Mach.tlEps
  exact n1.bind fun F hF => n2.bind fun G hG => ((hF.mradd (near_const einf)).mk hG).some

end Verif.Disp
