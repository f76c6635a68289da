import Verif.Disp.RoundMix

/-! # Materials in the arithmetic of a machine (for C153) -/

namespace Verif.Disp

open Filter Topology Asymptotics EMA

/-! ### Tables -/

theorem interpFrom_at {x0 y0 : ℝ} : ∀ {rest : List (ℝ × ℝ)}, (∀ r ∈ rest, x0 < r.1) → interpFrom x0 y0 rest x0 = y0
  | [], _ => rfl
  | (x1, y1) :: rest, h => by
    have := h _ List.mem_cons_self
    simp only [interpFrom, if_pos this]
    ring

/-- Rows in the order of increasing wavelength, not two of them at the wavelength `w`. -/
def Ordered {β : Type} (w : ℝ) (tab : List (ℝ × β)) : Prop :=
  tab.Pairwise fun a b => a.1 ≤ b.1 ∧ ¬ (a.1 = w ∧ b.1 = w)

theorem near_interpFrom {w : ℝ} : ∀ (rest : List (ℝ × ℝ)) {x0 y0 : ℝ}, x0 ≤ w → Ordered w ((x0, y0) :: rest) →
    Near (fun p : Mach × ℝ => p.1.interpFrom (p.1.knot x0) y0 (rest.map fun r => (p.1.knot r.1, r.2)) w)
      (interpFrom x0 y0 rest w)
  | [], _, y0, _, _ => near_const y0
  | (x1, y1) :: rest, x0, y0, h0, ho => by
    obtain ⟨ho1, ho2⟩ := List.pairwise_cons.mp ho
    obtain ⟨h01, hne⟩ := ho1 _ List.mem_cons_self
    simp only at h01 hne
    have form : x0 ≠ x1 → Near (fun p : Mach × ℝ => p.1.radd (p.1.rmul (p.1.rdiv (p.1.rsub y1 y0)
        (p.1.rsub (p.1.knot x1) (p.1.knot x0))) (p.1.rsub w (p.1.knot x0))) y0)
        ((y1 - y0) / (x1 - x0) * (w - x0) + y0) := fun h =>
      ((((near_const y1).mrsub (near_const y0)).mrdiv ((near_knot x1).mrsub (near_knot x0))
        (sub_ne_zero.mpr (Ne.symm h))).mrmul ((near_const w).mrsub (near_knot x0))).mradd (near_const y0)
    have hk := (near_knot x1).tendsto
    rcases lt_trichotomy w x1 with h | h | h
    · refine ((form (h0.trans_lt h).ne).congr ?_).congr_val ?_
      · filter_upwards [hk.eventually (lt_mem_nhds h)] with p hp
        simp only [List.map_cons, Mach.interpFrom, if_pos hp]
      · simp only [interpFrom, if_pos h]
    · subst h
      have h0' : x0 ≠ w := fun e => hne ⟨e, rfl⟩
      have hlt : ∀ r ∈ rest, w < r.1 := fun r hr => by
        obtain ⟨a, b⟩ := (List.pairwise_cons.mp ho2).1 r hr
        exact lt_of_le_of_ne a fun e => b ⟨rfl, e.symm⟩
      have e1 : interpFrom x0 y0 ((w, y1) :: rest) w = y1 := by
        simp only [interpFrom, lt_irrefl, if_false]
        exact interpFrom_at hlt
      rw [e1]
      have f1 := form h0'
      rw [div_mul_cancel₀ _ (sub_ne_zero.mpr (Ne.symm h0')), sub_add_cancel] at f1
      have f2 := near_interpFrom rest (y0 := y1) le_rfl ho2
      rw [interpFrom_at hlt] at f2
      classical
      refine (f1.ite f2 fun p => w < p.1.knot w).congr (Eventually.of_forall fun p => ?_)
      simp only [List.map_cons, Mach.interpFrom]
    · have f2 := near_interpFrom rest (y0 := y1) h.le ho2
      refine (f2.congr ?_).congr_val ?_
      · filter_upwards [hk.eventually (gt_mem_nhds h)] with p hp
        simp only [List.map_cons, Mach.interpFrom, if_neg (not_lt.mpr hp.le)]
      · simp only [interpFrom, if_neg (not_lt.mpr h.le)]

theorem near_interp {w : ℝ} {tab : List (ℝ × ℝ)} (ho : Ordered w tab) {v : ℝ} (h : interp tab w = .ok v) :
    NearS (fun p : Mach × ℝ => p.1.interp (tab.map fun r => (p.1.knot r.1, r.2)) w) v := by
  match tab, ho, h with
  | (x0, y0) :: rest, ho, h =>
    have hk := (near_knot x0).tendsto
    simp only [interp] at h
    rcases lt_trichotomy w x0 with hl | hl | hl
    · rw [if_pos hl] at h
      obtain rfl : y0 = v := by simpa using h
      refine ⟨_, near_const y0, ?_⟩
      filter_upwards [hk.eventually (lt_mem_nhds hl)] with p hp
      simp only [List.map_cons, Mach.interp, if_pos hp]
    · subst hl
      rw [if_neg (lt_irrefl _)] at h
      obtain rfl : interpFrom w y0 rest w = v := by simpa using h
      have f2 := near_interpFrom rest (y0 := y0) le_rfl ho
      have hlt : ∀ r ∈ rest, w < r.1 := fun r hr => by
        obtain ⟨a, b⟩ := (List.pairwise_cons.mp ho).1 r hr
        exact lt_of_le_of_ne a fun e => b ⟨rfl, e.symm⟩
      rw [interpFrom_at hlt] at f2 ⊢
      classical
      refine ⟨_, (near_const y0).ite f2 fun p => w < p.1.knot w, Eventually.of_forall fun p => ?_⟩
      simp only [List.map_cons, Mach.interp]
      split_ifs <;> rfl
    · rw [if_neg (not_lt.mpr hl.le)] at h
      obtain rfl : interpFrom x0 y0 rest w = v := by simpa using h
      refine ⟨_, near_interpFrom rest hl.le ho, ?_⟩
      filter_upwards [hk.eventually (gt_mem_nhds hl)] with p hp
      simp only [List.map_cons, Mach.interp, if_neg (not_lt.mpr hp.le)]

theorem zero_of_le {x y u : ℝ} (h : |x - y| ≤ u * |y|) (hy : y = 0) : x = 0 := by
  rw [hy, sub_zero, abs_zero, mul_zero] at h
  exact abs_nonpos_iff.mp h

/-- Zeros are interpolated to zero. -/
theorem interpFrom_zero {M : Mach} {u : ℝ} (hM : M.Within u) (hu : u < 1) {w : ℝ} :
    ∀ (rest : List (ℝ × ℝ)) {x0 : ℝ}, x0 ≤ w → (∀ r ∈ rest, r.2 = 0) → M.interpFrom x0 0 rest w = 0
  | [], _, _, _ => rfl
  | (x1, y1) :: rest, x0, h0, hr => by
    obtain rfl : y1 = 0 := hr _ List.mem_cons_self
    simp only [Mach.interpFrom]
    split_ifs with h
    · have h1 : M.rsub 0 0 = 0 := zero_of_le (hM.rsub 0 0) (by simp)
      have h2 : M.rsub x1 x0 ≠ 0 := by
        intro e
        have h3 := hM.rsub x1 x0
        rw [e, zero_sub, abs_neg] at h3
        have h4 : 0 < |x1 - x0| := abs_pos.mpr (by linarith)
        nlinarith
      have h3 : M.rdiv (M.rsub 0 0) (M.rsub x1 x0) = 0 := zero_of_le (hM.rdiv _ _ h2) (by rw [h1, zero_div])
      have h4 : M.rmul (M.rdiv (M.rsub 0 0) (M.rsub x1 x0)) (M.rsub w x0) = 0 :=
        zero_of_le (hM.rmul _ _) (by rw [h3, zero_mul])
      exact zero_of_le (hM.radd _ _) (by rw [h4, zero_add])
    · exact interpFrom_zero hM hu rest (not_lt.mp h) fun r hr' => hr r (List.mem_cons_of_mem _ hr')

theorem machInterp_zero {M : Mach} {u : ℝ} (hM : M.Within u) (hu : u < 1) {w : ℝ} {tab : List (ℝ × ℝ)}
    (hr : ∀ r ∈ tab, r.2 = 0) {v : ℝ} (h : M.interp tab w = some v) : v = 0 := by
  match tab, hr, h with
  | (x0, y0) :: rest, hr, h =>
    obtain rfl : y0 = 0 := hr _ List.mem_cons_self
    simp only [Mach.interp] at h
    split_ifs at h with h1
    · simpa using h.symm
    · rw [interpFrom_zero hM hu rest (not_lt.mp h1) fun r hr' => hr r (List.mem_cons_of_mem _ hr')] at h
      simpa using h.symm

/-! ### Oscillators -/

theorem rsqrt_eq_some {x y : ℝ} : rsqrt x = some y ↔ 0 ≤ x ∧ y = Real.sqrt x := by
  unfold rsqrt
  split_ifs with h
  · simp [h]
  · simp [not_lt.mp h, eq_comm]

theorem rlog_eq_some {x y : ℝ} : rlog x = some y ↔ 0 < x ∧ y = Real.log x := by
  unfold rlog
  split_ifs with h
  · simp [h, eq_comm]
  · simp [h]

theorem near_csum {vs : List (Mach × ℝ → Option ℂ)} {ws : List (Option ℂ)}
    (h : List.Forall₂ (fun V v => ∃ x, v = some x ∧ NearS V x) vs ws) {acc : Mach × ℝ → ℂ} {a s : ℂ} (ha : Near acc a)
    (hs : sumO ws = some s) : NearS (fun p : Mach × ℝ => p.1.csum (acc p) (vs.map fun V => V p)) (a + s) := by
  induction h generalizing acc a s with
  | nil =>
    obtain rfl : (0 : ℂ) = s := by simpa [sumO] using hs
    rw [add_zero]
    exact ha.some
  | @cons V v vs ws hv _ ih =>
    obtain ⟨x, rfl, hx⟩ := hv
    simp only [sumO, Option.bind_eq_bind, Option.bind_some, Option.bind_eq_some_iff] at hs
    obtain ⟨t, ht, e⟩ := hs
    obtain rfl : x + t = s := by simpa using e
    rw [← add_assoc]
    simp only [List.map_cons, Mach.csum]
    exact hx.bind fun G hG => ih (ha.madd hG) ht

theorem near_rsum {vs : List (Mach × ℝ → Option ℝ)} {ws : List (Option ℝ)}
    (h : List.Forall₂ (fun V v => ∃ x, v = some x ∧ NearS V x) vs ws) {acc : Mach × ℝ → ℝ} {a s : ℝ} (ha : Near acc a)
    (hs : sumO ws = some s) : NearS (fun p : Mach × ℝ => p.1.rsum (acc p) (vs.map fun V => V p)) (a + s) := by
  induction h generalizing acc a s with
  | nil =>
    obtain rfl : (0 : ℝ) = s := by simpa [sumO] using hs
    rw [add_zero]
    exact ha.some
  | @cons V v vs ws hv _ ih =>
    obtain ⟨x, rfl, hx⟩ := hv
    simp only [sumO, Option.bind_eq_bind, Option.bind_some, Option.bind_eq_some_iff] at hs
    obtain ⟨t, ht, e⟩ := hs
    obtain rfl : x + t = s := by simpa using e
    rw [← add_assoc]
    simp only [List.map_cons, Mach.rsum]
    exact hx.bind fun G hG => ih (ha.mradd hG) ht

/-- All terms of a finite sum are finite. -/
theorem sumO_all {α : Type} [Add α] [Zero α] : ∀ {l : List (Option α)} {s : α}, sumO l = some s →
    ∀ v ∈ l, ∃ x, v = some x
  | [], _, _, _, h => absurd h List.not_mem_nil
  | w :: l, s, hs, v, hv => by
    simp only [sumO, Option.bind_eq_bind, Option.bind_eq_some_iff] at hs
    obtain ⟨x, hx, t, ht, -⟩ := hs
    rcases List.mem_cons.mp hv with rfl | hv
    · exact ⟨x, hx⟩
    · exact sumO_all ht v hv

theorem near_lorentzTerm {E : Mach × ℝ → ℝ} {e : ℝ} (hE : Near E e) {o : ℝ × ℝ × ℝ} {x : ℂ}
    (h : lorentzTerm e o = some x) : NearS (fun p : Mach × ℝ => p.1.lorentzTerm (E p) o) x := by
  obtain ⟨h1, rfl⟩ := cdiv_eq_some.mp h
  have e1 : (o.2.2 : ℂ) ^ 2 - (e : ℂ) ^ 2 - Complex.I * o.2.1 * e = ((o.2.2 ^ 2 - e ^ 2 : ℝ) : ℂ) - Complex.I * o.2.1 * e := by
    push_cast; ring
  rw [e1] at h1 ⊢
  exact (near_const _).mcquot (((((near_const o.2.2).mrpow 2).mrsub (hE.mrpow 2)).ofReal).msub
    (((near_const Complex.I).mmul (near_const _)).mmul hE.ofReal)) h1

theorem near_lorentzEps {E : Mach × ℝ → ℝ} {e : ℝ} (hE : Near E e) {osc : List (ℝ × ℝ × ℝ)} {einf : ℝ} {x : ℂ}
    (h : lorentzEps osc einf e = some x) : NearS (fun p : Mach × ℝ => p.1.lorentzEps osc einf (E p)) x := by
  simp only [lorentzEps, Option.bind_eq_bind, Option.bind_eq_some_iff, Option.pure_def, Option.some.injEq] at h
  obtain ⟨s, hs, rfl⟩ := h
  have h1 : List.Forall₂ (fun (V : Mach × ℝ → Option ℂ) v => ∃ x, v = some x ∧ NearS V x)
      (osc.map fun o (p : Mach × ℝ) => p.1.lorentzTerm (E p) o) (osc.map (lorentzTerm e)) := by
    rw [List.forall₂_map_left_iff, List.forall₂_map_right_iff, List.forall₂_same]
    intro o ho
    obtain ⟨x, hx⟩ := sumO_all hs _ (List.mem_map_of_mem ho)
    exact ⟨x, hx, near_lorentzTerm hE hx⟩
  have h2 := near_csum h1 (near_const (0 : ℂ)) hs
  simp only [List.map_map, Function.comp_def, zero_add] at h2
  simp only [Mach.lorentzEps, Option.bind_eq_bind, Option.pure_def]
  exact h2.bind fun G hG => (hG.madd (near_const _)).some

end Verif.Disp
