import Verif.Disp.RoundTauc
import Verif.Disp.GaussLemmas

/-! # `Gauss` in the arithmetic of a machine (for C153) -/

namespace Verif.Disp

open Filter Topology Asymptotics EMA

/-! ### Interpolation in a table whose entries are themselves computed -/

/-- One row of such a table: what is computed, and exactly. -/
structure NRow where
  X : Mach × ℝ → ℝ
  Y : Mach × ℝ → ℝ
  x : ℝ
  y : ℝ
  hX : Near X x
  hY : Near Y y

theorem near_interpFromG {W : Mach × ℝ → ℝ} {w : ℝ} (hW : Near W w) : ∀ (rest : List NRow) (r : NRow), r.x ≤ w →
    (r :: rest).Pairwise (fun a b => a.x < b.x) →
    Near (fun p : Mach × ℝ => p.1.interpFrom (r.X p) (r.Y p) (rest.map fun r => (r.X p, r.Y p)) (W p))
      (interpFrom r.x r.y (rest.map fun r => (r.x, r.y)) w)
  | [], r, _, _ => r.hY
  | s :: rest, r, h0, ho => by
    obtain ⟨ho1, ho2⟩ := List.pairwise_cons.mp ho
    have h01 := ho1 _ List.mem_cons_self
    have form : Near (fun p : Mach × ℝ => p.1.radd (p.1.rmul (p.1.rdiv (p.1.rsub (s.Y p) (r.Y p))
        (p.1.rsub (s.X p) (r.X p))) (p.1.rsub (W p) (r.X p))) (r.Y p))
        ((s.y - r.y) / (s.x - r.x) * (w - r.x) + r.y) :=
      (((s.hY.mrsub r.hY).mrdiv (s.hX.mrsub r.hX) (sub_ne_zero.mpr h01.ne')).mrmul (hW.mrsub r.hX)).mradd r.hY
    have hd := (hW.sub s.hX).tendsto
    rcases lt_trichotomy w s.x with h | h | h
    · refine (form.congr ?_).congr_val ?_
      · filter_upwards [hd.eventually (gt_mem_nhds (sub_neg.2 h))] with p hp
        have hp : W p < s.X p := by linarith
        simp only [List.map_cons, Mach.interpFrom, if_pos hp]
      · simp only [List.map_cons, interpFrom, if_pos h]
    · have hlt : ∀ q ∈ rest.map fun r => (r.x, r.y), s.x < q.1 := fun q hq => by
        obtain ⟨q', hq', rfl⟩ := List.mem_map.1 hq
        exact (List.pairwise_cons.mp ho2).1 q' hq'
      have e1 : interpFrom r.x r.y ((s :: rest).map fun r => (r.x, r.y)) w = s.y := by
        simp only [List.map_cons, interpFrom, if_neg (not_lt.2 h.ge)]
        rw [h]
        exact interpFrom_at hlt
      rw [e1]
      have f1 := form
      rw [h, div_mul_cancel₀ _ (sub_ne_zero.mpr h01.ne'), sub_add_cancel] at f1
      have f2 := near_interpFromG hW rest s h.ge ho2
      rw [h, interpFrom_at hlt] at f2
      classical
      refine (f1.ite f2 fun p => W p < s.X p).congr (Eventually.of_forall fun p => ?_)
      simp only [List.map_cons, Mach.interpFrom]
    · have f2 := near_interpFromG hW rest s h.le ho2
      refine (f2.congr ?_).congr_val ?_
      · filter_upwards [hd.eventually (lt_mem_nhds (sub_pos.2 h))] with p hp
        have hp : s.X p ≤ W p := by linarith
        simp only [List.map_cons, Mach.interpFrom, if_neg (not_lt.mpr hp)]
      · simp only [List.map_cons, interpFrom, if_neg (not_lt.mpr h.le)]

theorem near_interpG {W : Mach × ℝ → ℝ} {w : ℝ} (hW : Near W w) {tab : List NRow}
    (ho : tab.Pairwise fun a b => a.x < b.x) {v : ℝ} (h : interp (tab.map fun r => (r.x, r.y)) w = .ok v) :
    NearS (fun p : Mach × ℝ => p.1.interp (tab.map fun r => (r.X p, r.Y p)) (W p)) v := by
  match tab, ho, h with
  | r :: rest, ho, h =>
    have hd := (hW.sub r.hX).tendsto
    simp only [List.map_cons, interp] at h
    rcases lt_trichotomy w r.x with hl | hl | hl
    · rw [if_pos hl] at h
      obtain rfl : r.y = v := by simpa using h
      refine ⟨_, r.hY, ?_⟩
      filter_upwards [hd.eventually (gt_mem_nhds (sub_neg.2 hl))] with p hp
      have hp : W p < r.X p := by linarith
      simp only [List.map_cons, Mach.interp, if_pos hp]
    · rw [if_neg (not_lt.2 hl.ge)] at h
      have f2 := near_interpFromG hW rest r hl.ge ho
      have hlt : ∀ q ∈ rest.map fun r => (r.x, r.y), r.x < q.1 := fun q hq => by
        obtain ⟨q', hq', rfl⟩ := List.mem_map.1 hq
        exact (List.pairwise_cons.mp ho).1 q' hq'
      obtain rfl : r.y = v := by rw [hl, interpFrom_at hlt] at h; simpa using h
      rw [hl, interpFrom_at hlt] at f2
      classical
      refine ⟨_, r.hY.ite f2 fun p => W p < r.X p, Eventually.of_forall fun p => ?_⟩
      simp only [List.map_cons, Mach.interp]
      split_ifs <;> rfl
    · rw [if_neg (not_lt.mpr hl.le)] at h
      obtain rfl : interpFrom r.x r.y (rest.map fun r => (r.x, r.y)) w = v := by simpa using h
      refine ⟨_, near_interpFromG hW rest r hl.le ho, ?_⟩
      filter_upwards [hd.eventually (lt_mem_nhds (sub_pos.2 hl))] with p hp
      have hp : r.X p ≤ W p := by linarith
      simp only [List.map_cons, Mach.interp, if_neg (not_lt.mpr hp)]

/-! ### Grids -/

theorem near_grid {j : ℕ} (hj : j < 2048) : Near (fun p : Mach × ℝ => p.1.grid j) (ePad j) :=
  (near_const (ePad j)).perturb 100 (fine_within.mono fun _ hp => hp.grid j hj)

/-- A grid of computed numbers. -/
def NearG (F : Mach × ℝ → Option (ℕ → ℝ)) (g : ℕ → ℝ) : Prop :=
  ∃ G : Mach × ℝ → ℕ → ℝ, (∀ j < 2048, Near (fun p => G p j) (g j)) ∧ ∀ᶠ p in fine, F p = some (G p)

theorem near_sum {E : Type*} [NormedAddCommGroup E] {F : ℕ → Mach × ℝ → E} {z : ℕ → E} {s : Finset ℕ}
    (h : ∀ m ∈ s, Near (F m) (z m)) : Near (fun p => ∑ m ∈ s, F m p) (∑ m ∈ s, z m) := by
  classical
  induction s using Finset.induction_on with
  | empty => simpa using near_const (0 : E)
  | insert a s ha ih =>
    simp only [Finset.sum_insert ha]
    exact (h a (by simp)).add (ih fun m hm => h m (by simp [hm]))

theorem near_hilbert {G : Mach × ℝ → ℕ → ℝ} {g : ℕ → ℝ} (h : ∀ j < 2048, Near (fun p => G p j) (g j)) {n : ℕ}
    (hn : n < 2048) : Near (fun p : Mach × ℝ => p.1.hilbert (G p) n) (hilbert g n) := by
  have h1 : Near (fun p : Mach × ℝ => hilbert (G p) n) (hilbert g n) :=
    near_sum fun m hm => (h m (Finset.mem_range.1 hm)).mul (near_const _)
  have h2 : Near (fun p : Mach × ℝ => ∑ m ∈ Finset.range gaussN, |G p m|) (∑ m ∈ Finset.range gaussN, |g m|) :=
    near_sum fun m hm => (h m (Finset.mem_range.1 hm)).mabs
  refine h1.perturb (1000 * (∑ m ∈ Finset.range gaussN, |g m| + 1)) ?_
  filter_upwards [fine_within, h2.tendsto.eventually (gt_mem_nhds (lt_add_one _))] with p hp h3
  refine (hp.hilbert _ n hn).trans ?_
  have := hp.nonneg
  nlinarith [mul_le_mul_of_nonneg_left h3.le this]

theorem near_gaussE2 {X : Mach × ℝ → ℝ} {x : ℝ} (hX : Near X x) {o : ℝ × ℝ × ℝ} {v : ℝ}
    (h : gaussE2 o x = some v) : NearS (fun p : Mach × ℝ => p.1.gaussE2 o (X p)) v := by
  by_cases ho : o.2.1 = 0
  · have hs : o.2.1 / 2 / Real.sqrt (Real.log 2) = 0 := by rw [ho, zero_div, zero_div]
    simp only [gaussE2, gaussExp, if_pos hs] at h
    have h1 : x - o.2.2 ≠ 0 := fun e => by simp [e] at h
    have h2 : x + o.2.2 ≠ 0 := fun e => by simp [e] at h
    obtain rfl : 0 = v := by simpa [h1, h2] using h
    refine ⟨_, (((near_const o.1).mrmul (near_const 0)).mrsub ((near_const o.1).mrmul (near_const 0))).congr_val
      (by simp), ?_⟩
    have hl : Real.log 2 ≠ 0 := (Real.log_pos (by norm_num)).ne'
    have hlog : Near (fun p : Mach × ℝ => p.1.log 2) (Real.log 2) :=
      (near_const (Real.log 2)).round (fine_within.mono fun _ hp => hp.log 2 (by norm_num))
    obtain ⟨R, nR, eR⟩ := hlog.mroot (Real.log_pos (by norm_num))
    filter_upwards [fine_within, (hX.mrsub (near_const o.2.2)).rne h1, (hX.mradd (near_const o.2.2)).rne h2,
      eR, nR.rne (Real.sqrt_pos.2 (Real.log_pos (by norm_num))).ne'] with p hp q1 q2 q3 q4
    have q5 : p.1.rsqrt (p.1.log 2) = R p := by
      unfold Mach.root at q3
      split_ifs at q3
      simpa using q3
    have e1 : p.1.rdiv o.2.1 2 = 0 := zero_of_le (hp.rdiv o.2.1 2 (by norm_num)) (by rw [ho, zero_div])
    have e2 : p.1.rdiv (p.1.rdiv o.2.1 2) (p.1.rsqrt (p.1.log 2)) = 0 := by
      rw [q5]
      exact zero_of_le (hp.rdiv _ _ q4) (by rw [e1, zero_div])
    simp only [Mach.gaussE2, Mach.gaussExp, e2, if_neg q1, if_neg q2, if_true, Option.bind_eq_bind, Option.bind_some,
      Option.pure_def]
  have hl : 0 < Real.log 2 := Real.log_pos (by norm_num)
  have hsq : Real.sqrt (Real.log 2) ≠ 0 := (Real.sqrt_pos.2 hl).ne'
  have nlog : Near (fun p : Mach × ℝ => p.1.log 2) (Real.log 2) :=
    (near_const (Real.log 2)).round (fine_within.mono fun _ hp => hp.log 2 (by norm_num))
  obtain ⟨R, nR, eR⟩ := nlog.mroot hl
  have nS := ((near_const o.2.1).mrdiv (near_const 2) (by norm_num)).mrdiv nR hsq
  have hs : o.2.1 / 2 / Real.sqrt (Real.log 2) ≠ 0 := div_ne_zero (div_ne_zero ho (by norm_num)) hsq
  have hexp : ∀ {Z : Mach × ℝ → ℝ} {z : ℝ}, Near Z z → Near (fun p : Mach × ℝ => p.1.exp (-(p.1.rpow (p.1.rdiv (Z p)
      (p.1.rdiv (p.1.rdiv o.2.1 2) (R p))) 2))) (Real.exp (-((z / (o.2.1 / 2 / Real.sqrt (Real.log 2))) ^ 2))) := by
    intro Z z hZ
    have h1 := (near_const (0 : ℝ)).sub ((hZ.mrdiv nS hs).mrpow 2)
    simp only [zero_sub] at h1
    have h2 := h1.diff (g := Real.exp) Real.differentiableAt_exp
    refine h2.perturb 1 ?_
    filter_upwards [fine_within, (tiny_tendsto (α := Mach)).eventually (gt_mem_nhds zero_lt_one)] with p hp hu
    rw [one_mul]
    refine hp.exp _ ?_
    rw [neg_nonpos]
    have := hp.rpow (p.1.rdiv (Z p) (p.1.rdiv (p.1.rdiv o.2.1 2) (R p))) 2
    generalize p.1.rdiv (Z p) (p.1.rdiv (p.1.rdiv o.2.1 2) (R p)) = q at this ⊢
    rw [abs_of_nonneg (sq_nonneg q), abs_le] at this
    nlinarith [this.1, sq_nonneg q]
  simp only [gaussE2, gaussExp, if_neg hs, Option.bind_eq_bind, Option.bind_some, Option.pure_def,
    Option.some.injEq] at h
  subst h
  refine ⟨_, ((near_const o.1).mrmul (hexp (hX.mrsub (near_const o.2.2)))).mrsub
    ((near_const o.1).mrmul (hexp (hX.mradd (near_const o.2.2)))), ?_⟩
  filter_upwards [eR, nS.rne hs] with p h1 h2
  have h3 : p.1.rsqrt (p.1.log 2) = R p := by
    unfold Mach.root at h1
    split_ifs at h1
    simpa using h1
  simp only [Mach.gaussE2, Mach.gaussExp, h3, if_neg h2, Option.bind_eq_bind, Option.bind_some, Option.pure_def]

theorem near_gaussGrid {o : ℝ × ℝ × ℝ} {g : ℕ → ℝ} (h : gaussGrid o = some g) :
    NearG (fun p : Mach × ℝ => p.1.gaussGrid o) g := by
  unfold gaussGrid at h
  split_ifs at h with hall
  obtain rfl : (fun j => (gaussE2 o (ePad j)).getD 0) = g := by simpa using h
  have h1 : ∀ j < 2048, NearS (fun p : Mach × ℝ => p.1.gaussE2 o (p.1.grid j)) ((gaussE2 o (ePad j)).getD 0) := by
    intro j hj
    obtain ⟨v, hv⟩ := Option.isSome_iff_exists.1 (hall j hj)
    rw [hv]
    exact near_gaussE2 (near_grid hj) hv
  refine ⟨fun p j => (p.1.gaussE2 o (p.1.grid j)).getD 0, fun j hj => ?_, ?_⟩
  · obtain ⟨G, nG, eG⟩ := h1 j hj
    refine nG.congr ?_
    filter_upwards [eG] with p hp
    rw [hp, Option.getD_some]
  · have : ∀ᶠ p in fine, ∀ j ∈ Finset.range 2048, (p.1.gaussE2 o (p.1.grid j)).isSome := by
      rw [eventually_all_finset]
      intro j hj
      obtain ⟨G, -, eG⟩ := h1 j (Finset.mem_range.1 hj)
      filter_upwards [eG] with p hp
      rw [hp, Option.isSome_some]
    filter_upwards [this] with p hp
    have hp' : ∀ j < gaussN, (p.1.gaussE2 o (p.1.grid j)).isSome := fun j hj => hp j (Finset.mem_range.2 hj)
    simp only [Mach.gaussGrid, if_pos hp']

theorem near_gaussSum {FM : Mach → (ℕ → ℝ) → ℕ → ℝ} {F : (ℕ → ℝ) → ℕ → ℝ}
    (hF : ∀ {G : Mach × ℝ → ℕ → ℝ} {g : ℕ → ℝ}, (∀ j < 2048, Near (fun p => G p j) (g j)) → ∀ n < 2048,
      Near (fun p : Mach × ℝ => FM p.1 (G p) n) (F g n)) :
    ∀ {osc : List (ℝ × ℝ × ℝ)} {acc : Mach × ℝ → ℕ → ℝ} {a s : ℕ → ℝ},
    (∀ j < 2048, Near (fun p => acc p j) (a j)) → gaussSum F osc = some s →
    NearG (fun p : Mach × ℝ => p.1.gaussSum (FM p.1) (acc p) osc) fun j => a j + s j := by
  intro osc
  induction osc with
  | nil =>
    intro acc a s ha hs
    obtain rfl : (fun _ => 0) = s := by simpa [gaussSum] using hs
    exact ⟨acc, fun j hj => (ha j hj).congr_val (by simp), Eventually.of_forall fun _ => rfl⟩
  | cons o osc ih =>
    intro acc a s ha hs
    simp only [gaussSum, Option.bind_eq_bind, Option.bind_eq_some_iff, Option.pure_def, Option.some.injEq] at hs
    obtain ⟨g, hg, r, hr, rfl⟩ := hs
    obtain ⟨G, nG, eG⟩ := near_gaussGrid hg
    obtain ⟨H, nH, eH⟩ := ih (fun j hj => (ha j hj).mradd (hF nG j hj)) hr
    refine ⟨H, fun j hj => (nH j hj).congr_val (by ring), ?_⟩
    filter_upwards [eG, eH] with p h1 h2
    simp only [Mach.gaussSum, h1, Option.bind_eq_bind, Option.bind_some, h2]

theorem near_gridInterp {Y : Mach × ℝ → ℕ → ℝ} {y : ℕ → ℝ} (hY : ∀ j < 2048, Near (fun p => Y p j) (y j))
    {W : Mach × ℝ → ℝ} {w : ℝ} (hW : Near W w) {v : ℝ} (h : gridInterp y w = some v) :
    NearS (fun p : Mach × ℝ => p.1.interp ((List.range gaussN).map fun j => (p.1.grid j, Y p j)) (W p)) v := by
  have hv : interp ((List.range gaussN).map fun j => (ePad j, y j)) w = .ok v := by
    unfold gridInterp at h
    cases hc : interp ((List.range gaussN).map fun j => (ePad j, y j)) w with
    | error e => rw [hc] at h; simp [Except.toOption] at h
    | ok x => rw [hc] at h; simpa [Except.toOption] using h
  have := near_interpG hW (tab := (List.range gaussN).attach.map fun j =>
    ⟨fun p => p.1.grid j.1, fun p => Y p j.1, ePad j.1, y j.1, near_grid (List.mem_range.1 j.2),
      hY _ (List.mem_range.1 j.2)⟩) (v := v) (by
      rw [List.pairwise_map]
      have := (List.pairwise_lt_range (n := gaussN))
      rw [← List.attach_map_subtype_val (List.range gaussN), List.pairwise_map] at this
      exact this.imp fun h => ePad_mono h) (by
      rw [List.map_map]
      simp only [Function.comp_def]
      rwa [List.attach_map_val (l := List.range gaussN) (f := fun j => (ePad j, y j))])
  refine this.imp fun G hG => ⟨hG.1, ?_⟩
  filter_upwards [hG.2] with p hp
  rw [← hp, List.map_map]
  simp only [Function.comp_def]
  rw [List.attach_map_val (l := List.range gaussN) (f := fun j => (p.1.grid j, Y p j))]

theorem near_gaussEps {E : Mach × ℝ → ℝ} {e : ℝ} (hE : Near E e) {osc : List (ℝ × ℝ × ℝ)} {einf : ℝ} {x : ℂ} (h : gaussEps osc einf e = some x) :
    NearS (fun p : Mach × ℝ => p.1.gaussEps osc einf (E p)) x := by
  simp only [gaussEps, Option.bind_eq_bind, Option.bind_eq_some_iff, Option.pure_def, Option.some.injEq] at h
  obtain ⟨e1, h1, e2, h2, a, ha, b, hb, rfl⟩ := h
  obtain ⟨G1, n1, m1⟩ := near_gaussSum (FM := fun M => M.hilbert) (fun hG n hn => near_hilbert hG hn)
    (acc := fun _ _ => 0) (a := fun _ => 0) (fun _ _ => near_const 0) h1
  obtain ⟨G2, n2, m2⟩ := near_gaussSum (FM := fun _ => id) (F := id) (fun hG n hn => hG n hn)
    (acc := fun _ _ => 0) (a := fun _ => 0) (fun _ _ => near_const 0) h2
  simp only [zero_add] at n1 n2
  obtain ⟨A, nA, eA⟩ := near_gridInterp (fun j hj => (n1 j hj).mradd (near_const einf)) hE ha
  obtain ⟨B, nB, eB⟩ := near_gridInterp n2 hE hb
  refine ⟨_, nA.mk nB, ?_⟩
  filter_upwards [m1, m2, eA, eB] with p q1 q2 q3 q4
  simp only [Mach.gaussEps, q1, q2, Option.bind_eq_bind, Option.bind_some, q3, q4, Option.pure_def]

end Verif.Disp
