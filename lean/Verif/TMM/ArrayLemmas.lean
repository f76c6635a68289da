import Verif.TMM.ArrayModel

/-!
# Lemmas about the array program
-/

namespace Verif.TMM.Arr
open Complex (I)

variable {α β γ : Type}

/-- The array has this shape and these entries. -/
def Full (x : A2 α) (r c : ℕ) (g : ℕ → ℕ → α) : Prop :=
  x.r = r ∧ x.c = c ∧ ∀ i < r, ∀ j < c, x.get i j = g i j

/-- The array broadcasts to this shape and these entries. -/
def Fits (x : A2 α) (r c : ℕ) (g : ℕ → ℕ → α) : Prop :=
  (x.r = r ∨ x.r = 1) ∧ (x.c = c ∨ x.c = 1) ∧ ∀ i < r, ∀ j < c, x.bget i j = g i j

theorem Full.fits {x : A2 α} {r c : ℕ} {g : ℕ → ℕ → α} (h : Full x r c g) : Fits x r c g := by
  obtain ⟨h1, h2, h3⟩ := h
  refine ⟨.inl h1, .inl h2, fun i hi j hj => ?_⟩
  rw [A2.bget, ← h3 i hi j hj]
  congr 1
  · split_ifs with h <;> omega
  · split_ifs with h <;> omega

theorem Full.congr {x : A2 α} {r c : ℕ} {g g' : ℕ → ℕ → α} (h : Full x r c g)
    (hg : ∀ i < r, ∀ j < c, g i j = g' i j) : Full x r c g' :=
  ⟨h.1, h.2.1, fun i hi j hj => (h.2.2 i hi j hj).trans (hg i hi j hj)⟩

theorem bdim_of {m n r : ℕ} (hm : m = r ∨ m = 1) (hn : n = r ∨ n = 1) (h : m = r ∨ n = r) :
    bdim m n = .ok r := by
  unfold bdim
  split_ifs with h1 h2 h3
  · congr 1; omega
  · congr 1; omega
  · congr 1; omega
  · omega

theorem bin_full (f : α → β → γ) {x : A2 α} {y : A2 β} {r c : ℕ} {g : ℕ → ℕ → α} {h : ℕ → ℕ → β}
    (hx : Fits x r c g) (hy : Fits y r c h) (hr : x.r = r ∨ y.r = r) (hc : x.c = c ∨ y.c = c) :
    ∃ a, bin f x y = .ok a ∧ Full a r c fun i j => f (g i j) (h i j) := by
  refine ⟨⟨r, c, fun i j => f (x.bget i j) (y.bget i j)⟩, ?_, rfl, rfl, fun i hi j hj => ?_⟩
  · simp only [bin, bdim_of hx.1 hy.1 hr, bdim_of hx.2.1 hy.2.1 hc]
    rfl
  · simp only [hx.2.2 i hi j hj, hy.2.2 i hi j hj]

theorem bin_full_full (f : α → β → γ) {x : A2 α} {y : A2 β} {r c : ℕ} {g : ℕ → ℕ → α} {h : ℕ → ℕ → β}
    (hx : Full x r c g) (hy : Full y r c h) :
    ∃ a, bin f x y = .ok a ∧ Full a r c fun i j => f (g i j) (h i j) :=
  bin_full f hx.fits hy.fits (.inl hx.1) (.inl hx.2.1)

theorem Full.map (f : α → β) {x : A2 α} {r c : ℕ} {g : ℕ → ℕ → α} (h : Full x r c g) :
    Full (x.map f) r c fun i j => f (g i j) :=
  ⟨h.1, h.2.1, fun i hi j hj => by simp only [A2.map, h.2.2 i hi j hj]⟩

theorem Full.slice {x : A2 α} {r c : ℕ} {g : ℕ → ℕ → α} (h : Full x r c g) (a b : ℕ) :
    Full (x.slice a b) (r - b - a) c fun i j => g (i + a) j :=
  ⟨by simp [A2.slice, h.1], h.2.1, fun i hi j hj => h.2.2 (i + a) (by omega) j hj⟩

theorem Full.row {x : A2 α} {r c : ℕ} {g : ℕ → ℕ → α} (h : Full x r c g) {i : ℕ} (hi : i < r) :
    ∃ a, x.row i = .ok a ∧ Full a 1 c fun _ j => g i j :=
  ⟨⟨1, x.c, fun _ j => x.get i j⟩, by rw [A2.row, if_pos (by rw [h.1]; exact hi)], rfl, h.2.1,
    fun _ _ j hj => h.2.2 i hi j hj⟩

theorem Full.col {x : A2 α} {c : ℕ} {g : ℕ → α} (h : Full x 1 c fun _ j => g j) :
    Full x.col c 1 fun i _ => g i :=
  ⟨h.2.1, rfl, fun i hi _ _ => h.2.2 0 one_pos i hi⟩

/-- A column broadcasts to any number of columns. -/
theorem Full.widen {x : A2 α} {r : ℕ} {g : ℕ → α} (h : Full x r 1 fun i _ => g i) (c : ℕ) :
    Fits x r c fun i _ => g i := by
  refine ⟨.inl h.1, .inr h.2.1, fun i hi j _ => ?_⟩
  rw [A2.bget, if_pos h.2.1, ← h.2.2 i hi 0 one_pos]
  congr 1
  have := h.1
  split_ifs <;> omega

/-- A row broadcasts to any number of rows. -/
theorem Full.deepen {x : A2 α} {c : ℕ} {g : ℕ → α} (h : Full x 1 c fun _ j => g j) (r : ℕ) :
    Fits x r c fun _ j => g j := by
  refine ⟨.inr h.1, .inl h.2.1, fun i _ j hj => ?_⟩
  rw [A2.bget, if_pos h.1, ← h.2.2 0 one_pos j hj]
  congr 1
  have := h.2.1
  split_ifs <;> omega

theorem scalar_fits (a : α) (r c : ℕ) : Fits (scalar a) r c fun _ _ => a :=
  ⟨.inr rfl, .inr rfl, fun _ _ _ _ => rfl⟩

/-! ### Interfaces -/

/-- The two numbers of a layer, if both are finite. -/
def pair (n th : Num) : Option (ℂ × ℂ) := do return (← n, ← th)

/-- The coefficient of an interface at one point. -/
def coef (f : ℂ → ℂ → ℂ → ℂ → Option ℂ) (a b : Option (ℂ × ℂ)) : Num := do
  let (ni, thi) ← a
  let (nf, thf) ← b
  f ni nf thi thf

theorem interfaceR_full (pol : Pol) {ni nf thi thf : A2 Num} {r c : ℕ} {a b : ℕ → Num}
    {u v : ℕ → ℕ → Num} (h1 : Full ni r 1 fun i _ => a i) (h2 : Full nf r 1 fun i _ => b i)
    (h3 : Full thi r c u) (h4 : Full thf r c v) :
    ∃ x, interfaceR pol ni nf thi thf = .ok x ∧
      Full x r c fun i j => coef (TMM.interfaceR pol) (pair (a i) (u i j)) (pair (b i) (v i j)) := by
  obtain ⟨p1, e1, q1⟩ := bin_full mul (h1.widen c) (h3.map (Option.map Complex.cos)).fits (.inl h1.1)
    (.inr h3.2.1)
  obtain ⟨p2, e2, q2⟩ := bin_full mul (h2.widen c) (h4.map (Option.map Complex.cos)).fits (.inl h2.1)
    (.inr h4.2.1)
  obtain ⟨p3, e3, q3⟩ := bin_full mul (h2.widen c) (h3.map (Option.map Complex.cos)).fits (.inl h2.1)
    (.inr h3.2.1)
  obtain ⟨p4, e4, q4⟩ := bin_full mul (h1.widen c) (h4.map (Option.map Complex.cos)).fits (.inl h1.1)
    (.inr h4.2.1)
  cases pol
  · obtain ⟨s1, f1, g1⟩ := bin_full_full sub q1 q2
    obtain ⟨s2, f2, g2⟩ := bin_full_full add q1 q2
    obtain ⟨x, f3, g3⟩ := bin_full_full div g1 g2
    refine ⟨x, ?_, g3.congr fun i _ j _ => ?_⟩
    · simp only [interfaceR, interfaceRs, e1, e2]
      show (do bin div (← bin sub p1 p2) (← bin add p1 p2)) = _
      rw [f1, f2]
      exact f3
    · rcases a i with - | x1 <;> rcases u i j with - | x2 <;> rcases b i with - | x3 <;>
        rcases v i j with - | x4 <;> rfl
  · obtain ⟨s1, f1, g1⟩ := bin_full_full sub q3 q4
    obtain ⟨s2, f2, g2⟩ := bin_full_full add q3 q4
    obtain ⟨x, f3, g3⟩ := bin_full_full div g1 g2
    refine ⟨x, ?_, g3.congr fun i _ j _ => ?_⟩
    · simp only [interfaceR, interfaceRp, e3, e4]
      show (do bin div (← bin sub p3 p4) (← bin add p3 p4)) = _
      rw [f1, f2]
      exact f3
    · rcases a i with - | x1 <;> rcases u i j with - | x2 <;> rcases b i with - | x3 <;>
        rcases v i j with - | x4 <;> rfl

theorem interfaceT_full (pol : Pol) {ni nf thi thf : A2 Num} {r c : ℕ} {a b : ℕ → Num}
    {u v : ℕ → ℕ → Num} (h1 : Full ni r 1 fun i _ => a i) (h2 : Full nf r 1 fun i _ => b i)
    (h3 : Full thi r c u) (h4 : Full thf r c v) :
    ∃ x, interfaceT pol ni nf thi thf = .ok x ∧
      Full x r c fun i j => coef (TMM.interfaceT pol) (pair (a i) (u i j)) (pair (b i) (v i j)) := by
  have h1' : Full (ni.map (mul (some 2))) r 1 fun i _ => mul (some 2) (a i) := h1.map _
  obtain ⟨p0, e0, q0⟩ := bin_full mul (h1'.widen c) (h3.map (Option.map Complex.cos)).fits (.inl h1'.1)
    (.inr h3.2.1)
  obtain ⟨p1, e1, q1⟩ := bin_full mul (h1.widen c) (h3.map (Option.map Complex.cos)).fits (.inl h1.1)
    (.inr h3.2.1)
  obtain ⟨p2, e2, q2⟩ := bin_full mul (h2.widen c) (h4.map (Option.map Complex.cos)).fits (.inl h2.1)
    (.inr h4.2.1)
  obtain ⟨p3, e3, q3⟩ := bin_full mul (h2.widen c) (h3.map (Option.map Complex.cos)).fits (.inl h2.1)
    (.inr h3.2.1)
  obtain ⟨p4, e4, q4⟩ := bin_full mul (h1.widen c) (h4.map (Option.map Complex.cos)).fits (.inl h1.1)
    (.inr h4.2.1)
  cases pol
  · obtain ⟨s2, f2, g2⟩ := bin_full_full add q1 q2
    obtain ⟨x, f3, g3⟩ := bin_full_full div q0 g2
    refine ⟨x, ?_, g3.congr fun i _ j _ => ?_⟩
    · simp only [interfaceT, interfaceTs, e0, e1, e2]
      show (do bin div p0 (← bin add p1 p2)) = _
      rw [f2]
      exact f3
    · rcases a i with - | x1 <;> rcases u i j with - | x2 <;> rcases b i with - | x3 <;>
        rcases v i j with - | x4 <;> rfl
  · obtain ⟨s2, f2, g2⟩ := bin_full_full add q3 q4
    obtain ⟨x, f3, g3⟩ := bin_full_full div q0 g2
    refine ⟨x, ?_, g3.congr fun i _ j _ => ?_⟩
    · simp only [interfaceT, interfaceTp, e0, e3, e4]
      show (do bin div p0 (← bin add p3 p4)) = _
      rw [f2]
      exact f3
    · rcases a i with - | x1 <;> rcases u i j with - | x2 <;> rcases b i with - | x3 <;>
        rcases v i j with - | x4 <;> rfl

/-- The two coefficients of an interface are finite together. -/
theorem coef_none_iff (pol : Pol) (a b : Option (ℂ × ℂ)) :
    coef (TMM.interfaceR pol) a b = none ↔ coef (TMM.interfaceT pol) a b = none := by
  rcases a with - | ⟨n, t⟩
  · exact Iff.rfl
  rcases b with - | ⟨n', t'⟩
  · exact Iff.rfl
  cases pol <;>
    simp [coef, TMM.interfaceR, TMM.interfaceT, TMM.interfaceRs, TMM.interfaceRp, TMM.interfaceTs,
      TMM.interfaceTp, cdiv]

/-! ### Matrices -/

/-- Four arrays hold the entries of matrices that may not be finite. -/
def Holds (M : Mats) (r c : ℕ) (g : ℕ → ℕ → Option Mat) : Prop :=
  Full M.m00 r c (fun i j => (g i j).map Mat.a) ∧ Full M.m01 r c (fun i j => (g i j).map Mat.b) ∧
    Full M.m10 r c (fun i j => (g i j).map Mat.c) ∧ Full M.m11 r c fun i j => (g i j).map Mat.d

/-- The characteristic matrix of one layer at one point. -/
noncomputable def charMat (δ r t : Num) : Option Mat := do layerMat (← δ) (← r) (← t)

theorem charMats_full {delta r t : A2 Num} {m c : ℕ} {Δ R T : ℕ → ℕ → Num}
    (hd : Full delta m c Δ) (hr : Full r (m + 1) c R) (ht : Full t (m + 1) c T)
    (hrt : ∀ i < m + 1, ∀ j < c, R i j = none ↔ T i j = none) :
    ∃ L, charMats delta r t = .ok L ∧ Holds L m c fun i j => charMat (Δ i j) (R (i + 1) j) (T (i + 1) j) := by
  have hb := hd.map (Option.map fun δ => Complex.exp (I * δ))
  have hbi := hb.map (div (some 1))
  have hr1 : Full (r.slice 1 0) m c fun i j => R (i + 1) j := by simpa using hr.slice 1 0
  have ht1 : Full (t.slice 1 0) m c fun i j => T (i + 1) j := by simpa using ht.slice 1 0
  obtain ⟨m00, e1, q1⟩ := bin_full_full div hbi ht1
  obtain ⟨x1, f1, g1⟩ := bin_full_full mul hr1 hbi
  obtain ⟨m01, e2, q2⟩ := bin_full_full div g1 ht1
  obtain ⟨x2, f2, g2⟩ := bin_full_full mul hr1 hb
  obtain ⟨m10, e3, q3⟩ := bin_full_full div g2 ht1
  obtain ⟨m11, e4, q4⟩ := bin_full_full div hb ht1
  refine ⟨⟨m00, m01, m10, m11⟩, ?_, ?_⟩
  · simp only [charMats, e1, f1, f2]
    show (do
      let m01 ← bin div x1 (t.slice 1 0)
      let m10 ← bin div x2 (t.slice 1 0)
      let m11 ← bin div _ (t.slice 1 0)
      return Mats.mk m00 m01 m10 m11) = _
    rw [e2, e3, e4]
    rfl
  · have key : ∀ i < m, ∀ j < c, Δ i j = none ∨ (∃ δ, Δ i j = some δ ∧
        ((R (i + 1) j = none ∧ T (i + 1) j = none) ∨
          ∃ a b, R (i + 1) j = some a ∧ T (i + 1) j = some b)) := by
      intro i hi j hj
      rcases h : Δ i j with - | δ
      · exact .inl rfl
      · refine .inr ⟨δ, rfl, ?_⟩
        have := hrt (i + 1) (by omega) j hj
        rcases h1 : R (i + 1) j with - | a
        · exact .inl ⟨rfl, this.mp h1⟩
        · rcases h2 : T (i + 1) j with - | b
          · rw [this.mpr h2] at h1
            cases h1
          · exact .inr ⟨a, b, rfl, rfl⟩
    have he : ∀ δ : ℂ, Complex.exp (I * δ) ≠ 0 := fun δ => Complex.exp_ne_zero _
    refine ⟨q1.congr ?_, q2.congr ?_, q3.congr ?_, q4.congr ?_⟩ <;>
    · intro i hi j hj
      rcases key i hi j hj with h | ⟨δ, h, ⟨h1, h2⟩ | ⟨a, b, h1, h2⟩⟩
      · simp [charMat, h, div, mul]
      · simp [charMat, h, h1, h2, div, mul]
      · by_cases hb : b = 0 <;>
          simp [charMat, h, h1, h2, div, mul, layerMat, cdiv, hb, he]

theorem loopStep_full {L M : Mats} {m c i : ℕ} {g : ℕ → ℕ → Option Mat} {o : ℕ → Option Mat}
    (hL : Holds L m c g) (hM : Holds M 1 c fun _ j => o j) (hi : i < m) :
    ∃ M', loopStep L M i = .ok M' ∧
      Holds M' 1 c fun _ j => do return step (← o j) (← g i j) := by
  obtain ⟨a1, a2, a3, a4⟩ := hL
  obtain ⟨b1, b2, b3, b4⟩ := hM
  obtain ⟨r1, e1, c1⟩ := a1.row hi
  obtain ⟨r2, e2, c2⟩ := a2.row hi
  obtain ⟨r3, e3, c3⟩ := a3.row hi
  obtain ⟨r4, e4, c4⟩ := a4.row hi
  obtain ⟨x1, f1, g1⟩ := bin_full_full mul b1 c1
  obtain ⟨x2, f2, g2⟩ := bin_full_full mul b2 c3
  obtain ⟨x3, f3, g3⟩ := bin_full_full mul b1 c2
  obtain ⟨x4, f4, g4⟩ := bin_full_full mul b2 c4
  obtain ⟨x5, f5, g5⟩ := bin_full_full mul b3 c1
  obtain ⟨x6, f6, g6⟩ := bin_full_full mul b4 c3
  obtain ⟨x7, f7, g7⟩ := bin_full_full mul b3 c2
  obtain ⟨x8, f8, g8⟩ := bin_full_full mul b4 c4
  obtain ⟨y1, k1, l1⟩ := bin_full_full add g1 g2
  obtain ⟨y2, k2, l2⟩ := bin_full_full add g3 g4
  obtain ⟨y3, k3, l3⟩ := bin_full_full add g5 g6
  obtain ⟨y4, k4, l4⟩ := bin_full_full add g7 g8
  refine ⟨⟨y1, y2, y3, y4⟩, ?_, ?_⟩
  · simp only [loopStep, e1, e2, e3, e4]
    show (do
      let p00 ← bin add (← bin mul M.m00 r1) (← bin mul M.m01 r3)
      let p01 ← bin add (← bin mul M.m00 r2) (← bin mul M.m01 r4)
      let p10 ← bin add (← bin mul M.m10 r1) (← bin mul M.m11 r3)
      let p11 ← bin add (← bin mul M.m10 r2) (← bin mul M.m11 r4)
      return Mats.mk p00 p01 p10 p11) = _
    rw [f1, f2, f3, f4, f5, f6, f7, f8]
    show (do
      let p00 ← bin add x1 x2
      let p01 ← bin add x3 x4
      let p10 ← bin add x5 x6
      let p11 ← bin add x7 x8
      return Mats.mk p00 p01 p10 p11) = _
    rw [k1, k2, k3, k4]
    rfl
  · refine ⟨l1.congr ?_, l2.congr ?_, l3.congr ?_, l4.congr ?_⟩ <;>
    · intro k _ j _
      beta_reduce
      rcases o j with - | m <;> rcases g i j with - | m' <;> rfl

theorem loop_full {L : Mats} {m c : ℕ} {g : ℕ → ℕ → Option Mat} (hL : Holds L m c g) (l : List ℕ)
    (hl : ∀ i ∈ l, i < m) {M : Mats} {o : ℕ → Option Mat} (hM : Holds M 1 c fun _ j => o j) :
    ∃ M', l.foldlM (loopStep L) M = .ok M' ∧
      Holds M' 1 c fun _ j => l.foldl (fun a i => do return step (← a) (← g i j)) (o j) := by
  induction l generalizing M o with
  | nil => exact ⟨M, rfl, hM⟩
  | cons i l ih =>
    obtain ⟨M1, e1, h1⟩ := loopStep_full hL hM (hl i (by simp))
    obtain ⟨M2, e2, h2⟩ := ih (fun k hk => hl k (by simp [hk])) h1
    refine ⟨M2, ?_, h2⟩
    rw [List.foldlM_cons, e1]
    exact e2

theorem foldl_none {f : ℕ → Option Mat} (l : List ℕ) :
    l.foldl (fun a i => do return step (← a) (← f i)) (none : Option Mat) = none := by
  induction l with
  | nil => rfl
  | cons i l ih => exact ih

theorem foldl_opt (f : ℕ → Option Mat) (l : List ℕ) (m : Mat) :
    l.foldl (fun a i => do return step (← a) (← f i)) (some m) =
      do return ((← (l.map f).mapM id).foldl step m) := by
  induction l generalizing m with
  | nil => rfl
  | cons i l ih =>
    rw [List.foldl_cons, List.map_cons, List.mapM_cons]
    rcases h : f i with - | k
    · exact foldl_none l
    · refine (ih (step m k)).trans ?_
      rcases h2 : (l.map f).mapM id with - | ms <;> rfl

/-! ### One polarisation -/

theorem polRun_full (pol : Pol) {nl th : A2 Num} {m c : ℕ} {n : ℕ → Num} {TH Δ : ℕ → ℕ → Num}
    {delta : Option (A2 Num)} (hn : Full nl 1 (m + 2) fun _ i => n i) (ht : Full th (m + 2) c TH)
    (hd : ∀ x, delta = some x → Full x m c Δ) (hd' : delta = none → m = 0)
    (ths : ℕ → List (Option (ℂ × ℂ))) (δs : ℕ → List Num)
    (hths : ∀ j < c, ths j = (List.range (m + 2)).map fun i => pair (n i) (TH i j))
    (hδs : ∀ j < c, δs j = (List.range m).map fun i => Δ i j) :
    ∃ r t, polRun pol (m + 2) nl th delta = .ok (r, t) ∧
      Full r 1 c (fun _ j => (polResult pol (ths j) (δs j)).map Prod.fst) ∧
      Full t 1 c fun _ j => (polResult pol (ths j) (δs j)).map Prod.snd := by
  have n1 : Full (nl.col.slice 0 1) (m + 1) 1 fun i _ => n i := by simpa using hn.col.slice 0 1
  have n2 : Full (nl.col.slice 1 0) (m + 1) 1 fun i _ => n (i + 1) := by simpa using hn.col.slice 1 0
  have t1 : Full (th.slice 0 1) (m + 1) c TH := by simpa using ht.slice 0 1
  have t2 : Full (th.slice 1 0) (m + 1) c fun i j => TH (i + 1) j := by simpa using ht.slice 1 0
  obtain ⟨r, er, fr⟩ := interfaceR_full pol n1 n2 t1 t2
  obtain ⟨t, et, ft⟩ := interfaceT_full pol n1 n2 t1 t2
  set R : ℕ → ℕ → Num := fun i j =>
    coef (TMM.interfaceR pol) (pair (n i) (TH i j)) (pair (n (i + 1)) (TH (i + 1) j)) with hR
  set T : ℕ → ℕ → Num := fun i j =>
    coef (TMM.interfaceT pol) (pair (n i) (TH i j)) (pair (n (i + 1)) (TH (i + 1) j)) with hT
  obtain ⟨t0, et0, ft0⟩ := ft.row (i := 0) (by omega)
  obtain ⟨r0, er0, fr0⟩ := fr.row (i := 0) (by omega)
  obtain ⟨m00, e00, f00⟩ := bin_full div (scalar_fits (some (1 : ℂ)) 1 c) ft0.fits (.inr ft0.1) (.inr ft0.2.1)
  obtain ⟨m01, e01, f01⟩ := bin_full_full div fr0 ft0
  set o : ℕ → Option Mat := fun j => do initMat (← R 0 j) (← T 0 j) with ho
  have hM0 : Holds ⟨m00, m01, m01, m00⟩ 1 c fun _ j => o j := by
    have hrt : ∀ j, R 0 j = none ↔ T 0 j = none := fun j => coef_none_iff pol _ _
    have key : ∀ j, (R 0 j = none ∧ T 0 j = none) ∨ ∃ a b, R 0 j = some a ∧ T 0 j = some b := by
      intro j
      rcases h1 : R 0 j with - | a
      · exact .inl ⟨rfl, (hrt j).mp h1⟩
      · rcases h2 : T 0 j with - | b
        · rw [(hrt j).mpr h2] at h1
          cases h1
        · exact .inr ⟨a, b, rfl, rfl⟩
    refine ⟨f00.congr ?_, f01.congr ?_, f01.congr ?_, f00.congr ?_⟩ <;>
    · intro i _ j _
      beta_reduce
      rcases key j with ⟨h1, h2⟩ | ⟨a, b, h1, h2⟩
      · simp [ho, h1, h2, div]
      · by_cases hb : b = 0 <;> simp [ho, h1, h2, div, initMat, cdiv, hb]
  have hfold : ∃ M', (match (match delta with
        | some delta => (charMats delta r t).map some
        | none => .ok none : Except PyErr (Option Mats)) with
      | .ok (some L) => (List.range m).foldlM (loopStep L) ⟨m00, m01, m01, m00⟩
      | .ok none => .ok ⟨m00, m01, m01, m00⟩
      | .error e => .error e) = .ok M' ∧
      Holds M' 1 c fun _ j => (List.range m).foldl (fun a i => do
        return step (← a) (← charMat (Δ i j) (R (i + 1) j) (T (i + 1) j))) (o j) := by
    rcases delta with - | delta
    · have hm := hd' rfl
      subst hm
      exact ⟨_, rfl, hM0⟩
    · obtain ⟨L, eL, hL⟩ := charMats_full (hd delta rfl) fr ft
        (fun i _ j _ => coef_none_iff pol _ _)
      obtain ⟨M', e1, h1⟩ := loop_full hL (List.range m) (fun i hi => List.mem_range.mp hi) hM0
      refine ⟨M', ?_, h1⟩
      simp only [eL]
      exact e1
  obtain ⟨M', eM, hM⟩ := hfold
  obtain ⟨rr, err, frr⟩ := bin_full_full div hM.2.2.1 hM.1
  obtain ⟨tt, ett, ftt⟩ := bin_full div (scalar_fits (some (1 : ℂ)) 1 c) hM.1.fits (.inr hM.1.1)
    (.inr hM.1.2.1)
  have hpol : ∀ j < c, polResult pol (ths j) (δs j) = do
      let M ← (List.range m).foldl (fun a i => do
        return step (← a) (← charMat (Δ i j) (R (i + 1) j) (T (i + 1) j))) (o j)
      return (← cdiv M.c M.a, ← cdiv 1 M.a) := by
    intro j hj
    have hco : ∀ f, coefList f (ths j) = (List.range (m + 1)).map fun i =>
        coef f (pair (n i) (TH i j)) (pair (n (i + 1)) (TH (i + 1) j)) := by
      intro f
      rw [coefList, pairs, hths j hj]
      apply List.ext_getElem
      · simp
      · intro i h1 h2
        simp [coef]
    have hmat : matList (δs j) (coefList (TMM.interfaceR pol) (ths j)) (coefList (TMM.interfaceT pol) (ths j)) =
        (List.range m).map fun i => charMat (Δ i j) (R (i + 1) j) (T (i + 1) j) := by
      rw [hco, hco, matList, hδs j hj]
      apply List.ext_getElem
      · simp
      · intro i h1 h2
        simp [charMat, hR, hT]
    have hh : ∀ f, (coefList f (ths j)).head?.join =
        coef f (pair (n 0) (TH 0 j)) (pair (n 1) (TH 1 j)) := by
      intro f
      rw [hco, List.range_succ_eq_map]
      simp
    simp only [polResult, hmat, hh]
    change (do
      let r0 ← R 0 j
      let t0 ← T 0 j
      let m0 ← initMat r0 t0
      let ms ← ((List.range m).map fun i => charMat (Δ i j) (R (i + 1) j) (T (i + 1) j)).mapM id
      let r ← cdiv (ms.foldl step m0).c (ms.foldl step m0).a
      let t ← cdiv 1 (ms.foldl step m0).a
      some (r, t)) = _
    simp only [ho]
    rcases R 0 j with - | a
    · exact ((congrArg (fun x => x >>= _) (foldl_none _))).symm
    rcases T 0 j with - | b
    · exact ((congrArg (fun x => x >>= _) (foldl_none _))).symm
    rcases h : initMat a b with - | m0
    · simp only [Option.bind_eq_bind, Option.bind_some, h, Option.bind_none]
      have := foldl_none (f := fun i => charMat (Δ i j) (R (i + 1) j) (T (i + 1) j)) (List.range m)
      simp only [Option.bind_eq_bind] at this
      rw [this]
      rfl
    · simp only [Option.bind_eq_bind, Option.bind_some, h]
      have := foldl_opt (fun i => charMat (Δ i j) (R (i + 1) j) (T (i + 1) j)) (List.range m) m0
      simp only [Option.bind_eq_bind] at this
      rw [this]
      rcases ((List.range m).map fun i => charMat (Δ i j) (R (i + 1) j) (T (i + 1) j)).mapM id with - | ms
      · rfl
      · rfl
  refine ⟨rr, tt, ?_, frr.congr ?_, ftt.congr ?_⟩
  · simp only [polRun, er, et]
    show (do
      let L ← match delta with
        | some delta => (charMats delta r t).map some
        | none => .ok none
      let m00 ← bin div (scalar (some 1)) (← t.row 0)
      let m01 ← bin div (← r.row 0) (← t.row 0)
      let M ← match L with
        | some L => (List.range (m + 2 - 2)).foldlM (loopStep L) ⟨m00, m01, m01, m00⟩
        | none => .ok ⟨m00, m01, m01, m00⟩
      let rr ← bin div M.m10 M.m00
      let tt ← bin div (scalar (some 1)) M.m00
      return (rr, tt) : Except PyErr (A2 Num × A2 Num)) = _
    rcases delta with - | delta
    · have hm := hd' rfl
      subst hm
      cases eM
      simp only [et0, er0]
      show (do
        let m00 ← bin div (scalar (some 1)) t0
        let m01 ← bin div r0 t0
        let rr ← bin div m01 m00
        let tt ← bin div (scalar (some 1)) m00
        return (rr, tt) : Except PyErr (A2 Num × A2 Num)) = _
      rw [e00, e01]
      show (do
        let rr ← bin div m01 m00
        let tt ← bin div (scalar (some 1)) m00
        return (rr, tt) : Except PyErr (A2 Num × A2 Num)) = _
      rw [err, ett]
      rfl
    · obtain ⟨L, eL, -⟩ := charMats_full (hd delta rfl) fr ft (fun i _ j _ => coef_none_iff pol _ _)
      simp only [eL] at eM ⊢
      simp only [et0, er0]
      change (List.range m).foldlM (loopStep L) ⟨m00, m01, m01, m00⟩ = _ at eM
      show (do
        let m00 ← bin div (scalar (some 1)) t0
        let m01 ← bin div r0 t0
        let M ← (List.range m).foldlM (loopStep L) ⟨m00, m01, m01, m00⟩
        let rr ← bin div M.m10 M.m00
        let tt ← bin div (scalar (some 1)) M.m00
        return (rr, tt) : Except PyErr (A2 Num × A2 Num)) = _
      rw [e00, e01]
      show (do
        let M ← (List.range m).foldlM (loopStep L) ⟨m00, m01, m01, m00⟩
        let rr ← bin div M.m10 M.m00
        let tt ← bin div (scalar (some 1)) M.m00
        return (rr, tt) : Except PyErr (A2 Num × A2 Num)) = _
      rw [eM]
      show (do
        let rr ← bin div M'.m10 M'.m00
        let tt ← bin div (scalar (some 1)) M'.m00
        return (rr, tt) : Except PyErr (A2 Num × A2 Num)) = _
      rw [err, ett]
      rfl
  all_goals
    intro i _ j hj
    beta_reduce
    rw [hpol j hj]
    generalize (List.range m).foldl (fun a i => do
        return step (← a) (← charMat (Δ i j) (R (i + 1) j) (T (i + 1) j))) (o j) = x
    rcases x with - | M
    · rfl
    · by_cases h0 : M.a = 0 <;> simp [div, cdiv, h0]

end Verif.TMM.Arr
