import Verif.Parse.SpecEP4

/-!
# Lemmas on the EP4 reader
-/

namespace Verif.Parse

theorem close_iff (f r : EpRow) : SamePlace f r ↔ close f.x r.x ∧ close f.y r.y := by
  unfold SamePlace close
  norm_num

theorem locSlice_mid (pre cur rest : List EpRow) (h : Labelled (pre ++ cur ++ rest)) :
    locSlice (pre ++ cur ++ rest) pre.length (pre.length + cur.length) = cur := by
  have hpre : ∀ r ∈ pre, r.label < pre.length := by
    intro r hr
    obtain ⟨i, hi, rfl⟩ := List.mem_iff_getElem.1 hr
    have := h i pre[i] (by rw [List.append_assoc, List.getElem?_append_left hi]; simp [hi])
    omega
  have hcur : ∀ r ∈ cur, pre.length ≤ r.label ∧ r.label < pre.length + cur.length := by
    intro r hr
    obtain ⟨i, hi, rfl⟩ := List.mem_iff_getElem.1 hr
    have := h (pre.length + i) cur[i] (by
      rw [List.append_assoc, List.getElem?_append_right (by omega), List.getElem?_append_left (by omega)]
      simp [hi])
    omega
  have hrest : ∀ r ∈ rest, pre.length + cur.length ≤ r.label := by
    intro r hr
    obtain ⟨i, hi, rfl⟩ := List.mem_iff_getElem.1 hr
    have := h (pre.length + cur.length + i) rest[i] (by
      rw [List.getElem?_append_right (by simp)]
      simp [hi])
    omega
  unfold locSlice
  rw [List.filter_append, List.filter_append]
  rw [List.filter_eq_nil_iff.2, List.filter_eq_self.2, List.filter_eq_nil_iff.2]
  · simp
  · intro r hr; have := hrest r hr; simp; omega
  · intro r hr; have := hcur r hr; simp; omega
  · intro r hr; have := hpre r hr; simp; omega

theorem slices_areas (rest : List EpRow) : ∀ (pre : List EpRow) (f : EpRow) (cur : List EpRow),
    Labelled (pre ++ (f :: cur) ++ rest) → (∀ r ∈ cur, SamePlace f r) →
    ∃ parts, slices (pre ++ (f :: cur) ++ rest)
        (pre.length :: (areaStarts (some (f.x, f.y)) rest ++ [(pre ++ (f :: cur) ++ rest).length])) = parts ∧
      parts.flatten = (f :: cur) ++ rest ∧ (∀ a ∈ parts, Area a) ∧ parts.IsChain Moved ∧
      ∃ a ∈ parts.head?, a.head? = some f := by
  classical
  induction rest with
  | nil =>
    intro pre f cur hl hc
    refine ⟨[f :: cur], ?_, by simp, by simpa [Area] using hc, by simp, by simp⟩
    have := locSlice_mid pre (f :: cur) [] hl
    simp only [areaStarts, List.nil_append, slices]
    have e : (pre ++ f :: cur ++ []).length = pre.length + (f :: cur).length := by simp
    rw [e, this]
  | cons r rest ih =>
    intro pre f cur hl hc
    by_cases hm : ¬ close f.x r.x ∨ ¬ close f.y r.y
    · have hlab : r.label = pre.length + (f :: cur).length := by
        refine hl _ r ?_
        rw [List.getElem?_append_right (by simp)]
        simp
      have e : pre ++ f :: cur ++ r :: rest = (pre ++ f :: cur) ++ [r] ++ rest := by simp
      obtain ⟨parts, h1, h2, h3, h4, a, ha, haf⟩ := ih (pre ++ f :: cur) r [] (by rw [← e]; exact hl)
        (by simp)
      refine ⟨(f :: cur) :: parts, ?_, ?_, ?_, ?_, ?_⟩
      · have hs := locSlice_mid pre (f :: cur) (r :: rest) hl
        simp only [areaStarts, if_pos hm, List.cons_append, slices]
        rw [hlab, hs]
        congr 1
        rw [← h1]
        simp
      · rw [List.flatten_cons, h2]; simp
      · intro b hb
        rcases List.mem_cons.1 hb with rfl | hb
        · exact hc
        · exact h3 b hb
      · cases parts with
        | nil => simp at ha
        | cons b parts =>
          simp only [List.head?_cons, Option.mem_def, Option.some.injEq] at ha
          subst ha
          refine List.IsChain.cons_cons ?_ h4
          refine ⟨f, by simp, r, by simp [haf], ?_⟩
          rw [close_iff]
          tauto
      · simp
    · have hcl : SamePlace f r := by rw [close_iff]; tauto
      have e : pre ++ f :: cur ++ r :: rest = pre ++ f :: (cur ++ [r]) ++ rest := by simp
      obtain ⟨parts, h1, h2, h3, h4, h5⟩ := ih pre f (cur ++ [r]) (by rw [← e]; exact hl) (by
        intro q hq
        rcases List.mem_append.1 hq with hq | hq
        · exact hc q hq
        · obtain rfl := List.mem_singleton.1 hq; exact hcl)
      refine ⟨parts, ?_, by rw [h2]; simp, h3, h4, h5⟩
      simp only [areaStarts, if_neg hm]
      rw [← h1, e]

theorem areas_spec (rows : List EpRow) (hl : Labelled rows) : Areas rows (areas rows) := by
  cases rows with
  | nil =>
    have : areas [] = [] := by simp [areas, areaStarts, slices]
    rw [this]
    exact ⟨rfl, by simp, by simp⟩
  | cons f rest =>
    have hlab : f.label = 0 := hl 0 f rfl
    obtain ⟨parts, h1, h2, h3, h4, _⟩ := slices_areas rest [] f [] hl (by simp)
    have : areas (f :: rest) = parts := by
      have e : slices (f :: rest) (areaStarts none (f :: rest) ++ [(f :: rest).length]) = parts := by
        rw [← h1]; simp [areaStarts, hlab]
      unfold areas
      rw [e, List.filter_eq_self]
      intro a ha
      have := h3 a ha
      cases a
      · exact this.elim
      · rfl
    rw [this]
    exact ⟨h2, h3, h4⟩

theorem mem_groupKeys (rows : List EpRow) (k : ℝ × ℝ) :
    k ∈ groupKeys rows ↔ ∃ r ∈ rows, r.aoi = k.1 ∧ r.lam = k.2 := by
  unfold groupKeys
  simp [List.mem_dedup, Prod.ext_iff]

theorem groupKeys_sorted (rows : List EpRow) :
    ((groupKeys rows).map toLex).Pairwise (· < ·) := by
  classical
  have h1 : ((groupKeys rows).map toLex).Pairwise (· ≤ ·) := by
    rw [List.pairwise_map]
    have := List.pairwise_mergeSort (le := fun a b : ℝ × ℝ => decide (toLex a ≤ toLex b))
      (fun a b c => by simpa using le_trans) (fun a b => by simpa using le_total _ _)
      (rows.map fun r => (r.aoi, r.lam)).dedup
    unfold groupKeys
    convert this using 2 with a b
    · simp
  have h2 : ((groupKeys rows).map toLex).Nodup := by
    refine List.Nodup.map toLex.injective ?_
    unfold groupKeys
    rw [(List.mergeSort_perm _ _).nodup_iff]
    exact List.nodup_dedup _
  exact (List.pairwise_and_iff.2 ⟨h1, h2⟩).imp fun h => lt_of_le_of_ne h.1 h.2

theorem groupOf_eq (rows : List EpRow) (p : Pt) : groupOf rows (p.2.1, p.1) = repeats rows p := by
  classical
  unfold groupOf repeats
  congr 1
  funext r
  simp [Prod.ext_iff]

theorem mean_mul (l : List ℝ) (h : l ≠ []) : mean l * l.length = l.sum := by
  unfold mean
  have : (l.length : ℝ) ≠ 0 := by
    have := List.length_pos_iff.2 h
    positivity
  field_simp

theorem groupMean_averages (rows : List EpRow) : Averages rows ((groupMean rows).map Avg.pt) := by
  have hmem : ∀ p ∈ (groupMean rows).map Avg.pt, ∃ k ∈ groupKeys rows,
      p = (k.2, k.1, mean ((groupOf rows k).map (·.psi)), mean ((groupOf rows k).map (·.dlt))) := by
    intro p hp
    simp only [groupMean, List.map_map, List.mem_map, Function.comp] at hp
    obtain ⟨k, hk, rfl⟩ := hp
    exact ⟨k, hk, rfl⟩
  have hne : ∀ k ∈ groupKeys rows, groupOf rows k ≠ [] := by
    intro k hk
    obtain ⟨r, hr, h1, h2⟩ := (mem_groupKeys rows k).1 hk
    refine List.ne_nil_of_mem (a := r) ?_
    simp [groupOf, hr, h1, h2, Prod.ext_iff]
  refine ⟨?_, ?_, ?_, ?_⟩
  · have := groupKeys_sorted rows
    convert this using 1
    simp [groupMean, key, Function.comp_def]
  · intro a l
    constructor
    · rintro ⟨p, hp, rfl, rfl⟩
      obtain ⟨k, hk, rfl⟩ := hmem p hp
      exact (mem_groupKeys rows k).1 hk
    · rintro ⟨r, hr, rfl, rfl⟩
      refine ⟨(r.lam, r.aoi, mean ((groupOf rows (r.aoi, r.lam)).map (·.psi)),
        mean ((groupOf rows (r.aoi, r.lam)).map (·.dlt))), ?_, rfl, rfl⟩
      simp only [groupMean, List.map_map, List.mem_map, Function.comp]
      exact ⟨(r.aoi, r.lam), (mem_groupKeys rows _).2 ⟨r, hr, rfl, rfl⟩, rfl⟩
  · intro p hp
    obtain ⟨k, hk, rfl⟩ := hmem p hp
    have e := groupOf_eq rows (k.2, k.1, mean ((groupOf rows k).map (·.psi)), mean ((groupOf rows k).map (·.dlt)))
    simp only [Prod.mk.eta] at e
    rw [← e]
    have := mean_mul ((groupOf rows k).map (·.psi)) (by simpa using hne k hk)
    simpa using this
  · intro p hp
    obtain ⟨k, hk, rfl⟩ := hmem p hp
    have e := groupOf_eq rows (k.2, k.1, mean ((groupOf rows k).map (·.psi)), mean ((groupOf rows k).map (·.dlt)))
    simp only [Prod.mk.eta] at e
    rw [← e]
    have := mean_mul ((groupOf rows k).map (·.dlt)) (by simpa using hne k hk)
    simpa using this

theorem mapM_ok {α β : Type} (f : α → Except PyErr β) : ∀ (l : List α) (g : α → β),
    (∀ a ∈ l, f a = .ok (g a)) → l.mapM f = .ok (l.map g)
  | [], _, _ => rfl
  | a :: l, g, h => by
    rw [List.mapM_cons, h a (by simp), mapM_ok f l g (fun b hb => h b (by simp [hb]))]
    rfl

theorem mapM_error {α β : Type} (f : α → Except PyErr β) (e : PyErr) : ∀ (l : List α),
    (∀ a ∈ l, f a = .error e ∨ ∃ b, f a = .ok b) → (∃ a ∈ l, f a = .error e) → l.mapM f = .error e
  | [], _, h => by simp at h
  | a :: l, h, h' => by
    rw [List.mapM_cons]
    rcases h a (by simp) with ha | ⟨b, ha⟩
    · rw [ha]; rfl
    · rw [ha]
      have : ∃ a ∈ l, f a = .error e := by
        obtain ⟨c, hc, hce⟩ := h'
        rcases List.mem_cons.1 hc with rfl | hc
        · rw [ha] at hce; cases hce
        · exact ⟨c, hc, hce⟩
      have := mapM_error f e l (fun b hb => h b (by simp [hb])) this
      simp only [bind, Except.bind] at this ⊢
      rw [this]

end Verif.Parse
