import Verif.Layer.DegLemmas
import Verif.Ensemble.Props

/-! # The layer likelihood as a product -/

namespace Verif

noncomputable section

open XR Spec
open scoped ENNReal

namespace Layer

/-- `foldlM_log` for loops over lists. -/
theorem foldlM_log_list {β : Type} (f : XR → β → Except XR XR) (w : β → ℝ) :
    ∀ (l : List β), (∀ b ∈ l, 0 ≤ w b) →
    (∀ b ∈ l, ∀ a, f (fin a) b
      = if 0 < w b then .ok (fin (a + Real.log (w b))) else .error ninf) → ∀ a : ℝ,
    l.foldlM f (fin a)
      = if 0 < (l.map w).prod then .ok (fin (a + Real.log (l.map w).prod)) else .error ninf
  | [], _, _, a => by simp [pure, Except.pure]
  | b :: l, hw, h, a => by
    have hl : 0 ≤ (l.map w).prod := List.prod_nonneg (by
      intro v hv
      obtain ⟨c, hc, rfl⟩ := List.mem_map.1 hv
      exact hw c (by simp [hc]))
    rw [List.foldlM_cons, h b (by simp), List.map_cons, List.prod_cons]
    by_cases h1 : 0 < w b
    · rw [if_pos h1]
      show l.foldlM f _ = _
      rw [foldlM_log_list f w l (fun c hc => hw c (by simp [hc])) (fun c hc => h c (by simp [hc]))]
      by_cases h2 : 0 < (l.map w).prod
      · rw [if_pos h2, if_pos (mul_pos h1 h2), Real.log_mul h1.ne' h2.ne', add_assoc]
      · have h3 : (l.map w).prod = 0 := le_antisymm (not_lt.1 h2) hl
        rw [if_neg h2, h3]; simp
    · have h3 : w b = 0 := le_antisymm (not_lt.1 h1) (hw b (by simp))
      rw [if_neg h1, h3]; simp; rfl

/-- A product over the stored entries is a product over all positions. -/
theorem prod_lookup {A α : Type} [CommMonoid A] (g : ℕ → α → A) (n : ℕ) (r : List (ℕ × α))
    (hr : RowSorted r) (hn : ∀ e ∈ r, e.1 < n) :
    (r.map (fun e => g e.1 e.2)).prod
      = ∏ i ∈ Finset.range n, (r.lookup i).elim 1 (g i) :=
  sum_lookup (A := Additive A) (fun i v => Additive.ofMul (g i v)) n r hr hn

/-- A loop of checks. -/
theorem foldlM_check {β : Type} (f : Unit → β → Except XR Unit) (Q : β → Prop)
    [DecidablePred Q] : ∀ (l : List β) [Decidable (∀ b ∈ l, Q b)],
    (∀ b ∈ l, f () b = if Q b then .ok () else .error ninf) →
    l.foldlM f () = if ∀ b ∈ l, Q b then .ok () else .error ninf
  | [], _, _ => by simp [pure, Except.pure]
  | b :: l, _, h => by
    rw [List.foldlM_cons, h b (by simp)]
    by_cases hb : Q b
    · rw [if_pos hb]
      show l.foldlM f () = _
      haveI : Decidable (∀ b ∈ l, Q b) := Classical.dec _
      rw [foldlM_check f Q l (fun c hc => h c (by simp [hc]))]
      by_cases hl : ∀ b ∈ l, Q b
      · rw [if_pos hl, if_pos (by simpa [hb] using hl)]
      · rw [if_neg hl, if_neg (by simpa [hb] using hl)]
    · rw [if_neg hb, if_neg (by simp [hb])]; rfl

theorem lookup_eq_none_of {α : Type} {r : List (ℕ × α)} {k : ℕ} (h : ∀ e ∈ r, e.1 ≠ k) :
    r.lookup k = none := by
  rw [List.lookup_eq_none_iff]
  intro e he
  exact bne_iff_ne.2 (fun hc => h e he hc.symm)

/-- The two tests on one vertex. -/
theorem check_entry {b : List (ℕ × ℝ≥0∞)} (hb : RowSorted b) (j : ℕ) {σ : Type} (u v : σ) :
    (if !((rowX b).any (fun e => e.1 == j)) then u
      else if ((rowX b).filter (fun e => e.1 == j)).any (fun e => e.2.isZero) then u else v)
      = if entry b j ≠ 0 then v else u := by
  by_cases h1 : ∃ e ∈ b, e.1 = j
  · obtain ⟨e, he, rfl⟩ := h1
    have hany : (rowX b).any (fun e' => e'.1 == e.1) = true := by
      rw [List.any_eq_true]
      exact ⟨(e.1, ofENN e.2), List.mem_map.2 ⟨e, he, rfl⟩, by simp⟩
    have hz : ((rowX b).filter (fun e' => e'.1 == e.1)).any (fun e => e.2.isZero) = true
        ↔ entry b e.1 = 0 := by
      rw [List.any_eq_true]
      constructor
      · rintro ⟨f, hf, hf0⟩
        rw [List.mem_filter] at hf
        obtain ⟨g, hg, rfl⟩ := List.mem_map.1 hf.1
        have h2 : g.1 = e.1 := by simpa using hf.2
        rw [← h2, entry_of_mem hb hg]
        simpa using hf0
      · intro h0
        rw [entry_of_mem hb he] at h0
        refine ⟨(e.1, ofENN e.2), ?_, by simp [h0]⟩
        rw [List.mem_filter]
        exact ⟨List.mem_map.2 ⟨e, he, rfl⟩, by simp⟩
    rw [hany]
    simp only [Bool.not_true, Bool.false_eq_true, if_false]
    by_cases h0 : entry b e.1 = 0
    · rw [if_pos (hz.2 h0), if_neg (by simpa using h0)]
    · rw [if_neg (fun hc => h0 (hz.1 hc)), if_pos h0]
  · push Not at h1
    have hany : (rowX b).any (fun e' => e'.1 == j) = false := by
      rw [List.any_eq_false]
      intro f hf
      obtain ⟨g, hg, rfl⟩ := List.mem_map.1 hf
      simpa using h1 g hg
    rw [hany, if_pos (by simp), if_neg]
    simp [entry, lookup_eq_none_of h1]

open Classical in
theorem precheck_eq {a b : List (ℕ × ℝ≥0∞)} (ha : RowSorted a) (hb : RowSorted b) (n : ℕ)
    (nbrs : ℕ → List ℕ) :
    precheck n (rowX a) (rowX b) nbrs
      = if ∀ i ∈ List.range n, ∀ j ∈ nbrs i, entry a i ≠ 0 ∧ entry b j ≠ 0 then .ok ()
        else .error ninf := by
  unfold precheck
  refine foldlM_check _ _ _ (fun i _ => ?_)
  by_cases hl : (nbrs i).length = 0
  · rw [if_neg (by simpa using hl), if_pos]
    rw [List.length_eq_zero_iff.1 hl]; simp
  · rw [if_pos hl, check_entry ha i]
    obtain ⟨j0, hj0⟩ := List.exists_mem_of_length_pos (Nat.pos_of_ne_zero hl)
    by_cases hi : entry a i = 0
    · rw [if_neg (by simpa using hi), if_neg]
      exact fun h => (h j0 hj0).1 hi
    · rw [if_pos hi, foldlM_check _ (fun j => entry b j ≠ 0) _ (fun j _ => check_entry hb j _ _)]
      by_cases h2 : ∀ j ∈ nbrs i, entry b j ≠ 0
      · rw [if_pos h2, if_pos (fun j hj => ⟨hi, h2 j hj⟩)]
      · rw [if_neg h2, if_neg (fun h => h2 (fun j hj => (h j hj).2))]

/-- Factor of a pair in the likelihood of a layer. -/
def factor (K : Kind) (d : ℝ≥0∞) (s : Bool) (link : ℕ → ℕ → Bool) (i : ℕ) (x : ℝ≥0∞) (j : ℕ)
    (y : ℝ≥0∞) : ℝ :=
  if admissible i j s then (if link i j then K.q (d * x * y) else 1 - K.q (d * x * y)) else 1

theorem factor_nonneg (K : Kind) (d : ℝ≥0∞) (s : Bool) (link : ℕ → ℕ → Bool) (i : ℕ) (x : ℝ≥0∞)
    (j : ℕ) (y : ℝ≥0∞) : 0 ≤ factor K d s link i x j y := by
  unfold factor
  have := K.q_mem (d * x * y)
  split
  · split
    · exact this.1
    · linarith [this.2]
  · norm_num

/-- One step of the innermost loop, all backends. -/
theorem step_log (K : Kind) (d x y : ℝ≥0∞) (s : Bool) (link : ℕ → ℕ → Bool) (i j : ℕ) (w : XR)
    (a : ℝ) :
    (if admissible i j s then
        let tmp := if link i j then K.link.logp_ijk (ofENN d) (ofENN x) (ofENN y) w
          else K.link.log1mp_ijk (ofENN d) (ofENN x) (ofENN y) w
        if tmp.isInf then .error tmp else .ok (fin a + tmp)
      else .ok (fin a) : Except XR XR)
      = if 0 < factor K d s link i x j y then
          .ok (fin (a + Real.log (factor K d s link i x j y)))
        else .error ninf := by
  have key : ∀ r : ℝ, 0 ≤ r → (if (elog r).isInf = true then Except.error (elog r)
      else Except.ok (fin a + elog r) : Except XR XR)
      = if 0 < r then .ok (fin (a + Real.log r)) else .error ninf := by
    intro r hr
    unfold elog
    by_cases h : 0 < r
    · simp [h]
    · simp [h]
  have hq := K.q_mem (d * x * y)
  unfold factor
  by_cases hadm : admissible i j s = true
  · simp only [hadm, if_true]
    by_cases hl : link i j = true
    · simp only [hl, if_true, K.logp_eq]; exact key _ hq.1
    · simp only [hl, if_false, Bool.false_eq_true, K.log1mp_eq]
      exact key _ (by linarith [hq.2])
  · simp [hadm]

theorem layerLoop_eq (K : Kind) (d : ℝ≥0∞) {a b : List (ℕ × ℝ≥0∞)} (ha : RowSorted a)
    (hb : RowSorted b) {n : ℕ} (han : ∀ e ∈ a, e.1 < n) (hbn : ∀ e ∈ b, e.1 < n)
    (dyad : ℕ → ℕ → XR) (nbrs : ℕ → List ℕ) (s : Bool) :
    let P := ∏ i ∈ Finset.range n, (a.lookup i).elim 1 (fun x =>
      ∏ j ∈ Finset.range n, (b.lookup j).elim 1
        (factor K d s (fun i j => (nbrs i).contains j) i x j))
    layerLoop K.link.logp_ijk K.link.log1mp_ijk (ofENN d) (rowX a) (rowX b) dyad nbrs s
      = if 0 < P then .ok (fin (Real.log P)) else .error ninf := by
  dsimp only
  unfold layerLoop rowX
  simp only [List.foldlM_map]
  have h0 : (0 : XR) = fin 0 := rfl
  have inner : ∀ e ∈ a, ∀ c : ℝ, _ := fun e _ c =>
    foldlM_log_list (fun like (y : ℕ × ℝ≥0∞) =>
      (if admissible e.1 y.1 s then
        let tmp := if (nbrs e.1).contains y.1 then
            K.link.logp_ijk (ofENN d) (ofENN e.2) (ofENN y.2) (dyad e.1 y.1)
          else K.link.log1mp_ijk (ofENN d) (ofENN e.2) (ofENN y.2) (dyad e.1 y.1)
        if tmp.isInf then .error tmp else .ok (like + tmp)
      else .ok like : Except XR XR))
      (fun y => factor K d s (fun i j => (nbrs i).contains j) e.1 e.2 y.1 y.2) b
      (fun y _ => factor_nonneg ..)
      (fun y _ c => step_log K d e.2 y.2 s (fun i j => (nbrs i).contains j) e.1 y.1 _ c) c
  rw [h0, foldlM_log_list _ (fun e => (b.map (fun y =>
      factor K d s (fun i j => (nbrs i).contains j) e.1 e.2 y.1 y.2)).prod) a
    (fun e _ => List.prod_nonneg (by
      intro v hv
      obtain ⟨c, hc, rfl⟩ := List.mem_map.1 hv
      exact factor_nonneg ..)) inner 0, zero_add,
    prod_lookup (fun i x => (b.map (fun y =>
      factor K d s (fun i j => (nbrs i).contains j) i x y.1 y.2)).prod) n a ha han]
  have e : ∀ i x, (b.map (fun y => factor K d s (fun i j => (nbrs i).contains j) i x y.1 y.2)).prod
      = ∏ j ∈ Finset.range n, (b.lookup j).elim 1
        (factor K d s (fun i j => (nbrs i).contains j) i x j) := fun i x =>
    prod_lookup (fun j y => factor K d s (fun i j => (nbrs i).contains j) i x j y) n b hb hbn
  simp only [e]

/-- Links that count against the layer although their pair is excluded: a stored self-link at a
vertex without one of the properties. -/
def BadLoop (n : ℕ) (s : Bool) (x y : ℕ → ℝ≥0∞) (G : Finset (ℕ × ℕ)) : Prop :=
  s = false ∧ ∃ i < n, (i, i) ∈ G ∧ (x i = 0 ∨ y i = 0)

open Classical in
theorem likelihood_layer_eq (K : Kind) (d : ℝ≥0∞) {a b : List (ℕ × ℝ≥0∞)} (ha : RowSorted a)
    (hb : RowSorted b) {n : ℕ} (han : ∀ e ∈ a, e.1 < n) (hbn : ∀ e ∈ b, e.1 < n)
    (dyad : ℕ → ℕ → XR) (nbrs : ℕ → List ℕ) (s : Bool) (G : Finset (ℕ × ℕ))
    (hG : ∀ i < n, ∀ j, j ∈ nbrs i ↔ (i, j) ∈ G) (hlt : ∀ e ∈ G, e.1 < n ∧ e.2 < n) :
    likelihood_layer K.link.logp_ijk K.link.log1mp_ijk (ofENN d) n (rowX a) (rowX b) dyad nbrs s
      = if BadLoop n s (entry a) (entry b) G then ninf
        else elog (Law.prob (Law.pairs n s) (fun e => K.q (d * entry a e.1 * entry b e.2)) G) := by
  unfold likelihood_layer
  rw [precheck_eq ha hb]
  by_cases hc : ∀ i ∈ List.range n, ∀ j ∈ nbrs i, entry a i ≠ 0 ∧ entry b j ≠ 0
  · have hbad : ¬ BadLoop n s (entry a) (entry b) G := by
      rintro ⟨-, i, hi, hm, h0⟩
      have := hc i (List.mem_range.2 hi) i ((hG i hi i).2 hm)
      rcases h0 with h0 | h0
      · exact this.1 h0
      · exact this.2 h0
    rw [if_pos hc, if_neg hbad]
    show value (layerLoop _ _ _ _ _ _ _ _) = _
    rw [layerLoop_eq K d ha hb han hbn]
    have hP : (∏ i ∈ Finset.range n, (a.lookup i).elim 1 (fun x =>
        ∏ j ∈ Finset.range n, (b.lookup j).elim 1
          (factor K d s (fun i j => (nbrs i).contains j) i x j)))
        = Law.prob (Law.pairs n s) (fun e => K.q (d * entry a e.1 * entry b e.2)) G := by
      unfold Law.prob
      rw [prod_pairs]
      refine Finset.prod_congr rfl (fun i hi => ?_)
      rw [Finset.mem_range] at hi
      have hlink : ∀ j, ((nbrs i).contains j = true) ↔ (i, j) ∈ G := fun j => by
        rw [List.contains_iff_mem]; exact hG i hi j
      cases hai : a.lookup i with
      | none =>
        rw [Option.elim_none]
        symm
        refine Finset.prod_eq_one (fun j _ => ?_)
        have hai' : entry a i = 0 := by simp [entry, hai]
        have : (i, j) ∉ G := fun hm =>
          (hc i (List.mem_range.2 hi) j ((hG i hi j).2 hm)).1 hai'
        simp [this, hai', K.q_zero]
      | some x =>
        rw [Option.elim_some]
        have hai' : entry a i = x := by simp [entry, hai]
        refine Finset.prod_congr rfl (fun j _ => ?_)
        cases hbj : b.lookup j with
        | none =>
          have hbj' : entry b j = 0 := by simp [entry, hbj]
          have : (i, j) ∉ G := fun hm =>
            (hc i (List.mem_range.2 hi) j ((hG i hi j).2 hm)).2 hbj'
          simp [this, hbj', K.q_zero]
        | some y =>
          have hbj' : entry b j = y := by simp [entry, hbj]
          simp only [Option.elim_some, factor, hai', hbj', hlink]
    rw [hP]
    unfold elog
    by_cases h : 0 < Law.prob (Law.pairs n s) (fun e => K.q (d * entry a e.1 * entry b e.2)) G
    · simp only [if_pos h, value]
    · simp only [if_neg h, value]
  · rw [if_neg hc]
    show ninf = _
    split
    · rfl
    · next hbad =>
      push Not at hc
      obtain ⟨i, hi, j, hj, h0⟩ := hc
      rw [List.mem_range] at hi
      have hm := (hG i hi j).1 hj
      have hq : K.q (d * entry a i * entry b j) = 0 := by
        by_cases h1 : entry a i = 0
        · simp [h1, K.q_zero]
        · simp [h0 h1, K.q_zero]
      have hadm : i ≠ j ∨ s = true := by
        by_contra hcon
        push Not at hcon
        obtain ⟨rfl, hs⟩ := hcon
        refine hbad ⟨by simpa using hs, i, hi, hm, ?_⟩
        by_cases h1 : entry a i = 0
        · exact Or.inl h1
        · exact Or.inr (h0 h1)
      have : Law.prob (Law.pairs n s) (fun e => K.q (d * entry a e.1 * entry b e.2)) G = 0 := by
        unfold Law.prob
        rw [Finset.prod_eq_zero_iff]
        exact ⟨(i, j), Law.mem_pairs.2 ⟨hi, (hlt _ hm).2, hadm⟩, by simp [hm, hq]⟩
      rw [this]; simp [elog]

/-- The loop over the layers, with early return. -/
theorem foldlM_elog (f : ℕ → XR) (w : ℕ → ℝ) (L : ℕ) (hw : ∀ k < L, 0 ≤ w k)
    (h : ∀ k < L, f k = elog (w k)) :
    value ((List.range L).foldlM (fun like k =>
      if (f k).isInf then .error (f k) else .ok (like + f k)) 0)
      = elog (∏ k ∈ Finset.range L, w k) := by
  rw [zero_def, foldlM_log _ w L hw, zero_add]
  · unfold elog
    split <;> rfl
  · intro k hk a
    rw [h k hk]
    unfold elog
    by_cases hp : 0 < w k
    · simp [hp]
    · simp [hp]

end Layer

end

end Verif
