import Verif.Layer.Props
import Verif.Layer.SampleLemmas
import Verif.Ensemble.ModelProps
import Verif.Spark.Props

/-! # C61–C63: likelihood and samples by layer -/

namespace Verif

noncomputable section

open XR Spec MeasureTheory ProbabilityTheory
open scoped ENNReal

namespace Layer

/-! ## C61: log-likelihood of a labelled graph -/

open Classical in
/-- Sparse and spark, all inputs: the logarithm of the probability of the labelled graph, except that
with self-loops excluded the value is `-inf` if a layer stores a self-link at a vertex without out or
in property.  `nbrs k i` are the stored columns of row `i` of layer `k`, `G k` the links. -/
theorem C61_computed (K : Kind) (n L : ℕ) (d : ℕ → ℝ≥0∞) (x y : ℕ → List (ℕ × ℝ≥0∞))
    (hx : ∀ i, RowSorted (x i)) (hy : ∀ i, RowSorted (y i)) (dyad : ℕ → ℕ → XR) (s : Bool)
    (nbrs : ℕ → ℕ → List ℕ) (G : ℕ → Finset (ℕ × ℕ))
    (hG : ∀ k < L, ∀ i < n, ∀ j, j ∈ nbrs k i ↔ (i, j) ∈ G k)
    (hlt : ∀ k < L, ∀ e ∈ G k, e.1 < n ∧ e.2 < n) :
    let v := if s = false ∧ ∃ k < L, ∃ i < n, (i, i) ∈ G k ∧
        (entry (x i) k = 0 ∨ entry (y i) k = 0) then ninf
      else elog (∏ k ∈ Finset.range L, Law.prob (Law.pairs n s) (layerProb K d x y k) (G k))
    log_likelihood K.link.logp_ijk K.link.log1mp_ijk n L (fun k => ofENN (d k))
        (fun i => rowX (x i)) (fun i => rowX (y i)) dyad nbrs s = v ∧
    Spark.log_likelihood K.link.logp_ijk K.link.log1mp_ijk n L (fun k => ofENN (d k))
        (fun i => rowX (x i)) (fun i => rowX (y i)) dyad nbrs s = v := by
  intro v
  have hq : ∀ k e, 0 ≤ layerProb K d x y k e ∧ layerProb K d x y k e ≤ 1 :=
    fun k e => K.q_mem _
  let bad : ℕ → Prop := fun k => s = false ∧ ∃ i < n, (i, i) ∈ G k ∧
        (entry (x i) k = 0 ∨ entry (y i) k = 0)
  let w : ℕ → ℝ := fun k =>
    if bad k then 0 else Law.prob (Law.pairs n s) (layerProb K d x y k) (G k)
  have hw : ∀ k, 0 ≤ w k := by
    intro k
    simp only [w]
    split
    · exact le_refl _
    · exact Law.prob_nonneg (fun e _ => hq k e) _
  have hlayer : ∀ k < L, likelihood_layer K.link.logp_ijk K.link.log1mp_ijk (ofENN (d k)) n
      (column n (fun i => rowX (x i)) k) (column n (fun i => rowX (y i)) k) dyad (nbrs k) s
      = elog (w k) := by
    intro k hk
    rw [column_rowX, column_rowX, likelihood_layer_eq K (d k) (column_sorted hx k)
      (column_sorted hy k) column_lt column_lt dyad (nbrs k) s (G k) (hG k hk) (hlt k hk)]
    have hiff : BadLoop n s (entry (column n x k)) (entry (column n y k)) (G k) ↔ bad k := by
      refine and_congr_right (fun _ => exists_congr (fun i => and_congr_right (fun hi => ?_)))
      rw [entry_column hi, entry_column hi]
    simp only [w]
    by_cases hb : bad k
    · rw [if_pos (hiff.2 hb), if_pos hb]; simp [elog]
    · rw [if_neg (fun h => hb (hiff.1 h)), if_neg hb]
      congr 1
      unfold Law.prob
      refine Finset.prod_congr rfl (fun e he => ?_)
      have he' := Law.mem_pairs.1 (show (e.1, e.2) ∈ _ from he)
      dsimp only
      rw [entry_column he'.1, entry_column he'.2.1]
      rfl
  have hprod : elog (∏ k ∈ Finset.range L, w k) = v := by
    simp only [v]
    by_cases hb : ∃ k < L, bad k
    · obtain ⟨k, hk, hb⟩ := hb
      rw [if_pos ⟨hb.1, k, hk, hb.2⟩, Finset.prod_eq_zero (Finset.mem_range.2 hk)
        (by simp only [w]; rw [if_pos hb])]
      simp [elog]
    · rw [if_neg (fun ⟨h1, k, hk, h2⟩ => hb ⟨k, hk, h1, h2⟩)]
      congr 1
      refine Finset.prod_congr rfl (fun k hk => ?_)
      simp only [w]
      rw [if_neg (fun h => hb ⟨k, Finset.mem_range.1 hk, h⟩)]
  constructor
  · rw [← hprod, ← foldlM_elog _ w L (fun k _ => hw k) hlayer]
    rfl
  · rw [← hprod]
    unfold Spark.log_likelihood
    clear hprod v hG hlt
    induction L with
    | zero => simp [elog]; rfl
    | succ L ih =>
      rw [List.range_succ, List.foldl_append, ih (fun k hk => hlayer k (by omega))]
      simp only [List.foldl_cons, List.foldl_nil]
      rw [hlayer L (by omega), Finset.prod_range_succ, Verif.Spark.elog_mul]
      · exact Finset.prod_nonneg (fun k _ => hw k)
      · exact hw L

/-- Sparse and spark: the log-likelihood is the logarithm of the probability of the labelled graph
(independent layers), provided no layer stores an excluded self-link at a vertex without out or in
property. -/
theorem C61_partial (K : Kind) (n L : ℕ) (d : ℕ → ℝ≥0∞) (x y : ℕ → List (ℕ × ℝ≥0∞))
    (hx : ∀ i, RowSorted (x i)) (hy : ∀ i, RowSorted (y i)) (dyad : ℕ → ℕ → XR) (s : Bool)
    (nbrs : ℕ → ℕ → List ℕ) (G : ℕ → Finset (ℕ × ℕ))
    (hG : ∀ k < L, ∀ i < n, ∀ j, j ∈ nbrs k i ↔ (i, j) ∈ G k)
    (hlt : ∀ k < L, ∀ e ∈ G k, e.1 < n ∧ e.2 < n)
    (hself : s = true ∨ ∀ k < L, ∀ i < n, (i, i) ∈ G k →
      entry (x i) k ≠ 0 ∧ entry (y i) k ≠ 0) :
    let v := elog (∏ k ∈ Finset.range L, Law.prob (Law.pairs n s) (layerProb K d x y k) (G k))
    log_likelihood K.link.logp_ijk K.link.log1mp_ijk n L (fun k => ofENN (d k))
        (fun i => rowX (x i)) (fun i => rowX (y i)) dyad nbrs s = v ∧
    Spark.log_likelihood K.link.logp_ijk K.link.log1mp_ijk n L (fun k => ofENN (d k))
        (fun i => rowX (x i)) (fun i => rowX (y i)) dyad nbrs s = v := by
  have h := C61_computed K n L d x y hx hy dyad s nbrs G hG hlt
  dsimp only at h
  rw [if_neg] at h
  · exact h
  · rintro ⟨hs, k, hk, i, hi, hm, h0⟩
    rcases hself with h1 | h1
    · rw [hs] at h1; cases h1
    · have := h1 k hk i hi hm
      rcases h0 with h0 | h0
      · exact this.1 h0
      · exact this.2 h0

/-- Two layers on two vertices, the link `(0, 1)` in the first. -/
example : let x : ℕ → List (ℕ × ℝ≥0∞) := fun _ => [(0, 1), (1, 2)]
    let nbrs : ℕ → ℕ → List ℕ := fun k i => if k = 0 ∧ i = 0 then [1] else []
    let G : ℕ → Finset (ℕ × ℕ) := fun k => if k = 0 then {(0, 1)} else ∅
    (∀ i, RowSorted (x i)) ∧ (∀ k < 2, ∀ i < 2, ∀ j, j ∈ nbrs k i ↔ (i, j) ∈ G k) ∧
      (∀ k < 2, ∀ e ∈ G k, e.1 < 2 ∧ e.2 < 2) ∧
      (∀ k < 2, ∀ i < 2, (i, i) ∈ G k → entry (x i) k ≠ 0 ∧ entry (x i) k ≠ 0) := by
  intro x nbrs G
  refine ⟨fun i => by simp [x, RowSorted], ?_, ?_, ?_⟩
  · intro k _ i _ j
    simp only [nbrs, G]
    by_cases hk : k = 0
    · by_cases hi : i = 0
      · simp [hk, hi]
      · simp [hk, hi]
    · simp [hk]
  · intro k _ e he
    simp only [G] at he
    split at he
    · simp only [Finset.mem_singleton] at he; subst he; norm_num
    · simp at he
  · intro k _ i _ he
    simp only [G] at he
    split at he
    · simp only [Finset.mem_singleton, Prod.mk.injEq] at he; omega
    · simp at he

/-- Self-loops excluded, one vertex without properties that stores a self-link: the pair is not part
of the ensemble, so the probability is one, but sparse and spark return `-inf`. -/
theorem C61_violated (K : Kind) :
    let x : ℕ → List (ℕ × ℝ≥0∞) := fun _ => []
    let G : ℕ → Finset (ℕ × ℕ) := fun _ => {(0, 0)}
    (∏ k ∈ Finset.range 1, Law.prob (Law.pairs 1 false) (layerProb K (fun _ => 1) x x k) (G k))
      = 1 ∧
    log_likelihood K.link.logp_ijk K.link.log1mp_ijk 1 1 (fun _ => ofENN 1)
        (fun i => rowX (x i)) (fun i => rowX (x i)) (fun _ _ => 0) (fun _ _ => [0]) false = ninf ∧
    Spark.log_likelihood K.link.logp_ijk K.link.log1mp_ijk 1 1 (fun _ => ofENN 1)
        (fun i => rowX (x i)) (fun i => rowX (x i)) (fun _ _ => 0) (fun _ _ => [0]) false
      = ninf := by
  intro x G
  have h := C61_computed K 1 1 (fun _ => 1) x x (fun i => by simp [x, RowSorted])
    (fun i => by simp [x, RowSorted]) (fun _ _ => 0) false (fun _ _ => [0]) G
    (by intro k _ i hi j; simp [G]; omega) (by intro k _ e he; simp [G] at he; subst he; simp)
  dsimp only at h
  rw [if_pos ⟨rfl, 0, by norm_num, 0, by norm_num, by simp [G], Or.inl (by simp [x, entry])⟩] at h
  refine ⟨?_, h⟩
  have : Law.pairs 1 false = ∅ := by decide
  simp [Law.prob, this]

/-- Dense arrays: the logarithm of the probability of the labelled graph. -/
theorem C61_dense (K : Kind) (n L : ℕ) (d : ℕ → ℝ≥0∞) (x y : ℕ → ℕ → ℝ≥0∞)
    (dyad : ℕ → ℕ → XR) (s : Bool) (G : ℕ → Finset (ℕ × ℕ)) :
    Dense.likelihood_tensor K.link.logp_ijk K.link.log1mp_ijk n L (fun k => ofENN (d k))
        (fun i k => ofENN (x i k)) (fun i k => ofENN (y i k)) dyad
        (fun k i j => decide ((i, j) ∈ G k)) s
      = elog (∏ k ∈ Finset.range L, Law.prob (Law.pairs n s) (denseProb K d x y k) (G k)) := by
  have hP : ∀ k, Law.prob (Law.pairs n s) (denseProb K d x y k) (G k)
      = ∏ i ∈ Finset.range n, ∏ j ∈ Finset.range n,
          factor K (d k) s (fun i j => decide ((i, j) ∈ G k)) i (x i k) j (y j k) := by
    intro k
    unfold Law.prob
    rw [prod_pairs]
    refine Finset.prod_congr rfl (fun i _ => Finset.prod_congr rfl (fun j _ => ?_))
    simp only [factor, decide_eq_true_eq]
    rfl
  unfold Dense.likelihood_tensor
  simp only [hP]
  have hrow : ∀ k i, 0 ≤ ∏ j ∈ Finset.range n,
      factor K (d k) s (fun i j => decide ((i, j) ∈ G k)) i (x i k) j (y j k) := fun k i =>
    Finset.prod_nonneg (fun j _ => factor_nonneg ..)
  rw [zero_def, foldlM_log _ (fun k => ∏ i ∈ Finset.range n, ∏ j ∈ Finset.range n,
      factor K (d k) s (fun i j => decide ((i, j) ∈ G k)) i (x i k) j (y j k)) L
    (fun k _ => Finset.prod_nonneg (fun i _ => hrow k i)), zero_add]
  · unfold elog; split <;> rfl
  · intro k _ c
    refine foldlM_log _ _ n (fun i _ => hrow k i) (fun i _ c => ?_) c
    refine foldlM_log _ _ n (fun j _ => factor_nonneg ..) (fun j _ c => ?_) c
    exact step_log K (d k) (x i k) (y j k) s (fun i j => decide ((i, j) ∈ G k)) i j _ c

/-! ## C62: law of the sampled layers -/

theorem stored_iff {α : Type} {r : List (ℕ × α)} {i : ℕ} :
    (∃ e ∈ r, e.1 = i) ↔ (r.lookup i).isSome := by
  constructor
  · rintro ⟨e, he, rfl⟩
    by_contra h
    rw [Option.not_isSome_iff_eq_none, List.lookup_eq_none_iff] at h
    exact absurd (h e he) (by simp)
  · intro h
    by_contra hc
    push Not at hc
    rw [lookup_eq_none_of hc] at h
    simp at h

theorem pairOrder_sub {x y : ℕ → List (ℕ × ℝ≥0∞)} {n k : ℕ} {s : Bool} {e : ℕ × ℕ}
    (h : e ∈ pairOrder (column n x k) (column n y k) s) : e ∈ Law.pairs n s := by
  obtain ⟨⟨a, ha, h1⟩, ⟨b, hb, h2⟩, hadm⟩ := mem_pairOrder.1 h
  refine Law.mem_pairs.2 (⟨?_, ?_, admissible_iff.1 hadm⟩ : e.1 < n ∧ e.2 < n ∧ _)
  · rw [← h1]; exact column_lt a ha
  · rw [← h2]; exact column_lt b hb

theorem pairOrder_zero {K : Kind} {d : ℕ → ℝ≥0∞} {x y : ℕ → List (ℕ × ℝ≥0∞)} {n k : ℕ} {s : Bool}
    {e : ℕ × ℕ} (he : e ∈ Law.pairs n s)
    (h : e ∉ pairOrder (column n x k) (column n y k) s) : layerProb K d x y k e = 0 := by
  obtain ⟨h1, h2, hadm⟩ := Law.mem_pairs.1 (show (e.1, e.2) ∈ _ from he)
  have : entry (x e.1) k = 0 ∨ entry (y e.2) k = 0 := by
    by_contra hc
    push Not at hc
    apply h
    rw [mem_pairOrder, stored_iff, stored_iff]
    refine ⟨?_, ?_, admissible_iff.2 hadm⟩
    · rw [lookup_column, if_pos h1]
      by_contra hn
      rw [Option.not_isSome_iff_eq_none] at hn
      exact hc.1 (by simp [entry, hn])
    · rw [lookup_column, if_pos h2]
      by_contra hn
      rw [Option.not_isSome_iff_eq_none] at hn
      exact hc.2 (by simp [entry, hn])
  unfold layerProb
  rcases this with h0 | h0 <;> simp [h0, K.q_zero]

/-- The sampled layers, spelled out. -/
theorem mem_sample_stream (K : Kind) (n L : ℕ) (d : ℕ → ℝ≥0∞) (x y : ℕ → List (ℕ × ℝ≥0∞))
    (hx : ∀ i, RowSorted (x i)) (hy : ∀ i, RowSorted (y i)) (dyad : ℕ → ℕ → XR) (s : Bool)
    (u : ℕ → ℝ) {k : ℕ} (hk : k < L) :
    let O := fun k => pairOrder (column n x k) (column n y k) s
    ((sample_stream K.link.p_ijk n L (fun k => ofENN (d k)) (fun i => rowX (x i))
        (fun i => rowX (y i)) dyad s u).2)[k]?
      = some ((O k).filter (fun e => decide (u (pos O k e) < layerProb K d x y k e))) := by
  intro O
  rw [sample_stream_eq K n L d x y hx hy dyad s u]
  dsimp only
  rw [List.getElem?_map, List.getElem?_range hk, Option.map_some]
  congr 1
  refine List.filter_congr (fun e he => ?_)
  obtain ⟨h1, h2, -⟩ := Law.mem_pairs.1 (show (e.1, e.2) ∈ _ from pairOrder_sub he)
  rw [entry_column h1, entry_column h2]
  rfl

/-- Sparse and spark: with the generator read as a stream, the layers of the sample are independent
and layer `k` has the ensemble law of label `k`; the probability of a labelled graph is the one given
by the likelihood (C61). -/
theorem C62_law (K : Kind) (n L : ℕ) (d : ℕ → ℝ≥0∞) (x y : ℕ → List (ℕ × ℝ≥0∞))
    (hx : ∀ i, RowSorted (x i)) (hy : ∀ i, RowSorted (y i)) (dyad : ℕ → ℕ → XR) (s : Bool)
    {Ω : Type} [MeasurableSpace Ω] (P : Measure Ω) (U : ℕ → Ω → ℝ) (hU : IsUniform P U)
    (G : ℕ → Finset (ℕ × ℕ)) (hG : ∀ k < L, G k ⊆ Law.pairs n s) :
    P {ω | ∀ k < L, ((sample_stream K.link.p_ijk n L (fun k => ofENN (d k)) (fun i => rowX (x i))
        (fun i => rowX (y i)) dyad s (fun m => U m ω)).2)[k]?.map List.toFinset = some (G k)}
      = ENNReal.ofReal
          (∏ k ∈ Finset.range L, Law.prob (Law.pairs n s) (layerProb K d x y k) (G k)) := by
  let O := fun k => pairOrder (column n x k) (column n y k) s
  have hev : ∀ ω, (∀ k < L, ((sample_stream K.link.p_ijk n L (fun k => ofENN (d k))
        (fun i => rowX (x i)) (fun i => rowX (y i)) dyad s (fun m => U m ω)).2)[k]?.map
          List.toFinset = some (G k)) ↔
      ∀ k < L, (∀ e ∈ O k, U (pos O k e) ω < layerProb K d x y k e ↔ e ∈ G k)
        ∧ ∀ e ∈ G k, e ∈ O k := by
    intro ω
    refine forall₂_congr (fun k hk => ?_)
    have hm := mem_sample_stream K n L d x y hx hy dyad s (fun m => U m ω) hk
    dsimp only at hm
    rw [hm, Option.map_some, Option.some_inj, Finset.ext_iff]
    simp only [List.mem_toFinset, List.mem_filter, decide_eq_true_eq]
    constructor
    · intro h
      refine ⟨fun e he => ?_, fun e he => ((h e).2 he).1⟩
      rw [← h e]
      exact ⟨fun hlt => ⟨he, hlt⟩, fun hlt => hlt.2⟩
    · rintro ⟨h1, h2⟩ e
      exact ⟨fun he => (h1 e he.1).1 he.2, fun he => ⟨h2 e he, (h1 e (h2 e he)).2 he⟩⟩
  have hset : {ω | ∀ k < L, ((sample_stream K.link.p_ijk n L (fun k => ofENN (d k))
        (fun i => rowX (x i)) (fun i => rowX (y i)) dyad s (fun m => U m ω)).2)[k]?.map
          List.toFinset = some (G k)}
      = {ω | ∀ k < L, (∀ e ∈ O k, U (pos O k e) ω < layerProb K d x y k e ↔ e ∈ G k)
        ∧ ∀ e ∈ G k, e ∈ O k} := by
    ext ω; exact hev ω
  rw [hset]
  by_cases hsub : ∀ k < L, ∀ e ∈ G k, e ∈ O k
  · have : {ω | ∀ k < L, (∀ e ∈ O k, U (pos O k e) ω < layerProb K d x y k e ↔ e ∈ G k)
        ∧ ∀ e ∈ G k, e ∈ O k}
        = {ω | ∀ k < L, ∀ e ∈ O k, U (pos O k e) ω < layerProb K d x y k e ↔ e ∈ G k} := by
      ext ω
      exact ⟨fun h k hk => (h k hk).1, fun h k hk => ⟨h k hk, hsub k hk⟩⟩
    rw [this, layers_law hU O (layerProb K d x y) (fun k e => K.q_mem _) L G]
    congr 1
    refine Finset.prod_congr rfl (fun k hk => ?_)
    unfold Law.prob
    refine Finset.prod_subset (fun e he => pairOrder_sub (List.mem_toFinset.1 he))
      (fun e he hn => ?_)
    rw [List.mem_toFinset] at hn
    rw [if_neg (fun hc => hn (hsub k (Finset.mem_range.1 hk) e hc)), pairOrder_zero he hn, sub_zero]
  · push Not at hsub
    obtain ⟨k, hk, e, he, hn⟩ := hsub
    have : {ω | ∀ k < L, (∀ e ∈ O k, U (pos O k e) ω < layerProb K d x y k e ↔ e ∈ G k)
        ∧ ∀ e ∈ G k, e ∈ O k} = ∅ := by
      ext ω
      simp only [Set.mem_ofPred_eq, Set.mem_empty_iff_false, iff_false]
      exact fun h => hn ((h k hk).2 e he)
    rw [this, measure_empty, Finset.prod_eq_zero (Finset.mem_range.2 hk), ENNReal.ofReal_zero]
    unfold Law.prob
    refine Finset.prod_eq_zero (hG k hk he) ?_
    rw [if_pos he]
    exact pairOrder_zero (hG k hk he) hn

example : (∀ i, RowSorted ((fun i => [(0, (i : ℝ≥0∞)), (1, 1)]) i)) ∧
    (∀ k < 2, (fun k => if k = 0 then {(0, 1)} else (∅ : Finset (ℕ × ℕ))) k ⊆ Law.pairs 2 false) ∧
    ∃ (Ω : Type) (_ : MeasurableSpace Ω) (P : Measure Ω) (_ : IsProbabilityMeasure P)
      (U : ℕ → Ω → ℝ), IsUniform P U := by
  refine ⟨fun i => by simp [RowSorted], ?_, exists_isUniform ℕ⟩
  intro k _
  dsimp only
  split
  · decide
  · simp

/-- Whatever the random numbers, there are `L` layers, each a duplicate-free list of admissible pairs
with positive probability in that layer that contains all certain links. -/
theorem C62_valid (K : Kind) (n L : ℕ) (d : ℕ → ℝ≥0∞) (x y : ℕ → List (ℕ × ℝ≥0∞))
    (hx : ∀ i, RowSorted (x i)) (hy : ∀ i, RowSorted (y i)) (dyad : ℕ → ℕ → XR) (s : Bool)
    (u : ℕ → ℝ) (hu : ∀ k, 0 ≤ u k ∧ u k < 1) :
    let S := (sample_stream K.link.p_ijk n L (fun k => ofENN (d k)) (fun i => rowX (x i))
        (fun i => rowX (y i)) dyad s u).2
    S.length = L ∧ ∀ k < L, ∃ l, S[k]? = some l ∧ l.Nodup ∧
      (∀ e ∈ l, e ∈ Law.pairs n s ∧ 0 < layerProb K d x y k e) ∧
      (∀ e ∈ Law.pairs n s, layerProb K d x y k e = 1 → e ∈ l) := by
  intro S
  refine ⟨?_, fun k hk => ?_⟩
  · simp only [S]
    rw [sample_stream_eq K n L d x y hx hy dyad s u]
    simp
  · refine ⟨_, mem_sample_stream K n L d x y hx hy dyad s u hk,
      (nodup_pairOrder (column_sorted hx k) (column_sorted hy k) s).filter _, ?_, ?_⟩
    · intro e he
      rw [List.mem_filter, decide_eq_true_eq] at he
      exact ⟨pairOrder_sub he.1, lt_of_le_of_lt (hu _).1 he.2⟩
    · intro e he h1
      rw [List.mem_filter, decide_eq_true_eq]
      refine ⟨?_, by rw [h1]; exact (hu _).2⟩
      by_contra hn
      rw [pairOrder_zero he hn] at h1
      exact zero_ne_one h1

example : ∃ u : ℕ → ℝ, ∀ k, 0 ≤ u k ∧ u k < 1 := ⟨fun _ => 1 / 2, fun _ => by norm_num⟩

theorem mem_dense_stream (K : Kind) (n L : ℕ) (d : ℕ → ℝ≥0∞) (x y : ℕ → ℕ → ℝ≥0∞)
    (dyad : ℕ → ℕ → XR) (s : Bool) (u : ℕ → ℝ) (k i j : ℕ) :
    (k, i, j) ∈ (Dense.binary_sample_tensor_stream K.link.p_ijk n L (fun k => ofENN (d k))
        (fun i k => ofENN (x i k)) (fun i k => ofENN (y i k)) dyad s u).2
      ↔ k < L ∧ (i, j) ∈ Law.pairs n s ∧
        u (pos (fun _ => order n s) k (i, j)) < denseProb K d x y k (i, j) := by
  rw [dense_stream_eq]
  simp only [List.mem_flatMap, List.mem_range, List.mem_map, List.mem_filter, mem_order,
    decide_eq_true_eq, Prod.mk.injEq, Prod.exists]
  constructor
  · rintro ⟨k', hk', i', j', ⟨h1, h2⟩, rfl, rfl, rfl⟩
    exact ⟨hk', h1, h2⟩
  · rintro ⟨h1, h2, h3⟩
    exact ⟨k, h1, i, j, ⟨h2, h3⟩, rfl, rfl, rfl⟩

/-- Dense arrays. -/
theorem C62_dense_law (K : Kind) (n L : ℕ) (d : ℕ → ℝ≥0∞) (x y : ℕ → ℕ → ℝ≥0∞)
    (dyad : ℕ → ℕ → XR) (s : Bool)
    {Ω : Type} [MeasurableSpace Ω] (P : Measure Ω) (U : ℕ → Ω → ℝ) (hU : IsUniform P U)
    (G : ℕ → Finset (ℕ × ℕ)) (hG : ∀ k < L, G k ⊆ Law.pairs n s) :
    P {ω | ∀ k < L, ∀ i j, (k, i, j) ∈ (Dense.binary_sample_tensor_stream K.link.p_ijk n L
        (fun k => ofENN (d k)) (fun i k => ofENN (x i k)) (fun i k => ofENN (y i k)) dyad s
        (fun m => U m ω)).2 ↔ (i, j) ∈ G k}
      = ENNReal.ofReal
          (∏ k ∈ Finset.range L, Law.prob (Law.pairs n s) (denseProb K d x y k) (G k)) := by
  let O : ℕ → List (ℕ × ℕ) := fun _ => order n s
  have hset : {ω | ∀ k < L, ∀ i j, (k, i, j) ∈ (Dense.binary_sample_tensor_stream K.link.p_ijk n L
        (fun k => ofENN (d k)) (fun i k => ofENN (x i k)) (fun i k => ofENN (y i k)) dyad s
        (fun m => U m ω)).2 ↔ (i, j) ∈ G k}
      = {ω | ∀ k < L, ∀ e ∈ O k, U (pos O k e) ω < denseProb K d x y k e ↔ e ∈ G k} := by
    ext ω
    simp only [mem_dense_stream]
    refine forall₂_congr (fun k hk => ?_)
    constructor
    · intro h e he
      rw [← h e.1 e.2]
      exact ⟨fun hlt => ⟨hk, mem_order.1 he, hlt⟩, fun hlt => hlt.2.2⟩
    · intro h i j
      constructor
      · rintro ⟨-, h1, h2⟩
        exact (h (i, j) (mem_order.2 h1)).1 h2
      · intro hm
        exact ⟨hk, hG k hk hm, (h (i, j) (mem_order.2 (hG k hk hm))).2 hm⟩
  rw [hset, layers_law hU O (denseProb K d x y) (fun k e => K.q_mem _) L G]
  congr 1
  refine Finset.prod_congr rfl (fun k _ => ?_)
  unfold Law.prob
  refine Finset.prod_congr ?_ (fun _ _ => rfl)
  ext e
  rw [List.mem_toFinset]
  exact mem_order

/-- Dense arrays, validity. -/
theorem C62_dense_valid (K : Kind) (n L : ℕ) (d : ℕ → ℝ≥0∞) (x y : ℕ → ℕ → ℝ≥0∞)
    (dyad : ℕ → ℕ → XR) (s : Bool) (u : ℕ → ℝ) (hu : ∀ k, 0 ≤ u k ∧ u k < 1) :
    let S := (Dense.binary_sample_tensor_stream K.link.p_ijk n L
        (fun k => ofENN (d k)) (fun i k => ofENN (x i k)) (fun i k => ofENN (y i k)) dyad s u).2
    S.Nodup ∧
    (∀ k i j, (k, i, j) ∈ S → k < L ∧ (i, j) ∈ Law.pairs n s ∧ 0 < denseProb K d x y k (i, j)) ∧
    (∀ k < L, ∀ e ∈ Law.pairs n s, denseProb K d x y k e = 1 → (k, e.1, e.2) ∈ S) := by
  intro S
  refine ⟨?_, ?_, ?_⟩
  · simp only [S]
    rw [dense_stream_eq]
    dsimp only
    rw [List.nodup_flatMap]
    refine ⟨fun k _ => ((nodup_order n s).filter _).map ?_, ?_⟩
    · intro a b hab
      simp only [Prod.mk.injEq, true_and] at hab
      exact Prod.ext hab.1 hab.2
    · refine List.nodup_range.imp (fun {a b} hab => ?_)
      intro e h1 h2
      obtain ⟨f, -, rfl⟩ := List.mem_map.1 h1
      obtain ⟨g, -, h3⟩ := List.mem_map.1 h2
      exact hab (Prod.mk.inj h3).1.symm
  · intro k i j h
    rw [mem_dense_stream] at h
    exact ⟨h.1, h.2.1, lt_of_le_of_lt (hu _).1 h.2.2⟩
  · intro k hk e he h1
    rw [mem_dense_stream]
    exact ⟨hk, he, by rw [show denseProb K d x y k (e.1, e.2) = 1 from h1]; exact (hu _).2⟩

/-- Weighted sampling of one layer is refused exactly when the totals of the strengths of the layer
differ by a relative `1e-6` or more, or the out-strengths sum to zero. -/
theorem C62_refused (K : Kind) (d : ℝ≥0∞) (a b : List (ℕ × ℝ≥0∞)) (ha : RowSorted a)
    (hb : RowSorted b) (dyad : ℕ → ℕ → XR) (s_out s_in : List (ℕ × ℝ)) (s : Bool)
    (u e : ℕ → ℕ → ℝ) (hu : ∀ i j, 0 ≤ u i j) :
    cremb_sample_layer K.link.p_ijk (ofENN d) (rowX a) (rowX b) dyad s_out s_in s u e
        = .error .strengthsDiffer ↔
      ((s_out.map Prod.snd).sum = 0 ∨ 1e-6 * |(s_out.map Prod.snd).sum|
        ≤ |(s_out.map Prod.snd).sum - (s_in.map Prod.snd).sum|) := by
  rw [cremb_layer_eq K d ha hb dyad s_out s_in s u e hu, total_eq, total_eq]
  generalize (s_out.map Prod.snd).sum = A
  generalize (s_in.map Prod.snd).sum = B
  by_cases hA : A = 0
  · subst hA
    simp only [div_zero, sub_zero, abs_one, true_or, iff_true]
    rw [if_neg (by norm_num)]
  · have h1 : |1 - B / A| = |A - B| / |A| := by
      rw [← abs_div]; congr 1; field_simp
    have hpos : 0 < |A| := abs_pos.2 hA
    simp only [h1, div_lt_iff₀ hpos, hA, false_or]
    constructor
    · intro h
      by_contra hc
      rw [if_pos (not_le.1 hc)] at h
      split at h <;> cases h
    · intro h
      rw [if_neg (not_lt.2 h)]

/-- Otherwise it fails exactly when some sampled link starts at a vertex with a stored out-strength
and ends at one without a stored in-strength or conversely, and else returns every sampled link once,
with the exponential variate scaled to mean `s_out i * s_in j / (s_tot * p)` (zero for strengths that
are not stored). -/
theorem C62_weights (K : Kind) (d : ℝ≥0∞) (n : ℕ) (a b : List (ℕ × ℝ≥0∞)) (ha : RowSorted a)
    (hb : RowSorted b) (han : ∀ e ∈ a, e.1 < n) (hbn : ∀ e ∈ b, e.1 < n)
    (dyad : ℕ → ℕ → XR) (s_out s_in : List (ℕ × ℝ)) (s : Bool)
    (u e : ℕ → ℕ → ℝ) (hu : ∀ i j, 0 ≤ u i j)
    (hne : (s_out.map Prod.snd).sum ≠ 0)
    (htol : |(s_out.map Prod.snd).sum - (s_in.map Prod.snd).sum|
      < 1e-6 * |(s_out.map Prod.snd).sum|) :
    let q := fun i j => K.q (d * entry a i * entry b j)
    let r := cremb_sample_layer K.link.p_ijk (ofENN d) (rowX a) (rowX b) dyad s_out s_in s u e
    (r = .error .emptySelection ↔ ∃ i j, (i, j) ∈ Law.pairs n s ∧ u i j < q i j ∧
      (s_out.lookup i).isSome ≠ (s_in.lookup j).isSome) ∧
    (∀ L, r = .ok L → (L.map Prod.fst).Nodup ∧ ∀ i j w, ((i, j), w) ∈ L ↔
      (i, j) ∈ Law.pairs n s ∧ u i j < q i j ∧
        w = fin (entry s_out i * entry s_in j / ((s_out.map Prod.snd).sum * q i j) * e i j)) ∧
    (r = .error .emptySelection ∨ ∃ L, r = .ok L) := by
  intro q r
  have hr : r = _ := cremb_layer_eq K d ha hb dyad s_out s_in s u e hu
  rw [total_eq, total_eq, if_pos] at hr
  swap
  · have h1 : |1 - (s_in.map Prod.snd).sum / (s_out.map Prod.snd).sum|
        = |(s_out.map Prod.snd).sum - (s_in.map Prod.snd).sum| / |(s_out.map Prod.snd).sum| := by
      rw [← abs_div]; congr 1; field_simp
    rw [h1, div_lt_iff₀ (abs_pos.2 hne)]
    exact htol
  have hmem : ∀ i j, (i, j) ∈ pairOrder a b s ∧ u i j < q i j ↔
      (i, j) ∈ Law.pairs n s ∧ u i j < q i j := by
    intro i j
    refine and_congr_left (fun hlt => ?_)
    have hq : q i j ≠ 0 := (lt_of_le_of_lt (hu _ _) hlt).ne'
    rw [mem_pairOrder, stored_iff, stored_iff, Law.mem_pairs, admissible_iff]
    constructor
    · rintro ⟨h1, h2, h3⟩
      rw [← stored_iff] at h1 h2
      obtain ⟨f, hf, h1⟩ := h1
      obtain ⟨g, hg, h2⟩ := h2
      dsimp only at h1 h2
      rw [← h1, ← h2]
      exact ⟨han f hf, hbn g hg, by rw [h1, h2]; exact h3⟩
    · rintro ⟨-, -, h3⟩
      refine ⟨?_, ?_, h3⟩
      · by_contra hn
        rw [Option.not_isSome_iff_eq_none] at hn
        exact hq (by simp only [q]; simp [entry, hn, K.q_zero])
      · by_contra hn
        rw [Option.not_isSome_iff_eq_none] at hn
        exact hq (by simp only [q]; simp [entry, hn, K.q_zero])
  have hex : (∃ l ∈ pairOrder a b s,
      decide (u l.1 l.2 < K.q (d * entry a l.1 * entry b l.2)) = true ∧
        (s_out.lookup l.1).isSome ≠ (s_in.lookup l.2).isSome) ↔
      ∃ i j, (i, j) ∈ Law.pairs n s ∧ u i j < q i j ∧
        (s_out.lookup i).isSome ≠ (s_in.lookup j).isSome := by
    constructor
    · rintro ⟨⟨i, j⟩, h1, h2, h3⟩
      have := (hmem i j).1 ⟨h1, by simpa using h2⟩
      exact ⟨i, j, this.1, this.2, h3⟩
    · rintro ⟨i, j, h1, h2, h3⟩
      have := (hmem i j).2 ⟨h1, h2⟩
      exact ⟨(i, j), this.1, by simpa using this.2, h3⟩
  by_cases hbad : ∃ i j, (i, j) ∈ Law.pairs n s ∧ u i j < q i j ∧
        (s_out.lookup i).isSome ≠ (s_in.lookup j).isSome
  · rw [if_pos (hex.2 hbad)] at hr
    refine ⟨⟨fun _ => hbad, fun _ => hr⟩, ?_, Or.inl hr⟩
    intro L hL
    rw [hr] at hL
    cases hL
  · rw [if_neg (fun h => hbad (hex.1 h))] at hr
    refine ⟨⟨fun h => ?_, fun h => absurd h hbad⟩, ?_, Or.inr ⟨_, hr⟩⟩
    · rw [hr] at h; cases h
    · intro L hL
      rw [hr] at hL
      cases hL
      constructor
      · rw [List.map_map]
        have : (Prod.fst ∘ fun l : ℕ × ℕ => (l, fin (entry s_out l.1 * entry s_in l.2 /
            ((s_out.map Prod.snd).sum * K.q (d * entry a l.1 * entry b l.2)) * e l.1 l.2)))
            = id := rfl
        rw [this, List.map_id]
        exact (nodup_pairOrder ha hb s).filter _
      · intro i j w
        simp only [List.mem_map, List.mem_filter, decide_eq_true_eq, Prod.mk.injEq, Prod.exists]
        constructor
        · rintro ⟨i', j', h1, ⟨rfl, rfl⟩, rfl⟩
          have := (hmem i' j').1 h1
          exact ⟨this.1, this.2, rfl⟩
        · rintro ⟨h1, h2, rfl⟩
          exact ⟨i, j, (hmem i j).2 ⟨h1, h2⟩, ⟨rfl, rfl⟩, rfl⟩

/-- Strengths of equal totals, the out-strength of vertex `1` not stored. -/
example : let s_out : List (ℕ × ℝ) := [(0, 2)]
    let s_in : List (ℕ × ℝ) := [(0, 1), (1, 1)]
    (s_out.map Prod.snd).sum ≠ 0 ∧ |(s_out.map Prod.snd).sum - (s_in.map Prod.snd).sum|
      < 1e-6 * |(s_out.map Prod.snd).sum| ∧ (s_out.lookup 1).isSome ≠ (s_in.lookup 0).isSome := by
  refine ⟨by norm_num, by norm_num, by decide⟩

/-! ## C63: projecting the layers -/

theorem prod_stored (K : Kind) (d : ℕ → ℝ≥0∞) (x y : ℕ → List (ℕ × ℝ≥0∞)) (n L : ℕ) (s : Bool)
    {e : ℕ × ℕ} (he : e ∈ Law.pairs n s) :
    ∏ k ∈ (Finset.range L).filter (fun k => e ∈ pairOrder (column n x k) (column n y k) s),
        (1 - layerProb K d x y k e) = ∏ k ∈ Finset.range L, (1 - layerProb K d x y k e) := by
  refine Finset.prod_subset (Finset.filter_subset _ _) (fun k hk hn => ?_)
  rw [pairOrder_zero he (fun h => hn (Finset.mem_filter.2 ⟨hk, h⟩)), sub_zero]

/-- The multi-layer ensemble of the sparse backend. -/
def Kind.sparseEns : Kind → (ℕ → ℝ≥0∞) → (ℕ → List (ℕ × ℝ≥0∞)) → (ℕ → List (ℕ × ℝ≥0∞)) → Ens
  | .fit => Ens.sparseMultiFit
  | .inv => Ens.sparseMultiInv

/-- The multi-layer ensemble of the dense backend. -/
def Kind.denseEns : Kind → ℕ → (ℕ → ℝ≥0∞) → (ℕ → ℕ → ℝ≥0∞) → (ℕ → ℕ → ℝ≥0∞) → Ens
  | .fit => Ens.denseMultiFit
  | .inv => Ens.denseMultiInv

/-- Sparse and spark: sampling all layers and forgetting the labels has the law of the projected
ensemble, whose likelihood `log_likelihood` computes for unlabelled graphs. -/
theorem C63_projection (K : Kind) (n L : ℕ) (d : ℕ → ℝ≥0∞) (x y : ℕ → List (ℕ × ℝ≥0∞))
    (hx : ∀ i, RowSorted (x i)) (hy : ∀ i, RowSorted (y i))
    (hxL : ∀ i, ∀ e ∈ x i, e.1 < L) (hyL : ∀ i, ∀ e ∈ y i, e.1 < L)
    (dyad : ℕ → ℕ → XR) (s : Bool)
    {Ω : Type} [MeasurableSpace Ω] (P : Measure Ω) (U : ℕ → Ω → ℝ) (hU : IsUniform P U)
    (G : Finset (ℕ × ℕ)) (hG : G ⊆ Law.pairs n s) :
    let ev := {ω | ((sample_stream K.link.p_ijk n L (fun k => ofENN (d k)) (fun i => rowX (x i))
        (fun i => rowX (y i)) dyad s (fun m => U m ω)).2).flatten.toFinset = G}
    P ev = ENNReal.ofReal (Law.prob (Law.pairs n s)
          (fun e => 1 - ∏ k ∈ Finset.range L, (1 - layerProb K d x y k e)) G) ∧
    P ev = ENNReal.ofReal (expLike ((K.sparseEns d x y).likelihood n (linkOf G) s)) := by
  intro ev
  let O := fun k => pairOrder (column n x k) (column n y k) s
  have hset : ev = {ω | ∀ e ∈ Law.pairs n s,
      (∃ k < L, e ∈ O k ∧ U (pos O k e) ω < layerProb K d x y k e) ↔ e ∈ G} := by
    ext ω
    have hmem : ∀ e, e ∈ ((sample_stream K.link.p_ijk n L (fun k => ofENN (d k))
        (fun i => rowX (x i)) (fun i => rowX (y i)) dyad s (fun m => U m ω)).2).flatten.toFinset
        ↔ ∃ k < L, e ∈ O k ∧ U (pos O k e) ω < layerProb K d x y k e := by
      intro e
      rw [List.mem_toFinset, List.mem_flatten]
      constructor
      · rintro ⟨l, hl, he⟩
        obtain ⟨k, hk⟩ := List.mem_iff_getElem?.1 hl
        have hkL : k < L := by
          have h1 := (List.getElem?_eq_some_iff.1 hk).1
          rw [sample_stream_eq K n L d x y hx hy] at h1
          simpa using h1
        have h2 := mem_sample_stream K n L d x y hx hy dyad s (fun m => U m ω) hkL
        dsimp only at h2
        rw [hk, Option.some_inj] at h2
        rw [h2, List.mem_filter, decide_eq_true_eq] at he
        exact ⟨k, hkL, he⟩
      · rintro ⟨k, hk, he⟩
        have h2 := mem_sample_stream K n L d x y hx hy dyad s (fun m => U m ω) hk
        dsimp only at h2
        refine ⟨_, List.mem_iff_getElem?.2 ⟨k, h2⟩, ?_⟩
        rw [List.mem_filter, decide_eq_true_eq]
        exact he
    simp only [ev, Set.mem_ofPred_eq]
    rw [Finset.ext_iff]
    simp only [hmem]
    constructor
    · intro h e _; exact h e
    · intro h e
      constructor
      · rintro ⟨k, hk, he, hlt⟩
        exact (h e (pairOrder_sub he)).1 ⟨k, hk, he, hlt⟩
      · intro he
        exact (h e (hG he)).2 he
  have h1 : P ev = ENNReal.ofReal (Law.prob (Law.pairs n s)
          (fun e => 1 - ∏ k ∈ Finset.range L, (1 - layerProb K d x y k e)) G) := by
    rw [hset, union_law hU O (layerProb K d x y) (fun k e => K.q_mem _) L G (Law.pairs n s)]
    congr 1
    unfold Law.prob
    refine Finset.prod_congr rfl (fun e he => ?_)
    rw [prod_stored K d x y n L s he]
    simp only [sub_sub_cancel]
  refine ⟨h1, ?_⟩
  rw [h1]
  congr 1
  symm
  cases K
  · exact (C12_formula (.sparseMultiFit L d x y hx hy hxL hyL) n s G).2
  · exact (C12_formula (.sparseMultiInv L d x y hx hy hxL hyL) n s G).2

example : ∀ i, ∀ e ∈ (fun i => [(0, (i : ℝ≥0∞)), (1, 1)]) i, e.1 < 2 := by
  intro i e he
  simp only [List.mem_cons, List.not_mem_nil, or_false] at he
  rcases he with rfl | rfl <;> norm_num

/-- Dense arrays. -/
theorem C63_dense (K : Kind) (n L : ℕ) (d : ℕ → ℝ≥0∞) (x y : ℕ → ℕ → ℝ≥0∞)
    (dyad : ℕ → ℕ → XR) (s : Bool)
    {Ω : Type} [MeasurableSpace Ω] (P : Measure Ω) (U : ℕ → Ω → ℝ) (hU : IsUniform P U)
    (G : Finset (ℕ × ℕ)) (hG : G ⊆ Law.pairs n s) :
    let ev := {ω | ((Dense.binary_sample_tensor_stream K.link.p_ijk n L
        (fun k => ofENN (d k)) (fun i k => ofENN (x i k)) (fun i k => ofENN (y i k)) dyad s
        (fun m => U m ω)).2.map Prod.snd).toFinset = G}
    P ev = ENNReal.ofReal (Law.prob (Law.pairs n s)
          (fun e => 1 - ∏ k ∈ Finset.range L, (1 - denseProb K d x y k e)) G) ∧
    P ev = ENNReal.ofReal (expLike ((K.denseEns L d x y).likelihood n (linkOf G) s)) := by
  intro ev
  let O : ℕ → List (ℕ × ℕ) := fun _ => order n s
  have hset : ev = {ω | ∀ e ∈ Law.pairs n s,
      (∃ k < L, e ∈ O k ∧ U (pos O k e) ω < denseProb K d x y k e) ↔ e ∈ G} := by
    ext ω
    have hmem : ∀ e, e ∈ ((Dense.binary_sample_tensor_stream K.link.p_ijk n L
        (fun k => ofENN (d k)) (fun i k => ofENN (x i k)) (fun i k => ofENN (y i k)) dyad s
        (fun m => U m ω)).2.map Prod.snd).toFinset
        ↔ ∃ k < L, e ∈ O k ∧ U (pos O k e) ω < denseProb K d x y k e := by
      intro e
      rw [List.mem_toFinset, List.mem_map]
      constructor
      · rintro ⟨⟨k, i, j⟩, h, rfl⟩
        rw [mem_dense_stream] at h
        exact ⟨k, h.1, mem_order.2 h.2.1, h.2.2⟩
      · rintro ⟨k, hk, he, hlt⟩
        refine ⟨(k, e.1, e.2), ?_, rfl⟩
        rw [mem_dense_stream]
        exact ⟨hk, mem_order.1 he, hlt⟩
    simp only [ev, Set.mem_ofPred_eq]
    rw [Finset.ext_iff]
    simp only [hmem]
    constructor
    · intro h e _; exact h e
    · intro h e
      constructor
      · rintro ⟨k, hk, he, hlt⟩
        exact (h e (mem_order.1 he)).1 ⟨k, hk, he, hlt⟩
      · intro he
        exact (h e (hG he)).2 he
  have h1 : P ev = ENNReal.ofReal (Law.prob (Law.pairs n s)
          (fun e => 1 - ∏ k ∈ Finset.range L, (1 - denseProb K d x y k e)) G) := by
    rw [hset, union_law hU O (denseProb K d x y) (fun k e => K.q_mem _) L G (Law.pairs n s)]
    congr 1
    unfold Law.prob
    refine Finset.prod_congr rfl (fun e he => ?_)
    have : (Finset.range L).filter (fun k => e ∈ O k) = Finset.range L :=
      Finset.filter_true_of_mem (fun k _ => mem_order.2 he)
    rw [this]
    simp only [sub_sub_cancel]
  refine ⟨h1, ?_⟩
  rw [h1]
  congr 1
  symm
  cases K
  · exact (C12_formula (.denseMultiFit L d x y) n s G).2
  · exact (C12_formula (.denseMultiInv L d x y) n s G).2

end Layer

end

end Verif
