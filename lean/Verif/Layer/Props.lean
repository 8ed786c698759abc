import Verif.Layer.DegLemmas

/-! # C49: label-resolved expectations

`K` is one of the two families of multi-layer models (`Kind.fit`, `Kind.inv`); the probability of
the link `(i, j)` in layer `k` is `K.q (d k * x i k * y j k)`. -/

namespace Verif

noncomputable section

open XR Spec
open scoped ENNReal

namespace Layer

/-- Link probabilities of layer `k` for properties stored in rows. -/
def layerProb (K : Kind) (d : ℕ → ℝ≥0∞) (x y : ℕ → List (ℕ × ℝ≥0∞)) (k : ℕ) (e : ℕ × ℕ) : ℝ :=
  K.q (d k * entry (x e.1) k * entry (y e.2) k)

/-- Link probabilities of layer `k` for properties in arrays. -/
def denseProb (K : Kind) (d : ℕ → ℝ≥0∞) (x y : ℕ → ℕ → ℝ≥0∞) (k : ℕ) (e : ℕ × ℕ) : ℝ :=
  K.q (d k * x e.1 k * y e.2 k)

/-- Vertices `i` and `j` both store an out and an in property in layer `k`. -/
def Mutual (x y : ℕ → List (ℕ × ℝ≥0∞)) (k i j : ℕ) : Prop :=
  i ≠ j ∧ ((x i).lookup k).isSome ∧ ((y i).lookup k).isSome ∧ ((x j).lookup k).isSome ∧
    ((y j).lookup k).isSome

instance (x y : ℕ → List (ℕ × ℝ≥0∞)) (k i j : ℕ) : Decidable (Mutual x y k i j) := by
  unfold Mutual; infer_instance

/-! ## Edges -/

/-- Sparse and spark: the entry of label `k` is the mean number of links of layer `k`. -/
theorem C49_edges (K : Kind) (n L : ℕ) (d : ℕ → ℝ≥0∞) (x y : ℕ → List (ℕ × ℝ≥0∞))
    (hx : ∀ i, RowSorted (x i)) (hy : ∀ i, RowSorted (y i)) (dyad : ℕ → ℕ → XR) (s : Bool) :
    exp_edges_label K.link.p_ijk n L (fun k => ofENN (d k)) (fun i => rowX (x i))
        (fun i => rowX (y i)) dyad s
      = (List.range L).map (fun k =>
          fin (Law.mean (Law.pairs n s) (layerProb K d x y k) (fun G => (G.card : ℝ)))) := by
  unfold exp_edges_label
  refine List.map_congr_left (fun k _ => ?_)
  rw [column_rowX, column_rowX, exp_edges_layer_eq K (d k) (column_sorted hx k)
    (column_sorted hy k) column_lt column_lt, Law.mean_card]
  congr 1
  refine Finset.sum_congr rfl (fun e he => ?_)
  rw [Law.mem_pairs] at he
  rw [entry_column he.1, entry_column he.2.1]
  rfl

example : ∀ i, RowSorted ((fun i => [(0, (i : ℝ≥0∞)), (2, 1)]) i) := by
  intro i; unfold RowSorted; simp

/-- Dense arrays, as many labels as vertices. -/
theorem C49_dense_edges_partial (K : Kind) (n : ℕ) (d : ℕ → ℝ≥0∞) (x y : ℕ → ℕ → ℝ≥0∞)
    (dyad : ℕ → ℕ → XR) (s : Bool) :
    Dense.exp_edges_label K.link.p_ijk n n (fun k => ofENN (d k)) (fun i k => ofENN (x i k))
        (fun i k => ofENN (y i k)) dyad s
      = some ((List.range n).map (fun k =>
          fin (Law.mean (Law.pairs n s) (denseProb K d x y k) (fun G => (G.card : ℝ))))) := by
  unfold Dense.exp_edges_label
  have h : ∀ k ∈ List.range n,
      ((Dense.col n (fun i k => ofENN (x i k)) k).bind (fun a =>
        (Dense.col n (fun i k => ofENN (y i k)) k).map (fun b =>
          Dense.exp_edges_col K.link.p_ijk (ofENN (d k)) n a b dyad s)))
      = some (fin (Law.mean (Law.pairs n s) (denseProb K d x y k) (fun G => (G.card : ℝ)))) := by
    intro k hk
    have hk := List.mem_range.1 hk
    simp only [Dense.col, if_pos hk, Option.bind_some, Option.map_some, Option.some.injEq]
    rw [Law.mean_card, sum_pairs]
    exact DiGraphEnsemble.exp_edges_eq (q := fun i j => denseProb K d x y k (i, j))
      (p_ij := K.link.p_ijk) (param := ofENN (d k)) (prop_out := fun i => ofENN (x i k))
      (prop_in := fun i => ofENN (y i k)) (prop_dyad := dyad)
      (fun i _ j _ _ => K.p_eq _ _ _ _)
  generalize List.range n = l at h
  induction l with
  | nil => rfl
  | cons k l ih =>
    rw [List.mapM_cons, h k (by simp), ih (fun k hk => h k (by simp [hk]))]
    rfl

/-- With fewer labels than vertices the dense loop leaves the array; with more labels the last ones
are missing from the result. -/
theorem C49_dense_edges_violated :
    (∀ (K : Kind) (n L : ℕ) (param : ℕ → XR) (po pi : ℕ → ℕ → XR) (dyad : ℕ → ℕ → XR) (s : Bool),
      L < n → Dense.exp_edges_label K.link.p_ijk n L param po pi dyad s = none) ∧
    (∀ (K : Kind) (n L : ℕ) (param : ℕ → XR) (po pi : ℕ → ℕ → XR) (dyad : ℕ → ℕ → XR) (s : Bool)
      (r : List XR), n < L →
      Dense.exp_edges_label K.link.p_ijk n L param po pi dyad s = some r → r.length < L) := by
  have len : ∀ (f : ℕ → Option XR) (l : List ℕ) (r : List XR), l.mapM f = some r →
      r.length = l.length ∧ ∀ k ∈ l, f k ≠ none := by
    intro f l
    induction l with
    | nil => intro r h; cases h; simp
    | cons k l ih =>
      intro r h
      rw [List.mapM_cons] at h
      cases hk : f k with
      | none => rw [hk] at h; cases h
      | some v =>
        rw [hk] at h
        cases hl : l.mapM f with
        | none => rw [hl] at h; cases h
        | some t =>
          rw [hl] at h
          cases h
          have := ih t hl
          refine ⟨by simp [this.1], ?_⟩
          intro j hj
          rcases List.mem_cons.1 hj with rfl | hj
          · rw [hk]; simp
          · exact this.2 j hj
  constructor
  · intro K n L param po pi dyad s h
    cases hr : Dense.exp_edges_label K.link.p_ijk n L param po pi dyad s with
    | none => rfl
    | some r =>
      exfalso
      refine (len _ _ r hr).2 L (List.mem_range.2 h) ?_
      simp [Dense.col]
  · intro K n L param po pi dyad s r h hr
    rw [(len _ _ r hr).1, List.length_range]
    exact h

example : (1 < 2) ∧ Dense.exp_edges_label Kind.fit.link.p_ijk 1 2 (fun _ => 1) (fun _ _ => 1)
    (fun _ _ => 1) (fun _ _ => 1) true ≠ none := by
  refine ⟨by norm_num, ?_⟩
  simp [Dense.exp_edges_label, Dense.col]

/-! ## Degrees, sparse and spark -/

/-- The entries of the dictionaries are the means plus one more time the pairs in which both
vertices have both properties. -/
theorem triple_eq (K : Kind) (n : ℕ) (d : ℕ → ℝ≥0∞) (x y : ℕ → List (ℕ × ℝ≥0∞)) (s : Bool)
    {k i : ℕ} (hi : i < n) :
    let q := layerProb K d x y k
    let M := Law.mean (Law.pairs n s) q
    triple K n d x y s k i
      = (M (fun G => (Law.degree n G i : ℝ)) + ∑ j ∈ Finset.range n,
            if Mutual x y k i j then q (i, j) + q (j, i) - q (i, j) * q (j, i) else 0,
          M (fun G => (Law.outDegree G i : ℝ)) + ∑ j ∈ Finset.range n,
            if Mutual x y k i j then q (i, j) else 0,
          M (fun G => (Law.inDegree G i : ℝ)) + ∑ j ∈ Finset.range n,
            if Mutual x y k i j then q (j, i) else 0) := by
  intro q M
  have hq : ∀ a < n, ∀ b < n,
      K.q (d k * entry (column n x k) a * entry (column n y k) b) = q (a, b) := by
    intro a ha b hb
    rw [entry_column ha, entry_column hb]; rfl
  have hst : ∀ (z : ℕ → List (ℕ × ℝ≥0∞)), ∀ a < n,
      stored (column n z k) a = ((z a).lookup k).isSome := by
    intro z a ha; unfold stored; rw [lookup_column, if_pos ha]
  have hm : ∀ j < n, ((stored (column n x k) i && stored (column n y k) j
      && stored (column n x k) j && stored (column n y k) i && !(j == i)) = true)
      ↔ Mutual x y k i j := by
    intro j hj
    rw [hst x i hi, hst y j hj, hst x j hj, hst y i hi]
    unfold Mutual
    simp only [Bool.and_eq_true, Bool.not_eq_true', beq_eq_false_iff_ne, ne_eq]
    constructor
    · rintro ⟨⟨⟨⟨h1, h2⟩, h3⟩, h4⟩, h5⟩; exact ⟨fun h => h5 h.symm, h1, h4, h3, h2⟩
    · rintro ⟨h5, h1, h4, h3, h2⟩; exact ⟨⟨⟨⟨h1, h2⟩, h3⟩, h4⟩, fun h => h5 h.symm⟩
  have hmasked : ∀ a < n, ∀ b < n, DiGraphEnsemble.masked s
      (fun i j => K.q (d k * entry (column n x k) i * entry (column n y k) j)) a b
      = DiGraphEnsemble.masked s (fun i j => q (i, j)) a b := by
    intro a ha b hb
    unfold DiGraphEnsemble.masked; dsimp only; rw [hq a ha b hb]
  have hundir : ∀ a < n, ∀ b < n, DiGraphEnsemble.undir s
      (fun i j => K.q (d k * entry (column n x k) i * entry (column n y k) j)) a b
      = DiGraphEnsemble.undir s (fun i j => q (i, j)) a b := by
    intro a ha b hb
    unfold DiGraphEnsemble.undir; dsimp only; rw [hq a ha b hb, hq b hb a ha, hq a ha a ha]
  simp only [M]
  rw [mean_degree n s q i hi, mean_outDegree n s q i hi, mean_inDegree n s q i hi]
  unfold triple
  dsimp only
  refine Prod.ext ?_ (Prod.ext ?_ ?_)
  · dsimp only
    congr 1
    · exact Finset.sum_congr rfl (fun j hj => hundir i hi j (Finset.mem_range.1 hj))
    · refine Finset.sum_congr rfl (fun j hj => ?_)
      have hj := Finset.mem_range.1 hj
      rw [hq i hi j hj, hq j hj i hi]
      exact if_congr (hm j hj) rfl rfl
  · dsimp only
    congr 1
    · exact Finset.sum_congr rfl (fun j hj => hmasked i hi j (Finset.mem_range.1 hj))
    · refine Finset.sum_congr rfl (fun j hj => ?_)
      have hj := Finset.mem_range.1 hj
      rw [hq i hi j hj]
      exact if_congr (hm j hj) rfl rfl
  · dsimp only
    congr 1
    · exact Finset.sum_congr rfl (fun j hj => hmasked j (Finset.mem_range.1 hj) i hi)
    · refine Finset.sum_congr rfl (fun j hj => ?_)
      have hj := Finset.mem_range.1 hj
      rw [hq j hj i hi]
      exact if_congr (hm j hj) rfl rfl

/-- What the sparse and the spark backend compute, for all inputs: the mean degrees plus the pairs
in which both vertices have both properties once more. -/
theorem C49_degrees_computed (K : Kind) (n L : ℕ) (d : ℕ → ℝ≥0∞)
    (x y : ℕ → List (ℕ × ℝ≥0∞)) (hx : ∀ i, RowSorted (x i)) (hy : ∀ i, RowSorted (y i))
    (dyad : ℕ → ℕ → XR) (s : Bool) (i k : ℕ) (hi : i < n) (hk : k < L) :
    let D := exp_degrees_label K.link.p_ijk n L (fun k => ofENN (d k)) (fun i => rowX (x i))
        (fun i => rowX (y i)) dyad s
    let S := Spark.degrees_by_label K.link.p_ijk n L (fun k => ofENN (d k))
      (fun i => rowX (x i)) (fun i => rowX (y i)) dyad s
    let q := layerProb K d x y k
    let M := Law.mean (Law.pairs n s) q
    let deg := M (fun G => (Law.degree n G i : ℝ)) + ∑ j ∈ Finset.range n,
      if Mutual x y k i j then q (i, j) + q (j, i) - q (i, j) * q (j, i) else 0
    let out := M (fun G => (Law.outDegree G i : ℝ)) + ∑ j ∈ Finset.range n,
      if Mutual x y k i j then q (i, j) else 0
    let inn := M (fun G => (Law.inDegree G i : ℝ)) + ∑ j ∈ Finset.range n,
      if Mutual x y k i j then q (j, i) else 0
    (at_ D.d i k = fin deg ∧ at_ D.dOut i k = fin out ∧ at_ D.dIn i k = fin inn) ∧
    (S Dicts.d i k = fin deg ∧ S Dicts.dOut i k = fin out ∧ S Dicts.dIn i k = fin inn) := by
  intro D S q M deg out inn
  have h1 := sparse_triple K n L d hx hy dyad s hi hk
  have h2 := spark_triple K n L d hx hy dyad s hi hk
  have h3 := triple_eq K n d x y s (k := k) hi
  dsimp only at h1 h2 h3
  rw [h3] at h1 h2
  exact ⟨h1, h2⟩

/-- Sparse and spark, as long as in layer `k` no two vertices both have both properties: the
degrees by label are the means, and the out (and in) degrees add up to the expected number of links
of the label. -/
theorem C49_degrees_partial (K : Kind) (n L : ℕ) (d : ℕ → ℝ≥0∞)
    (x y : ℕ → List (ℕ × ℝ≥0∞)) (hx : ∀ i, RowSorted (x i)) (hy : ∀ i, RowSorted (y i))
    (dyad : ℕ → ℕ → XR) (s : Bool) (k : ℕ) (hk : k < L)
    (hno : ∀ i < n, ∀ j < n, ¬ Mutual x y k i j) :
    let D := exp_degrees_label K.link.p_ijk n L (fun k => ofENN (d k)) (fun i => rowX (x i))
        (fun i => rowX (y i)) dyad s
    let S := Spark.degrees_by_label K.link.p_ijk n L (fun k => ofENN (d k))
      (fun i => rowX (x i)) (fun i => rowX (y i)) dyad s
    let E := exp_edges_label K.link.p_ijk n L (fun k => ofENN (d k)) (fun i => rowX (x i))
        (fun i => rowX (y i)) dyad s
    let M := Law.mean (Law.pairs n s) (layerProb K d x y k)
    (∀ i < n,
      (at_ D.d i k = fin (M (fun G => (Law.degree n G i : ℝ))) ∧
        at_ D.dOut i k = fin (M (fun G => (Law.outDegree G i : ℝ))) ∧
        at_ D.dIn i k = fin (M (fun G => (Law.inDegree G i : ℝ)))) ∧
      (S Dicts.d i k = fin (M (fun G => (Law.degree n G i : ℝ))) ∧
        S Dicts.dOut i k = fin (M (fun G => (Law.outDegree G i : ℝ))) ∧
        S Dicts.dIn i k = fin (M (fun G => (Law.inDegree G i : ℝ))))) ∧
    E[k]? = some (fin (∑ i ∈ Finset.range n, M (fun G => (Law.outDegree G i : ℝ)))) ∧
    E[k]? = some (fin (∑ i ∈ Finset.range n, M (fun G => (Law.inDegree G i : ℝ)))) := by
  intro D S E M
  refine ⟨fun i hi => ?_, ?_⟩
  · have h := C49_degrees_computed K n L d x y hx hy dyad s i k hi hk
    dsimp only at h
    have z : ∀ (f : ℕ → ℝ), (∑ j ∈ Finset.range n, if Mutual x y k i j then f j else 0) = 0 :=
      fun f => Finset.sum_eq_zero (fun j hj => if_neg (hno i hi j (Finset.mem_range.1 hj)))
    rw [z (fun j => layerProb K d x y k (i, j) + layerProb K d x y k (j, i)
        - layerProb K d x y k (i, j) * layerProb K d x y k (j, i)),
      z (fun j => layerProb K d x y k (i, j)), z (fun j => layerProb K d x y k (j, i)),
      add_zero, add_zero, add_zero] at h
    exact h
  · have e : E[k]? = some (fin (Law.mean (Law.pairs n s) (layerProb K d x y k)
        (fun G => (G.card : ℝ)))) := by
      simp only [E]
      rw [C49_edges K n L d x y hx hy dyad s, List.getElem?_map, List.getElem?_range hk]
      rfl
    rw [e, Law.mean_card, sum_pairs]
    constructor
    · congr 2
      refine Finset.sum_congr rfl (fun i hi => ?_)
      simp only [M]
      rw [mean_outDegree n s _ i (Finset.mem_range.1 hi)]
      rfl
    · congr 2
      rw [Finset.sum_comm]
      refine Finset.sum_congr rfl (fun i hi => ?_)
      simp only [M]
      rw [mean_inDegree n s _ i (Finset.mem_range.1 hi)]
      rfl

/-- A layer in which vertex `0` only sends and vertex `1` sends and receives. -/
example : let x : ℕ → List (ℕ × ℝ≥0∞) := fun _ => [(0, 1)]
    let y : ℕ → List (ℕ × ℝ≥0∞) := fun i => if i = 1 then [(0, 2)] else []
    (∀ i, RowSorted (x i)) ∧ (∀ i, RowSorted (y i)) ∧ ∀ i < 2, ∀ j < 2, ¬ Mutual x y 0 i j := by
  intro x y
  refine ⟨fun i => by simp [x, RowSorted], fun i => by simp only [y]; split <;> simp [RowSorted],
    ?_⟩
  rintro i hi j hj ⟨h1, -, h2, -, h3⟩
  simp only [y] at h2 h3
  have a : i = 1 := by by_contra h; simp [h] at h2
  have b : j = 1 := by by_contra h; simp [h] at h3
  exact h1 (a.trans b.symm)

/-- Two vertices with unit properties and parameter one: the mean out degree is one half, the sparse
and spark backends return one; the out degrees sum to twice the expected number of links. -/
theorem C49_degrees_violated (K : Kind) :
    let x : ℕ → List (ℕ × ℝ≥0∞) := fun _ => [(0, 1)]
    let d : ℕ → ℝ≥0∞ := fun _ => 1
    let D := exp_degrees_label K.link.p_ijk 2 1 (fun k => ofENN (d k)) (fun i => rowX (x i))
        (fun i => rowX (x i)) (fun _ _ => 0) false
    let S := Spark.degrees_by_label K.link.p_ijk 2 1 (fun k => ofENN (d k))
      (fun i => rowX (x i)) (fun i => rowX (x i)) (fun _ _ => 0) false
    let m := Law.mean (Law.pairs 2 false) (layerProb K d x x 0)
      (fun G => (Law.outDegree G 0 : ℝ))
    0 < m ∧ at_ D.dOut 0 0 = fin (2 * m) ∧ S Dicts.dOut 0 0 = fin (2 * m) := by
  intro x d D S m
  have hx : ∀ i, RowSorted (x i) := fun i => by simp [x, RowSorted]
  have h := C49_degrees_computed K 2 1 d x x hx hx (fun _ _ => 0) false 0 0 (by norm_num)
    (by norm_num)
  dsimp only at h
  have hm : m = K.q 1 := by
    simp only [m]
    rw [mean_outDegree 2 false _ 0 (by norm_num)]
    simp [Finset.sum_range_succ, DiGraphEnsemble.masked, admissible, layerProb, x, d, entry]
  have he : (∑ j ∈ Finset.range 2, if Mutual x x 0 0 j then layerProb K d x x 0 (0, j) else 0)
      = K.q 1 := by
    simp [Finset.sum_range_succ, Mutual, layerProb, x, d, entry]
  refine ⟨by rw [hm]; exact K.q_pos one_ne_zero, ?_, ?_⟩
  · rw [two_mul]; nth_rewrite 2 [hm]; rw [← he]; exact h.1.2.1
  · rw [two_mul]; nth_rewrite 2 [hm]; rw [← he]; exact h.2.2.1

/-! ## Degrees, dense -/

/-- Dense arrays: the degrees by label are the means, and the out and in degrees add up to the
mean number of links of the label. -/
theorem C49_dense_degrees (K : Kind) (n L : ℕ) (d : ℕ → ℝ≥0∞) (x y : ℕ → ℕ → ℝ≥0∞)
    (dyad : ℕ → ℕ → XR) (s : Bool) (k : ℕ) (hk : k < L) :
    let D := Dense.exp_degrees_label K.link.p_ijk n L (fun k => ofENN (d k))
      (fun i k => ofENN (x i k)) (fun i k => ofENN (y i k)) dyad s
    let M := Law.mean (Law.pairs n s) (denseProb K d x y k)
    (∀ i < n, D.exp_d (i, k) = fin (M (fun G => (Law.degree n G i : ℝ))) ∧
      D.exp_d_out (i, k) = fin (M (fun G => (Law.outDegree G i : ℝ))) ∧
      D.exp_d_in (i, k) = fin (M (fun G => (Law.inDegree G i : ℝ)))) ∧
    ∑ i ∈ Finset.range n, M (fun G => (Law.outDegree G i : ℝ)) = M (fun G => (G.card : ℝ)) ∧
    ∑ i ∈ Finset.range n, M (fun G => (Law.inDegree G i : ℝ)) = M (fun G => (G.card : ℝ)) := by
  intro D M
  refine ⟨fun i hi => ?_, ?_, ?_⟩
  · have hs := Dense.slice_label K.link.p_ijk (fun k => ofENN (d k)) (fun i k => ofENN (x i k))
      (fun i k => ofENN (y i k)) dyad s n L k hk
    have h := DiGraphEnsemble.exp_degrees_at (q := fun i j => denseProb K d x y k (i, j))
      (selfloops := s) (p_ij := K.link.p_ijk) (param := ofENN (d k))
      (prop_out := fun i => ofENN (x i k)) (prop_in := fun i => ofENN (y i k))
      (prop_dyad := dyad) (n := n) (fun i _ j _ _ => K.p_eq _ _ _ _) i hi
    dsimp only at h
    simp only [M]
    rw [mean_degree n s _ i hi, mean_outDegree n s _ i hi, mean_inDegree n s _ i hi]
    rw [← hs] at h
    exact h
  · simp only [M]
    rw [Law.mean_card, sum_pairs]
    refine Finset.sum_congr rfl (fun i hi => ?_)
    rw [mean_outDegree n s _ i (Finset.mem_range.1 hi)]
    rfl
  · simp only [M]
    rw [Law.mean_card, sum_pairs, Finset.sum_comm]
    refine Finset.sum_congr rfl (fun i hi => ?_)
    rw [mean_inDegree n s _ i (Finset.mem_range.1 hi)]
    rfl

/-- With unit properties and two vertices the dense value is one half. -/
example : (0 : ℕ) < 1 ∧ denseProb .fit (fun _ => 1) (fun _ _ => 1) (fun _ _ => 1) 0 (0, 1) = 1 / 2 := by
  refine ⟨by norm_num, ?_⟩
  simp [denseProb, Kind.q, fitProb]
  norm_num

end Layer

end

end Verif
