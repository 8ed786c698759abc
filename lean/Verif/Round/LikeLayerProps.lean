import Verif.Round.LikeLayer
import Verif.Round.LikeProps
import Verif.Round.LayerProps

/-!
# C115: log-likelihoods of labelled graphs in double precision

Missing in the theorems (suffix `_partial`): factors whose partial products leave the range of
`Round.LayerRange` or are above `2 ^ 40` (see `C115_large_violated`), and mathematical functions that are not correctly rounded.
-/

namespace Verif

open XR Round Verif.Spec

private theorem conclude {a : ℝ} {N : ℕ} {c e : XR} (h : LRes a N c e) :
    (c = ninf ∧ e = ninf) ∨ ∃ l M : ℝ, c = fin l ∧ e = fin M ∧ l ≤ 0 ∧ M ≤ 0 ∧
      |l - M| ≤ N * (3 * (2 : ℝ) ^ (-53 : ℤ)) * (|M| + a + 1) := by
  rcases h with h | ⟨v, _, V, e1, e2, v0, V0, _, hv⟩
  · exact .inl h
  · refine .inr ⟨v, V, e1, e2, v0, V0, hv.trans (le_of_eq ?_)⟩
    rw [abs_of_nonpos V0]
    show _ = _ * (3 * ulp2) * _
    ring

private theorem card_labels (n L : ℕ) (sl : Bool) (x y : ℕ → List (ℕ × ℝ)) :
    ∑ k ∈ Finset.range L, ((Round.stored n L sl x y).filter fun e => e.1 = k).card
      = (Round.stored n L sl x y).card := by
  refine (Finset.card_eq_sum_card_fiberwise (f := fun e : ℕ × ℕ × ℕ => e.1) ?_).symm
  intro e he
  classical
  have := (Finset.mem_filter.1 (show e ∈ Round.stored n L sl x y from he)).1
  exact Finset.mem_coe.2 (Finset.mem_product.1 this).1

/-- **C115**, sparse backend and spark.  If no product of parameter and properties exceeds `T`, the
log-likelihood of a labelled graph computed in double precision is minus infinity exactly if it is so
without rounding, and otherwise differs from it by at most the stated bound, `N` being the number of
labelled pairs that store the label, plus the number of labels. -/
theorem C115_sparse_partial (f : ((XR → XR → XR → XR → XR) × (XR → XR → XR → XR → XR)) ×
      ((XR → XR → XR → XR → XR) × (XR → XR → XR → XR → XR))) (hf : f ∈ Round.layerLogModels)
    (n L : ℕ) (T : ℝ) (d : ℕ → ℝ) (x y : ℕ → List (ℕ × ℝ)) (hx : ∀ i, RowSorted (x i))
    (hy : ∀ i, RowSorted (y i)) (T0 : 0 ≤ T) (hT : T ≤ 2 ^ 40)
    (h : ∀ i < n, ∀ j < n, ∀ k a b, (k, a) ∈ x i → (k, b) ∈ y j →
      Round.LayerRange (d k) a b ∧ d k * a * b ≤ T)
    (dyad : ℕ → ℕ → XR) (nbrs : ℕ → ℕ → List ℕ) (sl : Bool)
    (hN : (Round.stored n L sl x y).card + L ≤ 2 ^ 50) :
    let N := (Round.stored n L sl x y).card + L
    let D : ℕ → XR := fun k => fin (d k)
    let X := fun i => Round.row (x i)
    let Y := fun i => Round.row (y i)
    let near : XR → XR → Prop := fun computed exact =>
      (computed = ninf ∧ exact = ninf) ∨
      ∃ l M : ℝ, computed = fin l ∧ exact = fin M ∧ l ≤ 0 ∧ M ≤ 0 ∧
        |l - M| ≤ N * (3 * (2 : ℝ) ^ (-53 : ℤ)) * (|M| + 9 * (1 + T) + 1)
    near (Round.log_likelihood_tensor binary64 f.1.1 f.1.2 n L D X Y dyad nbrs sl)
        (Layer.log_likelihood f.2.1 f.2.2 n L D X Y dyad nbrs sl) ∧
      near (Round.Spark.log_likelihood_tensor binary64 f.1.1 f.1.2 n L D X Y dyad nbrs sl)
        (Layer.Spark.log_likelihood f.2.1 f.2.2 n L D X Y dyad nbrs sl) := by
  intro N D X Y near
  have a0 : 0 ≤ 9 * (1 + T) := by linarith
  have a1 : 9 * (1 + T) ≤ 2 ^ 100 := by linarith
  have hs := card_labels n L sl x y
  have key : ∀ k < L, LRes (9 * (1 + T)) ((Round.stored n L sl x y).filter fun e => e.1 = k).card
      (Round.likelihood_layer binary64 f.1.1 f.1.2 (D k) n (Layer.column n X k)
        (Layer.column n Y k) dyad (nbrs k) sl)
      (Layer.likelihood_layer f.2.1 f.2.2 (D k) n (Layer.column n X k) (Layer.column n Y k) dyad
        (nbrs k) sl) := by
    intro k hk
    have hc := Round.visits_card (n := n) (L := L) (sl := sl) hx hy hk
    have hle : ((Round.stored n L sl x y).filter fun e => e.1 = k).card ≤ 2 ^ 50 :=
      (Finset.card_filter_le _ _).trans (by omega)
    rw [← hc]
    refine likelihood_layer_rel a0 a1 (by rw [hc]; exact hle) ?_
    rintro ⟨i, v⟩ hv ⟨j, w⟩ hw
    obtain ⟨hi, hv⟩ := Layer.mem_column.1 hv
    obtain ⟨hj, hw⟩ := Layer.mem_column.1 hw
    obtain ⟨a, rfl, ha⟩ := Round.mem_row hv
    obtain ⟨b, rfl, hb⟩ := Round.mem_row hw
    obtain ⟨h1, h2⟩ := h i hi j hj k a b ha hb
    exact Round.layer_log_term hf h1 T0 hT h2 _
  obtain ⟨r1, r2⟩ := labels_rel a0 a1 _ (by rw [hs]; exact hN) key
  rw [hs] at r1 r2
  exact ⟨conclude r1, conclude r2⟩

/-- **C115**, dense backend: `N` is the number of labelled pairs. -/
theorem C115_dense_partial (f : ((XR → XR → XR → XR → XR) × (XR → XR → XR → XR → XR)) ×
      ((XR → XR → XR → XR → XR) × (XR → XR → XR → XR → XR))) (hf : f ∈ Round.layerLogModels)
    (n L : ℕ) (T : ℝ) (d : ℕ → ℝ) (x y : ℕ → ℕ → ℝ) (T0 : 0 ≤ T) (hT : T ≤ 2 ^ 40)
    (h : ∀ i < n, ∀ j < n, ∀ k < L,
      Round.LayerRange (d k) (x i k) (y j k) ∧ d k * x i k * y j k ≤ T)
    (dyad : ℕ → ℕ → XR) (adj : ℕ → ℕ → ℕ → Bool) (sl : Bool)
    (hN : L * (n * (if sl then n else n - 1)) ≤ 2 ^ 50) :
    let N := L * (n * (if sl then n else n - 1))
    let D : ℕ → XR := fun k => fin (d k)
    let X : ℕ → ℕ → XR := fun i k => fin (x i k)
    let Y : ℕ → ℕ → XR := fun i k => fin (y i k)
    let computed := Round.Dense.likelihood_tensor binary64 f.1.1 f.1.2 n L D X Y dyad adj sl
    let exact := Layer.Dense.likelihood_tensor f.2.1 f.2.2 n L D X Y dyad adj sl
    (computed = ninf ∧ exact = ninf) ∨
    ∃ l M : ℝ, computed = fin l ∧ exact = fin M ∧ l ≤ 0 ∧ M ≤ 0 ∧
      |l - M| ≤ N * (3 * (2 : ℝ) ^ (-53 : ℤ)) * (|M| + 9 * (1 + T) + 1) := by
  intro N D X Y computed exact'
  have a0 : 0 ≤ 9 * (1 + T) := by linarith
  have a1 : 9 * (1 + T) ≤ 2 ^ 100 := by linarith
  have hlen := length_triples n L sl
  refine conclude ?_
  show LRes _ _ (Round.Dense.likelihood_tensor binary64 f.1.1 f.1.2 n L D X Y dyad adj sl)
    (Round.Dense.likelihood_tensor Arith.exact f.2.1 f.2.2 n L D X Y dyad adj sl)
  rw [dense_tensor_eq, dense_tensor_eq]
  have key := addTerms_rel a0 a1 (f := fun v : ℕ × ℕ × ℕ =>
      if adj v.1 v.2.1 v.2.2 then f.1.1 (D v.1) (X v.2.1 v.1) (Y v.2.2 v.1) (dyad v.2.1 v.2.2)
      else f.1.2 (D v.1) (X v.2.1 v.1) (Y v.2.2 v.1) (dyad v.2.1 v.2.2))
    (g := fun v : ℕ × ℕ × ℕ =>
      if adj v.1 v.2.1 v.2.2 then f.2.1 (D v.1) (X v.2.1 v.1) (Y v.2.2 v.1) (dyad v.2.1 v.2.2)
      else f.2.2 (D v.1) (X v.2.1 v.1) (Y v.2.2 v.1) (dyad v.2.1 v.2.2)) (triples n L sl)
    (fun v hv => by
      obtain ⟨h1, h2, h3⟩ := mem_triples hv
      obtain ⟨g1, g2⟩ := h _ h2 _ h3 _ h1
      have := Round.layer_log_term hf g1 T0 hT g2 (dyad v.2.1 v.2.2)
      split
      · exact this.1
      · exact this.2) (lacc_zero _) (by rw [hlen]; omega)
  rw [Nat.zero_add, hlen] at key
  exact key.value

private theorem moderate {r : ℝ} (h1 : 1 ≤ r) (h2 : r ≤ 32) :
    (2 : ℝ) ^ (-1000 : ℤ) ≤ r ∧ r ≤ (2 : ℝ) ^ (1000 : ℤ) :=
  ⟨(zpow_le_one_of_nonpos₀ (by norm_num) (by norm_num)).trans h1,
    h2.trans ((show (32 : ℝ) ≤ (2 : ℝ) ^ (5 : ℤ) by norm_num).trans
      (zpow_le_zpow_right₀ (by norm_num) (by norm_num)))⟩

/-- Two vertices that store the labels 0 and 1 in both directions. -/
example : (∀ _ : ℕ, RowSorted [(0, (2 : ℝ)), (1, 1)]) ∧ (0 : ℝ) ≤ 4 ∧ (4 : ℝ) ≤ 2 ^ 40 ∧
    (∀ k a b, (k, a) ∈ [(0, (2 : ℝ)), (1, 1)] → (k, b) ∈ [(0, (2 : ℝ)), (1, 1)] →
      Round.LayerRange 1 a b ∧ 1 * a * b ≤ 4) ∧
    (Round.stored 2 2 true (fun _ => [(0, (2 : ℝ)), (1, 1)]) (fun _ => [(0, (2 : ℝ)), (1, 1)])).card
      + 2 ≤ 2 ^ 50 := by
  refine ⟨fun _ => by simp [RowSorted], by norm_num, by norm_num, fun k a b ha hb => ?_, ?_⟩
  · simp only [List.mem_cons, Prod.mk.injEq, List.not_mem_nil, or_false] at ha hb
    rcases ha with ⟨rfl, rfl⟩ | ⟨rfl, rfl⟩ <;> rcases hb with ⟨h, rfl⟩ | ⟨h, rfl⟩ <;>
      exact ⟨.inr ⟨by norm_num, by norm_num, by norm_num, moderate (by norm_num) (by norm_num),
        moderate (by norm_num) (by norm_num)⟩, by norm_num⟩
  · have h1 : (Round.stored 2 2 true (fun _ => [(0, (2 : ℝ)), (1, 1)])
        (fun _ => [(0, (2 : ℝ)), (1, 1)])).card ≤ (Finset.range 2 ×ˢ Law.pairs 2 true).card :=
      by classical exact Finset.card_filter_le _ _
    have h2 : (Law.pairs 2 true).card ≤ (Finset.range 2 ×ˢ Finset.range 2).card :=
      Finset.card_le_card fun e he => by
        obtain ⟨h3, h4, _⟩ := Law.mem_pairs.1 (show (e.1, e.2) ∈ _ from he)
        exact Finset.mem_product.2 ⟨Finset.mem_range.2 h3, Finset.mem_range.2 h4⟩
    rw [Finset.card_product, Finset.card_range] at h1
    rw [Finset.card_product, Finset.card_range] at h2
    omega

/-- A vertex without out properties under label 1, dense backend. -/
example : ∀ i < 2, ∀ j < 2, ∀ k < 2,
    Round.LayerRange 1 ((fun i k : ℕ => if i = 0 ∧ k = 1 then (0 : ℝ) else 2) i k)
      ((fun _ _ : ℕ => (1 : ℝ)) j k) ∧
    1 * (fun i k : ℕ => if i = 0 ∧ k = 1 then (0 : ℝ) else 2) i k * (fun _ _ : ℕ => (1 : ℝ)) j k ≤ 2 := by
  intro i _ j _ k _
  dsimp only
  split
  · exact ⟨.inl (.inl rfl), by norm_num⟩
  · exact ⟨.inr ⟨by norm_num, by norm_num, by norm_num, moderate (by norm_num) (by norm_num),
      moderate (by norm_num) (by norm_num)⟩, by norm_num⟩

/-- **C115** fails for large products: the empty graph on one vertex with self-loops and one label has a
finite log-likelihood, but minus infinity is computed. -/
theorem C115_large_violated :
    Round.Dense.likelihood_tensor binary64 (Round.Dense.FitnessModel.logp binary64)
      (Round.Dense.FitnessModel.log1mp binary64) 1 1 (fun _ => 1) (fun _ _ => fin ((2 : ℝ) ^ 53))
      (fun _ _ => 1) (fun _ _ => 1) (fun _ _ _ => false) true = ninf ∧
    ∃ r : ℝ, Layer.Dense.likelihood_tensor Verif.MultiFitnessModel.logp_ijk
      Verif.MultiFitnessModel.log1mp_ijk 1 1 (fun _ => 1) (fun _ _ => fin ((2 : ℝ) ^ 53))
      (fun _ _ => 1) (fun _ _ => 1) (fun _ _ _ => false) true = fin r := by
  obtain ⟨h1, r, h2⟩ := C92_log1mp_violated
  have hx : (fin ((2 : ℝ) ^ 53)).isZero = false := isZero_eq_false (by norm_num)
  have ho : (1 : XR).isZero = false := isZero_eq_false one_ne_zero
  have hB : ((2 : ℝ) ^ 53) ∈ doubles := by
    have : (2 : ℝ) ^ (53 : ℤ) ∈ doubles := Round.pow_mem (by norm_num) (by norm_num)
    exact_mod_cast this
  have m1 : binary64.mul 1 (fin ((2 : ℝ) ^ 53)) = fin ((2 : ℝ) ^ 53) := by
    show toDouble (1 * (2 : ℝ) ^ 53) = _
    rw [one_mul]; exact toDouble_self hB
  have m2 : binary64.mul (fin ((2 : ℝ) ^ 53)) 1 = fin ((2 : ℝ) ^ 53) := by
    show toDouble ((2 : ℝ) ^ 53 * 1) = _
    rw [mul_one]; exact toDouble_self hB
  have e1 : Round.Dense.FitnessModel.log1mp binary64 1 (fin ((2 : ℝ) ^ 53)) 1 1 = ninf := by
    rw [← h1]
    simp only [Round.Dense.FitnessModel.log1mp, Round.Sparse.FitnessModel.log1mp, prod3, prod4, m1, m2,
      hx, ho, Bool.or_false]
  have e2 : Verif.Dense.FitnessModel.log1mp 1 (fin ((2 : ℝ) ^ 53)) 1 1 = fin r := by
    have n1 : 1 * fin ((2 : ℝ) ^ 53) = (fin ((2 : ℝ) ^ 53) : XR) := by
      show fin (1 * (2 : ℝ) ^ 53) = _
      rw [one_mul]
    have n2 : fin ((2 : ℝ) ^ 53) * 1 = (fin ((2 : ℝ) ^ 53) : XR) := by
      show fin ((2 : ℝ) ^ 53 * 1) = _
      rw [mul_one]
    rw [← h2]
    simp only [Verif.Dense.FitnessModel.log1mp, Verif.Sparse.FitnessModel.log1mp, n1, n2, hx, ho,
      Bool.or_false]
  have ha : admissible 0 0 true = true := by simp [admissible]
  constructor
  · simp only [Round.Dense.likelihood_tensor, List.range_one, List.foldlM_cons, ha, e1]
    rfl
  · refine ⟨0 + r, ?_⟩
    simp only [Layer.Dense.likelihood_tensor, Verif.MultiFitnessModel.log1mp_ijk, List.range_one,
      List.foldlM_cons, ha, e2]
    rfl

end Verif
