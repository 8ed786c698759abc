import Verif.Cond.SampleLemmas
import Verif.Ensemble.Props

/-! # Expected values of the conditional model -/

namespace Verif.Cond

open scoped ENNReal NNReal
open XR Spec

section
variable {n M : ℕ} {d : ℝ≥0∞} {x y : ℕ → ℝ≥0} {groups : ℕ → ℕ} {adj : Mat} {s : Bool}
  {A : Finset (ℕ × ℕ)}

/-- Conditional probability of a link. -/
noncomputable def cq (n : ℕ) (d : ℝ≥0∞) (x y : ℕ → ℝ≥0) (groups : ℕ → ℕ) (s : Bool)
    (A : Finset (ℕ × ℕ)) (i j : ℕ) : ℝ :=
  Law.condLink (Law.pairs n s) (pr d x y) groups A (i, j)

theorem cond_p_ij_eq {X Y B : ℝ≥0} {xi yj : ℝ≥0} (hd : d ≠ 0) (hX : 0 < X) (hY : 0 < Y)
    (hB : 0 < B) :
    cond_p_ij (ofENN d) (fin xi) (fin yj) 1 (fin X) (fin Y) (fin (B / (X * Y) : ℝ≥0))
      = fin (invProb (d * xi * yj) / invProb (d * B)) := by
  have hz : 0 < B / (X * Y) := by positivity
  unfold cond_p_ij
  by_cases h0 : xi = 0 ∨ yj = 0
  · have : (d * xi * yj : ℝ≥0∞) = 0 := by rcases h0 with h | h <;> simp [h]
    rw [this, invProb_zero, zero_div, if_pos]
    · rfl
    · rcases h0 with h | h <;> simp [h]
  · push Not at h0
    have e1 : ((fin (X : ℝ)).isZero || (fin (Y : ℝ)).isZero || (fin ((B / (X * Y) : ℝ≥0) : ℝ)).isZero
        || (fin (xi : ℝ)).isZero || (fin (yj : ℝ)).isZero || (1 : XR).isZero) = false := by
      have a1 : (fin (X : ℝ)).isZero = false := by simpa using hX.ne'
      have a2 : (fin (Y : ℝ)).isZero = false := by simpa using hY.ne'
      have a3 : (fin ((B / (X * Y) : ℝ≥0) : ℝ)).isZero = false := by
        rw [isZero_fin, decide_eq_false_iff_not]; exact_mod_cast hz.ne'
      have a4 : (fin (xi : ℝ)).isZero = false := by simpa using h0.1
      have a5 : (fin (yj : ℝ)).isZero = false := by simpa using h0.2
      have a6 : (1 : XR).isZero = false := by simp [one_def]
      rw [a1, a2, a3, a4, a5, a6]; rfl
    simp only [e1, Bool.false_eq_true, if_false, isZero_ofENN, decide_eq_true_eq, hd]
    have h1 : (1 : XR) = ofENN 1 := by rw [ofENN_of_ne_top ENNReal.one_ne_top]; rfl
    have hB' : (d * X * Y * (B / (X * Y) : ℝ≥0) : ℝ≥0∞) = d * B := by
      rw [mul_assoc, mul_assoc, ← ENNReal.coe_mul, ← ENNReal.coe_mul]
      congr 2
      have := hX.ne'; have := hY.ne'
      field_simp
    have hX' : (X : ℝ≥0∞) ≠ 0 := by simpa using hX.ne'
    have hY' : (Y : ℝ≥0∞) ≠ 0 := by simpa using hY.ne'
    have hz' : ((B / (X * Y) : ℝ≥0) : ℝ≥0∞) ≠ 0 := by
      exact ENNReal.coe_ne_zero.2 hz.ne'
    have hxi' : (xi : ℝ≥0∞) ≠ 0 := by simpa using h0.1
    have hyj' : (yj : ℝ≥0∞) ≠ 0 := by simpa using h0.2
    rw [fin_coe, fin_coe, fin_coe, fin_coe, fin_coe, h1,
      (mul4_ne_zero hxi' hyj' one_ne_zero hd).1, (mul4_ne_zero hX' hY' hz' hd).1, hB', mul_one]
    by_cases hdt : d = ⊤
    · subst hdt
      have t1 : (⊤ * xi * yj : ℝ≥0∞) = ⊤ := by
        rw [ENNReal.top_mul hxi', ENNReal.top_mul hyj']
      have t2 : (⊤ * B : ℝ≥0∞) = ⊤ := ENNReal.top_mul (by simpa using hB.ne')
      rw [t1, t2, invProb_top, ← h1]
      simp [one_def]
    · have t1 : (d * xi * yj : ℝ≥0∞) ≠ ⊤ :=
        ENNReal.mul_ne_top (ENNReal.mul_ne_top hdt ENNReal.coe_ne_top) ENNReal.coe_ne_top
      have t2 : (d * B : ℝ≥0∞) ≠ ⊤ := ENNReal.mul_ne_top hdt ENNReal.coe_ne_top
      have t3 : invProb (d * B) ≠ 0 := (invProb_pos (mul_ne_zero hd (by simpa using hB.ne'))).ne'
      simp only [isInf_ofENN, t1, t2, decide_false, Bool.false_eq_true, if_false]
      rw [ofENN_of_ne_top t1, ofENN_of_ne_top t2, neg_fin, neg_fin, expm1_fin, expm1_fin, neg_fin,
        neg_fin, neg_sub, neg_sub, ← invProb_of_ne_top t1, ← invProb_of_ne_top t2,
        fin_div_fin _ _ t3]

theorem condP_eq (hF : Feasible n s (pr d x y) groups A) {i j : ℕ}
    (hk : (groups i, groups j) ∈ A) :
    condP (mk n M d x y groups adj s) (ofENN d) i j = .ok (fin (cq n d x y groups s A i j)) := by
  obtain ⟨e, he, hek, hpe⟩ := hF _ hk
  obtain ⟨ha, hb⟩ := Prod.mk.inj hek
  have hm := Law.mem_pairs.1 (show (e.1, e.2) ∈ _ from he)
  obtain ⟨hd, hxe, hye⟩ := pr_pos.1 hpe
  have hX : 0 < groupSum n groups x (groups i) := by rw [← ha]; exact groupSum_pos hm.1 hxe
  have hY : 0 < groupSum n groups y (groups j) := by rw [← hb]; exact groupSum_pos hm.2.1 hye
  have hB : 0 < blockSum n s groups x y (groups i, groups j) := by
    unfold blockSum
    refine lt_of_lt_of_le (mul_pos hxe hye) (Finset.single_le_sum
      (f := fun e : ℕ × ℕ => x e.1 * y e.2) (fun _ _ => zero_le) ?_)
    exact Finset.mem_filter.2 ⟨he, hek⟩
  unfold condP
  have g1 : (mk n M d x y groups adj s).groups = groups := rfl
  rw [g1, zAgg_eq _ _ hX hY]
  show Except.ok _ = _
  rw [aggOut_eq, aggIn_eq]
  congr 1
  have := cond_p_ij_eq (xi := x i) (yj := y j) hd hX hY hB
  refine this.trans ?_
  unfold cq Law.condLink
  rw [if_pos hk, noneOf_block, sub_sub_cancel, pr_eq]

theorem contains_row (hA : Stores M adj A) (hg : ∀ i < n, groups i < M) {i j : ℕ} (hi : i < n) :
    (adj.row (groups i)).contains (groups j) = decide ((groups i, groups j) ∈ A) := by
  rw [Bool.eq_iff_iff, List.contains_iff_mem, decide_eq_true_eq, hA.mem]
  exact ⟨fun h => ⟨hg i hi, h⟩, fun h => h.2⟩

theorem cq_of_notMem {i j : ℕ} (h : (groups i, groups j) ∉ A) : cq n d x y groups s A i j = 0 := by
  unfold cq Law.condLink
  rw [if_neg h]

theorem exp_edges_eq (hA : Stores M adj A) (hg : ∀ i < n, groups i < M)
    (hF : Feasible n s (pr d x y) groups A) :
    exp_edges (mk n M d x y groups adj s) (ofENN d)
      = .ok (fin (∑ i ∈ Finset.range n, ∑ j ∈ Finset.range n,
          if admissible i j s then cq n d x y groups s A i j else 0)) := by
  unfold exp_edges
  have h0 : (0 : XR) = fin 0 := rfl
  have hn : (mk n M d x y groups adj s).n = n := rfl
  rw [h0, hn, foldlM_rep fin _ (fun i => ∑ j ∈ Finset.range n,
      if admissible i j s then cq n d x y groups s A i j else 0) n, zero_add]
  intro i hi a
  refine foldlM_rep fin _ _ n (fun j hj a => ?_) a
  have hr : ((mk n M d x y groups adj s).adj.row ((mk n M d x y groups adj s).groups i)).contains
      ((mk n M d x y groups adj s).groups j) = decide ((groups i, groups j) ∈ A) :=
    contains_row hA hg hi
  have hs : (mk n M d x y groups adj s).selfloops = s := rfl
  rw [hr, hs]
  by_cases hk : (groups i, groups j) ∈ A
  · by_cases hadm : admissible i j s = true
    · simp only [hk, hadm, decide_true, Bool.and_true, if_true, condP_eq hF hk]
      rfl
    · simp only [hadm, Bool.and_false, if_false, add_zero, Bool.false_eq_true]
  · simp only [hk, decide_false, Bool.false_and, Bool.false_eq_true, if_false, cq_of_notMem hk,
      ite_self, add_zero]

open DiGraphEnsemble (rep masked undir)

theorem exp_degrees_eq (hA : Stores M adj A) (hg : ∀ i < n, groups i < M)
    (hF : Feasible n s (pr d x y) groups A) (hsym : ∀ a b, (a, b) ∈ A → (b, a) ∈ A) :
    exp_degrees (mk n M d x y groups adj s) (ofENN d)
      = .ok (rep (∑ i ∈ Finset.range n, ∑ j ∈ Finset.range n,
          (Pi.single i (undir s (cq n d x y groups s A) i j),
            Pi.single i (masked s (cq n d x y groups s A) i j),
            Pi.single j (masked s (cq n d x y groups s A) i j)))) := by
  unfold exp_degrees
  have h0 : (⟨zeros, zeros, zeros⟩ : DiGraphEnsemble.Degrees) = rep 0 := rfl
  have hn : (mk n M d x y groups adj s).n = n := rfl
  rw [h0, hn, ← sum_triangle, ← zero_add (∑ i ∈ Finset.range n, _), foldlM_rep rep]
  intro i hi a
  refine foldlM_rep rep _ _ (i + 1) (fun j hj a => ?_) a
  have hj' : j < n := by omega
  unfold exp_degrees_step
  have hr : ((mk n M d x y groups adj s).adj.row ((mk n M d x y groups adj s).groups i)).contains
      ((mk n M d x y groups adj s).groups j) = decide ((groups i, groups j) ∈ A) :=
    contains_row hA hg hi
  have hs : (mk n M d x y groups adj s).selfloops = s := rfl
  rw [hr, hs]
  by_cases hk : (groups i, groups j) ∈ A
  · rw [if_pos (by simpa using hk)]
    by_cases hij : i ≠ j
    · have hji : j ≠ i := Ne.symm hij
      have e1 : admissible i j s = true := admissible_iff.2 (Or.inl hij)
      have e2 : admissible j i s = true := admissible_iff.2 (Or.inl hji)
      rw [if_pos hij, if_pos hij, condP_eq hF hk, condP_eq hF (hsym _ _ hk)]
      show Except.ok _ = _
      congr 1
      simp only [addPair, fin_add_fin, fin_mul_fin, fin_sub_fin, rep,
        addAt_fin, undir, masked, if_pos hij, if_pos hji, e1, e2, if_true]
      simp only [DiGraphEnsemble.Degrees.mk.injEq, Prod.fst_add, Prod.snd_add]
      refine ⟨?_, ?_, ?_⟩
      · rw [add_comm (cq n d x y groups s A j i), mul_comm (cq n d x y groups s A j i), add_assoc]
      · rw [add_assoc]
      · rw [add_assoc]
    · have hij' : i = j := by simpa using hij
      subst hij'
      simp only [ne_eq, not_true_eq_false, if_false]
      by_cases hs : s = true
      · subst hs
        have e1 : admissible i i true = true := by simp [admissible]
        rw [if_pos rfl, condP_eq hF hk]
        show Except.ok _ = _
        congr 1
        simp only [addSelf, rep, addAt_fin, undir, masked, e1, if_true, ne_eq,
          not_true_eq_false, if_false]
        simp only [Prod.fst_add, Prod.snd_add]
      · obtain rfl : s = false := by simpa using hs
        have e1 : admissible i i false = false := by simp [admissible]
        simp only [if_false, undir, masked, e1, ne_eq, not_true_eq_false, Bool.false_eq_true,
          Pi.single_zero]
        simp only [rep, Prod.fst_add, Prod.snd_add, add_zero]
  · have hk2 : (groups j, groups i) ∉ A := fun h => hk (hsym _ _ h)
    rw [if_neg (by simpa using hk)]
    congr 1
    have z1 : ∀ i' j', (groups i', groups j') ∉ A → masked s (cq n d x y groups s A) i' j' = 0 := by
      intro i' j' h; unfold masked; rw [cq_of_notMem h]; simp
    have z2 : ∀ i' j', (groups i', groups j') ∉ A → (groups j', groups i') ∉ A →
        undir s (cq n d x y groups s A) i' j' = 0 := by
      intro i' j' h h'
      unfold undir
      by_cases hij : i' = j'
      · subst hij
        rw [if_neg (by simp), cq_of_notMem h]; simp
      · rw [if_pos hij, cq_of_notMem h, cq_of_notMem h']; simp
    have h3 : (((0, 0, 0) : (ℕ → ℝ) × (ℕ → ℝ) × (ℕ → ℝ))) = 0 := rfl
    by_cases hij : i = j
    · subst hij
      rw [if_neg (by simp), z1 i i hk, z2 i i hk hk]
      simp only [Pi.single_zero]
      rw [h3, add_zero]
    · rw [if_pos hij, z1 i j hk, z1 j i hk2, z2 i j hk hk2, z2 j i hk2 hk]
      simp only [Pi.single_zero]
      rw [h3, add_zero, add_zero]

theorem exp_degrees_at (hA : Stores M adj A) (hg : ∀ i < n, groups i < M)
    (hF : Feasible n s (pr d x y) groups A) (hsym : ∀ a b, (a, b) ∈ A → (b, a) ∈ A) :
    ∃ D, exp_degrees (mk n M d x y groups adj s) (ofENN d) = .ok D ∧ ∀ k < n,
      D.exp_d k = fin (∑ j ∈ Finset.range n, undir s (cq n d x y groups s A) k j) ∧
      D.exp_d_out k = fin (∑ j ∈ Finset.range n, masked s (cq n d x y groups s A) k j) ∧
      D.exp_d_in k = fin (∑ i ∈ Finset.range n, masked s (cq n d x y groups s A) i k) := by
  refine ⟨_, exp_degrees_eq hA hg hF hsym, fun k hk => ?_⟩
  simp only [rep, Prod.fst_sum, Prod.snd_sum, fin_inj]
  exact ⟨DiGraphEnsemble.sum_single_row _ k hk, DiGraphEnsemble.sum_single_row _ k hk,
    DiGraphEnsemble.sum_single_col _ k hk⟩

end

end Verif.Cond
