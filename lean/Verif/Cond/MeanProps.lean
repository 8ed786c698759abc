import Verif.Cond.Props
import Verif.Cond.MeanLemmas

/-! # C41: expected values of the conditional model -/

namespace Verif.Cond

open scoped ENNReal NNReal
open XR Spec

section
variable {n M : ℕ} {d : ℝ≥0∞} {x y : ℕ → ℝ≥0} {groups : ℕ → ℕ} {adj : Mat} {s : Bool}
  {A : Finset (ℕ × ℕ)}

theorem key_in (hg : ∀ i < n, groups i < M) :
    ∀ e ∈ Law.pairs n s, (groups e.1, groups e.2) ∈ Finset.range M ×ˢ Finset.range M := by
  rintro ⟨i, j⟩ he
  obtain ⟨hi, hj, _⟩ := Law.mem_pairs.1 he
  simp [hg i hi, hg j hj]

theorem coarse_in (hA : Stores M adj A) : A ⊆ Finset.range M ×ˢ Finset.range M := by
  rintro ⟨a, b⟩ h
  simp [((hA.mem a b).1 h).1, hA.lt a b h]

/-- **C41**, one pair, including infinite properties: the pair function of the expectations is the
probability of the link divided by the probability of the coarse link. -/
theorem C41_pair {d x y z X Y Z : ℝ≥0∞} (hd : d ≠ 0) (hle : d * x * y * z ≤ d * X * Y * Z) :
    cond_p_ij (ofENN d) (ofENN x) (ofENN y) (ofENN z) (ofENN X) (ofENN Y) (ofENN Z)
      = fin (invProb (d * x * y * z) / invProb (d * X * Y * Z)) := by
  unfold cond_p_ij
  by_cases h0 : X = 0 ∨ Y = 0 ∨ Z = 0 ∨ x = 0 ∨ y = 0 ∨ z = 0
  · have e0 : (d * x * y * z : ℝ≥0∞) = 0 := by
      rcases h0 with h | h | h | h | h | h
      · rw [h] at hle; simpa using hle
      · rw [h] at hle; simpa using hle
      · rw [h] at hle; simpa using hle
      all_goals simp [h]
    rw [e0, invProb_zero, zero_div, if_pos]
    · rfl
    · rcases h0 with h | h | h | h | h | h <;> simp [h]
  · push Not at h0
    obtain ⟨hX, hY, hZ, hx, hy, hz⟩ := h0
    simp only [isZero_ofENN, hX, hY, hZ, hx, hy, hz, hd, decide_false, Bool.or_self,
      Bool.false_eq_true, if_false]
    rw [(mul4_ne_zero hx hy hz hd).1, (mul4_ne_zero hX hY hZ hd).1]
    by_cases ht : d * x * y * z = ⊤
    · have hT : d * X * Y * Z = ⊤ := top_le_iff.1 (ht ▸ hle)
      simp [ht, hT, invProb_top, one_def]
    · by_cases hT : d * X * Y * Z = ⊤
      · simp only [isInf_ofENN, ht, hT, decide_false, Bool.false_eq_true, if_false, decide_true,
          if_true]
        rw [ofENN_of_ne_top ht, neg_fin, expm1_fin, neg_fin, neg_sub, ← invProb_of_ne_top ht,
          invProb_top, div_one]
      · have t3 : invProb (d * X * Y * Z) ≠ 0 := (invProb_pos (mul4_ne_zero hX hY hZ hd).2).ne'
        simp only [isInf_ofENN, ht, hT, decide_false, Bool.false_eq_true, if_false]
        rw [ofENN_of_ne_top ht, ofENN_of_ne_top hT, neg_fin, neg_fin, expm1_fin, expm1_fin, neg_fin,
          neg_fin, neg_sub, neg_sub, ← invProb_of_ne_top ht, ← invProb_of_ne_top hT,
          fin_div_fin _ _ t3]

/-- Another vertex of the group has an infinite property: the coarse link is certain. -/
example : cond_p_ij (ofENN 1) (ofENN 2) (ofENN 1) (ofENN 1) (ofENN ⊤) (ofENN 1) (ofENN 1)
    = fin (invProb 2) := by
  rw [C41_pair one_ne_zero (by simp)]
  simp [invProb_top]

/-- The expected number of edges is the mean number of links of the conditional law. -/
theorem C41_edges (hA : Stores M adj A) (hg : ∀ i < n, groups i < M)
    (hc : Law.coarseProb (Law.pairs n s) (pr d x y) groups A ≠ 0) :
    expected_num_edges (mk n M d x y groups adj s)
      = .ok (fin (Law.condMean (Law.pairs n s) (pr d x y) groups A (fun G => (G.card : ℝ)))) := by
  have h := exp_edges_eq hA hg (feasible_of_coarseProb (pr_mem d x y) hc)
  rw [Law.condMean_card (key_in hg) (coarse_in hA) hc, sum_pairs]
  exact h

/-- The expected out- and in-degrees are means of the conditional law when the coarse graph is
symmetric. -/
theorem C41_out_in_degree_partial (hA : Stores M adj A) (hg : ∀ i < n, groups i < M)
    (hc : Law.coarseProb (Law.pairs n s) (pr d x y) groups A ≠ 0)
    (hsym : ∀ a b, (a, b) ∈ A → (b, a) ∈ A) :
    ∃ D, expected_degrees (mk n M d x y groups adj s) = .ok D ∧ ∀ i < n,
      D.exp_d_out i = fin (Law.condMean (Law.pairs n s) (pr d x y) groups A
        (fun G => (Law.outDegree G i : ℝ))) ∧
      D.exp_d_in i = fin (Law.condMean (Law.pairs n s) (pr d x y) groups A
        (fun G => (Law.inDegree G i : ℝ))) := by
  obtain ⟨D, hD, h⟩ := exp_degrees_at hA hg (feasible_of_coarseProb (pr_mem d x y) hc) hsym
  refine ⟨D, hD, fun i hi => ?_⟩
  obtain ⟨_, h2, h3⟩ := h i hi
  rw [h2, h3, fin_inj, fin_inj]
  unfold Law.outDegree Law.inDegree
  rw [Law.condMean_card_filter (key_in hg) (coarse_in hA) hc,
    Law.condMean_card_filter (key_in hg) (coarse_in hA) hc, Finset.sum_filter, Finset.sum_filter,
    sum_pairs, sum_pairs]
  constructor
  · symm
    rw [Finset.sum_eq_single i]
    · simp [DiGraphEnsemble.masked, cq]
    · intro j _ hj; simp [hj]
    · simp [hi]
  · refine Finset.sum_congr rfl (fun j _ => ?_)
    symm
    rw [Finset.sum_eq_single i]
    · simp [DiGraphEnsemble.masked, cq]
    · intro k _ hk; simp [hk]
    · simp [hi]

/-- Then both sum to the expected number of edges. -/
theorem C41_sums_partial (hA : Stores M adj A) (hg : ∀ i < n, groups i < M)
    (hc : Law.coarseProb (Law.pairs n s) (pr d x y) groups A ≠ 0)
    (hsym : ∀ a b, (a, b) ∈ A → (b, a) ∈ A) :
    ∃ (D : DiGraphEnsemble.Degrees) (dOut dIn : ℕ → ℝ) (L : ℝ),
      expected_degrees (mk n M d x y groups adj s) = .ok D ∧
      expected_num_edges (mk n M d x y groups adj s) = .ok (fin L) ∧
      (∀ i < n, D.exp_d_out i = fin (dOut i) ∧ D.exp_d_in i = fin (dIn i)) ∧
      ∑ i ∈ Finset.range n, dOut i = L ∧ ∑ i ∈ Finset.range n, dIn i = L := by
  have hF := feasible_of_coarseProb (pr_mem d x y) hc
  obtain ⟨D, hD, h⟩ := exp_degrees_at hA hg hF hsym
  refine ⟨D, _, _, _, hD, exp_edges_eq hA hg hF, fun i hi => (h i hi).2, rfl, ?_⟩
  rw [Finset.sum_comm]
  rfl

/-- The expected undirected degree is a mean of the conditional law when moreover the coarse graph
has no link from a group to itself. -/
theorem C41_degree_partial (hA : Stores M adj A) (hg : ∀ i < n, groups i < M)
    (hc : Law.coarseProb (Law.pairs n s) (pr d x y) groups A ≠ 0)
    (hsym : ∀ a b, (a, b) ∈ A → (b, a) ∈ A) (hloop : ∀ a, (a, a) ∉ A) :
    ∃ D, expected_degrees (mk n M d x y groups adj s) = .ok D ∧ ∀ i < n,
      D.exp_d i = fin (Law.condMean (Law.pairs n s) (pr d x y) groups A
        (fun G => (Law.degree n G i : ℝ))) := by
  obtain ⟨D, hD, h⟩ := exp_degrees_at hA hg (feasible_of_coarseProb (pr_mem d x y) hc) hsym
  refine ⟨D, hD, fun i hi => ?_⟩
  rw [(h i hi).1, fin_inj]
  have h1 : ∀ G, (Law.degree n G i : ℝ)
      = ∑ j ∈ Finset.range n, if (i, j) ∈ G ∨ (j, i) ∈ G then (1 : ℝ) else 0 := by
    intro G; unfold Law.degree; rw [Finset.card_filter]; push_cast; rfl
  simp only [h1]
  rw [Law.condMean_sum]
  refine Finset.sum_congr rfl (fun j hj => ?_)
  rw [Finset.mem_range] at hj
  have hz : groups i = groups j → Law.condMean (Law.pairs n s) (pr d x y) groups A
      (fun G => if (i, j) ∈ G ∨ (j, i) ∈ G then (1 : ℝ) else 0) = 0 := by
    intro he
    have : Law.condMean (Law.pairs n s) (pr d x y) groups A
        (fun G => if (i, j) ∈ G ∨ (j, i) ∈ G then (1 : ℝ) else 0)
        = Law.condMean (Law.pairs n s) (pr d x y) groups A (fun _ => 0) :=
      Law.condMean_congr (fun G _ hm => by
        rw [if_neg]
        rintro (h | h)
        · refine hloop (groups i) ?_
          rw [← hm]
          exact Law.mem_merge.2 ⟨_, h, by rw [he]⟩
        · refine hloop (groups i) ?_
          rw [← hm]
          exact Law.mem_merge.2 ⟨_, h, by rw [he]⟩)
    rw [this]
    simp [Law.condMean]
  unfold DiGraphEnsemble.undir
  by_cases hgr : groups i = groups j
  · rw [hz hgr]
    have n1 : (groups i, groups j) ∉ A := by rw [hgr]; exact hloop _
    have n2 : (groups j, groups i) ∉ A := by rw [hgr]; exact hloop _
    have n3 : (groups i, groups i) ∉ A := hloop _
    rw [cq_of_notMem n1, cq_of_notMem n2, cq_of_notMem n3]
    simp
  · have hij : i ≠ j := fun h => hgr (by rw [h])
    rw [if_pos hij]
    have m1 : (i, j) ∈ Law.pairs n s := Law.mem_pairs.2 ⟨hi, hj, Or.inl hij⟩
    have m2 : (j, i) ∈ Law.pairs n s := Law.mem_pairs.2 ⟨hj, hi, Or.inl hij.symm⟩
    have h2 : Law.condMean (Law.pairs n s) (pr d x y) groups A
        (fun G => if (i, j) ∈ G ∨ (j, i) ∈ G then (1 : ℝ) else 0)
        = Law.condMean (Law.pairs n s) (pr d x y) groups A
        (fun G => (if (i, j) ∈ G then 1 else 0) + (if (j, i) ∈ G then 1 else 0)
          - (if (i, j) ∈ G then 1 else 0) * (if (j, i) ∈ G then 1 else 0)) :=
      Law.condMean_congr (fun G _ _ => by
        by_cases g1 : (i, j) ∈ G <;> by_cases g2 : (j, i) ∈ G <;> simp [g1, g2])
    rw [h2, Law.condMean_add_sub, Law.condMean_mem (key_in hg) (coarse_in hA) hc m1,
      Law.condMean_mem (key_in hg) (coarse_in hA) hc m2,
      Law.condMean_mem_mem (key_in hg) (coarse_in hA) hc m1 m2
        (fun h => hgr (Prod.mk.inj h).1)]
    rfl

/-! ## Examples -/

/-- Two groups linked in both directions. -/
noncomputable def exAdjSym : Mat := ⟨fun a => a, [1, 0], [1, 1]⟩

theorem exAdjSym_stores : Stores 2 exAdjSym {(0, 1), (1, 0)} := by
  refine ⟨fun a b => ?_, fun a b h => ?_, fun a ha => ?_⟩
  · rcases a with _ | _ | a
    · simp [exAdjSym, Mat.row]
    · simp [exAdjSym, Mat.row]
    · simp [exAdjSym, Mat.row]
  · simp at h; omega
  · rcases a with _ | _ | a
    · simp [exAdjSym, Mat.row]
    · simp [exAdjSym, Mat.row]
    · simp [exAdjSym, Mat.row]

theorem coarseProb_unit_ne_zero {n : ℕ} {s : Bool} {groups : ℕ → ℕ} {A T : Finset (ℕ × ℕ)}
    (hT : ∀ e ∈ Law.pairs n s, (groups e.1, groups e.2) ∈ T) (hA : A ⊆ T)
    (hb : ∀ k ∈ A, (Law.block (Law.pairs n s) groups k).Nonempty) {d : ℝ≥0∞} (hd : d ≠ 0)
    (hd' : d ≠ ⊤) :
    Law.coarseProb (Law.pairs n s) (pr d (fun _ => 1) (fun _ => 1)) groups A ≠ 0 := by
  rw [Law.coarseProb_eq (T := T) _ hT hA]
  refine Finset.prod_ne_zero_iff.2 (fun k _ => ?_)
  unfold Law.linkFactor
  rw [noneOf_block]
  have hne : d * blockSum n s groups (fun _ => 1) (fun _ => 1) k ≠ ⊤ :=
    ENNReal.mul_ne_top hd' ENNReal.coe_ne_top
  split
  · next hk =>
    rw [sub_sub_cancel]
    refine (invProb_pos (mul_ne_zero hd ?_)).ne'
    simp only [blockSum, mul_one, Finset.sum_const, nsmul_eq_mul]
    have := (Finset.card_pos.2 (hb k hk)).ne'
    exact_mod_cast this
  · rw [one_sub_invProb hne]
    exact (Real.exp_pos _).ne'

example : Stores 2 exAdjSym {(0, 1), (1, 0)} ∧ (∀ i < 4, exGroups i < 2) ∧
    Law.coarseProb (Law.pairs 4 false) (pr 1 (fun _ => 1) (fun _ => 1)) exGroups
      {(0, 1), (1, 0)} ≠ 0 ∧
    (∀ a b, (a, b) ∈ ({(0, 1), (1, 0)} : Finset (ℕ × ℕ)) → (b, a) ∈ ({(0, 1), (1, 0)} : Finset _)) ∧
    ∀ a, (a, a) ∉ ({(0, 1), (1, 0)} : Finset (ℕ × ℕ)) :=
  ⟨exAdjSym_stores, by decide,
    coarseProb_unit_ne_zero (T := Finset.range 2 ×ˢ Finset.range 2) (by decide) (by decide)
      (by decide) one_ne_zero ENNReal.one_ne_top,
    by intro a b; simp; rintro (⟨rfl, rfl⟩ | ⟨rfl, rfl⟩) <;> simp,
    by intro a; simp; omega⟩

/-! ## The two violations -/

/-- Without symmetry the degrees are wrong: the coarse graph has the single link `0 → 1`, the
expected number of edges is at least one, and all expected degrees are zero. -/
theorem C41_asymmetric_violated :
    (∃ L : ℝ, expected_num_edges (mk 4 2 1 (fun _ => 1) (fun _ => 1) exGroups exAdj false)
        = .ok (fin L) ∧ 0 < L) ∧
    (∃ D, expected_degrees (mk 4 2 1 (fun _ => 1) (fun _ => 1) exGroups exAdj false) = .ok D ∧
      ∀ i, D.exp_d_out i = fin 0 ∧ D.exp_d_in i = fin 0 ∧ D.exp_d i = fin 0) ∧
    0 < Law.condMean (Law.pairs 4 false) (pr 1 (fun _ => 1) (fun _ => 1)) exGroups {(0, 1)}
      (fun G => (Law.outDegree G 0 : ℝ)) := by
  have hc := exCoarse
  have hcl : ∀ e ∈ Law.pairs 4 false, 0 ≤ Law.condLink (Law.pairs 4 false)
      (pr 1 (fun _ => 1) (fun _ => 1)) exGroups {(0, 1)} e := by
    intro e _
    unfold Law.condLink
    split
    · rw [noneOf_block, sub_sub_cancel]
      exact div_nonneg (pr_mem _ _ _ _).1 (invProb_nonneg _)
    · exact le_refl _
  have hpos : 0 < Law.condLink (Law.pairs 4 false)
      (pr 1 (fun _ => 1) (fun _ => 1)) exGroups {(0, 1)} (0, 2) := by
    unfold Law.condLink
    rw [if_pos (by decide), noneOf_block, sub_sub_cancel]
    refine div_pos (pr_pos.2 (by simp)) (invProb_pos (mul_ne_zero one_ne_zero ?_))
    simp only [blockSum, mul_one, Finset.sum_const, nsmul_eq_mul]
    have : (Law.block (Law.pairs 4 false) exGroups (exGroups (0, 2).1, exGroups (0, 2).2)).card
      = 4 := by decide
    rw [this]; norm_num
  refine ⟨⟨_, C41_edges exAdj_stores (by decide) hc, ?_⟩, ?_, ?_⟩
  · rw [Law.condMean_card (key_in (M := 2) (by decide)) (coarse_in exAdj_stores) hc]
    exact Finset.sum_pos' hcl ⟨(0, 2), by decide, hpos⟩
  · refine ⟨⟨zeros, zeros, zeros⟩, ?_, fun i => ⟨rfl, rfl, rfl⟩⟩
    show exp_degrees _ _ = _
    unfold exp_degrees
    have hstep : ∀ i j, j < i + 1 → ∀ D, exp_degrees_step
        (mk 4 2 1 (fun _ => 1) (fun _ => 1) exGroups exAdj false) (ofENN 1) i D j = .ok D := by
      intro i j hj D
      unfold exp_degrees_step
      rw [if_neg]
      rw [List.contains_iff_mem]
      show ¬ (exGroups j ∈ exAdj.row (exGroups i))
      by_cases h2 : i < 2
      · have : j < 2 := by omega
        simp [exGroups, h2, this, exAdj, Mat.row]
      · simp [exGroups, h2, exAdj, Mat.row]
    have hin : ∀ i m, m ≤ i + 1 → ∀ D, (List.range m).foldlM (exp_degrees_step
        (mk 4 2 1 (fun _ => 1) (fun _ => 1) exGroups exAdj false) (ofENN 1) i) D = .ok D := by
      intro i m hm D
      induction m with
      | zero => rfl
      | succ m ih =>
        rw [List.range_succ, List.foldlM_append, ih (by omega)]
        show (exp_degrees_step _ _ _ _ _ >>= _) = _
        rw [hstep i m (by omega)]
        rfl
    have hout : ∀ m, ∀ D, (List.range m).foldlM (fun s i =>
        (List.range (i + 1)).foldlM (exp_degrees_step
        (mk 4 2 1 (fun _ => 1) (fun _ => 1) exGroups exAdj false) (ofENN 1) i) s) D = .ok D := by
      intro m D
      induction m with
      | zero => rfl
      | succ m ih =>
        rw [List.range_succ, List.foldlM_append, ih]
        show ((List.range (m + 1)).foldlM (exp_degrees_step
          (mk 4 2 1 (fun _ => 1) (fun _ => 1) exGroups exAdj false) (ofENN 1) m) D
          >>= fun s => pure s) = _
        rw [hin m (m + 1) (le_refl _)]
        rfl
    exact hout 4 _
  · unfold Law.outDegree
    rw [Law.condMean_card_filter (key_in (M := 2) (by decide)) (coarse_in exAdj_stores) hc]
    exact Finset.sum_pos' (fun e he => hcl e (Finset.mem_filter.1 he).1)
      ⟨(0, 2), by decide, hpos⟩

/-- One group of two vertices with a coarse link to itself. -/
noncomputable def exAdjLoop : Mat := ⟨fun a => a, [0], [1]⟩

theorem exAdjLoop_stores : Stores 1 exAdjLoop {(0, 0)} := by
  refine ⟨fun a b => ?_, fun a b h => ?_, fun a ha => ?_⟩
  · rcases a with _ | a
    · simp [exAdjLoop, Mat.row]
    · simp [exAdjLoop, Mat.row]
  · simp at h; omega
  · obtain rfl : a = 0 := by omega
    simp [exAdjLoop, Mat.row]

/-- Within a group the two directions are not conditionally independent: with link probability
`1/2` the only neighbour of vertex `0` is certain, but the computed expected degree is `8/9`. -/
theorem C41_within_group_violated :
    ∃ (d : ℝ≥0∞) (D : DiGraphEnsemble.Degrees),
      expected_degrees (mk 2 1 d (fun _ => 1) (fun _ => 1) (fun _ => 0) exAdjLoop false) = .ok D ∧
      D.exp_d 0 = fin (8 / 9) ∧
      Law.condMean (Law.pairs 2 false) (pr d (fun _ => 1) (fun _ => 1)) (fun _ => 0) {(0, 0)}
        (fun G => (Law.degree 2 G 0 : ℝ)) = 1 := by
  have hlog : 0 < Real.log 2 := Real.log_pos (by norm_num)
  set d : ℝ≥0∞ := ENNReal.ofReal (Real.log 2) with hd
  have hd0 : d ≠ 0 := by rw [hd]; simpa using hlog
  have hdt : d ≠ ⊤ := ENNReal.ofReal_ne_top
  have hp : ∀ e, pr d (fun _ => 1) (fun _ => 1) e = 1 / 2 := by
    intro e
    rw [pr_eq]
    simp only [ENNReal.coe_one, mul_one]
    rw [invProb_of_ne_top hdt, hd, ENNReal.toReal_ofReal hlog.le, Real.exp_neg, Real.exp_log
      (by norm_num)]
    norm_num
  have hc : Law.coarseProb (Law.pairs 2 false) (pr d (fun _ => 1) (fun _ => 1)) (fun _ => 0)
      {(0, 0)} ≠ 0 :=
    coarseProb_unit_ne_zero (T := {(0, 0)}) (by decide) (by decide) (by decide) hd0 hdt
  obtain ⟨D, hD, h⟩ := exp_degrees_at exAdjLoop_stores (n := 2) (groups := fun _ => 0) (by decide)
    (feasible_of_coarseProb (pr_mem d _ _) hc) (by simp)
  refine ⟨d, D, hD, ?_, ?_⟩
  · rw [(h 0 (by norm_num)).1, fin_inj]
    have hq : ∀ i j, cq 2 d (fun _ => 1) (fun _ => 1) (fun _ => 0) false {(0, 0)} i j = 2 / 3 := by
      intro i j
      unfold cq Law.condLink
      rw [if_pos (by simp)]
      simp only [hp, Finset.prod_const]
      have : (Law.block (Law.pairs 2 false) (fun _ => 0) (0, 0)).card = 2 := by decide
      rw [this]; norm_num
    simp only [Finset.sum_range_succ, Finset.sum_range_zero, DiGraphEnsemble.undir, hq]
    norm_num
  · have h1 := Law.condMean_one hc
    rw [← h1]
    refine Law.condMean_congr (fun G hG hm => ?_)
    have hne : (0, 1) ∈ G ∨ (1, 0) ∈ G := by
      have h0 : (0, 0) ∈ Law.merge (fun _ => 0) G := by rw [hm]; simp
      obtain ⟨e, he, _⟩ := Law.mem_merge.1 h0
      have := hG he
      have hpairs : Law.pairs 2 false = {(0, 1), (1, 0)} := by decide
      rw [hpairs] at this
      simp at this
      rcases this with rfl | rfl
      · exact Or.inl he
      · exact Or.inr he
    have h00 : (0, 0) ∉ G := fun h => by
      have := Law.mem_pairs.1 (hG h)
      simp at this
    unfold Law.degree
    have : (Finset.range 2).filter (fun j => (0, j) ∈ G ∨ (j, 0) ∈ G) = {1} := by
      ext j
      simp only [Finset.mem_filter, Finset.mem_range, Finset.mem_singleton]
      constructor
      · rintro ⟨hj, h⟩
        rcases j with _ | _ | j
        · simp [h00] at h
        · rfl
        · omega
      · rintro rfl; exact ⟨by norm_num, hne⟩
    rw [this]; simp

end

end Verif.Cond
