import Verif.Columns.Props
import Verif.Spark.QueryProps

/-!
# C89: graphs and random ensembles

`average_nn_property` of the graph objects and `expected_av_nn_property` of `RandomDiGraph` for
property arrays with several columns.
-/

namespace Verif

noncomputable section

open XR DiGraphEnsemble

namespace Columns

/-- The outcome of the Spark method in a concrete case. -/
example (x : ℕ → ℕ → XR) (z : Bool) : ∃ r s', ExpectedAvNnProperty z Spark.Query.wit 3 2 3 2
    x .out (some true) false (Query.newly (δ := Spark.Query.wit.δ) (ofENN 1) false) r s' := by
  have hg : Spark.Query.Good (Query.newly (δ := Spark.Query.wit.δ) (ofENN 1) false) := by
    intro θ h
    obtain rfl := Option.some.inj h
    exact Spark.Query.wit_spark 1
  exact ⟨_, _, (C89_spark z 0 3 2 3 2 (by norm_num) _ .out (some true) false hg _ _).2 rfl⟩

/-! ## Graphs -/

section

open Graph

theorem nnSum_nbrs (b : Backend) (g : DiG) {ndir : Graph.Dir}
    (hd : ndir = .out ∨ ndir = .inn ∨ ndir = .both) (sl : Bool) {a : Dense.NArr}
    (ha : g.nbr ndir = .ok a) (i : ℕ) :
    ∃ keep : Bool, (keep = true → sl = true ∨ (b = .dense ∧ ndir = .inn)) ∧
      (sl = true → keep = true) ∧
      ∀ prop, Graph.nnSum b g.n a prop sl i = ∑ j ∈ nbrs g ndir keep i, prop j := by
  obtain ⟨a', ha', hval, hcont⟩ := nbr_row g hd
  obtain rfl : a' = a := Except.ok.inj (ha'.symm.trans ha)
  cases b with
  | sparse =>
    refine ⟨sl, fun h => Or.inl h, fun h => h, fun prop => ?_⟩
    rw [nnSum_sparse, nbrs_row g hd, hval]
  | dense =>
    refine ⟨sl || !a'.contiguous, ?_, ?_, fun prop => ?_⟩
    · intro h
      by_cases hs : sl = true
      · exact Or.inl hs
      · right
        refine ⟨rfl, ?_⟩
        by_contra hni
        have := hcont hni
        simp [this, hs] at h
    · intro h; simp [h]
    · rw [nnSum_dense, nbrs_row g hd, hval]
      refine Finset.sum_congr (Finset.filter_congr (fun j _ => ?_)) (fun _ _ => rfl)
      cases sl <;> cases a'.contiguous <;> simp

open Classical in
/-- What `average_nn_property` does for a documented direction: with `m` vertices that have
neighbours it raises `ValueError` unless `m = 1` or `m = k` (or `m = 0`, `k = 1`), and otherwise
divides the sum of column `c` by the degree of the vertex itself if `m = 1` and of the `c`-th
linked vertex if `m = k`.  (For `keep` see `average_nn_value`; it is `sl` except in the dense
method for `"in"`.) -/
theorem C89_graph_outcome (z : Bool) (b : Backend) (g : DiG) (k : ℕ) (x : ℕ → ℕ → ℝ)
    {ndir : Graph.Dir} (hd : ndir = .out ∨ ndir = .inn ∨ ndir = .both) (sl : Bool) :
    let D : ℕ → ℝ := fun i => ((nbrs g ndir true i).card : ℝ)
    let L := linked g.n D
    (Accepted z L.length k → ∃ v, average_nn_property z b g k x ndir (some sl) = .ok v ∧
      ∀ i < g.n, ∃ keep : Bool, (keep = true → sl = true ∨ (b = .dense ∧ ndir = .inn)) ∧
        (sl = true → keep = true) ∧ ∀ c < k,
        v i c = (∑ j ∈ nbrs g ndir keep i, x j c) / D (if L.length = 1 then i else L.getD c 0)) ∧
    (¬Accepted z L.length k →
      average_nn_property z b g k x ndir (some sl) = .error .broadcast) := by
  dsimp only
  obtain ⟨a, ha, hval, hcont⟩ := nbr_row g hd
  have hdeg := deg_row g hd
  set deg : ℕ → ℝ := fun i => (((Finset.range g.n).filter
    (fun j => rowOf g ndir i j = true)).card : ℝ) with hdegd
  set D : ℕ → ℝ := fun i => ((nbrs g ndir true i).card : ℝ) with hD
  have hfull : ∀ i, deg i = D i := by
    intro i
    rw [hdegd, hD]
    dsimp only
    rw [nbrs_row g hd]
    simp
  have hzero : ∀ i, D i = 0 → ∀ c, nnSum b g.n a x sl i c = 0 := by
    intro i h0 c
    obtain ⟨keep, _, _, hk⟩ := nnSum_nbrs b g hd sl ha i
    rw [nnSum_col, hk]
    have h1 : nbrs g ndir true i = ∅ := Finset.card_eq_zero.mp (by
      have h0' : ((nbrs g ndir true i).card : ℝ) = 0 := h0
      exact_mod_cast h0')
    have h2 : nbrs g ndir keep i ⊆ nbrs g ndir true i := by
      rw [nbrs_row g hd, nbrs_row g hd]
      intro j hj
      simp only [Finset.mem_filter] at hj ⊢
      exact ⟨hj.1, hj.2.1, Or.inl trivial⟩
    rw [h1] at h2
    rw [Finset.subset_empty.mp h2, Finset.sum_empty]
  have hmask : ∀ i < g.n, deg i = 0 → ∀ c < k, nnSum b g.n a x sl i c = 0 :=
    fun i _ h0 c _ => hzero i ((hfull i).symm.trans h0) c
  unfold average_nn_property
  simp only [hdeg, ha]
  rw [if_pos hmask]
  have hL : (List.range g.n).filter (fun i => decide (deg i ≠ 0)) = linked g.n D :=
    filter_linked fun i _ => by rw [decide_eq_true_iff, hfull i]
  constructor
  · intro hacc
    have hacc' := hacc
    unfold Accepted at hacc
    rw [← hL] at hacc
    obtain ⟨v, hv, hvv⟩ := average_some z (· / ·) g.n k (fun i => decide (deg i ≠ 0))
      (nnSum b g.n a x sl) deg hacc
    refine ⟨v, ?_, fun i hi => ?_⟩
    · rw [hv]
    · obtain ⟨keep, h1, h2, h3⟩ := nnSum_nbrs b g hd sl ha i
      refine ⟨keep, h1, h2, fun c hc => ?_⟩
      rw [hvv i hi c hc, hL]
      by_cases h0 : D i = 0
      · rw [if_neg (by rw [hfull i]; simp [h0]), hzero i h0 c]
        have := hzero i h0 c
        rw [nnSum_col, h3] at this
        rw [this, zero_div]
      · rw [if_pos (by rw [hfull i]; simp [h0]), nnSum_col, h3, hfull]
  · intro hacc
    unfold Accepted at hacc
    simp only [not_or] at hacc
    rw [← hL] at hacc
    rw [average_none z (· / ·) g.n k (fun i => decide (deg i ≠ 0))
      (nnSum b g.n a x sl) deg hacc.1 hacc.2.1 hacc.2.2]

/-- **C89** for graphs without self loops: the averages of all columns over the neighbours.
Missing: every other combination of the numbers of linked vertices and columns, where the call
raises or returns other numbers (`C89_graph_violated`). -/
theorem C89_graph_partial (z : Bool) (b : Backend) (g : DiG) (k : ℕ) (x : ℕ → ℕ → ℝ)
    {ndir : Graph.Dir} (hd : ndir = .out ∨ ndir = .inn ∨ ndir = .both) (sl : Bool)
    (hloop : ∀ i < g.n, g.adj i i = false)
    (hlim : let L := linked g.n (fun i => ((nbrs g ndir true i).card : ℝ))
      L.length = 1 ∨ (L.length = k ∧ ∀ i < g.n, ∀ j < g.n, nbrs g ndir true i ≠ ∅ →
        nbrs g ndir true j ≠ ∅ → (nbrs g ndir true i).card = (nbrs g ndir true j).card)) :
    ∃ v, average_nn_property z b g k x ndir (some sl) = .ok v ∧
      ∀ i < g.n, ∀ c < k, v i c = meanOver (nbrs g ndir sl i) (fun j => x j c) := by
  dsimp only at hlim
  obtain ⟨v, hv, hvv⟩ := (C89_graph_outcome z b g k x hd sl).1 (by
    rcases hlim with h | h
    · exact Or.inl h
    · exact Or.inr (Or.inl h.1))
  refine ⟨v, hv, fun i hi c hc => ?_⟩
  obtain ⟨keep, _, _, hk⟩ := hvv i hi
  rw [hk c hc]
  unfold meanOver
  rw [nbrs_noloop g hd (hloop i hi) keep true, nbrs_noloop g hd (hloop i hi) sl true]
  set D : ℕ → ℝ := fun i => ((nbrs g ndir true i).card : ℝ) with hD
  by_cases h1 : (linked g.n D).length = 1
  · rw [if_pos h1]
  · rw [if_neg h1]
    obtain ⟨hk', heq⟩ := hlim.resolve_left h1
    have hc' := getD_linked (D := D) (n := g.n) (c := c) (by rw [hk']; exact hc)
    by_cases h0 : nbrs g ndir true i = ∅
    · rw [h0]; simp
    · have := heq _ hc'.1 i hi (fun h => hc'.2 (by
        show ((nbrs g ndir true ((linked g.n D).getD c 0)).card : ℝ) = 0
        rw [h]; simp)) h0
      show _ / ((nbrs g ndir true ((linked g.n D).getD c 0)).card : ℝ) = _
      rw [this]

/-- Three vertices with the links 0 → 1, 0 → 2 and 1 → 2. -/
def exT : DiG := ⟨3, fun i j => decide (i < j ∧ j < 3)⟩

theorem exT_linked : linked exT.n (fun i => ((nbrs exT .out true i).card : ℝ)) = [0, 1] := by
  have h0 : (nbrs exT .out true 0).card = 2 := by decide
  have h1 : (nbrs exT .out true 1).card = 1 := by decide
  have h2 : (nbrs exT .out true 2).card = 0 := by decide
  unfold linked
  rw [show List.range exT.n = [0, 1, 2] from rfl]
  simp only [List.filter_cons, List.filter_nil, h0, h1, h2]
  simp

/-- A simple graph of three vertices.  An array with one column and an array with three columns
are refused; for an array with two columns vertex 1, whose only neighbour 2 has the value one in
column 0, is given the value one half. -/
theorem C89_graph_violated (z : Bool) (b : Backend) (x : ℕ → ℕ → ℝ) (hx : x 2 0 = 1) :
    average_nn_property z b exT 1 x .out (some false) = .error .broadcast ∧
    average_nn_property z b exT 3 x .out (some false) = .error .broadcast ∧
    (∃ v, average_nn_property z b exT 2 x .out (some false) = .ok v ∧ v 1 0 = 1 / 2) ∧
    meanOver (nbrs exT .out false 1) (fun j => x j 0) = 1 := by
  have hL := exT_linked
  have e1 : nbrs exT .out false 1 = {2} := by decide
  have e2 : (nbrs exT .out true 0).card = 2 := by decide
  refine ⟨(C89_graph_outcome z b exT 1 x (Or.inl rfl) false).2 ?_,
    (C89_graph_outcome z b exT 3 x (Or.inl rfl) false).2 ?_, ?_, ?_⟩
  · rw [hL]; simp [Accepted]
  · rw [hL]; simp [Accepted]
  · obtain ⟨v, hv, hvv⟩ := (C89_graph_outcome z b exT 2 x (Or.inl rfl) false).1
      (by rw [hL]; simp [Accepted])
    refine ⟨v, hv, ?_⟩
    obtain ⟨keep, hk1, _, hk⟩ := hvv 1 (by decide)
    have hkeep : keep = false := by
      cases keep with
      | false => rfl
      | true => rcases hk1 rfl with h | h <;> simp at h
    rw [hk 0 (by omega), hL, hkeep, e1]
    simp [hx, e2]
  · rw [e1]; simp [meanOver, hx]

/-- `C89_graph_partial` covers the cycle of two vertices with two columns. -/
example (z : Bool) (b : Backend) (x : ℕ → ℕ → ℝ) :
    ∃ v, average_nn_property z b ⟨2, fun i j => decide (i ≠ j)⟩ 2 x .out (some false) = .ok v := by
  refine (C89_graph_partial z b _ 2 x (Or.inl rfl) false (fun i _ => by simp) ?_).imp
    fun v h => h.1
  have h0 : (nbrs ⟨2, fun i j => decide (i ≠ j)⟩ .out true 0).card = 1 := by decide
  have h1 : (nbrs ⟨2, fun i j => decide (i ≠ j)⟩ .out true 1).card = 1 := by decide
  right
  refine ⟨?_, ?_⟩
  · unfold linked
    rw [show List.range (DiG.mk 2 (fun i j => decide (i ≠ j))).n = [0, 1] from rfl]
    simp only [List.filter_cons, List.filter_nil, h0, h1]
    simp
  · intro i hi j hj _ _
    have hi : i = 0 ∨ i = 1 := by change i < 2 at hi; omega
    have hj : j = 0 ∨ j = 1 := by change j < 2 at hj; omega
    rcases hi with rfl | rfl <;> rcases hj with rfl | rfl <;> simp only [h0, h1]

end

/-! ## `RandomDiGraph` -/

section

open Rand

theorem sum_coef (n : ℕ) (s : Bool) (c : ℝ) (f : ℕ → ℝ) {i : ℕ} (hi : i < n) :
    ∑ j ∈ Finset.range n, (if i ≠ j ∨ s = true then c else 0) * f j
      = (∑ j ∈ Finset.range n, c * f j) - if s = true then 0 else c * f i := by
  have : ∀ j ∈ Finset.range n, (if i ≠ j ∨ s = true then c else 0) * f j
      = c * f j - if j = i then (if s = true then 0 else c * f i) else 0 := by
    intro j hj
    by_cases h : j = i
    · subst h; by_cases hs' : s = true <;> simp [hs']
    · have h' : i ≠ j := Ne.symm h
      simp [h, h']
  rw [Finset.sum_congr rfl this, Finset.sum_sub_distrib, Finset.sum_ite_eq',
    if_pos (Finset.mem_range.mpr hi)]

/-- The coefficient of the neighbourhood: the probability of being a neighbour, the degree and the
sums are those of one number. -/
theorem rand_coef (o : Obj) (p : ℝ) (q : XR) (hp : o.param = some (fin p, q)) (ndir : Dir)
    (hd : ndir = .out ∨ ndir = .inn ∨ (ndir = .outIn ∧ o.selfloops = false)) :
    ∃ c : ℝ, (∀ i < o.num_vertices, ∀ j < o.num_vertices,
        nbrProb o.num_vertices o.selfloops p ndir i j
          = if i ≠ j ∨ o.selfloops = true then c else 0) ∧
      (∃ deg, avDeg o ndir = .ok deg ∧ ∀ i < o.num_vertices, deg i
        = fin (∑ j ∈ Finset.range o.num_vertices, nbrProb o.num_vertices o.selfloops p ndir i j)) ∧
      (∀ x : ℕ → ℕ → ℝ, ∃ av, randSumSpark o (fin p) (fun i l => fin (x i l)) ndir = .ok av ∧
        ∀ i < o.num_vertices, ∀ l, av i l = fin (∑ j ∈ Finset.range o.num_vertices,
          nbrProb o.num_vertices o.selfloops p ndir i j * x j l)) ∧
      ∀ (k : ℕ) (x : ℕ → ℕ → ℝ), randSum o (fin p) k (fun i l => fin (x i l)) ndir
        = if o.selfloops = true then .ok (fun _ => fin (∑ j ∈ Finset.range o.num_vertices,
            ∑ l ∈ Finset.range k, c * x j l)) else .error .broadcast := by
  obtain ⟨c, hc, hdeg, havs, hsum⟩ : ∃ c : ℝ, (∀ i < o.num_vertices, ∀ j < o.num_vertices,
        nbrProb o.num_vertices o.selfloops p ndir i j
          = if i ≠ j ∨ o.selfloops = true then c else 0) ∧
      (∃ deg, avDeg o ndir = .ok deg ∧ ∀ i, deg i
        = fin (c * o.num_vertices - if o.selfloops = true then 0 else c)) ∧
      (∀ x : ℕ → ℕ → ℝ, ∃ av, randSumSpark o (fin p) (fun i l => fin (x i l)) ndir = .ok av ∧
        ∀ i l, av i l = fin ((∑ j ∈ Finset.range o.num_vertices, c * x j l)
          - if o.selfloops = true then 0 else c * x i l)) ∧
      ∀ (k : ℕ) (x : ℕ → ℕ → ℝ), randSum o (fin p) k (fun i l => fin (x i l)) ndir
        = if o.selfloops = true then .ok (fun _ => fin (∑ j ∈ Finset.range o.num_vertices,
            ∑ l ∈ Finset.range k, c * x j l)) else .error .broadcast := by
    rcases hd with rfl | rfl | ⟨rfl, hsf⟩
    · refine ⟨p, fun i hi j hj => nbrProb_out _ _ p hi hj, ?_, fun x => ?_, fun k x => ?_⟩
      · unfold avDeg expected_out_degree
        simp only [hp]
        cases o.selfloops <;> refine ⟨_, rfl, fun i => ?_⟩ <;> simp [mul_sub]
      · unfold randSumSpark
        simp only [fin_mul_fin, list_sum_fin]
        cases o.selfloops <;> refine ⟨_, rfl, fun i l => ?_⟩ <;> simp
      · unfold randSum
        simp only [fin_mul_fin, list_sum_fin]
    · refine ⟨p, fun i hi j hj => nbrProb_in _ _ p hi hj, ?_, fun x => ?_, fun k x => ?_⟩
      · unfold avDeg expected_in_degree expected_out_degree
        simp only [hp]
        cases o.selfloops <;> refine ⟨_, rfl, fun i => ?_⟩ <;> simp [mul_sub]
      · unfold randSumSpark
        simp only [fin_mul_fin, list_sum_fin]
        cases o.selfloops <;> refine ⟨_, rfl, fun i l => ?_⟩ <;> simp
      · unfold randSum
        simp only [fin_mul_fin, list_sum_fin]
    · refine ⟨2 * p - p ^ 2, fun i hi j hj => ?_, ?_, fun x => ?_, fun k x => ?_⟩
      · rw [nbrProb_outIn _ _ p hi hj]
        by_cases h : i = j
        · simp [h, hsf]
        · simp [h]
      · unfold avDeg expected_degree
        simp only [hp, hsf]
        refine ⟨_, rfl, fun i => ?_⟩
        simp only [Bool.false_eq_true, if_false, fin_mul_fin, fin_sub_fin, fin_inj]
        ring
      · unfold randSumSpark
        simp only [hsf, fin_mul_fin, fin_sub_fin, list_sum_fin]
        refine ⟨_, rfl, fun i l => ?_⟩
        simp only [Bool.false_eq_true, if_false, fin_sub_fin, fin_inj, pow_two]
      · unfold randSum
        simp only [hsf, Bool.false_eq_true, if_false]
  have hS : ∀ (f : ℕ → ℝ), ∀ i < o.num_vertices, ∑ j ∈ Finset.range o.num_vertices,
      nbrProb o.num_vertices o.selfloops p ndir i j * f j
      = (∑ j ∈ Finset.range o.num_vertices, c * f j)
        - if o.selfloops = true then 0 else c * f i := fun f i hi => by
    rw [← sum_coef _ _ c f hi]
    exact Finset.sum_congr rfl fun j hj => by rw [hc i hi j (Finset.mem_range.1 hj)]
  refine ⟨c, hc, ?_, fun x => ?_, hsum⟩
  · obtain ⟨deg, h1, h2⟩ := hdeg
    refine ⟨deg, h1, fun i hi => ?_⟩
    have := hS (fun _ => 1) i hi
    simp only [mul_one, Finset.sum_const, Finset.card_range, nsmul_eq_mul] at this
    rw [h2, this, mul_comm]
  · obtain ⟨av, h1, h2⟩ := havs x
    exact ⟨av, h1, fun i hi l => by rw [h2, hS (fun j => x j l) i hi]⟩

/-- The degrees of all vertices are equal. -/
theorem rand_same (n : ℕ) (s : Bool) (p c : ℝ) (ndir : Dir)
    (h : ∀ i < n, ∀ j < n, nbrProb n s p ndir i j = if i ≠ j ∨ s = true then c else 0)
    {i i' : ℕ} (hi : i < n) (hi' : i' < n) :
    ∑ j ∈ Finset.range n, nbrProb n s p ndir i j
      = ∑ j ∈ Finset.range n, nbrProb n s p ndir i' j := by
  have key : ∀ i < n, ∑ j ∈ Finset.range n, nbrProb n s p ndir i j
      = (∑ j ∈ Finset.range n, c * 1) - if s = true then 0 else c := fun i hi => by
    have := sum_coef n s c (fun _ => 1) hi
    simp only [mul_one] at this
    rw [Finset.sum_congr rfl (fun j hj => h i hi j (Finset.mem_range.1 hj)), this]
    simp
  rw [key i hi, key i' hi']

/-- The sum over a neighbourhood that is always empty. -/
theorem rand_zero (n : ℕ) (s : Bool) (p c : ℝ) (ndir : Dir)
    (h : ∀ i < n, ∀ j < n, nbrProb n s p ndir i j = if i ≠ j ∨ s = true then c else 0)
    {i : ℕ} (hi : i < n) (h0 : ∑ j ∈ Finset.range n, nbrProb n s p ndir i j = 0) (f : ℕ → ℝ) :
    ∑ j ∈ Finset.range n, nbrProb n s p ndir i j * f j = 0 := by
  have hterm : ∀ j ∈ Finset.range n, nbrProb n s p ndir i j = 0 := by
    by_cases hc : c = 0
    · intro j hj
      rw [h i hi j (Finset.mem_range.1 hj), hc, ite_self]
    · intro j hj
      by_contra hne
      have hcard : ∑ j ∈ Finset.range n, nbrProb n s p ndir i j
          = ((Finset.range n).filter (fun j => i ≠ j ∨ s = true)).card * c := by
        rw [Finset.sum_congr rfl (fun j hj => h i hi j (Finset.mem_range.1 hj)),
          ← Finset.sum_filter, Finset.sum_const, nsmul_eq_mul]
      rw [h0] at hcard
      have hz : ((Finset.range n).filter (fun j => i ≠ j ∨ s = true)).card = 0 := by
        rcases mul_eq_zero.1 hcard.symm with h' | h'
        · exact_mod_cast h'
        · exact absurd h' hc
      have hj' : j ∉ (Finset.range n).filter (fun j => i ≠ j ∨ s = true) := by
        rw [Finset.card_eq_zero.1 hz]; simp
      rw [h i hi j (Finset.mem_range.1 hj)] at hne
      refine hne (if_neg fun hor => hj' (Finset.mem_filter.2 ⟨hj, hor⟩))
  exact Finset.sum_eq_zero fun j hj => by rw [hterm j hj, zero_mul]

theorem withLoops_fields (o : Obj) (sl : Option Bool) :
    (withLoops o sl).num_vertices = o.num_vertices ∧ (withLoops o sl).param = o.param ∧
      (withLoops o sl).selfloops = sl.getD o.selfloops := by
  cases sl <;> exact ⟨rfl, rfl, rfl⟩

/-- Sparse and dense `RandomDiGraph`: without self loops every array with columns is refused,
whatever its shape, and the self-loop setting of the call stays; with self loops the result has
one entry per vertex, the *sum* over the columns of the averages. -/
theorem C89_random_outcome (o : Obj) (p : ℝ) (q : XR) (hp : o.param = some (fin p, q)) (k : ℕ)
    (x : ℕ → ℕ → ℝ) (ndir : Dir) (sl : Option Bool) (hd : ndir = .out ∨ ndir = .inn) :
    let r := rand_av_nn_property o o.num_vertices k (fun i c => fin (x i c)) ndir sl
    (sl.getD o.selfloops = false → r = (withLoops o sl, .error .broadcast)) ∧
    (sl.getD o.selfloops = true → ∃ v, r = (o, .ok v) ∧ ∀ i < o.num_vertices,
      v i = fin (∑ c ∈ Finset.range k,
        nnRatio o.num_vertices true p (fun j => x j c) ndir i)) := by
  dsimp only
  obtain ⟨e1, e2, e3⟩ := withLoops_fields o sl
  obtain ⟨c, hc, ⟨deg, hdeg, hdegv⟩, -, hsum⟩ := rand_coef (withLoops o sl) p q (e2.trans hp) ndir
    (by rcases hd with h | h <;> simp [h])
  rw [e1, e3] at hc hdegv
  rw [e1, e3] at hsum
  unfold rand_av_nn_property
  simp only [hp, ne_eq, not_true_eq_false, if_false]
  rw [hdeg, hsum k x]
  constructor
  · intro hs
    rw [if_neg (by simp [hs])]
  · intro hs
    rw [hs] at hc hdegv
    rw [if_pos hs]
    dsimp only
    have hprob : ∀ i < o.num_vertices, ∀ j < o.num_vertices,
        nbrProb o.num_vertices true p ndir i j = c := fun i hi j hj => by
      rw [hc i hi j hj]; simp
    have htot : ∀ i < o.num_vertices, ∑ j ∈ Finset.range o.num_vertices, ∑ l ∈ Finset.range k,
        c * x j l = ∑ l ∈ Finset.range k, ∑ j ∈ Finset.range o.num_vertices,
          nbrProb o.num_vertices true p ndir i j * x j l := fun i hi => by
      rw [Finset.sum_comm]
      exact Finset.sum_congr rfl fun l _ => Finset.sum_congr rfl fun j hj => by
        rw [hprob i hi j (Finset.mem_range.1 hj)]
    have hz : ∀ i < o.num_vertices, ∑ j ∈ Finset.range o.num_vertices,
        nbrProb o.num_vertices true p ndir i j = 0 →
        ∑ j ∈ Finset.range o.num_vertices, ∑ l ∈ Finset.range k, c * x j l = 0 := by
      intro i hi h0
      rw [htot i hi]
      exact Finset.sum_eq_zero fun l _ => rand_zero _ _ _ c _ hc hi h0 _
    rw [if_pos]
    · refine ⟨_, rfl, fun i hi => ?_⟩
      rw [hdegv i hi]
      unfold nnRatio
      by_cases h0 : ∑ j ∈ Finset.range o.num_vertices, nbrProb o.num_vertices true p ndir i j = 0
      · simp [h0, hz i hi h0]
      · rw [if_neg (by simp [h0]), fin_div_fin _ _ h0, htot i hi, Finset.sum_div]
    · rw [List.all_eq_true]
      intro i hi
      rw [hdegv i (List.mem_range.1 hi)]
      by_cases h0 : ∑ j ∈ Finset.range o.num_vertices, nbrProb o.num_vertices true p ndir i j = 0
      · simp [hz i (List.mem_range.1 hi) h0]
      · simp [h0]

/-- Two vertices, probability one half: the array with two columns is refused without self loops,
and with self loops the result for vertex 0 is two although the average of both columns is one. -/
theorem C89_random_violated :
    let o : Obj := ⟨2, none, none, none, false, some (fin (1 / 2), 0)⟩
    (rand_av_nn_property o 2 2 (fun _ _ => fin 1) .out none).2 = .error .broadcast ∧
    ∃ v, (rand_av_nn_property o 2 2 (fun _ _ => fin 1) .out (some true)).2 = .ok v ∧
      v 0 = fin 2 ∧ nnRatio 2 true (1 / 2) (fun _ => 1) .out 0 = 1 := by
  dsimp only
  have hr : nnRatio 2 true (1 / 2) (fun _ => 1) .out 0 = 1 := by
    unfold nnRatio
    have h : ∀ j ∈ Finset.range 2, nbrProb 2 true (1 / 2) .out 0 j = 1 / 2 := fun j hj => by
      rw [nbrProb_out 2 true _ (by omega) (Finset.mem_range.1 hj)]; simp
    simp only [mul_one]
    rw [Finset.sum_congr rfl h]
    simp
  refine ⟨?_, ?_⟩
  · exact congrArg Prod.snd ((C89_random_outcome
      ⟨2, none, none, none, false, some (fin (1 / 2), 0)⟩ (1 / 2) 0 rfl 2 (fun _ _ => 1) .out none
      (Or.inl rfl)).1 rfl)
  · obtain ⟨v, hv, hvv⟩ := (C89_random_outcome
      ⟨2, none, none, none, false, some (fin (1 / 2), 0)⟩ (1 / 2) 0 rfl 2 (fun _ _ => 1) .out
      (some true) (Or.inl rfl)).2 rfl
    refine ⟨v, congrArg Prod.snd hv, ?_, hr⟩
    rw [hvv 0 (by norm_num)]
    simp only [hr]
    simp

/-- Spark `RandomDiGraph`: all degrees are equal, so what is returned are the averages of the
columns; with `m` the number of vertices with neighbours (all or none) the array is accepted under
the same condition as elsewhere, and refused otherwise. -/
theorem C89_random_spark (z : Bool) (o : Obj) (p : ℝ) (q : XR) (hp : o.param = some (fin p, q))
    (k : ℕ) (x : ℕ → ℕ → ℝ) (ndir : Dir) (sl : Option Bool)
    (hd : ndir = .out ∨ ndir = .inn ∨ (ndir = .outIn ∧ sl.getD o.selfloops = false)) :
    let b := sl.getD o.selfloops
    let m := (linked o.num_vertices (fun i => ∑ j ∈ Finset.range o.num_vertices,
      nbrProb o.num_vertices b p ndir i j)).length
    let r := rand_av_nn_property_spark z o o.num_vertices k (fun i c => fin (x i c)) ndir sl
    (Accepted z m k → ∃ v, r = (o, .ok v) ∧ ∀ i < o.num_vertices, ∀ c < k,
      v i c = fin (nnRatio o.num_vertices b p (fun j => x j c) ndir i)) ∧
    (¬Accepted z m k → r = (withLoops o sl, .error .broadcast)) := by
  dsimp only
  obtain ⟨e1, e2, e3⟩ := withLoops_fields o sl
  obtain ⟨c₀, hc, ⟨deg, hdeg, hdegv⟩, havs, -⟩ := rand_coef (withLoops o sl) p q (e2.trans hp) ndir
    (by rw [e3]; exact hd)
  obtain ⟨av, hav, havv⟩ := havs x
  rw [e1, e3] at hc hdegv havv
  set b := sl.getD o.selfloops with hb
  set D : ℕ → ℝ := fun i => ∑ j ∈ Finset.range o.num_vertices,
      nbrProb o.num_vertices b p ndir i j with hD
  unfold rand_av_nn_property_spark
  simp only [hp, ne_eq, not_true_eq_false, if_false]
  rw [hdeg, hav]
  dsimp only
  have hmask : maskOk o.num_vertices k deg av = true := by
    unfold maskOk
    rw [List.all_eq_true]
    intro i hi
    have hi := List.mem_range.1 hi
    rw [hdegv i hi]
    by_cases h0 : ∑ j ∈ Finset.range o.num_vertices, nbrProb o.num_vertices b p ndir i j = 0
    · simp only [isZero_fin, h0, decide_true, Bool.not_true, Bool.false_or, List.all_eq_true]
      intro c _
      rw [havv i hi c, rand_zero _ _ _ c₀ _ hc hi h0]; simp
    · simp [h0]
  rw [if_pos hmask]
  have hL : (List.range o.num_vertices).filter (fun i => !(deg i).isZero)
      = linked o.num_vertices D :=
    filter_linked fun i hi => by rw [hdegv i hi]; simp [hD]
  constructor
  · intro hacc
    have hacc' := hacc
    unfold Accepted at hacc
    rw [← hL] at hacc
    obtain ⟨v, hv, hvv⟩ := average_some z (· / ·) o.num_vertices k (fun i => !(deg i).isZero) av
      deg hacc
    rw [hv]
    refine ⟨v, rfl, fun i hi c hcl => ?_⟩
    rw [hvv i hi c hcl, hL]
    unfold nnRatio
    by_cases h0 : ∑ j ∈ Finset.range o.num_vertices, nbrProb o.num_vertices b p ndir i j = 0
    · rw [if_neg (by rw [hdegv i hi]; simp [h0]), havv i hi c, rand_zero _ _ _ c₀ _ hc hi h0,
        zero_div]
    · rw [if_pos (by rw [hdegv i hi]; simp [h0])]
      have hidx : (if (linked o.num_vertices D).length = 1 then i
          else (linked o.num_vertices D).getD c 0) < o.num_vertices := by
        by_cases h1 : (linked o.num_vertices D).length = 1
        · rw [if_pos h1]; exact hi
        · rw [if_neg h1]
          refine (getD_linked ?_).1
          rcases hacc' with h | h | h
          · exact absurd h h1
          · rw [h]; exact hcl
          · have : i ∈ linked o.num_vertices D := by unfold linked; simpa [hi] using h0
            rw [List.length_eq_zero_iff.1 h.1] at this
            simp at this
      rw [hdegv _ hidx, havv i hi c, rand_same _ _ _ c₀ _ hc hidx hi]
      exact fin_div_fin _ _ h0
  · intro hacc
    unfold Accepted at hacc
    simp only [not_or] at hacc
    rw [← hL] at hacc
    rw [average_none z (· / ·) o.num_vertices k (fun i => !(deg i).isZero) av deg hacc.1 hacc.2.1
      hacc.2.2]

/-- Both cases of `C89_random_spark` occur: two vertices with probability one half. -/
example (z : Bool) (x : ℕ → ℕ → ℝ) :
    let o : Obj := ⟨2, none, none, none, false, some (fin (1 / 2), 0)⟩
    (∃ v, (rand_av_nn_property_spark z o 2 2 (fun i c => fin (x i c)) .out none).2 = .ok v) ∧
    (rand_av_nn_property_spark z o 2 3 (fun i c => fin (x i c)) .out none).2 = .error .broadcast := by
  dsimp only
  have hl : linked 2 (fun i => ∑ j ∈ Finset.range 2, nbrProb 2 false (1 / 2) .out i j)
      = List.range 2 := by
    refine linked_all fun i hi => ?_
    rw [Finset.sum_congr rfl (fun j hj => nbrProb_out 2 false (1 / 2) hi (Finset.mem_range.1 hj))]
    have : i = 0 ∨ i = 1 := by omega
    rcases this with rfl | rfl <;> simp [Finset.sum_range_succ]
  constructor
  · obtain ⟨v, hv, -⟩ := (C89_random_spark z ⟨2, none, none, none, false, some (fin (1 / 2), 0)⟩
      (1 / 2) 0 rfl 2 x .out none (Or.inl rfl)).1 (by
        show Accepted z (linked 2 (fun i => ∑ j ∈ Finset.range 2,
          nbrProb 2 false (1 / 2) .out i j)).length 2
        rw [hl]; simp [Accepted])
    exact ⟨v, congrArg Prod.snd hv⟩
  · exact congrArg Prod.snd ((C89_random_spark z
      ⟨2, none, none, none, false, some (fin (1 / 2), 0)⟩
      (1 / 2) 0 rfl 3 x .out none (Or.inl rfl)).2 (by
        show ¬Accepted z (linked 2 (fun i => ∑ j ∈ Finset.range 2,
          nbrProb 2 false (1 / 2) .out i j)).length 3
        rw [hl]; simp [Accepted]))

end

end Columns

end

end Verif
