import Verif.Sampled.MeanLemmas

/-!
# C75: sampled graphs have on average what the ensemble queries return
-/

namespace Verif

noncomputable section

open XR Spec DiGraphEnsemble MeasureTheory
open scoped ENNReal

namespace Sampled

open Graph (View Q)

/-- The answer of a graph object to the query `q` for vertex `i` and label `k`, asked after the
queries `h`. -/
def ask (w : View) (h : List (Q × Bool)) (recompute : Bool) (q : Q) (i k : ℕ) : ℝ :=
  (w.query (w.after h) q recompute).2 i k

theorem ask_eq (w : View) (h : List (Q × Bool)) (rc : Bool) (q : Q) (i k : ℕ) :
    ask w h rc q i k = w.fresh i k q := Graph.C70_history w h q rc i k

/-! ## Single layer -/

section Single

variable {ι γ κ : Type} [DecidableEq ι]

omit [DecidableEq ι] in
/-- What the queries on the sampled graph count. -/
theorem single_counts {b : Graph.Backend} {g : Obj ι γ Adj} {n : ℕ} {s : Bool}
    (hn : g.num_vertices = n) {G : Finset (ℕ × ℕ)} (hG : G ⊆ Law.pairs n s)
    (hL : g.adj.Links (G : Set (ℕ × ℕ))) (h : List (Q × Bool)) (rc : Bool) :
    let a := ask (View.single b true g.graph) h rc
    a .num_edges 0 0 = (G.card : ℝ) ∧ ∀ i < n,
      a .out_degree i 0 = (Law.outDegree G i : ℝ) ∧ a .in_degree i 0 = (Law.inDegree G i : ℝ) ∧
      a .degree i 0 = (Law.degree n G i : ℝ) := by
  subst hn
  obtain ⟨h1, h2⟩ := counts hG (B := Graph.ne0 g.adj.num) (fun i j => ne0_num hL i j)
  refine ⟨?_, fun i hi => ⟨?_, ?_, ?_⟩⟩
  · exact (ask_eq ..).trans h1
  · exact (ask_eq ..).trans (h2 i hi).1
  · exact (ask_eq ..).trans (h2 i hi).2.1
  · cases b
    · exact (ask_eq ..).trans (h2 i hi).2.2.1
    · exact (ask_eq ..).trans (h2 i hi).2.2.1

/-- **C75**, any statistic of single-layer samples: its average over the random numbers is its mean
in the ensemble. -/
theorem C75_single_statistic (b : Graph.Backend) (E : Ens) (n : ℕ) (hn : n < 2 ^ 64) (θ : E.δ)
    {q : ℕ × ℕ → ℝ} (hE : ({ E with param := θ } : Ens).Is q) (s : Bool)
    (ref : Option (Ref ι γ κ)) (sl : Option Bool) (v e : ℕ → ℕ → ℝ)
    {Ω : Type} [MeasurableSpace Ω] (P : Measure Ω) (U : ℕ → Ω → ℝ) (hU : IsUniform P U) :
    ∃ (g : Ω → Obj ι γ Adj) (X : Ω → Finset (ℕ × ℕ)),
      (∀ ω, sample b E n (some θ) s ref .none sl (fun m => U m ω) v e = .ok (g ω) ∧
        (g ω).num_vertices = n ∧ X ω ⊆ Law.pairs n s ∧
        (g ω).adj.Links (X ω : Set (ℕ × ℕ))) ∧
      ∀ f : Finset (ℕ × ℕ) → ℝ, Integrable (fun ω => f (X ω)) P ∧
        ∫ ω, f (X ω) ∂P = Law.mean (Law.pairs n s) q f := by
  choose g h1 h2 _ _ _ _ h7 using fun ω => C74_single b E n hn θ s ref sl (fun m => U m ω) v e
  have hX : ∀ ω e, e ∈ (({ E with param := θ } : Ens).binary_sample_stream n s
      (fun m => U m ω)).toFinset ↔ e ∈ Law.pairs n s ∧ U ((order n s).idxOf e) ω < q e := by
    intro ω e
    rw [List.mem_toFinset, binary_sample_stream_eq, mem_binary_sample hE.coherent, hE.prob_eq]
  refine ⟨g, fun ω => (({ E with param := θ } : Ens).binary_sample_stream n s
      (fun m => U m ω)).toFinset, fun ω => ⟨h1 ω, h2 ω, fun e he => ((hX ω e).1 he).1, ?_⟩,
    fun f => integral_of_draws hU (fun e _ => ?_) (fun e he e' _ h => ?_) hX f⟩
  · have := h7 ω
    rwa [show ((({ E with param := θ } : Ens).binary_sample_stream n s
      (fun m => U m ω)).toFinset : Set (ℕ × ℕ))
      = {p | p ∈ ({ E with param := θ } : Ens).binary_sample_stream n s (fun m => U m ω)} from
        by ext; simp]
  · rw [← hE.prob_eq]; exact hE.coherent.prob_mem e
  · exact (List.idxOf_inj (mem_order.2 he)).1 h

/-- **C75**: the average over the random numbers of `num_edges`, `out_degree`, `in_degree` and
`degree` of the sampled graph, asked after any other queries, is what `expected_num_edges` and the
expected degrees of the ensemble return. -/
theorem C75_single (b : Graph.Backend) (E : Ens) (n : ℕ) (hn : n < 2 ^ 64) (θ : E.δ)
    {q : ℕ × ℕ → ℝ} (hE : ({ E with param := θ } : Ens).Is q) (s : Bool)
    (ref : Option (Ref ι γ κ)) (sl : Option Bool) (v e : ℕ → ℕ → ℝ)
    {Ω : Type} [MeasurableSpace Ω] (P : Measure Ω) (U : ℕ → Ω → ℝ) (hU : IsUniform P U) :
    ∃ g : Ω → Obj ι γ Adj,
      (∀ ω, sample b E n (some θ) s ref .none sl (fun m => U m ω) v e = .ok (g ω)) ∧
      ∀ (h : Ω → List (Q × Bool)) (rc : Ω → Bool),
        let a := fun q i ω => ask (View.single b true (g ω).graph) (h ω) (rc ω) q i 0
        let D := ({ E with param := θ } : Ens).exp_degrees n s
        ({ E with param := θ } : Ens).exp_edges n s = fin (∫ ω, a .num_edges 0 ω ∂P) ∧
        ∀ i < n, D.exp_d_out i = fin (∫ ω, a .out_degree i ω ∂P) ∧
          D.exp_d_in i = fin (∫ ω, a .in_degree i ω ∂P) ∧
          D.exp_d i = fin (∫ ω, a .degree i ω ∂P) := by
  obtain ⟨g, X, hg, hX⟩ := C75_single_statistic b E n hn θ hE s ref sl v e P U hU
  refine ⟨g, fun ω => (hg ω).1, fun h rc => ?_⟩
  intro a D
  have hc := fun ω => single_counts (b := b) (hg ω).2.1 (hg ω).2.2.1 (hg ω).2.2.2 (h ω) (rc ω)
  refine ⟨?_, fun i hi => ?_⟩
  · rw [C09_formula hE n s, ← (hX _).2]
    exact congrArg fin (integral_congr_ae (.of_forall fun ω => (hc ω).1.symm))
  · obtain ⟨c1, c2, c3⟩ := C10_formula hE n s i hi
    refine ⟨c1.trans ?_, c2.trans ?_, c3.trans ?_⟩
    · rw [← (hX _).2]
      exact congrArg fin (integral_congr_ae (.of_forall fun ω => ((hc ω).2 i hi).1.symm))
    · rw [← (hX _).2]
      exact congrArg fin (integral_congr_ae (.of_forall fun ω => ((hc ω).2 i hi).2.1.symm))
    · rw [← (hX _).2]
      exact congrArg fin (integral_congr_ae (.of_forall fun ω => ((hc ω).2 i hi).2.2.symm))

example : ∃ (Ω : Type) (_ : MeasurableSpace Ω) (P : Measure Ω) (U : ℕ → Ω → ℝ), IsUniform P U ∧
    (Ens.sparseFit 1 (fun _ => 2) (fun _ => 3) (fun _ _ => 1)).Is
      (fun e => fitProb (1 * 2 * 3 * 1)) := by
  obtain ⟨Ω, m, P, -, U, hU⟩ := exists_isUniform ℕ
  exact ⟨Ω, m, P, U, hU, .sparseFit 1 (fun _ => 2) (fun _ => 3) (fun _ _ => 1)⟩

end Single

/-! ## Several layers -/

section Multi

open Layer
open Layer.Method (sparseObj denseObj)

variable {ι γ κ : Type} [DecidableEq ι] [DecidableEq κ]

omit [DecidableEq ι] [DecidableEq κ] in
/-- What the queries on a sampled multigraph count. -/
theorem multi_counts {b : Graph.Backend} {g : MultiObj ι γ κ Adj} {n L : ℕ} {s : Bool}
    (hn : g.num_vertices = n) (hL : g.num_labels = L) {G : ℕ → Finset (ℕ × ℕ)}
    (hG : ∀ k < L, G k ⊆ Law.pairs n s) (hA : ∀ k < L, (g.adj k).Links (G k : Set (ℕ × ℕ)))
    (h : List (Q × Bool)) (rc : Bool) :
    let a := ask (View.multi b true g.graph) h rc
    let H := (Finset.range L).biUnion G
    (∀ k < L, a .num_edges_label 0 k = ((G k).card : ℝ) ∧ ∀ i < n,
      a .out_degree_by_label i k = (Law.outDegree (G k) i : ℝ) ∧
      a .in_degree_by_label i k = (Law.inDegree (G k) i : ℝ) ∧
      a .degree_by_label i k = (Law.degree n (G k) i : ℝ)) ∧
    (0 < L → a .num_edges 0 0 = (H.card : ℝ) ∧ ∀ i < n,
      a .out_degree i 0 = (Law.outDegree H i : ℝ) ∧ a .in_degree i 0 = (Law.inDegree H i : ℝ) ∧
      a .degree i 0 = (Law.degree n H i : ℝ)) := by
  subst hn hL
  intro a H
  refine ⟨fun k hk => ?_, fun hpos => ?_⟩
  · obtain ⟨h1, h2⟩ := counts (hG k hk) (B := Graph.ne0 (g.adj k).num)
      (fun i j => ne0_num (hA k hk) i j)
    refine ⟨(ask_eq ..).trans h1, fun i hi => ⟨(ask_eq ..).trans (h2 i hi).1,
      (ask_eq ..).trans (h2 i hi).2.1, ?_⟩⟩
    cases b
    · exact (ask_eq ..).trans (h2 i hi).2.2.2
    · exact (ask_eq ..).trans (h2 i hi).2.2.2
  · have hH : H ⊆ Law.pairs g.num_vertices s := by
      intro e he
      obtain ⟨k, hk, hek⟩ := Finset.mem_biUnion.1 he
      exact hG k (Finset.mem_range.1 hk) hek
    obtain ⟨h1, h2⟩ := counts hH (B := Graph.ne0 (match b with
      | .dense => Graph.Dense.project g.num_labels (fun k => (g.adj k).num)
      | .sparse => Graph.Sparse.project g.num_labels (fun k => (g.adj k).num)))
      (fun i j => by
        refine (ne0_project (b := b) hpos hA i j).trans ?_
        simp only [H, Finset.mem_biUnion, Finset.mem_range, Finset.mem_coe])
    cases b
    · exact ⟨(ask_eq ..).trans h1, fun i hi => ⟨(ask_eq ..).trans (h2 i hi).1,
        (ask_eq ..).trans (h2 i hi).2.1, (ask_eq ..).trans (h2 i hi).2.2.1⟩⟩
    · exact ⟨(ask_eq ..).trans h1, fun i hi => ⟨(ask_eq ..).trans (h2 i hi).1,
        (ask_eq ..).trans (h2 i hi).2.1, (ask_eq ..).trans (h2 i hi).2.2.1⟩⟩

/-- Averages over layers drawn pair by pair. -/
theorem layers_mean {Ω : Type} [MeasurableSpace Ω] {P : Measure Ω} {U : ℕ → Ω → ℝ}
    (hU : IsUniform P U) {n L : ℕ} {s : Bool} {O : ℕ → List (ℕ × ℕ)} {q : ℕ → ℕ × ℕ → ℝ}
    (hq : ∀ k e, 0 ≤ q k e ∧ q k e ≤ 1) (hO : ∀ k, ∀ e ∈ O k, e ∈ Law.pairs n s)
    (hz : ∀ k, ∀ e ∈ Law.pairs n s, e ∉ O k → q k e = 0)
    {X : ℕ → Ω → Finset (ℕ × ℕ)}
    (hX : ∀ k < L, ∀ ω e, e ∈ X k ω ↔ e ∈ O k ∧ U (pos O k e) ω < q k e)
    (f : Finset (ℕ × ℕ) → ℝ) :
    (∀ k < L, Integrable (fun ω => f (X k ω)) P ∧
      ∫ ω, f (X k ω) ∂P = Law.mean (Law.pairs n s) (q k) f) ∧
    Integrable (fun ω => f ((Finset.range L).biUnion (fun k => X k ω))) P ∧
    ∫ ω, f ((Finset.range L).biUnion (fun k => X k ω)) ∂P
      = Law.mean (Law.pairs n s) (fun e => 1 - ∏ k ∈ Finset.range L, (1 - q k e)) f := by
  refine ⟨fun k hk => ?_, ?_⟩
  · rw [Law.mean_drop (T := (O k).toFinset) (fun e he => hO k e (List.mem_toFinset.1 he))
      (fun e he h => hz k e he (fun h' => h (List.mem_toFinset.2 h')))]
    refine integral_of_draws hU (fun e _ => hq k e) (pos := fun e => pos O k e) ?_ ?_ f
    · intro e he e' he' h
      exact (pos_inj O (List.mem_toFinset.1 he) (List.mem_toFinset.1 he') h).2
    · intro ω e
      rw [List.mem_toFinset]
      exact hX k hk ω e
  · have hmem : ∀ ω e, e ∈ (Finset.range L).biUnion (fun k => X k ω)
        ↔ ∃ k < L, e ∈ O k ∧ U (pos O k e) ω < q k e := by
      intro ω e
      rw [Finset.mem_biUnion]
      constructor
      · rintro ⟨k, hk, h⟩
        exact ⟨k, Finset.mem_range.1 hk, (hX k (Finset.mem_range.1 hk) ω e).1 h⟩
      · rintro ⟨k, hk, h⟩
        exact ⟨k, Finset.mem_range.2 hk, (hX k hk ω e).2 h⟩
    have hprod : ∀ e, 0 ≤ ∏ k ∈ Finset.range L, (1 - q k e) ∧
        ∏ k ∈ Finset.range L, (1 - q k e) ≤ 1 := fun e =>
      ⟨Finset.prod_nonneg (fun k _ => by linarith [(hq k e).2]),
        Finset.prod_le_one (fun k _ => by linarith [(hq k e).2]) (fun k _ => by linarith [(hq k e).1])⟩
    refine integral_of_law (fun e _ => ⟨by linarith [(hprod e).2], by linarith [(hprod e).1]⟩) ?_ ?_ ?_ f
    · intro ω e he
      obtain ⟨k, -, h, -⟩ := (hmem ω e).1 he
      exact hO k e h
    · intro e _
      have : {ω | e ∈ (Finset.range L).biUnion (fun k => X k ω)}
          = ⋃ k ∈ (Finset.range L).filter (fun k => e ∈ O k), U (pos O k e) ⁻¹' Set.Iio (q k e) := by
        ext ω
        simp only [Set.mem_ofPred_eq, Set.mem_iUnion]
        rw [hmem]
        constructor
        · rintro ⟨k, hk, h1, h2⟩
          exact ⟨k, Finset.mem_filter.2 ⟨Finset.mem_range.2 hk, h1⟩, h2⟩
        · rintro ⟨k, hk, h2⟩
          obtain ⟨h3, h4⟩ := Finset.mem_filter.1 hk
          exact ⟨k, Finset.mem_range.1 h3, h4, h2⟩
      rw [this]
      exact Finset.measurableSet_biUnion _ (fun k _ => hU.meas _ measurableSet_Iio)
    · intro G hG
      have hset : {ω | (Finset.range L).biUnion (fun k => X k ω) = G}
          = {ω | ∀ e ∈ Law.pairs n s, (∃ k < L, e ∈ O k ∧ U (pos O k e) ω < q k e) ↔ e ∈ G} := by
        ext ω
        constructor
        · intro h e _
          rw [← hmem, show _ = G from h]
        · intro h
          ext e
          rw [hmem]
          by_cases he : e ∈ Law.pairs n s
          · exact h e he
          · exact ⟨fun ⟨k, _, h1, _⟩ => absurd (hO k e h1) he, fun h1 => absurd (hG h1) he⟩
      rw [hset, union_law hU O q hq L G (Law.pairs n s)]
      congr 1
      unfold Law.prob
      refine Finset.prod_congr rfl (fun e he => ?_)
      have e1 : ∏ k ∈ (Finset.range L).filter (fun k => e ∈ O k), (1 - q k e)
          = ∏ k ∈ Finset.range L, (1 - q k e) := by
        rw [Finset.prod_filter]
        refine Finset.prod_congr rfl (fun k _ => ?_)
        split
        · rfl
        · next h => rw [hz k e he h, sub_zero]
      rw [e1]
      split
      · rfl
      · rw [sub_sub_cancel]

/-- The projection of a sparse multi-layer model is one of the ensembles. -/
theorem sparseEns_is (K : Kind) {L : ℕ} {d : ℕ → ℝ≥0∞} {x y : ℕ → List (ℕ × ℝ≥0∞)}
    (hx : ∀ i, RowSorted (x i)) (hy : ∀ i, RowSorted (y i))
    (hxL : ∀ i, ∀ e ∈ x i, e.1 < L) (hyL : ∀ i, ∀ e ∈ y i, e.1 < L) :
    (K.sparseEns d x y).Is (fun e => 1 - ∏ k ∈ Finset.range L, (1 - layerProb K d x y k e)) := by
  cases K
  · exact .sparseMultiFit L d x y hx hy hxL hyL
  · exact .sparseMultiInv L d x y hx hy hxL hyL

/-- The projection of a dense multi-layer model is one of the ensembles. -/
theorem denseEns_is (K : Kind) (L : ℕ) (d : ℕ → ℝ≥0∞) (x y : ℕ → ℕ → ℝ≥0∞) :
    (K.denseEns L d x y).Is (fun e => 1 - ∏ k ∈ Finset.range L, (1 - denseProb K d x y k e)) := by
  cases K
  · exact .denseMultiFit L d x y
  · exact .denseMultiInv L d x y

/-- **C75**, sparse multi-layer models: on average over the random numbers the sampled multigraph has
in each layer the number of links that `expected_num_edges_label` returns and the mean degrees of the
layer; its projection has the number of links and the degrees that `expected_num_edges` and the
expected degrees return.  Missing: degrees by label that are returned for vertices which store both
properties are too large (`C75_violated`). -/
theorem C75_sparse_partial (K : Kind) (n L : ℕ) (hn : n < 2 ^ 64) (hL : L < 2 ^ 64) (d : ℕ → ℝ≥0∞)
    (x y : ℕ → List (ℕ × ℝ≥0∞)) (hx : ∀ i, RowSorted (x i)) (hy : ∀ i, RowSorted (y i))
    (hxL : ∀ i, ∀ e ∈ x i, e.1 < L) (hyL : ∀ i, ∀ e ∈ y i, e.1 < L)
    (dyad : ℕ → ℕ → XR) (s : Bool) (ref : Option (Ref ι γ κ)) (hr : RefOk ref)
    (so si : Strength) (hso : so.Fits n L) (hsi : si.Fits n L) (sl : Option Bool)
    (v e : ℕ → ℕ → ℕ → ℝ)
    {Ω : Type} [MeasurableSpace Ω] (P : Measure Ω) (U : ℕ → Ω → ℝ) (hU : IsUniform P U) :
    ∃ g : Ω → MultiObj ι γ κ Adj,
      (∀ ω, Sparse.sample (sparseObj K n L (some d) x y dyad s) ref .none so si sl
          (fun m => U m ω) v e = .ok (g ω)) ∧
      ∀ (h : Ω → List (Q × Bool)) (rc : Ω → Bool),
        let a := fun q i k ω => ask (View.multi .sparse true (g ω).graph) (h ω) (rc ω) q i k
        let E := exp_edges_label K.link.p_ijk n L (fun k => ofENN (d k)) (fun i => rowX (x i))
          (fun i => rowX (y i)) dyad s
        let D := exp_degrees_label K.link.p_ijk n L (fun k => ofENN (d k)) (fun i => rowX (x i))
          (fun i => rowX (y i)) dyad s
        (∀ k < L, E[k]? = some (fin (∫ ω, a .num_edges_label 0 k ω ∂P)) ∧ ∀ i < n,
          let M := Law.mean (Law.pairs n s) (layerProb K d x y k)
          (∫ ω, a .out_degree_by_label i k ω ∂P = M (fun G => (Law.outDegree G i : ℝ)) ∧
            ∫ ω, a .in_degree_by_label i k ω ∂P = M (fun G => (Law.inDegree G i : ℝ)) ∧
            ∫ ω, a .degree_by_label i k ω ∂P = M (fun G => (Law.degree n G i : ℝ))) ∧
          ((∀ j < n, ¬ Mutual x y k i j) →
            at_ D.dOut i k = fin (∫ ω, a .out_degree_by_label i k ω ∂P) ∧
            at_ D.dIn i k = fin (∫ ω, a .in_degree_by_label i k ω ∂P) ∧
            at_ D.d i k = fin (∫ ω, a .degree_by_label i k ω ∂P))) ∧
        (0 < L → (K.sparseEns d x y).exp_edges n s = fin (∫ ω, a .num_edges 0 0 ω ∂P) ∧
          ∀ i < n, ((K.sparseEns d x y).exp_degrees n s).exp_d_out i
              = fin (∫ ω, a .out_degree i 0 ω ∂P) ∧
            ((K.sparseEns d x y).exp_degrees n s).exp_d_in i
              = fin (∫ ω, a .in_degree i 0 ω ∂P) ∧
            ((K.sparseEns d x y).exp_degrees n s).exp_d i
              = fin (∫ ω, a .degree i 0 ω ∂P)) := by
  choose g h1 h2 h3 using fun ω => C74_sparse_partial K n L hn hL d x y hx hy dyad s ref hr so si hso hsi sl
    (fun m => U m ω) v e
  let O := fun k => pairOrder (column n x k) (column n y k) s
  let X : ℕ → Ω → Finset (ℕ × ℕ) := fun k ω =>
    ((O k).filter (fun e => decide (U (pos O k e) ω < layerProb K d x y k e))).toFinset
  have hX : ∀ k < L, ∀ ω e, e ∈ X k ω ↔ e ∈ O k ∧ U (pos O k e) ω < layerProb K d x y k e := by
    intro k _ ω e
    simp only [X, List.mem_toFinset, List.mem_filter, decide_eq_true_eq]
  have hO : ∀ k, ∀ e ∈ O k, e ∈ Law.pairs n s := fun k e he => pairOrder_sub he
  have hz : ∀ k, ∀ e ∈ Law.pairs n s, e ∉ O k → layerProb K d x y k e = 0 :=
    fun k e he h => pairOrder_zero he h
  have hm := layers_mean hU (L := L) (q := layerProb K d x y) (fun k e => K.q_mem _) hO hz hX
  have hlinks : ∀ ω, ∀ k < L, ((g ω).adj k).Links (X k ω : Set (ℕ × ℕ)) := by
    intro ω k hk
    obtain ⟨-, l, hl, hA⟩ := h3 ω k hk
    have := mem_sample_stream K n L d x y hx hy dyad s (fun m => U m ω) hk
    dsimp only at this
    rw [this] at hl
    obtain rfl := Option.some.inj hl
    rwa [show (X k ω : Set (ℕ × ℕ)) = {p | p ∈ (O k).filter (fun e => decide
      (U (pos O k e) ω < layerProb K d x y k e))} from by ext; simp [X]]
  refine ⟨g, h1, fun h rc => ?_⟩
  intro a E D
  have hc := fun ω => multi_counts (b := .sparse) (h2 ω).1 (h2 ω).2.1
    (fun k hk e he => hO k e ((hX k hk ω e).1 he).1) (hlinks ω) (h ω) (rc ω)
  refine ⟨fun k hk => ⟨?_, fun i hi => ?_⟩, fun hpos => ⟨?_, fun i hi => ?_⟩⟩
  · rw [show E = _ from C49_edges K n L d x y hx hy dyad s, List.getElem?_map,
      List.getElem?_range hk, Option.map_some, ← ((hm _).1 k hk).2]
    exact congrArg (fun t => some (fin t))
      (integral_congr_ae (.of_forall fun ω => ((hc ω).1 k hk).1.symm))
  · have i1 : ∫ ω, a .out_degree_by_label i k ω ∂P
        = Law.mean (Law.pairs n s) (layerProb K d x y k) (fun G => (Law.outDegree G i : ℝ)) := by
      rw [← ((hm _).1 k hk).2]
      exact integral_congr_ae (.of_forall fun ω => (((hc ω).1 k hk).2 i hi).1)
    have i2 : ∫ ω, a .in_degree_by_label i k ω ∂P
        = Law.mean (Law.pairs n s) (layerProb K d x y k) (fun G => (Law.inDegree G i : ℝ)) := by
      rw [← ((hm _).1 k hk).2]
      exact integral_congr_ae (.of_forall fun ω => (((hc ω).1 k hk).2 i hi).2.1)
    have i3 : ∫ ω, a .degree_by_label i k ω ∂P
        = Law.mean (Law.pairs n s) (layerProb K d x y k) (fun G => (Law.degree n G i : ℝ)) := by
      rw [← ((hm _).1 k hk).2]
      exact integral_congr_ae (.of_forall fun ω => (((hc ω).1 k hk).2 i hi).2.2)
    refine ⟨⟨i1, i2, i3⟩, fun hno => ?_⟩
    obtain ⟨⟨d1, d2, d3⟩, -⟩ := C49_degrees_computed K n L d x y hx hy dyad s i k hi hk
    rw [Finset.sum_eq_zero (fun j hj => if_neg (hno j (Finset.mem_range.1 hj))), add_zero] at d1 d2 d3
    rw [i1, i2, i3]
    exact ⟨d2, d3, d1⟩
  · rw [C09_formula (sparseEns_is K hx hy hxL hyL), ← (hm _).2.2]
    exact congrArg fin (integral_congr_ae (.of_forall fun ω => ((hc ω).2 hpos).1.symm))
  · obtain ⟨c1, c2, c3⟩ := C10_formula (sparseEns_is K (d := d) hx hy hxL hyL) n s i hi
    refine ⟨c1.trans ?_, c2.trans ?_, c3.trans ?_⟩
    · rw [← (hm _).2.2]
      exact congrArg fin (integral_congr_ae (.of_forall fun ω => (((hc ω).2 hpos).2 i hi).1.symm))
    · rw [← (hm _).2.2]
      exact congrArg fin (integral_congr_ae (.of_forall fun ω => (((hc ω).2 hpos).2 i hi).2.1.symm))
    · rw [← (hm _).2.2]
      exact congrArg fin (integral_congr_ae (.of_forall fun ω => (((hc ω).2 hpos).2 i hi).2.2.symm))

/-- **C75**, dense multi-layer models.  `expected_num_edges_label` agrees when there are as many labels
as vertices (C49). -/
theorem C75_dense_partial (K : Kind) (n L : ℕ) (hn : n < 2 ^ 64) (hL : L < 2 ^ 64) (d : ℕ → ℝ≥0∞)
    (x y : ℕ → ℕ → ℝ≥0∞) (dyad : ℕ → ℕ → XR) (s : Bool) (ref : Option (Ref ι γ κ)) (hr : RefOk ref)
    (so si : Strength) (hso : so.Fits n L) (hsi : si.Fits n L) (sl : Option Bool)
    {Ω : Type} [MeasurableSpace Ω] (P : Measure Ω) (U : ℕ → Ω → ℝ) (hU : IsUniform P U) :
    ∃ g : Ω → MultiObj ι γ κ Adj,
      (∀ ω, Dense.sample (denseObj K n L (some d) x y dyad s) ref .none so si sl
          (fun m => U m ω) = .ok (g ω)) ∧
      ∀ (h : Ω → List (Q × Bool)) (rc : Ω → Bool),
        let a := fun q i k ω => ask (View.multi .dense true (g ω).graph) (h ω) (rc ω) q i k
        let D := Dense.exp_degrees_label K.link.p_ijk n L (fun k => ofENN (d k))
          (fun i k => ofENN (x i k)) (fun i k => ofENN (y i k)) dyad s
        (∀ k < L, ∫ ω, a .num_edges_label 0 k ω ∂P
            = Law.mean (Law.pairs n s) (denseProb K d x y k) (fun G => (G.card : ℝ)) ∧
          ∀ i < n, D.exp_d_out (i, k) = fin (∫ ω, a .out_degree_by_label i k ω ∂P) ∧
            D.exp_d_in (i, k) = fin (∫ ω, a .in_degree_by_label i k ω ∂P) ∧
            D.exp_d (i, k) = fin (∫ ω, a .degree_by_label i k ω ∂P)) ∧
        (n = L → Dense.exp_edges_label K.link.p_ijk n L (fun k => ofENN (d k))
            (fun i k => ofENN (x i k)) (fun i k => ofENN (y i k)) dyad s
          = some ((List.range L).map (fun k => fin (∫ ω, a .num_edges_label 0 k ω ∂P)))) ∧
        (0 < L → (K.denseEns L d x y).exp_edges n s = fin (∫ ω, a .num_edges 0 0 ω ∂P) ∧
          ∀ i < n, ((K.denseEns L d x y).exp_degrees n s).exp_d_out i
              = fin (∫ ω, a .out_degree i 0 ω ∂P) ∧
            ((K.denseEns L d x y).exp_degrees n s).exp_d_in i
              = fin (∫ ω, a .in_degree i 0 ω ∂P) ∧
            ((K.denseEns L d x y).exp_degrees n s).exp_d i
              = fin (∫ ω, a .degree i 0 ω ∂P)) := by
  choose g h1 h2 h3 using fun ω => C74_dense_partial K n L hn hL d x y dyad s ref hr so si hso hsi sl
    (fun m => U m ω)
  let O : ℕ → List (ℕ × ℕ) := fun _ => order n s
  let X : ℕ → Ω → Finset (ℕ × ℕ) := fun k ω =>
    ((O k).filter (fun e => decide (U (pos O k e) ω < denseProb K d x y k e))).toFinset
  have hX : ∀ k < L, ∀ ω e, e ∈ X k ω ↔ e ∈ O k ∧ U (pos O k e) ω < denseProb K d x y k e := by
    intro k _ ω e
    simp only [X, List.mem_toFinset, List.mem_filter, decide_eq_true_eq]
  have hO : ∀ k, ∀ e ∈ O k, e ∈ Law.pairs n s := fun k e he => mem_order.1 he
  have hz : ∀ k, ∀ e ∈ Law.pairs n s, e ∉ O k → denseProb K d x y k e = 0 :=
    fun k e he h => absurd (mem_order.2 he) h
  have hm := layers_mean hU (L := L) (q := denseProb K d x y) (fun k e => K.q_mem _) hO hz hX
  have hlinks : ∀ ω, ∀ k < L, ((g ω).adj k).Links (X k ω : Set (ℕ × ℕ)) := by
    intro ω k hk
    obtain ⟨-, hA⟩ := h3 ω k
    rwa [show (X k ω : Set (ℕ × ℕ)) = {p | (k, p) ∈ (Dense.binary_sample_tensor_stream K.link.p_ijk n L
        (fun k => ofENN (d k)) (fun i k => ofENN (x i k)) (fun i k => ofENN (y i k)) dyad s
        (fun m => U m ω)).2} from ?_]
    ext ⟨i, j⟩
    rw [Finset.mem_coe, hX k hk]
    refine Iff.trans ?_ (mem_dense_stream K n L d x y dyad s (fun m => U m ω) k i j).symm
    exact ⟨fun h => ⟨hk, mem_order.1 h.1, h.2⟩, fun h => ⟨mem_order.2 h.2.1, h.2.2⟩⟩
  refine ⟨g, h1, fun h rc => ?_⟩
  intro a D
  have hc := fun ω => multi_counts (b := .dense) (h2 ω).1 (h2 ω).2.1
    (fun k hk e he => hO k e ((hX k hk ω e).1 he).1) (hlinks ω) (h ω) (rc ω)
  have hedge : ∀ k < L, ∫ ω, a .num_edges_label 0 k ω ∂P
      = Law.mean (Law.pairs n s) (denseProb K d x y k) (fun G => (G.card : ℝ)) := by
    intro k hk
    rw [← ((hm _).1 k hk).2]
    exact integral_congr_ae (.of_forall fun ω => ((hc ω).1 k hk).1)
  refine ⟨fun k hk => ⟨hedge k hk, fun i hi => ?_⟩, fun hnL => ?_, fun hpos => ⟨?_, fun i hi => ?_⟩⟩
  · obtain ⟨c3, c1, c2⟩ := (C49_dense_degrees K n L d x y dyad s k hk).1 i hi
    refine ⟨c1.trans ?_, c2.trans ?_, c3.trans ?_⟩
    · rw [← ((hm _).1 k hk).2]
      exact congrArg fin (integral_congr_ae (.of_forall fun ω => (((hc ω).1 k hk).2 i hi).1.symm))
    · rw [← ((hm _).1 k hk).2]
      exact congrArg fin (integral_congr_ae (.of_forall fun ω => (((hc ω).1 k hk).2 i hi).2.1.symm))
    · rw [← ((hm _).1 k hk).2]
      exact congrArg fin (integral_congr_ae (.of_forall fun ω => (((hc ω).1 k hk).2 i hi).2.2.symm))
  · subst hnL
    refine (C49_dense_edges_partial K n d x y dyad s).trans (congrArg some ?_)
    refine List.map_congr_left (fun k hk => ?_)
    rw [hedge k (List.mem_range.1 hk)]
  · rw [C09_formula (denseEns_is K L d x y), ← (hm _).2.2]
    exact congrArg fin (integral_congr_ae (.of_forall fun ω => ((hc ω).2 hpos).1.symm))
  · obtain ⟨c1, c2, c3⟩ := C10_formula (denseEns_is K L d x y) n s i hi
    refine ⟨c1.trans ?_, c2.trans ?_, c3.trans ?_⟩
    · rw [← (hm _).2.2]
      exact congrArg fin (integral_congr_ae (.of_forall fun ω => (((hc ω).2 hpos).2 i hi).1.symm))
    · rw [← (hm _).2.2]
      exact congrArg fin (integral_congr_ae (.of_forall fun ω => (((hc ω).2 hpos).2 i hi).2.1.symm))
    · rw [← (hm _).2.2]
      exact congrArg fin (integral_congr_ae (.of_forall fun ω => (((hc ω).2 hpos).2 i hi).2.2.symm))

/-- **C75** fails for the label-resolved degrees of the sparse backend: two vertices, one label, all
properties one; the expected out-degree that is returned is twice the average out-degree of the
samples, which is positive. -/
theorem C75_violated (K : Kind)
    {Ω : Type} [MeasurableSpace Ω] (P : Measure Ω) (U : ℕ → Ω → ℝ) (hU : IsUniform P U) :
    let d : ℕ → ℝ≥0∞ := fun _ => 1
    ∃ g : Ω → MultiObj ℕ ℕ ℕ Adj,
      (∀ ω, Sparse.sample (sparseObj K 2 1 (some d) loopX loopX (fun _ _ => 0) false) none .none
        .none .none none (fun m => U m ω) (fun _ _ _ => 0) (fun _ _ _ => 0) = .ok (g ω)) ∧
      let m := ∫ ω, ask (View.multi .sparse true (g ω).graph) [] false .out_degree_by_label 0 0 ∂P
      let D := exp_degrees_label K.link.p_ijk 2 1 (fun k => ofENN (d k)) (fun i => rowX (loopX i))
        (fun i => rowX (loopX i)) (fun _ _ => 0) false
      0 < m ∧ at_ D.dOut 0 0 = fin (2 * m) := by
  intro d
  obtain ⟨g, h1, h2⟩ := C75_sparse_partial (ι := ℕ) (γ := ℕ) (κ := ℕ) K 2 1 (by norm_num) (by norm_num) d loopX loopX loopX_sorted
    loopX_sorted (by simp [loopX]) (by simp [loopX]) (fun _ _ => 0) false none nofun .none .none
    trivial trivial none (fun _ _ _ => 0) (fun _ _ _ => 0) P U hU
  refine ⟨g, h1, ?_⟩
  obtain ⟨v1, v2, -⟩ := C49_degrees_violated K
  have := (((h2 (fun _ => []) (fun _ => false)).1 0 (by norm_num)).2 0 (by norm_num)).1.1
  dsimp only at this
  intro m D
  rw [show m = _ from this]
  exact ⟨v1, v2⟩

example : (∀ i, ∀ e ∈ loopX i, e.1 < 1) ∧ ∀ j < 1, ¬ Mutual loopX loopX 0 0 j := by
  refine ⟨by simp [loopX], fun j hj => ?_⟩
  have : j = 0 := by omega
  subst this
  simp [Mutual]

end Multi

end Sampled

end

end Verif
