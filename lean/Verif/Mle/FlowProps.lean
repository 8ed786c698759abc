import Verif.Mle.Props
import Verif.Layer.LawProps
import Verif.Layer.FitProps
import Verif.Flow.MultiProps
import Verif.Flow.RandomProps

/-!
# C85: label-resolved fits, and fits of whole runs
-/

namespace Verif.Mle

open XR Spec Query Graph
open scoped ENNReal NNReal

noncomputable section

/-! ## Label-resolved fits -/

theorem prod_le_labels {L : ℕ} {S : Finset (ℕ × ℕ)} {c : ℕ → ℕ × ℕ → ℝ≥0} {G : ℕ → Finset (ℕ × ℕ)}
    {D : ℕ → ℝ≥0} (h : ∀ k < L, ∑ e ∈ S, odds (c k) (D k) e = ((S ∩ G k).card : ℝ))
    (D' : ℕ → ℝ≥0∞) :
    0 ≤ ∏ k ∈ Finset.range L, Law.prob S (odds (c k) (D' k)) (G k) ∧
    ∏ k ∈ Finset.range L, Law.prob S (odds (c k) (D' k)) (G k) ≤
      ∏ k ∈ Finset.range L, Law.prob S (odds (c k) (D k)) (G k) := by
  have h0 : ∀ k, 0 ≤ Law.prob S (odds (c k) (D' k)) (G k) := fun k =>
    Law.prob_nonneg (fun e _ => odds_mem _ _ _) _
  exact ⟨Finset.prod_nonneg fun k _ => h0 k, Finset.prod_le_prod (fun k _ => h0 k) fun k hk =>
    prob_max S (c k) (G k) (h k (Finset.mem_range.1 hk)) (D' k)⟩

/-- **C85**, multi-layer fitness models with one parameter per label, sparse and spark: if the
expected number of edges of every label is the number of admissible links of the graph with this
label, the parameters maximise the log-likelihood of the labelled graph among all parameters.
`nbrs k i` are the stored columns of row `i` of layer `k`. -/
theorem C85_labels (n L : ℕ) (x y : ℕ → List (ℕ × ℝ≥0)) (hx : ∀ i, RowSorted (x i))
    (hy : ∀ i, RowSorted (y i)) (dyad : ℕ → ℕ → XR) (s : Bool) (nbrs : ℕ → ℕ → List ℕ)
    (G : ℕ → Finset (ℕ × ℕ)) (hG : ∀ k < L, ∀ i < n, ∀ j, j ∈ nbrs k i ↔ (i, j) ∈ G k)
    (hlt : ∀ k < L, ∀ e ∈ G k, e.1 < n ∧ e.2 < n)
    (hself : s = true ∨ ∀ k < L, ∀ i < n, (i, i) ∈ G k → entry (x i) k ≠ 0 ∧ entry (y i) k ≠ 0)
    {D : ℕ → ℝ≥0}
    (h : Layer.exp_edges_label Layer.fitLink.p_ijk n L (fun k => fin (D k)) (fun i => Fit.rowN (x i))
        (fun i => Fit.rowN (y i)) dyad s
      = (List.range L).map (fun k => fin ((Law.pairs n s ∩ G k).card : ℝ))) (D' : ℕ → ℝ≥0∞) :
    leb (Layer.log_likelihood Layer.fitLink.logp_ijk Layer.fitLink.log1mp_ijk n L (fun k => ofENN (D' k))
        (fun i => Fit.rowN (x i)) (fun i => Fit.rowN (y i)) dyad nbrs s)
      (Layer.log_likelihood Layer.fitLink.logp_ijk Layer.fitLink.log1mp_ijk n L (fun k => fin (D k))
        (fun i => Fit.rowN (x i)) (fun i => Fit.rowN (y i)) dyad nbrs s) = true ∧
    leb (Layer.Spark.log_likelihood Layer.fitLink.logp_ijk Layer.fitLink.log1mp_ijk n L (fun k => ofENN (D' k))
        (fun i => Fit.rowN (x i)) (fun i => Fit.rowN (y i)) dyad nbrs s)
      (Layer.Spark.log_likelihood Layer.fitLink.logp_ijk Layer.fitLink.log1mp_ijk n L (fun k => fin (D k))
        (fun i => Fit.rowN (x i)) (fun i => Fit.rowN (y i)) dyad nbrs s) = true := by
  have hc : ∀ k (z : ℕ → ℝ≥0∞), Layer.layerProb .fit z (fun i => Fit.rowENN (x i))
      (fun i => Fit.rowENN (y i)) k = odds (fun e => entry (x e.1) k * entry (y e.2) k) (z k) := by
    intro k z
    funext e
    unfold Layer.layerProb odds
    rw [Layer.entry_rowENN, Layer.entry_rowENN]
    push_cast
    rw [mul_assoc]; rfl
  have hself' : s = true ∨ ∀ k < L, ∀ i < n, (i, i) ∈ G k →
      entry (Fit.rowENN (x i)) k ≠ 0 ∧ entry (Fit.rowENN (y i)) k ≠ 0 := by
    refine hself.imp_right fun h k hk i hi hm => ?_
    rw [Layer.entry_rowENN, Layer.entry_rowENN]
    exact_mod_cast h k hk i hi hm
  have hl := fun z : ℕ → ℝ≥0∞ => Layer.C61_partial .fit n L z (fun i => Fit.rowENN (x i))
    (fun i => Fit.rowENN (y i)) (fun i => Flow.Multi.rowENN_sorted (hx i))
    (fun i => Flow.Multi.rowENN_sorted (hy i)) dyad s nbrs G hG hlt hself'
  have he := Layer.C49_edges .fit n L (fun k => (D k : ℝ≥0∞)) (fun i => Fit.rowENN (x i))
    (fun i => Fit.rowENN (y i)) (fun i => Flow.Multi.rowENN_sorted (hx i))
    (fun i => Flow.Multi.rowENN_sorted (hy i)) dyad s
  simp only [hc, Fit.rowX_rowENN, Fit.ofENN_coe, Law.mean_card] at hl he
  change Layer.exp_edges_label Layer.fitLink.p_ijk n L _ _ _ _ _ = _ at he
  rw [he] at h
  have hsum : ∀ k < L, ∑ e ∈ Law.pairs n s,
      odds (fun e => entry (x e.1) k * entry (y e.2) k) (D k) e = ((Law.pairs n s ∩ G k).card : ℝ) := by
    intro k hk
    have := List.map_inj_left.1 h k (List.mem_range.2 hk)
    exact fin_inj.1 this
  have hmax := prod_le_labels hsum D'
  have hmax0 := (prod_le_labels hsum (fun k => (D k : ℝ≥0∞))).1
  obtain ⟨a1, a2⟩ := hl D'
  obtain ⟨b1, b2⟩ := hl (fun k => (D k : ℝ≥0∞))
  simp only [Fit.ofENN_coe] at b1 b2
  change Layer.log_likelihood Layer.fitLink.logp_ijk Layer.fitLink.log1mp_ijk _ _ _ _ _ _ _ _ = _
    at a1 b1
  change Layer.Spark.log_likelihood Layer.fitLink.logp_ijk Layer.fitLink.log1mp_ijk _ _ _ _ _ _ _ _
    = _ at a2 b2
  rw [a1, a2, b1, b2]
  exact ⟨(leb_elog hmax.1 hmax0).2 hmax.2, (leb_elog hmax.1 hmax0).2 hmax.2⟩

/-- The same for dense arrays; the dense `expected_num_edges_label` is not the expected number of
edges by label in general (`C49_dense_edges_violated`), so that the latter is written as a mean over
graphs. -/
theorem C85_labels_dense (n L : ℕ) (x y : ℕ → ℕ → ℝ≥0) (dyad : ℕ → ℕ → XR) (s : Bool)
    (G : ℕ → Finset (ℕ × ℕ)) {D : ℕ → ℝ≥0}
    (h : ∀ k < L, Law.mean (Law.pairs n s)
        (fun e => (D k : ℝ) * x e.1 k * y e.2 k / (1 + D k * x e.1 k * y e.2 k))
        (fun G => (G.card : ℝ)) = ((Law.pairs n s ∩ G k).card : ℝ)) (D' : ℕ → ℝ≥0∞) :
    leb (Layer.Dense.likelihood_tensor Layer.fitLink.logp_ijk Layer.fitLink.log1mp_ijk n L
        (fun k => ofENN (D' k)) (fun i k => fin (x i k)) (fun i k => fin (y i k)) dyad
        (fun k i j => decide ((i, j) ∈ G k)) s)
      (Layer.Dense.likelihood_tensor Layer.fitLink.logp_ijk Layer.fitLink.log1mp_ijk n L
        (fun k => fin (D k)) (fun i k => fin (x i k)) (fun i k => fin (y i k)) dyad
        (fun k i j => decide ((i, j) ∈ G k)) s) = true := by
  have hc : ∀ k (z : ℕ → ℝ≥0∞), Layer.denseProb .fit z (fun i k => (x i k : ℝ≥0∞))
      (fun i k => (y i k : ℝ≥0∞)) k = odds (fun e => x e.1 k * y e.2 k) (z k) := by
    intro k z
    funext e
    unfold Layer.denseProb odds
    push_cast
    rw [mul_assoc]; rfl
  have hl := fun z : ℕ → ℝ≥0∞ => Layer.C61_dense .fit n L z (fun i k => (x i k : ℝ≥0∞))
    (fun i k => (y i k : ℝ≥0∞)) dyad s G
  simp only [hc, Fit.ofENN_coe] at hl
  have hsum : ∀ k < L, ∑ e ∈ Law.pairs n s,
      odds (fun e => x e.1 k * y e.2 k) (D k) e = ((Law.pairs n s ∩ G k).card : ℝ) := by
    intro k hk
    rw [← h k hk, Law.mean_card]
    refine Finset.sum_congr rfl fun e _ => ?_
    rw [odds_fin]
    push_cast
    rw [mul_assoc]
  have hmax := prod_le_labels hsum D'
  have hmax0 := (prod_le_labels hsum (fun k => (D k : ℝ≥0∞))).1
  have a1 := hl D'
  have b1 := hl (fun k => (D k : ℝ≥0∞))
  simp only [Fit.ofENN_coe] at b1
  change Layer.Dense.likelihood_tensor Layer.fitLink.logp_ijk Layer.fitLink.log1mp_ijk _ _ _ _ _ _ _ _
    = _ at a1 b1
  rw [a1, b1]
  exact (leb_elog hmax.1 hmax0).2 hmax.2

/-- The hypotheses of `C85_labels` hold for two vertices with unit properties, one label and one
link. -/
example : Layer.exp_edges_label Layer.fitLink.p_ijk 2 1 (fun _ => fin ((1 : ℝ≥0) : ℝ))
      (fun _ => Fit.rowN [(0, 1)]) (fun _ => Fit.rowN [(0, 1)]) (fun _ _ => 1) false =
    (List.range 1).map (fun _ => fin ((Law.pairs 2 false ∩ {(0, 1)}).card : ℝ)) ∧
    RowSorted ([(0, 1)] : List (ℕ × ℝ≥0)) ∧
    (∀ k < 1, ∀ e ∈ ({(0, 1)} : Finset (ℕ × ℕ)), k < 1 ∧ e.1 < 2 ∧ e.2 < 2) := by
  have hs : RowSorted ([(0, 1)] : List (ℕ × ℝ≥0)) := by simp [RowSorted]
  refine ⟨?_, hs, by decide⟩
  have he := Layer.C49_edges .fit 2 1 (fun _ => ((1 : ℝ≥0) : ℝ≥0∞)) (fun _ => Fit.rowENN [(0, 1)])
    (fun _ => Fit.rowENN [(0, 1)]) (fun _ => Flow.Multi.rowENN_sorted hs)
    (fun _ => Flow.Multi.rowENN_sorted hs) (fun _ _ => 1) false
  simp only [Fit.rowX_rowENN, Fit.ofENN_coe, Law.mean_card] at he
  refine Eq.trans he ?_
  refine List.map_congr_left fun k hk => ?_
  have hk0 : k = 0 := by simpa using hk
  subst hk0
  have hc : (({(0, 1), (1, 0)} : Finset (ℕ × ℕ)) ∩ {(0, 1)}).card = 1 := by decide
  rw [exPairs, hc, Finset.sum_pair (by decide)]
  have h1 : entry ([(0, 1)] : List (ℕ × ℝ≥0)) 0 = 1 := rfl
  simp only [Layer.layerProb, Layer.entry_rowENN, h1]
  simp [Layer.Kind.q, fitProb]
  norm_num

/-! ## Whole runs -/

/-- The run with another value of the parameter. -/
def withParam {ι γ : Type} (R : Flow.Result ι γ) (d : ℝ≥0∞) : Flow.Result ι γ :=
  { R with solution := { R.solution with x := ofENN d } }

section

variable {ι γ : Type} [LinearOrder ι] [LinearOrder γ] {M : Flow.Model} {v : List (ι × γ)}
  {e : List (Row ι ℝ)} {hist : List (Q × Bool)} {kw : List (Validate.Key × Validate.Val)} {s : Bool}
  {o : Fit.Opts}

theorem fitness_fitter (hM : M = .sparseFit ∨ M = .denseFit) (x y : ℕ → ℝ≥0) :
    IsFitness (M.fitter x y) := by
  rcases hM with rfl | rfl
  · exact .sparse _ _ _
  · exact .dense _ _ _

omit [LinearOrder ι] [LinearOrder γ] in
theorem links_eq (b : Backend) (g : Obj ι γ ℝ) : Flow.links g = Flow.Random.linksOf b true g := rfl

omit [LinearOrder γ] in
theorem withParam_like {R : Flow.Result ι γ} (hm : R.model = Flow.modelOf R.graph e s)
    (d : ℝ≥0∞) :
    (withParam R d).log_likelihood M = .ok (((M.fitter (Flow.outS R.graph) (Flow.inS R.graph)).ens
      d).likelihood R.graph.num_vertices (linkOf (Flow.links R.graph)) s) ∧
    (withParam R d).expected_num_edges M = ((M.fitter (Flow.outS R.graph) (Flow.inS R.graph)).ens
      d).exp_edges R.graph.num_vertices s := by
  have hE : (withParam R d).ens M = (M.fitter (Flow.outS R.graph) (Flow.inS R.graph)).ens d := by
    rw [Flow.fitter_ens]
    unfold Flow.Result.ens withParam
    rw [hm]; rfl
  constructor
  · unfold Flow.Result.log_likelihood Method.log_likelihood
    rw [hE]
    simp only [Method.adjOf, withParam]
    simp only [hm, Flow.modelOf, Int.toNat_natCast, Flow.loopsOf, ne_eq, not_true_eq_false, if_false]
    rfl
  · unfold Flow.Result.expected_num_edges
    rw [hE]
    simp only [withParam]
    rw [hm]; rfl

theorem run_linkable {R : Flow.Result ι γ} (hg : mkOf M.backend v e = .ok R.graph) :
    ∀ p ∈ Flow.links R.graph,
      (M.fitter (Flow.outS R.graph) (Flow.inS R.graph)).linkable p.1 p.2 := by
  have hb := mkOf_built hg
  rintro ⟨i, j⟩ hp
  have h' := hp
  simp only [Flow.links, Finset.mem_filter, Finset.mem_product, Finset.mem_range] at h'
  obtain ⟨a, ha⟩ := Flow.onto hb h'.1.1
  obtain ⟨b, hb'⟩ := Flow.onto hb h'.1.2
  rw [links_eq M.backend, Flow.Random.mem_linksOf hg ha hb'] at hp
  obtain ⟨r, hr, rfl, rfl⟩ := hp
  exact (Flow.fitter_linkable _ _ _ _ _).2
    ⟨(Flow.outS_ne hb ha).2 ⟨r, hr, rfl⟩, (Flow.inS_ne hb hb').2 ⟨r, hr, rfl⟩⟩

/-- The links of the graph are admissible and possible. -/
theorem run_links {R : Flow.Result ι γ} (hg : mkOf M.backend v e = .ok R.graph)
    (hs : ∀ r ∈ e, r.src ≠ r.dst ∨ s = true) :
    Law.pairs R.graph.num_vertices s ∩ Flow.links R.graph = Flow.links R.graph ∧
    (Flow.links R.graph).card = Flow.numPairs e ∧
    ∀ p ∈ Flow.links R.graph,
      (M.fitter (Flow.outS R.graph) (Flow.inS R.graph)).linkable p.1 p.2 := by
  have hb := mkOf_built hg
  have hn : R.graph.num_vertices = v.length := (built_ok hb).2.2.2.1
  refine ⟨Finset.inter_eq_right.2 ?_, ?_, ?_⟩
  · rw [links_eq M.backend, hn]; exact Flow.Random.linksOf_subset hg hs
  · rw [links_eq M.backend, Flow.Random.card_linksOf hg]
    simp [Flow.Random.edgeCount, Flow.numPairs]
  · exact run_linkable hg

/-- **C85**, whole runs of the fitness model on a table without excluded self-loops: a finite
parameter maximises the log-likelihood of the graph the model was made from iff it reproduces the
number of edges of the table, which is what `fit` searches for. -/
theorem C85_run_partial (hM : M = .sparseFit ∨ M = .denseFit) (hkw : Flow.Setting kw s)
    (hat : 0 < o.atol) (hrt : 0 ≤ o.rtol) (he : e ≠ []) (hs : ∀ r ∈ e, r.src ≠ r.dst ∨ s = true)
    {R : Flow.Result ι γ} (h : Flow.run M v e hist kw .none .density o = .ok R) :
    ∃ l : ℝ≥0∞ → XR, (∀ d, (withParam R d).log_likelihood M = .ok (l d)) ∧
      ∀ d : ℝ≥0, (∀ d', leb (l d') (l d) = true) ↔
        (withParam R d).expected_num_edges M =
          fin ((e.map (fun r => (r.src, r.dst))).toFinset.card : ℝ) := by
  obtain ⟨hv, hg, hm, -⟩ := Flow.run_ok hkw hat hrt h
  obtain ⟨k1, k2, k3⟩ := run_links (M := M) hg hs
  refine ⟨_, fun d => (withParam_like hm d).1, fun d => ?_⟩
  rw [(withParam_like hm d).2]
  have := C85_iff (fitness_fitter hM (Flow.outS R.graph) (Flow.inS R.graph))
    (n := R.graph.num_vertices) (s := s) (G := Flow.links R.graph)
    (by rw [k1, ← Finset.card_pos, k2]; exact Flow.numPairs_pos he) (by rw [k1]; exact k3) d
  rw [k1, k2] at this
  exact this

/-- **C85**, converged runs: with fitted parameter `d > 0`, the log-likelihood at another parameter
`d'` exceeds that of the fitted model by at most the tolerance of the fit times `|log (d' / d)|`. -/
theorem C85_converged_partial (hM : M = .sparseFit ∨ M = .denseFit) (hkw : Flow.Setting kw s)
    (hat : 0 < o.atol) (hrt : 0 ≤ o.rtol) (hs : ∀ r ∈ e, r.src ≠ r.dst ∨ s = true)
    {R : Flow.Result ι γ} (h : Flow.run M v e hist kw .none .density o = .ok R)
    (hcon : R.solution.converged = true) {d d' : ℝ≥0} (hd : R.solution.x = fin d) (hd0 : d ≠ 0)
    (hd' : d' ≠ 0) :
    ∃ l l' : ℝ, R.log_likelihood M = .ok (fin l) ∧
      (withParam R d').log_likelihood M = .ok (fin l') ∧
      l' ≤ l + (o.atol + o.rtol * (e.map (fun r => (r.src, r.dst))).toFinset.card) *
        |Real.log (d' / d)| := by
  obtain ⟨hv, hg, hm, -, d1, hd1, u, hu, hc⟩ := Flow.run_ok hkw hat hrt h
  have : d1 = d := by
    rw [hd, fin_inj] at hd1
    exact NNReal.coe_injective hd1.symm
  subst this
  obtain ⟨k1, k2, k3⟩ := run_links (M := M) hg hs
  have hR : withParam R d1 = R := by
    unfold withParam
    rw [Fit.ofENN_coe, ← hd]
  obtain ⟨l, l', h1, h2, h3⟩ := C85_gap (fitness_fitter hM (Flow.outS R.graph) (Flow.inS R.graph))
    (n := R.graph.num_vertices) (s := s) (G := Flow.links R.graph) (by rw [k1]; exact k3) hd0 hd' hu
  refine ⟨l, l', ?_, ?_, h3.trans ?_⟩
  · rw [← h1, ← (withParam_like hm d1).1, hR]
  · rw [← h2, (withParam_like hm d').1]
  · rw [k1, k2]
    have hle := hc.1 hcon
    have : ((Flow.numPairs e : ℝ) - u) * Real.log (d' / d1) ≤
        |u - Flow.numPairs e| * |Real.log (d' / d1)| := by
      rw [abs_sub_comm, ← abs_mul]; exact le_abs_self _
    have h5 := mul_le_mul_of_nonneg_right hle (abs_nonneg (Real.log ((d' : ℝ) / d1)))
    exact add_le_add_right (this.trans h5) l

/-- **C85**, excluded self-loops: `fit` reproduces all links of the table, while the likelihood is
that of the admissible ones.  If some row is a self-loop, self-loops are not allowed and some row is
not a self-loop, the parameter that reproduces the number of edges is never the maximum. -/
theorem C85_selfloops_violated (hM : M = .sparseFit ∨ M = .denseFit) (hkw : Flow.Setting kw false)
    (hat : 0 < o.atol) (hrt : 0 ≤ o.rtol) (h1 : ∃ r ∈ e, r.src = r.dst)
    (h2 : ∃ r ∈ e, r.src ≠ r.dst) {R : Flow.Result ι γ}
    (h : Flow.run M v e hist kw .none .density o = .ok R) {d : ℝ≥0}
    (hd : (withParam R d).expected_num_edges M =
      fin ((e.map (fun r => (r.src, r.dst))).toFinset.card : ℝ)) :
    ∃ (d' : ℝ≥0∞) (l l' : XR), (withParam R d).log_likelihood M = .ok l ∧
      (withParam R d').log_likelihood M = .ok l' ∧ ltb l l' = true := by
  obtain ⟨hv, hg, hm, -⟩ := Flow.run_ok hkw hat hrt h
  have hb := mkOf_built hg
  have hF := fitness_fitter hM (Flow.outS R.graph) (Flow.inS R.graph)
  have hcard : (Flow.links R.graph).card = Flow.numPairs e := by
    rw [links_eq M.backend, Flow.Random.card_linksOf hg]
    simp [Flow.Random.edgeCount, Flow.numPairs]
  have hpt : ∀ r ∈ e, ∃ i j, R.graph.id_dict.lookup r.src = some i ∧
      R.graph.id_dict.lookup r.dst = some j ∧ (i, j) ∈ Flow.links R.graph := by
    intro r hr
    have hsome : ∀ x ∈ v.map Prod.fst, ∃ i, R.graph.id_dict.lookup x = some i := fun x hx => by
      obtain ⟨-, -, -, -, h5, -⟩ := built_ok hb
      rw [h5]; exact ⟨_, idOf_some hx⟩
    obtain ⟨i, hi⟩ := hsome _ ((built_ok hb).2.1 r hr).1
    obtain ⟨j, hj⟩ := hsome _ ((built_ok hb).2.1 r hr).2
    refine ⟨i, j, hi, hj, ?_⟩
    rw [links_eq M.backend]
    exact (Flow.Random.mem_linksOf hg hi hj).2 ⟨r, hr, rfl, rfl⟩
  have hlt : (Law.pairs R.graph.num_vertices false ∩ Flow.links R.graph).card < Flow.numPairs e := by
    rw [← hcard]
    obtain ⟨r, hr, heq⟩ := h1
    obtain ⟨i, j, hi, hj, hl⟩ := hpt r hr
    rw [heq, hj] at hi
    cases hi
    refine Finset.card_lt_card ⟨Finset.inter_subset_right, fun hsub => ?_⟩
    have := Law.mem_pairs.1 (Finset.mem_inter.1 (hsub hl)).1
    simp at this
  have hne : (Law.pairs R.graph.num_vertices false ∩ Flow.links R.graph).Nonempty := by
    obtain ⟨r, hr, hne⟩ := h2
    obtain ⟨i, j, hi, hj, hl⟩ := hpt r hr
    refine ⟨(i, j), Finset.mem_inter.2 ⟨Law.mem_pairs.2 ?_, hl⟩⟩
    have h' := hl
    simp only [Flow.links, Finset.mem_filter, Finset.mem_product, Finset.mem_range] at h'
    refine ⟨h'.1.1, h'.1.2, Or.inl fun hij => hne ?_⟩
    subst hij
    exact Flow.lookup_inj hb hi hj
  have hlk : ∀ p ∈ Law.pairs R.graph.num_vertices false ∩ Flow.links R.graph,
      (M.fitter (Flow.outS R.graph) (Flow.inS R.graph)).linkable p.1 p.2 := fun p hp =>
    run_linkable hg p (Finset.mem_inter.1 hp).2
  rw [(withParam_like hm d).2] at hd
  have hno : ¬ ∀ d' : ℝ≥0∞, leb _ _ = true := fun hmax => by
    have := (C85_iff hF hne hlk d).1 hmax
    rw [hd, fin_inj] at this
    have h3 : Flow.numPairs e = _ := Nat.cast_injective (R := ℝ) this
    omega
  push Not at hno
  obtain ⟨d', hd'⟩ := hno
  refine ⟨d', _, _, (withParam_like hm d).1, (withParam_like hm d').1, ?_⟩
  obtain ⟨c, hc, -⟩ := hF.law
  obtain ⟨l1, p1, -⟩ := like_law (n := R.graph.num_vertices) (s := false) (G := Flow.links R.graph) hc d
  obtain ⟨l2, p2, -⟩ := like_law (n := R.graph.num_vertices) (s := false) (G := Flow.links R.graph) hc d'
  rw [l1, l2, ne_eq, leb_elog p2 p1, not_le] at hd'
  rw [l1, l2, ltb_elog p1 p2]
  exact hd'

end

/-- Three vertices, a path and a self-loop. -/
def loopE : List (Row ℕ ℝ) := [⟨0, 1, 1⟩, ⟨1, 2, 1⟩, ⟨0, 0, 1⟩]

/-- The hypotheses of `C85_run_partial` and `C85_converged_partial` hold for a path with three
vertices: the run ends, and one parameter reproduces the two edges. -/
example (M : Flow.Model) (hist : List (Q × Bool)) (o : Fit.Opts) (hat : 0 < o.atol)
    (hrt : 0 ≤ o.rtol) :
    (∀ r ∈ Flow.pathE, r.src ≠ r.dst ∨ false = true) ∧ Flow.pathE ≠ [] ∧
    ∃ R : Flow.Result ℕ ℕ, Flow.run M Flow.pathV Flow.pathE hist [] .none .density o = .ok R := by
  refine ⟨by simp [Flow.pathE], by simp [Flow.pathE], ?_⟩
  exact (Flow.C78_run (M := M) (v := Flow.pathV) (e := Flow.pathE) (hist := hist)
    (Or.inl ⟨rfl, rfl⟩ : Flow.Setting [] false) hat hrt).1.2 ⟨by simp [Flow.pathV], Flow.path_table⟩

/-- The hypotheses of `C85_selfloops_violated` hold for the path with a self-loop. -/
example (M : Flow.Model) (hist : List (Q × Bool)) (o : Fit.Opts) (hat : 0 < o.atol)
    (hrt : 0 ≤ o.rtol) :
    (∃ r ∈ loopE, r.src = r.dst) ∧ (∃ r ∈ loopE, r.src ≠ r.dst) ∧
    ∃ R : Flow.Result ℕ ℕ, Flow.run M Flow.pathV loopE hist [] .none .density o = .ok R ∧
      ∃ d : ℝ≥0, (withParam R d).expected_num_edges M =
        fin ((loopE.map (fun r => (r.src, r.dst))).toFinset.card : ℝ) := by
  refine ⟨⟨⟨0, 0, 1⟩, by simp [loopE]⟩, ⟨⟨0, 1, 1⟩, by simp [loopE]⟩, ?_⟩
  have hkw : Flow.Setting [] false := Or.inl ⟨rfl, rfl⟩
  obtain ⟨R, hR⟩ := (Flow.C78_run (M := M) (v := Flow.pathV) (e := loopE) (hist := hist)
    hkw hat hrt).1.2 ⟨by simp [Flow.pathV], by decide, by simp [Flow.pathV, loopE], by simp [loopE]⟩
  obtain ⟨h1, -⟩ := Flow.C78_attainable hkw hat hrt (by simp [loopE]) hR
  obtain ⟨d, hd⟩ := h1.2 (by
    simp only [Flow.support, loopE, List.map_cons, List.map_nil]; decide)
  obtain ⟨-, -, hm, -⟩ := Flow.run_ok hkw hat hrt hR
  refine ⟨R, hR, d, ?_⟩
  rw [← hd, (withParam_like hm d).2, Flow.expected_eq hm d]

/-! ## The random ensemble -/

theorem gibbs {m k p : ℝ} (hm : 0 < m) (hmk : m < k) (h0 : 0 < p) (h1 : p < 1) (hne : p ≠ m / k) :
    m * Real.log p + (k - m) * Real.log (1 - p) <
      m * Real.log (m / k) + (k - m) * Real.log (1 - m / k) := by
  have hk : 0 < k := hm.trans hmk
  have hq : 0 < m / k := div_pos hm hk
  have hq1 : m / k < 1 := (div_lt_one hk).2 hmk
  have e1 : Real.log (p / (m / k)) < p / (m / k) - 1 :=
    Real.log_lt_sub_one_of_pos (div_pos h0 hq) (by rwa [ne_eq, div_eq_one_iff_eq hq.ne'])
  have e2 : Real.log ((1 - p) / (1 - m / k)) ≤ (1 - p) / (1 - m / k) - 1 :=
    Real.log_le_sub_one_of_pos (div_pos (by linarith) (by linarith))
  rw [Real.log_div h0.ne' hq.ne'] at e1
  rw [Real.log_div (by linarith) (by linarith)] at e2
  have a1 := mul_lt_mul_of_pos_left e1 hm
  have a2 := mul_le_mul_of_nonneg_left e2 (by linarith : 0 ≤ k - m)
  have b1 : m * (p / (m / k) - 1) = p * k - m := by field_simp
  have b2 : (k - m) * ((1 - p) / (1 - m / k) - 1) = (1 - p) * k - (k - m) := by
    have : 1 - m / k = (k - m) / k := by field_simp
    have h3 : k - m ≠ 0 := by linarith
    rw [this]; field_simp
  rw [b1] at a1
  rw [b2] at a2
  nlinarith

/-- **C85**, random ensemble: the fitted probability is the maximum likelihood probability of the
directed graph the ensemble was made from, if there are edges, admissible pairs without edge and no
excluded self-loops. -/
theorem C85_random_partial {ι γ : Type} [LinearOrder ι] [LinearOrder γ] {b : Backend}
    {v : List (ι × γ)} {e : List (Row ι ℝ)} {hist : List (Q × Bool)} {sl dw : Option Bool}
    (he : e ≠ []) (hs : ∀ r ∈ e, r.src ≠ r.dst ∨ sl = some true)
    (hc : Flow.Random.edgeCount true e < Flow.Random.pairCount v.length (sl.getD false))
    {R : Flow.Random.Result ι γ} (h : Flow.Random.run b true v e hist sl dw = .ok R)
    {p : ℝ} (q : XR) (h0 : 0 < p) (h1 : p < 1) :
    ∃ l l' : ℝ, R.log_likelihood b true = .ok (fin l) ∧
      Flow.Random.Result.log_likelihood b true
        { R with model := { R.model with param := some (fin p, q) } } = .ok (fin l') ∧
      l' ≤ l ∧ (l' = l → ∃ r, R.model.param = some (fin p, r)) := by
  have hl := Flow.Random.C84_likelihood_partial he hs hc h
  obtain ⟨hv, hg, hm⟩ := Flow.Random.run_ok h
  have hmp : (0 : ℝ) < Flow.Random.edgeCount true e := by
    have : 0 < Flow.Random.edgeCount true e := by
      have := Flow.numPairs_pos he
      simpa [Flow.Random.edgeCount, Flow.numPairs] using this
    exact Nat.cast_pos.2 this
  have hmk : (Flow.Random.edgeCount true e : ℝ) < Flow.Random.pairCount v.length (sl.getD false) :=
    Nat.cast_lt.2 hc
  have hn : R.graph.num_vertices = v.length := (built_ok (mkOf_built hg)).2.2.2.1
  have hns : R.model.num_vertices = v.length ∧ R.model.selfloops = sl.getD false := by
    rw [hm]; exact ⟨rfl, rfl⟩
  have hsub : Flow.Random.linksOf b true R.graph ⊆ Law.pairs v.length (sl.getD false) :=
    Flow.Random.linksOf_subset hg fun r hr => (hs r hr).imp_right (by rintro rfl; rfl)
  have key := fun b' => Flow.Random.like_eq b' { R.model with param := some (fin p, q) } rfl h0 h1
    (Flow.Random.linksOf b true R.graph) (by rw [hns.1, hns.2]; exact hsub)
  have key' : Flow.Random.Result.log_likelihood b true
      { R with model := { R.model with param := some (fin p, q) } } = .ok (fin
        ((Flow.Random.edgeCount true e : ℝ) * Real.log p +
          ((Flow.Random.pairCount v.length (sl.getD false) : ℝ) - Flow.Random.edgeCount true e) *
            Real.log (1 - p))) := by
    simp only [hns.1, hns.2, Flow.Random.card_linksOf hg] at key
    unfold Flow.Random.Result.log_likelihood
    simp only [hn, hns.1, hns.2, key]
  refine ⟨_, _, hl, key', ?_, ?_⟩
  · by_cases hpe : p = Flow.Random.edgeCount true e / Flow.Random.pairCount v.length (sl.getD false)
    · rw [hpe]
    · exact (gibbs hmp hmk h0 h1 hpe).le
  · intro hll
    by_contra hcon
    refine absurd hll (gibbs hmp hmk h0 h1 fun hpe => hcon ?_).ne
    refine ⟨(Flow.Random.paramOf b true v e R.graph sl dw).2, ?_⟩
    rw [hm, hpe]
    simp only [Flow.Random.paramOf, Flow.Random.ratio]
    rw [if_neg (hmp.trans hmk).ne']

end

end Verif.Mle
