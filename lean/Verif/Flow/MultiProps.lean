import Verif.Flow.MultiLemmas

/-!
# C79: from the labelled edge table to the fitted multi-layer ensemble

Statements about whole runs with labels (sparse backend): graph, queries, model, fit, and what is
asked of the fitted model. Everything is stated on the tables of vertices and edges.
-/

namespace Verif.Flow

open XR Spec Graph Layer
open scoped ENNReal NNReal

noncomputable section

variable {ι γ κ : Type} [LinearOrder ι] [LinearOrder γ] [LinearOrder κ]

/-- The single-layer class with the same link function. -/
def Multi.single : Kind → Model
  | .fit => .sparseFit
  | .inv => .sparseInv

/-- Sum of the weights of the rows with label `k` that leave `x`. -/
def Multi.outSum (e : List (κ × Row ι ℝ)) (k : κ) (x : ι) : ℝ :=
  ((e.filter (fun r => r.1 = k ∧ r.2.src = x)).map (fun r => r.2.val)).sum

/-- Sum of the weights of the rows with label `k` that enter `x`. -/
def Multi.inSum (e : List (κ × Row ι ℝ)) (k : κ) (x : ι) : ℝ :=
  ((e.filter (fun r => r.1 = k ∧ r.2.dst = x)).map (fun r => r.2.val)).sum

/-- The admissible pairs of vertices of the table. -/
def Multi.pairs (s : Bool) (v : List (ι × γ)) : Finset (ι × ι) :=
  ((v.map Prod.fst).toFinset ×ˢ (v.map Prod.fst).toFinset).filter (fun p => p.1 ≠ p.2 ∨ s = true)

/-- Number of admissible pairs that, for some label, consist of a vertex with an outgoing and a
vertex with an incoming row of that label. -/
def Multi.support (s : Bool) (e : List (κ × Row ι ℝ)) : ℕ :=
  ((e.map Prod.fst).toFinset.biUnion (fun k =>
    ((((Multi.rows e k).map Row.src).toFinset ×ˢ ((Multi.rows e k).map Row.dst).toFinset).filter
      (fun p => p.1 ≠ p.2 ∨ s = true)))).card

theorem Multi.mkMultiOf_iff (v : List (ι × γ)) (e : List (κ × Row ι ℝ)) :
    (∃ g, mkMultiOf .sparse v e = .ok g) ↔ Table v (e.map Prod.snd) := by
  have hp : ∀ r : Row ι ℝ, Dtype.pos r.val = true ↔ 0 < r.val := fun r => by simp [Dtype.pos]
  constructor
  · rintro ⟨g, h⟩
    obtain ⟨h1, h2, h3, -⟩ := mkMulti_ok (show mkMulti Sparse.cooT v e = .ok g from h)
    exact ⟨h1, h2, fun r hr => (hp r).1 (h3 r hr)⟩
  · rintro ⟨h1, h2, h3⟩
    exact mkMulti_accepts (tensor := Sparse.cooT) h1 h2 fun r hr => (hp r).2 (h3 r hr)

theorem Multi.num_labels_eq {v : List (ι × γ)} {e : List (κ × Row ι ℝ)} {g : MultiObj ι γ κ ℝ}
    (h : mkMultiOf .sparse v e = .ok g) : g.num_labels = (e.map Prod.fst).toFinset.card := by
  obtain ⟨-, -, -, -, -, -, h7, -⟩ := mkMulti_ok (show mkMulti Sparse.cooT v e = .ok g from h)
  rw [h7]
  have hn := (Multi.numbering h).2
  rw [h7] at hn
  symm
  rw [← Finset.card_range (npUnique (e.map Prod.fst)).length]
  have hs : ∀ k ∈ (e.map Prod.fst).toFinset, ∃ l, g.label_dict.lookup k = some l := fun k hk =>
    Option.isSome_iff_exists.1 ((hn.dom k).2 (List.mem_toFinset.1 hk))
  refine Finset.card_bij (fun k _ => (g.label_dict.lookup k).getD 0) ?_ ?_ ?_
  · intro k hk
    obtain ⟨l, hl⟩ := hs k hk
    rw [hl]
    exact Finset.mem_range.2 (hn.range _ _ hl)
  · intro k hk k' hk' heq
    obtain ⟨l, hl⟩ := hs k hk
    obtain ⟨l', hl'⟩ := hs k' hk'
    rw [hl, hl'] at heq
    simp only [Option.getD_some] at heq
    subst heq
    exact hn.inj hl hl'
  · intro l hl
    obtain ⟨k, hk⟩ := hn.onto l (Finset.mem_range.1 hl)
    exact ⟨k, List.mem_toFinset.2 ((hn.dom k).1 (by simp [hk])), by simp only [hk]; rfl⟩

section

variable {K : Kind} {v : List (ι × γ)} {e : List (κ × Row ι ℝ)} {hist : List (Q × Bool)}
  {sl pl : Option Bool} {o : Fit.Opts}

theorem Multi.fit_ok (K : Kind) (g : MultiObj ι γ κ ℝ) (e : List (κ × Row ι ℝ)) (s p : Bool)
    (hat : 0 < o.atol) (hrt : 0 ≤ o.rtol) :
    ∃ r, Fit.fitMulti (Multi.fitModel K (Multi.modelOf g e s p)) .none .density o = .ok r := by
  rw [Multi.fitModel_eq]
  cases p
  · have hF := Multi.isFitter K (x := Multi.propOut g) (y := Multi.propIn g)
      (fun _ => Multi.nnRow_sorted _ _) (fun _ => Multi.nnRow_sorted _ _)
    obtain ⟨sol, h1, -⟩ := Fit.fit_total hF (Fit.agree_self _ g.num_vertices s) hat hrt
      (Nat.cast_nonneg (numPairs (e.map Prod.snd))) 0
    rw [NNReal.coe_zero, ← zero_def] at h1
    refine ⟨⟨List.replicate g.num_labels sol.x, [sol]⟩, ?_⟩
    unfold Fit.fitMulti
    have hneg : Fit.anyNeg (List.replicate g.num_labels (0 : XR)) = false := by
      simp [Fit.anyNeg, zero_def]
    have h0 : (List.replicate g.num_labels (0 : XR)).getD 0 0 = 0 := by
      cases g.num_labels <;> simp [List.replicate_succ]
    simp only [labelModel, Fit.X0.multi, List.length_replicate, ne_eq, not_true_eq_false, if_false,
      Bool.not_true, Bool.false_eq_true, hneg, h0, h1, Except.mapError]
  · exact C69_total K (fun _ => Multi.nnRow_sorted _ _) (fun _ => Multi.nnRow_sorted _ _) s
      (fun _ _ => Nat.cast_nonneg _) _ _ hat hrt

/-- What a successful run consists of. -/
theorem Multi.run_ok {R : Multi.Result ι γ κ}
    (h : Multi.run K v e hist (Multi.options sl pl) .none .density o = .ok R) :
    e ≠ [] ∧ mkMultiOf .sparse v e = .ok R.graph ∧
    R.model = Multi.modelOf R.graph e (sl.getD false) (pl.getD true) ∧
    Fit.fitMulti (Multi.fitModel K R.model) .none .density o = .ok R.fit := by
  cases hg : mkMultiOf .sparse v e with
  | error er => unfold Multi.run at h; rw [hg] at h; cases h
  | ok g =>
    have he : e ≠ [] := by
      rintro rfl
      rw [Multi.run_nil K hg] at h; cases h
    rw [Multi.run_eq K hg he] at h
    cases hf : Fit.fitMulti (Multi.fitModel K (Multi.modelOf g e (sl.getD false) (pl.getD true)))
        .none .density o with
    | error er => rw [hf] at h; simp [Except.mapError, bind, Except.bind] at h
    | ok r =>
      rw [hf] at h
      simp only [Except.mapError, bind, Except.bind, Except.ok.injEq] at h
      subst h
      exact ⟨he, rfl, rfl, hf⟩

theorem Multi.labels_fit {g : MultiObj ι γ κ ℝ} {s : Bool} (hat : 0 < o.atol) (hrt : 0 ≤ o.rtol)
    {r : Fit.MultiFit}
    (h : Fit.fitMulti (Multi.fitModel K (Multi.modelOf g e s true)) .none .density o = .ok r) :
    (∀ k < g.num_labels, ∃ d : ℝ≥0, r.param[k]? = some (fin d)) ∧
    ∀ k < g.num_labels, ∃ (sol : Solver.Solution) (u : ℝ), r.outputs[k]? = some sol ∧
      (exp_edges_label K.link.p_ijk g.num_vertices g.num_labels (fun k => r.param.getD k 0)
        (fun i => Fit.rowN (Multi.propOut g i)) (fun i => Fit.rowN (Multi.propIn g i))
        (fun _ _ => 1) s)[k]? = some (fin u) ∧
      (sol.converged = true ↔
        |u - Multi.labelPairs g k| ≤ o.atol + o.rtol * Multi.labelPairs g k) := by
  rw [Multi.fitModel_eq] at h
  exact C69_reproduces_partial K (fun _ => Multi.nnRow_sorted _ _) (fun _ => Multi.nnRow_sorted _ _)
    (fun _ _ => 1) s (fun _ _ => Nat.cast_nonneg _) hat hrt
    (by intro v hv; exact ⟨0, by rw [← zero_def]; exact (List.mem_replicate.1 hv).2⟩) rfl h

theorem Multi.shared_fit {g : MultiObj ι γ κ ℝ} {s : Bool} (hat : 0 < o.atol) (hrt : 0 ≤ o.rtol)
    (hL : g.num_labels ≠ 0) {r : Fit.MultiFit}
    (h : Fit.fitMulti (Multi.fitModel K (Multi.modelOf g e s false)) .none .density o = .ok r) :
    ∃ (sol : Solver.Solution) (d : ℝ≥0), r.outputs = [sol] ∧
      r.param = List.replicate g.num_labels (fin d) ∧
      ∃ u, ((Multi.fitter K (Multi.propOut g) (Multi.propIn g)).ens d).exp_edges g.num_vertices s =
          fin u ∧
        (sol.converged = true ↔ |u - numPairs (e.map Prod.snd)| ≤
          o.atol + o.rtol * numPairs (e.map Prod.snd)) := by
  have hF := Multi.isFitter K (x := Multi.propOut g) (y := Multi.propIn g)
      (fun _ => Multi.nnRow_sorted _ _) (fun _ => Multi.nnRow_sorted _ _)
  rw [Multi.fitModel_eq] at h
  exact Fit.C34_converged_shared hF hat hrt (Nat.cast_nonneg _) rfl rfl rfl hL
    (by intro v hv; exact ⟨0, by rw [← zero_def]; exact (List.mem_replicate.1 hv).2⟩) h

theorem Multi.param_ok {R : Multi.Result ι γ κ} (hat : 0 < o.atol) (hrt : 0 ≤ o.rtol)
    (h : Multi.run K v e hist (Multi.options sl pl) .none .density o = .ok R) :
    ∃ D : ℕ → ℝ≥0, R.param = fun l => fin (D l) := by
  obtain ⟨he, hg, hm, hf⟩ := Multi.run_ok h
  have hL : R.graph.num_labels ≠ 0 := fun h0 => he ((Multi.ne_nil_iff hg).1 h0)
  have key : ∀ l, ∃ d : ℝ≥0, R.param l = fin d := by
    intro l
    rw [hm] at hf
    unfold Multi.Result.param
    cases hp : pl.getD true with
    | false =>
      rw [hp] at hf
      obtain ⟨sol, d, -, h2, -⟩ := Multi.shared_fit hat hrt hL hf
      rw [h2, List.getD_eq_getElem?_getD, List.getElem?_replicate]
      split_ifs
      · exact ⟨d, rfl⟩
      · exact ⟨0, by simp [zero_def]⟩
    | true =>
      rw [hp] at hf
      by_cases hl : l < R.graph.num_labels
      · obtain ⟨d, hd⟩ := (Multi.labels_fit hat hrt hf).1 l hl
        exact ⟨d, by rw [List.getD_eq_getElem?_getD, hd]; rfl⟩
      · have hlen : R.fit.param.length = R.graph.num_labels := by
          rw [Multi.fitModel_eq] at hf
          unfold Fit.fitMulti at hf
          simp only at hf
          split_ifs at hf
          unfold Fit.fitLabels at hf
          rw [(Fit.fitLabels_spec _ _ _ _ _ _ _ rfl hf).1]
          simp [Fit.X0.multi, labelModel]
        rw [List.getD_eq_default _ _ (by omega)]
        exact ⟨0, by simp [zero_def]⟩
  choose D hD using key
  exact ⟨D, funext hD⟩

theorem Multi.q_connect (K : Kind) (d a b : ℝ≥0) :
    K.q ((d : ℝ≥0∞) * a * b) = connect (Multi.single K) d a b := by
  have ht : ((d : ℝ≥0∞) * a * b) ≠ ⊤ := by
    simp only [← ENNReal.coe_mul]; exact ENNReal.coe_ne_top
  have hr : ((d : ℝ≥0∞) * a * b).toReal = d * (a * b) := by
    simp only [← ENNReal.coe_mul, ENNReal.coe_toReal, NNReal.coe_mul, mul_assoc]
  cases K
  · simp only [Kind.q, fitProb, if_neg ht, hr]; rfl
  · simp only [Kind.q, invProb, if_neg ht, hr]; rfl

/-- Connection probability of a pair with given parameters, from the strengths by label. -/
def Multi.prob (K : Kind) (g : MultiObj ι γ κ ℝ) (D : ℕ → ℝ≥0) (p : ℕ × ℕ) : ℝ :=
  1 - ∏ l ∈ Finset.range g.num_labels,
    (1 - connect (Multi.single K) (D l) (Multi.outS g p.1 l) (Multi.inS g p.2 l))

theorem Multi.rowENN_sorted {r : List (ℕ × ℝ≥0)} (h : RowSorted r) : RowSorted (Fit.rowENN r) := by
  unfold RowSorted at h ⊢
  unfold Fit.rowENN
  rw [List.pairwise_map]
  exact h

omit [LinearOrder ι] [LinearOrder γ] [LinearOrder κ] in
theorem Multi.ens_is (K : Kind) (g : MultiObj ι γ κ ℝ) (D : ℕ → ℝ≥0) :
    (Multi.ens K (fun l => fin (D l)) (fun i => Fit.rowN (Multi.propOut g i))
      (fun i => Fit.rowN (Multi.propIn g i))).Is (Multi.prob K g D) := by
  have hr : ∀ x : ℕ → List (ℕ × ℝ≥0), (fun i => rowX (Fit.rowENN (x i))) = fun i => Fit.rowN (x i) :=
    fun x => funext fun i => Fit.rowX_rowENN _
  have hlt : ∀ f : ℕ → ℕ → ℝ≥0, ∀ i, ∀ e ∈ Fit.rowENN (Multi.nnRow g.num_labels (f i)),
      e.1 < g.num_labels := by
    intro f i e he
    obtain ⟨e', he', rfl⟩ := List.mem_map.1 he
    exact Multi.nnRow_lt e' he'
  have hq : Multi.prob K g D = fun p => 1 - ∏ l ∈ Finset.range g.num_labels,
      (1 - K.q ((D l : ℝ≥0∞) * entry (Fit.rowENN (Multi.propOut g p.1)) l *
        entry (Fit.rowENN (Multi.propIn g p.2)) l)) := by
    funext p
    unfold Multi.prob
    congr 1
    refine Finset.prod_congr rfl fun l hl => ?_
    rw [entry_rowENN, entry_rowENN, Multi.q_connect]
    unfold Multi.propOut Multi.propIn
    rw [Multi.entry_nnRow, Multi.entry_nnRow, if_pos (Finset.mem_range.1 hl),
      if_pos (Finset.mem_range.1 hl)]
  rw [hq]
  cases K
  · have := Ens.Is.sparseMultiFit g.num_labels (fun l => (D l : ℝ≥0∞))
      (fun i => Fit.rowENN (Multi.propOut g i)) (fun i => Fit.rowENN (Multi.propIn g i))
      (fun i => Multi.rowENN_sorted (Multi.nnRow_sorted _ _))
      (fun i => Multi.rowENN_sorted (Multi.nnRow_sorted _ _))
      (hlt (Multi.outS g)) (hlt (Multi.inS g))
    unfold Ens.sparseMultiFit at this
    simp only [hr] at this
    exact this
  · have := Ens.Is.sparseMultiInv g.num_labels (fun l => (D l : ℝ≥0∞))
      (fun i => Fit.rowENN (Multi.propOut g i)) (fun i => Fit.rowENN (Multi.propIn g i))
      (fun i => Multi.rowENN_sorted (Multi.nnRow_sorted _ _))
      (fun i => Multi.rowENN_sorted (Multi.nnRow_sorted _ _))
      (hlt (Multi.outS g)) (hlt (Multi.inS g))
    unfold Ens.sparseMultiInv at this
    simp only [hr] at this
    exact this

omit [LinearOrder ι] [LinearOrder γ] [LinearOrder κ] in
theorem Multi.exp_edges_eq (K : Kind) (g : MultiObj ι γ κ ℝ) (D : ℕ → ℝ≥0) (n : ℕ) (s : Bool) :
    (Multi.ens K (fun l => fin (D l)) (fun i => Fit.rowN (Multi.propOut g i))
      (fun i => Fit.rowN (Multi.propIn g i))).exp_edges n s =
      fin (∑ p ∈ Law.pairs n s, Multi.prob K g D p) := by
  rw [C09_formula (Multi.ens_is K g D) n s, Law.mean_card]

omit [LinearOrder ι] [LinearOrder γ] [LinearOrder κ] in
theorem Multi.prob_congr {K : Kind} {g : MultiObj ι γ κ ℝ} {D D' : ℕ → ℝ≥0}
    (h : ∀ l < g.num_labels, D l = D' l) : Multi.prob K g D = Multi.prob K g D' := by
  funext p
  unfold Multi.prob
  congr 1
  exact Finset.prod_congr rfl fun l hl => by rw [h l (Finset.mem_range.1 hl)]

/-- **C79**, runs: building the labelled graph, making the model from it and fitting succeeds
exactly for tables with distinct identifiers, known end points, positive weights and at least one
row, whatever was asked of the graph before and whichever of the options `selfloops` and
`per_label` are given; all parameters are finite numbers that are not negative. -/
theorem C79_run (K : Kind) (v : List (ι × γ)) (e : List (κ × Row ι ℝ)) (hist : List (Q × Bool))
    (sl pl : Option Bool) (hat : 0 < o.atol) (hrt : 0 ≤ o.rtol) :
    ((∃ R, Multi.run K v e hist (Multi.options sl pl) .none .density o = .ok R) ↔
      e ≠ [] ∧ Table v (e.map Prod.snd)) ∧
    ∀ R, Multi.run K v e hist (Multi.options sl pl) .none .density o = .ok R →
      R.model.attrs.num_vertices = v.length ∧
      R.model.attrs.num_labels = (e.map Prod.fst).toFinset.card ∧
      R.fit.param.length = (e.map Prod.fst).toFinset.card ∧
      ∃ D : ℕ → ℝ≥0, R.param = fun l => fin (D l) := by
  refine ⟨⟨?_, ?_⟩, ?_⟩
  · rintro ⟨R, h⟩
    obtain ⟨he, hg, -⟩ := Multi.run_ok h
    exact ⟨he, (Multi.mkMultiOf_iff v e).1 ⟨_, hg⟩⟩
  · rintro ⟨he, ht⟩
    obtain ⟨g, hg⟩ := (Multi.mkMultiOf_iff v e).2 ht
    obtain ⟨r, hr⟩ := Multi.fit_ok K g e (sl.getD false) (pl.getD true) hat hrt
    refine ⟨⟨g, Multi.modelOf g e (sl.getD false) (pl.getD true), r⟩, ?_⟩
    rw [Multi.run_eq K hg he, hr]
    rfl
  · intro R h
    obtain ⟨he, hg, hm, hf⟩ := Multi.run_ok h
    have hL : R.graph.num_labels ≠ 0 := fun h0 => he ((Multi.ne_nil_iff hg).1 h0)
    refine ⟨?_, ?_, ?_, Multi.param_ok hat hrt h⟩
    · rw [hm]
      show ((R.graph.num_vertices : ℕ) : ℤ) = _
      rw [(mkMulti_ok (show mkMulti Sparse.cooT v e = .ok R.graph from hg)).2.2.2.1]
    · rw [hm, ← Multi.num_labels_eq hg]
      rfl
    · rw [← Multi.num_labels_eq hg]
      rw [hm] at hf
      cases hp : pl.getD true with
      | false =>
        rw [hp] at hf
        obtain ⟨sol, d, -, h2, -⟩ := Multi.shared_fit hat hrt hL hf
        rw [h2, List.length_replicate]
      | true =>
        rw [hp, Multi.fitModel_eq] at hf
        unfold Fit.fitMulti at hf
        simp only at hf
        split_ifs at hf
        unfold Fit.fitLabels at hf
        rw [(Fit.fitLabels_spec _ _ _ _ _ _ _ rfl hf).1]
        simp [Fit.X0.multi, labelModel]

/-- **C79**, one parameter per label (the default): for every label of the table, `converged` of
its solver output tells whether the expected number of edges with the label is the number of pairs
with that label in the table within the tolerances. -/
theorem C79_labels (hpl : pl.getD true = true) (hat : 0 < o.atol) (hrt : 0 ≤ o.rtol)
    {R : Multi.Result ι γ κ}
    (h : Multi.run K v e hist (Multi.options sl pl) .none .density o = .ok R)
    {k : κ} (hk : k ∈ e.map Prod.fst) :
    ∃ (l : ℕ) (sol : Solver.Solution) (u : ℝ), R.graph.label_dict.lookup k = some l ∧
      R.fit.outputs[l]? = some sol ∧ (R.expected_num_edges_label K)[l]? = some (fin u) ∧
      (sol.converged = true ↔
        |u - (((Multi.rows e k).map (fun r => (r.src, r.dst))).toFinset.card : ℝ)| ≤
          o.atol + o.rtol * (((Multi.rows e k).map (fun r => (r.src, r.dst))).toFinset.card : ℝ)) := by
  obtain ⟨he, hg, hm, hf⟩ := Multi.run_ok h
  obtain ⟨l, hl⟩ := Option.isSome_iff_exists.1 (((Multi.numbering hg).2.dom k).2 hk)
  rw [hm, hpl] at hf
  obtain ⟨sol, u, h1, h2, h3⟩ := (Multi.labels_fit hat hrt hf).2 l (Multi.label_lt hg hl)
  refine ⟨l, sol, u, hl, h1, ?_, ?_⟩
  · rw [← h2]
    unfold Multi.Result.expected_num_edges_label Multi.Result.labelEdges Multi.Result.param
      Multi.Result.n Multi.Result.L Multi.Result.selfloops
    rw [hm]
    rfl
  · rw [h3, Multi.labelPairs_eq hg hl]
    rfl

/-- **C79**, one parameter for all labels (`per_label=False`): there is one solver output, and its
`converged` tells whether the expected number of edges of the projected graph is the number of
pairs of the table within the tolerances. -/
theorem C79_shared (hpl : pl = some false) (hat : 0 < o.atol) (hrt : 0 ≤ o.rtol)
    {R : Multi.Result ι γ κ}
    (h : Multi.run K v e hist (Multi.options sl pl) .none .density o = .ok R) :
    ∃ (sol : Solver.Solution) (d : ℝ≥0) (u : ℝ), R.fit.outputs = [sol] ∧
      (∀ w ∈ R.fit.param, w = fin d) ∧ R.expected_num_edges K = fin u ∧
      (sol.converged = true ↔
        |u - ((e.map (fun r => (r.2.src, r.2.dst))).toFinset.card : ℝ)| ≤
          o.atol + o.rtol * ((e.map (fun r => (r.2.src, r.2.dst))).toFinset.card : ℝ)) := by
  obtain ⟨he, hg, hm, hf⟩ := Multi.run_ok h
  have hL : R.graph.num_labels ≠ 0 := fun h0 => he ((Multi.ne_nil_iff hg).1 h0)
  subst hpl
  rw [hm] at hf
  obtain ⟨sol, d, h1, h2, u, h3, h4⟩ := Multi.shared_fit hat hrt hL hf
  refine ⟨sol, d, u, h1, ?_, ?_, ?_⟩
  · intro w hw
    rw [h2] at hw
    exact (List.mem_replicate.1 hw).2
  · rw [← h3, Multi.fitter_ens, Fit.ofENN_coe, Multi.exp_edges_eq K R.graph (fun _ => d)]
    obtain ⟨D, hD⟩ := Multi.param_ok hat hrt h
    have hDd : ∀ l < R.graph.num_labels, D l = d := by
      intro l hl
      have := congrFun hD l
      unfold Multi.Result.param at this
      rw [h2, List.getD_eq_getElem?_getD, List.getElem?_replicate, if_pos hl] at this
      exact NNReal.coe_injective (fin_inj.1 this.symm)
    rw [← Multi.prob_congr (D := D) hDd, ← Multi.exp_edges_eq]
    unfold Multi.Result.expected_num_edges Multi.Result.withParam Multi.Result.n
      Multi.Result.selfloops
    rw [hD, hm]
    rfl
  · rw [h4]
    unfold numPairs
    rw [List.map_map]
    rfl

/-! ### Probabilities and expected numbers -/

theorem Multi.outS_sum {g : MultiObj ι γ κ ℝ} (hg : mkMultiOf .sparse v e = .ok g) {k : κ} {x : ι}
    {l i : ℕ} (hk : g.label_dict.lookup k = some l) (hx : g.id_dict.lookup x = some i) :
    (Multi.outS g i l : ℝ) = Multi.outSum e k x := by
  have h := (C70_label_strength_partial (directed := true) hg (by nofun) [] false hx hk).1
  simp only [C70_history] at h
  exact (Multi.coe_outS hg i (Multi.label_lt hg hk)).trans h

theorem Multi.inS_sum {g : MultiObj ι γ κ ℝ} (hg : mkMultiOf .sparse v e = .ok g) {k : κ} {x : ι}
    {l i : ℕ} (hk : g.label_dict.lookup k = some l) (hx : g.id_dict.lookup x = some i) :
    (Multi.inS g i l : ℝ) = Multi.inSum e k x := by
  have h := (C70_label_strength_partial (directed := true) hg (by nofun) [] false hx hk).2.1
  simp only [C70_history] at h
  exact (Multi.coe_inS hg i (Multi.label_lt hg hk)).trans h

/-- The number of label `k`. -/
def Multi.Result.label (R : Multi.Result ι γ κ) (k : κ) : ℕ := (R.graph.label_dict.lookup k).getD 0

theorem Multi.prod_labels {g : MultiObj ι γ κ ℝ} (hg : mkMultiOf .sparse v e = .ok g)
    (f : ℕ → ℝ) (f' : κ → ℝ) (hf : ∀ k l, g.label_dict.lookup k = some l → f l = f' k) :
    ∏ l ∈ Finset.range g.num_labels, f l = ∏ k ∈ (e.map Prod.fst).toFinset, f' k := by
  have hn := (Multi.numbering hg).2
  have hs : ∀ k ∈ (e.map Prod.fst).toFinset, ∃ l, g.label_dict.lookup k = some l := fun k hk =>
    Option.isSome_iff_exists.1 ((hn.dom k).2 (List.mem_toFinset.1 hk))
  symm
  refine Finset.prod_bij (fun k _ => (g.label_dict.lookup k).getD 0) ?_ ?_ ?_ ?_
  · intro k hk
    obtain ⟨l, hl⟩ := hs k hk
    rw [hl]
    exact Finset.mem_range.2 (hn.range _ _ hl)
  · intro k hk k' hk' heq
    obtain ⟨l, hl⟩ := hs k hk
    obtain ⟨l', hl'⟩ := hs k' hk'
    rw [hl, hl'] at heq
    simp only [Option.getD_some] at heq
    subst heq
    exact hn.inj hl hl'
  · intro l hl
    obtain ⟨k, hk⟩ := hn.onto l (Finset.mem_range.1 hl)
    exact ⟨k, List.mem_toFinset.2 ((hn.dom k).1 (by simp [hk])), by simp only [hk]; rfl⟩
  · intro k hk
    obtain ⟨l, hl⟩ := hs k hk
    rw [hl]
    exact (hf k l hl).symm

theorem Multi.sum_pairs {g : MultiObj ι γ κ ℝ} (hg : mkMultiOf .sparse v e = .ok g) (s : Bool)
    (f : ℕ × ℕ → ℝ) (f' : ι × ι → ℝ)
    (hf : ∀ x y i j, g.id_dict.lookup x = some i → g.id_dict.lookup y = some j →
      f (i, j) = f' (x, y)) :
    ∑ p ∈ Law.pairs g.num_vertices s, f p = ∑ p ∈ Multi.pairs s v, f' p := by
  have hn := (Multi.numbering hg).1
  have hs : ∀ x ∈ v.map Prod.fst, ∃ i, g.id_dict.lookup x = some i := fun x hx =>
    Option.isSome_iff_exists.1 ((hn.dom x).2 hx)
  have hm : ∀ p ∈ Multi.pairs s v, (∃ i, g.id_dict.lookup p.1 = some i) ∧
      (∃ j, g.id_dict.lookup p.2 = some j) ∧ (p.1 ≠ p.2 ∨ s = true) := by
    intro p hp
    simp only [Multi.pairs, Finset.mem_filter, Finset.mem_product, List.mem_toFinset] at hp
    exact ⟨hs _ hp.1.1, hs _ hp.1.2, hp.2⟩
  symm
  refine Finset.sum_bij (fun p _ => ((g.id_dict.lookup p.1).getD 0, (g.id_dict.lookup p.2).getD 0))
    ?_ ?_ ?_ ?_
  · intro p hp
    obtain ⟨⟨i, hi⟩, ⟨j, hj⟩, h3⟩ := hm p hp
    rw [hi, hj, Law.mem_pairs]
    refine ⟨hn.range _ _ hi, hn.range _ _ hj, h3.imp ?_ id⟩
    intro hne heq
    simp only [Option.getD_some] at heq
    subst heq
    exact hne (hn.inj hi hj)
  · intro p hp p' hp' heq
    obtain ⟨⟨i, hi⟩, ⟨j, hj⟩, -⟩ := hm p hp
    obtain ⟨⟨i', hi'⟩, ⟨j', hj'⟩, -⟩ := hm p' hp'
    rw [hi, hj, hi', hj'] at heq
    simp only [Option.getD_some, Prod.mk.injEq] at heq
    obtain ⟨rfl, rfl⟩ := heq
    exact Prod.ext (hn.inj hi hi') (hn.inj hj hj')
  · rintro ⟨i, j⟩ hp
    rw [Law.mem_pairs] at hp
    obtain ⟨x, hx⟩ := hn.onto i hp.1
    obtain ⟨y, hy⟩ := hn.onto j hp.2.1
    refine ⟨(x, y), ?_, by simp only [hx, hy]; rfl⟩
    simp only [Multi.pairs, Finset.mem_filter, Finset.mem_product, List.mem_toFinset]
    refine ⟨⟨(hn.dom x).1 (by simp [hx]), (hn.dom y).1 (by simp [hy])⟩, hp.2.2.imp ?_ id⟩
    rintro hne rfl
    exact hne (Option.some.inj (hx.symm.trans hy))
  · intro p hp
    obtain ⟨⟨i, hi⟩, ⟨j, hj⟩, -⟩ := hm p hp
    rw [hi, hj]
    exact (hf _ _ _ _ hi hj).symm

theorem Multi.prob_table {R : Multi.Result ι γ κ} (hg : mkMultiOf .sparse v e = .ok R.graph)
    (D : ℕ → ℝ≥0) {x y : ι} {i j : ℕ} (hx : R.graph.id_dict.lookup x = some i)
    (hy : R.graph.id_dict.lookup y = some j) :
    Multi.prob K R.graph D (i, j) = 1 - ∏ k ∈ (e.map Prod.fst).toFinset,
      (1 - connect (Multi.single K) (D (R.label k)) (Multi.outSum e k x) (Multi.inSum e k y)) := by
  unfold Multi.prob
  congr 1
  refine Multi.prod_labels hg _ _ fun k l hk => ?_
  have : R.label k = l := by unfold Multi.Result.label; rw [hk]; rfl
  rw [Multi.outS_sum hg hk hx, Multi.inS_sum hg hk hy, this]

/-- **C79**, probabilities: the model made from the graph connects two vertices, in any label, with
the probability that follows from independent labels, each with the probability of the
single-layer model for the sums of the weights of the rows with that label leaving the first and
entering the second vertex; for all parameters, in particular the fitted ones. -/
theorem C79_probability {R : Multi.Result ι γ κ}
    (h : Multi.run K v e hist (Multi.options sl pl) .none .density o = .ok R) (D : ℕ → ℝ≥0)
    {x y : ι} {i j : ℕ} (hx : R.graph.id_dict.lookup x = some i)
    (hy : R.graph.id_dict.lookup y = some j) :
    (R.withParam K (fun l => fin (D l))).p i j = fin (1 - ∏ k ∈ (e.map Prod.fst).toFinset,
      (1 - connect (Multi.single K) (D (R.label k)) (Multi.outSum e k x) (Multi.inSum e k y))) := by
  obtain ⟨he, hg, hm, hf⟩ := Multi.run_ok h
  rw [← Multi.prob_table hg D hx hy]
  unfold Multi.Result.withParam
  rw [hm]
  exact (Multi.ens_is K R.graph D).p_eq i j

omit [LinearOrder ι] [LinearOrder γ] [LinearOrder κ] in
theorem Multi.labelMean_eq (K : Kind) (g : MultiObj ι γ κ ℝ) (s : Bool) {l : ℕ}
    (hl : l < g.num_labels) (d : ℝ≥0) :
    labelMean K g.num_vertices (Multi.propOut g) (Multi.propIn g) s l d =
      ∑ p ∈ Law.pairs g.num_vertices s,
        connect (Multi.single K) d (Multi.outS g p.1 l) (Multi.inS g p.2 l) := by
  rw [labelMean, Law.mean_card]
  refine Finset.sum_congr rfl fun p _ => ?_
  unfold Multi.propOut Multi.propIn
  rw [Multi.entry_nnRow, Multi.entry_nnRow, if_pos hl, if_pos hl, Multi.q_connect]

omit [LinearOrder γ] [LinearOrder κ] in
theorem Multi.labelEdges_eq {R : Multi.Result ι γ κ} {s p : Bool}
    (hm : R.model = Multi.modelOf R.graph e s p) (D : ℕ → ℝ≥0) {l : ℕ}
    (hl : l < R.graph.num_labels) :
    (R.labelEdges K (fun l => fin (D l)))[l]? = some (fin
      (labelMean K R.graph.num_vertices (Multi.propOut R.graph) (Multi.propIn R.graph) s l
        (D l))) := by
  have h1 : R.labelEdges K (fun l => fin (D l)) = exp_edges_label K.link.p_ijk
      R.graph.num_vertices R.graph.num_labels (fun l => fin (D l))
      (fun i => Fit.rowN (Multi.propOut R.graph i)) (fun i => Fit.rowN (Multi.propIn R.graph i))
      (fun _ _ => 1) s := by
    unfold Multi.Result.labelEdges Multi.Result.n Multi.Result.L Multi.Result.selfloops
    rw [hm]
    rfl
  rw [h1, edges_label_eq K _ _ D (x := Multi.propOut R.graph) (y := Multi.propIn R.graph) (fun _ => Multi.nnRow_sorted _ _)
    (fun _ => Multi.nnRow_sorted _ _), List.getElem?_map, List.getElem?_range hl]
  rfl

/-- **C79**, expected numbers: with any parameters, the expected number of edges with a label and
the expected number of edges of the projected graph are the sums of the probabilities of
`C79_probability` over the admissible pairs of vertices of the table. -/
theorem C79_expected {R : Multi.Result ι γ κ}
    (h : Multi.run K v e hist (Multi.options sl pl) .none .density o = .ok R) (D : ℕ → ℝ≥0) :
    (∀ k ∈ e.map Prod.fst, (R.labelEdges K (fun l => fin (D l)))[R.label k]? =
      some (fin (∑ p ∈ Multi.pairs (sl.getD false) v, connect (Multi.single K) (D (R.label k))
        (Multi.outSum e k p.1) (Multi.inSum e k p.2)))) ∧
    (R.withParam K (fun l => fin (D l))).exp_edges R.n R.selfloops =
      fin (∑ p ∈ Multi.pairs (sl.getD false) v, (1 - ∏ k ∈ (e.map Prod.fst).toFinset,
        (1 - connect (Multi.single K) (D (R.label k)) (Multi.outSum e k p.1)
          (Multi.inSum e k p.2)))) := by
  obtain ⟨he, hg, hm, hf⟩ := Multi.run_ok h
  constructor
  · intro k hk
    obtain ⟨l, hl⟩ := Option.isSome_iff_exists.1 (((Multi.numbering hg).2.dom k).2 hk)
    have hlab : R.label k = l := by unfold Multi.Result.label; rw [hl]; rfl
    have hlt := Multi.label_lt hg hl
    rw [hlab, Multi.labelEdges_eq hm D hlt, Multi.labelMean_eq K _ _ hlt]
    congr 2
    refine Multi.sum_pairs hg _ _ _ fun x y i j hx hy => ?_
    rw [Multi.outS_sum hg hl hx, Multi.inS_sum hg hl hy]
  · have h1 : (R.withParam K (fun l => fin (D l))).exp_edges R.n R.selfloops =
        (Multi.ens K (fun l => fin (D l)) (fun i => Fit.rowN (Multi.propOut R.graph i))
      (fun i => Fit.rowN (Multi.propIn R.graph i))).exp_edges R.graph.num_vertices
        (sl.getD false) := by
      unfold Multi.Result.withParam Multi.Result.n Multi.Result.selfloops
      rw [hm]
      rfl
    rw [h1, Multi.exp_edges_eq]
    congr 1
    exact Multi.sum_pairs hg _ _ _ fun x y i j hx hy => Multi.prob_table hg D hx hy

/-! ### Attainability and convergence -/

theorem attain_iff {F : Fit.Fitter} (hF : Fit.IsFitter F) {n : ℕ} {s : Bool} {m N : ℕ}
    (h0 : 0 < m) (hN : F.numLinkable n s = N) :
    ((∃ d, F.Reproduces n s m d) ↔ m < N) ∧
    ((∃ d, F.Reproduces n s m d) → ∃! d, F.Reproduces n s m d) := by
  have h0' : (0 : ℝ) < m := by exact_mod_cast h0
  have none : N ≤ m → ∀ d, ¬ F.Reproduces n s m d := fun hle d hd =>
    Fit.C34_none hF h0' (by rw [hN]; exact_mod_cast hle) d hd
  have uniq : m < N → ∃! d, F.Reproduces n s m d := by
    intro hlt
    obtain ⟨d, ⟨-, hd⟩, hu⟩ := Fit.C34_unique hF (n := n) (selfloops := s) h0'
      (by rw [hN]; exact_mod_cast hlt)
    refine ⟨d, hd, fun d' hd' => hu d' ⟨?_, hd'⟩⟩
    by_contra hz
    have hz : d' = 0 := le_antisymm (not_lt.1 hz) zero_le
    have := (Fit.reproduces_iff hF).1 hd'
    rw [hz] at this
    have hz' := (Fit.Fitter.isObj hF n s).zero
    simp only [NNReal.coe_zero] at this
    rw [hz'] at this
    linarith
  have iff : (∃ d, F.Reproduces n s m d) ↔ m < N := by
    constructor
    · rintro ⟨d, hd⟩
      by_contra hc
      exact none (not_lt.1 hc) d hd
    · intro hlt
      exact (uniq hlt).exists
  exact ⟨iff, fun hex => uniq (iff.1 hex)⟩

omit [LinearOrder ι] [LinearOrder γ] [LinearOrder κ] in
theorem Multi.layer_exp (K : Kind) {g : MultiObj ι γ κ ℝ} (s : Bool) {l : ℕ}
    (hl : l < g.num_labels) {x y : ℕ → ℝ≥0} (hx : ∀ i, x i = Multi.outS g i l)
    (hy : ∀ i, y i = Multi.inS g i l) (d : ℝ≥0) :
    (((Multi.single K).fitter x y).ens d).exp_edges g.num_vertices s =
      fin (labelMean K g.num_vertices (Multi.propOut g) (Multi.propIn g) s l d) := by
  rw [C09_expected_num_edges (Ens.isModel_coherent (ens_isModel _ _ _ _)), Multi.labelMean_eq K g s hl,
    Law.mean_card]
  congr 1
  refine Finset.sum_congr rfl fun p _ => ?_
  unfold Ens.prob
  rw [Flow.fitter_ens, Fit.ofENN_coe, p_fin, hx, hy]
  rfl

theorem Multi.label_facts {g : MultiObj ι γ κ ℝ} (hg : mkMultiOf .sparse v e = .ok g) (K : Kind)
    (s : Bool) {k : κ} {l : ℕ} (hk : g.label_dict.lookup k = some l) :
    ∃ F : Fit.Fitter, Fit.IsFitter F ∧ F.numLinkable g.num_vertices s = Flow.support s (Multi.rows e k) ∧
      ∀ d : ℝ≥0, (F.ens d).exp_edges g.num_vertices s =
        fin (labelMean K g.num_vertices (Multi.propOut g) (Multi.propIn g) s l d) := by
  obtain ⟨ob, h1, h2, -, h4, h5, -⟩ := Multi.layer hg hk
  refine ⟨(Multi.single K).fitter (Flow.outS ob) (Flow.inS ob), Flow.isFitter _ _ _, ?_,
    Multi.layer_exp K s (Multi.label_lt hg hk) h4 h5⟩
  rw [← h2]
  exact Flow.support_eq (mkOf_built h1) _ s

omit [LinearOrder ι] in
theorem Multi.rows_ne {k : κ} (hk : k ∈ e.map Prod.fst) : Multi.rows e k ≠ [] := by
  obtain ⟨r, hr, rfl⟩ := List.mem_map.1 hk
  exact List.ne_nil_of_mem (Multi.rows_mem hr)

/-- **C79**, attainability by label: some finite parameter reproduces the number of edges of a label
iff that number is less than the number of admissible pairs of a vertex with an outgoing and a
vertex with an incoming row of the label, and then exactly one does. -/
theorem C79_attainable {R : Multi.Result ι γ κ}
    (h : Multi.run K v e hist (Multi.options sl pl) .none .density o = .ok R)
    {k : κ} (hk : k ∈ e.map Prod.fst) :
    let reproduces := fun d : ℝ≥0 => (R.labelEdges K (fun _ => fin d))[R.label k]? =
      some (fin (((Multi.rows e k).map (fun r => (r.src, r.dst))).toFinset.card : ℝ))
    ((∃ d, reproduces d) ↔ ((Multi.rows e k).map (fun r => (r.src, r.dst))).toFinset.card <
      support (sl.getD false) (Multi.rows e k)) ∧
    ((∃ d, reproduces d) → ∃! d, reproduces d) := by
  obtain ⟨he, hg, hm, hf⟩ := Multi.run_ok h
  obtain ⟨l, hl⟩ := Option.isSome_iff_exists.1 (((Multi.numbering hg).2.dom k).2 hk)
  have hlab : R.label k = l := by unfold Multi.Result.label; rw [hl]; rfl
  obtain ⟨F, hF, hN, hE⟩ := Multi.label_facts hg K (sl.getD false) hl
  intro reproduces
  have hrep : ∀ d, reproduces d ↔ F.Reproduces R.graph.num_vertices (sl.getD false)
      (numPairs (Multi.rows e k)) d := by
    intro d
    show _ = _ ↔ _ = _
    rw [hlab, Multi.labelEdges_eq hm (fun _ => d) (Multi.label_lt hg hl), hE, Option.some.injEq]
    rfl
  have := attain_iff hF (numPairs_pos (Multi.rows_ne hk)) hN
  simp only [← hrep] at this
  exact this

theorem Multi.support_eq {g : MultiObj ι γ κ ℝ} (hg : mkMultiOf .sparse v e = .ok g) (K : Kind)
    (s : Bool) :
    (Multi.fitter K (Multi.propOut g) (Multi.propIn g)).numLinkable g.num_vertices s =
      Multi.support s e := by
  classical
  have hn := (Multi.numbering hg).1
  have hlink : ∀ i j x y, g.id_dict.lookup x = some i → g.id_dict.lookup y = some j →
      ((Multi.fitter K (Multi.propOut g) (Multi.propIn g)).linkable i j ↔
        ∃ k ∈ e.map Prod.fst, (∃ r ∈ Multi.rows e k, r.src = x) ∧ ∃ r ∈ Multi.rows e k, r.dst = y) := by
    intro i j x y hx hy
    rw [Multi.fitter_linkable]
    unfold Multi.propOut Multi.propIn
    simp only [Multi.entry_nnRow]
    constructor
    · rintro ⟨l, h1, h2⟩
      by_cases hl : l < g.num_labels
      · rw [if_pos hl] at h1 h2
        obtain ⟨k, hk⟩ := Multi.label hg hl
        obtain ⟨ob, o1, -, o3, o4, o5, -⟩ := Multi.layer hg hk
        refine ⟨k, ((Multi.numbering hg).2.dom k).1 (by simp [hk]), ?_, ?_⟩
        · exact (outS_ne (mkOf_built o1) (by rw [o3]; exact hx)).1 (by rw [o4]; exact h1)
        · exact (inS_ne (mkOf_built o1) (by rw [o3]; exact hy)).1 (by rw [o5]; exact h2)
      · rw [if_neg hl] at h1
        exact absurd rfl h1
    · rintro ⟨k, hk, h1, h2⟩
      obtain ⟨l, hl⟩ := Option.isSome_iff_exists.1 (((Multi.numbering hg).2.dom k).2 hk)
      obtain ⟨ob, o1, -, o3, o4, o5, -⟩ := Multi.layer hg hl
      refine ⟨l, ?_⟩
      rw [if_pos (Multi.label_lt hg hl), if_pos (Multi.label_lt hg hl), ← o4, ← o5]
      exact ⟨(outS_ne (mkOf_built o1) (by rw [o3]; exact hx)).2 h1,
        (inS_ne (mkOf_built o1) (by rw [o3]; exact hy)).2 h2⟩
  have hid : ∀ k x, (∃ r ∈ Multi.rows e k, r.src = x) ∨ (∃ r ∈ Multi.rows e k, r.dst = x) →
      ∃ i, g.id_dict.lookup x = some i := by
    intro k x hx
    have hmem : ∀ r ∈ Multi.rows e k, r ∈ e.map Prod.snd := by
      intro r hr
      obtain ⟨kr, hkr, rfl⟩ := List.mem_map.1 hr
      exact List.mem_map.2 ⟨kr, (List.mem_filter.1 hkr).1, rfl⟩
    have h2 := (mkMulti_ok (show mkMulti Sparse.cooT v e = .ok g from hg)).2.1
    rcases hx with ⟨r, hr, rfl⟩ | ⟨r, hr, rfl⟩
    · exact Option.isSome_iff_exists.1 ((hn.dom _).2 (h2 r (hmem r hr)).1)
    · exact Option.isSome_iff_exists.1 ((hn.dom _).2 (h2 r (hmem r hr)).2)
  unfold Fit.Fitter.numLinkable Multi.support
  symm
  have hmem : ∀ p, p ∈ (e.map Prod.fst).toFinset.biUnion (fun k =>
      ((((Multi.rows e k).map Row.src).toFinset ×ˢ ((Multi.rows e k).map Row.dst).toFinset).filter
      (fun p => p.1 ≠ p.2 ∨ s = true))) ↔ (p.1 ≠ p.2 ∨ s = true) ∧ ∃ k ∈ e.map Prod.fst,
        (∃ r ∈ Multi.rows e k, r.src = p.1) ∧ ∃ r ∈ Multi.rows e k, r.dst = p.2 := by
    intro p
    simp only [Finset.mem_biUnion, List.mem_toFinset, Finset.mem_filter, Finset.mem_product,
      List.mem_map (f := Row.src), List.mem_map (f := Row.dst)]
    constructor
    · rintro ⟨k, hk, ⟨h1, h2⟩, h3⟩
      exact ⟨h3, k, hk, h1, h2⟩
    · rintro ⟨h3, k, hk, h1, h2⟩
      exact ⟨k, hk, ⟨h1, h2⟩, h3⟩
  refine Finset.card_bij (fun p _ => ((g.id_dict.lookup p.1).getD 0, (g.id_dict.lookup p.2).getD 0))
    ?_ ?_ ?_
  · intro p hp
    obtain ⟨hadm, k, hk, h1, h2⟩ := (hmem p).1 hp
    obtain ⟨i, hi⟩ := hid k p.1 (Or.inl h1)
    obtain ⟨j, hj⟩ := hid k p.2 (Or.inr h2)
    rw [hi, hj, Finset.mem_filter, Law.mem_pairs]
    refine ⟨⟨hn.range _ _ hi, hn.range _ _ hj, hadm.imp ?_ id⟩,
      (hlink i j _ _ hi hj).2 ⟨k, hk, h1, h2⟩⟩
    intro hne heq
    simp only [Option.getD_some] at heq
    subst heq
    exact hne (hn.inj hi hj)
  · intro p hp p' hp' heq
    obtain ⟨-, k, -, h1, h2⟩ := (hmem p).1 hp
    obtain ⟨-, k', -, h1', h2'⟩ := (hmem p').1 hp'
    obtain ⟨i, hi⟩ := hid k p.1 (Or.inl h1)
    obtain ⟨j, hj⟩ := hid k p.2 (Or.inr h2)
    obtain ⟨i', hi'⟩ := hid k' p'.1 (Or.inl h1')
    obtain ⟨j', hj'⟩ := hid k' p'.2 (Or.inr h2')
    rw [hi, hj, hi', hj'] at heq
    simp only [Option.getD_some, Prod.mk.injEq] at heq
    obtain ⟨rfl, rfl⟩ := heq
    exact Prod.ext (hn.inj hi hi') (hn.inj hj hj')
  · rintro ⟨i, j⟩ hp
    rw [Finset.mem_filter, Law.mem_pairs] at hp
    obtain ⟨x, hx⟩ := hn.onto i hp.1.1
    obtain ⟨y, hy⟩ := hn.onto j hp.1.2.1
    refine ⟨(x, y), (hmem _).2 ⟨hp.1.2.2.imp ?_ id, (hlink i j x y hx hy).1 hp.2⟩,
      by simp only [hx, hy]; rfl⟩
    intro hne heq
    simp only at heq
    rw [heq] at hx
    exact hne (Option.some.inj (hx.symm.trans hy))

omit [LinearOrder γ] [LinearOrder κ] in
theorem Multi.expected_eq {R : Multi.Result ι γ κ} {s p : Bool}
    (hm : R.model = Multi.modelOf R.graph e s p) (d : ℝ≥0) :
    (R.withParam K (fun _ => fin d)).exp_edges R.n R.selfloops =
      ((Multi.fitter K (Multi.propOut R.graph) (Multi.propIn R.graph)).ens d).exp_edges
        R.graph.num_vertices s := by
  rw [Multi.fitter_ens, Fit.ofENN_coe]
  unfold Multi.Result.withParam Multi.Result.n Multi.Result.selfloops
  rw [hm]
  rfl

/-- **C79**, attainability with one parameter for all labels: some finite parameter reproduces the
number of pairs of the table iff that number is less than the number of admissible pairs of a
vertex with an outgoing and a vertex with an incoming row of a common label, and then exactly one
does. -/
theorem C79_attainable_shared {R : Multi.Result ι γ κ}
    (h : Multi.run K v e hist (Multi.options sl pl) .none .density o = .ok R) :
    let reproduces := fun d : ℝ≥0 => (R.withParam K (fun _ => fin d)).exp_edges R.n R.selfloops =
      fin ((e.map (fun r => (r.2.src, r.2.dst))).toFinset.card : ℝ)
    ((∃ d, reproduces d) ↔ (e.map (fun r => (r.2.src, r.2.dst))).toFinset.card <
      Multi.support (sl.getD false) e) ∧
    ((∃ d, reproduces d) → ∃! d, reproduces d) := by
  obtain ⟨he, hg, hm, hf⟩ := Multi.run_ok h
  have hF := Multi.isFitter K (x := Multi.propOut R.graph) (y := Multi.propIn R.graph)
      (fun _ => Multi.nnRow_sorted _ _) (fun _ => Multi.nnRow_sorted _ _)
  have hmap : (e.map Prod.snd).map (fun r => (r.src, r.dst)) =
      e.map (fun r => (r.2.src, r.2.dst)) := by rw [List.map_map]; rfl
  intro reproduces
  have hrep : ∀ d, reproduces d ↔ (Multi.fitter K (Multi.propOut R.graph)
      (Multi.propIn R.graph)).Reproduces R.graph.num_vertices (sl.getD false)
      (numPairs (e.map Prod.snd)) d := by
    intro d
    show _ = _ ↔ _ = _
    rw [Multi.expected_eq hm]
    unfold numPairs
    rw [hmap]
  have := attain_iff hF (m := numPairs (e.map Prod.snd)) (numPairs_pos (by simpa using he))
    (Multi.support_eq hg K (sl.getD false))
  simp only [← hrep] at this
  unfold numPairs at this
  rw [hmap] at this
  exact this

theorem Multi.solve_label {g : MultiObj ι γ κ ℝ} {s : Bool} {r : Fit.MultiFit}
    (h : Fit.fitMulti (Multi.fitModel K (Multi.modelOf g e s true)) .none .density o = .ok r)
    {l : ℕ} (hl : l < g.num_labels) :
    ∃ sol, Solver.solve (Fit.cfg (Fit.exp_edges_f_jac_layer K.jac
        (column g.num_vertices (fun i => Fit.rowN (Multi.propOut g i)) l)
        (column g.num_vertices (fun i => Fit.rowN (Multi.propIn g i)) l) s)
        (Multi.labelPairs g l) o) (fin ((0 : ℝ≥0) : ℝ)) = .ok sol ∧ r.outputs[l]? = some sol := by
  rw [Multi.fitModel_eq] at h
  obtain ⟨sol, h1, h2, -⟩ := Fit.fitMulti_label rfl rfl h (i := l) hl
  refine ⟨sol, ?_, h2⟩
  have h0 : ((Fit.X0.none).multi g.num_labels).vals.getD l 0 = fin (((0 : ℝ≥0)) : ℝ) := by
    simp [Fit.X0.multi, zero_def, hl]
  rw [← h0]
  exact h1

/-- **C79**, convergence for large iteration limits, one parameter per label: for all iteration limits
from some number on, the default fit converges in all labels that have fewer pairs than admissible
pairs of a vertex with an outgoing and a vertex with an incoming row of the label. -/
theorem C79_eventually (K : Kind) (hist : List (Q × Bool)) (hpl : pl.getD true = true)
    {atol rtol : ℝ} (hat : 0 < atol) (hrt : 0 ≤ rtol) (he : e ≠ []) (ht : Table v (e.map Prod.snd)) :
    ∃ N : ℕ, ∀ maxiter ≥ N, ∃ R,
      Multi.run K v e hist (Multi.options sl pl) .none .density ⟨atol, rtol, maxiter⟩ = .ok R ∧
      ∀ k ∈ e.map Prod.fst, ((Multi.rows e k).map (fun r => (r.src, r.dst))).toFinset.card <
        support (sl.getD false) (Multi.rows e k) →
      ∃ sol, R.fit.outputs[R.label k]? = some sol ∧ sol.converged = true := by
  obtain ⟨g, hg⟩ := (Multi.mkMultiOf_iff v e).2 ht
  set s := sl.getD false with hs
  have hlabel : ∀ l < g.num_labels, ∃ N : ℕ, ∀ maxiter ≥ N, ∀ r : Fit.MultiFit,
      Fit.fitMulti (Multi.fitModel K (Multi.modelOf g e s true)) .none .density
        ⟨atol, rtol, maxiter⟩ = .ok r →
      ∀ k, g.label_dict.lookup k = some l →
        numPairs (Multi.rows e k) < support s (Multi.rows e k) →
      ∃ sol, r.outputs[l]? = some sol ∧ sol.converged = true := by
    intro l hl
    obtain ⟨k, hk⟩ := Multi.label hg hl
    by_cases hlt : numPairs (Multi.rows e k) < support s (Multi.rows e k)
    case neg =>
      refine ⟨0, fun _ _ _ _ k' hk' hlt' => ?_⟩
      rw [(Multi.numbering hg).2.inj hk' hk] at hlt'
      exact absurd hlt' hlt
    have hk' : k ∈ e.map Prod.fst := ((Multi.numbering hg).2.dom k).1 (by simp [hk])
    obtain ⟨F, hF, hN, hE⟩ := Multi.label_facts hg K s hk
    obtain ⟨root, hroot⟩ := (attain_iff hF (numPairs_pos (Multi.rows_ne hk')) hN).1.2 hlt
    set F' := K.fitter (entry (column g.num_vertices (Multi.propOut g) l))
      (entry (column g.num_vertices (Multi.propIn g) l)) with hF'
    have hF'i : Fit.IsFitter F' := K.isFitter _ _
    have hroot' : F'.Reproduces g.num_vertices s (Multi.labelPairs g l) root := by
      unfold Fit.Fitter.Reproduces at hroot ⊢
      rw [hF', fitter_mean, ← hE, hroot, Multi.labelPairs_eq hg hk]
    have hob := layer_objective K (n := g.num_vertices) (x := Multi.propOut g) (y := Multi.propIn g)
      (fun _ => Multi.nnRow_sorted _ _) (fun _ => Multi.nnRow_sorted _ _) l s
    set tol : ℝ := atol + rtol * Multi.labelPairs g l with htol
    have htol0 : 0 < tol := by positivity
    have hsl := Fit.Fitter.rep hF'i g.num_vertices s 0 le_rfl
    obtain ⟨N, hN'⟩ := exists_nat_gt (Fit.Fitter.objDer F' hF'i g.num_vertices s 0 * root / tol)
    refine ⟨N, fun maxiter hmax r hr _ _ _ => ?_⟩
    obtain ⟨sol, h1, h2⟩ := Multi.solve_label hr hl
    obtain ⟨sol', slope, k1, k2, -, -, k3⟩ := Fit.C54 hF'i hob
      (o := ⟨atol, rtol, maxiter⟩) hat hrt (root := root) (x0 := 0) hroot' zero_le
    rw [k1] at h1
    obtain rfl := Except.ok.inj h1
    refine ⟨sol', h2, k3 ?_⟩
    rw [hsl] at k2
    rw [← fin_inj.1 k2]
    rw [div_lt_iff₀ htol0] at hN'
    refine hN'.trans_le (mul_le_mul_of_nonneg_right ?_ htol0.le)
    exact_mod_cast hmax
  choose! N hN using hlabel
  refine ⟨(Finset.range g.num_labels).sup N, fun maxiter hmax => ?_⟩
  obtain ⟨R, hR⟩ := (C79_run (o := ⟨atol, rtol, maxiter⟩) K v e hist sl pl hat hrt).1.2 ⟨he, ht⟩
  obtain ⟨-, hg', hm, hf⟩ := Multi.run_ok hR
  have hgg : R.graph = g := by rw [hg] at hg'; exact (Except.ok.inj hg').symm
  refine ⟨R, hR, fun k hk hlt => ?_⟩
  obtain ⟨l, hl⟩ := Option.isSome_iff_exists.1 (((Multi.numbering hg).2.dom k).2 hk)
  have hlab : R.label k = l := by unfold Multi.Result.label; rw [hgg, hl]; rfl
  rw [hlab]
  have hlt' := Multi.label_lt hg hl
  rw [hm, hgg, hpl] at hf
  exact hN l hlt' maxiter ((Finset.le_sup (f := N) (Finset.mem_range.2 hlt')).trans hmax) _ hf k hl
    hlt

/-- **C79**, convergence for large iteration limits, one parameter for all labels. -/
theorem C79_eventually_shared (K : Kind) (hist : List (Q × Bool)) {atol rtol : ℝ} (hat : 0 < atol)
    (hrt : 0 ≤ rtol) (he : e ≠ []) (ht : Table v (e.map Prod.snd))
    (hlt : (e.map (fun r => (r.2.src, r.2.dst))).toFinset.card < Multi.support (sl.getD false) e) :
    ∃ N : ℕ, ∀ maxiter ≥ N, ∃ R,
      Multi.run K v e hist (Multi.options sl (some false)) .none .density ⟨atol, rtol, maxiter⟩ =
        .ok R ∧
      ∃ sol, R.fit.outputs = [sol] ∧ sol.converged = true := by
  have hrun := fun maxiter => (C79_run (o := ⟨atol, rtol, maxiter⟩) K v e hist sl (some false) hat
    hrt).1.2 ⟨he, ht⟩
  obtain ⟨R0, h0⟩ := hrun 0
  obtain ⟨-, hg, hm0, -⟩ := Multi.run_ok h0
  have hF := Multi.isFitter K (x := Multi.propOut R0.graph) (y := Multi.propIn R0.graph)
      (fun _ => Multi.nnRow_sorted _ _) (fun _ => Multi.nnRow_sorted _ _)
  have hmap : (e.map Prod.snd).map (fun r => (r.src, r.dst)) =
      e.map (fun r => (r.2.src, r.2.dst)) := by rw [List.map_map]; rfl
  obtain ⟨root, hroot⟩ := (attain_iff hF (m := numPairs (e.map Prod.snd))
    (numPairs_pos (by simpa using he)) (Multi.support_eq hg K (sl.getD false))).1.2
    (by unfold numPairs; rw [hmap]; exact hlt)
  set tol : ℝ := atol + rtol * numPairs (e.map Prod.snd) with htol
  have htol0 : 0 < tol := by positivity
  have hsl := Fit.Fitter.rep hF R0.graph.num_vertices (sl.getD false) 0 le_rfl
  obtain ⟨N, hN⟩ := exists_nat_gt
    (Fit.Fitter.objDer _ hF R0.graph.num_vertices (sl.getD false) 0 * root / tol)
  refine ⟨N, fun maxiter hmax => ?_⟩
  obtain ⟨R, hR⟩ := hrun maxiter
  obtain ⟨-, hg', hm, hf⟩ := Multi.run_ok hR
  have hgg : R.graph = R0.graph := by rw [hg] at hg'; exact (Except.ok.inj hg').symm
  rw [hm, hgg, Multi.fitModel_eq] at hf
  obtain ⟨m', sol, h1, h2, -, -, h3⟩ := Fit.C35_shared rfl hf
  obtain rfl := Option.some.inj h1
  refine ⟨R, hR, sol, h3, ?_⟩
  obtain ⟨sol', slope, k1, k2, -, -, k3⟩ := Fit.C54 hF
    (Fit.agree_self _ R0.graph.num_vertices (sl.getD false))
    (o := ⟨atol, rtol, maxiter⟩) hat hrt (root := root) (x0 := 0) hroot zero_le
  have hstart : ((Fit.X0.none).multi R0.graph.num_labels).vals.getD 0 0 = fin (((0 : ℝ≥0)) : ℝ) := by
    rw [NNReal.coe_zero, ← zero_def]
    show (List.replicate R0.graph.num_labels (0 : XR)).getD 0 0 = 0
    cases R0.graph.num_labels <;> simp [List.replicate_succ]
  have h2' : Solver.solve (Fit.cfg ((Multi.fitter K (Multi.propOut R0.graph)
      (Multi.propIn R0.graph)).func R0.graph.num_vertices (sl.getD false))
      (numPairs (e.map Prod.snd) : ℝ) ⟨atol, rtol, maxiter⟩) (fin ((0 : ℝ≥0) : ℝ)) = .ok sol := by
    rw [← hstart]; exact h2
  rw [k1] at h2'
  obtain rfl := Except.ok.inj h2'
  apply k3
  rw [hsl] at k2
  rw [← fin_inj.1 k2]
  rw [div_lt_iff₀ htol0] at hN
  refine hN.trans_le (mul_le_mul_of_nonneg_right ?_ htol0.le)
  exact_mod_cast hmax

/-- **C79**, too many edges: a label with more pairs than admissible pairs of a vertex with an
outgoing and a vertex with an incoming row of the label, by more than the tolerance, never
converges. -/
theorem C79_unattainable (hpl : pl.getD true = true) (hat : 0 < o.atol) (hrt : 0 ≤ o.rtol)
    {R : Multi.Result ι γ κ}
    (h : Multi.run K v e hist (Multi.options sl pl) .none .density o = .ok R)
    {k : κ} (hk : k ∈ e.map Prod.fst)
    (hlt : (support (sl.getD false) (Multi.rows e k) : ℝ) +
      (o.atol + o.rtol * ((Multi.rows e k).map (fun r => (r.src, r.dst))).toFinset.card) <
      ((Multi.rows e k).map (fun r => (r.src, r.dst))).toFinset.card) :
    ∃ sol, R.fit.outputs[R.label k]? = some sol ∧ sol.converged = false := by
  obtain ⟨l, sol, u, hl, h1, h2, h3⟩ := C79_labels hpl hat hrt h hk
  have hlab : R.label k = l := by unfold Multi.Result.label; rw [hl]; rfl
  obtain ⟨he, hg, hm, hf⟩ := Multi.run_ok h
  obtain ⟨F, hF, hN, hE⟩ := Multi.label_facts hg K (sl.getD false) hl
  obtain ⟨D, hD⟩ := Multi.param_ok hat hrt h
  refine ⟨sol, by rw [hlab]; exact h1, ?_⟩
  unfold Multi.Result.expected_num_edges_label at h2
  rw [hD, Multi.labelEdges_eq hm D (Multi.label_lt hg hl)] at h2
  have hle := obj_le hF R.graph.num_vertices (sl.getD false) (D l) (u := u)
    ((hE (D l)).trans (Option.some.inj h2))
  rw [hN] at hle
  rw [Bool.eq_false_iff]
  intro hcon
  have := (abs_le.1 (h3.1 hcon)).1
  linarith

/-! ### Likelihood -/

theorem Multi.prod_pairs {g : MultiObj ι γ κ ℝ} (hg : mkMultiOf .sparse v e = .ok g) (s : Bool)
    (f : ℕ × ℕ → ℝ) (f' : ι × ι → ℝ)
    (hf : ∀ x y i j, g.id_dict.lookup x = some i → g.id_dict.lookup y = some j →
      f (i, j) = f' (x, y)) :
    ∏ p ∈ Law.pairs g.num_vertices s, f p = ∏ p ∈ Multi.pairs s v, f' p := by
  have hn := (Multi.numbering hg).1
  have hs : ∀ x ∈ v.map Prod.fst, ∃ i, g.id_dict.lookup x = some i := fun x hx =>
    Option.isSome_iff_exists.1 ((hn.dom x).2 hx)
  have hm : ∀ p ∈ Multi.pairs s v, (∃ i, g.id_dict.lookup p.1 = some i) ∧
      (∃ j, g.id_dict.lookup p.2 = some j) ∧ (p.1 ≠ p.2 ∨ s = true) := by
    intro p hp
    simp only [Multi.pairs, Finset.mem_filter, Finset.mem_product, List.mem_toFinset] at hp
    exact ⟨hs _ hp.1.1, hs _ hp.1.2, hp.2⟩
  symm
  refine Finset.prod_bij (fun p _ => ((g.id_dict.lookup p.1).getD 0, (g.id_dict.lookup p.2).getD 0))
    ?_ ?_ ?_ ?_
  · intro p hp
    obtain ⟨⟨i, hi⟩, ⟨j, hj⟩, h3⟩ := hm p hp
    rw [hi, hj, Law.mem_pairs]
    refine ⟨hn.range _ _ hi, hn.range _ _ hj, h3.imp ?_ id⟩
    intro hne heq
    simp only [Option.getD_some] at heq
    subst heq
    exact hne (hn.inj hi hj)
  · intro p hp p' hp' heq
    obtain ⟨⟨i, hi⟩, ⟨j, hj⟩, -⟩ := hm p hp
    obtain ⟨⟨i', hi'⟩, ⟨j', hj'⟩, -⟩ := hm p' hp'
    rw [hi, hj, hi', hj'] at heq
    simp only [Option.getD_some, Prod.mk.injEq] at heq
    obtain ⟨rfl, rfl⟩ := heq
    exact Prod.ext (hn.inj hi hi') (hn.inj hj hj')
  · rintro ⟨i, j⟩ hp
    rw [Law.mem_pairs] at hp
    obtain ⟨x, hx⟩ := hn.onto i hp.1
    obtain ⟨y, hy⟩ := hn.onto j hp.2.1
    refine ⟨(x, y), ?_, by simp only [hx, hy]; rfl⟩
    simp only [Multi.pairs, Finset.mem_filter, Finset.mem_product, List.mem_toFinset]
    refine ⟨⟨(hn.dom x).1 (by simp [hx]), (hn.dom y).1 (by simp [hy])⟩, hp.2.2.imp ?_ id⟩
    rintro hne rfl
    exact hne (Option.some.inj (hx.symm.trans hy))
  · intro p hp
    obtain ⟨⟨i, hi⟩, ⟨j, hj⟩, -⟩ := hm p hp
    rw [hi, hj]
    exact (hf _ _ _ _ hi hj).symm

theorem Multi.mem_links3 {g : MultiObj ι γ κ ℝ} (hg : mkMultiOf .sparse v e = .ok g) {k : κ}
    {x y : ι} {l i j : ℕ} (hk : g.label_dict.lookup k = some l) (hx : g.id_dict.lookup x = some i)
    (hy : g.id_dict.lookup y = some j) :
    (i, j) ∈ (Method.Arg.multigraph g.num_vertices (Multi.layers g)).links3 g.num_vertices l ↔
      (k, x, y) ∈ e.map (fun r => (r.1, r.2.src, r.2.dst)) := by
  have hi := (Multi.numbering hg).1.range _ _ hx
  have hj := (Multi.numbering hg).1.range _ _ hy
  have hl := Multi.label_lt hg hk
  rw [Method.Arg.mem_links3]
  simp only [Method.Arg.IsLink3, Multi.layers, List.getElem?_map, List.getElem?_range hl,
    Option.map_some, Option.some.injEq, exists_eq_left', Finset.mem_filter, Finset.mem_product,
    Finset.mem_range, hi, hj, true_and, and_self]
  rw [Multi.connected hg hk hx hy, List.mem_map]
  constructor
  · rintro ⟨r, hr, rfl, rfl⟩
    obtain ⟨kr, hkr, rfl⟩ := List.mem_map.1 hr
    obtain ⟨h1, h2⟩ := List.mem_filter.1 hkr
    have h2 : kr.1 = k := by simpa using h2
    exact ⟨kr, h1, by rw [h2]⟩
  · rintro ⟨r, hr, heq⟩
    simp only [Prod.mk.injEq] at heq
    obtain ⟨rfl, rfl, rfl⟩ := heq
    exact ⟨r.2, Multi.rows_mem hr, rfl, rfl⟩

/-- **C79**, likelihood: the log-likelihood of the graph the model was made from is the logarithm of
the probability that independent links, with the probabilities of `C79_probability` for each label,
give the rows of the table between admissible pairs. It is a number or `-inf`, and `-inf` exactly
when the fitted parameter of the label of a row between an admissible pair is zero. -/
theorem C79_likelihood (hat : 0 < o.atol) (hrt : 0 ≤ o.rtol) {R : Multi.Result ι γ κ}
    (h : Multi.run K v e hist (Multi.options sl pl) .none .density o = .ok R) :
    ∃ D : ℕ → ℝ≥0, (R.param = fun l => fin (D l)) ∧
      R.log_likelihood K = .ok (elog (∏ k ∈ (e.map Prod.fst).toFinset,
        ∏ p ∈ Multi.pairs (sl.getD false) v,
          if (k, p.1, p.2) ∈ e.map (fun r => (r.1, r.2.src, r.2.dst))
          then connect (Multi.single K) (D (R.label k)) (Multi.outSum e k p.1) (Multi.inSum e k p.2)
          else 1 - connect (Multi.single K) (D (R.label k)) (Multi.outSum e k p.1)
            (Multi.inSum e k p.2))) ∧
      (R.log_likelihood K = .ok ninf ↔ ∃ r ∈ e, (r.2.src ≠ r.2.dst ∨ sl.getD false = true) ∧
        R.param (R.label r.1) = 0) := by
  obtain ⟨he, hg, hm, hf⟩ := Multi.run_ok h
  obtain ⟨D, hD⟩ := Multi.param_ok hat hrt h
  have hlab : ∀ k l, R.graph.label_dict.lookup k = some l → R.label k = l := by
    intro k l hl
    unfold Multi.Result.label; rw [hl]; rfl
  have hobj : R.log_likelihood K = Method.Sparse.log_likelihood (Method.sparseObj K
      R.graph.num_vertices R.graph.num_labels (some (fun l => (D l : ℝ≥0∞)))
      (fun i => Fit.rowENN (Multi.propOut R.graph i)) (fun i => Fit.rowENN (Multi.propIn R.graph i))
      (fun _ _ => 1) (sl.getD false))
      (.multigraph R.graph.num_vertices (Multi.layers R.graph)) none := by
    unfold Multi.Result.log_likelihood Method.sparseObj
    simp only [Fit.rowX_rowENN, Option.map_some, Fit.ofENN_coe, hD]
    unfold Multi.Result.n Multi.Result.L Multi.Result.selfloops
    rw [hm]
    rfl
  have hlen : (Multi.layers R.graph).length = R.graph.num_labels := by simp [Multi.layers]
  have hnz : ∀ k l x y i j, R.graph.label_dict.lookup k = some l →
      R.graph.id_dict.lookup x = some i → R.graph.id_dict.lookup y = some j →
      (k, x, y) ∈ e.map (fun r => (r.1, r.2.src, r.2.dst)) →
      Multi.outS R.graph i l ≠ 0 ∧ Multi.inS R.graph j l ≠ 0 := by
    intro k l x y i j hk hx hy hkxy
    obtain ⟨ob, o1, -, o3, o4, o5, -⟩ := Multi.layer hg hk
    obtain ⟨r, hr, heq⟩ := List.mem_map.1 hkxy
    simp only [Prod.mk.injEq] at heq
    obtain ⟨rfl, rfl, rfl⟩ := heq
    rw [← o4, ← o5]
    exact ⟨(outS_ne (mkOf_built o1) (by rw [o3]; exact hx)).2 ⟨r.2, Multi.rows_mem hr, rfl⟩,
      (inS_ne (mkOf_built o1) (by rw [o3]; exact hy)).2 ⟨r.2, Multi.rows_mem hr, rfl⟩⟩
  have hent : ∀ (f : ℕ → ℕ → ℝ≥0) i l, l < R.graph.num_labels →
      entry (Fit.rowENN (Multi.nnRow R.graph.num_labels (f i))) l = (f i l : ℝ≥0∞) := by
    intro f i l hl
    rw [entry_rowENN, Multi.entry_nnRow, if_pos hl]
  have hval := Method.C73_sparse_partial K R.graph.num_vertices R.graph.num_labels
    (fun l => (D l : ℝ≥0∞))
    (fun i => Fit.rowENN (Multi.propOut R.graph i)) (fun i => Fit.rowENN (Multi.propIn R.graph i))
    (fun i => Multi.rowENN_sorted (Multi.nnRow_sorted _ _))
    (fun i => Multi.rowENN_sorted (Multi.nnRow_sorted _ _)) (fun _ _ => 1) (sl.getD false) none
    (.multigraph R.graph.num_vertices (Multi.layers R.graph))
    (by simp only [Method.Arg.layerShapes, hlen]) trivial (Or.inr (by
      intro l hl i hi hmem
      obtain ⟨k, hk⟩ := Multi.label hg hl
      obtain ⟨x, hx⟩ := (Multi.numbering hg).1.onto i hi
      have := hnz k l x x i i hk hx hx ((Multi.mem_links3 hg hk hx hx).1 hmem)
      unfold Multi.propOut Multi.propIn
      rw [hent _ _ _ hl, hent _ _ _ hl]
      exact ⟨by exact_mod_cast this.1, by exact_mod_cast this.2⟩))
  rw [← hobj] at hval
  simp only [Law.prob, Option.getD_none] at hval
  have hprod : R.log_likelihood K = .ok (elog (∏ k ∈ (e.map Prod.fst).toFinset,
        ∏ p ∈ Multi.pairs (sl.getD false) v,
          if (k, p.1, p.2) ∈ e.map (fun r => (r.1, r.2.src, r.2.dst))
          then connect (Multi.single K) (D (R.label k)) (Multi.outSum e k p.1) (Multi.inSum e k p.2)
          else 1 - connect (Multi.single K) (D (R.label k)) (Multi.outSum e k p.1)
            (Multi.inSum e k p.2))) := by
    rw [hval]
    congr 2
    refine Multi.prod_labels hg _ _ fun k l hk => ?_
    have hl := Multi.label_lt hg hk
    rw [hlab k l hk]
    refine Multi.prod_pairs hg _ _ _ fun x y i j hx hy => ?_
    unfold Multi.propOut Multi.propIn
    simp only [Multi.mem_links3 hg hk hx hy, hent _ _ _ hl, Multi.q_connect,
      Multi.outS_sum hg hk hx, Multi.inS_sum hg hk hy]
  refine ⟨D, hD, hprod, ?_⟩
  rw [hval]
  have hq0 : ∀ l (p : ℕ × ℕ), l < R.graph.num_labels →
      K.q ((D l : ℝ≥0∞) * entry (Fit.rowENN (Multi.propOut R.graph p.1)) l *
        entry (Fit.rowENN (Multi.propIn R.graph p.2)) l) =
      connect (Multi.single K) (D l) (Multi.outS R.graph p.1 l) (Multi.inS R.graph p.2 l) := by
    intro l p hl
    unfold Multi.propOut Multi.propIn
    rw [hent _ _ _ hl, hent _ _ _ hl, Multi.q_connect]
  have hzero : ∀ P : ℝ, 0 ≤ P → ((Except.ok (elog P) : Except Method.Err XR) = .ok ninf ↔ P = 0) := by
    intro P hP
    rcases hP.lt_or_eq with h1 | h1
    · rw [elog_pos h1]; simp [h1.ne']
    · rw [← h1, elog_zero]; simp
  rw [hzero _ (Finset.prod_nonneg fun l _ => Finset.prod_nonneg fun p _ => by
    have := K.q_mem ((D l : ℝ≥0∞) * entry (Fit.rowENN (Multi.propOut R.graph p.1)) l *
        entry (Fit.rowENN (Multi.propIn R.graph p.2)) l)
    split
    · exact this.1
    · exact sub_nonneg.2 this.2), Finset.prod_eq_zero_iff]
  have hpar : ∀ l, R.param l = 0 ↔ D l = 0 := by
    intro l
    rw [hD, zero_def, fin_inj]
    exact_mod_cast Iff.rfl
  constructor
  · rintro ⟨l, hl, hp⟩
    have hl := Finset.mem_range.1 hl
    obtain ⟨p, hpm, hp⟩ := Finset.prod_eq_zero_iff.1 hp
    rw [Law.mem_pairs] at hpm
    obtain ⟨k, hk⟩ := Multi.label hg hl
    obtain ⟨x, hx⟩ := (Multi.numbering hg).1.onto p.1 hpm.1
    obtain ⟨y, hy⟩ := (Multi.numbering hg).1.onto p.2 hpm.2.1
    rw [hq0 l p hl] at hp
    split at hp
    · rename_i hmem
      have hkxy := (Multi.mem_links3 hg hk hx hy).1 hmem
      have hne := hnz k l x y _ _ hk hx hy hkxy
      obtain ⟨r, hr, heq⟩ := List.mem_map.1 hkxy
      simp only [Prod.mk.injEq] at heq
      obtain ⟨rfl, rfl, rfl⟩ := heq
      refine ⟨r, hr, hpm.2.2.imp ?_ id, ?_⟩
      · intro hn heq
        rw [heq] at hx
        exact hn (Option.some.inj (hx.symm.trans hy))
      · rw [hlab _ _ hk, hpar]
        rcases (connect_zero _ _ _ _).1 hp with h0 | h0 | h0
        · exact_mod_cast h0
        · exact absurd h0 hne.1
        · exact absurd h0 hne.2
    · exact absurd hp (sub_pos.2 (connect_lt_one _ _ _ _)).ne'
  · rintro ⟨r, hr, hadm, h0⟩
    have hn := (Multi.numbering hg).1
    have h2 := (mkMulti_ok (show mkMulti Sparse.cooT v e = .ok R.graph from hg)).2.1 r.2
      (List.mem_map.2 ⟨r, hr, rfl⟩)
    obtain ⟨i, hi⟩ := Option.isSome_iff_exists.1 ((hn.dom _).2 h2.1)
    obtain ⟨j, hj⟩ := Option.isSome_iff_exists.1 ((hn.dom _).2 h2.2)
    obtain ⟨l, hl⟩ := Option.isSome_iff_exists.1 (((Multi.numbering hg).2.dom r.1).2
      (List.mem_map.2 ⟨r, hr, rfl⟩))
    have hll := Multi.label_lt hg hl
    refine ⟨l, Finset.mem_range.2 hll, Finset.prod_eq_zero (i := (i, j)) ?_ ?_⟩
    · refine Law.mem_pairs.2 ⟨hn.range _ _ hi, hn.range _ _ hj, hadm.imp ?_ id⟩
      rintro hne rfl
      exact hne (hn.inj hi hj)
    · rw [if_pos ((Multi.mem_links3 hg hl hi hj).2 (List.mem_map.2 ⟨r, hr, rfl⟩)), hq0 l _ hll]
      rw [hlab _ _ hl, hpar] at h0
      exact (connect_zero _ _ _ _).2 (Or.inl (by exact_mod_cast h0))

end

/-! ### Violations and examples -/

/-- Two rows with label 0 on three vertices, and a self-loop with label 1. -/
def Multi.exV : List (ℕ × ℕ) := [(0, 0), (1, 0), (2, 0)]
def Multi.exE : List (ℕ × Row ℕ ℝ) := [(0, ⟨0, 1, 1⟩), (0, ⟨1, 2, 2⟩), (1, ⟨0, 0, 1⟩)]

theorem Multi.exTable : Table Multi.exV (Multi.exE.map Prod.snd) := by
  refine ⟨by decide, ?_, ?_⟩ <;> simp [Multi.exV, Multi.exE]

theorem Multi.ex_rows : Multi.rows Multi.exE 0 = [⟨0, 1, 1⟩, ⟨1, 2, 2⟩] ∧
    Multi.rows Multi.exE 1 = [⟨0, 0, 1⟩] := by
  constructor <;> simp [Multi.rows, Multi.exE]

theorem Multi.ex_support :
    Flow.support false (Multi.rows Multi.exE 0) = 3 ∧ Flow.support false (Multi.rows Multi.exE 1) = 0 ∧
    Flow.support true (Multi.rows Multi.exE 1) = 1 := by
  rw [Multi.ex_rows.1, Multi.ex_rows.2]
  simp only [Flow.support, List.map_cons, List.map_nil]
  decide

theorem Multi.ex_pairs :
    ((Multi.rows Multi.exE 0).map (fun r => (r.src, r.dst))).toFinset.card = 2 ∧
    ((Multi.rows Multi.exE 1).map (fun r => (r.src, r.dst))).toFinset.card = 1 := by
  rw [Multi.ex_rows.1, Multi.ex_rows.2]
  simp only [List.map_cons, List.map_nil]
  decide

/-- The numbers of edges by label are not always reproduced. With the default options, label 1 of
the table never converges while label 0 does for all iteration limits from some number on; with
self-loops allowed, no parameter reproduces the number of edges of label 1. -/
theorem C79_violated (K : Kind) (hist : List (Q × Bool)) {atol rtol : ℝ} (hat : 0 < atol)
    (hrt : 0 ≤ rtol) (htol : atol + rtol < 1) :
    (∃ N : ℕ, ∀ maxiter ≥ N, ∃ (R : Multi.Result ℕ ℕ ℕ) (s0 s1 : Solver.Solution),
      Multi.run K Multi.exV Multi.exE hist [] .none .density ⟨atol, rtol, maxiter⟩ = .ok R ∧
      R.fit.outputs[R.label 0]? = some s0 ∧ s0.converged = true ∧
      R.fit.outputs[R.label 1]? = some s1 ∧ s1.converged = false) ∧
    ∀ maxiter, ∃ R : Multi.Result ℕ ℕ ℕ,
      Multi.run K Multi.exV Multi.exE hist [(.selfloops, .bool true)] .none .density
        ⟨atol, rtol, maxiter⟩ = .ok R ∧
      ∀ d : ℝ≥0, (R.labelEdges K (fun _ => fin d))[R.label 1]? ≠ some (fin 1) := by
  have hk0 : (0 : ℕ) ∈ Multi.exE.map Prod.fst := by simp [Multi.exE]
  have hk1 : (1 : ℕ) ∈ Multi.exE.map Prod.fst := by simp [Multi.exE]
  have hne : Multi.exE ≠ [] := by simp [Multi.exE]
  constructor
  · obtain ⟨N, hN⟩ := C79_eventually (sl := none) (pl := none) K hist rfl hat hrt hne Multi.exTable
    refine ⟨N, fun maxiter hmax => ?_⟩
    obtain ⟨R, hR, hc⟩ := hN maxiter hmax
    obtain ⟨s0, h1, h2⟩ := hc 0 hk0 (by
      rw [Multi.ex_pairs.1]; exact Multi.ex_support.1 ▸ (by norm_num))
    obtain ⟨s1, h3, h4⟩ := C79_unattainable rfl hat hrt hR hk1 (by
      rw [Multi.ex_pairs.2, show (none : Option Bool).getD false = false from rfl,
        Multi.ex_support.2.1]
      simpa using htol)
    exact ⟨R, s0, s1, hR, h1, h2, h3, h4⟩
  · intro maxiter
    obtain ⟨R, hR⟩ := (C79_run (o := ⟨atol, rtol, maxiter⟩) K Multi.exV Multi.exE hist (some true)
      none hat hrt).1.2 ⟨hne, Multi.exTable⟩
    refine ⟨R, hR, fun d hd => ?_⟩
    have h1 := (C79_attainable hR hk1).1.1 ⟨d, by beta_reduce; rw [hd, Multi.ex_pairs.2]; norm_num⟩
    rw [Multi.ex_pairs.2, show (some true : Option Bool).getD false = true from rfl,
      Multi.ex_support.2.2] at h1
    exact absurd h1 (lt_irrefl _)

/-- The hypotheses of the statements about runs are met by the table above, for both classes, with
one parameter per label or one in all. -/
example (K : Kind) (p : Bool) : ∃ R : Multi.Result ℕ ℕ ℕ, Multi.run K Multi.exV Multi.exE []
    (Multi.options (some true) (some p)) .none .density ⟨1/100, 0, 10⟩ = .ok R :=
  (C79_run (o := ⟨1/100, 0, 10⟩) K _ _ _ _ _ (by norm_num) (by norm_num)).1.2
    ⟨by simp [Multi.exE], Multi.exTable⟩

/-- With self-loops allowed, the number of pairs of the table is less than the number of admissible
pairs, so that one parameter for all labels can be fitted. -/
example (K : Kind) : ∃ N : ℕ, ∀ maxiter ≥ N, ∃ R : Multi.Result ℕ ℕ ℕ,
    Multi.run K Multi.exV Multi.exE [] (Multi.options (some true) (some false)) .none .density
      ⟨1/100, 0, maxiter⟩ = .ok R ∧
    ∃ sol, R.fit.outputs = [sol] ∧ sol.converged = true := by
  refine C79_eventually_shared K [] (by norm_num) (by norm_num) (by simp [Multi.exE]) Multi.exTable ?_
  have h1 : Multi.support true Multi.exE = 5 := by
    have hk : (Multi.exE.map Prod.fst).toFinset = {0, 1} := by decide
    unfold Multi.support
    rw [hk, Finset.biUnion_insert, Finset.singleton_biUnion, Multi.ex_rows.1, Multi.ex_rows.2]
    simp only [List.map_cons, List.map_nil]
    decide
  rw [show (some true : Option Bool).getD false = true from rfl, h1]
  exact (List.toFinset_card_le _).trans_lt (by simp [Multi.exE])

end

end Verif.Flow
