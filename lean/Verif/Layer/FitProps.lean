import Verif.Layer.Props
import Verif.Solver.FitInput
import Verif.Ensemble.ModelProps

/-!
# C69: fit with one parameter per label, end to end

The per-label fit of the sparse multi-layer models is connected to the label-resolved queries: the
columns handed to the solver are those of the property matrices, and the parameters found reproduce
the number of edges of every label.
-/

namespace Verif

open XR Spec
open scoped ENNReal NNReal

noncomputable section

namespace Layer

/-- `p_jac_ijk` of the model. -/
def Kind.jac : Kind → XR → XR → XR → XR × XR
  | .fit => MultiFitnessModel.p_jac_ijk
  | .inv => MultiInvariantModel.p_jac_ijk

/-- What `fit` of a sparse multi-layer model uses, with `num_edges_label` given
(`/repo/src/graph_ensembles/sparse/models/fitness.py:636-655`): `density_fit_layer` is called with
the columns of the property matrices. -/
def labelModel (K : Kind) (n L : ℕ) (x y : ℕ → List (ℕ × ℝ≥0)) (selfloops : Bool)
    (num_edges_label : ℕ → ℝ) (func : XR → XR × XR) (num_edges : Option ℝ) : Fit.MultiModel where
  num_labels := L
  per_label := true
  num_edges := num_edges
  num_edges_label := some num_edges_label
  func := func
  layer k := Fit.exp_edges_f_jac_layer K.jac (column n (fun i => Fit.rowN (x i)) k)
    (column n (fun i => Fit.rowN (y i)) k) selfloops

/-- The single-layer model of one label. -/
def Kind.fitter (K : Kind) (x y : ℕ → ℝ≥0) : Fit.Fitter :=
  match K with
  | .fit => Fit.denseFit x y (fun _ _ => 0)
  | .inv => Fit.denseInv x y (fun _ _ => 0)

theorem Kind.isFitter (K : Kind) (x y : ℕ → ℝ≥0) : Fit.IsFitter (K.fitter x y) := by
  cases K
  · exact .denseFit _ _ _
  · exact .denseInv _ _ _

theorem column_rowN (n : ℕ) (x : ℕ → List (ℕ × ℝ≥0)) (k : ℕ) :
    column n (fun i => Fit.rowN (x i)) k = Fit.rowN (column n x k) := by
  unfold column Fit.rowN
  rw [List.map_flatMap]
  congr 1
  funext i
  rw [List.filter_map, List.map_map, List.map_map]
  rfl

theorem Kind.exp_edges (K : Kind) (x y : ℕ → ℝ≥0) (d : ℝ≥0∞) (n : ℕ) (s : Bool) :
    ((K.fitter x y).ens d).exp_edges n s
      = fin (∑ e ∈ Law.pairs n s, K.q (d * x e.1 * y e.2)) := by
  cases K
  · exact (C09_formula (.denseFit d (Fit.toENN x) (Fit.toENN y) _) n s).trans
      (by rw [Law.mean_card]; rfl)
  · exact (C09_formula (.denseInv d (Fit.toENN x) (Fit.toENN y) _) n s).trans
      (by rw [Law.mean_card]; rfl)

/-- The objective of label `k` is that of the single-layer model of the label. -/
theorem layer_objective (K : Kind) {n : ℕ} {x y : ℕ → List (ℕ × ℝ≥0)}
    (hx : ∀ i, RowSorted (x i)) (hy : ∀ i, RowSorted (y i)) (k : ℕ) (s : Bool) :
    (K.fitter (entry (column n x k)) (entry (column n y k))).Objective n s
      (Fit.exp_edges_f_jac_layer K.jac (column n (fun i => Fit.rowN (x i)) k)
        (column n (fun i => Fit.rowN (y i)) k) s) := by
  rw [column_rowN, column_rowN]
  cases K
  · exact Fit.agree_layer_fit (column_sorted hx k) (column_sorted hy k) column_lt column_lt _ s
  · exact Fit.agree_layer_inv (column_sorted hx k) (column_sorted hy k) column_lt column_lt _ s

/-- Expected number of links of label `k` at parameter `d`. -/
def labelMean (K : Kind) (n : ℕ) (x y : ℕ → List (ℕ × ℝ≥0)) (s : Bool) (k : ℕ) (d : ℝ≥0) : ℝ :=
  Law.mean (Law.pairs n s) (fun e => K.q (d * entry (x e.1) k * entry (y e.2) k))
    (fun G => (G.card : ℝ))

theorem fitter_mean (K : Kind) (n : ℕ) (x y : ℕ → List (ℕ × ℝ≥0)) (s : Bool) (k : ℕ) (d : ℝ≥0) :
    ((K.fitter (entry (column n x k)) (entry (column n y k))).ens d).exp_edges n s
      = fin (labelMean K n x y s k d) := by
  rw [Kind.exp_edges, labelMean, Law.mean_card]
  congr 1
  refine Finset.sum_congr rfl (fun e he => ?_)
  rw [Law.mem_pairs] at he
  rw [entry_column he.1, entry_column he.2.1]

theorem entry_rowENN (r : List (ℕ × ℝ≥0)) (k : ℕ) :
    entry (Fit.rowENN r) k = ((entry r k : ℝ≥0) : ℝ≥0∞) := by
  unfold Fit.rowENN
  induction r with
  | nil => exact (ENNReal.coe_zero).symm
  | cons a t ih =>
    rw [List.map_cons, Fit.entry_cons, Fit.entry_cons, ih]
    split_ifs <;> rfl

/-- `expected_num_edges_label` at finite parameters. -/
theorem edges_label_eq (K : Kind) (n L : ℕ) (d : ℕ → ℝ≥0) {x y : ℕ → List (ℕ × ℝ≥0)}
    (hx : ∀ i, RowSorted (x i)) (hy : ∀ i, RowSorted (y i)) (dyad : ℕ → ℕ → XR) (s : Bool) :
    exp_edges_label K.link.p_ijk n L (fun k => fin (d k)) (fun i => Fit.rowN (x i))
        (fun i => Fit.rowN (y i)) dyad s
      = (List.range L).map (fun k => fin (labelMean K n x y s k (d k))) := by
  have hs : ∀ {x : ℕ → List (ℕ × ℝ≥0)}, (∀ i, RowSorted (x i)) →
      ∀ i, RowSorted (Fit.rowENN (x i)) := by
    intro x hx i
    have h := hx i
    unfold RowSorted at h ⊢
    unfold Fit.rowENN
    rw [List.pairwise_map]
    exact h
  have h := C49_edges K n L (fun k => (d k : ℝ≥0∞)) (fun i => Fit.rowENN (x i))
    (fun i => Fit.rowENN (y i)) (hs hx) (hs hy) dyad s
  simp only [Fit.rowX_rowENN, Fit.ofENN_coe] at h
  rw [h]
  refine List.map_congr_left (fun k _ => ?_)
  congr 1
  unfold labelMean layerProb
  simp only [entry_rowENN]

/-- **C35**, objective: what the solver evaluates for label `k` at parameter `d` is the expected
number of links of that label and its derivative in `d`. -/
theorem C35_layer_objective (K : Kind) {n : ℕ} {x y : ℕ → List (ℕ × ℝ≥0)}
    (hx : ∀ i, RowSorted (x i)) (hy : ∀ i, RowSorted (y i)) (k L : ℕ) (s : Bool) (e : ℕ → ℝ)
    (func : XR → XR × XR) (num_edges : Option ℝ) (d : ℝ≥0) :
    ∃ v v' : ℝ, (labelModel K n L x y s e func num_edges).layer k (fin d) = (fin v, fin v') ∧
      v = labelMean K n x y s k d ∧
      HasDerivWithinAt (fun t : ℝ => labelMean K n x y s k t.toNNReal) v' (Set.Ici 0) d := by
  set F := K.fitter (entry (column n x k)) (entry (column n y k)) with hFdef
  have hF : Fit.IsFitter F := K.isFitter _ _
  have hval : ∀ t : ℝ≥0, F.obj hF n s t = labelMean K n x y s k t := by
    intro t
    have h1 := fitter_mean K n x y s k t
    rw [← hFdef, Fit.Fitter.exp_edges hF] at h1
    simpa using h1
  have hrep := (layer_objective K hx hy k s).rep (hF := hF) (d : ℝ) d.2
  refine ⟨_, _, hrep, hval d, ?_⟩
  have hd : HasDerivAt (F.obj hF n s) (F.objDer hF n s d) d :=
    HasDerivAt.fun_sum (u := Law.pairs n s) (A := F.val hF) (A' := fun e => F.der hF e d)
      (x := (d : ℝ)) (fun e _ => (F.pairLink hF e).link.deriv d d.2)
  refine hd.hasDerivWithinAt.congr (fun t ht => ?_) ?_
  · have := hval t.toNNReal
    rw [Real.coe_toNNReal t ht] at this
    exact this.symm
  · simp only [Real.toNNReal_coe]
    exact (hval d).symm

/-- **C69**, partial: a per-label fit of a sparse multi-layer model started from non-integer finite
values that reports convergence for label `k` makes `expected_num_edges_label` of the fitted model
agree with `num_edges_label` at `k` within the tolerances; and it reports convergence only then.

Missing: starting values stored with an integer type, for which it is false
(`C34_integer_start_violated`). -/
theorem C69_reproduces_partial (K : Kind) {n L : ℕ} {x y : ℕ → List (ℕ × ℝ≥0)}
    (hx : ∀ i, RowSorted (x i)) (hy : ∀ i, RowSorted (y i)) (dyad : ℕ → ℕ → XR) (s : Bool)
    {e : ℕ → ℝ} (he : ∀ k < L, 0 ≤ e k) {func : XR → XR × XR} {num_edges : Option ℝ}
    {o : Fit.Opts} (hat : 0 < o.atol) (hrt : 0 ≤ o.rtol) {x0 : Fit.X0}
    (hx0 : ∀ v ∈ (x0.multi L).vals, ∃ r, v = fin r) (hty : (x0.multi L).isInt = false)
    {r : Fit.MultiFit}
    (h : Fit.fitMulti (labelModel K n L x y s e func num_edges) x0 .density o = .ok r) :
    (∀ k < L, ∃ d : ℝ≥0, r.param[k]? = some (fin d)) ∧
    ∀ k < L, ∃ (sol : Solver.Solution) (v : ℝ), r.outputs[k]? = some sol ∧
      (exp_edges_label K.link.p_ijk n L (fun k => r.param.getD k 0) (fun i => Fit.rowN (x i))
        (fun i => Fit.rowN (y i)) dyad s)[k]? = some (fin v) ∧
      (sol.converged = true ↔ |v - e k| ≤ o.atol + o.rtol * e k) := by
  have key := fun k (hk : k < L) => Fit.C34_converged_label_partial hat hrt
    (M := labelModel K n L x y s e func num_edges) rfl rfl hx0 hty h (i := k) hk (he k hk)
    (K.isFitter _ _) (layer_objective K hx hy k s)
  have hpar : ∀ k < L, ∃ d : ℝ≥0, r.param[k]? = some (fin d) := fun k hk => by
    obtain ⟨sol, d, -, h2, -⟩ := key k hk
    exact ⟨d, h2⟩
  refine ⟨hpar, fun k hk => ?_⟩
  choose! D hD using hpar
  obtain ⟨sol, d, h1, h2, v, h3, h4⟩ := key k hk
  have hdk : D k = d := by
    have := hD k hk
    rw [h2] at this
    simpa using this.symm
  rw [fitter_mean, fin_inj] at h3
  refine ⟨sol, v, h1, ?_, h4⟩
  have e1 : exp_edges_label K.link.p_ijk n L (fun k => r.param.getD k 0)
      (fun i => Fit.rowN (x i)) (fun i => Fit.rowN (y i)) dyad s
      = exp_edges_label K.link.p_ijk n L (fun k => fin (D k)) (fun i => Fit.rowN (x i))
      (fun i => Fit.rowN (y i)) dyad s := by
    unfold exp_edges_label
    refine List.map_congr_left (fun j hj => ?_)
    rw [List.mem_range] at hj
    have : r.param.getD j 0 = fin (D j) := by rw [List.getD_eq_getElem?_getD, hD j hj]; rfl
    simp only [this]
  rw [e1, edges_label_eq K n L D hx hy, List.getElem?_map, List.getElem?_range hk, Option.map_some,
    hdk, h3]

/-- **C69**, the fit exists: with non-negative numbers of edges the fit from the default start
raises no error, so the parameters of `C69_reproduces_partial` exist. -/
theorem C69_total (K : Kind) {n L : ℕ} {x y : ℕ → List (ℕ × ℝ≥0)}
    (hx : ∀ i, RowSorted (x i)) (hy : ∀ i, RowSorted (y i)) (s : Bool)
    {e : ℕ → ℝ} (he : ∀ k < L, 0 ≤ e k) (func : XR → XR × XR) (num_edges : Option ℝ)
    {o : Fit.Opts} (hat : 0 < o.atol) (hrt : 0 ≤ o.rtol) :
    ∃ r, Fit.fitMulti (labelModel K n L x y s e func num_edges) .none .density o = .ok r :=
  Fit.C54_label hat hrt rfl rfl he
    (fun k _ => ⟨_, n, s, K.isFitter _ _, layer_objective K hx hy k s⟩)

/-- **C69**, the target is attained: a positive number of edges of a label below the number of
pairs of vertices with properties in that label is the expected number for exactly one positive
parameter. -/
theorem C69_unique (K : Kind) {n : ℕ} (x y : ℕ → List (ℕ × ℝ≥0)) (s : Bool) (k : ℕ) {m : ℝ}
    (h0 : 0 < m)
    (hm : m < (((Law.pairs n s).filter
      (fun e => entry (x e.1) k ≠ 0 ∧ entry (y e.2) k ≠ 0)).card : ℝ)) :
    ∃! d : ℝ≥0, 0 < d ∧ labelMean K n x y s k d = m := by
  have hF := K.isFitter (entry (column n x k)) (entry (column n y k))
  have hlin : ((K.fitter (entry (column n x k)) (entry (column n y k))).numLinkable n s : ℝ)
      = (((Law.pairs n s).filter
        (fun e => entry (x e.1) k ≠ 0 ∧ entry (y e.2) k ≠ 0)).card : ℝ) := by
    unfold Fit.Fitter.numLinkable
    congr 2
    ext e
    simp only [Finset.mem_filter]
    refine and_congr_right (fun he => ?_)
    rw [Law.mem_pairs] at he
    cases K <;> simp only [Kind.fitter, Fit.denseFit, Fit.denseInv, entry_column he.1,
      entry_column he.2.1]
  have h := Fit.C34_unique hF h0 (by rw [hlin]; exact hm)
  refine (existsUnique_congr (fun d => ?_)).1 h
  refine and_congr_right (fun _ => ?_)
  unfold Fit.Fitter.Reproduces
  rw [fitter_mean, fin_inj]

/-- **C69** is false for `fit(x0=0)`, an integer start: on two vertices with unit properties in one
label and one edge, tolerance half an edge, the fit reports convergence but the fitted model has no
expected edges. -/
theorem C69_violated : ∃ (o : Fit.Opts) (r : Fit.MultiFit) (sol : Solver.Solution),
    Fit.fitMulti (labelModel .fit 2 1 (fun _ => [(0, 1)]) (fun _ => [(0, 1)]) false (fun _ => 1)
      (fun _ => (0, 0)) none) (.scalar (fin 0) true) .density o = .ok r ∧
    r.outputs = [sol] ∧ sol.converged = true ∧
    exp_edges_label Kind.fit.link.p_ijk 2 1 (fun k => r.param.getD k 0)
      (fun _ => Fit.rowN [(0, 1)]) (fun _ => Fit.rowN [(0, 1)]) (fun _ _ => 0) false = [fin 0] ∧
    ¬ |(0 : ℝ) - 1| ≤ o.atol + o.rtol * 1 := by
  obtain ⟨⟨nl, pl, ne, nel, func, layer⟩, o, r, sol, h1, h2, h3, h4, h5, h6, h7, h8, -, h9⟩ :=
    Fit.C34_integer_start_violated
  simp only at h1 h2 h3 h4
  subst h1 h2 h3
  refine ⟨o, r, sol, ?_, h6, h7, ?_, h9⟩
  · rw [← h5]
    unfold Fit.fitMulti Fit.fitLabels labelModel
    simp only [if_true]
    have : ∀ x : Fit.Arr, ∀ s : Fit.MultiFit,
        Fit.fitLabel (labelModel .fit 2 1 (fun _ => [(0, 1)]) (fun _ => [(0, 1)]) false
          (fun _ => 1) (fun _ => (0, 0)) none) (fun _ => 1) x o s 0
        = Fit.fitLabel ⟨1, true, ne, some (fun _ => 1), func, layer⟩ (fun _ => 1) x o s 0 := by
      intro x s
      unfold Fit.fitLabel
      simp only
      rw [h4]
      rfl
    unfold labelModel at this
    simp only [List.range_one, List.foldlM_cons, List.foldlM_nil, this]
  · have hs : ∀ i : ℕ, RowSorted ((fun _ => [(0, (1 : ℝ≥0))]) i) := fun i => by simp [RowSorted]
    have e1 : (fun k => r.param.getD k 0) = fun k : ℕ => fin ((0 : ℝ≥0) : ℝ) := by
      funext k
      rw [h8]
      cases k <;> simp [zero_def]
    rw [e1]
    rw [edges_label_eq .fit 2 1 (fun _ => 0) hs hs]
    simp [labelMean, Law.mean_card, Kind.q, fitProb_zero]

/-- Two vertices with unit properties in one label, one edge: the per-label fit succeeds, and the
target is attained. -/
example : (∃ r, Fit.fitMulti (labelModel .fit 2 1 (fun _ => [(0, 1)]) (fun _ => [(0, 1)]) false
      (fun _ => 1) (fun _ => (0, 0)) none) .none .density ⟨1, 0, 3⟩ = .ok r) ∧
    ∃! d : ℝ≥0, 0 < d ∧ labelMean .fit 2 (fun _ => [(0, 1)]) (fun _ => [(0, 1)]) false 0 d = 1 := by
  have hs : ∀ i : ℕ, RowSorted ((fun _ => [(0, (1 : ℝ≥0))]) i) := fun i => by simp [RowSorted]
  refine ⟨C69_total .fit hs hs false (fun _ _ => zero_le_one) _ _ one_pos le_rfl,
    C69_unique .fit _ _ false 0 one_pos ?_⟩
  have : (Law.pairs 2 false).filter (fun e : ℕ × ℕ => entry [(0, (1 : ℝ≥0))] 0 ≠ 0 ∧
      entry [(0, (1 : ℝ≥0))] 0 ≠ 0) = Law.pairs 2 false := by
    rw [Finset.filter_eq_self]
    intro e _
    simp [Fit.entry_cons]
  rw [this]
  have : (Law.pairs 2 false).card = 2 := by decide
  rw [this]
  norm_num

end Layer

end

end Verif
