{
 "claims": [
  {
   "property": "C01",
   "status": "proved",
   "theorems": [
    "Verif.C01_single",
    "Verif.C01_multi"
   ],
   "note": ""
  },
  {
   "property": "C02",
   "status": "proved",
   "theorems": [
    "Verif.C02_sparse",
    "Verif.C02_dense"
   ],
   "note": ""
  },
  {
   "property": "C03",
   "status": "proved",
   "theorems": [
    "Verif.C03_single",
    "Verif.C03_single_strict",
    "Verif.C03_multi_dense",
    "Verif.C03_multi_sparse"
   ],
   "note": ""
  },
  {
   "property": "C04",
   "status": "proved",
   "theorems": [
    "Verif.C04_single",
    "Verif.C04_multi_dense",
    "Verif.C04_multi_sparse"
   ],
   "note": ""
  },
  {
   "property": "C05",
   "status": "partial",
   "theorems": [
    "Verif.C05_sparse_single",
    "Verif.C05_dense_single",
    "Verif.C05_single_value",
    "Verif.C05_multi_dense",
    "Verif.C05_multi_sparse",
    "Verif.C05_multiFit_value",
    "Verif.C05_multiInv_value_iff",
    "Verif.C05_multiInv_value_violated",
    "Verif.C05_multiInv_value_partial"
   ],
   "note": "The derivative part holds for every model. The equality of the value part with p_ij fails for the sparse/dense MultiInvariantModel at parameter inf (labels disjoint) and at parameter 0 (infinite product of properties): C05_multiInv_value_violated; C05_multiInv_value_partial covers finite positive parameter/finite products; C05_multiInv_value_iff characterises exactly when it holds."
  },
  {
   "property": "C06",
   "status": "proved",
   "theorems": [
    "Verif.C06_dense",
    "Verif.C06_sparse"
   ],
   "note": ""
  },
  {
   "property": "C07",
   "status": "proved",
   "theorems": [
    "Verif.C07_single",
    "Verif.C07_single_log1mp",
    "Verif.C07_multi",
    "Verif.C07_stored_zeros"
   ],
   "note": ""
  },
  {
   "property": "C08",
   "status": "proved",
   "theorems": [
    "Verif.C08_single",
    "Verif.C08_multi"
   ],
   "note": ""
  },
  {
   "property": "C09",
   "status": "proved",
   "theorems": [
    "Verif.C09_formula",
    "Verif.C09_expected_num_edges",
    "Verif.C09_models"
   ],
   "note": ""
  },
  {
   "property": "C10",
   "status": "proved",
   "theorems": [
    "Verif.C10_formula",
    "Verif.C10_expected_degrees",
    "Verif.C10_models"
   ],
   "note": ""
  },
  {
   "property": "C11",
   "status": "proved",
   "theorems": [
    "Verif.C11_models",
    "Verif.C11_handshake"
   ],
   "note": ""
  },
  {
   "property": "C12",
   "status": "proved",
   "theorems": [
    "Verif.C12_formula",
    "Verif.C12_log_likelihood",
    "Verif.C12_normalised",
    "Verif.C12_sparse"
   ],
   "note": ""
  },
  {
   "property": "C13",
   "status": "proved",
   "theorems": [
    "Verif.C13_models",
    "Verif.C13_impossible"
   ],
   "note": ""
  },
  {
   "property": "C14",
   "status": "proved",
   "theorems": [
    "Verif.C14_formula",
    "Verif.C14_sample_law"
   ],
   "note": ""
  },
  {
   "property": "C15",
   "status": "proved",
   "theorems": [
    "Verif.C15_formula",
    "Verif.C15_valid_samples"
   ],
   "note": ""
  },
  {
   "property": "C16",
   "status": "proved",
   "theorems": [
    "Verif.C16_formula",
    "Verif.C16_mean_formula",
    "Verif.C16_refused",
    "Verif.C16_links_and_weights",
    "Verif.C16_mean_strengths"
   ],
   "note": ""
  },
  {
   "property": "C17",
   "status": "proved",
   "theorems": [
    "Verif.C17_formula",
    "Verif.Query.C17_weighted_mean",
    "Verif.Query.C17_bounds",
    "Verif.Query.C17_dyad_violated"
   ],
   "note": "For the library's constant dyadic property. C17_dyad_violated shows that with a user-defined non-constant prop_dyad the self-loop pass reads a stale index and the claim fails."
  },
  {
   "property": "C18",
   "status": "partial",
   "theorems": [
    "Verif.Query.C18_call_partial",
    "Verif.Query.C18_history_partial",
    "Verif.Query.C18_violated"
   ],
   "note": "Holds for every call that returns, and for every call that does not override the setting; fails when a call with an override raises (C18_violated)."
  },
  {
   "property": "C19",
   "status": "partial",
   "theorems": [
    "Verif.Query.C19_history_partial",
    "Verif.Query.C19_recompute_partial",
    "Verif.Query.C19_refit_violated",
    "Verif.Query.C19_mixed_violated",
    "Verif.Query.C19_assertion_violated",
    "Verif.Query.C19_selfloops_violated",
    "Verif.Query.C19_cached",
    "Verif.Query.C19_errors",
    "Verif.Query.C19_key_violated"
   ],
   "note": "Holds for recomputing queries in every state and for all histories without refit with one self-loop setting for expected_av_nn_degree; fails after a refit (C19_refit_violated, C19_mixed_violated, C19_assertion_violated) and across self-loop settings (C19_selfloops_violated); a cached value is also returned for the undocumented direction out_in (C19_cached, C19_key_violated); exceptions in C19_errors."
  },
  {
   "property": "C20",
   "status": "proved",
   "theorems": [
    "Verif.Graph.C20",
    "Verif.Graph.C20_base_errors",
    "Verif.Graph.C20_errors",
    "Verif.Graph.C20_labels",
    "Verif.Graph.C20_labels_errors"
   ],
   "note": ""
  },
  {
   "property": "C21",
   "status": "partial",
   "theorems": [
    "Verif.Graph.C21_layer_sparse",
    "Verif.Graph.C21_layer_dense",
    "Verif.Graph.C21_connected",
    "Verif.Graph.C21_sparse",
    "Verif.Graph.C21_dense_partial",
    "Verif.Graph.C21_dense_violated"
   ],
   "note": "Sparse backend proved; the connected pairs are right in both backends. Dense backend proved for edge lists without repeated pairs, false with repeated pairs, where the last weight overwrites (C21_dense_violated)."
  },
  {
   "property": "C22",
   "status": "partial",
   "theorems": [
    "Verif.Graph.C22_multi_sparse",
    "Verif.Graph.C22_sparse",
    "Verif.Graph.C22_dense_partial",
    "Verif.Graph.C22_dense_violated"
   ],
   "note": "Sparse backend proved. Dense: proved without repeated pairs, false otherwise (C22_dense_violated)."
  },
  {
   "property": "C23",
   "status": "partial",
   "theorems": [
    "Verif.Graph.C23_edges",
    "Verif.Graph.C23_weight_sparse",
    "Verif.Graph.C23_dense_symmetric",
    "Verif.Graph.C23_weight_dense_partial",
    "Verif.Graph.C23_dense_violated"
   ],
   "note": "Edge counts and sparse weights proved; dense weights without repeated or mutual pairs; C23_dense_violated is the witness otherwise."
  },
  {
   "property": "C24",
   "status": "proved",
   "theorems": [
    "Verif.Graph.C24_directed",
    "Verif.Graph.C24_weight_sparse",
    "Verif.Graph.C24_undirected",
    "Verif.Graph.C24_undirected_weight_sparse"
   ],
   "note": ""
  },
  {
   "property": "C25",
   "status": "partial",
   "theorems": [
    "Verif.Graph.C25_sparse",
    "Verif.Graph.C25_dense_degree",
    "Verif.Graph.C25_dense_partial",
    "Verif.Graph.C25_dense_violated"
   ],
   "note": "Sparse: proved. Dense: degrees proved, strengths only for integer weights since the dense accumulator is int64 (C25_dense_violated)."
  },
  {
   "property": "C26",
   "status": "proved",
   "theorems": [
    "Verif.Graph.C26",
    "Verif.Graph.C26_valid"
   ],
   "note": ""
  },
  {
   "property": "C27",
   "status": "partial",
   "theorems": [
    "Verif.Graph.C27_connected_dense",
    "Verif.Graph.C27_connected_sparse_real",
    "Verif.Graph.C27_connected_sparse_bool",
    "Verif.Graph.C27_num_edges",
    "Verif.Graph.C27_edges_dense",
    "Verif.Graph.C27_edges_sparse_real",
    "Verif.Graph.C27_edges_sparse_bool",
    "Verif.Graph.C27_weight",
    "Verif.Graph.C27_weight_undirected_sparse",
    "Verif.Graph.C27_weight_undirected_dense_partial",
    "Verif.Graph.C27_weight_dense_violated",
    "Verif.Graph.C27_weight_sparse_bool_violated"
   ],
   "note": "Connected pairs, edge counts and directed weights proved for both backends. Undirected dense weights double self loops (C27_weight_dense_violated); the sparse unweighted projection keeps a boolean OR instead of a sum (C27_weight_sparse_bool_violated)."
  },
  {
   "property": "C28",
   "status": "partial",
   "theorems": [
    "Verif.Graph.C28",
    "Verif.Graph.C28_multi_sparse",
    "Verif.Graph.C28_support",
    "Verif.Graph.C28_support_weighted",
    "Verif.Graph.C28_multi_dense_partial",
    "Verif.Graph.C28_multi_dense_violated"
   ],
   "note": "Single-layer graphs and sparse multigraphs proved; supports proved everywhere. Dense multigraph projections double weighted self loops (C28_multi_dense_violated)."
  },
  {
   "property": "C29",
   "status": "partial",
   "theorems": [
    "Verif.Graph.C29_mean_partial",
    "Verif.Graph.C29_errors",
    "Verif.Graph.C29_selfloop_violated",
    "Verif.Graph.C29_dense_in_violated",
    "Verif.Graph.C29_recompute",
    "Verif.Graph.C29_history_partial",
    "Verif.Graph.C29_history_violated",
    "Verif.Graph.C29_key_violated"
   ],
   "note": "Mean over the neighbourhood proved for all directions and both backends unless selfloops=False meets a self loop (C29_selfloop_violated, C29_dense_in_violated). Queries with recompute always right; cached queries right for histories with one self-loop setting and documented direction names (C29_history_violated, C29_key_violated otherwise)."
  },
  {
   "property": "C30",
   "status": "partial",
   "theorems": [
    "Verif.Fit.C30_fit",
    "Verif.Solver.C30_reject",
    "Verif.Solver.C30_partial",
    "Verif.Solver.C30_violated",
    "Verif.Solver.C30_total"
   ],
   "note": "Rejection proved for every function. Containment proved for functions whose derivative keeps its sign and whose values at finite interval ends are on the right side of the target (this covers every monotone function that attains the target); false for arbitrary functions, even increasing ones (C30_violated). For the library's own fits containment and absence of errors hold unconditionally (Fit.C30_fit). Under the same assumptions the solver always returns a solution: no assertion fails (C30_total)."
  },
  {
   "property": "C31",
   "status": "proved",
   "theorems": [
    "Verif.Solver.C31",
    "Verif.Solver.C31_run"
   ],
   "note": ""
  },
  {
   "property": "C32",
   "status": "partial",
   "theorems": [
    "Verif.Solver.C32_report",
    "Verif.Solver.C32_explained_partial",
    "Verif.Solver.C32_explained_good",
    "Verif.Solver.C32_unexplained_nan",
    "Verif.Solver.C32_unexplained_negative"
   ],
   "note": "The flags are proved to mean what they say for every run. That a stop is always explained by a flag is proved for numeric residuals and rtol*target >= 0; false for nan residuals and for negative targets (C32_unexplained_nan, C32_unexplained_negative)."
  },
  {
   "property": "C33",
   "status": "proved",
   "theorems": [
    "Verif.Fit.C33",
    "Verif.Fit.C33_fit",
    "Verif.Fit.C33_fit_multi"
   ],
   "note": ""
  },
  {
   "property": "C34",
   "status": "partial",
   "theorems": [
    "Verif.Fit.C34_unique",
    "Verif.Fit.C34_none",
    "Verif.Fit.C34_converged",
    "Verif.Fit.C34_converged_shared",
    "Verif.Fit.C34_converged_label_partial",
    "Verif.Fit.C34_integer_start_violated"
   ],
   "note": "Existence, uniqueness and infeasibility proved for every model; a converged fit reproduces the number of edges for all single-layer fits, shared-parameter fits and per-label fits with a float start. False for per-label fits started from integers, whose parameter is truncated (C34_integer_start_violated)."
  },
  {
   "property": "C35",
   "status": "proved",
   "theorems": [
    "Verif.Layer.C35_layer_objective",
    "Verif.Fit.C35_independent",
    "Verif.Fit.C35_shared",
    "Verif.Fit.C35_label"
   ],
   "note": ""
  },
  {
   "property": "C36",
   "status": "partial",
   "theorems": [
    "Verif.Rand.C36_expectations",
    "Verif.Rand.C36_fit_partial",
    "Verif.Rand.C36_violated",
    "Verif.Rand.C36_weight_violated"
   ],
   "note": "Expectations are ensemble means for every link probability; the fit reproduces the number of edges whenever there is an admissible pair and the total weight (if given) is not zero; otherwise fit divides by zero (C36_violated, C36_weight_violated)."
  },
  {
   "property": "C37",
   "status": "partial",
   "theorems": [
    "Verif.Rand.C37_partial",
    "Verif.Rand.C37_errors",
    "Verif.Rand.C37_complete_violated",
    "Verif.Rand.C37_empty_violated",
    "Verif.Rand.C37_matrix_violated",
    "Verif.Rand.C37_negative_violated",
    "Verif.Rand.C37_stored_violated"
   ],
   "note": "Proved for 0 <= p < 1 except the empty graph at p = 0. False at p = 1 (complete graph -inf, empty graph exception) and for the empty graph at p = 0 (exception); also false for scipy sparse matrices in the dense backend, stored zeros and negative diagonals in the sparse one."
  },
  {
   "property": "C38",
   "status": "partial",
   "theorems": [
    "Verif.Rand.C38_lists",
    "Verif.Rand.C38_violated",
    "Verif.Rand.C38_binary_partial",
    "Verif.Rand.C38_weight_partial"
   ],
   "note": "False: weighted samples and expected_total_weight fail for every ensemble (C38_violated). Proved: law of unweighted samples, value of the fitted weight parameter."
  },
  {
   "property": "C39",
   "status": "proved",
   "theorems": [
    "Verif.Cond.C39_cremb",
    "Verif.Cond.C39_binary",
    "Verif.Cond.C39_feasible",
    "Verif.Cond.C39_wagg"
   ],
   "note": ""
  },
  {
   "property": "C40",
   "status": "proved",
   "theorems": [
    "Verif.Cond.C40_sample_law",
    "Verif.Cond.C40_normalised",
    "Verif.Cond.C40_zero_param_violated"
   ],
   "note": "C40_zero_param_violated: with parameter 0 and a coarse link the probability of the coarse graph is zero; the sampler divides by zero."
  },
  {
   "property": "C41",
   "status": "partial",
   "theorems": [
    "Verif.Cond.C41_pair",
    "Verif.Cond.C41_edges",
    "Verif.Cond.C41_out_in_degree_partial",
    "Verif.Cond.C41_sums_partial",
    "Verif.Cond.C41_degree_partial",
    "Verif.Cond.C41_asymmetric_violated",
    "Verif.Cond.C41_within_group_violated"
   ],
   "note": "Expected number of edges proved for all coarse graphs. Degrees proved for coarse graphs whose links are symmetric (and, for total degrees, without links within groups); false otherwise (C41_asymmetric_violated, C41_within_group_violated)."
  },
  {
   "property": "C42",
   "status": "proved",
   "theorems": [
    "Verif.Cond.C42_wagg",
    "Verif.Cond.C42_default"
   ],
   "note": ""
  },
  {
   "property": "C43",
   "status": "proved",
   "theorems": [
    "Verif.Spark.C43_ordered_pairs",
    "Verif.Spark.C43_unordered_pairs",
    "Verif.Spark.C43_tiling",
    "Verif.Spark.C43_accepted",
    "Verif.Spark.C43_positive",
    "Verif.Spark.C43_expected_num_edges",
    "Verif.Spark.C43_expected_degrees",
    "Verif.Spark.C43_av_nn",
    "Verif.Spark.C43_log_likelihood",
    "Verif.Spark.C43_sample",
    "Verif.Spark.C43_cremb",
    "Verif.Spark.C43_objective",
    "Verif.Spark.C43_models",
    "Verif.Spark.C43_dyad_violated"
   ],
   "note": "For the library's constant dyadic property; with a user-defined prop_dyad that depends on the positions the blocks read it at block-relative positions (C43_dyad_violated)."
  },
  {
   "property": "C44",
   "status": "partial",
   "theorems": [
    "Verif.Spark.C44_counts",
    "Verif.Spark.C44_totals",
    "Verif.Spark.C44_monotone",
    "Verif.Spark.C44_thresholds_partial",
    "Verif.Spark.C44_thresholds_violated",
    "Verif.Spark.C44_degenerate_violated",
    "Verif.Spark.C44_zero_violated",
    "Verif.Spark.C44_refused"
   ],
   "note": "The counts, totals and monotonicity hold for every graph, model, threshold array, number of blocks and order of combination. The automatic thresholds are only bounded above by the largest probability (C44_thresholds_partial): natural logarithms are passed to a base-ten logspace, so the first is below the smallest link probability (C44_thresholds_violated, C44_degenerate_violated), and a vanishing property raises (C44_zero_violated)."
  },
  {
   "property": "C45",
   "status": "partial",
   "theorems": [
    "Verif.Lib.C45_graph_partial",
    "Verif.Lib.C45_probability_partial",
    "Verif.Lib.C45_unweighted_violated",
    "Verif.Lib.C45_integer_violated",
    "Verif.Lib.C45_refused"
   ],
   "note": "Proved for float weights and for any dtype when no vertex has two outgoing links. False for unweighted graphs (C45_unweighted_violated) and integer weights (C45_integer_violated): normalised weights are stored with the dtype of the weights. Dense graphs and max_iter = 0 raise (C45_refused)."
  },
  {
   "property": "C46",
   "status": "partial",
   "theorems": [
    "Verif.Validate.MultiFitnessModel.C46_multi_partial",
    "Verif.Validate.MultiFitnessModel.C46_multi_override_violated",
    "Verif.Validate.MultiFitnessModel.C46_multi_array_violated",
    "Verif.Validate.FitnessModel.C46_fitness_partial",
    "Verif.Validate.FitnessModel.C46_violated",
    "Verif.Validate.RandomDiGraph.C46_random_partial",
    "Verif.Validate.Conditional.C46_conditional_partial",
    "Verif.Validate.Conditional.C46_groups_violated"
   ],
   "note": "Acceptance is characterised exactly and the stored values shown to be those given (explicit options first) for all arguments without nan, nested/odd-shaped arrays and sparse scalars. Excluded forms are accepted although invalid: nan and lists as parameter (C46_violated), group arrays of any length and with negative entries (C46_groups_violated); the number of edges given explicitly with a multigraph is never validated nor used (C46_multi_override_violated) or is rejected (C46_multi_array_violated)."
  },
  {
   "property": "C47",
   "status": "partial",
   "theorems": [
    "Verif.Validate.MultiFitnessModel.C47_per_label_partial",
    "Verif.Validate.MultiFitnessModel.C47_violated"
   ],
   "note": "per_label is characterised for every successful construction (C47_per_label_partial). With a multigraph and an explicit single number of edges the model is nevertheless per label (C47_violated)."
  },
  {
   "property": "C48",
   "status": "proved",
   "theorems": [
    "Verif.Convert.C48_list",
    "Verif.Convert.C48_matrix",
    "Verif.Convert.C48_empty"
   ],
   "note": ""
  },
  {
   "property": "C49",
   "status": "partial",
   "theorems": [
    "Verif.Layer.C49_edges",
    "Verif.Layer.C49_dense_edges_partial",
    "Verif.Layer.C49_dense_edges_violated",
    "Verif.Layer.C49_degrees_computed",
    "Verif.Layer.C49_degrees_partial",
    "Verif.Layer.C49_degrees_violated",
    "Verif.Layer.C49_dense_degrees"
   ],
   "note": "Edges by label: proved for the sparse and spark backends; dense proved only when the number of labels equals the number of vertices (the loop bound is len(prop_out)), otherwise violated (C49_dense_edges_violated). Degrees by label: dense proved; sparse/spark proved when no two vertices both store both properties in the layer, otherwise the exact (doubly counted) value is proved (C49_degrees_computed) with a witness (C49_degrees_violated)."
  },
  {
   "property": "C50",
   "status": "proved",
   "theorems": [
    "Verif.Lib.C50_step",
    "Verif.Lib.C50_conserved",
    "Verif.Lib.C50_absorbed",
    "Verif.Lib.C50_decreases",
    "Verif.Lib.C50_vanishes"
   ],
   "note": "Hypothesis Keeps: float weights, or no vertex with two outgoing links (see C45)."
  },
  {
   "property": "C51",
   "status": "partial",
   "theorems": [
    "Verif.Method.C51_dense",
    "Verif.Method.C51_sparse_partial",
    "Verif.Method.C51_sparse_violated"
   ],
   "note": "Dense backend: proved. Sparse backend: proved for matrices without stored zeros; false with stored zeros (C51_sparse_violated)."
  },
  {
   "property": "C52",
   "status": "partial",
   "theorems": [
    "Verif.Method.C52_partial",
    "Verif.Method.C52_ignored",
    "Verif.Method.C52_violated"
   ],
   "note": "Only holds when the argument is absent or equal to the setting; otherwise ignored (C52_ignored, C52_violated)."
  },
  {
   "property": "C53",
   "status": "proved",
   "theorems": [
    "Verif.Method.C53_log_likelihood",
    "Verif.Method.C53_sample"
   ],
   "note": ""
  },
  {
   "property": "C54",
   "status": "proved",
   "theorems": [
    "Verif.Fit.C54",
    "Verif.Fit.C54_label"
   ],
   "note": ""
  },
  {
   "property": "C55",
   "status": "partial",
   "theorems": [
    "Verif.Rand.C55_partial",
    "Verif.Rand.C55_violated",
    "Verif.Rand.C55_direction",
    "Verif.Rand.C55_errors"
   ],
   "note": "Proved except for out-in neighbourhoods with self loops, where it is false (C55_violated). After an unknown direction the self-loop setting is not restored (C55_direction)."
  },
  {
   "property": "C56",
   "status": "proved",
   "theorems": [
    "Verif.Cond.C56_log_likelihood",
    "Verif.Cond.C56_shape",
    "Verif.Cond.C56_zero_total_violated"
   ],
   "note": "Outside the hypotheses: a group with a zero total and no self loops raises ZeroDivisionError (C56_zero_total_violated)."
  },
  {
   "property": "C57",
   "status": "partial",
   "theorems": [
    "Verif.Cond.C57_dense_partial",
    "Verif.Cond.C57_csr_partial",
    "Verif.Cond.C57_csc_violated"
   ],
   "note": "Dense arrays and csr matrices agree; csc matrices are read transposed (C57_csc_violated)."
  },
  {
   "property": "C58",
   "status": "proved",
   "theorems": [
    "Verif.Cond.C58_refused",
    "Verif.Cond.C58_mean_weight"
   ],
   "note": ""
  },
  {
   "property": "C59",
   "status": "partial",
   "theorems": [
    "Verif.Lib.C59_unique",
    "Verif.Lib.C59_depth_partial",
    "Verif.Lib.C59_violated"
   ],
   "note": "Proved for a matrix held as scipy sparse matrix; the graphs of this package hold sparse arrays or dense arrays, for which trophic_depth always raises AttributeError (C59_violated)."
  },
  {
   "property": "C60",
   "status": "proved",
   "theorems": [
    "Verif.Lib.C60_accuracy",
    "Verif.Lib.C60_converges"
   ],
   "note": "Hypothesis Keeps: float weights, or no vertex with two outgoing links (see C45)."
  },
  {
   "property": "C61",
   "status": "partial",
   "theorems": [
    "Verif.Layer.C61_computed",
    "Verif.Layer.C61_partial",
    "Verif.Layer.C61_violated",
    "Verif.Layer.C61_dense"
   ],
   "note": "Dense: proved for all inputs. Sparse and spark: proved unless self-loops are excluded and a layer stores a self-link at a vertex without out or in property, where the code returns -inf (C61_violated); C61_computed gives the value for all inputs."
  },
  {
   "property": "C62",
   "status": "proved",
   "theorems": [
    "Verif.Layer.C62_law",
    "Verif.Layer.C62_valid",
    "Verif.Layer.C62_dense_law",
    "Verif.Layer.C62_dense_valid",
    "Verif.Layer.C62_refused",
    "Verif.Layer.C62_weights"
   ],
   "note": ""
  },
  {
   "property": "C63",
   "status": "proved",
   "theorems": [
    "Verif.Layer.C63_projection",
    "Verif.Layer.C63_dense"
   ],
   "note": ""
  },
  {
   "property": "C64",
   "status": "partial",
   "theorems": [
    "Verif.Cond.C64_objective_partial",
    "Verif.Cond.C64_zero",
    "Verif.Cond.C64_infinite",
    "Verif.Cond.C64_error",
    "Verif.Cond.C64_raises",
    "Verif.Cond.C64_violated"
   ],
   "note": "Exact for every parameter at which all coarse links have probability at least 1e-12, and at 0 and inf; below that cutoff the code returns the value at parameter 0, which differs from the mean (C64_violated) by at most 2e-12 per coarse link (C64_error)."
  },
  {
   "property": "C65",
   "status": "proved",
   "theorems": [
    "Verif.Cond.C65_range",
    "Verif.Cond.C65_unique",
    "Verif.Cond.C65_none",
    "Verif.Cond.C65_fit",
    "Verif.Cond.C65_rejects"
   ],
   "note": ""
  },
  {
   "property": "C66",
   "status": "proved",
   "theorems": [
    "Verif.Solver.C66_history",
    "Verif.Solver.C66_rejects",
    "Verif.Solver.C66_immediate",
    "Verif.Solver.C66_point"
   ],
   "note": ""
  },
  {
   "property": "C67",
   "status": "proved",
   "theorems": [
    "Verif.Solver.C67_solver",
    "Verif.Solver.C67_newton",
    "Verif.Solver.C67_flags"
   ],
   "note": ""
  },
  {
   "property": "C68",
   "status": "proved",
   "theorems": [
    "Verif.Fit.C68_single",
    "Verif.Fit.C68_single_solver",
    "Verif.Fit.C68_multi",
    "Verif.Fit.C68_multi_scalar"
   ],
   "note": ""
  },
  {
   "property": "C69",
   "status": "partial",
   "theorems": [
    "Verif.Layer.C69_reproduces_partial",
    "Verif.Layer.C69_total",
    "Verif.Layer.C69_unique",
    "Verif.Layer.C69_violated"
   ],
   "note": "Exact for starting values stored as floats. With an integer start (fit(x0=0)) the parameter is truncated when stored, and a converged fit does not reproduce the number of edges (C69_violated)."
  },
  {
   "property": "C70",
   "status": "partial",
   "theorems": [
    "Verif.Graph.C70_recompute",
    "Verif.Graph.C70_history",
    "Verif.Graph.C70_degree",
    "Verif.Graph.C70_strength_sparse",
    "Verif.Graph.C70_strength_dense_partial",
    "Verif.Graph.C70_single",
    "Verif.Graph.C70_single_strength_partial",
    "Verif.Graph.C70_label",
    "Verif.Graph.C70_label_strength_partial",
    "Verif.Graph.C70_label_sums",
    "Verif.Graph.C70_dense_violated",
    "Verif.Graph.C70_group",
    "Verif.Graph.C70_group_strength_sparse"
   ],
   "note": "Degrees, histories and sums in both backends, strengths in the sparse backend; in the dense backend strengths for tables without repeated pairs, false with repeated pairs, where the last weight overwrites (C70_dense_violated)."
  },
  {
   "property": "C71",
   "status": "partial",
   "theorems": [
    "Verif.Graph.C71_nodes",
    "Verif.Graph.C71_nodes_undirected",
    "Verif.Graph.C71_directed",
    "Verif.Graph.C71_directed_sparse",
    "Verif.Graph.C71_undirected",
    "Verif.Graph.C71_undirected_sparse",
    "Verif.Graph.C71_nodes_multi",
    "Verif.Graph.C71_multi_directed",
    "Verif.Graph.C71_multi_undirected",
    "Verif.Graph.C71_multi_undirected_partial",
    "Verif.Graph.C71_multi_undirected_violated"
   ],
   "note": "Nodes, edges and labels in all classes, weights of single-layer graphs and directed multigraphs. Weights of undirected multigraphs for pairs joined in one direction only; false for pairs joined in both (C71_multi_undirected_violated). Weights are those of the adjacency matrix, which in the dense backend is subject to C21."
  },
  {
   "property": "C72",
   "status": "proved",
   "theorems": [
    "Verif.Graph.C72",
    "Verif.Graph.C72_multi"
   ],
   "note": ""
  },
  {
   "property": "C73",
   "status": "partial",
   "theorems": [
    "Verif.Layer.Method.C73_sparse_computed",
    "Verif.Layer.Method.C73_sparse_partial",
    "Verif.Layer.Method.C73_sparse_matrix",
    "Verif.Layer.Method.C73_sparse_rejected",
    "Verif.Layer.Method.C73_dense",
    "Verif.Layer.Method.C73_dense_rejected",
    "Verif.Layer.Method.C73_violated"
   ],
   "note": "Dense: all arrays and graph objects. Sparse: all arguments without stored zeros and, when self-loops are excluded, without self-links of vertices without properties (C61_violated). Every rejected argument is characterised; two branches raise AttributeError instead of the intended exception or result (C73_violated)."
  },
  {
   "property": "C74",
   "status": "partial",
   "theorems": [
    "Verif.Sampled.C74_sparse_partial",
    "Verif.Sampled.C74_sparse_law",
    "Verif.Sampled.C74_sparse_weights",
    "Verif.Sampled.C74_dense_partial",
    "Verif.Sampled.C74_dense_law",
    "Verif.Sampled.C74_sparse_errors",
    "Verif.Sampled.C74_dense_errors",
    "Verif.Sampled.C74_selfloops_ignored",
    "Verif.Sampled.C74_violated",
    "Verif.Sampled.C74_single",
    "Verif.Sampled.C74_single_law",
    "Verif.Sampled.C74_single_weights",
    "Verif.Sampled.C74_single_errors",
    "Verif.Sampled.C74_ids",
    "Verif.Sampled.C74_ref_violated"
   ],
   "note": "Objects, adjacency matrices, laws, weights and error tables proved for both backends and for single- and multi-layer ensembles. False: the argument selfloops has no effect (C74_selfloops_ignored, C74_violated; C52 for single-layer ensembles), unknown weights are accepted without labels (sparse), weighted samples of dense multi-layer ensembles always raise (C74_violated), reference graphs of another size are accepted (C74_ref_violated)."
  },
  {
   "property": "C75",
   "status": "partial",
   "theorems": [
    "Verif.Sampled.C75_single_statistic",
    "Verif.Sampled.C75_single",
    "Verif.Sampled.C75_sparse_partial",
    "Verif.Sampled.C75_dense_partial",
    "Verif.Sampled.C75_violated",
    "Verif.Sampled.C75_weights",
    "Verif.Sampled.C75_weights_exact",
    "Verif.Sampled.C75_weights_loopless",
    "Verif.Sampled.C75_sparse_weights"
   ],
   "note": "Single-layer ensembles, projections and dense degrees by label: proved. By label, num_edges_label of the sparse backend agrees; sparse degrees by label agree unless two vertices both store both properties, where the returned expectation is twice the average (C75_violated); dense expected_num_edges_label agrees only for as many labels as vertices (C49_dense_edges_violated)."
  },
  {
   "property": "C76",
   "status": "partial",
   "theorems": [
    "Verif.Layer.Cached.C76_recompute_partial",
    "Verif.Layer.Cached.C76_queries_partial",
    "Verif.Layer.Cached.C76_stale",
    "Verif.Layer.Cached.C76_some_moment",
    "Verif.Layer.Cached.C76_unfitted",
    "Verif.Layer.Cached.C76_spark_recompute_partial",
    "Verif.Layer.Cached.C76_spark_queries_partial",
    "Verif.Layer.Cached.C76_spark_attribute_violated",
    "Verif.Layer.Cached.C76_spark_stale",
    "Verif.Layer.Cached.C76_sparse_values_partial",
    "Verif.Layer.Cached.C76_dense_values_partial",
    "Verif.Layer.Cached.C76_spark_values_partial",
    "Verif.Layer.Cached.C76_violated"
   ],
   "note": "Sparse and dense: recompute, unchanged settings, source of stale values and unfitted objects proved for all histories; values as in C49 with its restrictions (C76_sparse_values_partial, C76_dense_values_partial). False: stale values after refit without recompute (C76_stale, C76_violated); spark: out and in degrees stay stale even with recompute (C76_spark_stale, C76_violated), expected_num_edges raises AttributeError after the label-resolved query (C76_spark_attribute_violated), degrees raise IndexError when no pair contributes (C76_spark_values_partial)."
  },
  {
   "property": "C77",
   "status": "partial",
   "theorems": [
    "Verif.Validate.Spark.C77_random_refines",
    "Verif.Validate.Spark.C77_fitness_refines",
    "Verif.Validate.Spark.C77_multi_refines",
    "Verif.Validate.Spark.C77_random_partial",
    "Verif.Validate.Spark.C77_fitness_partial",
    "Verif.Validate.Spark.C77_multi_partial",
    "Verif.Validate.Spark.C77_blocks_refused",
    "Verif.Validate.Spark.C77_violated"
   ],
   "note": "Relative to the sparse constructors proved in full (C77_random_refines, C77_fitness_refines, C77_multi_refines). Valid input: as in C46, with the same restrictions on arguments (C77_random_partial, C77_fitness_partial, C77_multi_partial). False without them: nan is accepted as number of edges (C77_violated)."
  },
  {
   "property": "C78",
   "status": "partial",
   "theorems": [
    "Verif.Flow.C78_run",
    "Verif.Flow.C78_probability_partial",
    "Verif.Flow.C78_likelihood",
    "Verif.Flow.C78_attainable",
    "Verif.Flow.C78_unattainable",
    "Verif.Flow.C78_converges",
    "Verif.Flow.C78_eventually",
    "Verif.Flow.C78_spark",
    "Verif.Flow.C78_violated",
    "Verif.Flow.C78_repeated_violated"
   ],
   "note": "Success, meaning of converged, attainability and uniqueness, convergence, likelihood and Spark proved in full on the tables. Probabilities: dense backend for tables without repeated ordered pairs (C78_probability_partial; with repeated rows the last one counts, C78_repeated_violated). False: a graph with only self-loops does not converge with the default setting, and no finite parameter reproduces a graph that links all supported pairs (C78_violated)."
  },
  {
   "property": "C79",
   "status": "proved",
   "theorems": [
    "Verif.Flow.C79_run",
    "Verif.Flow.C79_labels",
    "Verif.Flow.C79_shared",
    "Verif.Flow.C79_probability",
    "Verif.Flow.C79_expected",
    "Verif.Flow.C79_attainable",
    "Verif.Flow.C79_attainable_shared",
    "Verif.Flow.C79_eventually",
    "Verif.Flow.C79_eventually_shared",
    "Verif.Flow.C79_unattainable",
    "Verif.Flow.C79_likelihood",
    "Verif.Flow.C79_violated"
   ],
   "note": "Stated and proved in full on the tables, sparse backend. The stronger wish that the number of edges of every label is always reproduced is false: a label with only self-loops never converges with the default setting, and no finite parameter reproduces a label that links all its supported pairs (C79_violated)."
  },
  {
   "property": "C80",
   "status": "partial",
   "theorems": [
    "Verif.Spark.Method.C80_likelihood",
    "Verif.Spark.Method.C80_likelihood_errors",
    "Verif.Spark.Method.C80_stored_zeros_violated",
    "Verif.Spark.Method.C80_confusion",
    "Verif.Spark.Method.C80_confusion_errors",
    "Verif.Spark.Method.C80_range",
    "Verif.Spark.Method.C80_auto_partial",
    "Verif.Spark.Method.C80_auto_violated",
    "Verif.Spark.Method.C80_auto_zero_violated",
    "Verif.Spark.Method.C80_sample",
    "Verif.Spark.Method.C80_sample_law",
    "Verif.Spark.Method.C80_sample_weights",
    "Verif.Spark.Method.C80_sample_errors",
    "Verif.Spark.MultiMethod.C80_multi_computed",
    "Verif.Spark.MultiMethod.C80_multi_partial",
    "Verif.Spark.MultiMethod.C80_multi_violated",
    "Verif.Spark.MultiMethod.C80_multi_matrix",
    "Verif.Spark.MultiMethod.C80_multi_rejected",
    "Verif.Spark.MultiMethod.C80_multi_confusion",
    "Verif.Spark.MultiMethod.C80_multi_confusion_errors",
    "Verif.Spark.MultiMethod.C80_multi_range_partial",
    "Verif.Spark.MultiMethod.C80_multi_range_violated",
    "Verif.Spark.MultiMethod.C80_multi_sample_partial",
    "Verif.Spark.MultiMethod.C80_multi_sample_law",
    "Verif.Spark.MultiMethod.C80_multi_sample_weights",
    "Verif.Spark.MultiMethod.C80_multi_sample_errors",
    "Verif.Spark.MultiMethod.C80_multi_violated_sample"
   ],
   "note": "Single layer: likelihood, confusion matrix for given thresholds, samples, their law and weights, and exceptions proved in full for graphs without stored zeros (C80_stored_zeros_violated). Automatic thresholds: natural logarithms are passed to np.logspace, so the thresholds do not span the range of the probabilities (C80_auto_partial, C80_auto_violated), and there are none if some pair cannot be linked (C80_auto_zero_violated). Multi-layer: likelihood of labelled graphs unless an excluded self link has no properties (C80_multi_partial, C80_multi_violated), of unlabelled graphs in full; the range of the automatic thresholds is right only for the scale-invariant model with one label (C80_multi_range_partial, C80_multi_range_violated); sample ignores selfloops (C80_multi_sample_partial, C80_multi_violated_sample)."
  },
  {
   "property": "C81",
   "status": "partial",
   "theorems": [
    "Verif.Spark.Query.C81_history",
    "Verif.Spark.Query.C81_recompute_partial",
    "Verif.Spark.Query.C81_queries_partial",
    "Verif.Spark.Query.C81_setting_partial",
    "Verif.Spark.Query.C81_errors",
    "Verif.Spark.Query.C81_violated",
    "Verif.Spark.Query.C81_key_violated"
   ],
   "note": "One outcome for every history, whatever the schedule (C81_history); the outcome is the mean for queries that recompute in every state (C81_recompute_partial) and for all queries of histories without refit and with one self-loop setting for expected_av_nn_degree (C81_queries_partial); exceptions in full (C81_errors). False: stale values and a spurious AssertionError after a refit, and the setting is not restored when a call raises (C81_setting_partial, C81_violated); the undocumented direction out_in is taken for a cached out-in (C81_key_violated)."
  },
  {
   "property": "C82",
   "status": "partial",
   "theorems": [
    "Verif.Rand.C82_queries_partial",
    "Verif.Rand.C82_fitted_partial",
    "Verif.Rand.C82_recompute_partial",
    "Verif.Rand.C82_fresh_partial",
    "Verif.Rand.C82_setting_partial",
    "Verif.Rand.C82_errors",
    "Verif.Rand.C82_cached",
    "Verif.Rand.C82_key_violated",
    "Verif.Rand.C82_violated"
   ],
   "note": "Every call of a history with documented arguments and one self-loop setting for expected_av_nn_degree is right (C82_queries_partial, C82_fitted_partial with repeated fits); in every state the queries other than cached averages of degrees are right (C82_fresh_partial, C82_recompute_partial); exceptions in full (C82_errors). False: cached averages are stale after a change of setting or link probability (C82_cached, C82_violated), the setting is not restored when a call raises (C82_setting_partial), expected_total_weight always raises, direction out-in with self loops (C55_violated), the undocumented direction out_in is taken for a cached out-in (C82_key_violated)."
  },
  {
   "property": "C83",
   "status": "partial",
   "theorems": [
    "Verif.Rand.C83_object_partial",
    "Verif.Rand.C83_statistic",
    "Verif.Rand.C83_law",
    "Verif.Rand.C83_mean",
    "Verif.Rand.C83_fit_partial",
    "Verif.Rand.C83_errors",
    "Verif.Rand.C83_draws",
    "Verif.Rand.C83_weights_violated",
    "Verif.Rand.C83_selfloops_unused",
    "Verif.Rand.C83_selfloops_violated",
    "Verif.Rand.C83_overfull_violated"
   ],
   "note": "Unweighted samples: object, law and averages in full (C83_object_partial, C83_law, C83_statistic, C83_mean), the number of edges fitted to is met on average if it does not exceed the number of pairs (C83_fit_partial), exceptions in full (C83_errors, C83_draws). False: no weighted call returns a graph (C83_weights_violated), the argument selfloops is ignored (C83_selfloops_unused, C83_selfloops_violated), more edges than pairs are accepted and then not met (C83_overfull_violated)."
  },
  {
   "property": "C84",
   "status": "partial",
   "theorems": [
    "Verif.Flow.Random.C84_run",
    "Verif.Flow.Random.C84_edges_partial",
    "Verif.Flow.Random.C84_weights_partial",
    "Verif.Flow.Random.C84_likelihood_partial",
    "Verif.Flow.Random.C84_sample_partial",
    "Verif.Flow.Random.C84_vertex_violated",
    "Verif.Flow.Random.C84_empty_violated",
    "Verif.Flow.Random.C84_complete_violated",
    "Verif.Flow.Random.C84_selfloops_violated",
    "Verif.Flow.Random.C84_undirected_violated",
    "Verif.Flow.Random.C84_resample_violated"
   ],
   "note": "Success exactly for valid tables (C84_run); link probability, expected and sampled number of edges, weight parameter and likelihood for tables with at least two vertices (or self-loops allowed) and no excluded self-loop (C84_edges_partial, C84_sample_partial, C84_weights_partial, C84_likelihood_partial). False: single vertices (C84_vertex_violated), tables without rows (C84_empty_violated), complete graphs (C84_complete_violated), excluded self-loops (C84_selfloops_violated), undirected graphs (C84_undirected_violated), sampled graphs as input (C84_resample_violated)."
  },
  {
   "property": "C85",
   "status": "partial",
   "theorems": [
    "Verif.Mle.C85_labels",
    "Verif.Mle.C85_labels_dense",
    "Verif.Mle.C85_run_partial",
    "Verif.Mle.C85_converged_partial",
    "Verif.Mle.C85_selfloops_violated",
    "Verif.Mle.C85_random_partial",
    "Verif.Mle.C85_maximum",
    "Verif.Mle.C85_unique",
    "Verif.Mle.C85_iff",
    "Verif.Mle.C85_gap",
    "Verif.Mle.C85_invariant_differs"
   ],
   "note": "Maximum, uniqueness, characterisation and gap for graphs and parameters of the fitness models (C85_maximum, C85_unique, C85_iff, C85_gap), label by label (C85_labels, C85_labels_dense), for whole runs on tables without excluded self-loops (C85_run_partial, C85_converged_partial) and for the random ensemble with some but not all links (C85_random_partial). False for tables with excluded self-loops, whose links the fit counts (C85_selfloops_violated); C85_invariant_differs shows that the scale-invariant models have no such property."
  },
  {
   "property": "C86",
   "status": "partial",
   "theorems": [
    "Verif.Cond.Calls.C86_history",
    "Verif.Cond.Calls.C86_recompute",
    "Verif.Cond.Calls.C86_refit",
    "Verif.Cond.Calls.C86_edges",
    "Verif.Cond.Calls.C86_degrees_partial",
    "Verif.Cond.Calls.C86_average_partial",
    "Verif.Cond.Calls.C86_assertion",
    "Verif.Cond.Calls.C86_nn_degree_partial",
    "Verif.Cond.Calls.C86_setting",
    "Verif.Cond.Calls.C86_errors",
    "Verif.Cond.Calls.C86_stale_violated",
    "Verif.Cond.Calls.C86_average_violated",
    "Verif.Cond.Calls.C86_setting_violated"
   ],
   "note": "Proved after any history without new fits whose calls return or do not ask for another self-loop setting: same outcome as on a newly fitted model (C86_history), mean number of links (C86_edges), degrees for symmetric coarse graphs (C86_degrees_partial), the exact value of neighbour averages or the assertion raised (C86_average_partial, C86_nn_degree_partial, C86_assertion); in every state: recomputing queries (C86_recompute), setting kept by calls that return (C86_setting); exceptions (C86_errors). False: cached values survive a new fit (C86_stale_violated), neighbour averages mix unconditional sums with conditional degrees (C86_average_violated), a call that raises leaves the setting changed (C86_setting_violated); degrees of asymmetric coarse graphs are those of C41."
  },
  {
   "property": "C87",
   "status": "partial",
   "theorems": [
    "Verif.Graph.C87_dense",
    "Verif.Graph.C87_sparse_directed",
    "Verif.Graph.C87_sparse",
    "Verif.Graph.C87_sparse_partial",
    "Verif.Graph.C87_degrees",
    "Verif.Graph.C87_networkx",
    "Verif.Graph.C87_label_dense",
    "Verif.Graph.C87_label_sparse",
    "Verif.Graph.C87_label_sparse_partial",
    "Verif.Graph.C87_multi_sparse",
    "Verif.Graph.C87_multi_sparse_partial",
    "Verif.Graph.C87_multi_dense",
    "Verif.Graph.C87_multi_dense_total",
    "Verif.Graph.C87_multi_dense_directed_partial",
    "Verif.Graph.C87_multi_dense_partial",
    "Verif.Graph.C87_multi_degrees",
    "Verif.Graph.C87_sparse_violated",
    "Verif.Graph.C87_multi_dense_violated"
   ],
   "note": "Proved: single-layer dense graphs (C87_dense), dense queries by label (C87_label_dense), directed queries in the sparse backend (C87_sparse_directed, C87_multi_sparse), values of the degrees (C87_degrees, C87_multi_degrees), all sparse queries without self loops (C87_*sparse_partial), dense projections without repeated pairs (C87_multi_dense*_partial). False: with self loops in the sparse backend (C87_sparse_violated; exact deviation in C87_sparse, C87_label_sparse, C87_multi_sparse), and in dense multigraphs, whose strengths count labels (C87_multi_dense_violated; exact values in C87_multi_dense, C87_multi_dense_total)."
  },
  {
   "property": "C88",
   "status": "proved",
   "theorems": [
    "Verif.Cond.C88_merged_law",
    "Verif.Cond.C88_merged_law_loops",
    "Verif.Cond.C88_merged_sample",
    "Verif.Cond.C88_expected",
    "Verif.Cond.C88_two_steps",
    "Verif.Cond.C88_likelihood",
    "Verif.Cond.C88_edges",
    "Verif.Cond.C88_loops_needed"
   ],
   "note": ""
  },
  {
   "property": "C89",
   "status": "partial",
   "theorems": [
    "Verif.Columns.C89_graph_outcome",
    "Verif.Columns.C89_graph_partial",
    "Verif.Columns.C89_graph_violated",
    "Verif.Columns.C89_random_outcome",
    "Verif.Columns.C89_random_violated",
    "Verif.Columns.C89_random_spark",
    "Verif.Columns.C89_outcome",
    "Verif.Columns.C89_partial",
    "Verif.Columns.C89_one_column",
    "Verif.Columns.C89_raises_violated",
    "Verif.Columns.C89_values_violated",
    "Verif.Columns.C89_refused",
    "Verif.Columns.C89_spark"
   ],
   "note": "False in general: with m vertices that have neighbours the call raises ValueError unless m = 1 or m = k, and for m = k divides column c by the degree of the c-th linked vertex (C89_outcome, C89_one_column, C89_graph_outcome; witnesses C89_raises_violated, C89_values_violated, C89_graph_violated). Proved where it holds: m = 1, or m = k with equal degrees (C89_partial, C89_graph_partial). Spark jobs have the same outcomes (C89_spark). RandomDiGraph: C89_random_outcome, C89_random_violated, C89_random_spark."
  },
  {
   "property": "C90",
   "status": "partial",
   "theorems": [
    "Verif.Relabel.C90_cond_edges",
    "Verif.Relabel.C90_cond_fit",
    "Verif.Relabel.C90_cond_degrees_partial",
    "Verif.Relabel.C90_cond_history_partial",
    "Verif.Relabel.C90_cond_law",
    "Verif.Relabel.C90_cond_sampling",
    "Verif.Relabel.C90_cond_likelihood",
    "Verif.Relabel.C90_cond_degrees_violated",
    "Verif.Relabel.C90_column",
    "Verif.Relabel.C90_label_edges",
    "Verif.Relabel.C90_label_edges_dense",
    "Verif.Relabel.C90_label_sparse",
    "Verif.Relabel.C90_label_dense",
    "Verif.Relabel.C90_label_spark",
    "Verif.Relabel.C90_label_history",
    "Verif.Relabel.C90_law",
    "Verif.Relabel.C90_likelihood",
    "Verif.Relabel.C90_sampling",
    "Verif.Relabel.C90_sample",
    "Verif.Relabel.C90_models",
    "Verif.Relabel.C90_fitters",
    "Verif.Relabel.C90_fit",
    "Verif.Relabel.C90_fit_layer",
    "Verif.Relabel.C90_fit_multi",
    "Verif.Relabel.C90_expected_edges",
    "Verif.Relabel.C90_expected_degrees",
    "Verif.Relabel.C90_history_partial",
    "Verif.Relabel.C90_history_no_averages",
    "Verif.Relabel.C90_dyad_violated"
   ],
   "note": "False in two cases: with a dyadic property that varies, neighbour averages with self loops read the dyadic value of another vertex and so depend on the position of the vertices (C90_dyad_violated); the degrees of the conditional model depend on the numbering when a coarse link goes one way only (C90_cond_degrees_violated). Proved otherwise: histories without varying dyadic property or without neighbour averages (C90_history_partial, C90_history_no_averages), label-resolved histories (C90_label_*), fit, likelihood, sampling; conditional model with symmetric coarse graph (C90_cond_history_partial), and its edges, fit, law, sampling and likelihood for any coarse graph. Weighted sampling of the conditional model is not covered."
  },
  {
   "property": "C91",
   "status": "partial",
   "theorems": [
    "Verif.C91_probability_partial",
    "Verif.C91_multi_partial",
    "Verif.C91_multi_dense_partial",
    "Verif.C91_logs_partial",
    "Verif.C91_multi_logs_partial",
    "Verif.C91_multi_dense_logs_partial",
    "Verif.C91_edges",
    "Verif.C91_degrees",
    "Verif.C91_likelihood",
    "Verif.C91_double_partial",
    "Verif.C91_infinite_violated"
   ],
   "note": "Proved for all finite parameters and properties, in every faithful arithmetic and for binary64 with rounding to nearest (C91_double_partial: n <= 2^26). Fails for infinite properties: a partial product can underflow to 0 and 0*inf is nan (C91_infinite_violated). The rounding of exp, expm1, log, log1p is assumed to be faithful; counters are exact."
  },
  {
   "property": "C92",
   "status": "partial",
   "theorems": [
    "Verif.C92_probability_partial",
    "Verif.C92_edges_partial",
    "Verif.C92_underflow_violated",
    "Verif.C92_overflow_violated",
    "Verif.C92_log1mp_violated",
    "Verif.C92_monotone_violated"
   ],
   "note": "Proved when the partial products of parameter and properties lie between 2^-1000 and 2^1000 (or a factor is 0). Fails otherwise (C92_underflow_violated, C92_overflow_violated); log1mp of the fitness model is -inf for finite values (C92_log1mp_violated); rounded probabilities are not monotone (C92_monotone_violated). Binary64 with rounding to nearest, correctly rounded expm1."
  },
  {
   "property": "C93",
   "status": "partial",
   "theorems": [
    "Verif.C93_sparse_fitness_partial",
    "Verif.C93_sparse_invariant_partial",
    "Verif.C93_dense_fitness_partial",
    "Verif.C93_dense_invariant_partial",
    "Verif.C93_violated"
   ],
   "note": "Proved for the single-layer models (sparse, dense; the dense pair functions are those of spark) with properties that are zero or between 2^-33 and 2^33, a target that some parameter D <= 2^45 reaches with rtol to spare (scale-invariant models: D x_i y_j z_ij <= 64), initial parameter 0, rtol >= 20(n^2+300)2^-53. Fails when products of properties overflow (C93_violated). Binary64 with correctly rounded exp, expm1."
  },
  {
   "property": "C94",
   "status": "partial",
   "theorems": [
    "Verif.C94_law",
    "Verif.C94_distance_partial",
    "Verif.C94_sparse_fitness_partial",
    "Verif.C94_sparse_invariant_partial",
    "Verif.C94_dense_fitness_partial",
    "Verif.C94_dense_invariant_partial",
    "Verif.C94_rare",
    "Verif.C94_rare_violated"
   ],
   "note": "The law of the samples (C94_law) is proved for all finite inputs. The distance from the exact ensemble is proved for partial products in the range of C92, the distance after a fit under the hypotheses of C93. A bound relative to each probability fails for rare links: positive probabilities below 2^-53 are sampled as 2^-53 (C94_rare_violated)."
  },
  {
   "property": "C95",
   "status": "proved",
   "theorems": [
    "Verif.C95_independent",
    "Verif.C95_average",
    "Verif.C95_expected",
    "Verif.C95_deviation",
    "Verif.C95_deviation_expected"
   ],
   "note": "For all ensembles that use the loops of DiGraphEnsemble (Ens.Is); weights are not drawn."
  },
  {
   "property": "C96",
   "status": "proved",
   "theorems": [
    "Verif.C96_coupling",
    "Verif.C96_runs",
    "Verif.C96_increasing",
    "Verif.C96_expected"
   ],
   "note": "Binary samples; the weights of cremb samples depend on the probabilities and are not compared."
  },
  {
   "property": "C97",
   "status": "proved",
   "theorems": [
    "Verif.C97_law",
    "Verif.C97_numbers",
    "Verif.C97_refused",
    "Verif.C97_refused_draws",
    "Verif.C97_weights",
    "Verif.C97_average"
   ],
   "note": "C97_law: independence and laws of all entries of all graphs of a run; C97_numbers: random numbers read; C97_refused and C97_refused_draws: exceptions; C97_weights: finite weights; C97_average: strong law. numba's exponential is modelled as -log(1 - random()) * scale."
  },
  {
   "property": "C98",
   "status": "proved",
   "theorems": [
    "Verif.Fit.C98_root",
    "Verif.Fit.C98_fits",
    "Verif.Fit.C98_fits_shared",
    "Verif.Fit.C98_runs"
   ],
   "note": "C98_root: exact solutions; C98_fits and C98_fits_shared: converged fits; C98_runs: samples over any number of calls."
  },
  {
   "property": "C99",
   "status": "proved",
   "theorems": [
    "Verif.Fit.C99_probability",
    "Verif.Fit.C99_queries",
    "Verif.Fit.C99_solver",
    "Verif.Fit.C99_fit",
    "Verif.Fit.C99_fit_shared"
   ],
   "note": "C99_probability, C99_queries: the ensembles; C99_solver, C99_fit, C99_fit_shared: the runs of the solver. Without any possible link all probabilities are zero whatever the parameter; then the solver steps by f/atol, which is not rescaled (numLinkable > 0 is assumed)."
  },
  {
   "property": "C100",
   "status": "partial",
   "theorems": [
    "Verif.Reverse.C100_objective",
    "Verif.Reverse.C100_solver",
    "Verif.Reverse.C100_fit",
    "Verif.Reverse.C100_fit_multi",
    "Verif.Reverse.C100_build",
    "Verif.Reverse.C100_run",
    "Verif.Layer.C100_fit_labels",
    "Verif.Reverse.C100_probability",
    "Verif.Reverse.C100_mean",
    "Verif.Reverse.C100_queries",
    "Verif.Reverse.C100_sampling",
    "Verif.Reverse.C100_sample",
    "Verif.Reverse.C100_weights_partial",
    "Verif.Reverse.C100_weights_violated",
    "Verif.Reverse.C100_neighbours"
   ],
   "note": "Everything is proved except for weighted samples when the totals of the two strengths differ: the test of _cremb_sample divides the difference by the total out-strength, so strengths accepted in one orientation can be refused in the other (C100_weights_violated); C100_weights_partial assumes equal totals. Starting points of the fits are finite numbers."
  },
  {
   "property": "C101",
   "status": "proved",
   "theorems": [
    "Verif.Layer.C101_fit_labels",
    "Verif.Fit.C101_iterations",
    "Verif.Fit.C101_any_start",
    "Verif.Fit.C101_quadratic",
    "Verif.Fit.C101_default",
    "Verif.Fit.C101_default_shared",
    "Verif.Fit.C101_default_label"
   ],
   "note": "Exact real arithmetic (rounding is treated in C93). `C101_iterations` and `C101_quadratic` are about the solver called as in `fit`; `C101_default`, `_shared`, `_label` about `fit` itself with default options; `C101_fit_labels` about the sparse multi-layer models with the columns of the property matrices; `C101_any_start` for starts above the solution."
  },
  {
   "property": "C102",
   "status": "proved",
   "theorems": [
    "Verif.C102_entropy",
    "Verif.C102_score",
    "Verif.C102_possible",
    "Verif.C102_samples"
   ],
   "note": "Exact real arithmetic, ensembles of `Ens.Is` (random and conditional ensembles not compared). `C102_samples` needs no condition on which graphs are possible; `C102_score` and `C102_entropy` do, through `Covers`, since the mean of -inf is no number. Random numbers independent and uniform."
  },
  {
   "property": "C103",
   "status": "proved",
   "theorems": [
    "Verif.C103_maximum",
    "Verif.C103_ensembles",
    "Verif.C103_unique"
   ],
   "note": "Exact real arithmetic, finite parameters and properties, dyadic properties one. `C103_maximum` against all distributions on graphs, `C103_ensembles` against the ensembles of the library, `C103_unique` for two fitness models."
  },
  {
   "property": "C104",
   "status": "proved",
   "theorems": [
    "Verif.Layer.C104_default",
    "Verif.Layer.C104_strengths",
    "Verif.Layer.C104_vertex",
    "Verif.Layer.C104_law",
    "Verif.Layer.C104_numbers",
    "Verif.Layer.C104_lost",
    "Verif.Layer.C104_accepted",
    "Verif.Layer.C104_average"
   ],
   "note": "Weights of the dense backend cannot be drawn (the method called does not exist, F43). Exact arithmetic; exponential variates as in numba: -log(1 - random()) * scale."
  },
  {
   "property": "C105",
   "status": "partial",
   "theorems": [
    "Verif.Graph.Tab.C105_twice_violated",
    "Verif.Graph.Tab.C105_tables",
    "Verif.Graph.Tab.C105_columns_partial",
    "Verif.Graph.Tab.C105_sequence_partial",
    "Verif.Graph.Tab.C105_weighted_partial",
    "Verif.Graph.Tab.C105_unweighted_partial",
    "Verif.Graph.Tab.C105_multi_weighted_partial",
    "Verif.Graph.Tab.C105_multi_unweighted_partial",
    "Verif.Graph.Tab.C105_errors",
    "Verif.Graph.Tab.C105_missing_violated",
    "Verif.Graph.Tab.C105_swap_violated"
   ],
   "note": "The columns changed (C105_tables) and the exceptions (C105_errors) in full. Rows, independence of other columns and sequences (C105_weighted_partial, C105_unweighted_partial, C105_multi_weighted_partial, C105_multi_unweighted_partial, C105_columns_partial, C105_sequence_partial) if no argument names a column that the constructors write. False otherwise: with src=\"_src\" a second construction raises (C105_twice_violated); with src=\"_dst\", dst=\"_src\" all links become self-loops (C105_swap_violated). A missing v_id column is reported as a repeated identifier (C105_missing_violated)."
  },
  {
   "property": "C106",
   "status": "partial",
   "theorems": [
    "Verif.Alias.C106_unchanged",
    "Verif.Alias.C106_values",
    "Verif.Alias.C106_construct",
    "Verif.Alias.C106_private_partial",
    "Verif.Alias.C106_average_partial",
    "Verif.Alias.C106_degree_computed",
    "Verif.Alias.C106_param_violated",
    "Verif.Alias.C106_param_number",
    "Verif.Alias.C106_property_violated",
    "Verif.Alias.C106_start_computed",
    "Verif.Alias.C106_start_violated"
   ],
   "note": "No call changes an existing array (C106_unchanged) and agreement with copies (C106_values) in full. Later writes have no influence if the array is not an attribute of the ensemble and not given to it afterwards (C106_private_partial), e.g. averages of properties (C106_average_partial). False for the attributes: parameter array (C106_param_violated), property arrays (C106_property_violated), returned degree arrays (C106_degree_computed) and the starting array of a fit without iterations (C106_start_violated). Single-layer models with node properties; the loops read the arrays through the functions of Ensemble/Model.lean."
  },
  {
   "property": "C107",
   "status": "partial",
   "theorems": [
    "Verif.C107_degrees_partial",
    "Verif.C107_error_partial"
   ],
   "note": "Proved for partial products between 2^-1000 and 2^1000 (or a zero factor) and up to 2^26 vertices. Outside that range the probabilities themselves are wrong (C92_underflow_violated, C92_overflow_violated). Binary64 with rounding to nearest, correctly rounded expm1."
  },
  {
   "property": "C108",
   "status": "partial",
   "theorems": [
    "Verif.C108_invariant_sparse_partial",
    "Verif.C108_invariant_dense_partial",
    "Verif.C108_fitness_sparse_partial",
    "Verif.C108_fitness_dense_partial",
    "Verif.C108_relative_violated",
    "Verif.C108_fitness_relative_sparse_partial",
    "Verif.C108_fitness_relative_dense_partial"
   ],
   "note": "Scale-invariant model: as stated, up to 2^20 layers and 2^25 vertices. Fitness model: only absolute errors, (5L+1) 2^-53 per pair, because the relative statement fails: probabilities below about 2^-54 are computed as 0 and their logarithm as -inf (C108_relative_violated); if the probabilities that are not zero are at least 1/K the relative errors are bounded in terms of (5L+1)K (C108_fitness_relative_*_partial). Factors in the range of LayerRange; binary64 with rounding to nearest, correctly rounded expm1."
  },
  {
   "property": "C109",
   "status": "partial",
   "theorems": [
    "Verif.C109_layers_fitness_sparse_partial",
    "Verif.C109_layers_fitness_dense_partial",
    "Verif.C109_likelihood_partial",
    "Verif.C109_layers_sparse_partial",
    "Verif.C109_layers_dense_partial",
    "Verif.C109_large_violated",
    "Verif.C109_layers_fitness_violated"
   ],
   "note": "Proved for up to 2^25 vertices, products of parameter and properties in the range of InRange or LayerRange and at most T <= 2^40, for the single-layer models and the scale-invariant model with up to 2^20 layers. False for large products: with a product of 2^53 the empty graph gets minus infinity although its log-likelihood is finite (C109_large_violated). False for the fitness model with several layers, whose logp is minus infinity for probabilities below about 2^-54 (C109_layers_fitness_violated); for it the bound with 6(L+1)K in place of (3L+9)(1+LT) is proved if the probabilities are 0 or between 1/K and 1-1/K (C109_layers_fitness_*_partial). Binary64 with rounding to nearest, correctly rounded mathematical functions."
  },
  {
   "property": "C110",
   "status": "partial",
   "theorems": [
    "Verif.C110_layers_fitness_sparse_partial",
    "Verif.C110_layers_fitness_dense_partial",
    "Verif.C110_layers_sparse_partial",
    "Verif.C110_layers_dense_partial",
    "Verif.C110_layers_violated",
    "Verif.C110_property_partial",
    "Verif.C110_degree_partial",
    "Verif.C110_outin_violated",
    "Verif.C110_outin_partial",
    "Verif.C110_layers_outin_sparse_partial",
    "Verif.C110_layers_outin_dense_partial"
   ],
   "note": "Proved for the single-layer models and the multi-layer scale-invariant models (C110_layers_sparse_partial, C110_layers_dense_partial) with up to 2^25 vertices, directions out and in, a constant dyadic property, products in the range of InRange, and probabilities and averaged values that are zero or between 2^-400 and 2^400. For the direction out-in proved if positive probabilities are at least 1/K with K <= 2^19, with a bound proportional to K (C110_outin_partial, C110_layers_outin_sparse_partial, C110_layers_outin_dense_partial); false in general, because it computes 1 - (1 - pij)(1 - pji) and so loses probabilities below about 2^-54: an average of 1 is returned as 0 (C110_outin_violated). For the multi-layer fitness models proved in all directions under the same condition with (5 L + 1) K <= 2^19 (C110_layers_fitness_sparse_partial, C110_layers_fitness_dense_partial); false in general, because they lose probabilities below about 2^-54: an average of 1 is returned as 0 (C110_layers_violated). Binary64 with rounding to nearest, correctly rounded mathematical functions."
  },
  {
   "property": "C111",
   "status": "partial",
   "theorems": [
    "Verif.C111_fit_partial",
    "Verif.C111_likelihood_partial",
    "Verif.C111_likelihood_branches",
    "Verif.C111_average_partial",
    "Verif.C111_average_loops_partial",
    "Verif.C111_average_violated",
    "Verif.C111_sample_partial",
    "Verif.C111_weight_continuous_partial",
    "Verif.C111_weight_discrete_partial",
    "Verif.C111_fit_errors"
   ],
   "note": "Fit and expectations: up to 2^26 vertices and numbers of edges that are zero or between 2^-300 and the number of admissible pairs. Weight parameter: positive total weights, at least the number of edges if discrete; no underflow or overflow of the quotient if continuous. Likelihood: link probabilities at least 2^-400 away from 0 and 1; exceptions and -inf for all inputs. Averages: up to 2^25 vertices, properties zero or in [2^-400, 2^400], not out-in with self-loops; without self-loops the bound is in units of the average over all vertices, a bound relative to the average itself is false (C111_average_violated). Binary64, correctly rounded logarithms, squares rounded like products."
  },
  {
   "property": "C112",
   "status": "partial",
   "theorems": [
    "Verif.C112_dense_degrees_partial",
    "Verif.C112_dense_edges_partial",
    "Verif.C112_expected_partial",
    "Verif.C112_sparse_sample_partial",
    "Verif.C112_dense_sample_partial"
   ],
   "note": "Factors zero or in the normal range of Round.LayerRange; up to 2^25 vertices for the expectations. Missing: factors whose products underflow or overflow; dense numbers of edges by label unless there are as many labels as vertices (the dense loop runs over the wrong index, C49_dense_edges_violated); binary64 with round to nearest."
  },
  {
   "property": "C113",
   "status": "partial",
   "theorems": [
    "Verif.C113_dense_partial",
    "Verif.C113_partial"
   ],
   "note": "Properties zero or between 2^-33 and 2^33, start from zero, tolerances in FitRange, numbers of edges reached by parameters up to 2^45 (scale-invariant model: parameter times properties up to 64). Missing: the number the dense expected_num_edges_label returns (its loop runs over the wrong index, C49_dense_edges_violated; C113_dense_partial is about the exact expected number only); other starts (integer starts are wrong even without rounding, C69_violated). Binary64 with round to nearest, correctly rounded exp and expm1."
  },
  {
   "property": "C114",
   "status": "partial",
   "theorems": [
    "Verif.C114_sparse_partial",
    "Verif.C114_dense_partial",
    "Verif.C114_fitness_violated"
   ],
   "note": "Proved for the scale-invariant models, sparse and dense, with properties zero or between 2^-33 and 2^33, start from zero, tolerances in FitRange, and a target reached by a parameter D up to 2^45 with (L + 3)(1 + D sum_k x_ik y_jk) at most 100 for all pairs. False for the fitness models (C114_fitness_violated). Missing: other ranges and starts. Binary64 with round to nearest, correctly rounded exp and expm1."
  },
  {
   "property": "C115",
   "status": "partial",
   "theorems": [
    "Verif.C115_sparse_partial",
    "Verif.C115_dense_partial",
    "Verif.C115_large_violated"
   ],
   "note": "Proved for factors in the range of LayerRange and products of parameter and properties at most T <= 2^40. False for large products: with a product of 2^53 the empty graph gets minus infinity although its log-likelihood is finite (C115_large_violated). Binary64 with rounding to nearest, correctly rounded mathematical functions."
  }
 ]
}