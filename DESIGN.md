# Formal model of graph-ensembles: design

The code under study is a Python library that defines ensembles of random
graphs (single and multi-layer, directed), fits their density parameter with a
bracketed Newton solver, computes expectations, likelihoods and samples, and
provides graph containers and a few graph measures.  Everything below is a
*model* of that code written in Lean 4 by reading the source; the code has not
been run.  Line numbers cite `/repo/src/graph_ensembles/...` at the pinned commit.

Contents: conventions of the model; layout; trusted base; what is and is not
modelled; how each property is stated; findings; seeded edits.

## Conventions of the model

* **Numbers.**  Floating-point values are modelled by `XR` (`Verif/Num.lean`): a
  real number, `+inf`, `-inf` or `nan`, with the IEEE rules for the special
  values but *without rounding, underflow, overflow or the sign of zero*.
  The modules in `Verif/Round` repeat the probabilities and the loops over pairs with the
  arithmetic as a parameter, and are the only place where rounding is considered; with exact
  arithmetic they are the other model by definition (`prob_exact`, `multi_exact`, `loops_exact`).
  Functions that only add and multiply finite values are modelled over `ℝ`
  directly.
* **Arrays** of length `n` are functions `ℕ → α` read at indices `< n`, or lists
  when the code iterates over them; in-place `a[i] += v` is `addAt`.
* **Loops** are left folds over `List.range n` (or the list iterated over) with
  the loop-carried variables as accumulator, in the order of the code.  An early
  `return` inside a loop is a fold in `Except`.
* **Exceptions** are values: every part of the model has its own `Err` type with
  one constructor per kind of exception.
* **Random numbers** are an explicit argument: a function giving the draw used
  at each call site, or the stream of draws in order of consumption.  Laws are
  stated for draws that are independent and uniform (`IsUniform`,
  `Verif/Uniform.lean`), weights for independent exponential variates.  In C94 the
  draws are multiples of 2⁻⁵³, all equally likely (`IsGrid`, `Verif/Round/Grid.lean`),
  as those of `numpy.random.random` compiled by numba.
* **Objects with attributes** (`hasattr`-style caches) are structures with
  `Option` fields; method calls are state transformers; histories are lists of
  operations.  An exception keeps the changes made before it was raised.
* **Compiled code.**  Functions under `jit(nopython=True)` do not raise on
  `log(0)`; in `conditional.py` a division by zero inside compiled code raises
  `ZeroDivisionError` (numba's default error model) and this is modelled.  Bounds
  errors of compiled code are recorded as failures (`none` or an error value).
* **Spark.**  An RDD is the list of its elements.  The relation `Folds` contains
  every order and grouping in which partial results may be combined; theorems
  hold for every outcome in the relation.

## Layout

`lean/Verif/<Topic>/Model.lean` holds the model, `Spec.lean` vocabulary of the
specification, `*Lemmas.lean` helper lemmas, `*Props.lean` the property theorems
(named `Cxx_...`, one or more per property), each followed by an `example` that
shows its hypotheses to be satisfiable on a concrete case.

| directory | code | properties |
|---|---|---|
| `Num`, `NumOrder` | floating-point values | – |
| `Law`, `Uniform`, `Coarse` | specification: law of a random graph with independent links, uniform draws, aggregation of graphs | – |
| `Prob` | `p_ij`, `logp`, `log1mp`, `p_jac_ij` and the per-label versions of all fitness and scale-invariant models, three backends | C01–C08 |
| `Ensemble` | `DiGraphEnsemble` loops, query methods with caches, likelihood and sampling methods, successive samples with and without weights | C09–C19, C51–C53, C95–C97 |
| `Graph` | `graphs.py`, `sparse/graphs.py`; `Table.lean`: the constructors on data frames with named columns | C20–C29, C70–C72, C87, C105 |
| `Solver` | `solver.py`, objective functions, `fit` | C30–C35, C54, C66–C68, C98, C99, C101 |
| `Random` | `RandomDiGraph` in all three backends, histories of its queries, the graphs it samples | C36–C38, C55, C82, C83 |
| `Cond` | `ConditionalInvariantModel` | C39–C42, C56–C58, C64, C65, C86, C88 |
| `Alias` | arrays passed by reference between ensembles and callers | C106 |
| `Columns` | nearest-neighbour averages of property arrays with several columns; numpy broadcasting | C89 |
| `Relabel` | no code: what it means for two models, calls and results to be the same up to the numbers of the vertices | C90 |
| `Round` | the functions of `Prob` and the loops `exp_edges`, `exp_degrees`, `exp_av_nn_prop`, `likelihood` and `exp_edges_f_jac`, the solver and the single-layer `fit`, in rounded arithmetic; `_binary_sample` with 53-bit random numbers; `RandomDiGraph` (`RandModel`); the loops over one label, `_binary_sample_layer` and `_binary_sample_tensor` (`LayerModel`, `LayerDense`); `fit` of the multi-layer models (`LabelFit`, `LabelDense`, `SharedModel`); the tensor branches of `log_likelihood` (`LikeLayer`) | C91–C94, C107–C115 |
| `Spark` | blocks, loops over blocks, jobs, confusion matrix; the methods `log_likelihood`, `confusion_matrix` and `sample`; histories of queries | C43, C44, C80, C81 |
| `Lib` | `lib.py` | C45, C50, C59, C60 |
| `Validate` | constructors of all models (dense, sparse and Spark) | C46, C47, C77 |
| `Convert` | conversions between compressed matrices and lists | C48 |
| `Layer` | label-resolved loops of `MultiDiGraphEnsemble`; successive label-resolved samples with and without weights | C49, C61–C63, C69, C73, C76, C104 |
| `Sampled` | graph objects returned by `sample`, reference graphs, strength arguments; averages of graph queries over samples | C74, C75 |
| `Flow` | composition: edge table → graph → queries → model → fit → expected edges and likelihood; the same with labels, and for the random ensemble | C78, C79, C84 |
| `Reverse` | no code: what it means for two models, fits or edge tables to be the same with all links reversed | C100 |
| `Score` | no code: the log-likelihood of one ensemble on graphs of another; entropy of distributions on graphs | C102, C103 |
| `Mle` | the parameter found by `fit` against the maximum of `log_likelihood` | C85 |

## Trusted base

1. **Lean's kernel** (4.33.0) and the Mathlib modules imported.
2. **Axioms.**  No axiom is declared in this project and there is no `sorry`,
   `admit`, `native_decide` or `bv_decide`.  `collectAxioms` was run on every
   property theorem (`Cxx_...`): each depends on at most `propext`,
   `Classical.choice` and `Quot.sound`.  (Real numbers make all three unavoidable
   in practice; only a few statements about natural numbers need fewer.)
3. **Faithfulness of the model.**  The definitions in the `Model.lean` files (and
   `Solver/Fit.lean`, `Cond/Fit.lean`, `Graph/{Query,Table}.lean`, `{Ensemble,Random,Spark,Cond}/Query.lean`,
   `Ensemble/{Method,Repeat,Weighted}.lean`, `Layer/Stream.lean`, `Round/{Solver,Grid}.lean`) were
   written by reading the code.  Nothing checks them mechanically against the
   Python source.  Simplifications are stated in the comment of each definition
   and summarised in the next section.
4. **Behaviour of libraries** that the model takes as given:
   numpy (`unique`, fancy assignment, `ravel` is a view exactly for contiguous
   arrays, `sum`, `logspace`, casts on assignment), scipy.sparse (COO → CSR adds
   duplicates, CSR rows sorted, `nnz` counts stored entries, `tocsc` keeps the
   row order), pandas joins as dictionary look-ups, numba's error model, Spark's
   `map`/`fold`/`collect`, and the generator producing independent uniform
   (`rng.random()` in `[0, 1)`) and exponential variates.  In C97 and C104 the latter are
   computed from the former as in numba's implementation of `numpy.random.exponential`:
   `-log(1 - random()) * scale`, one random number each.
   `np.infty` (removed in numpy 2) is read as `np.inf`.

## What is not modelled

* rounding, overflow and underflow, except in `Round` (C91–C94, C107–C115), where every operation is
  rounded separately (numba is used without `fastmath`) and `exp`, `expm1`, `log` and `log1p`
  are assumed to be faithful (C91) or correctly rounded (C92–C94, C107–C115); the sign of zero; integer
  overflow of counters and indices;
* warnings (except those about isolated vertices, C72), printed messages, `repr`s, docstrings, execution time and memory;
* networkx itself (only the documented meaning of adding nodes and edges is used);
  the float type of the edge keys written by the sparse multigraphs;
* in the graph constructors: frames with two columns of the same name, and the type of the
  exception raised by numpy when no source or no target is known (C105);
* callers that write into arrays shared with an ensemble are modelled for the single-layer models
  (`Alias`, C106), not for graphs, multi-layer, conditional and random ensembles; assignments to
  attributes from outside; views of parts of arrays;
* scipy itself: boolean sparse matrices are taken to add as "or" and to subtract as 0/1
  numbers stored as "is not zero" (`boolSub`, used by C87);
* serialisation and scheduling in Spark, and the seeding of the generators of
  the workers; the partitioning of the RDDs;
* data types of identifiers beyond their width (`C26`); pandas-specific failures
  on missing columns or mixed types;
* in the multi-layer Spark `confusion_matrix`, one-dimensional arrays as argument; an undefined
  (`nan`) end of the range of the automatic thresholds is read as zero;
* arrays with more than two dimensions and sparse arrays as property of the nearest-neighbour
  averages (two dimensions: `Columns`, C89);
* in `Flow`: graphs without weights and values other than booleans for `selfloops`;
* user-defined subclasses and user-supplied `prop_dyad` functions that raise.

## How the properties are stated

`properties.jsonl` gives the English statement, `MANIFEST.json` the status and
the theorem names.  Points worth knowing when reading the theorems:

* **Probabilities (C01–C08).**  The specification side uses `ℝ≥0∞` for
  parameters and properties, so that infinite and zero values are included, and
  closed formulas (`Spec.fitProb`, `Spec.invProb`).  Sparse label lists are
  arbitrary sorted lists.
* **Ensembles (C09–C19).**  `Ens.IsModel` / `Ens.Is E q` enumerate the nine
  concrete model classes; `Ens.Is E q` also states the link probability `q` as an
  explicit formula of the parameters.  Statements `Cxx_formula`, `Cxx_models`
  mention the formula, so they also fail when the pair functions are wrong in a
  consistent way.  The law of the ensemble is `Law.prob`: the product measure on
  the finite set of graphs, written without reference to the model.
* **Sampling (C14, C40, C62).**  "The sampler follows the law" means: for every
  probability space with independent uniform draws, the probability that the
  sampler's output has edge set `G` is the law of `G`.
* **Caches (C18, C19, C29, C76, C81, C82).**  Quantified over all lists of method calls,
  including calls that raise.  C81 (Spark) is a relation: `Run` holds of every result some
  schedule can produce, and the theorems say that there is exactly one.
* **Solver (C30–C35, C54, C66–C69).**  `C30`–`C32` quantify over arbitrary functions; the
  `Fit` theorems instantiate the solver with the objective of each model class
  (finite properties) and need no further hypothesis.
* **Constructors (C46, C47).**  Acceptance is characterised by an equivalence,
  and the stored attributes are shown to be the given ones.
* A theorem named `..._violated` proves that the English property fails for the
  modelled code on a concrete input; `..._partial` is the part that holds, and
  `..._computed` gives the value actually computed for all inputs.

## Findings

Places where the code (as modelled) does not satisfy the stated property.  Each
one is a theorem.

Probabilities and fits
* F1 `MultiInvariantModel.p_jac_ij` (sparse, dense) does not return the link
  probability at parameter `inf` when no label is shared, nor at parameter 0 with
  an infinite product (`C05_multiInv_value_violated`, exact condition in
  `C05_multiInv_value_iff`).
* F2 A per-label fit started from an integer array stores the fitted parameters
  truncated to integers (`C34_integer_start_violated`, `C69_violated`).
* F3 The solver can leave its bracket for increasing functions that do not attain
  the target (`C30_violated`); a `nan` residual or a negative target ends the run
  with no flag set (`C32_unexplained_nan`, `C32_unexplained_negative`).

Ensemble queries
* F4 An exception in a query that overrides `selfloops` leaves the override in
  place (`C18_violated`, `C55_direction`).
* F5 Caches are not invalidated by `fit`, and the key of cached neighbour
  averages does not contain the self-loop setting (`C19_refit_violated`,
  `C19_mixed_violated`, `C19_selfloops_violated`); averages may raise `AssertionError`
  (`C19_assertion_violated`).  The Spark classes and `RandomDiGraph` share both
  defects (`C81_violated`, `C82_violated`, `C82_cached`).  The key also replaces
  hyphens by underscores, so that the undocumented direction `out_in` is taken
  for `out-in` once that is cached (`C19_cached`, `C19_key_violated`,
  `C81_key_violated`, `C82_key_violated`).
* F6 `log_likelihood` and `sample` ignore their `selfloops` argument
  (`C52_violated`, `C52_ignored`).
* F7 Sparse matrices with stored zeros: the zero counts as a link
  (`C51_sparse_violated`, `C37_stored_violated`).
* F8 A dyadic property is not symmetric in the neighbour loops
  (`C17_dyad_violated`) and is read at block-relative positions in Spark
  (`C43_dyad_violated`).

Graphs
* F9 Dense graphs keep the last of repeated edges, sparse graphs add them
  (`C21_dense_violated`, `C22_dense_violated`, `C23_dense_violated`).
* F10 Dense group strengths are truncated to integers (`C25_dense_violated`).
* F11 Dense multigraphs double self-loop weights in undirected projections
  (`C27_weight_dense_violated`, `C28_multi_dense_violated`); sparse unweighted
  multigraphs project to a boolean (`C27_weight_sparse_bool_violated`).
* F12 Neighbour averages without self loops divide by a degree that counts the
  self loop, the dense in-direction ignores `selfloops=False`, cached values
  ignore it, and the key confuses `out-in` with `out_in`
  (`C29_selfloop_violated`, `C29_dense_in_violated`, `C29_history_violated`,
  `C29_key_violated`).
* F26 `to_networkx` of undirected multigraphs keeps one of the two weights of a pair
  joined in both directions instead of their sum
  (`C71_multi_undirected_violated`).

Random graphs
* F13 `fit` divides by zero for one vertex or zero total weight (`C36_violated`,
  `C36_weight_violated`).
* F14 The likelihood is wrong or raises at link probability 0 and 1, for sparse
  matrices in the dense backend, and for negative diagonals
  (`C37_*_violated`).
* F15 `expected_total_weight` and all weighted samplers raise (`C38_violated`,
  `C83_weights_violated`); `sample` ignores its argument `selfloops`
  (`C83_selfloops_violated`); more edges than pairs of vertices are accepted and give a link
  probability above one (`C83_overfull_violated`).
* F16 Neighbour averages with self loops in direction `out-in` (`C55_violated`).

Conditional model
* F17 Degrees are wrong when the coarse graph is not symmetric
  (`C41_asymmetric_violated`) or has links within groups
  (`C41_within_group_violated`).
* F18 At parameter zero the sampler divides by zero (`C40_zero_param_violated`);
  the likelihood raises when a group has zero total (`C56_zero_total_violated`).
* F25 The objective of `fit` switches to its value at parameter zero when a coarse
  link has probability below `1e-12` (`C64_violated`; the error is at most `2e-12`
  per coarse link, `C64_error`).
* F19 A coarse matrix given in CSC format is read transposed (`C57_csc_violated`).

Spark
* F20 Automatic thresholds pass natural logarithms to a base-ten `logspace`
  (`C44_thresholds_violated`, `C44_degenerate_violated`) and raise for vanishing
  properties (`C44_zero_violated`).

Constructors
* F21 `nan` and lists are accepted as parameters (`C46_violated`); groups may have
  any length and negative entries (`C46_groups_violated`); an explicit number of
  edges given with a multigraph is ignored or rejected
  (`C46_multi_override_violated`, `C46_multi_array_violated`, `C47_violated`).

Layers
* F22 Dense `exp_edges_label` loops over the number of vertices instead of labels
  (`C49_dense_edges_violated`); sparse and Spark label degrees count mutual pairs
  twice (`C49_degrees_violated`), so that they are not the average degrees of samples
  (`C75_violated`).
* F27 `log_likelihood` of multi-layer ensembles raises `AttributeError` where it means to
  report a wrong number of vertices (sparse), and for every list of sparse matrices, which
  it means to accept (dense) (`C73_violated`).
* F28 `sample` of multi-layer ensembles ignores its argument `selfloops`; the sparse backend
  accepts unknown weights when there are no labels; the dense backend raises `AttributeError`
  for every weighted sample, since `_cremb_sample_tensor` does not exist (`C74_violated`).
  Reference graphs with another number of vertices are accepted by all of them
  (`C74_ref_violated`).
* F29 Refitting or changing `selfloops` does not invalidate the label-resolved queries
  (`C76_stale`, `C76_violated`).  In the Spark backend the out and in degrees by label stay
  stale even with `recompute=True` (`C76_spark_stale`), `expected_num_edges` tests the wrong
  attribute and raises `AttributeError` after the label-resolved query
  (`C76_spark_attribute_violated`), and the degrees by label raise `IndexError` when no pair
  contributes (`C76_spark_values_partial`).
* F23 A stored self-link of a vertex without properties makes the layer likelihood
  `-inf` even when self loops are excluded (`C61_violated`).
* F32 Methods of the Spark ensembles.  The automatic thresholds of `confusion_matrix` are powers of
  the smallest and largest probability instead of numbers between them (`C80_auto_violated`), and the
  call raises if some pair cannot be linked (`C80_auto_zero_violated`).  In the multi-layer ensembles
  the range is that of the scale-invariant model with the first parameter, for every model and number
  of labels (`C80_multi_range_violated`); `sample` ignores its argument `selfloops`
  (`C80_multi_violated_sample`).

Whole runs
* F30 `FitnessModel(g)` excludes self-loops by default but takes the number of edges of `g`
  with its self-loops, so that the fit of a graph with self-loops may not converge; the number
  of edges of a graph that links every vertex with outgoing to every vertex with incoming rows
  (for instance a single link) is not reproduced by any finite parameter (`C78_violated`).
  Made from the same table with a repeated row, the dense classes use the weight of the last row and
  the sparse classes the sum (`C78_repeated_violated`).
* F31 The same label by label: a label with only self-loops makes the default fit of the multi-layer
  model report no convergence, and a label that links all its supported pairs is not reproduced by any
  finite parameter (`C79_violated`).
* F33 `RandomDiGraph(g)`: excluded self-loops are counted as edges, so that the link probability can
  exceed one (`C84_selfloops_violated`); a single vertex gives an infinite or undefined probability
  (`C84_vertex_violated`); the likelihood of the graph raises or is `-inf` when the graph has no or
  all links (`C84_empty_violated`, `C84_complete_violated`); undirected graphs are accepted, their
  edges counted once for the fit and twice for the likelihood (`C84_undirected_violated`); graphs
  returned by `sample` are refused since they have no attribute `weighted`
  (`C84_resample_violated`).
* F34 The parameter found by `fit` of a fitness model is the maximum likelihood parameter of the
  graph, except that excluded self-loops are counted by the fit and not by the likelihood
  (`C85_selfloops_violated`).
* F35 `ConditionalInvariantModel` inherits `expected_av_nn_property` and
  `expected_av_nn_degree`, which sum with the unconditional probabilities and divide by
  the conditional degrees: the average of the constant 1 is not 1
  (`C86_average_violated`), and a vertex without coarse links raises `AssertionError`,
  leaving the self-loop setting changed (`C86_setting_violated`). Cached expectations
  survive a new fit (`C86_stale_violated`).
* F36 Strengths of graphs without weights are documented to be the degrees. In the sparse
  backend the undirected strengths, total weights and the networkx graph lack the self loops
  (`C87_sparse_violated`, exact deviation in `C87_sparse`, `C87_label_sparse`,
  `C87_multi_sparse`). In dense multigraphs they count labels, and self loops twice
  (`C87_multi_dense`, `C87_multi_dense_total`), so that the two backends differ
  (`C87_multi_dense_violated`).
* F37 Property arrays of shape `(n, k)` are documented arguments of `average_nn_property` and
  `expected_av_nn_property`, but `av_nn[ind] / deg[ind]` aligns the degrees with the columns. With
  `m` linked vertices the call raises `ValueError` unless `m = 1` or `m = k` (an array with one
  column is refused as soon as two vertices are linked), leaving an overridden self-loop setting in
  place; for `m = k` it silently divides column `c` by the degree of the `c`-th linked vertex.
  The sparse and dense `RandomDiGraph` sum over all columns and return one number per vertex, or
  raise without self loops (C89).
* F38 The order in which the vertices are listed changes results in two cases: neighbour averages
  with self loops and a dyadic property that varies (`C90_dyad_violated`; cause as in
  `C17_dyad_violated`), and degrees of the conditional model when a coarse link goes one way only
  (`C90_cond_degrees_violated`; cause as in F17).
* F39 Rounding (C91, C92): with an infinite property the fitness probability can be `nan`, because a
  partial product underflows to 0 and 0·inf is `nan` (`C91_infinite_violated`). Finite values of
  extreme size give 0 or 1 instead of 1/2, depending on the order of the factors
  (`C92_underflow_violated`, `C92_overflow_violated`). `log1mp` of the fitness model, computed as
  `log1p(-t/(1+t))`, is `-inf` from `t = 2^53` on although the probability of no link, `1/(1+t)`, is
  representable: the log-likelihood of every graph without that link becomes `-inf`
  (`C92_log1mp_violated`). `-log1p(t)` would be accurate. Larger properties can give smaller
  probabilities (`C92_monotone_violated`).
* F40 The fit in double precision (C93): if the product of two properties overflows, the derivative
  at the initial point is infinite, the Newton step is zero and is taken for a step out of the
  interval, so the solver jumps to infinity, then back to zero, where it stays until the iteration
  limit. It returns the parameter zero although a representable parameter gives exactly the
  requested number of edges (`C93_violated`). Multiplying the parameter first, or scaling the
  properties, would avoid this. Relative tolerances below about 20 (n² + 300) · 2⁻⁵³ are not
  covered by C93: the error of the computed expected number of edges may then exceed the tolerance.
* F41 Sampling with 53-bit random numbers (C94): a link is drawn with its computed probability
  rounded up to a multiple of 2⁻⁵³, so every positive probability below 2⁻⁵³ is sampled as 2⁻⁵³
  (`C94_rare`, `C94_rare_violated`). The absolute error per link is at most 7 · 2⁻⁵³
  (`C94_distance_partial`).
* F42 `_cremb_sample` tests the strengths by dividing the difference of the totals by the total
  out-strength, so the same strengths can be accepted in one orientation of the network and refused
  in the other (`C100_weights_violated`). Everything else is invariant under reversal (C100).
* F43 `models.py:1834-1860` (`_cremb_sample_layer`) is dead code: no method calls it. It would
  take the strengths `s_out[1]`, `s_in[1]` of the second vertex for the totals, and passes a pair
  property that the dense `p_ijk` does not accept. It is not modelled.
* F44 The constructors of graphs write the columns `_node`, `_src`, `_dst` and `_label` into the
  caller's tables (C105). Arguments with these names are overwritten before or after they are read:
  `src="_dst", dst="_src"` turns all links into self-loops (`C105_swap_violated`), and with
  `src="_src"` the same call raises the second time (`C105_twice_violated`).
* F45 A `v_id` column that does not exist is reported as "at least one repeated id", because all
  exceptions but `ValueError` are replaced (`C105_missing_violated`).
* F46 Ensembles keep and hand out references (C106): property arrays and a parameter array given to
  the constructor (with a graph: its cached strength arrays), the arrays returned by
  `expected_degree`, `expected_out_degree`, `expected_in_degree`, `expected_av_nn_degree`, and the
  starting array of a fit that stops without iteration. A caller who writes into one of them changes
  later results without any recomputation being triggered (`C106_param_violated`,
  `C106_property_violated`, `C106_degree_computed`, `C106_start_violated`). The library itself
  never writes into an existing array (`C106_unchanged`), so without such writes everything is as
  in the value model (`C106_values`).
* F47 The multi-layer fitness model computes the probability of a link as one minus a product
  (C108). Probabilities below about 2⁻⁵⁴ become 0, and `logp` then returns `-inf`, although the
  single-layer model handles the same values without loss; the relative error of small
  probabilities is unbounded (`C108_relative_violated`), and nearest-neighbour averages of a property
  that is 1 everywhere are returned as 0 instead of 1 (`C110_layers_violated`). `-expm1(-sum(log1p(tmp)))`, as in the
  scale-invariant model, would be accurate. If the probabilities that are not zero are at least 1/K,
  the relative errors are bounded in terms of K (`C108_fitness_relative_sparse_partial`,
  `C108_fitness_relative_dense_partial`), and if they are also at most 1 - 1/K so is the error of the
  log-likelihood (`C109_layers_fitness_sparse_partial`, `C109_layers_fitness_dense_partial`).
* F48 For a product of parameter and properties of 2⁵³ or more the fitness model computes the
  log-likelihood `-inf` for graphs without that link, and over several layers it computes `-inf`
  for graphs with a link of probability below about 2⁻⁵⁴, although both are possible
  (`C109_large_violated`, `C115_large_violated`, `C109_layers_fitness_violated`). For products of at most 2⁴⁰ the
  single-layer models and the scale-invariant model over several layers return `-inf` for
  impossible graphs only (C109). `-log1p(tmp)` instead of `log1p(-tmp/(1+tmp))` would be
  accurate for all products.
* F49 For the direction `out-in` the nearest-neighbour averages use `1 - (1 - pij)*(1 - pji)`, which is
  computed as 0 for probabilities below about 2⁻⁵⁴, whereas the degrees they are divided by use
  `pij + pji - pij*pji`. In a sparse ensemble the average of a property that is 1 everywhere is then
  returned as 0 instead of 1 (`C110_outin_violated`). The directions
  `out` and `in` are accurate (C110), and `out-in` is if no positive probability is small
  (`C110_outin_partial`). The formula of the degrees would be accurate here too.
* F50 Without self-loops `RandomDiGraph.expected_av_nn_property` subtracts the property of the vertex
  from the sum over all vertices. If that property is more than 2⁵³ times the others the average is
  computed as 0 (`C111_average_violated`). In units of the average over all vertices the error is
  small (C111); adding up the other vertices only would be accurate.
* F51 `p_jac_ij` of the multi-layer fitness models, like `p_ij` (F47), subtracts a product of quotients
  from one. A fit with one parameter for all labels and a small number of edges can report that it
  converged after one step although the expected number of edges misses the target by more than a
  thousand times the tolerance (`C114_fitness_violated`). The fit with one parameter per label (C113) and
  the scale-invariant models (C114) are accurate.

Measures
* F24 Page rank of unweighted or integer-weighted graphs loses probability because
  normalised weights are stored with the dtype of the weights
  (`C45_unweighted_violated`, `C45_integer_violated`); trophic depth raises for
  all graphs of this package (`C59_violated`).

## Seeded edits

`seeded/LOG.jsonl` records wrong versions of the model that were tried in a scratch
copy: which definition was changed, how, which claim the change breaks, which
theorems then failed, and which statements were tightened because they did not.
A theorem is counted as failing for an edit only if its *statement* unfolds to the
edited definition.
