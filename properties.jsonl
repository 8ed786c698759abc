{"id": "C01", "title": "Connection probabilities are probabilities", "statement": "For every model (FitnessModel, ScaleInvariantModel, and the single-layer and all-layer probabilities of MultiFitnessModel and MultiInvariantModel) the value returned for the probability of a link is a finite number in [0, 1]; it is never NaN and never outside the interval, even when fitnesses or the parameter are zero or infinite.", "quantifier": "all non-negative (possibly infinite) parameters, out/in properties, dyadic factors and all label lists", "why_tests_cant": "The dangerous inputs are the corners 0*inf, inf/inf and overflowed products; a test samples finitely many triples and cannot show that no combination yields NaN or a value outside the unit interval.", "anchors": ["src/graph_ensembles/sparse/models/fitness.py:FitnessModel.p_ij", "src/graph_ensembles/sparse/models/fitness.py:MultiFitnessModel.p_ijk", "src/graph_ensembles/sparse/models/fitness.py:MultiFitnessModel.p_ij", "src/graph_ensembles/sparse/models/invariant.py:ScaleInvariantModel.p_ij", "src/graph_ensembles/sparse/models/invariant.py:MultiInvariantModel.p_ij", "src/graph_ensembles/models.py:FitnessModel.p_ij", "src/graph_ensembles/spark/models.py:FitnessModel.p_ij"]}
{"id": "C02", "title": "Which links are impossible and which are certain", "statement": "The probability of a link is exactly 0 if and only if the parameter, the out property, the in property or the dyadic factor is zero, and exactly 1 if and only if none of them is zero and one of them is infinite; otherwise it is strictly between 0 and 1.", "quantifier": "all non-negative (possibly infinite) inputs of the single-layer probability functions", "why_tests_cant": "An 'if and only if' over a continuum of inputs including infinities; tests can only show instances of one direction.", "anchors": ["src/graph_ensembles/sparse/models/fitness.py:FitnessModel.p_ij", "src/graph_ensembles/sparse/models/invariant.py:ScaleInvariantModel.p_ij", "src/graph_ensembles/sparse/models/fitness.py:MultiFitnessModel.p_ijk", "src/graph_ensembles/sparse/models/invariant.py:MultiInvariantModel.p_ijk"]}
{"id": "C03", "title": "Monotonicity of the link probability", "statement": "Increasing the parameter, or the out property of the source, or the in property of the target, never decreases the probability of a link; strictly positive finite properties make it strictly increasing in the parameter.", "quantifier": "all pairs of ordered non-negative (possibly infinite) inputs", "why_tests_cant": "A relational statement over all pairs of inputs; the correctness of the density solver rests on it for every input.", "anchors": ["src/graph_ensembles/sparse/models/fitness.py:FitnessModel.p_ij", "src/graph_ensembles/sparse/models/invariant.py:ScaleInvariantModel.p_ij", "src/graph_ensembles/models.py:FitnessModel.p_ij"]}
{"id": "C04", "title": "Log probabilities agree with probabilities", "statement": "The reported log-probability of a link equals log(p) and the reported log-probability of its absence equals log(1-p), where p is the reported probability, with -inf exactly where p=0 respectively p=1.", "quantifier": "all non-negative (possibly infinite) inputs of every model, single-layer and all-layers", "why_tests_cant": "Three separately coded branch ladders must agree on every input, including the infinite corner cases that tests rarely contain.", "anchors": ["src/graph_ensembles/sparse/models/fitness.py:FitnessModel.logp", "src/graph_ensembles/sparse/models/fitness.py:FitnessModel.log1mp", "src/graph_ensembles/sparse/models/invariant.py:ScaleInvariantModel.logp", "src/graph_ensembles/sparse/models/invariant.py:ScaleInvariantModel.log1mp", "src/graph_ensembles/sparse/models/fitness.py:MultiFitnessModel.logp", "src/graph_ensembles/sparse/models/invariant.py:MultiInvariantModel.log1mp"]}
{"id": "C05", "title": "The fitted objective and its derivative are those of the ensemble", "statement": "The value/derivative pair handed to the density solver for a pair of nodes consists of the same link probability the ensemble later uses for sampling and expectations and of its exact derivative with respect to the parameter (right derivative at 0), for every model.", "quantifier": "all finite non-negative properties and parameters (and infinite parameters for the value part)", "why_tests_cant": "Equality of a function with a derivative is a limit statement; finite-difference tests only bound the error at sampled points, and the infinite-parameter corner is not tested at all.", "anchors": ["src/graph_ensembles/sparse/models/fitness.py:FitnessModel.p_jac_ij", "src/graph_ensembles/sparse/models/invariant.py:ScaleInvariantModel.p_jac_ij", "src/graph_ensembles/sparse/models/fitness.py:MultiFitnessModel.p_jac_ij", "src/graph_ensembles/sparse/models/invariant.py:MultiInvariantModel.p_jac_ij", "src/graph_ensembles/sparse/models/fitness.py:MultiFitnessModel.p_jac_ijk"]}
{"id": "C06", "title": "All-layer probability is the complement of no link in any layer", "statement": "In the multi-layer models the probability that two nodes are linked in at least one layer equals 1 minus the product over all labels of one minus the single-layer probabilities.", "quantifier": "all numbers of labels, all sparse label lists with strictly increasing labels, all non-negative parameters and values", "why_tests_cant": "The two are computed by unrelated code (a merge of two sorted label lists versus a per-layer formula); agreement must hold for every sparsity pattern, of which there are infinitely many.", "anchors": ["src/graph_ensembles/sparse/models/fitness.py:MultiFitnessModel.p_ij", "src/graph_ensembles/sparse/models/fitness.py:MultiFitnessModel.p_ijk", "src/graph_ensembles/sparse/models/invariant.py:MultiInvariantModel.p_ij", "src/graph_ensembles/sparse/models/invariant.py:MultiInvariantModel.p_ijk"]}
{"id": "C07", "title": "Dense, sparse and spark backends define the same ensemble", "statement": "For the same parameter and the same node properties the dense, sparse and spark implementations of a model assign the same probability to every link, regardless of how zeros in the properties are stored.", "quantifier": "all property vectors/matrices, with zeros stored explicitly or omitted, all parameters", "why_tests_cant": "Backends share no code for these functions; equality must hold for all inputs and all sparse representations of the same matrix.", "anchors": ["src/graph_ensembles/models.py:MultiFitnessModel.p_ij", "src/graph_ensembles/sparse/models/fitness.py:MultiFitnessModel.p_ij", "src/graph_ensembles/spark/models.py:MultiFitnessModel.p_ij", "src/graph_ensembles/models.py:FitnessModel.p_ij", "src/graph_ensembles/sparse/models/fitness.py:FitnessModel.p_ij"]}
{"id": "C08", "title": "Scale invariance", "statement": "For the scale invariant models, merging nodes into groups whose properties are the sums of the members' properties gives a between-group link probability equal to the probability that at least one member link exists in the fine-grained ensemble with the same parameter.", "quantifier": "all finite groups of nodes, all non-negative properties, all parameters", "why_tests_cant": "The defining law of the model; it quantifies over all partitions and property vectors.", "anchors": ["src/graph_ensembles/sparse/models/invariant.py:ScaleInvariantModel.p_ij", "src/graph_ensembles/sparse/models/invariant.py:MultiInvariantModel.p_ij", "src/graph_ensembles/sparse/models/conditional.py:ConditionalInvariantModel"]}
{"id": "C09", "title": "Expected number of edges is the ensemble mean", "statement": "expected_num_edges returns the mean, over the probability law in which every admissible ordered pair is linked independently with its link probability, of the number of links of the graph; self pairs are admissible exactly when selfloops is set.", "quantifier": "all numbers of vertices, all link probability assignments, both selfloops settings", "why_tests_cant": "The mean is a sum over 2^(N^2) graphs; tests compare with a second copy of the same loop or with Monte Carlo averages.", "anchors": ["src/graph_ensembles/sparse/models/ensembles.py:DiGraphEnsemble.exp_edges", "src/graph_ensembles/models.py:DiGraphEnsemble.exp_edges"]}
{"id": "C10", "title": "Expected degrees are ensemble means", "statement": "expected_out_degree, expected_in_degree and expected_degree return for each vertex the mean number of out-neighbours, in-neighbours, and of distinct neighbours in either direction under the ensemble law.", "quantifier": "all numbers of vertices, link probabilities, vertices and both selfloops settings", "why_tests_cant": "The code uses a triangular loop with six in-place updates; correctness for each index must hold for every N and every probability matrix.", "anchors": ["src/graph_ensembles/sparse/models/ensembles.py:DiGraphEnsemble.exp_degrees", "src/graph_ensembles/models.py:DiGraphEnsemble.exp_degrees"]}
{"id": "C11", "title": "Handshake identities of expected degrees", "statement": "The expected out degrees sum to expected_num_edges, so do the expected in degrees, and for every vertex the expected undirected degree lies between max(out,in) and out+in.", "quantifier": "all ensembles", "why_tests_cant": "Consistency of separately coded and separately cached quantities over all sizes.", "anchors": ["src/graph_ensembles/sparse/models/ensembles.py:DiGraphEnsemble.exp_degrees", "src/graph_ensembles/sparse/models/ensembles.py:DiGraphEnsemble.exp_edges"]}
{"id": "C12", "title": "log_likelihood is the log of a probability distribution over graphs", "statement": "exp(log_likelihood(g)) equals the probability of g under the ensemble law (independent links), and these values sum to one over all graphs on the admissible pairs.", "quantifier": "all numbers of vertices, all models, all adjacency matrices (sparse ones without explicitly stored zeros)", "why_tests_cant": "Normalisation is a sum over all 2^(N^2) graphs and equality must hold for each.", "anchors": ["src/graph_ensembles/sparse/models/ensembles.py:DiGraphEnsemble._likelihood", "src/graph_ensembles/models.py:DiGraphEnsemble._likelihood", "src/graph_ensembles/sparse/models/ensembles.py:DiGraphEnsemble.log_likelihood"]}
{"id": "C13", "title": "log_likelihood is -inf exactly for impossible graphs", "statement": "log_likelihood never returns +inf or NaN and returns -inf if and only if the graph contains an admissible link of probability 0 or lacks an admissible link of probability 1.", "quantifier": "all graphs and models, single-layer and per-layer", "why_tests_cant": "The early-return on the first infinite term must be correct whatever the position of the offending pair.", "anchors": ["src/graph_ensembles/sparse/models/ensembles.py:DiGraphEnsemble._likelihood", "src/graph_ensembles/sparse/models/ensembles.py:MultiDiGraphEnsemble._likelihood_layer"]}
{"id": "C14", "title": "Sampling follows the ensemble law", "statement": "The graph returned by sample() is distributed as the ensemble: for each graph g the probability that sample() returns g equals exp(log_likelihood(g)), when the generator delivers independent uniform numbers.", "quantifier": "all ensembles and all graphs", "why_tests_cant": "A statement about a probability distribution on exponentially many graphs; tests can only compare empirical means.", "anchors": ["src/graph_ensembles/sparse/models/ensembles.py:DiGraphEnsemble._binary_sample", "src/graph_ensembles/models.py:DiGraphEnsemble._binary_sample"]}
{"id": "C15", "title": "Samples are valid graphs of the ensemble", "statement": "Whatever the random numbers, a sampled graph contains no self loops unless selfloops is set, contains no pair twice, contains only vertices of the ensemble, never contains a link of probability 0 and always contains every admissible link of probability 1.", "quantifier": "all streams of random numbers in [0,1), all ensembles", "why_tests_cant": "Quantifies over every random stream.", "anchors": ["src/graph_ensembles/sparse/models/ensembles.py:DiGraphEnsemble._binary_sample", "src/graph_ensembles/sparse/models/ensembles.py:MultiDiGraphEnsemble._binary_sample_layer"]}
{"id": "C16", "title": "CReMB weighted sampling preserves expected strengths", "statement": "With weights='cremb' sampling is refused when the in and out strengths do not have the same total (relative tolerance 1e-6); otherwise every sampled link gets one weight, whose mean conditional on the link is s_out_i*s_in_j/(s_tot*p_ij), so that with self loops allowed and no zero probability the mean in strength of each vertex is exactly its given in strength, the mean out strength is its given out strength times the ratio of the two totals (exact when they agree), and the links themselves follow the binary law.", "quantifier": "all strengths, probabilities and random streams", "why_tests_cant": "Mean over the ensemble for all inputs; Monte-Carlo tests only check to a statistical tolerance.", "anchors": ["src/graph_ensembles/sparse/models/ensembles.py:DiGraphEnsemble._cremb_sample", "src/graph_ensembles/models.py:DiGraphEnsemble._cremb_sample"]}
{"id": "C17", "title": "Expected nearest-neighbour averages are weighted means", "statement": "expected_av_nn_property returns for each vertex the average of the property over the other vertices weighted by the link probabilities in the chosen direction (and over itself when selfloops is requested); it therefore lies between the minimum and the maximum of the property, and is 0 wherever the expected degree is 0.", "quantifier": "all ensembles with the dyadic property of the library (constant), all properties, all three directions, both selfloops settings, including a single vertex", "why_tests_cant": "The formula is spread over a triangular loop, a second loop for self loops and a masked division; bounds must hold for every input.", "anchors": ["src/graph_ensembles/sparse/models/ensembles.py:DiGraphEnsemble.expected_av_nn_property", "src/graph_ensembles/sparse/models/ensembles.py:DiGraphEnsemble.exp_av_nn_prop"]}
{"id": "C18", "title": "Queries leave the ensemble unchanged", "statement": "A call to expected_av_nn_property or expected_av_nn_degree, whether it returns or raises, leaves the selfloops setting of the ensemble as it was, so that later sampling, likelihoods and expectations are unaffected.", "quantifier": "all histories of query calls, all arguments including invalid directions", "why_tests_cant": "A statement over all call histories including error paths; the temporary override of the setting is only restored on the success path.", "anchors": ["src/graph_ensembles/sparse/models/ensembles.py:DiGraphEnsemble.expected_av_nn_property", "src/graph_ensembles/sparse/models/ensembles.py:DiGraphEnsemble.expected_av_nn_degree"]}
{"id": "C19", "title": "Expectation queries always reflect the current parameters", "statement": "Each expectation query returns the value for the current parameters and the requested options, in every order of fit and query calls.", "quantifier": "all finite histories of fit and expectation calls with arbitrary arguments", "why_tests_cant": "Staleness only shows in particular orders of operations (for instance query, refit, query); tests exercise a handful of orders.", "anchors": ["src/graph_ensembles/sparse/models/ensembles.py:DiGraphEnsemble.expected_num_edges", "src/graph_ensembles/sparse/models/ensembles.py:DiGraphEnsemble.expected_degree", "src/graph_ensembles/sparse/models/ensembles.py:DiGraphEnsemble.expected_av_nn_degree", "src/graph_ensembles/sparse/models/fitness.py:FitnessModel.fit", "src/graph_ensembles/spark/models.py:MultiDiGraphEnsemble.expected_num_edges"]}
{"id": "C20", "title": "Vertex identifiers are numbered bijectively", "statement": "When a graph is built, the distinct vertex identifiers are mapped one-to-one onto 0..num_vertices-1 in sorted order, a repeated identifier is rejected and an edge naming an unknown identifier is rejected; likewise labels and groups.", "quantifier": "all finite vertex and edge tables", "why_tests_cant": "A bijection claim for arbitrary-size inputs and arbitrary identifier values.", "anchors": ["src/graph_ensembles/graphs.py:Graph.generate_id_dict", "src/graph_ensembles/sparse/graphs.py:Graph.generate_id_dict", "src/graph_ensembles/graphs.py:Graph.__init__"]}
{"id": "C21", "title": "Repeated edges are summed", "statement": "The weight between two vertices in the graph is the sum of the weights of all rows of the edge table joining them (in either orientation for undirected graphs); a pair is connected if and only if some row joins it.", "quantifier": "all edge tables, including repeated rows, both orientations and self loops, dense and sparse graphs", "why_tests_cant": "Depends on multiplicity patterns in arbitrarily long tables.", "anchors": ["src/graph_ensembles/graphs.py:Graph.__init__", "src/graph_ensembles/sparse/graphs.py:Graph.__init__", "src/graph_ensembles/graphs.py:DiGraph.__init__", "src/graph_ensembles/sparse/graphs.py:DiGraph.__init__"]}
{"id": "C22", "title": "The order of rows does not matter", "statement": "Permuting the rows of the vertex table or of the edge table does not change the resulting graph.", "quantifier": "all permutations of all tables", "why_tests_cant": "Factorially many permutations.", "anchors": ["src/graph_ensembles/graphs.py:Graph.__init__", "src/graph_ensembles/sparse/graphs.py:Graph.__init__"]}
{"id": "C23", "title": "Undirected graphs are symmetric and count each edge once", "statement": "An undirected graph's adjacency matrix is symmetric; num_edges is the number of unordered connected pairs (self loops counted once); total_weight is the sum of the weights of the rows of the edge table.", "quantifier": "all undirected graphs", "why_tests_cant": "Holds for all graphs, with self loops being the corner case where naive halving fails.", "anchors": ["src/graph_ensembles/graphs.py:Graph.num_edges", "src/graph_ensembles/graphs.py:Graph.total_weight", "src/graph_ensembles/sparse/graphs.py:Graph.num_edges"]}
{"id": "C24", "title": "Degree and strength sum rules", "statement": "In a directed graph the out-degrees sum to num_edges and so do the in-degrees, the out-strengths and the in-strengths sum to total_weight; in an undirected graph the degrees sum to twice num_edges minus the number of self loops.", "quantifier": "all graphs", "why_tests_cant": "Global identities over all graphs.", "anchors": ["src/graph_ensembles/graphs.py:DiGraph.out_degree", "src/graph_ensembles/graphs.py:DiGraph.in_degree", "src/graph_ensembles/graphs.py:Graph.degree", "src/graph_ensembles/sparse/graphs.py:DiGraph.num_edges"]}
{"id": "C25", "title": "Group-resolved degrees and strengths add up", "statement": "degree_by_group and strength_by_group (and the out/in versions) split the neighbours of each vertex by the group of the neighbour: their sum over groups is the vertex' degree or strength, in dense and sparse graphs, for real-valued weights.", "quantifier": "all graphs and group assignments", "why_tests_cant": "Any graph, any partition, any real weights; integer-valued test fixtures hide truncation.", "anchors": ["src/graph_ensembles/graphs.py:Graph.sum_by_group", "src/graph_ensembles/sparse/graphs.py:Graph.sum_by_group"]}
{"id": "C26", "title": "Identifier storage is wide enough", "statement": "The integer width chosen for internal vertex, label or group indices can represent all the indices 0..n-1 and is a valid power of two number of bytes.", "quantifier": "all counts n", "why_tests_cant": "All natural numbers; boundary values at powers of 256.", "anchors": ["src/graph_ensembles/graphs.py:Graph.get_num_bytes", "src/graph_ensembles/sparse/graphs.py:Graph.get_num_bytes"]}
{"id": "C27", "title": "Multigraph layers are consistent with their projection", "statement": "In a labelled graph, two vertices are connected in the projected matrix iff they are connected in some layer, weights add over layers, num_edges is at most the sum of num_edges_label and at least its maximum, and total_weight is the sum of total_weight_label.", "quantifier": "all labelled graphs", "why_tests_cant": "All graphs and numbers of labels.", "anchors": ["src/graph_ensembles/graphs.py:MultiDiGraph", "src/graph_ensembles/sparse/graphs.py:MultiDiGraph"]}
{"id": "C28", "title": "Requesting an undirected view of a directed graph", "statement": "adjacency_matrix(directed=False, weighted=True) of a directed (multi)graph returns the symmetric matrix with w_ij + w_ji off the diagonal and w_ii on it, and with weighted=False its support.", "quantifier": "all directed graphs and multigraphs, dense and sparse", "why_tests_cant": "The diagonal is the corner case; must hold for every size because of flat-index arithmetic.", "anchors": ["src/graph_ensembles/graphs.py:DiGraph.adjacency_matrix", "src/graph_ensembles/graphs.py:MultiDiGraph.adjacency_matrix", "src/graph_ensembles/sparse/graphs.py:MultiDiGraph.adjacency_matrix", "src/graph_ensembles/graphs.py:MultiDiGraph.adjacency_tensor"]}
{"id": "C29", "title": "Nearest-neighbour averages of a graph", "statement": "average_nn_property returns for each vertex the mean of the property over its neighbours (excluding itself unless selfloops is set), hence between min and max of the property, and average_nn_degree always returns the value for the arguments given, whatever was queried before.", "quantifier": "all graphs, properties, directions, options and query histories", "why_tests_cant": "History dependence and the self-loop corner cannot be exhausted by tests.", "anchors": ["src/graph_ensembles/graphs.py:Graph.average_nn_property", "src/graph_ensembles/graphs.py:DiGraph.average_nn_property", "src/graph_ensembles/sparse/graphs.py:DiGraph.average_nn_degree"]}
{"id": "C30", "title": "The solver never leaves the bracket", "statement": "Every iterate and the returned value of the bracketed Newton solver lie in the initial interval [x_l, x_u]; an initial point outside it is rejected with ValueError before any iteration.", "quantifier": "all functions, targets, brackets (possibly infinite), tolerances and iteration limits", "why_tests_cant": "Holds for arbitrary functions, including ones for which Newton steps diverge.", "anchors": ["src/graph_ensembles/solver.py:monotonic_newton_solver"]}
{"id": "C31", "title": "The solver keeps the root bracketed", "statement": "If the function is monotone and the target is attained in the initial interval, then after every iteration the current sub-interval still contains a solution.", "quantifier": "all monotone functions, all iteration numbers", "why_tests_cant": "An invariant over all iterations and all functions.", "anchors": ["src/graph_ensembles/solver.py:monotonic_newton_solver"]}
{"id": "C32", "title": "Meaning of the convergence report", "statement": "The solution reports converged if and only if the residual at the returned point is at most atol + rtol*target; it performs at most max_iter iterations; max_iter_reached and no_change_stop are reported exactly in the corresponding situations; when the loop stops, at least one of the three flags explains why.", "quantifier": "all functions, targets and settings", "why_tests_cant": "Ties a stop condition to reported flags for every run.", "anchors": ["src/graph_ensembles/solver.py:Solution", "src/graph_ensembles/solver.py:monotonic_newton_solver"]}
{"id": "C33", "title": "Monotone convergence of the density fit from zero", "statement": "For the fitness and scale-invariant models, started at the default x0=0 with a feasible number of edges, every iterate of the density fit is at least the previous one and never exceeds the exact solution, so the expected number of edges never overshoots the target.", "quantifier": "all non-negative property vectors, all feasible targets, all iteration numbers", "why_tests_cant": "A global convergence property of Newton's method on concave functions over a continuum of problems and all iterations.", "anchors": ["src/graph_ensembles/solver.py:monotonic_newton_solver", "src/graph_ensembles/sparse/models/fitness.py:FitnessModel.fit", "src/graph_ensembles/sparse/models/fitness.py:FitnessModel.exp_edges_f_jac"]}
{"id": "C34", "title": "A feasible density has exactly one solution", "statement": "If 0 < num_edges < number of admissible pairs with non-zero properties, exactly one positive finite parameter reproduces it; if num_edges is at least that number no finite parameter does; fit therefore cannot converge to a wrong parameter: a converged fit reproduces num_edges within atol + rtol*num_edges.", "quantifier": "all property vectors and targets", "why_tests_cant": "Existence and uniqueness over a continuum.", "anchors": ["src/graph_ensembles/sparse/models/fitness.py:FitnessModel.fit", "src/graph_ensembles/sparse/models/invariant.py:ScaleInvariantModel.p_jac_ij"]}
{"id": "C35", "title": "Per-label fits are independent", "statement": "With per_label=True the parameter of each label depends only on that label's properties, number of edges and starting value; the expected number of edges of every label is fitted separately, and with per_label=False all labels share one parameter.", "quantifier": "all multi-layer models and label sets", "why_tests_cant": "Non-interference between labels for all inputs.", "anchors": ["src/graph_ensembles/sparse/models/fitness.py:MultiFitnessModel.fit", "src/graph_ensembles/sparse/models/fitness.py:MultiFitnessModel.exp_edges_f_jac_layer"]}
{"id": "C36", "title": "Random graph ensemble reproduces its density", "statement": "After fit, RandomDiGraph.expected_num_edges equals num_edges and expected_degree equals the ensemble mean; the fitted link probability is in [0,1] when num_edges does not exceed the number of admissible pairs.", "quantifier": "all num_vertices, num_edges, selfloops", "why_tests_cant": "All sizes; the single-vertex graph without self loops divides by zero.", "anchors": ["src/graph_ensembles/sparse/models/random.py:RandomDiGraph.fit", "src/graph_ensembles/sparse/models/random.py:RandomDiGraph.expected_num_edges", "src/graph_ensembles/sparse/models/random.py:RandomDiGraph.expected_degree"]}
{"id": "C37", "title": "Random graph likelihood", "statement": "RandomDiGraph.log_likelihood(g) equals L*log(p) + (A-L)*log(1-p) with L links and A admissible pairs, is -inf exactly for graphs of probability zero and never raises for a fitted ensemble.", "quantifier": "all graphs and p in [0,1]", "why_tests_cant": "The corners p=0, p=1 combined with empty/complete graphs and self loops are easily missed.", "anchors": ["src/graph_ensembles/sparse/models/random.py:RandomDiGraph.log_likelihood", "src/graph_ensembles/models.py:RandomDiGraph.log_likelihood"]}
{"id": "C38", "title": "Random graph weighted sampling and total weight", "statement": "For a RandomDiGraph with weights, sample(weights='random') and sample(weights='cremb') return a weighted graph and expected_total_weight returns the mean total weight.", "quantifier": "all fitted weighted random ensembles and random streams", "why_tests_cant": "Must hold for every stream; in fact no input works.", "anchors": ["src/graph_ensembles/sparse/models/random.py:RandomDiGraph.sample", "src/graph_ensembles/sparse/models/random.py:RandomDiGraph._weighted_sample", "src/graph_ensembles/sparse/models/random.py:RandomDiGraph.expected_total_weight"]}
{"id": "C39", "title": "Conditional samples aggregate to the given graph", "statement": "A graph sampled from the conditional scale-invariant model, when its vertices are merged by group, has exactly the links of the coarse graph it was conditioned on: at least one fine link for each coarse link and none elsewhere, with or without weights, for every coarse graph that the ensemble can produce (one of positive probability).", "quantifier": "all coarse graphs, group assignments, properties and random streams", "why_tests_cant": "Must hold for every random stream and all group sizes.", "anchors": ["src/graph_ensembles/sparse/models/conditional.py:ConditionalInvariantModel._binary_sample", "src/graph_ensembles/sparse/models/conditional.py:ConditionalInvariantModel.sample"]}
{"id": "C40", "title": "Conditional samples follow the conditional law", "statement": "The probability that the conditional model's sampler returns a fine graph equals its probability under the unconditioned scale-invariant ensemble divided by the probability of the coarse graph (zero for graphs that do not merge to it), whenever the coarse graph has positive probability.", "quantifier": "all fine graphs compatible with the coarse graph", "why_tests_cant": "A distributional claim over exponentially many graphs; the sampler's sequential renormalisation is only correct as a whole.", "anchors": ["src/graph_ensembles/sparse/models/conditional.py:ConditionalInvariantModel._binary_sample", "src/graph_ensembles/sparse/models/conditional.py:ConditionalInvariantModel.log_likelihood"]}
{"id": "C41", "title": "Expected edges and degrees of the conditional model", "statement": "expected_num_edges and the expected degrees of the conditional model are means under the conditional law (link probabilities p_ij divided by the probability of the coarse link, zero where there is no coarse link), for directed coarse graphs; out degrees sum to the expected number of edges.", "quantifier": "all coarse directed graphs, symmetric or not", "why_tests_cant": "Asymmetric coarse graphs are the corner case; all must be covered.", "anchors": ["src/graph_ensembles/sparse/models/conditional.py:ConditionalInvariantModel.exp_edges", "src/graph_ensembles/sparse/models/conditional.py:ConditionalInvariantModel.exp_degrees"]}
{"id": "C42", "title": "Aggregated weights are preserved", "statement": "With the aggregate weighting scheme the weights sampled between two groups sum to the weight of the coarse link.", "quantifier": "all coarse graphs, group sizes and random streams", "why_tests_cant": "Exact conservation for every stream.", "anchors": ["src/graph_ensembles/sparse/models/conditional.py:ConditionalInvariantModel._wagg_sample"]}
{"id": "C43", "title": "Parallel blocks cover every pair exactly once", "statement": "The spark implementation divides the vertices into blocks such that every ordered pair is processed exactly once (and every unordered pair once in the triangular layout), so expectations, likelihoods and samples are those of the sequential implementation for every number of blocks and every order in which partial results are combined.", "quantifier": "all numbers of vertices and blocks, all combination orders", "why_tests_cant": "Depends on integer division corner cases for every (N, blocks) pair and on scheduling.", "anchors": ["src/graph_ensembles/spark/models.py:FitnessModel.__init__", "src/graph_ensembles/spark/models.py:DiGraphEnsemble.exp_degrees", "src/graph_ensembles/spark/models.py:DiGraphEnsemble.fit_map"]}
{"id": "C44", "title": "Confusion counts add up and are monotone", "statement": "For each threshold TP+FN is the number of admissible links of the graph, FP+TN the number of admissible non-links, and TP and FP are non-increasing in the threshold; automatically chosen thresholds lie between the smallest and largest link probability.", "quantifier": "all graphs, models and thresholds", "why_tests_cant": "Holds for every graph and threshold vector.", "anchors": ["src/graph_ensembles/spark/models.py:DiGraphEnsemble.confusion_matrix", "src/graph_ensembles/spark/models.py:DiGraphEnsemble._confusion_matrix"]}
{"id": "C45", "title": "PageRank conserves probability", "statement": "pagerank on a sparse graph keeps a probability vector at each iteration: entries stay non-negative and sum to one, for weighted and unweighted graphs.", "quantifier": "all sparse graphs, damping factors in [0,1], tolerances and iteration counts", "why_tests_cant": "An invariant of an iteration over all graphs; dtype handling differs between weighted and unweighted graphs.", "anchors": ["src/graph_ensembles/lib.py:pagerank", "src/graph_ensembles/lib.py:propagate_measure", "src/graph_ensembles/lib.py:normalise_rows"]}
{"id": "C46", "title": "Constructor validation", "statement": "A model is constructed only with a positive integer number of vertices, property arrays of that length with non-negative entries, a non-negative number of edges or parameter and recognised options; everything else is rejected with an error, and explicit options override those of a passed graph.", "quantifier": "all argument combinations", "why_tests_cant": "The argument space is infinite and error branches interact.", "anchors": ["src/graph_ensembles/sparse/models/fitness.py:FitnessModel.__init__", "src/graph_ensembles/models.py:FitnessModel.__init__"]}
{"id": "C47", "title": "Selection of the per-label mode", "statement": "Whether a multi-layer model is fitted with one or with many parameters is determined by the arguments: per_label if given, otherwise per label when edge counts or parameters per label are given and shared when a single number is given.", "quantifier": "all argument combinations", "why_tests_cant": "All combinations of optional arguments and label counts, including one label.", "anchors": ["src/graph_ensembles/sparse/models/fitness.py:MultiFitnessModel.__init__", "src/graph_ensembles/models.py:MultiFitnessModel.__init__"]}
{"id": "C48", "title": "Sparse property conversion round trip", "statement": "Converting node properties between compressed sparse matrices and per-node (labels, values) lists loses nothing: converting there and back yields the same matrix, in both directions, when there is at least one row; an empty list is refused.", "quantifier": "all compressed sparse matrices and all lists", "why_tests_cant": "Arbitrary sizes including empty rows and empty matrices.", "anchors": ["src/graph_ensembles/sparse/models/fitness.py:MultiFitnessModel.csx_to_tuple_list", "src/graph_ensembles/sparse/models/fitness.py:MultiFitnessModel.tuple_list_to_csx"]}
{"id": "C49", "title": "Label-resolved expectations are ensemble means", "statement": "expected_num_edges_label and the expected degrees by label are the means of the corresponding quantities; out degrees by label sum over vertices to the expected number of edges of the label.", "quantifier": "all multi-layer ensembles, in both backends", "why_tests_cant": "Double counting only occurs when nodes have both out and in properties in the same layer; every pattern has to be right.", "anchors": ["src/graph_ensembles/sparse/models/ensembles.py:MultiDiGraphEnsemble.exp_degrees_label", "src/graph_ensembles/sparse/models/ensembles.py:MultiDiGraphEnsemble.exp_edges_label", "src/graph_ensembles/models.py:MultiDiGraphEnsemble.exp_edges_label"]}
{"id": "C50", "title": "Measure propagation", "statement": "Propagating a measure moves it along links in proportion to link weight: without absorption the total is conserved (what is on a vertex without links being spread evenly), and with absorption it never increases and vanishes after at most num_vertices steps on an acyclic graph.", "quantifier": "all sparse weighted graphs and measures, all step counts", "why_tests_cant": "Induction over steps and graphs.", "anchors": ["src/graph_ensembles/lib.py:propagate_measure", "src/graph_ensembles/lib.py:normalise_rows"]}
{"id": "C51", "title": "Explicitly stored zeros are not links", "statement": "log_likelihood of an adjacency matrix depends only on which entries are non-zero: an entry explicitly stored with value zero in a sparse matrix counts as an absent link.", "quantifier": "all sparse matrices in any storage state, both backends", "why_tests_cant": "Stored zeros arise from arithmetic on sparse matrices and are indistinguishable from absent entries in every dense comparison used by tests.", "anchors": ["src/graph_ensembles/sparse/models/ensembles.py:DiGraphEnsemble._likelihood", "src/graph_ensembles/models.py:DiGraphEnsemble.log_likelihood"]}
{"id": "C52", "title": "The selfloops argument is honoured", "statement": "log_likelihood(g, selfloops=b) and sample(selfloops=b) behave as the same ensemble with self-loop setting b.", "quantifier": "all ensembles, graphs, settings and random streams", "why_tests_cant": "The argument has a default equal to the setting, so that calls without it cannot reveal that it is ignored.", "anchors": ["src/graph_ensembles/sparse/models/ensembles.py:DiGraphEnsemble.log_likelihood", "src/graph_ensembles/sparse/models/ensembles.py:DiGraphEnsemble.sample", "src/graph_ensembles/models.py:DiGraphEnsemble.log_likelihood", "src/graph_ensembles/models.py:DiGraphEnsemble.sample"]}
{"id": "C53", "title": "Input validation of likelihood and sampling", "statement": "log_likelihood raises exactly when the model is not fitted, the argument is not a graph or matrix, or its shape is not N x N, and otherwise returns the log-probability of the set of non-zero entries; sample raises exactly when the model is not fitted, the weights option is unknown or the strengths are inconsistent.", "quantifier": "all arguments and states", "why_tests_cant": "Input space of arguments of all kinds.", "anchors": ["src/graph_ensembles/sparse/models/ensembles.py:DiGraphEnsemble.log_likelihood", "src/graph_ensembles/sparse/models/ensembles.py:DiGraphEnsemble.sample"]}
{"id": "C54", "title": "The density fit always terminates with an explained result", "statement": "For every fitted model and every attained number of edges, fit started at or below the solution raises no error, stops only because it converged or used maxiter iterations, uses at most solution*slope(0)/(atol+rtol*num_edges) iterations, and hence converges whenever maxiter exceeds that number; a fit with one parameter per label raises no error for any non-negative edge counts.", "quantifier": "all property arrays, edge counts, tolerances, starting values and iteration limits", "why_tests_cant": "An iteration bound for a continuum of problems; no number of runs establishes it.", "anchors": ["src/graph_ensembles/sparse/models/fitness.py:FitnessModel.fit", "src/graph_ensembles/sparse/models/fitness.py:MultiFitnessModel.fit", "src/graph_ensembles/solver.py:monotonic_newton_solver"]}
{"id": "C55", "title": "Nearest-neighbour averages of the random ensemble", "statement": "RandomDiGraph.expected_av_nn_property returns for each vertex the expected sum of the property over its neighbours divided by its expected degree (so the average of a constant property is that constant), for the requested self-loop setting, and leaves the ensemble unchanged.", "quantifier": "all numbers of vertices, link probabilities, properties, directions and self-loop settings", "why_tests_cant": "Real-valued properties and probabilities; the error only appears for one combination of direction and self loops.", "anchors": ["src/graph_ensembles/sparse/models/random.py:RandomDiGraph.expected_av_nn_property", "src/graph_ensembles/models.py:RandomDiGraph.expected_av_nn_property"]}
{"id": "C56", "title": "Conditional likelihood", "statement": "log_likelihood of the conditional model is the logarithm of the conditional probability of the graph given the coarse graph: minus infinity for graphs which do not merge to the coarse graph or are impossible, and an error for matrices of another shape; for every coarse graph of positive probability in which every group has positive out and in properties or self loops are allowed.", "quantifier": "all fine graphs, coarse graphs, groups and properties", "why_tests_cant": "The likelihood is the difference of two quantities with infinities; exponentially many graphs.", "anchors": ["src/graph_ensembles/sparse/models/conditional.py:ConditionalInvariantModel.log_likelihood", "src/graph_ensembles/sparse/models/conditional.py:ConditionalInvariantModel._agg_likelihood"]}
{"id": "C57", "title": "Storage of the coarse graph does not matter", "statement": "The conditional model built from a coarse adjacency matrix behaves the same whether the matrix is given as a dense array, a compressed row or a compressed column matrix.", "quantifier": "all coarse matrices and storage formats", "why_tests_cant": "Symmetric test graphs cannot reveal transposition.", "anchors": ["src/graph_ensembles/sparse/models/conditional.py:ConditionalInvariantModel.__init__"]}
{"id": "C58", "title": "Weights of the conditional model", "statement": "With CReMB weights the conditional model's sample has a mean weight s_out_i*s_in_j/s_tot on every pair lying on a coarse link with positive properties and none elsewhere; strengths with different totals are refused.", "quantifier": "all coarse graphs of positive probability, strengths, groups and properties", "why_tests_cant": "A mean over a continuum of random streams.", "anchors": ["src/graph_ensembles/sparse/models/conditional.py:ConditionalInvariantModel._cremb_sample", "src/graph_ensembles/sparse/models/conditional.py:ConditionalInvariantModel.sample"]}
{"id": "C59", "title": "Trophic depth", "statement": "On an acyclic graph with non-negative weights the equation of trophic depths (a vertex lies one step above the weighted mean depth of its successors, the final node having depth zero) has exactly one solution, and trophic_depth returns it within num_vertices*tol whenever max_iter is at least num_vertices.", "quantifier": "all acyclic graphs, weights and connections to the final node", "why_tests_cant": "Convergence of an iteration on all graphs; the early stop on a small change must not be mistaken for convergence.", "anchors": ["src/graph_ensembles/lib.py:trophic_depth", "src/graph_ensembles/lib.py:propagate_measure"]}
{"id": "C60", "title": "Accuracy and convergence of pagerank", "statement": "When pagerank reports convergence its result is within alpha*num_vertices*tol/(1-alpha) (sum of absolute differences) of every solution of the PageRank equation, and it reports convergence whenever 2*alpha^(max_iter-1) < tol.", "quantifier": "all sparse graphs with float weights, damping factors in [0,1), tolerances and iteration counts", "why_tests_cant": "An error bound for an iteration over all graphs.", "anchors": ["src/graph_ensembles/lib.py:pagerank", "src/graph_ensembles/lib.py:propagate_measure"]}
{"id": "C61", "title": "Likelihood of labelled graphs", "statement": "log_likelihood of a tensor (one adjacency matrix per label) is the logarithm of the product over labels of the probability of the layer, links being independent with the probability of their label; links on excluded diagonal pairs are ignored.", "quantifier": "all multi-layer models, numbers of labels, sparse property matrices, labelled graphs and self-loop settings; dense, sparse and spark backends", "why_tests_cant": "Exponentially many labelled graphs and a continuum of parameters; the two-pass structure of the sparse loop is only visible on sparse properties.", "anchors": ["src/graph_ensembles/sparse/models/ensembles.py:MultiDiGraphEnsemble.log_likelihood", "src/graph_ensembles/sparse/models/ensembles.py:MultiDiGraphEnsemble._likelihood_layer", "src/graph_ensembles/models.py:MultiDiGraphEnsemble._likelihood_tensor", "src/graph_ensembles/spark/models.py:MultiDiGraphEnsemble._likelihood_layer"]}
{"id": "C62", "title": "Law of sampled layers", "statement": "The layers of a sample are independent, layer k has the law of label k (so a labelled graph is drawn with the exponential of its log-likelihood), every layer is a simple graph of admissible pairs of positive probability containing all certain links; the weighted layer sampler is refused exactly for inconsistent totals, fails exactly when a sampled link has only one of its two strengths stored, and otherwise gives each sampled link the exponential weight of mean s_out*s_in/(s_tot*p).", "quantifier": "all multi-layer models, property matrices, strengths, random streams", "why_tests_cant": "A joint law over a continuum of random streams.", "anchors": ["src/graph_ensembles/sparse/models/ensembles.py:MultiDiGraphEnsemble.sample", "src/graph_ensembles/sparse/models/ensembles.py:MultiDiGraphEnsemble._binary_sample_layer", "src/graph_ensembles/sparse/models/ensembles.py:MultiDiGraphEnsemble._cremb_sample_layer", "src/graph_ensembles/models.py:MultiDiGraphEnsemble._binary_sample_tensor"]}
{"id": "C63", "title": "Projection of sampled layers", "statement": "Sampling all layers and forgetting the labels has the same law as sampling the projected ensemble: the probability of an unlabelled graph is the exponential of the projected log-likelihood, with link probability 1 - prod(1 - p_ijk).", "quantifier": "all multi-layer models, property matrices, graphs, random streams", "why_tests_cant": "Equality of two laws on exponentially many graphs.", "anchors": ["src/graph_ensembles/sparse/models/ensembles.py:MultiDiGraphEnsemble.sample", "src/graph_ensembles/sparse/models/ensembles.py:MultiDiGraphEnsemble.log_likelihood", "src/graph_ensembles/models.py:MultiDiGraphEnsemble._binary_sample_tensor"]}
{"id": "C64", "title": "Objective of the conditional density fit", "statement": "The function handed to the solver by the conditional model's fit returns the mean number of links of the law conditioned on the coarse graph and its derivative with respect to the parameter, for every parameter; at parameter 0 and inf it returns the limits (the number of coarse links and the number of pairs that can be linked) and expected_num_edges agrees; it raises for every parameter or for none.", "quantifier": "all coarse graphs in which every coarse link can be realised, groups, properties, self-loop settings and parameters", "why_tests_cant": "A derivative over a continuum of parameters; the deviation is below the precision of the tests' tolerance.", "anchors": ["src/graph_ensembles/sparse/models/conditional.py:ConditionalInvariantModel.exp_edges_f_jac", "src/graph_ensembles/sparse/models/conditional.py:ConditionalInvariantModel.p_jac_ij", "src/graph_ensembles/sparse/models/conditional.py:ConditionalInvariantModel.density_fit_fun", "src/graph_ensembles/sparse/models/conditional.py:ConditionalInvariantModel.exp_edges"]}
{"id": "C65", "title": "Densities the conditional model can reproduce", "statement": "Given the coarse graph, the mean number of links does not decrease with the parameter and runs from the number of coarse links to the number of pairs that can be linked: every number of edges strictly between is reproduced by exactly one positive parameter, none outside is reproduced; fit raises no error for numbers of edges that are at least the number of coarse links, sets a non-negative parameter, explains its stop, and if it reports convergence reproduces the number of edges within the tolerances plus 2e-12 per coarse link.", "quantifier": "all coarse graphs, groups, properties, edge counts, tolerances and starting values", "why_tests_cant": "Existence and uniqueness over a continuum of parameters.", "anchors": ["src/graph_ensembles/sparse/models/conditional.py:ConditionalInvariantModel.fit", "src/graph_ensembles/sparse/models/conditional.py:ConditionalInvariantModel.exp_edges_f_jac", "src/graph_ensembles/solver.py:monotonic_newton_solver"]}
{"id": "C66", "title": "Recorded history of a solver run", "statement": "Every finished run records its own history faithfully: the first point is x0, the recorded value and residual of each point are those of the function at that point, the recorded change is the relative change to that point, every point before the last failed both stopping tests; a start outside the interval and nothing else is refused with a ValueError, a start whose residual is below atol is returned without iterating, and full_return=False returns the point of the full report.", "quantifier": "all functions, targets, tolerances, intervals, starts and iteration counts", "why_tests_cant": "A statement about every run of an unbounded loop for every function.", "anchors": ["src/graph_ensembles/solver.py:monotonic_newton_solver", "src/graph_ensembles/solver.py:Solution"]}
{"id": "C67", "title": "The Solution object", "statement": "Solution accepts exactly the documented keyword arguments; for newton it needs atol, rtol and two non-empty sequences and sets converged and no_change_stop from their last entries; for fixed-point converged is set from the last change; max_iter_reached holds iff n_iter >= max_iter; the call made at the end of every solver run succeeds.", "quantifier": "all arguments", "why_tests_cant": "All combinations of present and absent arguments and all sequences.", "anchors": ["src/graph_ensembles/solver.py:Solution"]}
{"id": "C68", "title": "Arguments of fit", "statement": "fit raises a ValueError if and only if the start has the wrong number of entries, is not numeric, contains a negative number, the method is not density, or the required number of edges (total or per label) is not set; otherwise its outcome is that of the solver started there on [0, inf]; a scalar start is used for every label and the default start is 0.", "quantifier": "all models, starts, methods and settings", "why_tests_cant": "All argument combinations; negative entries at any position.", "anchors": ["src/graph_ensembles/sparse/models/fitness.py:FitnessModel.fit", "src/graph_ensembles/sparse/models/fitness.py:MultiFitnessModel.fit", "src/graph_ensembles/models.py:FitnessModel.fit", "src/graph_ensembles/models.py:MultiFitnessModel.fit"]}
{"id": "C69", "title": "Per-label fit reproduces the edges of every label", "statement": "After a fit with one parameter per label, expected_num_edges_label of the fitted sparse model agrees with num_edges_label within the tolerances for exactly the labels whose solver run reports convergence; the fit from the default start raises no error for non-negative numbers of edges; every positive number of edges of a label below the number of its linkable pairs is reproduced by exactly one positive parameter.", "quantifier": "all sparse property matrices, numbers of vertices and labels, targets, tolerances and starting values", "why_tests_cant": "Connects a fit and a query over a continuum of parameters; unit tests use one matrix.", "anchors": ["src/graph_ensembles/sparse/models/fitness.py:MultiFitnessModel.fit", "src/graph_ensembles/sparse/models/fitness.py:MultiFitnessModel.density_fit_layer", "src/graph_ensembles/sparse/models/ensembles.py:MultiDiGraphEnsemble.expected_num_edges_label", "src/graph_ensembles/models.py:MultiFitnessModel.fit", "src/graph_ensembles/models.py:MultiFitnessModel.exp_edges_f_jac_layer"]}
{"id": "C70", "title": "Queries of a graph, vertex by vertex and label by label", "statement": "Whatever queries were made before and with whatever recompute flags, every cached query of a graph (degrees, strengths, numbers of edges and weights, by vertex, group and label) returns what a new object computes; degrees count the vertices joined by some row in the queried direction, strengths add the weights of the rows, the queries by label are those of the rows with that label, and their sums over vertices are the queries of the totals.", "quantifier": "all vertex and edge tables, both backends, directed and undirected, sequences of queries", "why_tests_cant": "All query histories and all tables, including repeated rows and self loops.", "anchors": ["src/graph_ensembles/graphs.py:Graph", "src/graph_ensembles/graphs.py:DiGraph", "src/graph_ensembles/graphs.py:MultiGraph", "src/graph_ensembles/graphs.py:MultiDiGraph", "src/graph_ensembles/sparse/graphs.py:Graph", "src/graph_ensembles/sparse/graphs.py:DiGraph", "src/graph_ensembles/sparse/graphs.py:MultiGraph", "src/graph_ensembles/sparse/graphs.py:MultiDiGraph"]}
{"id": "C71", "title": "Conversion to networkx", "statement": "to_networkx has one node for each vertex, carrying its identifier and its group; its edges are exactly the pairs (for multigraphs with each label) joined by a row, in either direction if the graph is undirected, with the label and the total weight of the edge.", "quantifier": "all vertex and edge tables, both backends, single-layer and multigraphs, directed and undirected", "why_tests_cant": "All tables; weights of pairs joined in both directions are only visible in undirected multigraphs with reciprocated links.", "anchors": ["src/graph_ensembles/graphs.py:Graph.to_networkx", "src/graph_ensembles/graphs.py:MultiGraph.to_networkx", "src/graph_ensembles/graphs.py:MultiDiGraph.to_networkx", "src/graph_ensembles/sparse/graphs.py:Graph.to_networkx", "src/graph_ensembles/sparse/graphs.py:MultiGraph.to_networkx"]}
{"id": "C72", "title": "Warnings about isolated vertices", "statement": "Building a graph names in its warning, once and in sorted order, exactly the vertices that no row of the edge table touches; there is no warning iff there is none, and the singular form is used iff there is exactly one.", "quantifier": "all accepted vertex and edge tables, both backends, all graph classes", "why_tests_cant": "All tables.", "anchors": ["src/graph_ensembles/graphs.py:Graph.__init__", "src/graph_ensembles/sparse/graphs.py:Graph.__init__"]}
{"id": "C73", "title": "Likelihood of multi-layer ensembles: arguments", "statement": "log_likelihood of a fitted multi-layer ensemble takes a labelled graph (graph object, three dimensional array, list of matrices) with the ensemble's numbers of vertices and labels and returns the logarithm of its probability, or an unlabelled graph with its number of vertices and returns the logarithm of its probability in the projection, counting self loops as the argument selfloops says if it is given; unfitted ensembles and all other arguments raise the intended exception.", "quantifier": "all parameters, property matrices, arguments and selfloops flags, sparse and dense", "why_tests_cant": "All argument types, shapes and graphs; the error branches are untested.", "anchors": ["src/graph_ensembles/sparse/models/ensembles.py:MultiDiGraphEnsemble.log_likelihood", "src/graph_ensembles/models.py:MultiDiGraphEnsemble.log_likelihood"]}
{"id": "C74", "title": "The sampled graph object", "statement": "sample of a fitted ensemble returns a graph object with the ensemble's numbers of vertices and labels, identifier types wide enough for them, the names and groups of the reference graph (or consecutive numbers and no groups), and adjacency matrices that hold exactly the sampled links, with their weights if asked for; without weights the matrices are those of a labelled graph with exactly its probability; self loops follow the argument selfloops; every other call raises the intended exception.", "quantifier": "all fitted models, reference graphs, strength arguments, weights and random numbers, sparse and dense, single- and multi-layer", "why_tests_cant": "All random numbers and all argument combinations; the law of the returned object is a statement about probabilities.", "anchors": ["src/graph_ensembles/sparse/models/ensembles.py:DiGraphEnsemble.sample", "src/graph_ensembles/sparse/models/ensembles.py:MultiDiGraphEnsemble.sample", "src/graph_ensembles/models.py:DiGraphEnsemble.sample", "src/graph_ensembles/models.py:MultiDiGraphEnsemble.sample"]}
{"id": "C75", "title": "Sampled graphs agree on average with the expected queries", "statement": "Averaged over the random numbers, the queries num_edges, out_degree, in_degree and degree of the sampled graph, asked in any order after any other queries, equal expected_num_edges and the expected degrees of the ensemble, for single-layer ensembles, for the projections of multi-layer ensembles and for each label; strengths and total weights of weighted samples equal the sums of the mean weights, which add up to the given strengths when every pair including self-loops can be linked.", "quantifier": "all ensembles, parameters, properties, sizes, self-loop settings, reference graphs, query histories", "why_tests_cant": "An average over infinitely many runs of the generator, compared with a second computation by different code.", "anchors": ["src/graph_ensembles/sparse/models/ensembles.py:DiGraphEnsemble.sample", "src/graph_ensembles/models.py:DiGraphEnsemble.sample", "src/graph_ensembles/sparse/models/ensembles.py:MultiDiGraphEnsemble.sample", "src/graph_ensembles/models.py:MultiDiGraphEnsemble.sample", "src/graph_ensembles/sparse/graphs.py:MultiDiGraph", "src/graph_ensembles/graphs.py:MultiDiGraph", "src/graph_ensembles/sparse/models/ensembles.py:DiGraphEnsemble.expected_num_edges"]}
{"id": "C76", "title": "Label-resolved queries after any history of calls", "statement": "After any sequence of fits, changes of the self-loop setting and queries, expected_num_edges, expected_num_edges_label and the three degrees by label of a fitted multi-layer ensemble return the mean numbers of links and the mean degrees for the current parameters and the current self-loop setting if recompute is set or nothing changed since fitting, for settings of some earlier moment otherwise; before the first fit they raise the intended exception.", "quantifier": "all histories of calls, recompute flags, parameters, properties, numbers of vertices and labels; sparse, dense and spark backends, every number of blocks and order of combination", "why_tests_cant": "Unbounded histories; the tests ask each query once on a new object.", "anchors": ["src/graph_ensembles/sparse/models/ensembles.py:MultiDiGraphEnsemble.expected_num_edges_label", "src/graph_ensembles/sparse/models/ensembles.py:MultiDiGraphEnsemble.expected_degree_by_label", "src/graph_ensembles/models.py:MultiDiGraphEnsemble.expected_degree_by_label", "src/graph_ensembles/spark/models.py:MultiDiGraphEnsemble.expected_num_edges", "src/graph_ensembles/spark/models.py:MultiDiGraphEnsemble.expected_out_degree_by_label"]}
{"id": "C77", "title": "Spark models are constructed from valid input only", "statement": "A Spark model is constructed iff the first argument is a SparkContext, the remaining arguments and the options other than p_blocks are valid for the model, and p_blocks is absent or a positive integer; its attributes are the values given, the number of blocks is the one asked for (10 by default) or, with fewer than ten vertices per block, a tenth of the number of vertices but at least two, and every ordered (unordered) pair of vertices lies in exactly one pair of blocks; otherwise an exception is raised, the same as for the sparse model if that refuses the arguments.", "quantifier": "all unnamed arguments, options in any order and repetition, all three constructors", "why_tests_cant": "All argument types and all sizes; the tests construct a few models.", "anchors": ["src/graph_ensembles/spark/models.py:RandomDiGraph.__init__", "src/graph_ensembles/spark/models.py:FitnessModel.__init__", "src/graph_ensembles/spark/models.py:MultiFitnessModel.__init__"]}
{"id": "C78", "title": "From the edge table to the fitted ensemble", "statement": "Building a graph from tables of vertices and weighted edges, asking it anything, making a fitness or scale-invariant model from it and fitting the model succeeds iff the tables are valid and there is a vertex; the model reproduces the number of edges of the table: the fit converges iff the expected number of edges agrees with it within the tolerances, this is so for all large iteration limits whenever some finite parameter reproduces the number, which is then unique; vertices are connected with the probability of the model for the sums of the weights of their rows; the graph itself is possible under the fitted model.", "quantifier": "all tables, histories of queries, models (sparse and dense; Spark in every order of combination), self-loop settings, tolerances", "why_tests_cant": "Composition of five steps over all graphs and a continuum of parameters; unit tests fit a few fixed graphs.", "anchors": ["src/graph_ensembles/sparse/graphs.py:DiGraph", "src/graph_ensembles/graphs.py:DiGraph", "src/graph_ensembles/sparse/models/fitness.py:FitnessModel", "src/graph_ensembles/sparse/models/invariant.py:ScaleInvariantModel", "src/graph_ensembles/models.py:FitnessModel", "src/graph_ensembles/models.py:ScaleInvariantModel", "src/graph_ensembles/sparse/models/ensembles.py:DiGraphEnsemble.log_likelihood", "src/graph_ensembles/spark/models.py:FitnessModel.fit"]}
{"id": "C79", "title": "From the labelled edge table to the fitted multi-layer ensemble", "statement": "Building a labelled graph from tables of vertices and weighted, labelled edges, asking it anything, making a multi-layer fitness or scale-invariant model from it and fitting the model succeeds iff the tables are valid and there is an edge; with one parameter per label the fit of a label converges iff its expected number of edges agrees with the number in the table within the tolerances, with one parameter for all labels iff the expected number of linked pairs does; this is so for all large iteration limits whenever some finite parameter reproduces the number, which is then unique; vertices are connected with the probability that follows from independent labels and the sums of the weights of the rows of each label; the log-likelihood of the graph is the logarithm of its probability under the fitted model.", "quantifier": "all tables, histories of queries, both models (sparse), self-loop and per_label settings, tolerances", "why_tests_cant": "Composition of six steps over all labelled graphs and a continuum of parameters; unit tests fit a few fixed graphs.", "anchors": ["src/graph_ensembles/sparse/graphs.py:MultiDiGraph", "src/graph_ensembles/sparse/models/fitness.py:MultiFitnessModel", "src/graph_ensembles/sparse/models/invariant.py:MultiInvariantModel", "src/graph_ensembles/sparse/models/ensembles.py:MultiDiGraphEnsemble.expected_num_edges_label", "src/graph_ensembles/sparse/models/ensembles.py:MultiDiGraphEnsemble.log_likelihood"]}
{"id": "C80", "title": "Methods of the Spark ensembles", "statement": "Whatever the number of blocks and the order of combination, log_likelihood, confusion_matrix and sample of a fitted Spark ensemble have one outcome: the logarithm of the probability of the graph given; for every threshold the numbers of true and false positives and negatives among the pairs counted, where thresholds chosen automatically span the range of the probabilities; a graph object with the sampled links and weights, which has every graph as its links with exactly the probability of that graph; self loops follow the argument selfloops; every other call raises the intended exception.", "quantifier": "all parameters, properties, numbers of vertices, labels and blocks, arguments, thresholds, random numbers; fitness and scale-invariant models, single- and multi-layer", "why_tests_cant": "All schedules, graphs, thresholds and random numbers; the tests run a few small graphs in one schedule.", "anchors": ["src/graph_ensembles/spark/models.py:DiGraphEnsemble.log_likelihood", "src/graph_ensembles/spark/models.py:DiGraphEnsemble.confusion_matrix", "src/graph_ensembles/spark/models.py:DiGraphEnsemble.sample", "src/graph_ensembles/spark/models.py:MultiDiGraphEnsemble.log_likelihood", "src/graph_ensembles/spark/models.py:MultiDiGraphEnsemble.confusion_matrix", "src/graph_ensembles/spark/models.py:MultiDiGraphEnsemble.sample"]}
{"id": "C81", "title": "Queries of the Spark ensembles after any history of calls", "statement": "After any sequence of fits and queries, calls that raise included, each of expected_num_edges, the expected degrees, expected_av_nn_property and expected_av_nn_degree of a fitted Spark ensemble has one outcome whatever the number of blocks and the order of combination: the mean for the current parameters and the self-loop setting requested, the setting of the ensemble being left as it was; calls before fitting or with undocumented arguments raise the intended exception.", "quantifier": "all histories of calls and arguments, parameters, properties, numbers of vertices and blocks, orders of combination; fitness and scale-invariant models, single- and multi-layer", "why_tests_cant": "Unbounded histories and all schedules; the tests ask each query once on a new object with one schedule.", "anchors": ["src/graph_ensembles/spark/models.py:DiGraphEnsemble.expected_num_edges", "src/graph_ensembles/spark/models.py:DiGraphEnsemble.expected_degree", "src/graph_ensembles/spark/models.py:DiGraphEnsemble.expected_av_nn_property", "src/graph_ensembles/spark/models.py:DiGraphEnsemble.expected_av_nn_degree", "src/graph_ensembles/spark/models.py:MultiDiGraphEnsemble.expected_num_edges", "src/graph_ensembles/spark/models.py:MultiDiGraphEnsemble.expected_degree", "src/graph_ensembles/spark/models.py:MultiDiGraphEnsemble.expected_av_nn_property"]}
{"id": "C82", "title": "Queries of the random ensemble after any history of calls", "statement": "After any sequence of fits, changes of the self-loop setting and queries, calls that raise included, each of expected_num_edges, the expected degrees, expected_total_weight, expected_av_nn_property and expected_av_nn_degree of a fitted RandomDiGraph returns the mean for the current link probability and the self-loop setting requested, and leaves the object as it was; repeated fits change nothing; calls before fitting or with undocumented arguments raise the intended exception.", "quantifier": "all histories of calls and arguments, numbers of vertices and edges, link probabilities; sparse, dense and spark backends", "why_tests_cant": "Unbounded histories; the tests ask each query once on a new object.", "anchors": ["src/graph_ensembles/sparse/models/random.py:RandomDiGraph", "src/graph_ensembles/models.py:RandomDiGraph", "src/graph_ensembles/spark/models.py:RandomDiGraph", "src/graph_ensembles/sparse/models/ensembles.py:DiGraphEnsemble.expected_av_nn_degree", "src/graph_ensembles/models.py:DiGraphEnsemble.expected_av_nn_degree", "src/graph_ensembles/spark/models.py:DiGraphEnsemble.expected_av_nn_degree"]}
{"id": "C83", "title": "Graphs sampled from the random ensemble", "statement": "sample of a fitted RandomDiGraph returns a graph object with the ensemble's number of vertices, an identifier type wide enough for it, the names and groups of the reference graph (or consecutive numbers and no groups) and an adjacency matrix that holds exactly the sampled links, with weights if asked for; without weights each graph has the probability p^links (1-p)^(other pairs); averaged over the random numbers, num_edges and the degrees of the sampled graph, asked after any other queries, equal expected_num_edges and the expected degrees, and the number of edges the ensemble was fitted to; self loops follow the argument selfloops; every other call raises the intended exception.", "quantifier": "all numbers of vertices and edges, link probabilities, reference graphs, weights, random numbers, query histories; sparse and dense", "why_tests_cant": "A law over infinitely many runs of the generator; the tests draw a few samples.", "anchors": ["src/graph_ensembles/sparse/models/random.py:RandomDiGraph.sample", "src/graph_ensembles/sparse/models/random.py:RandomDiGraph._binary_sample", "src/graph_ensembles/models.py:RandomDiGraph.sample", "src/graph_ensembles/sparse/models/random.py:RandomDiGraph.fit", "src/graph_ensembles/sparse/models/random.py:RandomDiGraph._weighted_sample"]}
{"id": "C84", "title": "From the edge table to the random ensemble", "statement": "Building a graph from tables of vertices and weighted edges, asking it anything, making a RandomDiGraph from it and fitting the ensemble succeeds iff the tables are valid and there is a vertex; the link probability is then the number of edges of the table over the number of admissible pairs and lies between zero and one, the expected number of edges and the average number of edges of the sampled graphs, which have the names of the vertices of the table, are the number of edges of the table, the weight parameter reproduces the mean weight of an edge, the log-likelihood of the graph is the logarithm of its probability, and an ensemble can be made from a sampled graph in the same way.", "quantifier": "all tables, histories of queries, self-loop and discrete_weights settings, directed and undirected graphs, sparse and dense, random numbers", "why_tests_cant": "Composition of five steps over all graphs and random numbers; unit tests fit a few fixed graphs.", "anchors": ["src/graph_ensembles/sparse/graphs.py:DiGraph", "src/graph_ensembles/graphs.py:DiGraph", "src/graph_ensembles/sparse/graphs.py:Graph", "src/graph_ensembles/graphs.py:Graph", "src/graph_ensembles/sparse/models/random.py:RandomDiGraph.__init__", "src/graph_ensembles/sparse/models/random.py:RandomDiGraph.fit", "src/graph_ensembles/sparse/models/random.py:RandomDiGraph.log_likelihood", "src/graph_ensembles/sparse/models/random.py:RandomDiGraph.sample", "src/graph_ensembles/models.py:RandomDiGraph"]}
{"id": "C85", "title": "The density fit is the maximum likelihood fit", "statement": "For the fitness models, the parameter for which the expected number of edges equals the number of edges of a graph, which is what fit searches for, is the only one that maximises log_likelihood of this graph among all parameters; with one parameter per label the same holds for the labelled graph; a fit within the tolerances misses the maximum by at most the tolerance times the logarithm of the ratio of the parameters. The link probability fitted by the random ensemble maximises its log-likelihood of the graph it was made from.", "quantifier": "all graphs and tables, properties, parameters, self-loop settings, tolerances; sparse, dense and spark", "why_tests_cant": "A maximum over a continuum of parameters; tests compare log-likelihoods at a few values.", "anchors": ["src/graph_ensembles/sparse/models/fitness.py:FitnessModel.fit", "src/graph_ensembles/sparse/models/fitness.py:FitnessModel.logp", "src/graph_ensembles/sparse/models/ensembles.py:DiGraphEnsemble.log_likelihood", "src/graph_ensembles/sparse/models/ensembles.py:DiGraphEnsemble.exp_edges", "src/graph_ensembles/sparse/models/fitness.py:MultiFitnessModel", "src/graph_ensembles/models.py:FitnessModel", "src/graph_ensembles/spark/models.py:FitnessModel", "src/graph_ensembles/sparse/models/random.py:RandomDiGraph.fit", "src/graph_ensembles/sparse/models/random.py:RandomDiGraph.log_likelihood"]}
{"id": "C86", "title": "Queries of the conditional ensemble after any history of calls", "statement": "After any sequence of fits and queries, calls that raise included, each of expected_num_edges, the expected degrees, expected_av_nn_property and expected_av_nn_degree of a ConditionalInvariantModel returns the mean under the law of the graph given its coarse graph, for the current parameter and the self-loop setting requested, and leaves the setting of the model as it was; the average of a property over the neighbours is a weighted mean of its values; calls before fitting or with undocumented arguments raise the intended exception.", "quantifier": "all histories of calls and arguments, parameters, properties, partitions and coarse graphs, self-loop settings", "why_tests_cant": "Unbounded histories and all conditional laws; the tests ask each query once on a new object.", "anchors": ["src/graph_ensembles/sparse/models/conditional.py:ConditionalInvariantModel.expected_num_edges", "src/graph_ensembles/sparse/models/conditional.py:ConditionalInvariantModel.expected_degree", "src/graph_ensembles/sparse/models/conditional.py:ConditionalInvariantModel.expected_out_degree", "src/graph_ensembles/sparse/models/conditional.py:ConditionalInvariantModel.expected_in_degree", "src/graph_ensembles/sparse/models/ensembles.py:DiGraphEnsemble.expected_av_nn_property", "src/graph_ensembles/sparse/models/ensembles.py:DiGraphEnsemble.expected_av_nn_degree"]}
{"id": "C87", "title": "Strengths of graphs without weights are degrees", "statement": "As the documentation of the graph classes says, if the edges have no weights then, after any queries, every strength equals the corresponding degree and every total weight the corresponding number of edges: out, in and undirected, by group and by label, for graphs and multigraphs; the networkx graph joins the same vertices as the rows of the table.", "quantifier": "all vertex and edge tables without weights, histories of queries, vertices, groups and labels; dense and sparse, directed and undirected, single- and multi-layer", "why_tests_cant": "All tables and histories; the tests compare strengths on a few weighted tables.", "anchors": ["src/graph_ensembles/graphs.py:Graph.adjacency_matrix", "src/graph_ensembles/graphs.py:Graph.strength", "src/graph_ensembles/graphs.py:DiGraph.out_strength", "src/graph_ensembles/graphs.py:MultiGraph.adjacency_tensor", "src/graph_ensembles/graphs.py:MultiDiGraph.adjacency_matrix", "src/graph_ensembles/sparse/graphs.py:Graph.adjacency_matrix", "src/graph_ensembles/sparse/graphs.py:Graph.strength", "src/graph_ensembles/sparse/graphs.py:Graph.to_networkx", "src/graph_ensembles/sparse/graphs.py:MultiGraph.adjacency_tensor", "src/graph_ensembles/sparse/graphs.py:MultiDiGraph.adjacency_matrix"]}
{"id": "C88", "title": "The scale-invariant model at two scales", "statement": "With self loops allowed, the scale-invariant model of the vertices and the one of their groups (same parameter, properties summed over the group, label by label for several layers) describe the same graphs: merging a sample of the fine model by groups gives each graph of the groups with the probability with which the coarse model samples it, the expected edges and degrees of the coarse model are means over merged fine graphs, sampling the coarse model and then the conditional model given that sample gives each fine graph with the probability with which the fine model samples it, the log-likelihood of a graph is the coarse one of the merged graph plus the conditional one, and the expected number of edges is the mean of the conditional ones. Without self loops the same relation of the merged graph and the coarse model holds for the links between different groups.", "quantifier": "all numbers of vertices and groups, partitions, parameters, properties, graphs and random numbers; sparse, dense and spark, single- and multi-layer", "why_tests_cant": "Equality of two laws over exponentially many graphs, produced by three separate samplers.", "anchors": ["src/graph_ensembles/sparse/models/invariant.py:ScaleInvariantModel.p_ij", "src/graph_ensembles/sparse/models/invariant.py:MultiInvariantModel.p_ij", "src/graph_ensembles/sparse/models/conditional.py:ConditionalInvariantModel.sample", "src/graph_ensembles/sparse/models/conditional.py:ConditionalInvariantModel.log_likelihood", "src/graph_ensembles/sparse/models/conditional.py:ConditionalInvariantModel.expected_num_edges", "src/graph_ensembles/sparse/models/ensembles.py:DiGraphEnsemble.log_likelihood", "src/graph_ensembles/sparse/models/ensembles.py:DiGraphEnsemble._binary_sample", "src/graph_ensembles/models.py:ScaleInvariantModel.p_ij"]}
{"id": "C89", "title": "Neighbour averages of properties with several columns", "statement": "Given a property array of shape (n, k), whose first dimension is the vertex index as the documentation asks, average_nn_property of a graph and expected_av_nn_property of an ensemble return an array of the same shape whose entry for vertex i and column c is the (expected) sum of column c over the neighbours of i divided by the (expected) degree of i, and the self-loop setting of the ensemble is left as it was.", "quantifier": "all graphs, fitted ensembles, parameters, numbers of vertices and columns, properties, directions, self-loop settings; sparse, dense and spark", "why_tests_cant": "All shapes and graphs; the tests pass arrays with one dimension only.", "anchors": ["src/graph_ensembles/sparse/models/ensembles.py:DiGraphEnsemble.expected_av_nn_property", "src/graph_ensembles/sparse/models/ensembles.py:DiGraphEnsemble.exp_av_nn_prop", "src/graph_ensembles/models.py:DiGraphEnsemble.expected_av_nn_property", "src/graph_ensembles/spark/models.py:DiGraphEnsemble.expected_av_nn_property", "src/graph_ensembles/sparse/models/random.py:RandomDiGraph.expected_av_nn_property", "src/graph_ensembles/spark/models.py:RandomDiGraph.expected_av_nn_property", "src/graph_ensembles/graphs.py:DiGraph.average_nn_property", "src/graph_ensembles/sparse/graphs.py:DiGraph.average_nn_property", "src/graph_ensembles/sparse/graphs.py:Graph.av_nn_prop"]}
{"id": "C90", "title": "The numbering of the vertices does not matter", "statement": "Two models built from the same vertices listed in different orders behave the same: every query after any history of calls returns the same numbers, vertex by vertex, or raises the same exception (label-resolved queries included); the fit hands the solver the same function and hence ends with the same parameters; every graph has the same log-likelihood in whatever form it is passed; every graph is sampled with the same probability, and with the same random number per pair of vertices the samplers return the same graph with the same weights. For the conditional model the groups follow their vertices.", "quantifier": "all permutations of all vertex sets, properties, parameters, histories of calls, graphs, self-loop settings; sparse, dense and spark, single- and multi-layer, conditional", "why_tests_cant": "All permutations and histories; the tests fix one order of the vertices.", "anchors": ["src/graph_ensembles/sparse/models/ensembles.py:DiGraphEnsemble.exp_edges", "src/graph_ensembles/sparse/models/ensembles.py:DiGraphEnsemble.exp_degrees", "src/graph_ensembles/sparse/models/ensembles.py:DiGraphEnsemble.exp_av_nn_prop", "src/graph_ensembles/sparse/models/ensembles.py:DiGraphEnsemble._likelihood", "src/graph_ensembles/sparse/models/ensembles.py:DiGraphEnsemble._binary_sample", "src/graph_ensembles/sparse/models/fitness.py:FitnessModel.exp_edges_f_jac", "src/graph_ensembles/sparse/models/ensembles.py:MultiDiGraphEnsemble.exp_edges_label", "src/graph_ensembles/sparse/models/ensembles.py:MultiDiGraphEnsemble.exp_degrees_label", "src/graph_ensembles/models.py:DiGraphEnsemble.exp_degrees", "src/graph_ensembles/spark/models.py:DiGraphEnsemble.exp_edges", "src/graph_ensembles/sparse/models/conditional.py:ConditionalInvariantModel.exp_edges", "src/graph_ensembles/sparse/models/conditional.py:ConditionalInvariantModel.exp_degrees", "src/graph_ensembles/sparse/models/conditional.py:ConditionalInvariantModel.log_likelihood", "src/graph_ensembles/sparse/models/conditional.py:ConditionalInvariantModel.fit"]}
{"id": "C91", "title": "Probabilities stay probabilities when numbers are rounded", "statement": "In floating-point arithmetic in which every operation returns a value that no representable number separates from the exact one (double precision with rounding to nearest is such an arithmetic), the connection probability of every model is a number between zero and one, the logarithms of the probability of a link and of no link are never positive and never nan, the expected number of edges and the expected degrees lie between zero and the numbers of possible edges and neighbours, and the log-likelihood of a graph is never positive and never nan.", "quantifier": "all such arithmetics, parameters, properties, dyadic properties, numbers of vertices and labels, graphs, self-loop settings; sparse, dense and spark, single- and multi-layer", "why_tests_cant": "The rounding errors of all inputs; the tests compare a few values with a tolerance.", "anchors": ["src/graph_ensembles/sparse/models/fitness.py:FitnessModel.p_ij", "src/graph_ensembles/sparse/models/invariant.py:ScaleInvariantModel.p_ij", "src/graph_ensembles/sparse/models/fitness.py:MultiFitnessModel.p_ij", "src/graph_ensembles/sparse/models/invariant.py:MultiInvariantModel.p_ij", "src/graph_ensembles/sparse/models/fitness.py:FitnessModel.logp", "src/graph_ensembles/sparse/models/fitness.py:FitnessModel.log1mp", "src/graph_ensembles/sparse/models/invariant.py:ScaleInvariantModel.logp", "src/graph_ensembles/sparse/models/ensembles.py:DiGraphEnsemble.exp_edges", "src/graph_ensembles/sparse/models/ensembles.py:DiGraphEnsemble.exp_degrees", "src/graph_ensembles/sparse/models/ensembles.py:DiGraphEnsemble._likelihood", "src/graph_ensembles/models.py:FitnessModel.p_ij", "src/graph_ensembles/models.py:ScaleInvariantModel.p_ij"]}
{"id": "C92", "title": "Accuracy in double precision", "statement": "The connection probability of the fitness and the scale-invariant model computed in double precision differs from the exact one by at most six half last places relative to the exact one, the expected number of edges by a relative error of at most (1+6u)(1+u)^N-1 for N admissible pairs and u = 2^-53, the logarithm of the probability of no link is finite where the exact one is, and the computed probability grows with the properties.", "quantifier": "all parameters, properties, dyadic properties, numbers of vertices up to 2^26, self-loop settings; sparse and dense", "why_tests_cant": "The rounding errors of all inputs; the tests compare a few values with a tolerance.", "anchors": ["src/graph_ensembles/sparse/models/fitness.py:FitnessModel.p_ij", "src/graph_ensembles/sparse/models/invariant.py:ScaleInvariantModel.p_ij", "src/graph_ensembles/sparse/models/fitness.py:FitnessModel.log1mp", "src/graph_ensembles/sparse/models/ensembles.py:DiGraphEnsemble.exp_edges", "src/graph_ensembles/models.py:FitnessModel.p_ij", "src/graph_ensembles/models.py:ScaleInvariantModel.p_ij"]}
{"id": "C93", "title": "The fit in double precision reaches the target", "statement": "Run in double precision, with every operation of the objective function and of the solver rounded, fit of a single-layer fitness or scale-invariant model returns a finite non-negative parameter for which the exact expected number of edges (computed without rounding) is within 1.2 times the tolerance atol + rtol * num_edges of the requested number, unless the iteration limit was reached, and the flags converged and no_change_stop are reported only if this is so; the parameters tried increase, and the number of iterations is at most the parameter times the derivative of the expected number of edges at zero over 0.9 * rtol * num_edges.", "quantifier": "all numbers of vertices, properties, dyadic properties, self-loop settings, attainable numbers of edges, tolerances with rtol at least 20 (n^2 + 300) 2^-53, iteration limits; sparse, dense and spark", "why_tests_cant": "The rounding errors of all inputs over all iterations; the tests fit a few fixed examples.", "anchors": ["src/graph_ensembles/sparse/models/fitness.py:FitnessModel.fit", "src/graph_ensembles/sparse/models/fitness.py:FitnessModel.p_jac_ij", "src/graph_ensembles/sparse/models/fitness.py:FitnessModel.exp_edges_f_jac", "src/graph_ensembles/sparse/models/invariant.py:ScaleInvariantModel.p_jac_ij", "src/graph_ensembles/models.py:FitnessModel.fit", "src/graph_ensembles/models.py:FitnessModel.p_jac_ij", "src/graph_ensembles/models.py:ScaleInvariantModel.p_jac_ij", "src/graph_ensembles/solver.py:monotonic_newton_solver"]}
{"id": "C94", "title": "Sampling on the machine", "statement": "With probabilities computed in double precision and random numbers that are equally likely multiples of 2^-53, sample draws the links independently, each with its computed probability rounded up to a multiple of 2^-53; links of computed probability zero are never drawn and links of computed probability one always are. Every quantity with values between 0 and B has a mean over the samples that differs from its mean over the exact ensemble by at most 7 * 2^-53 * B per admissible pair. If the parameter was fitted in double precision, the mean number of edges of the samples is within 1.2 times the tolerance plus 7 * 2^-53 per admissible pair of the requested number, unless the iteration limit was reached.", "quantifier": "all numbers of vertices, parameters, properties, dyadic properties, self-loop settings, sets of graphs, bounded functions of graphs, probability spaces carrying 53-bit random numbers; sparse and dense", "why_tests_cant": "The law of the samples and the effect of rounding for all inputs; the tests average a few hundred samples.", "anchors": ["src/graph_ensembles/sparse/models/ensembles.py:DiGraphEnsemble._binary_sample", "src/graph_ensembles/sparse/models/ensembles.py:DiGraphEnsemble.sample", "src/graph_ensembles/sparse/models/fitness.py:FitnessModel.p_ij", "src/graph_ensembles/sparse/models/invariant.py:ScaleInvariantModel.p_ij", "src/graph_ensembles/sparse/models/fitness.py:FitnessModel.fit", "src/graph_ensembles/models.py:FitnessModel.p_ij", "src/graph_ensembles/models.py:ScaleInvariantModel.p_ij"]}
{"id": "C95", "title": "Repeated sampling", "statement": "Successive calls of sample, on the same or on different ensembles, give independent graphs, each with the law of its ensemble, and each call uses as many random numbers as there are admissible pairs. Averages over the samples of one ensemble of any quantity converge to its ensemble mean with probability one, in particular the averages of the number of edges and of the degrees to the values returned by expected_num_edges and expected_degree; the probability that the average over m samples of the number of links within a set of T pairs deviates by eps or more from the sum of their probabilities is at most 2 exp(-2 m eps^2 / T).", "quantifier": "all sequences of calls, ensembles, numbers of vertices, self-loop settings, quantities, numbers of samples, deviations; sparse, dense and spark probability functions, single-layer and all layers together", "why_tests_cant": "Limits and tail probabilities over all inputs; the tests compare averages over a few hundred samples with a tolerance.", "anchors": ["src/graph_ensembles/sparse/models/ensembles.py:DiGraphEnsemble.sample", "src/graph_ensembles/sparse/models/ensembles.py:DiGraphEnsemble._binary_sample", "src/graph_ensembles/sparse/models/ensembles.py:DiGraphEnsemble.exp_edges", "src/graph_ensembles/sparse/models/ensembles.py:DiGraphEnsemble.exp_degrees", "src/graph_ensembles/models.py:DiGraphEnsemble._binary_sample"]}
{"id": "C96", "title": "Larger parameters and properties give more links", "statement": "If every parameter and property of an ensemble is at most that of another of the same class, then with the same random numbers every sampled graph is contained in the corresponding one of the other ensemble, over any number of calls; the expected number of edges and the expected degrees are at most as large, and so is the mean of every quantity that does not decrease when links are added.", "quantifier": "all pairs of such ensembles, numbers of vertices, self-loop settings, random numbers, numbers of calls, increasing quantities; sparse, dense and spark, single-layer and all layers together", "why_tests_cant": "Relates all pairs of parameters and all random numbers; the tests look at one ensemble at a time.", "anchors": ["src/graph_ensembles/sparse/models/ensembles.py:DiGraphEnsemble._binary_sample", "src/graph_ensembles/sparse/models/ensembles.py:DiGraphEnsemble.exp_edges", "src/graph_ensembles/sparse/models/ensembles.py:DiGraphEnsemble.exp_degrees", "src/graph_ensembles/sparse/models/fitness.py:FitnessModel.p_ij", "src/graph_ensembles/sparse/models/invariant.py:ScaleInvariantModel.p_ij", "src/graph_ensembles/sparse/models/fitness.py:MultiFitnessModel.p_ij", "src/graph_ensembles/sparse/models/invariant.py:MultiInvariantModel.p_ij", "src/graph_ensembles/models.py:FitnessModel.p_ij", "src/graph_ensembles/models.py:ScaleInvariantModel.p_ij"]}
{"id": "C97", "title": "Weighted samples from one stream of random numbers", "statement": "Successive calls of sample, with or without weights, read one stream of random numbers: one number per admissible pair and, in a weighted call, one more per link drawn. All entries of all graphs are nevertheless independent: a pair is linked with its probability p, and the weight of the link is exponential with mean s_out_i s_in_j / (s_tot p). Weights are finite, and not negative if the strengths are not. Over repeated weighted calls the average total weight within any set of pairs converges with probability one to the sum of s_out_i s_in_j / s_tot over its pairs that can be linked. A weighted call raises exactly when the totals of the strengths differ by a relative 1e-6 or the out strengths sum to zero, and then reads no random number.", "quantifier": "all sequences of calls, ensembles, strengths, numbers of vertices, self-loop settings, random numbers; sparse and dense probability functions, single-layer and all layers together", "why_tests_cant": "The number of random numbers read depends on the numbers read, so independence concerns all executions; the tests compare averages of a few samples with a tolerance.", "anchors": ["src/graph_ensembles/sparse/models/ensembles.py:DiGraphEnsemble.sample", "src/graph_ensembles/sparse/models/ensembles.py:DiGraphEnsemble._cremb_sample", "src/graph_ensembles/sparse/models/ensembles.py:DiGraphEnsemble._binary_sample", "src/graph_ensembles/models.py:DiGraphEnsemble._cremb_sample"]}
{"id": "C98", "title": "Fits to more edges give more links", "statement": "If two converged fits of the same model ask for numbers of edges that differ by more than their two tolerances together, the fit to more edges ends with the larger parameter, whatever the starting points and options; with the same random numbers every graph sampled from the first is contained in the one sampled from the second, and all expected degrees of the first are at most those of the second. Parameters that reproduce their numbers of edges exactly are ordered as these.", "quantifier": "all properties, numbers of vertices, self-loop settings, numbers of edges, tolerances, iteration limits, starting points, random numbers; sparse, dense and spark, single-layer and multi-layer with one shared parameter", "why_tests_cant": "Relates all pairs of fits; the tests fit one number of edges at a time.", "anchors": ["src/graph_ensembles/sparse/models/fitness.py:FitnessModel.fit", "src/graph_ensembles/sparse/models/invariant.py:ScaleInvariantModel", "src/graph_ensembles/sparse/models/fitness.py:MultiFitnessModel.fit", "src/graph_ensembles/sparse/models/invariant.py:MultiInvariantModel", "src/graph_ensembles/sparse/models/ensembles.py:DiGraphEnsemble._binary_sample", "src/graph_ensembles/sparse/models/ensembles.py:DiGraphEnsemble.exp_degrees", "src/graph_ensembles/models.py:FitnessModel.fit"]}
{"id": "C99", "title": "The units of the properties do not matter", "statement": "If the out-properties, in-properties and pair properties of a model are multiplied by positive constants, the model with the parameter divided by the product of the constants has the same link probabilities, expected number of edges, expected degrees and likelihoods, and with the same random numbers the same samples. The fit of the rescaled model from the correspondingly divided starting point (in particular from the default one) takes the same number of iterations, visits the points of the original fit divided by the product, and reports the same residuals, relative changes and flags; the two fitted models are the same ensemble.", "quantifier": "all properties with at least one possible link, constants, parameters including infinity, numbers of vertices, self-loop settings, numbers of edges, tolerances, iteration limits, starting points, random numbers; sparse, dense and spark, single-layer and multi-layer with one shared parameter", "why_tests_cant": "Relates all iterates of two runs for all inputs; the tests fit each example in one unit.", "anchors": ["src/graph_ensembles/sparse/models/fitness.py:FitnessModel.fit", "src/graph_ensembles/sparse/models/invariant.py:ScaleInvariantModel", "src/graph_ensembles/sparse/models/fitness.py:MultiFitnessModel.fit", "src/graph_ensembles/sparse/models/invariant.py:MultiInvariantModel", "src/graph_ensembles/sparse/models/fitness.py:FitnessModel.p_jac_ij", "src/graph_ensembles/sparse/models/invariant.py:ScaleInvariantModel.p_jac_ij", "src/graph_ensembles/solver.py:monotonic_newton_solver", "src/graph_ensembles/models.py:FitnessModel.fit"]}
{"id": "C100", "title": "All links reversed", "statement": "If the out- and in-properties of a model are exchanged and its pair properties transposed, the probability of the pair (i, j) becomes that of (j, i): expected out- and in-degrees are exchanged, the expected number of edges and the expected undirected degrees stay, the likelihood of a graph is that of the reversed graph in the original model, and samples drawn with transposed random numbers are the reversed samples, with the same weights if the strengths are exchanged too. The fit is unchanged: same objective, same iterates, same solution object, or same exception, with one parameter or one per label. Exchanging the columns src and dst of an edge table gives the graph with the transposed adjacency matrix, or the same exception, and the whole run from the table to the fitted ensemble ends with the same solution and reversed probabilities.", "quantifier": "all properties, parameters including infinity, numbers of vertices, self-loop settings, graphs, random numbers, starting points, methods and options; sparse, dense and spark, single-layer and multi-layer; all tables, including tables that are refused; sparse and dense graphs", "why_tests_cant": "Relates all pairs of inputs and whole runs; the tests check one orientation of each example.", "anchors": ["src/graph_ensembles/sparse/models/ensembles.py:DiGraphEnsemble.exp_degrees", "src/graph_ensembles/sparse/models/ensembles.py:DiGraphEnsemble._binary_sample", "src/graph_ensembles/sparse/models/ensembles.py:DiGraphEnsemble._cremb_sample", "src/graph_ensembles/sparse/models/fitness.py:FitnessModel.fit", "src/graph_ensembles/sparse/models/invariant.py:ScaleInvariantModel", "src/graph_ensembles/sparse/models/fitness.py:MultiFitnessModel.fit", "src/graph_ensembles/sparse/models/invariant.py:MultiInvariantModel", "src/graph_ensembles/models.py:FitnessModel.fit", "src/graph_ensembles/sparse/graphs.py:DiGraph.__init__", "src/graph_ensembles/graphs.py:DiGraph.__init__"]}
{"id": "C101", "title": "A fit needs few iterations", "statement": "If the requested number of edges m is attained at a parameter at which no admissible link has a probability above q, then a fit started at or below that parameter (the default start included) stops because it converged or because maxiter iterations were done, and the number k of its iterations satisfies k = 0 or 4^(k-1) * tol * (1-q)^2 <= m, where tol = atol + rtol * m: the iterations grow only with the logarithm of m / (tol (1-q)^2). Hence it converges if maxiter is larger. A start above that parameter costs at most one more iteration. Between two successive iterates the distance r to the requested number falls to at most 2 r^2 / (1-q)^4. With the default options every fit from the default start converges, for any m and any number of vertices, unless some link of the solution has a probability above 1 - 10^-25. Numbers are exact.", "quantifier": "all properties, numbers of vertices, self-loop settings, attainable numbers of edges, tolerances, iteration limits, starting points; sparse, dense and spark, single-layer and multi-layer with one shared parameter or one per label", "why_tests_cant": "A bound on the number of iterations for all inputs; the tests fit a few examples and look at the result.", "anchors": ["src/graph_ensembles/sparse/models/fitness.py:FitnessModel.fit", "src/graph_ensembles/sparse/models/invariant.py:ScaleInvariantModel", "src/graph_ensembles/sparse/models/fitness.py:MultiFitnessModel.fit", "src/graph_ensembles/sparse/models/invariant.py:MultiInvariantModel", "src/graph_ensembles/sparse/models/fitness.py:FitnessModel.p_jac_ij", "src/graph_ensembles/sparse/models/invariant.py:ScaleInvariantModel.p_jac_ij", "src/graph_ensembles/models.py:FitnessModel.fit", "src/graph_ensembles/solver.py:monotonic_newton_solver"]}
{"id": "C102", "title": "The log-likelihood identifies the ensemble", "statement": "With random numbers in [0, 1) the log-likelihood of an ensemble on each of its own samples is finite and not positive. Its mean over the graphs of the ensemble is minus the sum of the entropies of the links. The mean log-likelihood of any other ensemble over these graphs, if it makes none of them impossible, is at most as large, and equal only if all link probabilities on admissible pairs are the same. With probability one, the log-likelihoods summed over the samples of an ensemble end up strictly larger for that ensemble than for any ensemble with different link probabilities, also if this makes some of the graphs impossible and returns -inf.", "quantifier": "all pairs of ensembles, numbers of vertices, self-loop settings, random numbers, probability spaces; sparse, dense and spark, fitness and scale-invariant, single-layer and all layers together", "why_tests_cant": "Compares all pairs of ensembles over all graphs and limits over all samples; the tests compute one likelihood of one graph.", "anchors": ["src/graph_ensembles/sparse/models/ensembles.py:DiGraphEnsemble.log_likelihood", "src/graph_ensembles/sparse/models/ensembles.py:DiGraphEnsemble._likelihood", "src/graph_ensembles/sparse/models/ensembles.py:DiGraphEnsemble.sample", "src/graph_ensembles/sparse/models/ensembles.py:DiGraphEnsemble._binary_sample", "src/graph_ensembles/sparse/models/fitness.py:FitnessModel.logp", "src/graph_ensembles/sparse/models/fitness.py:FitnessModel.log1mp", "src/graph_ensembles/sparse/models/invariant.py:ScaleInvariantModel.logp", "src/graph_ensembles/models.py:DiGraphEnsemble.log_likelihood"]}
{"id": "C103", "title": "The fitness model has the largest entropy for its expected degrees", "statement": "Among all distributions on the graphs of n vertices whose mean out- and in-degrees are those returned by expected_degree of a single-layer fitness model, the distribution described by log_likelihood of the model has the largest entropy, and it is the only one. In particular every other ensemble of the library with these expected degrees has a larger mean log-likelihood over its own graphs, unless all its link probabilities are the same, and two fitness models with the same expected degrees have the same link probabilities whatever their parameters and properties.", "quantifier": "all finite parameters and properties including zeros, dyadic properties one, numbers of vertices, self-loop settings, distributions on graphs; sparse and dense fitness models, compared with all ensembles of the library", "why_tests_cant": "Compares with all distributions on graphs; no test can enumerate them.", "anchors": ["src/graph_ensembles/sparse/models/fitness.py:FitnessModel.p_ij", "src/graph_ensembles/sparse/models/fitness.py:FitnessModel.logp", "src/graph_ensembles/sparse/models/fitness.py:FitnessModel.log1mp", "src/graph_ensembles/sparse/models/ensembles.py:DiGraphEnsemble.exp_degrees", "src/graph_ensembles/sparse/models/ensembles.py:DiGraphEnsemble._likelihood", "src/graph_ensembles/models.py:FitnessModel.p_ij", "src/graph_ensembles/models.py:FitnessModel.logp", "src/graph_ensembles/models.py:DiGraphEnsemble.exp_degrees"]}
{"id": "C104", "title": "Weighted samples by label from one stream of random numbers", "statement": "Successive calls of sample on label-resolved ensembles, with or without weights, read one stream of random numbers: one for each pair of stored properties of each label and, in a weighted call, one more for each link whose two strengths are stored. All entries of all layers of all graphs are nevertheless independent: a pair is linked under a label with the probability of the model, and the weight of the link is exponential with mean s_out_i s_in_j / (s_tot p), the strengths being those of the label. A weighted call succeeds with probability one exactly if for every label the out strengths do not sum to zero, the two sums differ by less than a relative 1e-6 and no possible link has exactly one of its strengths stored; otherwise it raises at least with the probability of that link. With the default strengths (the properties of the model) only the conditions on the sums remain, and over repeated calls the average total weight of a label within any set of pairs converges with probability one to the sum of x_i y_j / (sum of x) over its pairs; with self-loops and equal sums the average strengths of each vertex under each label converge to its properties.", "quantifier": "all sequences of calls, label-resolved fitness and scale-invariant models, numbers of vertices and labels, strengths, self-loop settings, random numbers; sparse with and without weights, dense without", "why_tests_cant": "The number of random numbers read depends on the numbers read, so independence concerns all executions; the tests compare averages of a few samples with a tolerance.", "anchors": ["src/graph_ensembles/sparse/models/ensembles.py:MultiDiGraphEnsemble.sample", "src/graph_ensembles/sparse/models/ensembles.py:MultiDiGraphEnsemble._cremb_sample_layer", "src/graph_ensembles/sparse/models/ensembles.py:MultiDiGraphEnsemble._binary_sample_layer", "src/graph_ensembles/models.py:MultiDiGraphEnsemble._binary_sample_tensor"]}
{"id": "C105", "title": "Tables given to the graph constructors", "statement": "The graph constructors take two data frames and names of columns. The graph, or the exception, is that of the rows formed by the named columns: a list with one name means the name, several names mean the tuples of their values. No other column matters. Whatever happens, the constructors change no column of the caller's vertex table but _node and none of the edge table but _src, _dst and _label, and never the rows, so that any sequence of graphs of any class can be built from the same two tables, each being the one built from the original tables. A missing column, names of different kinds for src and dst, and several names of weights raise.", "quantifier": "all tables, column names given as strings or lists, classes, backends, weighted or not, with or without groups and labels, sequences of constructions including failing ones", "why_tests_cant": "All argument forms and sequences of constructions; the tests build one graph from each table.", "anchors": ["src/graph_ensembles/sparse/graphs.py:Graph.__init__", "src/graph_ensembles/sparse/graphs.py:MultiGraph.__init__", "src/graph_ensembles/sparse/graphs.py:DiGraph.__init__", "src/graph_ensembles/sparse/graphs.py:MultiDiGraph.__init__", "src/graph_ensembles/graphs.py:Graph.__init__", "src/graph_ensembles/graphs.py:MultiGraph.__init__", "src/graph_ensembles/graphs.py:DiGraph.__init__", "src/graph_ensembles/graphs.py:MultiDiGraph.__init__"]}
{"id": "C106", "title": "Arrays shared between ensembles and their callers", "statement": "Ensembles keep the arrays given to them and return arrays they keep. No call of the constructor, of fit or of a query changes an array that existed before it. Hence, as long as the callers only read, any interleaving of calls on any number of ensembles that share arrays, results of earlier calls being used as arguments of later ones, gives for each ensemble the results and exceptions it would give alone with copies of all arrays. A later write of the caller has no influence on an ensemble, whichever array it goes to; in particular averages returned by expected_av_nn_property are not kept.", "quantifier": "all single-layer ensembles with node properties, shared memories, interleavings of fits and queries with all arguments, arrays written", "why_tests_cant": "Concerns all interleavings and all writes; the tests use each array once.", "anchors": ["src/graph_ensembles/sparse/models/ensembles.py:DiGraphEnsemble.expected_num_edges", "src/graph_ensembles/sparse/models/ensembles.py:DiGraphEnsemble.expected_degree", "src/graph_ensembles/sparse/models/ensembles.py:DiGraphEnsemble.expected_out_degree", "src/graph_ensembles/sparse/models/ensembles.py:DiGraphEnsemble.expected_av_nn_property", "src/graph_ensembles/sparse/models/ensembles.py:DiGraphEnsemble.expected_av_nn_degree", "src/graph_ensembles/sparse/models/fitness.py:FitnessModel.__init__", "src/graph_ensembles/sparse/models/fitness.py:FitnessModel.fit", "src/graph_ensembles/solver.py:monotonic_newton_solver", "src/graph_ensembles/models.py:FitnessModel.fit"]}
{"id": "C107", "title": "Accuracy of expected degrees in double precision", "statement": "In double precision, with up to 2^26 vertices and all partial products of parameter and properties between 2^-1000 and 2^1000 or zero, every expected out-, in- and undirected degree returned by a single-layer model is finite and differs from the value without rounding by at most a relative (n + 11) 2^-52.", "quantifier": "all numbers of vertices up to 2^26, parameters, properties, pair properties, self-loop settings; fitness and scale-invariant models, sparse and dense", "why_tests_cant": "A bound on the rounding errors for all inputs; the tests compare a few values with a tolerance.", "anchors": ["src/graph_ensembles/sparse/models/ensembles.py:DiGraphEnsemble.exp_degrees", "src/graph_ensembles/models.py:DiGraphEnsemble.exp_degrees", "src/graph_ensembles/sparse/models/fitness.py:FitnessModel.p_ij", "src/graph_ensembles/sparse/models/invariant.py:ScaleInvariantModel.p_ij", "src/graph_ensembles/models.py:FitnessModel.p_ij", "src/graph_ensembles/models.py:ScaleInvariantModel.p_ij"]}
{"id": "C108", "title": "Probability over all layers in double precision", "statement": "In double precision, with L layers whose partial products of parameter and properties are between 2^-1000 and 2^1000 or zero, the probability of a link in at least one layer, the expected number of edges and the expected degrees of the multi-layer models are finite and close to the values without rounding: the relative errors are at most (L + 3), (n^2 + 2L + 6) and (n + 2L + 12) times 2^-52.", "quantifier": "all numbers of vertices up to 2^25, up to 2^20 layers, parameters, properties, self-loop settings; fitness and scale-invariant models, sparse and dense", "why_tests_cant": "A bound on the rounding errors for all inputs; the tests compare a few values with a tolerance.", "anchors": ["src/graph_ensembles/sparse/models/ensembles.py:DiGraphEnsemble.exp_edges", "src/graph_ensembles/sparse/models/ensembles.py:DiGraphEnsemble.exp_degrees", "src/graph_ensembles/sparse/models/fitness.py:MultiFitnessModel.p_ij", "src/graph_ensembles/sparse/models/fitness.py:MultiFitnessModel.logp", "src/graph_ensembles/sparse/models/invariant.py:MultiInvariantModel.p_ij", "src/graph_ensembles/models.py:MultiFitnessModel.p_ij", "src/graph_ensembles/models.py:MultiInvariantModel.p_ij"]}
{"id": "C109", "title": "Accuracy of the log-likelihood in double precision", "statement": "In double precision the log-likelihood of any graph is minus infinity exactly if it is so without rounding, that is, if the graph is impossible; otherwise both values are finite and at most zero and differ by at most N 3 2^-53 (|value| + 9 (1 + T) + 1), N being the number of admissible pairs and T a bound of the products of parameter and properties (for L layers, (3L + 9)(1 + L T) in place of 9 (1 + T)).", "quantifier": "all graphs, numbers of vertices, parameters, properties, pair properties, self-loop settings; fitness and scale-invariant models with one or several layers, sparse and dense", "why_tests_cant": "A bound on the rounding errors for all inputs and graphs; the tests compare a few values with a tolerance.", "anchors": ["src/graph_ensembles/sparse/models/ensembles.py:DiGraphEnsemble._likelihood", "src/graph_ensembles/models.py:DiGraphEnsemble._likelihood", "src/graph_ensembles/sparse/models/fitness.py:FitnessModel.logp", "src/graph_ensembles/sparse/models/fitness.py:FitnessModel.log1mp", "src/graph_ensembles/sparse/models/invariant.py:ScaleInvariantModel.logp", "src/graph_ensembles/sparse/models/invariant.py:ScaleInvariantModel.log1mp", "src/graph_ensembles/sparse/models/invariant.py:MultiInvariantModel.logp", "src/graph_ensembles/sparse/models/invariant.py:MultiInvariantModel.log1mp", "src/graph_ensembles/models.py:FitnessModel.logp", "src/graph_ensembles/models.py:ScaleInvariantModel.logp", "src/graph_ensembles/models.py:MultiInvariantModel.logp"]}
{"id": "C110", "title": "Nearest-neighbour averages in double precision", "statement": "In double precision, expected_av_nn_property and expected_av_nn_degree over out- or in-neighbours never fail their assertion on empty neighbourhoods, and every average they return is finite and differs from the value without rounding by at most a relative (5 n + 30) 2^-53 for a given property and (13 n + 120) 2^-53 for the expected degrees of the neighbours; over L layers by at most (5 n + 9 L + 33) 2^-53 and (13 n + 25 L + 130) 2^-53. Over neighbours in either direction the same holds with errors of at most (5 n + 17 K + 56) 2^-53 and (13 n + 17 K + 148) 2^-53, and with 18 L + 6 and 34 L + 11 in addition over L layers of the scale-invariant model, if no positive probability is smaller than 1/K; for the fitness model over L layers the bounds in all directions are (5 n + (45 L + 26) K + 8) 2^-53 and (13 n + (85 L + 34) K + 57) 2^-53. An average is zero exactly if it is zero without rounding.", "quantifier": "all numbers of vertices up to 2^25, parameters, properties, averaged properties, degree and neighbour directions, self-loop settings, numbers of layers up to 2^20; fitness and scale-invariant models with one or several layers, sparse and dense", "why_tests_cant": "A bound on the rounding errors for all inputs; the tests compare a few averages with a tolerance.", "anchors": ["src/graph_ensembles/sparse/models/ensembles.py:DiGraphEnsemble.exp_av_nn_prop", "src/graph_ensembles/sparse/models/ensembles.py:DiGraphEnsemble.expected_av_nn_property", "src/graph_ensembles/sparse/models/ensembles.py:DiGraphEnsemble.expected_av_nn_degree", "src/graph_ensembles/models.py:DiGraphEnsemble.exp_av_nn_prop", "src/graph_ensembles/models.py:DiGraphEnsemble.expected_av_nn_property", "src/graph_ensembles/models.py:DiGraphEnsemble.expected_av_nn_degree"]}
{"id": "C111", "title": "The random ensemble in double precision", "statement": "In double precision, with up to 2^26 vertices and a given number of edges m between 2^-300 and the number of admissible pairs, or zero, fit of the random ensemble sets a link probability in [0, 1] within a relative 1.2 2^-53 of m per admissible pair; the expected number of edges is within a relative 4 2^-53 of m, the out- and in-degrees are within 3 2^-53 of m per vertex and the degrees within 9 2^-53 of the mean degree. The weight parameter is within a relative 2^-53 of m over the total weight for continuous weights, and in [0, 1] and within 2 2^-53 of one minus that for discrete weights. The log-likelihood of a graph with admissible links is within a relative 4 2^-53 of the logarithm of its probability, and rounding changes no exception and no result of minus infinity. Nearest-neighbour averages with any order of the additions in np.sum are close to the averages over all other vertices. Samples drawn with 53-bit random numbers are random graphs whose link probability is the fitted one rounded up to a multiple of 2^-53.", "quantifier": "all numbers of vertices, numbers of edges, total weights, self-loop settings, graphs, properties, directions, orders of summation, random numbers; sparse, dense and Spark versions", "why_tests_cant": "A bound on the rounding errors for all inputs; the tests compare a few values with a tolerance.", "anchors": ["src/graph_ensembles/sparse/models/random.py:RandomDiGraph.fit", "src/graph_ensembles/sparse/models/random.py:RandomDiGraph.expected_num_edges", "src/graph_ensembles/sparse/models/random.py:RandomDiGraph.expected_degree", "src/graph_ensembles/sparse/models/random.py:RandomDiGraph.expected_out_degree", "src/graph_ensembles/sparse/models/random.py:RandomDiGraph.expected_av_nn_property", "src/graph_ensembles/sparse/models/random.py:RandomDiGraph.log_likelihood", "src/graph_ensembles/sparse/models/random.py:RandomDiGraph.sample"]}
{"id": "C112", "title": "Labels one by one in double precision", "statement": "In double precision, the expected number of edges of a label has a relative error of at most (N + 6) 2^-52, where N is the number of pairs of vertices that store the label. The expected out- and in-degree of a vertex under a label have relative errors of at most (M + 6) 2^-52 and the degree of at most (M + 11) 2^-52, where M is the number of those pairs that contain the vertex; for properties in arrays N is the number of all admissible pairs, and the errors of the degrees are at most (n + 6) 2^-52 and (n + 12) 2^-52 for n vertices. The layers of a graph drawn with 53-bit random numbers have independent labelled links, each with its computed probability rounded up to a multiple of 2^-53. The mean of every bounded quantity of the layers is within 7 2^-53 per possible labelled link, times the bound, of its mean without rounding.", "quantifier": "all numbers of vertices up to 2^25 (any number for samples), numbers of labels, parameters, properties stored by label, self-loop settings, random numbers; multi-layer fitness and scale-invariant models; sparse and dense backends", "why_tests_cant": "A bound on the rounding errors for all inputs and a statement about the distribution of samples; the tests compare a few values with a tolerance.", "anchors": ["src/graph_ensembles/sparse/models/ensembles.py:MultiDiGraphEnsemble.exp_edges_label", "src/graph_ensembles/sparse/models/ensembles.py:MultiDiGraphEnsemble.exp_degrees_label", "src/graph_ensembles/sparse/models/ensembles.py:MultiDiGraphEnsemble._binary_sample_layer", "src/graph_ensembles/models.py:MultiDiGraphEnsemble._binary_sample_tensor", "src/graph_ensembles/models.py:MultiDiGraphEnsemble.exp_edges_label", "src/graph_ensembles/models.py:MultiDiGraphEnsemble.exp_degrees_label"]}
{"id": "C113", "title": "The fit label by label in double precision", "statement": "fit with one parameter per label, started from zero and run in double precision, returns one finite parameter and one solver report per label. For every label, the exact expected number of edges at the fitted parameters is within 1.2 times the requested tolerance of num_edges_label, and the number that expected_num_edges_label then returns in double precision is within 1.4 times, unless the iteration limit was reached. A report of convergence or of no change is made only if both hold. The parameters tried for a label increase.", "quantifier": "all numbers of vertices and labels, properties stored by label, self-loop settings, numbers of edges of the labels, tolerances and iteration limits; multi-layer fitness and scale-invariant models, sparse and dense", "why_tests_cant": "A statement about every run of the solver with rounding; the tests fit a few models and compare with a tolerance.", "anchors": ["src/graph_ensembles/sparse/models/fitness.py:MultiFitnessModel.fit", "src/graph_ensembles/sparse/models/fitness.py:MultiFitnessModel.exp_edges_f_jac_layer", "src/graph_ensembles/sparse/models/fitness.py:MultiFitnessModel.density_fit_layer", "src/graph_ensembles/sparse/models/ensembles.py:MultiDiGraphEnsemble.expected_num_edges_label", "src/graph_ensembles/models.py:MultiFitnessModel.fit", "src/graph_ensembles/models.py:MultiFitnessModel.exp_edges_f_jac_layer"]}
{"id": "C114", "title": "The fit with one parameter for all labels in double precision", "statement": "In double precision, fit of a multi-layer model with one parameter for all labels (per_label=False), started from zero, returns the same finite parameter for every label and one report. The exact expected number of edges at that parameter, a pair being counted once whatever its labels, is within 1.2 times the requested tolerance of the target, and the number that expected_num_edges then returns within 1.4 times, unless the iteration limit was reached. If the report says converged or stopped without change, both hold. The parameters tried increase.", "quantifier": "all numbers of vertices and labels, properties by label, targets, tolerances and iteration limits in the range FitRange; multi-layer fitness and scale-invariant models, sparse and dense", "why_tests_cant": "All inputs and all numbers of iterations; the tests fit a few networks and compare with a tolerance.", "anchors": ["src/graph_ensembles/sparse/models/fitness.py:MultiFitnessModel.fit", "src/graph_ensembles/sparse/models/fitness.py:MultiFitnessModel.exp_edges_f_jac", "src/graph_ensembles/sparse/models/fitness.py:MultiFitnessModel.p_jac_ij", "src/graph_ensembles/sparse/models/invariant.py:MultiInvariantModel.p_jac_ij", "src/graph_ensembles/models.py:MultiFitnessModel.fit", "src/graph_ensembles/models.py:MultiFitnessModel.p_jac_ij", "src/graph_ensembles/models.py:MultiInvariantModel.p_jac_ij", "src/graph_ensembles/solver.py:monotonic_newton_solver"]}
{"id": "C115", "title": "Log-likelihood of labelled graphs in double precision", "statement": "In double precision the log-likelihood of any labelled graph is minus infinity exactly if it is so without rounding; otherwise both values are finite and at most zero and differ by at most N 3 2^-53 (|value| + 9 (1 + T) + 1), where T is a bound of the products of parameter and properties and N is the number of labelled pairs in the dense backend, and the number of labelled pairs that store the label plus the number of labels in the sparse backend and in Spark.", "quantifier": "all labelled graphs, numbers of vertices and labels with N up to 2^50, parameters, properties by label, pair properties, self-loop settings; multi-layer fitness and scale-invariant models; sparse, dense and Spark", "why_tests_cant": "A bound on the rounding errors for all inputs and graphs; the tests compare a few values with a tolerance.", "anchors": ["src/graph_ensembles/sparse/models/ensembles.py:MultiDiGraphEnsemble.log_likelihood", "src/graph_ensembles/sparse/models/ensembles.py:MultiDiGraphEnsemble._likelihood_layer", "src/graph_ensembles/models.py:MultiDiGraphEnsemble._likelihood_tensor", "src/graph_ensembles/spark/models.py:MultiDiGraphEnsemble._likelihood_layer", "src/graph_ensembles/sparse/models/fitness.py:MultiFitnessModel.logp_ijk", "src/graph_ensembles/sparse/models/fitness.py:MultiFitnessModel.log1mp_ijk", "src/graph_ensembles/sparse/models/invariant.py:MultiInvariantModel.logp_ijk"]}
