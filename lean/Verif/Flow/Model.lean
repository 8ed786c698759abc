import Verif.Graph.CachedProps
import Verif.Validate.Model
import Verif.Ensemble.Method
import Verif.Solver.Fit

/-!
# From the edge table to the fitted ensemble

What a user of the library runs: `g = DiGraph(v, e, ...)`, any queries on `g`,
`model = FitnessModel(g, ...)`, `model.fit()`, and then `model.expected_num_edges()` and
`model.log_likelihood(g)`.  Every step is the model of the step made elsewhere; only the passing of
values from one step to the next is new here.
-/

namespace Verif.Flow

open XR

noncomputable section

/-- The classes built from the strengths of one `DiGraph`
(`sparse/models/fitness.py:16-330`, `sparse/models/invariant.py:11-107`, `models.py:1037-1430`). -/
inductive Model where
  | sparseFit | sparseInv | denseFit | denseInv
  deriving DecidableEq

/-- The package of the class, which is the one of the graphs it accepts: `isinstance(args[0],
graphs.DiGraph)` (`sparse/models/fitness.py:54`, `models.py:1075`). -/
def Model.backend : Model → Graph.Backend
  | .sparseFit | .sparseInv => .sparse
  | .denseFit | .denseInv => .dense

/-- `p_jac_ij` (`sparse/models/fitness.py:270-289`, `sparse/models/invariant.py:47-67`,
`models.py:1286-1304`, `1374-1392`) with the default `prop_dyad`
(`sparse/models/ensembles.py:66-70`, `models.py:72-76`). -/
def Model.p_jac_ij : Model → XR → XR → XR → XR × XR
  | .sparseFit => fun d x y => Sparse.FitnessModel.p_jac_ij d x y 1
  | .sparseInv => fun d x y => Sparse.ScaleInvariantModel.p_jac_ij d x y 1
  | .denseFit => Dense.FitnessModel.p_jac_ij
  | .denseInv => Dense.ScaleInvariantModel.p_jac_ij

/-- The functions and attributes of a model object with the given parameter and properties. -/
def Model.ens (M : Model) (param : XR) (prop_out prop_in : ℕ → XR) : Ens :=
  match M with
  | .sparseFit => ⟨XR, XR, XR, XR, Sparse.FitnessModel.p_ij, Sparse.FitnessModel.logp,
      Sparse.FitnessModel.log1mp, param, prop_out, prop_in, fun _ _ => 1⟩
  | .sparseInv => ⟨XR, XR, XR, XR, Sparse.ScaleInvariantModel.p_ij, Sparse.ScaleInvariantModel.logp,
      Sparse.ScaleInvariantModel.log1mp, param, prop_out, prop_in, fun _ _ => 1⟩
  | .denseFit => ⟨XR, XR, XR, XR, Dense.FitnessModel.p_ij, Dense.FitnessModel.logp,
      Dense.FitnessModel.log1mp, param, prop_out, prop_in, fun _ _ => 1⟩
  | .denseInv => ⟨XR, XR, XR, XR, Dense.ScaleInvariantModel.p_ij, Dense.ScaleInvariantModel.logp,
      Dense.ScaleInvariantModel.log1mp, param, prop_out, prop_in, fun _ _ => 1⟩

section Graph

variable {ι γ : Type}

/-- A weighted `DiGraph` as the constructors read it, after the queries `hist`. -/
def graphVal (b : Graph.Backend) (g : Graph.Obj ι γ ℝ) (hist : List (Graph.Q × Bool)) :
    Validate.Val :=
  let w := Graph.View.single b true g
  let ask := fun q => (w.query (w.after hist) q false).2
  .graph .digraph g.num_vertices ⌊ask .num_edges 0 0⌋₊ (some (ask .total_weight 0 0))
    (fun i => ask .out_strength i 0) (fun i => ask .in_strength i 0)
    (some (fun i => g.groups.getD i 0)) 0 (fun _ => 0) ([], [])

/-- `g.adjacency_matrix(directed=True, weighted=False)` as a set of links
(`sparse/graphs.py:532-538`, `graphs.py:495-501`). -/
def links (g : Graph.Obj ι γ ℝ) : Finset (ℕ × ℕ) :=
  (Finset.range g.num_vertices ×ˢ Finset.range g.num_vertices).filter
    (fun e => Graph.ne0 g.adj e.1 e.2 = true)

end Graph

/-- The attribute `num_edges` as a number; values that are not finite numbers are outside this
model. -/
def edgesOf : Option Validate.Val → Option ℝ
  | some (.num (.fin m)) => some m
  | _ => none

/-- The truth value of the attribute `selfloops`; values other than booleans are outside this
model. -/
def loopsOf : Validate.Val → Bool
  | .bool b => b
  | _ => false

/-- `density_fit_fun` of a constructed model (`sparse/models/fitness.py:238-268`,
`models.py:1259-1284`). -/
def density_fit_fun (M : Model) (c : Validate.FitnessModel.Obj) : XR → XR × XR :=
  Fit.exp_edges_f_jac (fun d i j => M.p_jac_ij d (c.prop_out i) (c.prop_in j))
    c.num_vertices.toNat (loopsOf c.selfloops)

/-- `fit` of a constructed model (`sparse/models/fitness.py:165-236`, `models.py:1186-1257`). -/
def fit (M : Model) (c : Validate.FitnessModel.Obj) (x0 : Fit.X0) (method : Fit.Method)
    (o : Fit.Opts) : Except Fit.Err Solver.Solution :=
  Fit.fitSingle (density_fit_fun M c) (edgesOf c.num_edges) x0 method o

/-- Exceptions, by the step that raises them. -/
inductive Err where
  | graph (e : Graph.Err)
  | model (e : Validate.Err)
  | fit (e : Fit.Err)

/-- The objects at the end of a run. -/
structure Result (ι γ : Type) where
  graph : Graph.Obj ι γ ℝ
  model : Validate.FitnessModel.Obj
  solution : Solver.Solution

variable {ι γ : Type} [LinearOrder ι] [LinearOrder γ]

/-- `g = DiGraph(v, e)`, queries on `g`, `m = FitnessModel(g, **kw)`, `m.fit(x0, method, ...)`. -/
def run (M : Model) (v : List (ι × γ)) (e : List (Graph.Row ι ℝ)) (hist : List (Graph.Q × Bool))
    (kw : List (Validate.Key × Validate.Val)) (x0 : Fit.X0) (method : Fit.Method) (o : Fit.Opts) :
    Except Err (Result ι γ) :=
  (Graph.mkOf M.backend v e).mapError .graph >>= fun g =>
  (Validate.FitnessModel.init [graphVal M.backend g hist] kw).mapError .model >>= fun c =>
  (fit M c x0 method o).mapError .fit >>= fun sol =>
  .ok ⟨g, c, sol⟩

namespace Result

/-- The fitted model: `self.param = sol.x`. -/
def ens (M : Model) (R : Result ι γ) : Ens :=
  M.ens R.solution.x R.model.prop_out R.model.prop_in

/-- The same model with another parameter. -/
def withParam (M : Model) (R : Result ι γ) (d : XR) : Ens :=
  M.ens d R.model.prop_out R.model.prop_in

/-- `model.expected_num_edges()` (`sparse/models/ensembles.py:109-124`, `models.py:115-130`) right
after `fit`. -/
def expected_num_edges (M : Model) (R : Result ι γ) : XR :=
  (R.ens M).exp_edges R.model.num_vertices.toNat (loopsOf R.model.selfloops)

/-- `model.log_likelihood(g)` for the graph the model was made from
(`sparse/models/ensembles.py:283-326`, `models.py:289-331`). -/
def log_likelihood (M : Model) (R : Result ι γ) : Except Method.LikeErr XR :=
  Method.log_likelihood (match M.backend with | .sparse => .sparse | .dense => .dense) (R.ens M)
    R.model.num_vertices.toNat (some (R.ens M).param) (loopsOf R.model.selfloops)
    (.graph R.graph.num_vertices (links R.graph)) none

end Result

end

end Verif.Flow
