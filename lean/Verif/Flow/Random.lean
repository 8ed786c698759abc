import Verif.Flow.Model
import Verif.Random.Sampled

/-!
# From the edge table to the random ensemble

What a user runs: `g = DiGraph(v, e, ...)` (or `Graph`), any queries on `g`,
`model = RandomDiGraph(g, ...)`, `model.fit()`, and then `model.expected_num_edges()`,
`model.log_likelihood(g)`, `model.sample(ref_g=g)` and `RandomDiGraph(model.sample())`.
-/

namespace Verif.Flow.Random

open XR

noncomputable section

/-- What `RandomDiGraph.__init__` reads from a graph (`sparse/models/random.py:42-48`,
`models.py:582-588`): `num_vertices`, `num_edges()`, the attribute `weighted` (`none`: there is no
such attribute) and `total_weight()`. -/
structure Attrs where
  num_vertices : ℕ
  num_edges : ℝ
  weighted : Option Bool
  total_weight : ℝ

/-- Exceptions, by the step that raises them. -/
inductive Err where
  | graph (e : Graph.Err)
  /-- `AttributeError` for the missing `weighted` -/
  | attribute
  | model (e : Validate.Err)
  | fit (e : Rand.Err)

/-- `RandomDiGraph(g, **kw)` (`sparse/models/random.py:37-143`, `models.py:577-685`). -/
def init (a : Attrs) (kw : List (Validate.Key × Validate.Val)) :
    Except Err Validate.RandomDiGraph.Obj :=
  match a.weighted with
  | none => .error .attribute
  | some w =>
    (Validate.RandomDiGraph.init [.graph .digraph a.num_vertices ⌊a.num_edges⌋₊
      (if w then some a.total_weight else none) (fun _ => 0) (fun _ => 0) none 0 (fun _ => 0)
      ([], [])] kw).mapError .model

/-- A number attribute of the model.  Numbers taken from a graph are numpy scalars. -/
def numberOf : Option Validate.Val → Option Rand.Number
  | some (.num (.fin m)) => some ⟨m, true⟩
  | _ => none

/-- The constructed model; the numbers of edges and the total weight come from a graph, other
values than booleans for `selfloops` and `discrete_weights` are outside this model. -/
def objOf (c : Validate.RandomDiGraph.Obj) : Rand.Obj :=
  ⟨c.num_vertices.toNat, numberOf c.num_edges, numberOf c.total_weight,
    c.discrete_weights.map loopsOf, loopsOf c.selfloops, c.param.map (fun p => (p.f 0, p.f 1))⟩

/-- The options `selfloops=...` and `discrete_weights=...`, each given or not. -/
def options (sl dw : Option Bool) : List (Validate.Key × Validate.Val) :=
  (sl.map (fun b => (Validate.Key.selfloops, Validate.Val.bool b))).toList ++
  (dw.map (fun b => (Validate.Key.discrete_weights, Validate.Val.bool b))).toList

section

variable {ι γ : Type}

/-- A weighted `DiGraph` or `Graph` as the constructor reads it, after the queries `hist`; the
constructors of the graphs set `weighted` (`sparse/graphs.py:176`, `graphs.py:176`). -/
def attrsOf (b : Graph.Backend) (directed : Bool) (g : Graph.Obj ι γ ℝ)
    (hist : List (Graph.Q × Bool)) : Attrs :=
  let w := Graph.View.single b directed g
  let ask := fun q => (w.query (w.after hist) q false).2
  ⟨g.num_vertices, ask .num_edges 0 0, some true, ask .total_weight 0 0⟩

/-- A sampled graph as the constructor reads it: `sample` sets the attributes of a new object one by
one, `weighted` not among them (`sparse/models/random.py:347-399`,
`sparse/models/ensembles.py:349-423`, `models.py:889-943`). -/
def attrsOfSample (b : Graph.Backend) [DecidableEq ι] (g : Sampled.Obj ι γ Sampled.Adj)
    (hist : List (Graph.Q × Bool)) : Attrs :=
  let w := Graph.View.single b true g.graph
  let ask := fun q => (w.query (w.after hist) q false).2
  ⟨g.num_vertices, ask .num_edges 0 0, none, ask .total_weight 0 0⟩

/-- A graph as the reference graph of `sample`. -/
def refOf (g : Graph.Obj ι γ ℝ) : Sampled.Ref ι γ Empty :=
  ⟨g.id_dict, some ⟨g.group_dict.length, g.group_dict, g.groups⟩, none⟩

/-- The objects at the end of a run. -/
structure Result (ι γ : Type) where
  graph : Graph.Obj ι γ ℝ
  model : Rand.Obj

/-- `g = DiGraph(v, e)` or `Graph(v, e)`, queries on `g`, `m = RandomDiGraph(g, ...)`, `m.fit()`. -/
def run [LinearOrder ι] [LinearOrder γ] (b : Graph.Backend) (directed : Bool) (v : List (ι × γ))
    (e : List (Graph.Row ι ℝ)) (hist : List (Graph.Q × Bool)) (sl dw : Option Bool) :
    Except Err (Result ι γ) :=
  (Graph.mkOf b v e).mapError .graph >>= fun g =>
  init (attrsOf b directed g hist) (options sl dw) >>= fun c =>
  (Rand.fit (objOf c)).mapError .fit >>= fun m =>
  .ok ⟨g, m⟩

/-- `g.adjacency_matrix(directed=True, weighted=False)` as a set of links; undirected graphs ignore
`directed` (`sparse/graphs.py:213-227`, `532-552`, `graphs.py:211-225`, `495-514`). -/
def linksOf (b : Graph.Backend) (directed : Bool) (g : Graph.Obj ι γ ℝ) : Finset (ℕ × ℕ) :=
  (Finset.range g.num_vertices ×ˢ Finset.range g.num_vertices).filter
    (fun e => (Graph.View.single b directed g).adjB directed e.1 e.2 = true)

/-- `m.log_likelihood(g)` for the graph the model was made from. -/
def Result.log_likelihood (b : Graph.Backend) (directed : Bool) (R : Result ι γ) :
    Except Rand.Err XR :=
  Rand.log_likelihood (match b with | .sparse => .sparse | .dense => .dense) R.model
    (.graph R.graph.num_vertices (linksOf b directed R.graph)) none

/-- `m.sample(ref_g=g)`. -/
def Result.sample (b : Graph.Backend) (R : Result ι γ) (u : ℕ → ℝ) :
    Except Rand.SampleErr (Sampled.Obj ι γ Sampled.Adj) :=
  Rand.sampleGraph b R.model (some (refOf R.graph)) .none none u (fun _ _ => 0) (fun _ _ => 0)

end

end

end Verif.Flow.Random
