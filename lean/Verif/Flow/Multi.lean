import Verif.Flow.Model
import Verif.Layer.FitProps
import Verif.Layer.Method

/-!
# From the labelled edge table to the fitted multi-layer ensemble

`g = MultiDiGraph(v, e, ...)`, any queries on `g`, `model = MultiFitnessModel(g, ...)` (or
`MultiInvariantModel`), `model.fit()`, and then the expected numbers of edges, in total and by
label, and `model.log_likelihood(g)`; sparse backend.
-/

namespace Verif.Flow

open XR Layer

noncomputable section

/-- `p_jac_ij` of the class (`sparse/models/fitness.py:763-804`,
`sparse/models/invariant.py:148-189`). -/
def Multi.p_jac_ij : Kind → XR → List (ℕ × XR) → List (ℕ × XR) → XR × XR
  | .fit => Sparse.MultiFitnessModel.p_jac_ij
  | .inv => Sparse.MultiInvariantModel.p_jac_ij

/-- The functions and attributes of a model object with the given parameters and properties. -/
def Multi.ens (K : Kind) (param : ℕ → XR) (prop_out prop_in : ℕ → List (ℕ × XR)) : Ens :=
  match K with
  | .fit => ⟨List (ℕ × XR), List (ℕ × XR), ℕ → XR, Unit,
      fun d a b _ => Sparse.MultiFitnessModel.p_ij d a b,
      fun d a b _ => Sparse.MultiFitnessModel.logp d a b,
      fun d a b _ => Sparse.MultiFitnessModel.log1mp d a b, param, prop_out, prop_in, fun _ _ => ()⟩
  | .inv => ⟨List (ℕ × XR), List (ℕ × XR), ℕ → XR, Unit,
      fun d a b _ => Sparse.MultiInvariantModel.p_ij d a b,
      fun d a b _ => Sparse.MultiInvariantModel.logp d a b,
      fun d a b _ => Sparse.MultiInvariantModel.log1mp d a b, param, prop_out, prop_in,
      fun _ _ => ()⟩

section Graph

variable {ι γ κ : Type}

/-- Answers of a weighted `MultiDiGraph` after the queries `hist`. -/
def Multi.ask (g : Graph.MultiObj ι γ κ ℝ) (hist : List (Graph.Q × Bool)) (q : Graph.Q) :
    ℕ → ℕ → ℝ :=
  let w := Graph.View.multi .sparse true g
  (w.query (w.after hist) q false).2

/-- Row `i` of `s_label.T.tocsr()`: the labels with non-zero value, in order
(`sparse/graphs.py:1305-1309`, `1317-1321`). -/
def Multi.csrRow (L : ℕ) (f : ℕ → ℝ) : List (ℕ × ℝ) :=
  ((List.range L).filter (fun l => decide (f l ≠ 0))).map (fun l => (l, f l))

/-- A weighted `MultiDiGraph` as the constructors read it, after the queries `hist`. -/
def Multi.graphVal (g : Graph.MultiObj ι γ κ ℝ) (hist : List (Graph.Q × Bool)) : Validate.Val :=
  let ask := Multi.ask g hist
  let stored := fun q => (List.range g.num_vertices).flatMap
    (fun i => (Multi.csrRow g.num_labels (ask q i)).map Prod.snd)
  .graph .multidigraph g.num_vertices ⌊ask .num_edges 0 0⌋₊ (some (ask .total_weight 0 0))
    (fun i => ask .out_strength i 0) (fun i => ask .in_strength i 0)
    (some (fun i => g.groups.getD i 0)) g.num_labels (fun l => ⌊ask .num_edges_label 0 l⌋₊)
    (stored .out_strength_by_label, stored .in_strength_by_label)

/-- `g.adjacency_tensor(directed=True, weighted=False)` as sets of links
(`sparse/graphs.py:1236-1258`). -/
def Multi.layers (g : Graph.MultiObj ι γ κ ℝ) : List (Finset (ℕ × ℕ)) :=
  (List.range g.num_labels).map (fun l =>
    (Finset.range g.num_vertices ×ˢ Finset.range g.num_vertices).filter
      (fun e => Graph.ne0 (g.adj l) e.1 e.2 = true))

end Graph

/-- The attribute `num_edges_label` as numbers; values other than arrays of finite numbers are
outside this model. -/
def Multi.labelsOf : Option Validate.Val → Option (ℕ → ℝ)
  | some (.arr _ _ f) => some (fun l => match f l with | .fin m => m | _ => 0)
  | _ => none

/-- A constructed model: the attributes checked by the constructor, and the properties as lists of
(label, value) (`sparse/models/fitness.py:482-487`). -/
structure Multi.Obj where
  attrs : Validate.MultiFitnessModel.Obj
  prop_out : ℕ → List (ℕ × XR)
  prop_in : ℕ → List (ℕ × XR)

/-- What `fit` of a constructed model uses (`sparse/models/fitness.py:628-699`): the number of
edges, in total and by label, and the two objective functions (`:708-760`). -/
def Multi.fitModel (K : Kind) (c : Multi.Obj) : Fit.MultiModel where
  num_labels := c.attrs.num_labels.toNat
  per_label := match c.attrs.per_label with
    | some v => loopsOf v
    | none => false
  num_edges := edgesOf c.attrs.num_edges
  num_edges_label := Multi.labelsOf c.attrs.num_edges_label
  func := Fit.exp_edges_f_jac (fun d i j => Multi.p_jac_ij K d (c.prop_out i) (c.prop_in j))
    c.attrs.num_vertices.toNat (loopsOf c.attrs.selfloops)
  layer k := Fit.exp_edges_f_jac_layer K.jac (column c.attrs.num_vertices.toNat c.prop_out k)
    (column c.attrs.num_vertices.toNat c.prop_in k) (loopsOf c.attrs.selfloops)

/-- The objects at the end of a run. -/
structure Multi.Result (ι γ κ : Type) where
  graph : Graph.MultiObj ι γ κ ℝ
  model : Multi.Obj
  fit : Fit.MultiFit

variable {ι γ κ : Type} [LinearOrder ι] [LinearOrder γ] [LinearOrder κ]

/-- `m = MultiFitnessModel(g, **kw)`; options that replace the properties of the graph are outside
this model. -/
def Multi.construct (g : Graph.MultiObj ι γ κ ℝ) (hist : List (Graph.Q × Bool))
    (kw : List (Validate.Key × Validate.Val)) : Except Validate.Err Multi.Obj :=
  let row := fun q i => (Multi.csrRow g.num_labels (Multi.ask g hist q i)).map
    (fun e => (e.1, fin e.2))
  Validate.MultiFitnessModel.init [Multi.graphVal g hist] kw >>= fun c =>
  .ok ⟨c, row .out_strength_by_label, row .in_strength_by_label⟩

/-- `g = MultiDiGraph(v, e)`, queries on `g`, `m = MultiFitnessModel(g, **kw)`,
`m.fit(x0, method, ...)`. -/
def Multi.run (K : Kind) (v : List (ι × γ)) (e : List (κ × Graph.Row ι ℝ))
    (hist : List (Graph.Q × Bool)) (kw : List (Validate.Key × Validate.Val)) (x0 : Fit.X0)
    (method : Fit.Method) (o : Fit.Opts) : Except Err (Multi.Result ι γ κ) :=
  (Graph.mkMultiOf .sparse v e).mapError .graph >>= fun g =>
  (Multi.construct g hist kw).mapError .model >>= fun c =>
  (Fit.fitMulti (Multi.fitModel K c) x0 method o).mapError .fit >>= fun r =>
  .ok ⟨g, c, r⟩

namespace Multi.Result

/-- The fitted parameters. -/
def param (R : Result ι γ κ) : ℕ → XR := fun k => R.fit.param.getD k 0

def n (R : Result ι γ κ) : ℕ := R.model.attrs.num_vertices.toNat
def L (R : Result ι γ κ) : ℕ := R.model.attrs.num_labels.toNat
def selfloops (R : Result ι γ κ) : Bool := loopsOf R.model.attrs.selfloops

/-- The model with given parameters. -/
def withParam (K : Kind) (R : Result ι γ κ) (d : ℕ → XR) : Ens :=
  Multi.ens K d R.model.prop_out R.model.prop_in

/-- `model.expected_num_edges()` (`sparse/models/ensembles.py:109-124`) right after `fit`. -/
def expected_num_edges (K : Kind) (R : Result ι γ κ) : XR :=
  (R.withParam K R.param).exp_edges R.n R.selfloops

/-- The expected numbers of edges by label with given parameters
(`sparse/models/ensembles.py:601-634`), with the default `prop_dyad` (`:66-70`). -/
def labelEdges (K : Kind) (R : Result ι γ κ) (d : ℕ → XR) : List XR :=
  Layer.exp_edges_label K.link.p_ijk R.n R.L d R.model.prop_out R.model.prop_in (fun _ _ => 1)
    R.selfloops

/-- `model.expected_num_edges_label()` right after `fit`. -/
def expected_num_edges_label (K : Kind) (R : Result ι γ κ) : List XR := R.labelEdges K R.param

/-- `model.log_likelihood(g)` for the graph the model was made from
(`sparse/models/ensembles.py:699-811`). -/
def log_likelihood (K : Kind) (R : Result ι γ κ) : Except Layer.Method.Err XR :=
  Layer.Method.Sparse.log_likelihood
    { link := K.link
      logp := match K with
        | .fit => Sparse.MultiFitnessModel.logp
        | .inv => Sparse.MultiInvariantModel.logp
      log1mp := match K with
        | .fit => Sparse.MultiFitnessModel.log1mp
        | .inv => Sparse.MultiInvariantModel.log1mp
      num_vertices := R.n
      num_labels := R.L
      prop_out := R.model.prop_out
      prop_in := R.model.prop_in
      prop_dyad := fun _ _ => 1
      selfloops := R.selfloops
      param := some R.param }
    (.multigraph R.graph.num_vertices (Multi.layers R.graph)) none

end Multi.Result

end

end Verif.Flow
