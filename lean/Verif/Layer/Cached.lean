import Verif.Layer.Props
import Verif.Spark.Model

/-!
# The label-resolved query methods with their caches

`expected_num_edges`, `expected_num_edges_label` and the three `expected_..._degree_by_label` of
`MultiDiGraphEnsemble` as a state machine.  The attributes tested with `hasattr` are `Option`
fields; what the loops return is a parameter (`Comp`), instantiated below for the backends.  A
method call returns a value or an exception and the new state; an exception keeps the changes made
before it was raised.
-/

namespace Verif

noncomputable section

open XR Spec

namespace Layer.Cached

/-- The exceptions of the queries. -/
inductive Err where
  /-- `Exception("Model must be fitted beforehand.")` -/
  | notFitted
  /-- `AttributeError` of a missing attribute -/
  | attribute
  /-- `IndexError` -/
  | index
  deriving DecidableEq

/-- The three `(num_vertices, num_labels)` matrices of `expected_degree_by_label`. -/
structure Degs where
  d : ℕ → ℕ → XR
  dOut : ℕ → ℕ → XR
  dIn : ℕ → ℕ → XR

/-- What the loops of a backend return for given parameters and self-loop setting. -/
structure Comp where
  edges : (ℕ → XR) → Bool → XR
  edgesLabel : (ℕ → XR) → Bool → Except Err (List XR)
  degrees : (ℕ → XR) → Bool → Except Err Degs

/-- The attributes the queries read or write. -/
structure St where
  param : Option (ℕ → XR)
  selfloops : Bool
  exp_num_edges : Option XR
  exp_num_edges_label : Option (List XR)
  exp_degree_label : Option (ℕ → ℕ → XR)
  exp_out_degree_label : Option (ℕ → ℕ → XR)
  exp_in_degree_label : Option (ℕ → ℕ → XR)

/-- After construction without parameters. -/
def init (selfloops : Bool) : St := ⟨none, selfloops, none, none, none, none, none⟩

/-- A method call. -/
abbrev M (α : Type) := St → Except Err α × St

/-- Sequencing: an exception aborts, keeping the state. -/
def M.bind {α β : Type} (m : M α) (f : α → M β) : M β := fun s =>
  match m s with
  | (.ok a, s') => f a s'
  | (.error e, s') => (.error e, s')

/-- `return self.name` -/
def get {α : Type} (o : St → Option α) : M α := fun s =>
  match o s with
  | some v => (.ok v, s)
  | none => (.error .attribute, s)

/-- `expected_num_edges` inherited from `DiGraphEnsemble`
(`/repo/src/graph_ensembles/sparse/models/ensembles.py:109-124`,
`/repo/src/graph_ensembles/models.py:115-130`). -/
def expected_num_edges (C : Comp) (recompute : Bool) : M XR := fun s =>
  match s.param with
  | none => (.error .notFitted, s)
  | some θ =>
    if s.exp_num_edges.isNone || recompute then
      get St.exp_num_edges { s with exp_num_edges := some (C.edges θ s.selfloops) }
    else get St.exp_num_edges s

/-- `expected_num_edges` of the spark multi-layer class
(`/repo/src/graph_ensembles/spark/models.py:1937-1967`): the attribute tested is
`_exp_num_edges_label`. -/
def Spark.expected_num_edges (C : Comp) (recompute : Bool) : M XR := fun s =>
  match s.param with
  | none => (.error .notFitted, s)
  | some θ =>
    if s.exp_num_edges_label.isNone || recompute then
      get St.exp_num_edges { s with exp_num_edges := some (C.edges θ s.selfloops) }
    else get St.exp_num_edges s

/-- `expected_num_edges_label`
(`/repo/src/graph_ensembles/sparse/models/ensembles.py:601-634`,
`/repo/src/graph_ensembles/models.py:1478-1493`, `spark/models.py:1969-2004`). -/
def expected_num_edges_label (C : Comp) (recompute : Bool) : M (List XR) := fun s =>
  match s.param with
  | none => (.error .notFitted, s)
  | some θ =>
    if s.exp_num_edges_label.isNone || recompute then
      match C.edgesLabel θ s.selfloops with
      | .error e => (.error e, s)
      | .ok r => get St.exp_num_edges_label { s with exp_num_edges_label := some r }
    else get St.exp_num_edges_label s

/-- `expected_degree_by_label`
(`/repo/src/graph_ensembles/sparse/models/ensembles.py:636-683`,
`/repo/src/graph_ensembles/models.py:1495-1515`, `spark/models.py:2065-2113`). -/
def expected_degree_by_label (C : Comp) (recompute : Bool) : M (ℕ → ℕ → XR) := fun s =>
  match s.param with
  | none => (.error .notFitted, s)
  | some θ =>
    if s.exp_degree_label.isNone || recompute then
      match C.degrees θ s.selfloops with
      | .error e => (.error e, s)
      | .ok r => get St.exp_degree_label
          { s with exp_degree_label := some r.d, exp_out_degree_label := some r.dOut,
                   exp_in_degree_label := some r.dIn }
    else get St.exp_degree_label s

/-- `expected_out_degree_by_label` and, with the other attribute, `expected_in_degree_by_label`
(`/repo/src/graph_ensembles/sparse/models/ensembles.py:685-697`,
`/repo/src/graph_ensembles/models.py:1517-1529`). -/
def degree_part (C : Comp) (o : St → Option (ℕ → ℕ → XR)) (recompute : Bool) :
    M (ℕ → ℕ → XR) := fun s =>
  if (o s).isNone || recompute then
    (expected_degree_by_label C recompute).bind (fun _ => get o) s
  else get o s

/-- The same methods of the spark backend (`/repo/src/graph_ensembles/spark/models.py:2115-2127`):
`expected_degree_by_label()` is called without `recompute`. -/
def Spark.degree_part (C : Comp) (o : St → Option (ℕ → ℕ → XR)) (recompute : Bool) :
    M (ℕ → ℕ → XR) := fun s =>
  if (o s).isNone || recompute then
    (expected_degree_by_label C false).bind (fun _ => get o) s
  else get o s

/-- Sparse and dense share the text of the methods, spark differs in two places. -/
inductive Backend where
  | plain | spark
  deriving DecidableEq

/-- The calls of a user. -/
inductive Op where
  /-- `fit` assigns `param` -/
  | fit (θ : ℕ → XR)
  /-- assignment to the attribute `selfloops` -/
  | setSelfloops (b : Bool)
  | numEdges (recompute : Bool)
  | numEdgesLabel (recompute : Bool)
  | degree (recompute : Bool)
  | outDegree (recompute : Bool)
  | inDegree (recompute : Bool)

/-- What a call returns. -/
inductive Ret where
  | none
  | num (v : XR)
  | list (v : List XR)
  | mat (v : ℕ → ℕ → XR)

/-- Postprocess the result of a method. -/
def M.map {α β : Type} (f : α → β) (m : M α) : M β := m.bind (fun a s => (.ok (f a), s))

/-- One call. -/
def call (B : Backend) (C : Comp) : Op → M Ret
  | .fit θ => fun s => (.ok .none, { s with param := some θ })
  | .setSelfloops b => fun s => (.ok .none, { s with selfloops := b })
  | .numEdges r => M.map .num
    (match B with
    | .plain => expected_num_edges C r
    | .spark => Spark.expected_num_edges C r)
  | .numEdgesLabel r => M.map .list (expected_num_edges_label C r)
  | .degree r => M.map .mat (expected_degree_by_label C r)
  | .outDegree r => M.map .mat
    (match B with
    | .plain => degree_part C St.exp_out_degree_label r
    | .spark => Spark.degree_part C St.exp_out_degree_label r)
  | .inDegree r => M.map .mat
    (match B with
    | .plain => degree_part C St.exp_in_degree_label r
    | .spark => Spark.degree_part C St.exp_in_degree_label r)

/-- A history of calls: the results in order and the final state (exceptions are caught by the
caller, who goes on). -/
def run (B : Backend) (C : Comp) : List Op → St → List (Except Err Ret) × St
  | [], s => ([], s)
  | op :: ops, s =>
    let r := call B C op s
    let rest := run B C ops r.2
    (r.1 :: rest.1, rest.2)

/-! ### The backends -/

/-- `p_ij` of the sparse (and spark) models on label lists. -/
def sparsePij : Kind → (ℕ → XR) → List (ℕ × XR) → List (ℕ × XR) → XR
  | .fit => Sparse.MultiFitnessModel.p_ij
  | .inv => Sparse.MultiInvariantModel.p_ij

/-- `p_ij` of the dense models on rows of the property arrays. -/
def densePij : Kind → (ℕ → XR) → List XR → List XR → XR
  | .fit => Dense.MultiFitnessModel.p_ij
  | .inv => Dense.MultiInvariantModel.p_ij

/-- The loops of the sparse backend: `exp_edges`, `exp_edges_label`, `exp_degrees_label`, and the
conversion of the dictionaries
(`/repo/src/graph_ensembles/sparse/models/ensembles.py:115-122, 607-632, 642-682`). -/
def sparseComp (K : Kind) (n L : ℕ) (prop_out prop_in : ℕ → List (ℕ × XR)) (dyad : ℕ → ℕ → XR) :
    Comp where
  edges θ s := DiGraphEnsemble.exp_edges (fun d a b (_ : Unit) => sparsePij K d a b) θ n prop_out
    prop_in (fun _ _ => ()) s
  edgesLabel θ s := .ok (exp_edges_label K.link.p_ijk n L θ prop_out prop_in dyad s)
  degrees θ s :=
    let D := exp_degrees_label K.link.p_ijk n L θ prop_out prop_in dyad s
    .ok ⟨at_ D.d, at_ D.dOut, at_ D.dIn⟩

/-- The loops of the dense backend
(`/repo/src/graph_ensembles/models.py:116-123, 1484-1491, 1501-1513`). -/
def denseComp (K : Kind) (n L : ℕ) (prop_out prop_in : ℕ → ℕ → XR) (dyad : ℕ → ℕ → XR) :
    Comp where
  edges θ s := DiGraphEnsemble.exp_edges (fun d a b (_ : Unit) => densePij K d a b) θ n
    (fun i => (List.range L).map (prop_out i)) (fun i => (List.range L).map (prop_in i))
    (fun _ _ => ()) s
  edgesLabel θ s := match Dense.exp_edges_label K.link.p_ijk n L θ prop_out prop_in dyad s with
    | some r => .ok r
    | none => .error .index
  degrees θ s :=
    let D := Dense.exp_degrees_label K.link.p_ijk n L θ prop_out prop_in dyad s
    .ok ⟨fun i k => D.exp_d (i, k), fun i k => D.exp_d_out (i, k), fun i k => D.exp_d_in (i, k)⟩

/-- `len(res[0]) == 0` for the list of entries collected from all layers. -/
def noEntries (p_ijk : XR → XR → XR → XR → XR) (n L : ℕ) (θ : ℕ → XR)
    (prop_out prop_in : ℕ → List (ℕ × XR)) (dyad : ℕ → ℕ → XR) (s : Bool) : Bool :=
  (List.range L).all (fun lbl => (List.range n).all (fun i =>
    ((Layer.Spark.exp_degrees_layer p_ijk (θ lbl) (column n prop_out lbl) (column n prop_in lbl)
      dyad s lbl).d (i, lbl)).isNone))

/-- The jobs of the spark backend (`/repo/src/graph_ensembles/spark/models.py:1937-2113`).
`edges θ s` is an outcome of the job of `expected_num_edges` (see `Spark.Folds`).  An empty list of
entries becomes an array of dimension one, so that `d[:, 2]` raises an `IndexError`. -/
def sparkComp (K : Kind) (n L : ℕ) (prop_out prop_in : ℕ → List (ℕ × XR)) (dyad : ℕ → ℕ → XR)
    (edges : (ℕ → XR) → Bool → XR) : Comp where
  edges := edges
  edgesLabel θ s := .ok (exp_edges_label K.link.p_ijk n L θ prop_out prop_in dyad s)
  degrees θ s :=
    if noEntries K.link.p_ijk n L θ prop_out prop_in dyad s then .error .index
    else
      let S := Layer.Spark.degrees_by_label K.link.p_ijk n L θ prop_out prop_in dyad s
      .ok ⟨S Dicts.d, S Dicts.dOut, S Dicts.dIn⟩

end Layer.Cached

end

end Verif
