import Verif.Graph.Query

/-!
# The cached queries of graph objects

Every query keeps its result in an attribute; `recompute=True` forces a new computation.
-/

namespace Verif

open Finset

noncomputable section

namespace Graph

/-- The cached queries: `graphs.py:227-273`, `516-598`, `896-930`, `1167-1214`;
`sparse/graphs.py:229-289`, `554-668`, `980-1026`, `1260-1323`. -/
inductive Q where
  | num_edges | total_weight
  | degree | degree_by_group | strength | strength_by_group
  | out_degree | in_degree | out_degree_by_group | in_degree_by_group
  | out_strength | in_strength | out_strength_by_group | in_strength_by_group
  | num_edges_label | total_weight_label
  | degree_by_label | strength_by_label
  | out_degree_by_label | in_degree_by_label | out_strength_by_label | in_strength_by_label
  deriving DecidableEq

/-- What the queries read: the results of `adjacency_matrix(directed, weighted)` (`adjB` for
`weighted=False`, `adjW` for `weighted=True`) and of `adjacency_tensor(directed, weighted)`, which
the subclasses override.  `directed` tells whether the class is `DiGraph` or `MultiDiGraph`. -/
structure View where
  backend : Backend
  directed : Bool
  n : ℕ
  groups : ℕ → ℕ
  adjB : Bool → Mat Bool
  adjW : Bool → Mat ℝ
  tenB : Bool → ℕ → Mat Bool
  tenW : Bool → ℕ → Mat ℝ

/-- Transpose. -/
def tr {V : Type} (A : Mat V) : Mat V := fun i j => A j i

/-- `sum_by_group` of the backend. -/
def View.byGroup {V : Type} [Dtype V] (w : View) (A : Mat V) : ℕ → ℕ → ℝ :=
  match w.backend with
  | .dense => Dense.sum_by_group w.n A w.groups
  | .sparse => Sparse.sum_by_group w.n A w.groups

/-- What a query computes when nothing is cached.  The first index is the vertex, the second the
group or label; an index that the result does not have is ignored. -/
def View.fresh (w : View) (i k : ℕ) : Q → ℝ
  | .num_edges => if w.directed then fullTotal w.n (w.adjB true) else halfTotal w.n (w.adjB false)
  | .total_weight =>
    if w.directed then fullTotal w.n (w.adjW true) else halfTotal w.n (w.adjW false)
  | .degree => colSums w.n (w.adjB false) i
  | .degree_by_group => w.byGroup (w.adjB false) i k
  | .strength => rowSums w.n (w.adjW false) i
  | .strength_by_group => w.byGroup (w.adjW false) i k
  | .out_degree => rowSums w.n (w.adjB true) i
  | .in_degree => colSums w.n (w.adjB true) i
  | .out_degree_by_group => w.byGroup (w.adjB true) i k
  | .in_degree_by_group => w.byGroup (tr (w.adjB true)) i k
  | .out_strength => rowSums w.n (w.adjW true) i
  | .in_strength => colSums w.n (w.adjW true) i
  | .out_strength_by_group => w.byGroup (w.adjW true) i k
  | .in_strength_by_group => w.byGroup (tr (w.adjW true)) i k
  | .num_edges_label =>
    if w.directed then fullTotal w.n (w.tenB true k) else halfTotal w.n (w.tenB false k)
  | .total_weight_label =>
    if w.directed then fullTotal w.n (w.tenW true k) else halfTotal w.n (w.tenW false k)
  | .degree_by_label => rowSums w.n (w.tenB false k) i
  | .strength_by_label => rowSums w.n (w.tenW false k) i
  | .out_degree_by_label => rowSums w.n (w.tenB true k) i
  | .in_degree_by_label => colSums w.n (w.tenB true k) i
  | .out_strength_by_label => rowSums w.n (w.tenW true k) i
  | .in_strength_by_label => colSums w.n (w.tenW true k) i

/-- The attributes written when a query computes its result: the directed degrees write those of
both directions, by label only in the dense backend. -/
def Q.writes (b : Backend) : Q → List Q
  | .out_degree | .in_degree => [.out_degree, .in_degree]
  | .out_degree_by_group | .in_degree_by_group => [.out_degree_by_group, .in_degree_by_group]
  | .out_degree_by_label =>
    if b = .dense then [.out_degree_by_label, .in_degree_by_label] else [.out_degree_by_label]
  | .in_degree_by_label =>
    if b = .dense then [.out_degree_by_label, .in_degree_by_label] else [.in_degree_by_label]
  | q => [q]

/-- The cached attributes. -/
abbrev Attrs := Q → Option (ℕ → ℕ → ℝ)

/-- A query on an object with the given attributes: the new attributes and the result. -/
def View.query (w : View) (c : Attrs) (q : Q) (recompute : Bool) : Attrs × (ℕ → ℕ → ℝ) :=
  match c q, recompute with
  | some r, false => (c, r)
  | _, _ =>
    let c' : Attrs := fun p =>
      if p ∈ q.writes w.backend then some (fun i k => w.fresh i k p) else c p
    (c', (c' q).getD (fun _ _ => 0))

/-- The attributes after a list of queries on a new object. -/
def View.after (w : View) (l : List (Q × Bool)) : Attrs :=
  l.foldl (fun c a => (w.query c a.1 a.2).1) (fun _ => none)

/-- `Graph` and `DiGraph` with weights (`graphs.py:211-225`, `495-514`;
`sparse/graphs.py:213-227`, `532-552`).  `Graph.adjacency_matrix` ignores `directed`, and its
callers pass `False`. -/
def View.single {ι γ : Type} (b : Backend) (directed : Bool) (o : Obj ι γ ℝ) : View where
  backend := b
  directed := directed
  n := o.num_vertices
  groups i := o.groups.getD i 0
  adjB d := if d then ne0 o.adj else
    match b with
    | .dense => Dense.symB o.adj
    | .sparse => Sparse.symB o.adj
  adjW d := if d then o.adj else
    match b with
    | .dense => Dense.symW o.num_vertices o.adj
    | .sparse => Sparse.symW o.adj
  tenB _ _ := fun _ _ => false
  tenW _ _ := fun _ _ => 0

/-- `MultiGraph` and `MultiDiGraph` with weights (`graphs.py:857-894`, `1122-1165`;
`sparse/graphs.py:944-978`, `1216-1258`). -/
def View.multi {ι γ κ : Type} (b : Backend) (directed : Bool) (o : MultiObj ι γ κ ℝ) : View where
  backend := b
  directed := directed
  n := o.num_vertices
  groups i := o.groups.getD i 0
  adjB d :=
    match b with
    | .dense => if d then ne0 (Dense.project o.num_labels o.adj)
        else Dense.symB (Dense.project o.num_labels o.adj)
    | .sparse => if d then ne0 (Sparse.project o.num_labels o.adj)
        else Sparse.symB (Sparse.project o.num_labels o.adj)
  adjW d :=
    match b with
    | .dense => if d then Dense.project o.num_labels o.adj
        else Dense.symWMulti o.num_vertices (Dense.project o.num_labels o.adj)
    | .sparse => if d then Sparse.project o.num_labels o.adj
        else Sparse.symW (Sparse.project o.num_labels o.adj)
  tenB d :=
    if d then fun l => ne0 (o.adj l) else
    match b with
    | .dense => Dense.symBTensor o.adj
    | .sparse => fun l => Sparse.symB (o.adj l)
  tenW d :=
    if d then o.adj else
    match b with
    | .dense => Dense.symWTensor o.num_labels o.num_vertices o.adj
    | .sparse => fun l => Sparse.symW (o.adj l)

end Graph

end

end Verif
