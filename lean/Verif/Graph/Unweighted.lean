import Verif.Graph.Cached
import Verif.Graph.Networkx

/-!
# Graphs without weights

A graph built without a column of weights stores booleans.  The queries of strengths and weights
call `adjacency_matrix(weighted=True)` and `adjacency_tensor(weighted=True)` on these.
-/

namespace Verif

noncomputable section

namespace Graph

/-- Subtraction of scipy's boolean matrices: the difference of the numbers 0 and 1, stored as
"is not zero". -/
def boolSub (a b : Bool) : Bool := a != b

/-- `adj + adj.T - spdiags(adj.diagonal())` for graphs without weights (`sparse/graphs.py:217-222`,
`540-546`, `952-954`, `962-965`, `1226-1228`, `1247-1250`): the sum is a disjunction, so nothing is
counted twice on the diagonal, and the subtraction clears it. -/
def Sparse.symWB (A : Mat Bool) : Mat Bool :=
  fun i j => boolSub (addT A i j) (if i = j then A i i else false)

/-- The numbers 0 and 1. -/
def numM (A : Mat Bool) : Mat ℝ := fun i j => Dtype.num (A i j)

/-- `Graph` and `DiGraph` without weights (`graphs.py:211-225`, `495-514`;
`sparse/graphs.py:213-227`, `532-552`). -/
def View.singleU {ι γ : Type} (b : Backend) (directed : Bool) (o : Obj ι γ Bool) : View where
  backend := b
  directed := directed
  n := o.num_vertices
  groups i := o.groups.getD i 0
  adjB d := if d then ne0 o.adj else
    match b with
    | .dense => Dense.symB o.adj
    | .sparse => Sparse.symB o.adj
  adjW d := numM (if d then o.adj else
    match b with
    | .dense => Dense.symW o.num_vertices o.adj
    | .sparse => Sparse.symWB o.adj)
  tenB _ _ := fun _ _ => false
  tenW _ _ := fun _ _ => 0

/-- `MultiGraph` and `MultiDiGraph` without weights (`graphs.py:857-894`, `1122-1165`;
`sparse/graphs.py:944-978`, `1216-1258`).  The projection of the dense tensor is an integer array,
that of the sparse one a boolean array. -/
def View.multiU {ι γ κ : Type} (b : Backend) (directed : Bool) (o : MultiObj ι γ κ Bool) :
    View where
  backend := b
  directed := directed
  n := o.num_vertices
  groups i := o.groups.getD i 0
  adjB d :=
    match b with
    | .dense => if d then ne0 (Dense.project o.num_labels o.adj)
        else Dense.symB (Dense.project o.num_labels o.adj)
    | .sparse => if d then ne0 (Sparse.project o.num_labels o.adj)
        else Sparse.symB (Sparse.project o.num_labels o.adj)
  adjW d :=
    match b with
    | .dense => if d then Dense.project o.num_labels o.adj
        else Dense.symWMulti o.num_vertices (Dense.project o.num_labels o.adj)
    | .sparse => numM (if d then Sparse.project o.num_labels o.adj
        else Sparse.symWB (Sparse.project o.num_labels o.adj))
  tenB d :=
    if d then fun l => ne0 (o.adj l) else
    match b with
    | .dense => Dense.symBTensor o.adj
    | .sparse => fun l => Sparse.symB (o.adj l)
  tenW d := fun l => numM (if d then o.adj l else
    match b with
    | .dense => Dense.symWTensor o.num_labels o.num_vertices o.adj l
    | .sparse => Sparse.symWB (o.adj l))

/-- `self.adjacency_matrix(directed=False, weighted=True)` without weights. -/
def symOfU {ι γ : Type} (b : Backend) (o : Obj ι γ Bool) : Mat Bool :=
  match b with
  | .dense => Dense.symW o.num_vertices o.adj
  | .sparse => Sparse.symWB o.adj

/-- `Graph.to_networkx` of a graph without weights (`graphs.py:327-345`,
`sparse/graphs.py:345-363`). -/
def toNxU {ι γ : Type} (b : Backend) (hasGroups : Bool) (o : Obj ι γ Bool) : Nx ι γ Unit Bool :=
  (Nx.ofMatrix false o.num_vertices (symOfU b o)).annotate hasGroups o.id_dict o.group_dict o.groups

end Graph

end

end Verif
