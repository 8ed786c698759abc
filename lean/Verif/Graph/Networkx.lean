import Verif.Graph.Query

/-!
# Conversion to networkx

Model of `to_networkx` (`graphs.py:327-345`, `682-701`, `932-970`, `1216-1254`;
`sparse/graphs.py:345-363`, `755-774`, `1028-1066`, `1325-1362`).  Of networkx only the
documented meaning of `add_node`, `add_edges_from` and of the constructor from a matrix is used:
attributes are updated, and an edge added under an existing key replaces the values of its
attributes.  In an undirected graph the edges `u, v` and `v, u` are the same.
-/

namespace Verif

noncomputable section

namespace Graph

/-- Attributes of a node that the library sets. -/
structure NodeAttr (ι γ : Type) where
  node_id : Option ι := none
  group : Option γ := none

/-- A networkx graph: the attributes of the nodes, and those of the edge with ends `u`, `v` and a
key. -/
structure Nx (ι γ K A : Type) where
  node : ℕ → Option (NodeAttr ι γ)
  edge : ℕ → ℕ → K → Option A

namespace Nx

variable {ι γ κ K A V : Type}

/-- `nx.Graph()`, ... -/
def empty : Nx ι γ K A := ⟨fun _ => none, fun _ _ _ => none⟩

/-- `G.add_node(i, ...)`: the node is created if needed, then its attributes are updated by `f`. -/
def addNode (G : Nx ι γ K A) (i : ℕ) (f : NodeAttr ι γ → NodeAttr ι γ) : Nx ι γ K A :=
  { G with node := fun u => if u = i then some (f ((G.node i).getD {})) else G.node u }

variable [DecidableEq K]

/-- One edge of `G.add_edges_from` together with its attributes. -/
def addEdge (directed : Bool) (G : Nx ι γ K A) (u v : ℕ) (k : K) (a : A) : Nx ι γ K A :=
  let G := (G.addNode u id).addNode v id
  { G with edge := fun p q r =>
      if r = k ∧ ((p = u ∧ q = v) ∨ (directed = false ∧ p = v ∧ q = u)) then some a
      else G.edge p q r }

/-- `G.add_edges_from` -/
def addEdges (directed : Bool) (G : Nx ι γ K A) (l : List (ℕ × ℕ × K × A)) : Nx ι γ K A :=
  l.foldl (fun G t => G.addEdge directed t.1 t.2.1 t.2.2.1 t.2.2.2) G

/-- The nodes `0, …, n - 1` without attributes, as created by the constructor from a matrix. -/
def addNodes (G : Nx ι γ K A) (n : ℕ) : Nx ι γ K A :=
  (List.range n).foldl (fun G i => G.addNode i id) G

variable [Dtype V]

/-- `np.nonzero(A)` (row-major) with the values; the order of the stored entries of a CSR matrix
is the same. -/
def entries (n : ℕ) (M : Mat V) : List (ℕ × ℕ × V) :=
  (List.range n).flatMap (fun i =>
    ((List.range n).filter (fun j => Dtype.nz (M i j))).map (fun j => (i, j, M i j)))

/-- `nx.Graph(M)`, `nx.DiGraph(M)`: one edge with a weight for each non-zero entry. -/
def ofMatrix (directed : Bool) (n : ℕ) (M : Mat V) : Nx ι γ Unit V :=
  (addNodes empty n).addEdges directed ((entries n M).map (fun t => (t.1, t.2.1, (), t.2.2)))

/-- `for node_id, i in self.id_dict.items(): G.add_node(i, node_id=node_id)` -/
def addIds (G : Nx ι γ K A) (id_dict : List (ι × ℕ)) : Nx ι γ K A :=
  id_dict.foldl (fun G x => G.addNode x.2 (fun a => { a with node_id := some x.1 })) G

/-- `gr_list`, `lbl_list`: the identifier of each number. -/
def inverse {α : Type} (dict : List (α × ℕ)) : List (Option α) :=
  dict.foldl (fun l x => l.set x.2 (some x.1)) (List.replicate dict.length none)

/-- `for i, gr in enumerate(self.groups): G.add_node(i, group=gr_list[gr])` -/
def addGroups (G : Nx ι γ K A) (group_dict : List (γ × ℕ)) (groups : List ℕ) : Nx ι γ K A :=
  (List.range groups.length).foldl (fun G i => G.addNode i (fun a =>
    { a with group := ((inverse group_dict)[groups.getD i 0]?).join })) G

/-- The nodes part common to all classes; `hasGroups` is `hasattr(self, "group_dict")`. -/
def annotate (hasGroups : Bool) (G : Nx ι γ K A) (id_dict : List (ι × ℕ))
    (group_dict : List (γ × ℕ)) (groups : List ℕ) : Nx ι γ K A :=
  let G := G.addIds id_dict
  if hasGroups then G.addGroups group_dict groups else G

end Nx

variable {ι γ κ : Type}

/-- `DiGraph.to_networkx` (both backends). -/
def toNxDi {V : Type} [Dtype V] (hasGroups : Bool) (o : Obj ι γ V) : Nx ι γ Unit V :=
  (Nx.ofMatrix true o.num_vertices o.adj).annotate hasGroups o.id_dict o.group_dict o.groups

/-- `self.adjacency_matrix(directed=False, weighted=True)` (`graphs.py:211-225`,
`sparse/graphs.py:213-227`). -/
def symOf (b : Backend) (o : Obj ι γ ℝ) : Mat ℝ :=
  match b with
  | .dense => Dense.symW o.num_vertices o.adj
  | .sparse => Sparse.symW o.adj

/-- `Graph.to_networkx` of a graph with weights, in both backends. -/
def toNx (b : Backend) (hasGroups : Bool) (o : Obj ι γ ℝ) : Nx ι γ Unit ℝ :=
  (Nx.ofMatrix false o.num_vertices (symOf b o)).annotate hasGroups o.id_dict o.group_dict o.groups

/-- `MultiGraph.to_networkx`, `MultiDiGraph.to_networkx`: the key of an edge is the number of its
label (stored as a float by the sparse backend), its attributes the weight and the label. -/
def toNxMulti {V : Type} [Dtype V] (directed hasGroups : Bool) (o : MultiObj ι γ κ V) :
    Nx ι γ ℕ (V × Option κ) :=
  (Nx.empty.annotate hasGroups o.id_dict o.group_dict o.groups).addEdges directed
    ((List.range o.num_labels).flatMap (fun l =>
      (Nx.entries o.num_vertices (o.adj l)).map
        (fun t => (t.1, t.2.1, l, (t.2.2, ((Nx.inverse o.label_dict)[l]?).join)))))

end Graph

end

end Verif
