import Mathlib.Algebra.BigOperators.Group.Finset.Basic
import Mathlib.Data.Real.Basic
import Mathlib.Data.Finset.Sort
import Mathlib.Algebra.Order.Floor.Ring
import Mathlib.Algebra.Order.Archimedean.Real.Basic

/-!
# Graph objects

Model of `/repo/src/graph_ensembles/graphs.py` (dense, called `graphs.py` below) and
`/repo/src/graph_ensembles/sparse/graphs.py` (called `sparse/graphs.py`).

Vertex, label and group identifiers are elements of a linear order (python's ordering of the
values in the column; when several columns are used the values are tuples).  A table is the list
of its rows.  Weights are real numbers, without rounding and overflow; the array type of a graph
without weights is `Bool`.  Matrices are functions on pairs of natural numbers together with the
number `n` of vertices; only entries below `n` are meaningful.  Warnings about isolated vertices
are left out; the columns added to the caller's tables are in `Table.lean`.
-/

namespace Verif

open Finset

noncomputable section

namespace Graph

/-! ### Element types of the arrays -/

/-- Operations of the two numpy element types that occur: numbers and booleans. -/
class Dtype (V : Type) where
  zero : V
  /-- `+` of numpy arrays and of scipy sparse arrays: disjunction for booleans -/
  add : V → V → V
  /-- `> 0` -/
  pos : V → Bool
  /-- `!= 0` -/
  nz : V → Bool
  /-- contribution to a numpy `sum` -/
  num : V → ℝ

open Classical in
instance : Dtype ℝ where
  zero := 0
  add := (· + ·)
  pos r := decide (0 < r)
  nz r := decide (r ≠ 0)
  num r := r

instance : Dtype Bool where
  zero := false
  add := (· || ·)
  pos b := b
  nz b := b
  num b := if b then 1 else 0

/-- Exceptions of the constructors. -/
inductive Err where
  | repeatedId | unknownVertex | badWeight
  deriving DecidableEq

/-! ### Identifiers -/

section Ids

variable {ι : Type} [LinearOrder ι]

/-- Keep one of equal neighbours. -/
def dropRepeats : List ι → List ι
  | [] => []
  | [a] => [a]
  | a :: b :: l => if a = b then dropRepeats (b :: l) else a :: dropRepeats (b :: l)

/-- `numpy.unique`: sort, then keep one of equal neighbours. -/
def npUnique (l : List ι) : List ι := dropRepeats (l.mergeSort (fun a b => decide (a ≤ b)))

/-- `Graph.generate_id_dict` (`graphs.py:352-366`, `sparse/graphs.py:370-384`).  The dictionary
is the list of its items in insertion order; the assertion about the counts is turned into
"repeated id" by the caller (`graphs.py:121-125`). -/
def generate_id_dict (l : List ι) (check_unique : Bool) : Except Err (List (ι × ℕ)) :=
  let ids := npUnique l
  if check_unique && !(ids.all (fun x => l.count x == 1)) then .error .repeatedId
  else .ok ids.zipIdx

end Ids

/-! ### Constructors -/

/-- A row of the edge table: source, destination, value.  For a graph without weights the value
is `true` (`graphs.py:187-188`, `sparse/graphs.py:188-189`). -/
structure Row (ι V : Type) where
  src : ι
  dst : ι
  val : V

/-- Replace endpoints by internal ids (`graphs.py:154-158`); `none` if one of them is unknown. -/
def toInternal {ι V : Type} [BEq ι] (dict : List (ι × ℕ)) (r : Row ι V) : Option (Row ℕ V) :=
  match dict.lookup r.src, dict.lookup r.dst with
  | some s, some d => some ⟨s, d, r.val⟩
  | _, _ => none

/-- The part of a graph object that does not depend on the backend. -/
structure Base (ι γ V : Type) where
  num_vertices : ℕ
  id_dict : List (ι × ℕ)
  group_dict : List (γ × ℕ)
  groups : List ℕ
  /-- the columns `_src`, `_dst` and the values -/
  edges : List (Row ℕ V)

/-- `Graph.__init__` up to the construction of the adjacency matrix (`graphs.py:100-170`,
`sparse/graphs.py:100-170`).  A row of the vertex table is an identifier and a group.
`v.sort_index()` is a sort by internal id. -/
def base {ι γ V : Type} [LinearOrder ι] [LinearOrder γ] [Dtype V] (v : List (ι × γ))
    (e : List (Row ι V)) : Except Err (Base ι γ V) :=
  match generate_id_dict (v.map Prod.fst) true with
  | .error err => .error err
  | .ok id_dict =>
    let sorted := v.mergeSort
      (fun a b => decide ((id_dict.lookup a.1).getD 0 ≤ (id_dict.lookup b.1).getD 0))
    match generate_id_dict (sorted.map Prod.snd) false with
    | .error err => .error err
    | .ok group_dict =>
      let groups := sorted.map (fun r => (group_dict.lookup r.2).getD 0)
      match e.mapM (toInternal id_dict) with
      | none => .error .unknownVertex
      | some edges =>
        if edges.all (fun r => Dtype.pos r.val) then
          .ok ⟨v.length, id_dict, group_dict, groups, edges⟩
        else .error .badWeight

/-! ### Matrices -/

section Mat

variable {V : Type} [Dtype V]

/-- Square array. -/
abbrev Mat (V : Type) := ℕ → ℕ → V

/-- `adj[src, dst] = val` with index arrays: the values are stored one after the other
(`graphs.py:180-188`). -/
def assign (rows : List (Row ℕ V)) : Mat V :=
  rows.foldl (fun A r => fun i j => if i = r.src ∧ j = r.dst then r.val else A i j)
    (fun _ _ => Dtype.zero)

/-- `scipy.sparse.coo_array(...).tocsr()`: entries at the same position are added
(`sparse/graphs.py:181-193`). -/
def coo (rows : List (Row ℕ V)) : Mat V :=
  rows.foldl
    (fun A r => fun i j => if i = r.src ∧ j = r.dst then Dtype.add (A i j) r.val else A i j)
    (fun _ _ => Dtype.zero)

/-- `A != 0` -/
def ne0 (A : Mat V) : Mat Bool := fun i j => Dtype.nz (A i j)

/-- `A | A.T` (and `A + A.T` for sparse booleans). -/
def orT (A : Mat Bool) : Mat Bool := fun i j => A i j || A j i

/-- `A + A.T` -/
def addT (A : Mat V) : Mat V := fun i j => Dtype.add (A i j) (A j i)

/-- `A.sum()` -/
def total (n : ℕ) (A : Mat V) : ℝ := ∑ i ∈ range n, ∑ j ∈ range n, Dtype.num (A i j)

/-- `np.diag(A).sum()` -/
def diagSum (n : ℕ) (A : Mat V) : ℝ := ∑ i ∈ range n, Dtype.num (A i i)

/-- `A.sum(axis=1)` -/
def sum1 (n : ℕ) (A : Mat V) (i : ℕ) : ℝ := ∑ j ∈ range n, Dtype.num (A i j)

/-- `A.sum(axis=0)` -/
def sum0 (n : ℕ) (A : Mat V) (j : ℕ) : ℝ := ∑ i ∈ range n, Dtype.num (A i j)

/-- The python range `0, step, 2*step, … < stop`. -/
def pyRange (stop step : ℕ) : List ℕ := List.range' 0 ((stop + step - 1) / step) step

/-- Assignment of a value to one position of `A.ravel()` (row-major, `n` columns). -/
def flatSet (n : ℕ) (A : Mat V) (p : ℕ) (v : V) : Mat V :=
  fun i j => if i * n + j = p ∧ j < n then v else A i j

/-- Assignment of values to several positions of `A.ravel()`. -/
def flatSets (n : ℕ) (A : Mat V) (l : List (ℕ × V)) : Mat V :=
  l.foldl (fun A pv => flatSet n A pv.1 pv.2) A

/-- `A.ravel()[:: n + 1] = np.diag(D)` -/
def setDiag (n : ℕ) (A D : Mat V) : Mat V :=
  flatSets n A ((pyRange (n * n) (n + 1)).zip ((List.range n).map (fun k => D k k)))

end Mat

/-! ### Dense graphs -/

namespace Dense

variable {V : Type} [Dtype V]

/-- `Graph.adjacency_matrix(weighted=True)` (`graphs.py:211-220`) and
`DiGraph.adjacency_matrix(directed=False, weighted=True)` (`graphs.py:503-508`): add the transpose,
then put the original diagonal back by a strided write into the flattened array. -/
def symW (n : ℕ) (A : Mat V) : Mat V := setDiag n (addT A) A

/-- `adjacency_matrix(directed=False, weighted=False)` (`graphs.py:221-225`, `510-514`). -/
def symB (A : Mat V) : Mat Bool := orT (ne0 A)

/-- `int64` storage of a number: the fractional part is dropped. -/
def toInt64 (r : ℝ) : ℝ := if 0 ≤ r then (⌊r⌋ : ℝ) else (⌈r⌉ : ℝ)

/-- `Graph.sum_by_group` (`graphs.py:368-382`): the result array has type `int64`. -/
def sum_by_group (n : ℕ) (A : Mat V) (g : ℕ → ℕ) (i k : ℕ) : ℝ :=
  toInt64 (∑ j ∈ (range n).filter (fun j => g j = k), Dtype.num (A i j))

/-- `MultiGraph.adjacency_matrix(weighted=True)` (`graphs.py:857-869`) and
`MultiDiGraph.adjacency_matrix(directed=False, weighted=True)` (`graphs.py:1130-1135`): the
diagonal that is written is the one of the symmetrised matrix itself. -/
def symWMulti (n : ℕ) (A : Mat ℝ) : Mat ℝ := setDiag n (addT A) (addT A)

/-- Adjacency tensor of a multigraph: label, source, destination. -/
abbrev Tensor (V : Type) := ℕ → Mat V

/-- `adj[lbl, src, dst] = val` (`graphs.py:842-855`). -/
def assignT (rows : List (ℕ × Row ℕ V)) : Tensor V :=
  rows.foldl (fun A r => fun l i j =>
    if l = r.1 ∧ i = r.2.src ∧ j = r.2.dst then r.2.val else A l i j) (fun _ _ _ => Dtype.zero)

/-- `self.adj.sum(axis=0)`: for booleans the sum is an integer (`graphs.py:860`, `1125`). -/
def project (L : ℕ) (A : Tensor V) : Mat ℝ := fun i j => ∑ l ∈ range L, Dtype.num (A l i j)

/-- Positions written by `adj.ravel()[diag_index]` (`graphs.py:884-888`, `1155-1159`), `n` being
`adj.shape[1]` and `L` being `adj.shape[0]`. -/
def diagIndex (L n : ℕ) : List ℕ :=
  (List.range (L * n)).map (fun i => i * (n + 1) - n * (i / n))

/-- `np.diagonal(A, axis1=1, axis2=2).ravel()` -/
def diagonals (L n : ℕ) (A : Tensor V) : List V :=
  (List.range L).flatMap (fun l => (List.range n).map (fun i => A l i i))

/-- Assignment to a position of the flattened tensor. -/
def flatSetT (n : ℕ) (A : Tensor V) (p : ℕ) (v : V) : Tensor V :=
  fun l i j => if l * (n * n) + i * n + j = p ∧ i < n ∧ j < n then v else A l i j

/-- `adjacency_tensor(directed=False, weighted=True)` (`graphs.py:879-888`, `1150-1159`). -/
def symWTensor (L n : ℕ) (A : Tensor V) : Tensor V :=
  ((diagIndex L n).zip (diagonals L n A)).foldl (fun B pv => flatSetT n B pv.1 pv.2)
    (fun l => addT (A l))

/-- `adjacency_tensor(directed=False, weighted=False)` (`graphs.py:890-892`, `1161-1163`). -/
def symBTensor (A : Tensor V) : Tensor Bool := fun l => orT (ne0 (A l))

/-- A boolean array together with its memory layout: `ravel()` of a C-contiguous array is a
view, of any other array a copy. -/
structure NArr where
  val : Mat Bool
  contiguous : Bool

/-- `Graph.av_nn_prop` (`graphs.py:384-394`): without self loops zero is written to the diagonal
of `adj.ravel()`, which reaches `adj` only if `ravel()` is a view. -/
def av_nn_prop (n : ℕ) (adj : NArr) (prop : ℕ → ℝ) (selfloops : Bool) (i : ℕ) : ℝ :=
  let a := if !selfloops && adj.contiguous then
      flatSets n adj.val ((pyRange (n * n) (n + 1)).map (fun p => (p, false)))
    else adj.val
  ∑ j ∈ range n, Dtype.num (a i j) * prop j

end Dense

/-! ### Sparse graphs -/

namespace Sparse

variable {V : Type} [Dtype V]

/-- `adj + adj.T - spdiags(adj.diagonal())` for graphs with weights (`sparse/graphs.py:217-222`,
`540-546`, `952-954`, `1226-1228`).  With `weighted=True` on a graph without weights the
subtraction acts on booleans: `Sparse.symWB`. -/
def symW (A : Mat ℝ) : Mat ℝ := fun i j => A i j + A j i - (if i = j then A i i else 0)

/-- `(adj != 0) + (adj != 0).T` (`sparse/graphs.py:223-225`, `548-550`). -/
def symB (A : Mat V) : Mat Bool := orT (ne0 A)

/-- Row `i` of a matrix in CSR form: the stored columns in increasing order with their values.
`tocsc()` of a matrix followed by the same access gives the rows of the transpose. -/
def csrRow (n : ℕ) (A : Mat V) (i : ℕ) : List (ℕ × V) :=
  ((List.range n).filter (fun j => Dtype.nz (A i j))).map (fun j => (j, A i j))

/-- Update of the dictionary `gcnt` (`sparse/graphs.py:404-409`). -/
def gcntAdd : List (ℕ × ℝ) → ℕ → ℝ → List (ℕ × ℝ)
  | [], g, v => [(g, v)]
  | (g', s) :: l, g, v => if g' = g then (g', s + v) :: l else (g', s) :: gcntAdd l g v

/-- `Graph.sum_by_group` (`sparse/graphs.py:386-414`): items found for vertex `i`.  The `dtype`
argument is `int64` for degrees, whose values are ones, and `float64` for strengths. -/
def groupRow (row : List (ℕ × V)) (g : ℕ → ℕ) : List (ℕ × ℝ) :=
  row.foldl (fun acc jv => gcntAdd acc (g jv.1) (Dtype.num jv.2)) []

/-- The matrix `coo_array((cnt, (id, grp))).tocsr()` built from these items
(`sparse/graphs.py:262-264`). -/
def sum_by_group (n : ℕ) (A : Mat V) (g : ℕ → ℕ) (i k : ℕ) : ℝ :=
  ((groupRow (csrRow n A i) g).map (fun gs => if gs.1 = k then gs.2 else 0)).sum

/-- Tensor of a sparse multigraph: one COO matrix per label (`sparse/graphs.py:914-942`). -/
def cooT (rows : List (ℕ × Row ℕ V)) (l : ℕ) : Mat V :=
  coo ((rows.filter (fun r => r.1 == l)).map Prod.snd)

/-- `adj = self.adj[0]; for lbl in range(1, num_labels): adj += self.adj[lbl]`
(`sparse/graphs.py:947-949`, `1219-1221`); scipy's `+=` builds a new matrix. -/
def project (L : ℕ) (A : ℕ → Mat V) : Mat V :=
  (List.range' 1 (L - 1)).foldl (fun B l => fun i j => Dtype.add (B i j) (A l i j)) (A 0)

/-- `Graph.av_nn_prop` (`sparse/graphs.py:416-431`) for row `i`. -/
def av_nn_prop (row : List (ℕ × Bool)) (prop : ℕ → ℝ) (selfloops : Bool) (i : ℕ) : ℝ :=
  row.foldl (fun res j => if (decide (i ≠ j.1) || selfloops) then res + prop j.1 else res) 0

end Sparse

/-! ### Quantities derived from adjacency matrices

The same code is used in both backends; `B` is the result of
`adjacency_matrix(weighted=False)` and `W` that of `adjacency_matrix(weighted=True)`. -/

section Derived

variable {V : Type} [Dtype V]

/-- `Graph.num_edges`, `Graph.total_weight` (`graphs.py:227-241`, `sparse/graphs.py:229-243`) and,
layer by layer, `MultiGraph.num_edges_label`, `total_weight_label` (`graphs.py:896-914`,
`sparse/graphs.py:980-1003`; the sparse `nnz` of a boolean matrix is its sum). -/
def halfTotal (n : ℕ) (A : Mat V) : ℝ := (total n A + diagSum n A) / 2

/-- `Graph.degree` (`graphs.py:243-249`, `sparse/graphs.py:245-251`), `DiGraph.in_degree`,
`DiGraph.in_strength` (`graphs.py:541-548`, `576-582`, `sparse/graphs.py:579-586`, `636-642`). -/
def colSums (n : ℕ) (A : Mat V) (j : ℕ) : ℝ := sum0 n A j

/-- `Graph.strength` (`graphs.py:259-265`, `sparse/graphs.py:268-274`), `DiGraph.out_degree`,
`DiGraph.out_strength` (`graphs.py:532-539`, `568-574`, `sparse/graphs.py:570-577`, `628-634`). -/
def rowSums (n : ℕ) (A : Mat V) (i : ℕ) : ℝ := sum1 n A i

/-- `DiGraph.num_edges`, `DiGraph.total_weight` (`graphs.py:516-530`, `sparse/graphs.py:554-568`)
and, layer by layer, `MultiDiGraph.num_edges_label`, `total_weight_label` (`graphs.py:1168-1182`,
`sparse/graphs.py:1261-1275`). -/
def fullTotal (n : ℕ) (A : Mat V) : ℝ := total n A

end Derived

/-! ### Graph objects -/

/-- A graph object: `adj` is the attribute of that name. -/
structure Obj (ι γ V : Type) where
  num_vertices : ℕ
  id_dict : List (ι × ℕ)
  group_dict : List (γ × ℕ)
  groups : List ℕ
  adj : Mat V

/-- Constructor of `Graph` and `DiGraph` in `graphs.py` (lines 70-188, 465-493). -/
def Dense.mk {ι γ V : Type} [LinearOrder ι] [LinearOrder γ] [Dtype V] (v : List (ι × γ))
    (e : List (Row ι V)) : Except Err (Obj ι γ V) :=
  (base v e).map (fun b => ⟨b.num_vertices, b.id_dict, b.group_dict, b.groups, assign b.edges⟩)

/-- Constructor of `Graph` and `DiGraph` in `sparse/graphs.py` (lines 70-193, 502-530). -/
def Sparse.mk {ι γ V : Type} [LinearOrder ι] [LinearOrder γ] [Dtype V] (v : List (ι × γ))
    (e : List (Row ι V)) : Except Err (Obj ι γ V) :=
  (base v e).map (fun b => ⟨b.num_vertices, b.id_dict, b.group_dict, b.groups, coo b.edges⟩)

/-- A multigraph object. -/
structure MultiObj (ι γ κ V : Type) where
  num_vertices : ℕ
  num_labels : ℕ
  id_dict : List (ι × ℕ)
  label_dict : List (κ × ℕ)
  group_dict : List (γ × ℕ)
  groups : List ℕ
  adj : ℕ → Mat V

/-- `MultiGraph.__init__` (`graphs.py:818-855`, `sparse/graphs.py:889-942`; `MultiDiGraph` only
calls it): the single-layer constructor, then labels.  `tensor` builds the layers. -/
def mkMulti {ι γ κ V : Type} [LinearOrder ι] [LinearOrder γ] [LinearOrder κ] [Dtype V]
    (tensor : List (ℕ × Row ℕ V) → ℕ → Mat V) (v : List (ι × γ)) (e : List (κ × Row ι V)) :
    Except Err (MultiObj ι γ κ V) :=
  match base v (e.map Prod.snd) with
  | .error err => .error err
  | .ok b =>
    match generate_id_dict (e.map Prod.fst) false with
    | .error err => .error err
    | .ok label_dict =>
      let labels := e.map (fun r => (label_dict.lookup r.1).getD 0)
      .ok ⟨b.num_vertices, label_dict.length, b.id_dict, label_dict, b.group_dict, b.groups,
        tensor (labels.zip b.edges)⟩

/-- Constructor of `MultiGraph` and `MultiDiGraph` in `graphs.py`. -/
def Dense.mkMulti {ι γ κ V : Type} [LinearOrder ι] [LinearOrder γ] [LinearOrder κ] [Dtype V] :=
  Graph.mkMulti (ι := ι) (γ := γ) (κ := κ) (V := V) Dense.assignT

/-- Constructor of `MultiGraph` and `MultiDiGraph` in `sparse/graphs.py`. -/
def Sparse.mkMulti {ι γ κ V : Type} [LinearOrder ι] [LinearOrder γ] [LinearOrder κ] [Dtype V] :=
  Graph.mkMulti (ι := ι) (γ := γ) (κ := κ) (V := V) Sparse.cooT

end Graph

end

end Verif
