import Verif.Graph.Cached
import Verif.Ensemble.Method
import Verif.Layer.Method

/-!
# The graph objects returned by `sample`

The rest of the method `sample` of `DiGraphEnsemble` and `MultiDiGraphEnsemble`: attributes of the
new graph, reference graph, checks of the strengths, adjacency matrices.

The loops that draw the links are those of `Ensemble/Model.lean` and `Layer/Model.lean`.  Draws: the
binary samplers read a stream `u` of uniform numbers; the weighted samplers receive the uniform and
exponential variates of each pair as functions `v`, `e` of the pair.
-/

namespace Verif

noncomputable section

open XR

namespace Sampled

open Graph (Mat Row coo assign get_num_bytes validDtype)

/-- Group attributes of a graph. -/
structure Groups (γ : Type) where
  num_groups : ℕ
  group_dict : List (γ × ℕ)
  groups : List ℕ

/-- The attributes that are read from a reference graph; `none` stands for a missing attribute. -/
structure Ref (ι γ κ : Type) where
  id_dict : List (ι × ℕ)
  group : Option (Groups γ)
  label_dict : Option (List (κ × ℕ))

/-- Exceptions. -/
inductive Err where
  /-- `Exception`, no parameter -/
  | notFitted
  /-- `TypeError`: no unsigned integer type of that size -/
  | dtype
  /-- `AttributeError`: the reference graph has no `label_dict` -/
  | noLabelDict
  /-- `ValueError`: strengths are not an array -/
  | strengthType
  /-- `AssertionError`: shape of the strengths -/
  | strengthShape
  /-- `AssertionError`: totals of the strengths -/
  | strengthsDiffer
  /-- a link from a vertex with to a vertex without strength (`Layer.CrembErr`) -/
  | emptySelection
  /-- `ValueError`: unknown weights -/
  | badWeights
  /-- `AttributeError`: `_cremb_sample_tensor` does not exist -/
  | noCremb
  deriving DecidableEq

/-- The returned object.  The keys of the dictionaries are either those of the reference graph or
the numbers `0, 1, …`. -/
structure Obj (ι γ : Type) (A : Type) where
  num_vertices : ℕ
  id_bytes : ℤ
  id_dict : List ((ι ⊕ ℕ) × ℕ)
  group : Option (Groups γ)
  adj : A

/-- Additional attributes of a sampled multigraph. -/
structure MultiObj (ι γ κ : Type) (A : Type) extends Obj ι γ (ℕ → A) where
  num_labels : ℕ
  label_bytes : ℤ
  label_dict : List ((κ ⊕ ℕ) × ℕ)

/-- `d = {}; for i in range(n): d[i] = i`, in insertion order. -/
def rangeDict (α : Type) (n : ℕ) : List ((α ⊕ ℕ) × ℕ) :=
  (List.range n).foldl (fun d i => d ++ [(Sum.inr i, i)]) []

/-- A dictionary taken from the reference graph. -/
def refDict {α : Type} (d : List (α × ℕ)) : List ((α ⊕ ℕ) × ℕ) := d.map (fun e => (Sum.inl e.1, e.2))

/-- `id_dict` of a sampled graph (`sparse/models/ensembles.py:354-367`, `models.py:359-372`). -/
def ids {ι γ κ : Type} (n : ℕ) : Option (Ref ι γ κ) → List ((ι ⊕ ℕ) × ℕ)
  | some r => refDict r.id_dict
  | none => rangeDict ι n

/-- An adjacency matrix with boolean or with floating point entries. -/
inductive Adj where
  | bool (A : Mat Bool)
  | float (A : Mat ℝ)

/-- The value of a finite number; weights are finite (C16, C62). -/
def real : XR → ℝ
  | .fin r => r
  | _ => 0

/-- Rows of a matrix of links. -/
def boolRows (l : List (ℕ × ℕ)) : List (Row ℕ Bool) := l.map (fun e => ⟨e.1, e.2, true⟩)

/-- Rows of a matrix of weights. -/
def floatRows (l : List ((ℕ × ℕ) × XR)) : List (Row ℕ ℝ) := l.map (fun e => ⟨e.1.1, e.1.2, real e.2⟩)

/-- `DiGraphEnsemble.sample` (`/repo/src/graph_ensembles/sparse/models/ensembles.py:328-403`,
`/repo/src/graph_ensembles/models.py:333-407`).  The sparse backend builds a CSR matrix from
coordinates (equal positions are added), the dense one assigns into an array of zeros. -/
def sample {ι γ κ : Type} (b : Graph.Backend) (E : Ens) (n : ℕ) (fitted : Option E.δ)
    (self_selfloops : Bool) (ref : Option (Ref ι γ κ)) (w : Method.Weights)
    (selfloops : Option Bool) (u : ℕ → ℝ) (v e : ℕ → ℕ → ℝ) : Except Err (Obj ι γ Adj) :=
  match fitted with
  | none => .error .notFitted
  | some θ =>
    let _selfloops := selfloops.getD self_selfloops
    let E' : Ens := { E with param := θ }
    open Classical in
    if validDtype (get_num_bytes n) then
      let group := ref.bind Ref.group
      let id_dict := ids n ref
      let mk := fun A => (⟨n, get_num_bytes n, id_dict, group, A⟩ : Obj ι γ Adj)
      match w with
      | .none =>
        let rows := boolRows (E'.binary_sample_stream n self_selfloops u)
        match b with
        | .sparse => .ok (mk (.bool (coo rows)))
        | .dense => .ok (mk (.bool (assign rows)))
      | .cremb so si =>
        match E'.cremb_sample n so si self_selfloops v e with
        | .error _ => .error .strengthsDiffer
        | .ok l =>
          match b with
          | .sparse => .ok (mk (.float (coo (floatRows l))))
          | .dense => .ok (mk (.float (assign (floatRows l))))
      | .other => .error .badWeights
    else .error .dtype

/-! ### Multi-layer ensembles -/

/-- `out_strength_label`, `in_strength_label`. -/
inductive Strength where
  | none
  | array (shape : ℕ × ℕ) (a : ℕ → ℕ → ℝ)
  | sparse (m : Method.Stored)
  | other

/-- `weights`. -/
inductive Weights where
  | none | cremb | other

/-- The strengths with label `k` as `(vertex, value)` pairs
(`/repo/src/graph_ensembles/sparse/models/ensembles.py:875-914`): `csc_array` of an array stores
the non-zero entries, a sparse matrix its stored entries; by default the properties are used
(those are finite here: an infinite strength makes the totals differ). -/
def Strength.columns (s : Strength) (n L : ℕ) (default : ℕ → List (ℕ × ℝ)) :
    Except Err (ℕ → List (ℕ × ℝ)) :=
  match s with
  | .none => .ok default
  | .array shape a =>
    if shape = (n, L) then
      .ok (fun k => ((List.range n).filter (fun i => decide (a i k ≠ 0))).map (fun i => (i, a i k)))
    else .error .strengthShape
  | .sparse m =>
    if m.shape = (n, L) then
      .ok (fun k => (List.range n).flatMap (fun i =>
        ((m.row i).filter (fun e => e.1 == k)).map (fun e => (i, e.2))))
    else .error .strengthShape
  | .other => .error .strengthType

/-- The checks of the dense backend (`/repo/src/graph_ensembles/models.py:1660-1700`); the values are
never used. -/
def Strength.check (s : Strength) (n L : ℕ) : Except Err Unit :=
  match s with
  | .none => .ok ()
  | .array shape _ => if shape = (n, L) then .ok () else .error .strengthShape
  | .sparse m => if m.shape = (n, L) then .ok () else .error .strengthShape
  | .other => .error .strengthType

/-- Attributes set before the links are drawn
(`/repo/src/graph_ensembles/sparse/models/ensembles.py:831-859`,
`/repo/src/graph_ensembles/models.py:1629-1657`); the adjacency matrices are left to the caller. -/
def header {ι γ κ A : Type} (n L : ℕ) (ref : Option (Ref ι γ κ)) :
    Except Err ((ℕ → A) → MultiObj ι γ κ A) :=
  open Classical in
  if validDtype (get_num_bytes n) ∧ validDtype (get_num_bytes L) then
    match ref with
    | none => .ok (fun adj => ⟨⟨n, get_num_bytes n, rangeDict ι n, none, adj⟩, L, get_num_bytes L,
        rangeDict κ L⟩)
    | some r =>
      match r.label_dict with
      | none => .error .noLabelDict
      | some d => .ok (fun adj => ⟨⟨n, get_num_bytes n, refDict r.id_dict, r.group, adj⟩, L,
          get_num_bytes L, refDict d⟩)
  else .error .dtype

/-- The call of `_cremb_sample_layer` (`sparse/models/ensembles.py:928-938`). -/
def Sparse.cremb_layer (o : Layer.Method.Obj (List (ℕ × XR))) (θ : ℕ → XR) (k : ℕ)
    (s_out s_in : List (ℕ × ℝ)) (v e : ℕ → ℕ → ℝ) : Except Err (List ((ℕ × ℕ) × XR)) :=
  match Layer.cremb_sample_layer o.link.p_ijk (θ k) (Layer.column o.num_vertices o.prop_out k)
      (Layer.column o.num_vertices o.prop_in k) o.prop_dyad s_out s_in o.selfloops v e with
  | .ok l => .ok l
  | .error .strengthsDiffer => .error .strengthsDiffer
  | .error .emptySelection => .error .emptySelection

/-- `MultiDiGraphEnsemble.sample` of the sparse backend
(`/repo/src/graph_ensembles/sparse/models/ensembles.py:813-951`).  `weights` is tested for each label,
hence not at all without labels.  The argument `selfloops` is not used after its default is set. -/
def Sparse.sample {ι γ κ : Type} (o : Layer.Method.Obj (List (ℕ × XR))) (ref : Option (Ref ι γ κ))
    (weights : Weights) (out_strength in_strength : Strength) (selfloops : Option Bool)
    (u : ℕ → ℝ) (v e : ℕ → ℕ → ℕ → ℝ) : Except Err (MultiObj ι γ κ Adj) :=
  match o.param with
  | none => .error .notFitted
  | some θ => do
    let n := o.num_vertices
    let L := o.num_labels
    let _selfloops := selfloops.getD o.selfloops
    let mk ← header n L ref
    let col := fun (prop : ℕ → List (ℕ × XR)) k =>
      (Layer.column n prop k).map (fun e => (e.1, real e.2))
    let s_out ← out_strength.columns n L (col o.prop_out)
    let s_in ← in_strength.columns n L (col o.prop_in)
    match weights with
    | .none =>
      let layers := (Layer.sample_stream o.link.p_ijk n L θ o.prop_out o.prop_in o.prop_dyad
        o.selfloops u).2
      .ok (mk (fun k => .bool (coo (boolRows ((layers[k]?).getD [])))))
    | .cremb =>
      let layers ← (List.range L).foldlM (fun acc k => do
        let l ← Sparse.cremb_layer o θ k (s_out k) (s_in k) (v k) (e k)
        return acc ++ [l]) ([] : List (List ((ℕ × ℕ) × XR)))
      .ok (mk (fun k => .float (coo (floatRows ((layers[k]?).getD [])))))
    | .other =>
      if L = 0 then .ok (mk (fun _ => .bool (coo []))) else .error .badWeights

/-- `MultiDiGraphEnsemble.sample` of the dense backend
(`/repo/src/graph_ensembles/models.py:1612-1729`): the tensor is an array of floats, links are
stored as `1.0`. -/
def Dense.sample {ι γ κ : Type} (o : Layer.Method.Obj (List XR)) (ref : Option (Ref ι γ κ))
    (weights : Weights) (out_strength in_strength : Strength) (selfloops : Option Bool)
    (u : ℕ → ℝ) : Except Err (MultiObj ι γ κ Adj) :=
  match o.param with
  | none => .error .notFitted
  | some θ => do
    let n := o.num_vertices
    let L := o.num_labels
    let _selfloops := selfloops.getD o.selfloops
    let mk ← header n L ref
    out_strength.check n L
    in_strength.check n L
    match weights with
    | .none =>
      let l := (Layer.Dense.binary_sample_tensor_stream o.link.p_ijk n L θ
        (fun i k => (o.prop_out i).getD k 0) (fun i k => (o.prop_in i).getD k 0) o.prop_dyad
        o.selfloops u).2
      let A := Graph.Dense.assignT (l.map (fun x => (x.1, (⟨x.2.1, x.2.2, 1⟩ : Row ℕ ℝ))))
      .ok (mk (fun k => .float (A k)))
    | .cremb => .error .noCremb
    | .other => .error .badWeights

/-! ### Queries -/

/-- Boolean entries as numbers. -/
def Adj.num : Adj → Mat ℝ
  | .bool A => fun i j => Graph.Dtype.num (A i j)
  | .float A => A

/-- The sampled object as a graph object with the queries of `Graph/Cached.lean`.  Counting the
`True` entries of a boolean matrix is adding up zeros and ones; `strength` and the undirected weight
matrix of boolean graphs are not covered. -/
def Obj.graph {ι γ : Type} (g : Obj ι γ Adj) : Graph.Obj (ι ⊕ ℕ) γ ℝ :=
  ⟨g.num_vertices, g.id_dict, (g.group.map Groups.group_dict).getD [],
    (g.group.map Groups.groups).getD [], g.adj.num⟩

/-- The same for multigraphs. -/
def MultiObj.graph {ι γ κ : Type} (g : MultiObj ι γ κ Adj) : Graph.MultiObj (ι ⊕ ℕ) γ (κ ⊕ ℕ) ℝ :=
  ⟨g.num_vertices, g.num_labels, g.id_dict, g.label_dict, (g.group.map Groups.group_dict).getD [],
    (g.group.map Groups.groups).getD [], fun k => (g.adj k).num⟩

end Sampled

end

end Verif
