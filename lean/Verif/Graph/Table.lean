import Verif.Graph.Query

/-!
# Constructors of graphs on tables with named columns

`/repo/src/graph_ensembles/graphs.py` (called `graphs.py`) and `/repo/src/graph_ensembles/sparse/graphs.py`
(called `sparse/graphs.py`; lines 70-211 and 862-942 have the same text up to the adjacency matrix).

The constructors take two pandas data frames and names of columns, add columns to the frames of the
caller, and build the graph from them.  `Graph/Model.lean` starts from the rows that result from this.
Identifiers, numbers and tuples of them are elements of one type.  Frames have no two columns of the same
name; the order of the columns is left out.
-/

namespace Verif

noncomputable section

namespace Graph

namespace Tab

/-- Values in the cells of a table. -/
class Cell (κ : Type) extends LinearOrder κ where
  /-- the python tuple -/
  tuple : List κ → κ
  /-- a position, as stored by `.map(lambda x: self.id_dict.get(x))` -/
  int : ℕ → κ
  /-- what `.map` stores for a key that is not in the dictionary -/
  missing : κ
  /-- the number in a column of weights -/
  num : κ → ℝ

variable {κ : Type}

/-- A data frame: number of rows and columns by name.  Only the cells `i < len` are meaningful. -/
structure Table (κ : Type) where
  len : ℕ
  col : String → Option (ℕ → κ)

/-- `df[name] = values` -/
def Table.set (t : Table κ) (name : String) (f : ℕ → κ) : Table κ :=
  { t with col := Function.update t.col name (some f) }

/-- The values of a column. -/
def Table.list (t : Table κ) (f : ℕ → κ) : List κ := (List.range t.len).map f

/-- A column argument: the name, or a list of names. -/
inductive Sel where
  | str (s : String)
  | list (l : List String)

/-- Lists with one element are replaced by the element (`graphs.py:97-107`, `823-824`). -/
def Sel.norm : Sel → Sel
  | .list [s] => .str s
  | a => a

/-- Exceptions: `KeyError`, `ValueError`, "at least one repeated id", the assertions about vertices and
weights. -/
inductive TErr where
  | key | value | repeatedId | unknownVertex | badWeight
  deriving DecidableEq

variable [Cell κ]

/-- `df[a]` for a name and `list(zip(*[df[x] for x in a]))` for a list (`graphs.py:118-121`, `136-139`,
`153-158`, `827-830`).  The zip of no columns is empty, which cannot be stored in a frame with rows. -/
def Table.get (t : Table κ) : Sel → Except TErr (ℕ → κ)
  | .str s => match t.col s with
    | some f => .ok f
    | none => .error .key
  | .list l => match l.mapM t.col with
    | some fs => if fs = [] ∧ t.len ≠ 0 then .error .value else .ok fun i => Cell.tuple (fs.map (· i))
    | none => .error .key

/-- Arguments of the constructors; `edge_label` is given for the multigraphs. -/
structure Args where
  v_id : Sel
  src : Sel
  dst : Sel
  weight : Option Sel
  v_group : Option Sel
  edge_label : Option Sel

/-- Attributes about the vertices; without `v_group` there are no attributes about groups. -/
structure Ids (κ : Type) where
  num_vertices : ℕ
  id_dict : List (κ × ℕ)
  group_dict : List (κ × ℕ)
  groups : List ℕ

/-- The vertex table (`graphs.py:110-149`).  The column `_node` is added to the table of the caller, the
column `_group` only to the sorted copy.  Every exception but a `ValueError` within the first block is
replaced by the one about repeated identifiers. -/
def vertices (a : Args) (v : Table κ) : Table κ × Except TErr (Ids κ) :=
  match v.get a.v_id.norm with
  | .error .value => (v, .error .value)
  | .error _ => (v, .error .repeatedId)
  | .ok node =>
    let v1 := v.set "_node" node
    match generate_id_dict (v1.list node) true with
    | .error _ => (v1, .error .repeatedId)
    | .ok id_dict =>
      match a.v_group with
      | none => (v1, .ok ⟨v.len, id_dict, [], []⟩)
      | some g =>
        match v1.get g.norm with
        | .error err => (v1, .error err)
        | .ok group =>
          let sorted := (List.range v1.len).mergeSort fun i j =>
            decide ((id_dict.lookup (node i)).getD 0 ≤ (id_dict.lookup (node j)).getD 0)
          match generate_id_dict (sorted.map group) false with
          | .error _ => (v1, .error .repeatedId)
          | .ok group_dict =>
            (v1, .ok ⟨v.len, id_dict, group_dict,
              sorted.map fun i => (group_dict.lookup (group i)).getD 0⟩)

/-- `column.map(lambda x: dict.get(x))` -/
def mapIds (dict : List (κ × ℕ)) (f : ℕ → κ) : ℕ → κ := fun i =>
  match dict.lookup (f i) with
  | some k => Cell.int k
  | none => Cell.missing

/-- `src` and `dst` are both lists or both strings (`graphs.py:153-161`). -/
def sameKind : Sel → Sel → Bool
  | .list _, .list _ => true
  | .str _, .str _ => true
  | _, _ => false

/-- The end points (`graphs.py:151-170`): the columns `_src` and `_dst` of the table of the caller, which
first hold the identifiers and then the positions. -/
def endpoints (a : Args) (dict : List (κ × ℕ)) (e : Table κ) :
    Table κ × Except TErr ((ℕ → ℕ) × (ℕ → ℕ)) :=
  if sameKind a.src.norm a.dst.norm then
    match e.get a.src.norm with
    | .error err => (e, .error err)
    | .ok x =>
      let e1 := e.set "_src" x
      match e1.get a.dst.norm with
      | .error err => (e1, .error err)
      | .ok y =>
        let e2 := (((e1.set "_dst" y).set "_src" (mapIds dict x)).set "_dst" (mapIds dict y))
        if (List.range e.len).all fun i => (dict.lookup (x i)).isSome && (dict.lookup (y i)).isSome then
          (e2, .ok (fun i => (dict.lookup (x i)).getD 0, fun i => (dict.lookup (y i)).getD 0))
        else (e2, .error .unknownVertex)
  else (e, .error .value)

/-- `e[weight].values` (`graphs.py:175`, `843`), for a name and for several names (a two-dimensional
array). -/
def weightCols (e : Table κ) : Sel → Except TErr (List (ℕ → ℝ))
  | .str s => match e.col s with
    | some f => .ok [fun i => Cell.num (f i)]
    | none => .error .key
  | .list l => match l.mapM e.col with
    | some fs => .ok (fs.map fun f i => Cell.num (f i))
    | none => .error .key

/-- The weights (`graphs.py:173-188`): `none` without weights.  A two-dimensional array of positive
numbers cannot be stored in the adjacency matrix. -/
def weights (a : Args) (e : Table κ) : Except TErr (Option (ℕ → ℝ)) :=
  match a.weight with
  | none => .ok none
  | some w =>
    match weightCols e w.norm with
    | .error err => .error err
    | .ok fs =>
      if (List.range e.len).all fun i => fs.all fun f => Dtype.pos (f i) then
        match fs with
        | [f] => .ok (some f)
        | _ => .error .value
      else .error .badWeight

/-- The labels (`graphs.py:822-838`, `sparse/graphs.py:893-909`): the column `_label` first holds the
labels and then their positions. -/
def labels (l : Sel) (e : Table κ) : Table κ × Except TErr (List (κ × ℕ) × (ℕ → ℕ)) :=
  match e.get l.norm with
  | .error err => (e, .error err)
  | .ok x =>
    match generate_id_dict (e.list x) false with
    | .error _ => (e.set "_label" x, .error .repeatedId)
    | .ok dict => ((e.set "_label" x).set "_label" (mapIds dict x),
        .ok (dict, fun i => (dict.lookup (x i)).getD 0))

/-- The graph object. -/
inductive Built (κ : Type) where
  | weighted (o : Obj κ κ ℝ)
  | unweighted (o : Obj κ κ Bool)
  | multiWeighted (o : MultiObj κ κ κ ℝ)
  | multiUnweighted (o : MultiObj κ κ κ Bool)

/-- `graphs.py:177-188`, `sparse/graphs.py:181-192` -/
def adjOf {V : Type} [Dtype V] : Backend → List (Row ℕ V) → Mat V
  | .dense => assign
  | .sparse => coo

/-- `graphs.py:842-855`, `sparse/graphs.py:914-942` -/
def tensorOf {V : Type} [Dtype V] : Backend → List (ℕ × Row ℕ V) → ℕ → Mat V
  | .dense => Dense.assignT
  | .sparse => Sparse.cooT

/-- The edge list with the values of the cells. -/
def rowsOf {V : Type} (e : Table κ) (x y : ℕ → ℕ) (w : ℕ → V) : List (Row ℕ V) :=
  (List.range e.len).map fun i => ⟨x i, y i, w i⟩

/-- The two tables after the call, and the graph or the exception: the constructors of `Graph`,
`DiGraph` (`edge_label` not given), `MultiGraph` and `MultiDiGraph`. -/
def build (b : Backend) (a : Args) (v e : Table κ) : (Table κ × Table κ) × Except TErr (Built κ) :=
  let r := vertices a v
  match r.2 with
  | .error err => ((r.1, e), .error err)
  | .ok ids =>
    let s := endpoints a ids.id_dict e
    match s.2 with
    | .error err => ((r.1, s.1), .error err)
    | .ok (x, y) =>
      match weights a s.1 with
      | .error err => ((r.1, s.1), .error err)
      | .ok w =>
        match a.edge_label with
        | none => ((r.1, s.1), .ok (match w with
          | some w => .weighted ⟨ids.num_vertices, ids.id_dict, ids.group_dict, ids.groups,
              adjOf b (rowsOf e x y w)⟩
          | none => .unweighted ⟨ids.num_vertices, ids.id_dict, ids.group_dict, ids.groups,
              adjOf b (rowsOf e x y fun _ => true)⟩))
        | some l =>
          let t := labels l s.1
          match t.2 with
          | .error err => ((r.1, t.1), .error err)
          | .ok (dict, lbl) =>
            match (match a.weight with
              | none => Except.ok none
              | some w => (weightCols t.1 w.norm).map some) with
            | .error err => ((r.1, t.1), .error err)
            | .ok none => ((r.1, t.1), .ok (.multiUnweighted ⟨ids.num_vertices, dict.length,
                ids.id_dict, dict, ids.group_dict, ids.groups,
                tensorOf b (((List.range e.len).map lbl).zip (rowsOf e x y fun _ => true))⟩))
            | .ok (some fs) => ((r.1, t.1), .ok (.multiWeighted ⟨ids.num_vertices, dict.length,
                ids.id_dict, dict, ids.group_dict, ids.groups,
                tensorOf b (((List.range e.len).map lbl).zip
                  (rowsOf e x y (fs.headD fun _ => 0)))⟩))

/-- Several constructions, one after the other, on the same two tables. -/
def buildAll (v e : Table κ) : List (Backend × Args) → List (Except TErr (Built κ))
  | [] => []
  | c :: cs =>
    let r := build c.1 c.2 v e
    r.2 :: buildAll r.1.1 r.1.2 cs

end Tab

end Graph

end

end Verif
