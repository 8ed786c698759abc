import Verif.NumOrder
import Mathlib.Algebra.Order.Floor.Ring
import Mathlib.Algebra.Order.Archimedean.Real.Basic
import Mathlib.Algebra.BigOperators.Group.List.Basic

/-! # Model of the constructors

`FitnessModel.__init__` (`/repo/src/graph_ensembles/sparse/models/fitness.py:43-163`, identical in
`/repo/src/graph_ensembles/models.py:1064-1184` and inherited by the scale-invariant models),
`RandomDiGraph.__init__` (`/repo/src/graph_ensembles/sparse/models/random.py:37-143`, identical in
`/repo/src/graph_ensembles/models.py:577-685`), `MultiFitnessModel.__init__`
(`/repo/src/graph_ensembles/sparse/models/fitness.py:370-576`,
`/repo/src/graph_ensembles/models.py:1902-2102`) and `ConditionalInvariantModel.__init__`
(`/repo/src/graph_ensembles/sparse/models/conditional.py:48-213`).

Arguments are Python values of the kinds that the code distinguishes. Attributes are optional
fields. Exceptions are values; which exception is raised is recorded, except that the exceptions of
Python itself on operands it cannot handle are one constructor. Warnings are not modelled. Values
outside the listed kinds (`other`: `None`, strings, dictionaries, ...) are those on which arithmetic
raises and which `np.array` does not make numeric; lists are lists of numbers. -/

namespace Verif.Validate

open XR

noncomputable section

/-- `dtype` of an array, as far as the code distinguishes; arrays of objects have entries that are
not numbers. -/
inductive Dt where
  | int
  | float
  | bool
  | object
  deriving DecidableEq

/-- `np.issubdtype(dtype, np.number)` -/
def Dt.isNumber : Dt → Bool
  | .int => true
  | .float => true
  | _ => false

/-- Class of a graph: `DiGraph` and `MultiGraph` derive from `Graph`, `MultiDiGraph` from both
(`/repo/src/graph_ensembles/sparse/graphs.py:16,434,776,1068`). -/
inductive Kind where
  | graph
  | digraph
  | multigraph
  | multidigraph
  deriving DecidableEq

/-- Python values. -/
inductive Val where
  /-- A number (int, float or numpy scalar). -/
  | num (x : XR)
  | bool (b : Bool)
  /-- A list or tuple of numbers. -/
  | list (l : List XR)
  /-- An array: shape and entries in order. -/
  | arr (dt : Dt) (shape : List ℕ) (f : ℕ → XR)
  /-- A sparse matrix: shape and stored values. -/
  | sparse (shape : List ℕ) (stored : List XR)
  /-- A graph, with what the constructors read from it: `num_vertices`, `num_edges()`,
  `total_weight()` if weighted, strengths, `groups`, `adjacency_matrix(directed=True,
  weighted=True)`; for multigraphs `num_labels`, `num_edges_label()` and strengths by label. -/
  | graph (k : Kind) (num_vertices num_edges : ℕ) (total_weight : Option ℝ)
      (out_strength in_strength : ℕ → ℝ) (groups : Option (ℕ → ℕ))
      (num_labels : ℕ) (num_edges_label : ℕ → ℕ) (by_label : List ℝ × List ℝ)
  /-- The placeholder `empty_index` (`/repo/src/graph_ensembles/sparse/models/ensembles.py:20-27`). -/
  | empty
  | other

/-- Entries of an array. -/
def entries (shape : List ℕ) (f : ℕ → XR) : List XR := (List.range shape.prod).map f

/-- Exceptions. -/
inductive Err where
  /-- Unnamed argument of the wrong class. -/
  | notGraph
  /-- Unknown option. -/
  | illegal
  /-- A required attribute is missing. -/
  | notSet
  | notInteger
  | notPositive
  /-- Failed assertion on the format of an array. -/
  | format
  /-- Failed assertion or test on the sign. -/
  | negative
  | notNumber
  | notNumeric
  /-- Wrong number of parameters or of edge counts. -/
  | length
  /-- `num_edges` is an array over labels and `num_edges_label` is set. -/
  | conflict
  /-- Neither edges nor parameters. -/
  | neither
  /-- Exception of Python or numpy itself (`TypeError`, `AttributeError`, truth value of an array). -/
  | python
  deriving DecidableEq

/-- Names of options. -/
inductive Key where
  | num_vertices | num_edges | num_edges_label | num_labels | prop_out | prop_in | param | selfloops
  | per_label | total_weight | discrete_weights | groups | adj
  | unknown (s : String)
  deriving DecidableEq

/-- Attributes of the object under construction (`hasattr` is `isSome`). -/
structure Fields where
  num_vertices : Option Val := none
  num_edges : Option Val := none
  num_edges_label : Option Val := none
  num_labels : Option Val := none
  prop_out : Option Val := none
  prop_in : Option Val := none
  param : Option Val := none
  selfloops : Option Val := none
  per_label : Option Val := none
  total_weight : Option Val := none
  discrete_weights : Option Val := none
  groups : Option Val := none
  adj : Option Val := none

/-- `getattr(self, name)` -/
def Fields.get (f : Fields) : Key → Option Val
  | .num_vertices => f.num_vertices
  | .num_edges => f.num_edges
  | .num_edges_label => f.num_edges_label
  | .num_labels => f.num_labels
  | .prop_out => f.prop_out
  | .prop_in => f.prop_in
  | .param => f.param
  | .selfloops => f.selfloops
  | .per_label => f.per_label
  | .total_weight => f.total_weight
  | .discrete_weights => f.discrete_weights
  | .groups => f.groups
  | .adj => f.adj
  | .unknown _ => none

/-- `setattr(self, name, value)` -/
def Fields.set (f : Fields) (v : Val) : Key → Fields
  | .num_vertices => { f with num_vertices := some v }
  | .num_edges => { f with num_edges := some v }
  | .num_edges_label => { f with num_edges_label := some v }
  | .num_labels => { f with num_labels := some v }
  | .prop_out => { f with prop_out := some v }
  | .prop_in => { f with prop_in := some v }
  | .param => { f with param := some v }
  | .selfloops => { f with selfloops := some v }
  | .per_label => { f with per_label := some v }
  | .total_weight => { f with total_weight := some v }
  | .discrete_weights => { f with discrete_weights := some v }
  | .groups => { f with groups := some v }
  | .adj => { f with adj := some v }
  | .unknown _ => f

/-- The loop over the keyword arguments
(`/repo/src/graph_ensembles/sparse/models/fitness.py:68-81`). -/
def setOptions (allowed : List Key) (f : Fields) (kw : List (Key × Val)) : Except Err Fields :=
  kw.foldlM (fun f e => if e.1 ∈ allowed then .ok (f.set e.2 e.1) else .error .illegal) f

/-- `int(x)` of a real number. -/
def trunc (r : ℝ) : ℤ := if 0 ≤ r then ⌊r⌋ else ⌈r⌉

/-- `assert x / int(x) == 1; int(x)` for a number, inside `try ... except Exception`
(`/repo/src/graph_ensembles/sparse/models/fitness.py:87-91`). -/
def intOf : XR → Except Err ℤ
  | .fin r => if trunc r = 0 then .error .notInteger
      else if r / trunc r = 1 then .ok (trunc r) else .error .notInteger
  | _ => .error .notInteger

/-- The check of a count: an integer, positive
(`/repo/src/graph_ensembles/sparse/models/fitness.py:86-95`). -/
def count (v : Val) : Except Err ℤ :=
  (match v with
    | .num x => intOf x
    | .bool b => intOf (if b then 1 else 0)
    | .arr dt shape f =>
      match dt, entries shape f with
      | .object, _ => .error .notInteger
      | _, [x] => intOf x
      | _, _ => .error .notInteger
    | _ => .error .notInteger) >>= fun k =>
  if k ≤ 0 then .error .notPositive else .ok k

/-- `hasattr` and `isinstance(..., empty_index)`
(`/repo/src/graph_ensembles/sparse/models/fitness.py:97-105`). -/
def required : Option Val → Except Err Val
  | none => .error .notSet
  | some .empty => .error .notSet
  | some v => .ok v

/-- The assertions on the node properties
(`/repo/src/graph_ensembles/sparse/models/fitness.py:110-130`). -/
def vector (n : ℤ) : Val → Except Err (ℕ → XR)
  | .arr dt shape f => if shape.map Int.ofNat = [n] then
      (if dt = .object then .error .python
        else if (entries shape f).all (fun x => leb 0 x) then .ok f else .error .negative)
      else .error .format
  | _ => .error .format

/-- `tmp = len(x)` and `x[0]` inside `try ... except TypeError: pass`
(`/repo/src/graph_ensembles/sparse/models/fitness.py:134-141`). -/
def unwrap : Val → Except Err Val
  | .list [x] => .ok (.num x)
  | .list _ => .error .notNumber
  | .arr dt (1 :: rest) f =>
    if rest = [] then .ok (if dt = .object then .other else .num (f 0)) else .ok (.arr dt rest f)
  | .arr _ (_ :: _) _ => .error .notNumber
  | v => .ok v

/-- `x * 1.0` (`/repo/src/graph_ensembles/sparse/models/fitness.py:143-146`). -/
def timesOne : Val → Except Err Val
  | .num x => .ok (.num x)
  | .bool b => .ok (.num (if b then 1 else 0))
  | .arr dt shape f => if dt = .object then .error .notNumber else .ok (.arr .float shape f)
  | .sparse shape s => .ok (.sparse shape s)
  | _ => .error .notNumber

/-- `if x < 0:`: the truth value of an array needs it to have one entry (none is false), that of a
sparse matrix that it is one by one. -/
def isNegative : Val → Except Err Bool
  | .num x => .ok (ltb x 0)
  | .arr _ shape f =>
    match entries shape f with
    | [] => .ok false
    | [x] => .ok (ltb x 0)
    | _ => .error .python
  | .sparse shape s => if shape = [1, 1] then .ok (s.any (fun x => ltb x 0)) else .error .python
  | _ => .error .python

/-- The check of a number of edges or total weight
(`/repo/src/graph_ensembles/sparse/models/fitness.py:132-149`). -/
def number (v : Val) : Except Err Val :=
  unwrap v >>= fun v => timesOne v >>= fun v => isNegative v >>= fun b =>
    if b then .error .negative else .ok v

/-- `number` of an attribute if it is set. -/
def numberIfSet : Option Val → Except Err (Option Val)
  | none => .ok none
  | some v => number v >>= fun v => .ok (some v)

/-- The parameters as an array: shape and entries. -/
structure Param where
  shape : List ℕ
  f : ℕ → XR

/-- `np.issubdtype(param.dtype, np.number)` and `np.any(param < 0)`
(`/repo/src/graph_ensembles/sparse/models/fitness.py:160-164`). -/
def paramArray (dt : Dt) (shape : List ℕ) (f : ℕ → XR) : Except Err Param :=
  if dt.isNumber = false then .error .notNumeric
  else if (entries shape f).any (fun x => ltb x 0) then .error .negative
  else .ok ⟨shape, f⟩

/-- The check of the parameter of a single-layer model
(`/repo/src/graph_ensembles/sparse/models/fitness.py:151-164`): anything but an array is wrapped,
so that a list of `k` numbers becomes an array of shape `(1, k)`. -/
def oneParam : Val → Except Err Param
  | .arr _ [] _ => .error .python
  | .arr dt (k :: rest) f => if k = 1 then paramArray dt (k :: rest) f else .error .length
  | .num x => paramArray .float [1] (fun _ => x)
  | .list l => paramArray .float [1, l.length] (fun i => l.getD i 0)
  | .bool _ => paramArray .bool [1] (fun _ => 0)
  | _ => paramArray .object [1] (fun _ => 0)

/-- The check of the parameters of the random graph model
(`/repo/src/graph_ensembles/sparse/models/random.py:104-117`): a number is completed with a zero; a
list beside a zero is not a rectangular array. -/
def twoParam : Val → Except Err Param
  | .arr _ [] _ => .error .python
  | .arr dt (k :: rest) f => if k = 2 then paramArray dt (k :: rest) f else .error .length
  | .num x => paramArray .float [2] (fun i => if i = 0 then x else 0)
  | .bool b => paramArray .float [2] (fun i => if i = 0 then (if b then 1 else 0) else 0)
  | .list _ => .error .python
  | _ => paramArray .object [2] (fun _ => 0)

/-- `oneParam` or `twoParam` of an attribute if it is set. -/
def paramIfSet (check : Val → Except Err Param) : Option Val → Except Err (Option Param)
  | none => .ok none
  | some v => check v >>= fun p => .ok (some p)

/-- The array of a function on the vertices. -/
def vec (n : ℕ) (s : ℕ → ℝ) : Val := .arr .float [n] (fun i => fin (s i))

namespace FitnessModel

/-- The attributes of a constructed model. -/
structure Obj where
  num_vertices : ℤ
  prop_out : ℕ → XR
  prop_in : ℕ → XR
  num_edges : Option Val
  param : Option Param
  selfloops : Val

/-- Attributes set from the unnamed arguments
(`/repo/src/graph_ensembles/sparse/models/fitness.py:52-66`). -/
def fromArgs : List Val → Except Err Fields
  | [] => .ok {}
  | .graph k n m _ so si _ _ _ _ :: _ =>
    if k = .digraph ∨ k = .multidigraph then
      .ok { num_vertices := some (.num (fin n)), num_edges := some (.num (fin m)),
            prop_out := some (vec n so), prop_in := some (vec n si) }
    else .error .notGraph
  | _ :: _ => .error .notGraph

/-- Allowed options (`/repo/src/graph_ensembles/sparse/models/fitness.py:69-76`). -/
def allowed : List Key := [.num_vertices, .num_edges, .prop_out, .prop_in, .param, .selfloops]

/-- Lines 83-168. -/
def check (f : Fields) : Except Err Obj :=
  match f.num_vertices with
  | none => .error .notSet
  | some v =>
    count v >>= fun n =>
    required f.prop_out >>= fun po => required f.prop_in >>= fun pi =>
    vector n po >>= fun po => vector n pi >>= fun pi =>
    numberIfSet f.num_edges >>= fun m => paramIfSet oneParam f.param >>= fun p =>
    if m.isNone ∧ p.isNone then .error .neither
    else .ok ⟨n, po, pi, m, p, f.selfloops.getD (.bool false)⟩

/-- `FitnessModel.__init__` (`/repo/src/graph_ensembles/sparse/models/fitness.py:43-163`,
`/repo/src/graph_ensembles/models.py:1064-1184`). The assertions on both properties' format come
before those on their signs in the code; only which error is reported depends on this. -/
def init (args : List Val) (kw : List (Key × Val)) : Except Err Obj :=
  fromArgs args >>= fun f => setOptions allowed f kw >>= check

end FitnessModel

namespace RandomDiGraph

/-- The attributes of a constructed model. -/
structure Obj where
  num_vertices : ℤ
  num_edges : Option Val
  param : Option Param
  selfloops : Val
  total_weight : Option Val
  discrete_weights : Option Val

/-- Attributes set from the unnamed arguments
(`/repo/src/graph_ensembles/sparse/models/random.py:41-54`). -/
def fromArgs : List Val → Except Err Fields
  | [] => .ok {}
  | .graph _ n m w _ _ _ _ _ _ :: _ =>
    .ok { num_vertices := some (.num (fin n)), num_edges := some (.num (fin m)),
          total_weight := w.map (fun w => .num (fin w)) }
  | _ :: _ => .error .notGraph

/-- Allowed options (`/repo/src/graph_ensembles/sparse/models/random.py:57-64`). -/
def allowed : List Key :=
  [.num_vertices, .num_edges, .param, .selfloops, .total_weight, .discrete_weights]

/-- `if not hasattr(self, "discrete_weights") and hasattr(self, "total_weight")`
(`/repo/src/graph_ensembles/sparse/models/random.py:123-124`). -/
def discreteDefault (f : Fields) : Option Val :=
  match f.discrete_weights, f.total_weight with
  | none, some _ => some (.bool false)
  | d, _ => d

/-- `/repo/src/graph_ensembles/sparse/models/random.py:71-143` -/
def check (f : Fields) : Except Err Obj :=
  match f.num_vertices with
  | none => .error .notSet
  | some v =>
    count v >>= fun n =>
    numberIfSet f.num_edges >>= fun m => paramIfSet twoParam f.param >>= fun p =>
    if m.isNone ∧ p.isNone then .error .neither
    else numberIfSet f.total_weight >>= fun w =>
      .ok ⟨n, m, p, f.selfloops.getD (.bool false), w, discreteDefault f⟩

/-- `RandomDiGraph.__init__` (`/repo/src/graph_ensembles/sparse/models/random.py:37-143`,
`/repo/src/graph_ensembles/models.py:577-685`). -/
def init (args : List Val) (kw : List (Key × Val)) : Except Err Obj :=
  fromArgs args >>= fun f => setOptions allowed f kw >>= check

end RandomDiGraph

namespace MultiFitnessModel

/-- The attributes of a constructed model; the properties are represented by their stored values. -/
structure Obj where
  num_vertices : ℤ
  num_labels : ℤ
  prop_out : List XR
  prop_in : List XR
  num_edges : Option Val
  num_edges_label : Option Val
  param : Option Param
  selfloops : Val
  per_label : Option Val

/-- Attributes set from the unnamed arguments
(`/repo/src/graph_ensembles/sparse/models/fitness.py:380-397`). -/
def fromArgs : List Val → Except Err Fields
  | [] => .ok {}
  | .graph k n m _ _ _ _ L ml bl :: _ =>
    if k = .multidigraph then
      .ok { num_vertices := some (.num (fin n)), num_labels := some (.num (fin L)),
            num_edges := some (.num (fin m)),
            num_edges_label := some (.arr .int [L] (fun l => fin (ml l))),
            prop_out := some (.sparse [n, L] (bl.1.map fin)),
            prop_in := some (.sparse [n, L] (bl.2.map fin)),
            per_label := some (.bool true) }
    else .error .notGraph
  | _ :: _ => .error .notGraph

/-- Allowed options (`/repo/src/graph_ensembles/sparse/models/fitness.py:400-410`). -/
def allowed : List Key :=
  [.num_vertices, .num_edges, .num_edges_label, .num_labels, .prop_out, .prop_in, .param, .selfloops,
    .per_label]

/-- Shape and sign of the properties
(`/repo/src/graph_ensembles/sparse/models/fitness.py:456-483`); the result are the values that
`sp.csr_array` stores. -/
def table (n L : ℤ) : Val → Except Err (List XR)
  | .arr dt shape f => if shape.map Int.ofNat = [n, L] then
      (if dt = .object then .error .python
        else if (entries shape f).any (fun x => ltb x 0) then .error .negative
        else .ok ((entries shape f).filter (fun x => !isZero x)))
      else .error .format
  | .sparse shape s => if shape.map Int.ofNat = [n, L] then
      (if s.any (fun x => ltb x 0) then .error .negative else .ok s)
      else .error .format
  | _ => .error .format

/-- An array of edge counts (`/repo/src/graph_ensembles/sparse/models/fitness.py:493-514`): the
attributes `num_edges` and `num_edges_label` afterwards. -/
def edgeArray (L : ℤ) (m ml : Option Val) : Except Err (Option Val × Option Val) :=
  match m with
  | some (.arr _ [] _) => .error .python
  | some (.arr dt (k :: rest) f) =>
    if (k : ℤ) = L then
      (if ml.isNone then .ok (m, m) else .error .conflict)
    else if k = 1 then
      .ok (some (if rest = [] then (if dt = .object then .other else .num (f 0))
        else .arr dt rest f), ml)
    else .error .length
  | _ => .ok (m, ml)

/-- `len(num_edges_label)`, its dtype and sign
(`/repo/src/graph_ensembles/sparse/models/fitness.py:518-531`). -/
def labelCounts (L : ℤ) : Val → Except Err Unit
  | .arr _ [] _ => .error .python
  | .arr dt (k :: rest) f =>
    if (k : ℤ) ≠ L then .error .length
    else if dt.isNumber = false then .error .notNumeric
    else if (entries (k :: rest) f).any (fun x => ltb x 0) then .error .negative
    else .ok ()
  | .list l => if (l.length : ℤ) ≠ L then .error .length else .error .python
  | _ => .error .python

/-- The parameters (`/repo/src/graph_ensembles/sparse/models/fitness.py:551-573`): the new value of
`per_label` and the parameters. Lists become arrays; a single parameter is repeated. -/
def params (L : ℤ) : Val → Except Err (Bool × Param)
  | .arr _ [] _ => .error .python
  | .arr dt (k :: rest) f => go dt (k :: rest) f
  | .num x => go .float [1] (fun _ => x)
  | .list l => go .float [l.length] (fun i => l.getD i 0)
  | .bool _ => go .bool [1] (fun _ => 0)
  | _ => go .object [1] (fun _ => 0)
where
  go (dt : Dt) (shape : List ℕ) (f : ℕ → XR) : Except Err (Bool × Param) :=
    match shape with
    | [] => .error .python
    | k :: rest =>
      if k = 1 then paramArray dt (L.toNat :: rest) (fun i => f (i % rest.prod)) >>= fun p =>
        .ok (false, p)
      else if (k : ℤ) ≠ L then .error .length
      else paramArray dt (k :: rest) f >>= fun p => .ok (true, p)

/-- `if hasattr(self, "num_edges_label") ... elif hasattr(self, "num_edges") ...`
(`/repo/src/graph_ensembles/sparse/models/fitness.py:516-547`): the attribute `num_edges` and
`per_label`, if set here. -/
def edges (L : ℤ) (m ml : Option Val) : Except Err (Option Val × Option Bool) :=
  match ml, m with
  | some l, _ => labelCounts L l >>= fun _ => .ok (m, some true)
  | none, some v => number v >>= fun v => .ok (some v, some false)
  | none, none => .ok (none, none)

/-- `params` of the attribute if it is set. -/
def paramsIfSet (L : ℤ) : Option Val → Except Err (Option (Bool × Param))
  | none => .ok none
  | some v => params L v >>= fun p => .ok (some p)

/-- `/repo/src/graph_ensembles/sparse/models/fitness.py:417-576`; `kw` is read again at the end for
the option `per_label`. -/
def check (kw : List (Key × Val)) (f : Fields) : Except Err Obj :=
  match f.num_vertices with
  | none => .error .notSet
  | some v =>
    count v >>= fun n =>
    match f.num_labels with
    | none => .error .notSet
    | some l =>
      count l >>= fun L =>
      required f.prop_out >>= fun po => required f.prop_in >>= fun pi =>
      table n L po >>= fun po => table n L pi >>= fun pi =>
      edgeArray L f.num_edges f.num_edges_label >>= fun a =>
      edges L a.1 a.2 >>= fun e =>
      paramsIfSet L f.param >>= fun p =>
      if e.1.isNone ∧ a.2.isNone ∧ p.isNone then .error .neither
      else
        let pl := match p with
          | some q => some (.bool q.1)
          | none => match e.2 with
            | some b => some (.bool b)
            | none => f.per_label
        let pl := if kw.any (fun k => k.1 = .per_label) then f.per_label else pl
        .ok ⟨n, L, po, pi, e.1, a.2, p.map Prod.snd, f.selfloops.getD (.bool false), pl⟩

/-- `MultiFitnessModel.__init__` (`/repo/src/graph_ensembles/sparse/models/fitness.py:370-576`,
`/repo/src/graph_ensembles/models.py:1902-2102`; the two differ only in how the properties are
stored). -/
def init (args : List Val) (kw : List (Key × Val)) : Except Err Obj :=
  fromArgs args >>= fun f => setOptions allowed f kw >>= check kw

end MultiFitnessModel

namespace Conditional

/-- The attributes of a constructed model: those of `FitnessModel` and the coarse matrix and
groups. -/
structure Obj where
  base : FitnessModel.Obj
  num_groups : ℕ
  groups : List XR

/-- Attributes set from the unnamed arguments
(`/repo/src/graph_ensembles/sparse/models/conditional.py:63-90`). The adjacency matrix of a graph
has as many rows as vertices. -/
def fromArgs : List Val → Except Err Fields
  | [] => .ok {}
  | .graph k n m _ so si g _ _ _ :: rest =>
    if k = .digraph ∨ k = .multidigraph then
      let f : Fields :=
          { num_vertices := some (.num (fin n)), num_edges := some (.num (fin m)),
            prop_out := some (vec n so), prop_in := some (vec n si),
            groups := g.map (fun g => .arr .int [n] (fun i => fin (g i))) }
      match rest with
      | [] => .ok f
      | .graph k M _ _ _ _ _ _ _ _ :: _ =>
        if k = .digraph ∨ k = .multidigraph then .ok { f with adj := some (.sparse [M, M] []) }
        else .error .notGraph
      | .arr dt shape a :: _ => .ok { f with adj := some (.arr dt shape a) }
      | .sparse shape s :: _ => .ok { f with adj := some (.sparse shape s) }
      | _ => .error .notGraph
    else .error .notGraph
  | _ :: _ => .error .notGraph

/-- Allowed options (`/repo/src/graph_ensembles/sparse/models/conditional.py:93-102`). -/
def allowed : List Key :=
  [.num_vertices, .num_edges, .prop_out, .prop_in, .groups, .adj, .param, .selfloops]

/-- Shape of `adj` after `sp.csr_array(adj)` if it is not sparse
(`/repo/src/graph_ensembles/sparse/models/conditional.py:198-206`). -/
def groupCount : Val → Except Err ℕ
  | .sparse shape _ => go shape
  | .arr dt shape _ => if dt = .object then .error .python else go shape
  | _ => .error .python
where
  go : List ℕ → Except Err ℕ
    | [a, b] => if b = a then .ok a else .error .format
    | _ => .error .python

/-- The largest entry is `M - 1` (`np.max(self.groups) + 1 == self.num_groups`). -/
def maxIs (l : List XR) (M : ℕ) : Prop :=
  fin ((M : ℝ) - 1) ∈ l ∧ ∀ x ∈ l, leb x (fin ((M : ℝ) - 1)) = true

open Classical in
/-- The assertions on the groups
(`/repo/src/graph_ensembles/sparse/models/conditional.py:207-213`): `isinstance(groups[0], (int,
np.integer))`, and the largest one is one less than the number of groups. The numbers in a list that
are integers are taken to be of type `int`. -/
def groupArray (M : ℕ) : Val → Except Err (List XR)
  | .arr dt shape f =>
    match shape with
    | [k] => if dt ≠ .int ∨ k = 0 then .error .format
      else if maxIs (entries shape f) M then .ok (entries shape f) else .error .format
    | _ => .error .python
  | .list l =>
    match l with
    | [] => .error .python
    | x :: _ => if ∃ z : ℤ, x = fin z then
        (if maxIs l M then .ok l else .error .format) else .error .format
  | _ => .error .python

/-- `/repo/src/graph_ensembles/sparse/models/conditional.py:108-213` -/
def check (f : Fields) : Except Err Obj :=
  FitnessModel.check f >>= fun b =>
  match f.adj, f.groups with
  | some a, some g => groupCount a >>= fun M => groupArray M g >>= fun g => .ok ⟨b, M, g⟩
  | _, _ => .error .notSet

/-- `ConditionalInvariantModel.__init__`
(`/repo/src/graph_ensembles/sparse/models/conditional.py:48-213`). -/
def init (args : List Val) (kw : List (Key × Val)) : Except Err Obj :=
  fromArgs args >>= fun f => setOptions allowed f kw >>= check

end Conditional

end

end Verif.Validate
