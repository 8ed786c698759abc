import Verif.Validate.Model
import Verif.Spark.Model

/-! # Model of the Spark constructors

`RandomDiGraph.__init__` (`/repo/src/graph_ensembles/spark/models.py:862-1045`),
`FitnessModel.__init__` (`:1427-1621`) and `MultiFitnessModel.__init__` (`:3150-3432`); the
scale-invariant models inherit the last two.

They differ from those of the sparse models in the unnamed arguments (a `SparkContext` comes first),
in the option `p_blocks`, and in the lists of blocks created at the end. The checks between are the
same statements in the same order, so the functions `check` of `Verif.Validate.Model` stand for them
(Random `:908-982`, Fitness `:1475-1556`, Multi `:3208-3360`; the sparse table is a `csr_matrix`
instead of a `csr_array` and not turned into lists afterwards). -/

namespace Verif.Validate.Spark

open XR Verif.Spark

noncomputable section

/-- Unnamed arguments. -/
inductive Arg where
  /-- A `SparkContext`. -/
  | context
  | val (v : Val)

/-- A `SparkContext` as a value: it is none of the kinds the code distinguishes. -/
def Arg.toVal : Arg → Val
  | .context => .other
  | .val v => v

/-- Names of options. -/
inductive SKey where
  | p_blocks
  | key (k : Key)
  deriving DecidableEq

/-- Exceptions. -/
inductive SErr where
  /-- `A SparkContext must be passed as the first argument.` -/
  | noArgument
  /-- `First argument must be a SparkContext.` -/
  | notContext
  | base (e : Err)
  /-- `Number of parallel blocks must be ...` -/
  | blocks (e : Err)
  deriving DecidableEq

/-- Attributes of the object under construction. -/
structure SFields where
  base : Fields
  p_blocks : Option Val := none

/-- `setattr(self, name, value)` -/
def SFields.set (f : SFields) (v : Val) : SKey → SFields
  | .p_blocks => { f with p_blocks := some v }
  | .key k => { f with base := f.base.set v k }

/-- The unnamed arguments (`/repo/src/graph_ensembles/spark/models.py:866-889`, `1434-1457`,
`3160-3186`); `graph` reads those after the context. -/
def fromArgs (graph : List Val → Except Err Fields) : List Arg → Except SErr SFields
  | [] => .error .noArgument
  | .val _ :: _ => .error .notContext
  | .context :: rest =>
    match graph (rest.map Arg.toVal) with
    | .ok f => .ok { base := f }
    | .error e => .error (.base e)

/-- The loop over the keyword arguments (`/repo/src/graph_ensembles/spark/models.py:902-906`,
`1469-1473`, `3202-3206`). -/
def setOptions (allowed : List SKey) (f : SFields) (kw : List (SKey × Val)) : Except SErr SFields :=
  kw.foldlM (fun f e => if e.1 ∈ allowed then .ok (f.set e.2 e.1) else .error (.base .illegal)) f

/-- The check of `p_blocks` (`/repo/src/graph_ensembles/spark/models.py:985-996`, `1559-1570`,
`3363-3374`), the same statements as for the number of vertices; the default is 10. -/
def blockCount : Option Val → Except SErr ℤ
  | none => .ok 10
  | some v =>
    match count v with
    | .ok k => .ok k
    | .error e => .error (.blocks e)

/-- A constructed model: attributes shared with the sparse model, number of blocks, and the ranges
of the elements of `p_iter_rdd` and `p_sym_rdd`. (The slices of the properties in these elements are
those of `Verif.Spark.p_iter_rdd` and `Verif.Spark.p_sym_rdd`.) -/
structure Obj (α : Type) where
  model : α
  p_blocks : ℕ
  iter : List ((ℕ × ℕ) × (ℕ × ℕ))
  sym : List ((ℕ × ℕ) × (ℕ × ℕ))

/-- From the check of `p_blocks` to the end
(`/repo/src/graph_ensembles/spark/models.py:984-1045`, `1558-1621`, `3362-3432`). -/
def finish {α : Type} (num_vertices : ℤ) (p_blocks : Option Val) (m : α) : Except SErr (Obj α) :=
  match blockCount p_blocks with
  | .error e => .error e
  | .ok k =>
    let n := num_vertices.toNat
    let p := clampBlocks n k.toNat
    .ok ⟨m, p, iterBlocks n p, symBlocks n p⟩

/-- An exception of the checks shared with the sparse model. -/
def lift {α : Type} : Except Err α → Except SErr α
  | .ok a => .ok a
  | .error e => .error (.base e)

/-- The options other than `p_blocks`. -/
def others (kw : List (SKey × Val)) : List (Key × Val) :=
  kw.filterMap fun e => match e.1 with
    | .p_blocks => none
    | .key k => some (k, e.2)

namespace RandomDiGraph

/-- `/repo/src/graph_ensembles/spark/models.py:892-900` -/
def allowed : List SKey :=
  [.key .num_vertices, .key .num_edges, .p_blocks, .key .param, .key .selfloops,
    .key .total_weight, .key .discrete_weights]

/-- `/repo/src/graph_ensembles/spark/models.py:862-1045` -/
def init (args : List Arg) (kw : List (SKey × Val)) :
    Except SErr (Obj Validate.RandomDiGraph.Obj) :=
  fromArgs Validate.RandomDiGraph.fromArgs args >>= fun f =>
  setOptions allowed f kw >>= fun f =>
  lift (Validate.RandomDiGraph.check f.base) >>= fun o => finish o.num_vertices f.p_blocks o

end RandomDiGraph

namespace FitnessModel

/-- `/repo/src/graph_ensembles/spark/models.py:1460-1468` -/
def allowed : List SKey :=
  [.key .num_vertices, .key .num_edges, .key .prop_out, .key .prop_in, .p_blocks, .key .param,
    .key .selfloops]

/-- `/repo/src/graph_ensembles/spark/models.py:1427-1621` -/
def init (args : List Arg) (kw : List (SKey × Val)) : Except SErr (Obj Validate.FitnessModel.Obj) :=
  fromArgs Validate.FitnessModel.fromArgs args >>= fun f =>
  setOptions allowed f kw >>= fun f =>
  lift (Validate.FitnessModel.check f.base) >>= fun o => finish o.num_vertices f.p_blocks o

end FitnessModel

namespace MultiFitnessModel

/-- `/repo/src/graph_ensembles/spark/models.py:3189-3200` -/
def allowed : List SKey :=
  [.key .num_vertices, .key .num_edges, .key .num_edges_label, .key .num_labels, .key .prop_out,
    .key .prop_in, .p_blocks, .key .param, .key .selfloops, .key .per_label]

/-- `/repo/src/graph_ensembles/spark/models.py:3150-3432`; the option `per_label` is read again
(`:3359-3360`). -/
def init (args : List Arg) (kw : List (SKey × Val)) :
    Except SErr (Obj Validate.MultiFitnessModel.Obj) :=
  fromArgs Validate.MultiFitnessModel.fromArgs args >>= fun f =>
  setOptions allowed f kw >>= fun f =>
  lift (Validate.MultiFitnessModel.check (others kw) f.base) >>= fun o =>
  finish o.num_vertices f.p_blocks o

end MultiFitnessModel

end

end Verif.Validate.Spark
