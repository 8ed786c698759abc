import Verif.Layer.Model
import Verif.Ensemble.Method

/-!
# The method `log_likelihood` of `MultiDiGraphEnsemble`

Argument handling around `_likelihood_layer`, `_likelihood_tensor` and `_likelihood`, in the sparse
and dense backends.
-/

namespace Verif

noncomputable section

open XR

namespace Layer

namespace Method

open Verif.Method (Stored)

/-- A matrix in a list passed as `g`. -/
inductive Mat2 where
  | sparse (m : Stored)
  | ndarray (shape : ℕ × ℕ) (a : ℕ → ℕ → ℝ)

/-- What can be passed as `g`. -/
inductive Arg where
  /-- a multigraph with its number of vertices and the links of every label
  (`g.adjacency_tensor(directed=True, weighted=False)`) -/
  | multigraph (n : ℕ) (layers : List (Finset (ℕ × ℕ)))
  /-- a graph (`g.adjacency_matrix(directed=True, weighted=False)`) -/
  | graph (n : ℕ) (G : Finset (ℕ × ℕ))
  | sparse (m : Stored)
  | array3 (shape : ℕ × ℕ × ℕ) (a : ℕ → ℕ → ℕ → ℝ)
  | array2 (shape : ℕ × ℕ) (a : ℕ → ℕ → ℝ)
  /-- an array with neither 2 nor 3 dimensions -/
  | arrayOther
  | list (ms : List Mat2)
  | other

/-- Exceptions: `Exception` for a model that was not fitted, the `ValueError`s of the method
(`badDim`, `badInput`, `badLayers`, `badShape`), and exceptions that are not raised on purpose. -/
inductive Err where
  | notFitted | badDim | badInput | badLayers | badShape | attributeError | indexError
  deriving DecidableEq

/-- The attributes of an ensemble that the method reads.  `p_ij`, `logp`, `log1mp` are the functions
of an unlabelled link, `α` the type of the properties of one vertex. -/
structure Obj (α : Type) where
  link : Link
  logp : (ℕ → XR) → α → α → XR
  log1mp : (ℕ → XR) → α → α → XR
  num_vertices : ℕ
  num_labels : ℕ
  prop_out : ℕ → α
  prop_in : ℕ → α
  prop_dyad : ℕ → ℕ → XR
  selfloops : Bool
  param : Option (ℕ → XR)

namespace Sparse

/-- `adj`: a list of compressed matrices (shape, and stored columns of each row), or one. -/
inductive Adj where
  | tensor (layers : List ((ℕ × ℕ) × (ℕ → List ℕ)))
  | matrix (shape : ℕ × ℕ) (nbrs : ℕ → List ℕ)

/-- Rows of `sp.csr_array(a)` for an array: the non-zero columns. -/
def denseRow (cols : ℕ) (a : ℕ → ℝ) : List ℕ := (List.range cols).filter (fun j => decide (a j ≠ 0))

/-- `sp.csr_array(x)`; stored zeros are kept. -/
def csr : Mat2 → (ℕ × ℕ) × (ℕ → List ℕ)
  | .sparse m => (m.shape, fun i => (m.row i).map Prod.fst)
  | .ndarray shape a => (shape, fun i => denseRow shape.2 (a i))

/-- Stored columns of a boolean matrix given by its links. -/
def ofLinks (n : ℕ) (G : Finset (ℕ × ℕ)) : ℕ → List ℕ :=
  fun i => (List.range n).filter (fun j => decide ((i, j) ∈ G))

/-- `/repo/src/graph_ensembles/sparse/models/ensembles.py:709-733`. -/
def adjOf : Arg → Except Err Adj
  | .multigraph n layers => .ok (.tensor (layers.map (fun G => ((n, n), ofLinks n G))))
  | .graph n G => .ok (.matrix (n, n) (ofLinks n G))
  | .sparse m => .ok (.matrix m.shape (fun i => (m.row i).map Prod.fst))
  | .array3 shape a => .ok (.tensor ((List.range shape.1).map (fun k =>
      (shape.2, fun i => denseRow shape.2.2 (a k i)))))
  | .array2 shape a => .ok (.matrix shape (fun i => denseRow shape.2 (a i)))
  | .arrayOther => .error .badDim
  | .list ms => .ok (.tensor (ms.map csr))
  | .other => .error .badInput

/-- `/repo/src/graph_ensembles/sparse/models/ensembles.py:736-763`.  The message about a layer of
wrong shape is formatted with `adj.shape`, but `adj` is a list. -/
def checkShape (n L : ℕ) : Adj → Except Err Unit
  | .tensor layers =>
    if layers.length ≠ L then .error .badLayers
    else layers.foldlM (fun _ x => if x.1 ≠ (n, n) then .error .attributeError else .ok ()) ()
  | .matrix shape _ => if shape ≠ (n, n) then .error .badShape else .ok ()

/-- `log_likelihood` (`/repo/src/graph_ensembles/sparse/models/ensembles.py:699-811`). -/
def log_likelihood (o : Obj (List (ℕ × XR))) (g : Arg) (selfloops : Option Bool) :
    Except Err XR :=
  match o.param with
  | none => .error .notFitted
  | some param =>
    let s := selfloops.getD o.selfloops
    adjOf g >>= fun adj =>
    checkShape o.num_vertices o.num_labels adj >>= fun _ =>
    match adj with
    | .tensor layers =>
      .ok (Layer.log_likelihood o.link.logp_ijk o.link.log1mp_ijk o.num_vertices o.num_labels param
        o.prop_out o.prop_in o.prop_dyad
        (fun k i => (layers[k]?.map (fun x => x.2 i)).getD []) s)
    | .matrix _ nbrs =>
      .ok (DiGraphEnsemble.likelihood (fun d x y (_ : Unit) => o.logp d x y)
        (fun d x y _ => o.log1mp d x y) param o.num_vertices o.prop_out o.prop_in (fun _ _ => ())
        (fun i j => (nbrs i).contains j) s)

end Sparse

namespace Dense

/-- `adj`: an array with three or two dimensions. -/
inductive Adj where
  | tensor (shape : ℕ × ℕ × ℕ) (a : ℕ → ℕ → ℕ → Bool)
  | matrix (shape : ℕ × ℕ) (a : ℕ → ℕ → Bool)

/-- `/repo/src/graph_ensembles/models.py:1541-1565` and the access to `adj.shape` in the message
(lines 1570-1573), which fails for a list.  `isinstance(g, list) and sp.issparse(g[0])` raises
`IndexError` for an empty list. -/
def adjOf : Arg → Except Err Adj
  | .multigraph n layers =>
    .ok (.tensor (layers.length, n, n)
      (fun k i j => (layers[k]?.map (fun G => decide ((i, j) ∈ G))).getD false))
  | .graph n G => .ok (.matrix (n, n) (fun i j => decide ((i, j) ∈ G)))
  | .sparse m => .ok (.matrix m.shape (fun i j => decide (m.val i j ≠ 0)))
  | .array3 shape a => .ok (.tensor shape (fun k i j => decide (a k i j ≠ 0)))
  | .array2 shape a => .ok (.matrix shape (fun i j => decide (a i j ≠ 0)))
  | .arrayOther => .error .badDim
  | .list [] => .error .indexError
  | .list (.sparse _ :: _) => .error .attributeError
  | .list (.ndarray _ _ :: _) => .error .badInput
  | .other => .error .badInput

/-- `/repo/src/graph_ensembles/models.py:1567-1585`. -/
def checkShape (n L : ℕ) : Adj → Except Err Unit
  | .tensor shape _ => if shape ≠ (L, n, n) then .error .badShape else .ok ()
  | .matrix shape _ => if shape ≠ (n, n) then .error .badShape else .ok ()

/-- `log_likelihood` (`/repo/src/graph_ensembles/models.py:1531-1610`). -/
def log_likelihood (o : Obj (List XR)) (g : Arg) (selfloops : Option Bool) : Except Err XR :=
  match o.param with
  | none => .error .notFitted
  | some param =>
    let s := selfloops.getD o.selfloops
    adjOf g >>= fun adj =>
    checkShape o.num_vertices o.num_labels adj >>= fun _ =>
    match adj with
    | .tensor _ a =>
      .ok (Layer.Dense.likelihood_tensor o.link.logp_ijk o.link.log1mp_ijk o.num_vertices
        o.num_labels param (fun i k => (o.prop_out i).getD k 0) (fun i k => (o.prop_in i).getD k 0)
        o.prop_dyad a s)
    | .matrix _ a =>
      .ok (DiGraphEnsemble.likelihood (fun d x y (_ : Unit) => o.logp d x y)
        (fun d x y _ => o.log1mp d x y) param o.num_vertices o.prop_out o.prop_in (fun _ _ => ())
        a s)

end Dense

end Method

end Layer

end

end Verif
