import Verif.Ensemble.Models

/-!
# The methods `log_likelihood` and `sample` of `DiGraphEnsemble`

Argument handling around the loops `_likelihood`, `_binary_sample` and `_cremb_sample`.
-/

namespace Verif

noncomputable section

open XR

namespace Method

/-- The two backends. -/
inductive Backend where
  | sparse | dense
  deriving DecidableEq

/-- A matrix as scipy stores it: for each row the stored `(column, value)` entries.  Entries may
be stored with value 0 and columns may be repeated (the value is then the sum). -/
structure Stored where
  shape : ℕ × ℕ
  row : ℕ → List (ℕ × ℝ)

/-- The value of entry `(i, j)`. -/
def Stored.val (m : Stored) (i j : ℕ) : ℝ :=
  (((m.row i).filter (fun e => e.1 == j)).map Prod.snd).sum

/-- What can be passed as `g`. -/
inductive Arg where
  /-- a graph object, with its number of vertices and its links
  (`g.adjacency_matrix(directed=True, weighted=False)`) -/
  | graph (n : ℕ) (G : Finset (ℕ × ℕ))
  | sparse (m : Stored)
  | ndarray (shape : ℕ × ℕ) (a : ℕ → ℕ → ℝ)
  | other

/-- Exceptions of `log_likelihood`. -/
inductive LikeErr where
  | notFitted
  | badInput
  | badShape
  deriving DecidableEq

/-- The shape of `adj` and the link test used on it
(`/repo/src/graph_ensembles/sparse/models/ensembles.py:293-301` and
`/repo/src/graph_ensembles/models.py:298-306`).

Sparse: `g.asformat("csr")` keeps stored zeros, and a link is a *stored* column;
`sp.csr_array(g)` of a numpy array stores exactly the non-zero entries.
Dense: `g.todense() != 0`, resp. `g != 0`. -/
def adjOf (B : Backend) : Arg → Except LikeErr ((ℕ × ℕ) × (ℕ → ℕ → Bool))
  | .graph n G => .ok ((n, n), fun i j => decide ((i, j) ∈ G))
  | .sparse m =>
    match B with
    | .sparse => .ok (m.shape, fun i j => ((m.row i).map Prod.fst).contains j)
    | .dense => .ok (m.shape, fun i j => decide (m.val i j ≠ 0))
  | .ndarray shape a => .ok (shape, fun i j => decide (a i j ≠ 0))
  | .other => .error .badInput

/-- `log_likelihood` (`/repo/src/graph_ensembles/sparse/models/ensembles.py:283-326`,
`/repo/src/graph_ensembles/models.py:289-331`).  `fitted` is `self.param` if set; the argument
`selfloops` is read into a local variable that is not used afterwards: `self.selfloops` is passed
to the loop. -/
def log_likelihood (B : Backend) (E : Ens) (n : ℕ) (fitted : Option E.δ) (self_selfloops : Bool)
    (g : Arg) (selfloops : Option Bool) : Except LikeErr XR :=
  match fitted with
  | none => .error .notFitted
  | some θ =>
    let _selfloops := selfloops.getD self_selfloops
    match adjOf B g with
    | .error e => .error e
    | .ok (shape, link) =>
      if shape ≠ (n, n) then .error .badShape
      else .ok (({ E with param := θ } : Ens).likelihood n link self_selfloops)

/-- Exceptions of `sample`. -/
inductive SampleErr where
  | notFitted
  | badWeights
  | strengthsDiffer
  deriving DecidableEq

/-- The `weights` argument. -/
inductive Weights where
  | none
  | cremb (out_strength in_strength : ℕ → ℝ)
  | other

/-- `sample` up to the adjacency matrix built from the returned triples
(`/repo/src/graph_ensembles/sparse/models/ensembles.py:328-403`,
`/repo/src/graph_ensembles/models.py:333-407`); binary links have value 1.  As in
`log_likelihood`, the argument `selfloops` is not used.  `u`, `e` are the random draws. -/
def sample (E : Ens) (n : ℕ) (fitted : Option E.δ) (self_selfloops : Bool) (w : Weights)
    (selfloops : Option Bool) (u e : ℕ → ℕ → ℝ) : Except SampleErr (List ((ℕ × ℕ) × XR)) :=
  match fitted with
  | none => .error .notFitted
  | some θ =>
    let _selfloops := selfloops.getD self_selfloops
    let E' : Ens := { E with param := θ }
    match w with
    | .none => .ok ((E'.binary_sample n self_selfloops u).map (fun e => (e, 1)))
    | .cremb so si =>
      match E'.cremb_sample n so si self_selfloops u e with
      | .ok r => .ok r
      | .error _ => .error .strengthsDiffer
    | .other => .error .badWeights

end Method

end

end Verif
