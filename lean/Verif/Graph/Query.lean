import Verif.Graph.Model
import Mathlib.Analysis.SpecialFunctions.Log.Base

/-!
# Nearest-neighbour queries and identifier width

Model of `average_nn_property`, `average_nn_degree` and `get_num_bytes` of the graph objects.
-/

namespace Verif

open Finset

noncomputable section

namespace Graph

/-! ### Width of identifiers -/

/-- `Graph.get_num_bytes` (`graphs.py:347-350`, `sparse/graphs.py:365-368`).  For `num_items = 0`
the inner logarithm is zero, the outer one minus infinity and the power of two zero.  Rounding of
the logarithms is not modelled. -/
def get_num_bytes (num_items : ℕ) : ℤ :=
  let p : ℝ := if num_items = 0 then 0
    else (2 : ℝ) ^ ⌈Real.logb 2 (Real.logb 2 ((num_items : ℝ) + 1) / 8)⌉
  ⌊max p 1⌋

/-- `np.dtype("u" + str(num_bytes))` exists (`graphs.py:113`). -/
def validDtype (num_bytes : ℤ) : Prop :=
  num_bytes = 1 ∨ num_bytes = 2 ∨ num_bytes = 4 ∨ num_bytes = 8

/-! ### Nearest-neighbour averages -/

/-- Values of the direction arguments: the three documented ones, the string `"out_in"`, and any
other string. -/
inductive Dir where
  | out | inn | both | underscored | other
  deriving DecidableEq

/-- Exceptions of the queries: `ValueError` for an unknown direction, `AttributeError` for
`selfloops=None` (graphs have no attribute `selfloops`), `AssertionError` of the mask test. -/
inductive QErr where
  | value | attribute | assertion
  deriving DecidableEq

/-- Backend. -/
inductive Backend where
  | dense | sparse
  deriving DecidableEq

/-- Directed boolean matrix with rows = sources. -/
structure DiG where
  n : ℕ
  adj : Mat Bool

/-- `out_degree`, `in_degree`, `degree` (`graphs.py:532-548`, `243-249`).  The matrix of a graph
never changes after construction, so the cached arrays equal freshly computed ones. -/
def DiG.deg (g : DiG) : Dir → Except QErr (ℕ → ℝ)
  | .out => .ok (rowSums g.n g.adj)
  | .inn => .ok (colSums g.n g.adj)
  | .both => .ok (colSums g.n (orT g.adj))
  | _ => .error .value

/-- The matrix whose rows are the neighbourhoods, with its memory layout in the dense case:
`adj.T` is a transposed view, contiguous only if there is at most one vertex (`graphs.py:620-630`,
`sparse/graphs.py:690-700`). -/
def DiG.nbr (g : DiG) : Dir → Except QErr Dense.NArr
  | .out => .ok ⟨g.adj, true⟩
  | .inn => .ok ⟨fun i j => g.adj j i, decide (g.n ≤ 1)⟩
  | .both => .ok ⟨orT g.adj, true⟩
  | _ => .error .value

/-- `av_nn_prop` in the two backends. -/
def nnSum (b : Backend) (n : ℕ) (a : Dense.NArr) (prop : ℕ → ℝ) (selfloops : Bool) (i : ℕ) : ℝ :=
  match b with
  | .dense => Dense.av_nn_prop n a prop selfloops i
  | .sparse => Sparse.av_nn_prop (Sparse.csrRow n a.val i) prop selfloops i

open Classical in
/-- The test of the mask and the division (`graphs.py:300-305`, `635-641`,
`sparse/graphs.py:317-323`, `708-714`). -/
def average (n : ℕ) (s deg : ℕ → ℝ) : Except QErr (ℕ → ℝ) :=
  if ∀ i < n, deg i = 0 → s i = 0 then
    .ok (fun i => if deg i ≠ 0 then s i / deg i else s i)
  else .error .assertion

/-- `DiGraph.average_nn_property` (`graphs.py:600-643`, `sparse/graphs.py:670-716`); the method of
`Graph` (`graphs.py:275-307`, `sparse/graphs.py:291-325`) is the case `ndir = "out-in"`. -/
def average_nn_property (b : Backend) (g : DiG) (prop : ℕ → ℝ) (ndir : Dir)
    (selfloops : Option Bool) : Except QErr (ℕ → ℝ) :=
  match selfloops with
  | none => .error .attribute
  | some sl =>
    match g.deg ndir, g.nbr ndir with
    | .ok deg, .ok a => average g.n (nnSum b g.n a prop sl) deg
    | .error e, _ => .error e
    | _, .error e => .error e

/-- Name of the cached attribute: hyphens are replaced by underscores (`graphs.py:660`,
`sparse/graphs.py:732`). -/
def Dir.key : Dir → Dir
  | .underscored => .both
  | d => d

/-- Arguments of `average_nn_degree`. -/
structure Args where
  ndir : Dir
  ddir : Dir
  selfloops : Option Bool
  recompute : Bool
  deriving DecidableEq

/-- What `average_nn_degree` computes when nothing is cached. -/
def compute (b : Backend) (g : DiG) (a : Args) : Except QErr (ℕ → ℝ) :=
  match a.selfloops with
  | none => .error .attribute
  | some _ =>
    match g.deg a.ddir with
    | .error e => .error e
    | .ok deg => average_nn_property b g deg a.ndir a.selfloops

/-- The cached attributes of a graph. -/
abbrev Cache := Dir × Dir → Option (ℕ → ℝ)

/-- `DiGraph.average_nn_degree` (`graphs.py:645-680`, `sparse/graphs.py:718-753`); that of `Graph`
(`graphs.py:309-325`, `sparse/graphs.py:327-343`) is the case of both directions `"out-in"`. -/
def average_nn_degree (b : Backend) (g : DiG) (c : Cache) (a : Args) :
    Cache × Except QErr (ℕ → ℝ) :=
  match c (a.ndir.key, a.ddir.key), a.recompute with
  | some r, false => (c, .ok r)
  | _, _ =>
    match compute b g a with
    | .error e => (c, .error e)
    | .ok r => (fun k => if k = (a.ndir.key, a.ddir.key) then some r else c k, .ok r)

/-- The cache after a list of queries on a new object. -/
def history (b : Backend) (g : DiG) (l : List Args) : Cache :=
  l.foldl (fun c a => (average_nn_degree b g c a).1) (fun _ => none)

end Graph

end

end Verif
