import Verif.Random.Model
import Verif.Sampled.Model

/-!
# The graph objects returned by `RandomDiGraph.sample`

The rest of the method `sample` of the random ensembles: attributes of the new graph, reference
graph, adjacency matrix (`/repo/src/graph_ensembles/sparse/models/random.py:329-401`,
`/repo/src/graph_ensembles/models.py:871-943`, `/repo/src/graph_ensembles/spark/models.py:1232-1304`).
The unweighted sampler reads a stream of uniform numbers.
-/

namespace Verif

noncomputable section

open XR

namespace Rand

open Graph (coo assign get_num_bytes validDtype)
open Sampled (Ref ids boolRows floatRows)

/-- `_binary_sample` (`sparse/models/random.py:403-417`, `models.py:945-959`,
`spark/models.py:1306-1320`): the
`k`-th call of `rng.random()` returns `u k`.  The state is the number of calls made so far and the
list of appended pairs. -/
def binary_sample_stream (p : XR) (num_v : ℕ) (selfloops : Bool) (u : ℕ → ℝ) :
    ℕ × List (ℕ × ℕ) :=
  (List.range num_v).foldl (fun s i =>
    (List.range num_v).foldl (fun s j =>
      if admissible i j selfloops then
        (s.1 + 1, if ltb (fin (u s.1)) p then s.2 ++ [(i, j)] else s.2)
      else s) s) (0, [])

/-- Exceptions of `sample`. -/
inductive SampleErr where
  /-- `TypeError`: no unsigned integer type of that size -/
  | dtype
  /-- any other -/
  | other (e : Err)
  deriving DecidableEq

/-- The adjacency matrix of the new graph, from the `weights` branch on
(`sparse/models/random.py:366-399`).  The
sparse and Spark versions build a CSR matrix from coordinates, the dense one assigns into an array
of zeros. -/
def adjacency (b : Graph.Backend) (o : Obj) (p q : XR) (weights : Weights) (u : ℕ → ℝ)
    (v w : ℕ → ℕ → ℝ) : Except SampleErr Sampled.Adj :=
  let weighted := fun l : List ((ℕ × ℕ) × ℝ) =>
    let rows := floatRows (l.map (fun e => (e.1, fin e.2)))
    match b with
    | .sparse => Sampled.Adj.float (coo rows)
    | .dense => Sampled.Adj.float (assign rows)
  match weights with
  | .none =>
    let rows := boolRows (binary_sample_stream p o.num_vertices o.selfloops u).2
    match b with
    | .sparse => .ok (.bool (coo rows))
    | .dense => .ok (.bool (assign rows))
  | .random =>
    match o.discrete_weights with
    | none => .error (.other .attribute)
    | some d =>
      ((weighted_call p.toReal q d o.num_vertices o.selfloops v w >>= unpack3).mapError .other).map
        weighted
  | .cremb so si =>
    match so, si with
    | some so, some si =>
      ((cremb_sample p.toReal o.num_vertices so si o.selfloops v w >>= unpack3).mapError .other).map
        weighted
    | _, _ => .error (.other .typing)
  | .other => .error (.other .badWeights)

/-- `sample` (`sparse/models/random.py:329-401`, `models.py:871-943`, `spark/models.py:1232-1304`).
 The argument
`selfloops` is not used after its default is set. -/
def sampleGraph {ι γ κ : Type} (b : Graph.Backend) (o : Obj) (ref : Option (Ref ι γ κ))
    (weights : Weights) (selfloops : Option Bool) (u : ℕ → ℝ) (v w : ℕ → ℕ → ℝ) :
    Except SampleErr (Sampled.Obj ι γ Sampled.Adj) :=
  match o.param with
  | none => .error (.other .notFitted)
  | some (p, q) =>
    let _selfloops := selfloops.getD o.selfloops
    open Classical in
    if validDtype (get_num_bytes o.num_vertices) then
      (adjacency b o p q weights u v w).map (fun A =>
        ⟨o.num_vertices, get_num_bytes o.num_vertices, ids o.num_vertices ref,
          ref.bind Ref.group, A⟩)
    else .error .dtype

end Rand

end

end Verif
