import Verif.Solver.Model
import Verif.Ensemble.Models

/-!
# The density fit

Model of `exp_edges_f_jac`, `exp_edges_f_jac_layer` and of the `fit` methods.  `np.infty` is
read as `np.inf`.
-/

namespace Verif

open XR Spec
open scoped ENNReal NNReal

noncomputable section

namespace Fit

/-- Objective and derivative accumulated over all admissible pairs; `pj d i j` is
`p_jac_ij(param, prop_out[i], prop_in[j], pdyad(i, j))`.
`/repo/src/graph_ensembles/sparse/models/fitness.py:253-268` (single layer) and `728-743` (all
layers), `/repo/src/graph_ensembles/models.py:1269-1284` and `2239-2254`.  The spark version
(`spark/models.py:1696-1727`, `3564-3624`) does the same block by block. -/
def exp_edges_f_jac (pj : XR → ℕ → ℕ → XR × XR) (n : ℕ) (selfloops : Bool) (param : XR) :
    XR × XR :=
  (List.range n).foldl (fun s i =>
    (List.range n).foldl (fun s j =>
      if admissible i j selfloops then (s.1 + (pj param i j).1, s.2 + (pj param i j).2)
      else s) s) (0, 0)

/-- The same for one layer given as lists of (vertex, value):
`/repo/src/graph_ensembles/sparse/models/fitness.py:745-760`, `spark/models.py:3637-3654`.
The dense version (`models.py:2256-2271`) enumerates a column, i.e. the list of all vertices
with their values. -/
def exp_edges_f_jac_layer (pj : XR → XR → XR → XR × XR) (prop_out prop_in : List (ℕ × XR))
    (selfloops : Bool) (param : XR) : XR × XR :=
  prop_out.foldl (fun s a =>
    prop_in.foldl (fun s b =>
      if admissible a.1 b.1 selfloops then
        (s.1 + (pj param a.2 b.2).1, s.2 + (pj param a.2 b.2).2)
      else s) s) (0, 0)

/-- The string argument `method`. -/
inductive Method where
  | density | mle | other
  deriving DecidableEq

/-- Exceptions leaving `fit`. -/
inductive Err where
  | valueError
  | solver (e : Solver.Err)
  deriving DecidableEq

/-- Tolerances and iteration limit. -/
structure Opts where
  atol : ℝ
  rtol : ℝ
  maxiter : ℕ

/-- The call of the solver made by all `fit` methods: interval `[0, inf]`. -/
def cfg (func : XR → XR × XR) (target : ℝ) (o : Opts) : Solver.Cfg :=
  { func := func, target := target, atol := o.atol, rtol := o.rtol, max_iter := o.maxiter,
    x_l := fin 0, x_u := pinf }

/-- Argument `x0`: absent, a number, or an array.  `isInt` tells whether numpy stores it with an
integer type, `numeric` whether its type is numeric at all. -/
inductive X0 where
  | none
  | scalar (v : XR) (isInt : Bool)
  | array (vals : List XR) (isInt numeric : Bool)

/-- An array with its storage type. -/
structure Arr where
  vals : List XR
  isInt : Bool
  numeric : Bool

/-- Any element `< 0`. -/
def anyNeg (l : List XR) : Bool := l.any (fun v => ltb v 0)

/-- `x0` of the single-layer models as an array
(`/repo/src/graph_ensembles/sparse/models/fitness.py:193-198`). -/
def X0.single : X0 → Arr
  | .none => ⟨[0], false, true⟩
  | .scalar v b => ⟨[v], b, true⟩
  | .array l b num => ⟨l, b, num⟩

/-- `FitnessModel.fit` (`/repo/src/graph_ensembles/sparse/models/fitness.py:165-236`,
`models.py:1186-1257`, `spark/models.py:1623-1694`); `func` is `density_fit_fun`, `num_edges` the
attribute if set.  The result is the solution object; `self.param` is its `x`. -/
def fitSingle (func : XR → XR × XR) (num_edges : Option ℝ) (x0 : X0) (method : Method)
    (o : Opts) : Except Err Solver.Solution :=
  let x := x0.single
  match x.vals with
  | [v] =>
    if !x.numeric then .error .valueError
    else if anyNeg [v] then .error .valueError
    else match method with
      | .density =>
        match num_edges with
        | .none => .error .valueError
        | .some e => (Solver.solve (cfg func e o) v).mapError .solver
      | .mle => .error .valueError
      | .other => .error .valueError
  | _ => .error .valueError

/-- `x0` of the multi-layer models as an array
(`/repo/src/graph_ensembles/sparse/models/fitness.py:606-613`). -/
def X0.multi (num_labels : ℕ) : X0 → Arr
  | .none => ⟨List.replicate num_labels 0, false, true⟩
  | .scalar v b => ⟨List.replicate num_labels v, b, true⟩
  | .array l b num => ⟨l, b, num⟩

/-- Storing a float into an array: an integer array keeps the integer part. -/
def store (isInt : Bool) (v : XR) : XR :=
  if isInt then
    match v with
    | fin r => fin (if 0 ≤ r then ⌊r⌋ else ⌈r⌉)
    | w => w
  else v

/-- What `fit` of a multi-layer model uses. -/
structure MultiModel where
  num_labels : ℕ
  per_label : Bool
  num_edges : Option ℝ
  num_edges_label : Option (ℕ → ℝ)
  /-- `density_fit_fun` -/
  func : XR → XR × XR
  /-- `density_fit_layer` with the properties of label `k` -/
  layer : ℕ → XR → XR × XR

/-- Parameters and solver outputs set by `fit`. -/
structure MultiFit where
  param : List XR
  outputs : List Solver.Solution

/-- Body of the loop over the labels (`/repo/src/graph_ensembles/sparse/models/fitness.py:652-680`,
`models.py:2163-2189`; in spark, `spark/models.py:3496-3531`, the labels are solved in
parallel and collected). -/
def fitLabel (m : MultiModel) (e : ℕ → ℝ) (x : Arr) (o : Opts) (s : MultiFit) (i : ℕ) :
    Except Err MultiFit :=
  match (Solver.solve (cfg (m.layer i) (e i) o) (x.vals.getD i 0)).mapError .solver with
  | .error err => .error err
  | .ok sol => .ok ⟨s.param.set i (store x.isInt sol.x), s.outputs ++ [sol]⟩

/-- Loop over the labels. -/
def fitLabels (m : MultiModel) (e : ℕ → ℝ) (x : Arr) (o : Opts) : Except Err MultiFit :=
  (List.range m.num_labels).foldlM (fitLabel m e x o) ⟨x.vals, []⟩

/-- `MultiFitnessModel.fit` (`/repo/src/graph_ensembles/sparse/models/fitness.py:578-706`,
`models.py:2104-2217`, `spark/models.py:3434-3564`). -/
def fitMulti (m : MultiModel) (x0 : X0) (method : Method) (o : Opts) : Except Err MultiFit :=
  let x := x0.multi m.num_labels
  if x.vals.length ≠ m.num_labels then .error .valueError
  else if !x.numeric then .error .valueError
  else if anyNeg x.vals then .error .valueError
  else match method with
    | .density =>
      if m.per_label then
        match m.num_edges_label with
        | .none => .error .valueError
        | .some e => fitLabels m e x o
      else
        match m.num_edges with
        | .none => .error .valueError
        | .some e =>
          match (Solver.solve (cfg m.func e o) (x.vals.getD 0 0)).mapError .solver with
          | .error err => .error err
          | .ok sol => .ok ⟨List.replicate m.num_labels sol.x, [sol]⟩
    | .mle => .error .valueError
    | .other => .error .valueError

/-! ### The models that are fitted -/

/-- A model with one free parameter: the ensemble it defines for each value of the parameter and
the pair function handed to the solver. -/
structure Fitter : Type 1 where
  ens : ℝ≥0∞ → Ens
  pj : XR → ℕ → ℕ → XR × XR
  /-- the two vertices have non-zero properties (for the multi-layer models: in a common
  layer); used in statements only -/
  linkable : ℕ → ℕ → Prop

/-- Finite non-negative array. -/
def arrN (x : ℕ → ℝ≥0) (i : ℕ) : XR := fin (x i)

/-- Finite non-negative row of a sparse property array. -/
def rowN (r : List (ℕ × ℝ≥0)) : List (ℕ × XR) := r.map (fun e => (e.1, fin e.2))

/-- Finite non-negative row of a dense property array. -/
def denseN (L : ℕ) (x : ℕ → ℝ≥0) : List XR := (List.range L).map (fun k => fin (x k))

def toENN (x : ℕ → ℝ≥0) : ℕ → ℝ≥0∞ := fun i => x i
def rowENN (r : List (ℕ × ℝ≥0)) : List (ℕ × ℝ≥0∞) := r.map (fun e => (e.1, (e.2 : ℝ≥0∞)))

/-- Sparse `FitnessModel`. -/
def sparseFit (x y : ℕ → ℝ≥0) (z : ℕ → ℕ → ℝ≥0) : Fitter :=
  ⟨fun d => Ens.sparseFit d (toENN x) (toENN y) (fun i => toENN (z i)),
   fun d i j => Sparse.FitnessModel.p_jac_ij d (arrN x i) (arrN y j) (arrN (z i) j),
   fun i j => x i ≠ 0 ∧ y j ≠ 0 ∧ z i j ≠ 0⟩

/-- Sparse `ScaleInvariantModel`. -/
def sparseInv (x y : ℕ → ℝ≥0) (z : ℕ → ℕ → ℝ≥0) : Fitter :=
  ⟨fun d => Ens.sparseInv d (toENN x) (toENN y) (fun i => toENN (z i)),
   fun d i j => Sparse.ScaleInvariantModel.p_jac_ij d (arrN x i) (arrN y j) (arrN (z i) j),
   fun i j => x i ≠ 0 ∧ y j ≠ 0 ∧ z i j ≠ 0⟩

/-- Dense and spark `FitnessModel`. -/
def denseFit (x y : ℕ → ℝ≥0) (w : ℕ → ℕ → XR) : Fitter :=
  ⟨fun d => Ens.denseFit d (toENN x) (toENN y) w,
   fun d i j => Dense.FitnessModel.p_jac_ij d (arrN x i) (arrN y j),
   fun i j => x i ≠ 0 ∧ y j ≠ 0⟩

/-- Dense `ScaleInvariantModel`. -/
def denseInv (x y : ℕ → ℝ≥0) (w : ℕ → ℕ → XR) : Fitter :=
  ⟨fun d => Ens.denseInv d (toENN x) (toENN y) w,
   fun d i j => Dense.ScaleInvariantModel.p_jac_ij d (arrN x i) (arrN y j),
   fun i j => x i ≠ 0 ∧ y j ≠ 0⟩

/-- Spark `ScaleInvariantModel`. -/
def sparkInv (x y : ℕ → ℝ≥0) (w : ℕ → ℕ → XR) : Fitter :=
  ⟨fun d => Ens.sparkInv d (toENN x) (toENN y) w,
   fun d i j => Dense.ScaleInvariantModel.p_jac_ij d (arrN x i) (arrN y j),
   fun i j => x i ≠ 0 ∧ y j ≠ 0⟩

/-- Sparse (and spark) `MultiFitnessModel` with one shared parameter. -/
def sparseMultiFit (x y : ℕ → List (ℕ × ℝ≥0)) : Fitter :=
  ⟨fun d => Ens.sparseMultiFit (fun _ => d) (fun i => rowENN (x i)) (fun j => rowENN (y j)),
   fun d i j => Sparse.MultiFitnessModel.p_jac_ij d (rowN (x i)) (rowN (y j)),
   fun i j => ∃ k, entry (x i) k ≠ 0 ∧ entry (y j) k ≠ 0⟩

/-- Sparse (and spark) `MultiInvariantModel` with one shared parameter. -/
def sparseMultiInv (x y : ℕ → List (ℕ × ℝ≥0)) : Fitter :=
  ⟨fun d => Ens.sparseMultiInv (fun _ => d) (fun i => rowENN (x i)) (fun j => rowENN (y j)),
   fun d i j => Sparse.MultiInvariantModel.p_jac_ij d (rowN (x i)) (rowN (y j)),
   fun i j => ∃ k, entry (x i) k ≠ 0 ∧ entry (y j) k ≠ 0⟩

/-- Dense `MultiFitnessModel` with one shared parameter. -/
def denseMultiFit (L : ℕ) (x y : ℕ → ℕ → ℝ≥0) : Fitter :=
  ⟨fun d => Ens.denseMultiFit L (fun _ => d) (fun i => toENN (x i)) (fun j => toENN (y j)),
   fun d i j => Dense.MultiFitnessModel.p_jac_ij d (denseN L (x i)) (denseN L (y j)),
   fun i j => ∃ k < L, x i k ≠ 0 ∧ y j k ≠ 0⟩

/-- Dense `MultiInvariantModel` with one shared parameter. -/
def denseMultiInv (L : ℕ) (x y : ℕ → ℕ → ℝ≥0) : Fitter :=
  ⟨fun d => Ens.denseMultiInv L (fun _ => d) (fun i => toENN (x i)) (fun j => toENN (y j)),
   fun d i j => Dense.MultiInvariantModel.p_jac_ij d (denseN L (x i)) (denseN L (y j)),
   fun i j => ∃ k < L, x i k ≠ 0 ∧ y j k ≠ 0⟩

/-- The models of the library whose density is fitted with one parameter (finite
properties). -/
inductive IsFitter : Fitter → Prop
  | sparseFit (x y z) : IsFitter (sparseFit x y z)
  | sparseInv (x y z) : IsFitter (sparseInv x y z)
  | denseFit (x y w) : IsFitter (denseFit x y w)
  | denseInv (x y w) : IsFitter (denseInv x y w)
  | sparkInv (x y w) : IsFitter (sparkInv x y w)
  | sparseMultiFit (x y) (hx : ∀ i, RowSorted (x i)) (hy : ∀ i, RowSorted (y i)) :
      IsFitter (sparseMultiFit x y)
  | sparseMultiInv (x y) (hx : ∀ i, RowSorted (x i)) (hy : ∀ i, RowSorted (y i)) :
      IsFitter (sparseMultiInv x y)
  | denseMultiFit (L x y) : IsFitter (denseMultiFit L x y)
  | denseMultiInv (L x y) : IsFitter (denseMultiInv L x y)

/-- `density_fit_fun` of a model with `n` vertices (`sparse/models/fitness.py:238-251`,
`/repo/src/graph_ensembles/models.py:1259-1267`, `2219-2227`). -/
def Fitter.func (F : Fitter) (n : ℕ) (selfloops : Bool) : XR → XR × XR :=
  exp_edges_f_jac F.pj n selfloops

end Fit

end

end Verif
