import Verif.Ensemble.Query
import Verif.Graph.Query
import Verif.Random.Model
import Verif.Spark.Query

/-!
# Nearest-neighbour averages of arrays with several columns

The docstrings of `average_nn_property` and `expected_av_nn_property` ask for a property array
whose first dimension is the vertex index, so arrays of shape `(n, k)` are documented arguments.
This module models the same methods as `Verif/Ensemble/Query.lean`, `Verif/Graph/Query.lean`,
`Verif/Random/Model.lean` and `Verif/Spark/Query.lean` for such arrays, following numpy's rules of
broadcasting in the statement `av_nn[ind] = av_nn[ind] / deg[ind]`.
-/

namespace Verif

noncomputable section

open XR DiGraphEnsemble

namespace Columns

/-- An exception: one of those raised for arrays with one dimension, or numpy's `ValueError` for
shapes that cannot be broadcast together. -/
inductive Fail (ε : Type) where
  | other (e : ε)
  | broadcast
  deriving DecidableEq

/-! ## Broadcasting -/

/-- Broadcasting of one axis: equal lengths, or one of the lengths is one. -/
def axis (a b : ℕ) : Option ℕ :=
  if a = b then some a else if a = 1 then some b else if b = 1 then some a else none

/-- Position read along an axis of length `a` for position `c` of the result. -/
def at1 (a c : ℕ) : ℕ := if a = 1 then 0 else c

/-- `av_nn[ind] = av_nn[ind] / deg[ind]` for `av_nn` of shape `(n, k)` and `deg` of shape `(n,)`
(`/repo/src/graph_ensembles/sparse/models/ensembles.py:209-214`,
`/repo/src/graph_ensembles/models.py:215-220`, `/repo/src/graph_ensembles/graphs.py:300-305`,
`636-641`, `/repo/src/graph_ensembles/sparse/graphs.py:318-323`, `709-714`,
`/repo/src/graph_ensembles/spark/models.py:244-249`, `1170-1175`).  With `m` selected vertices the
quotient of arrays of shapes `(m, k)` and `(m,)` is formed with the *last* axes aligned; the
result of shape `(m, w)` is assigned to a selection of shape `(m, k)`.  `none`: `ValueError`.
`z` (arbitrary) tells whether numpy accepts the assignment of an empty array of shape `(0, 0)` to
an empty selection of shape `(0, 1)`. -/
def average {α : Type} (z : Bool) (div : α → α → α) (n k : ℕ) (ind : ℕ → Bool) (av : ℕ → ℕ → α)
    (deg : ℕ → α) : Option (ℕ → ℕ → α) :=
  let sel := (List.range n).filter ind
  match axis k sel.length with
  | none => none
  | some w =>
    if w = k ∨ w = 1 ∨ (sel.length = 0 ∧ z = true) then
      some (fun i c =>
        if ind i then div (av i (at1 k (at1 w c))) (deg (sel.getD (at1 sel.length (at1 w c)) 0))
        else av i c)
    else none

/-! ## Fitted ensembles, one process -/

/-- `a[i] += v` for a row of an array with two dimensions. -/
def addRow (a : ℕ → ℕ → XR) (i : ℕ) (v : ℕ → XR) : ℕ → ℕ → XR :=
  Function.update a i (fun c => a i c + v c)

section

variable {δ α β ζ : Type}

/-- Body of the pair loop of `exp_av_nn_prop`
(`/repo/src/graph_ensembles/sparse/models/ensembles.py:456-473`). -/
def exp_av_nn_step (p_ij : δ → α → β → ζ → XR) (param : δ) (prop_out : ℕ → α)
    (prop_in : ℕ → β) (prop_dyad : ℕ → ℕ → ζ) (prop : ℕ → ℕ → XR) (ndir : Dir) (i : ℕ)
    (av_nn : ℕ → ℕ → XR) (j : ℕ) : Except NNErr (ℕ → ℕ → XR) :=
  let pij := p_ij param (prop_out i) (prop_in j) (prop_dyad i j)
  let pji := p_ij param (prop_out j) (prop_in i) (prop_dyad j i)
  match ndir with
  | .out =>
    .ok (addRow (addRow av_nn i (fun c => pij * prop j c)) j (fun c => pji * prop i c))
  | .inn =>
    .ok (addRow (addRow av_nn i (fun c => pji * prop j c)) j (fun c => pij * prop i c))
  | .outIn =>
    let p := 1 - (1 - pij) * (1 - pji)
    .ok (addRow (addRow av_nn i (fun c => p * prop j c)) j (fun c => p * prop i c))
  | .underscored | .other => .error .badDirection

/-- Body of the self-loop pass of `exp_av_nn_prop`
(`/repo/src/graph_ensembles/sparse/models/ensembles.py:476-485`). -/
def exp_av_nn_self (p_ij : δ → α → β → ζ → XR) (param : δ) (prop_out : ℕ → α)
    (prop_in : ℕ → β) (prop_dyad : ℕ → ℕ → ζ) (prop : ℕ → ℕ → XR) (ndir : Dir) (jLast : ℕ)
    (av_nn : ℕ → ℕ → XR) (i : ℕ) : Except NNErr (ℕ → ℕ → XR) :=
  let pii := p_ij param (prop_out i) (prop_in i) (prop_dyad i jLast)
  match ndir with
  | .out => .ok (addRow av_nn i (fun c => pii * prop i c))
  | .inn => .ok (addRow av_nn i (fun c => pii * prop i c))
  | .outIn => .ok (addRow av_nn i (fun c => pii * prop i c))
  | .underscored | .other => .error .badDirection

/-- `exp_av_nn_prop` (`/repo/src/graph_ensembles/sparse/models/ensembles.py:450-487`,
`/repo/src/graph_ensembles/models.py:453-490`) for a property with columns; `jUndef` as in
`DiGraphEnsemble.exp_av_nn_prop`. -/
def exp_av_nn_prop (jUndef : ℕ) (p_ij : δ → α → β → ζ → XR) (param : δ) (n : ℕ)
    (prop_out : ℕ → α) (prop_in : ℕ → β) (prop_dyad : ℕ → ℕ → ζ) (prop : ℕ → ℕ → XR) (ndir : Dir)
    (selfloops : Bool) : Except NNErr (ℕ → ℕ → XR) :=
  let pairs := (List.range n).foldlM (fun av_nn i =>
    (List.range i).foldlM
      (exp_av_nn_step p_ij param prop_out prop_in prop_dyad prop ndir i) av_nn) (fun _ _ => 0)
  pairs >>= fun av_nn =>
    if selfloops then
      (List.range n).foldlM
        (exp_av_nn_self p_ij param prop_out prop_in prop_dyad prop ndir
          (if 2 ≤ n then n - 2 else jUndef)) av_nn
    else .ok av_nn

end

/-- `np.all(av_nn[~ind] == 0)` for `av_nn` of shape `(n, k)`
(`/repo/src/graph_ensembles/sparse/models/ensembles.py:208-211`). -/
def maskOk (n k : ℕ) (deg : ℕ → XR) (av : ℕ → ℕ → XR) : Bool :=
  (List.range n).all (fun i => !(deg i).isZero || (List.range k).all (fun c => (av i c).isZero))

open _root_.Verif.Query in
/-- `expected_av_nn_property` (`/repo/src/graph_ensembles/sparse/models/ensembles.py:161-227`,
`/repo/src/graph_ensembles/models.py:167-233`) for a property of shape `(len, k)`. -/
def expected_av_nn_property (z : Bool) (jUndef : ℕ) (E : Ens) (n len k : ℕ) (prop : ℕ → ℕ → XR)
    (ndir : Dir) (selfloops : Option Bool) (deg_recompute : Bool) (s : St E.δ) :
    Except (Fail Err) (ℕ → ℕ → XR) × St E.δ :=
  match s.param with
  | none => (.error (.other .notFitted), s)
  | some θ =>
    if len ≠ n then (.error (.other .badShape), s)
    else
      let tmp_self := s.selfloops
      let selfloops := selfloops.getD s.selfloops
      let changed : Bool := selfloops != s.selfloops
      let deg_recompute := deg_recompute || changed
      let s := setSelfloops selfloops s
      match degreeByDir E n .badNdir ndir deg_recompute s with
      | (.error e, s) => (.error (.other e), s)
      | (.ok deg, s) =>
        match exp_av_nn_prop jUndef E.p_ij θ n E.prop_out E.prop_in E.prop_dyad prop ndir
            s.selfloops with
        | .error _ => (.error (.other .badNdir), s)
        | .ok av_nn =>
          if maskOk n k deg av_nn then
            match average z (· / ·) n k (fun i => !(deg i).isZero) av_nn deg with
            | none => (.error .broadcast, s)
            | some v => (.ok v, restore tmp_self s)
          else (.error (.other .emptyNeighbourhood), s)

/-! ## Fitted ensembles, Spark -/

section

variable {δ α β ζ : Type}

/-- Body of the inner loop of `exp_av_nn_prop`
(`/repo/src/graph_ensembles/spark/models.py:656-685`). -/
def exp_av_nn_block_step (p_ij : δ → α → β → ζ → XR) (param : δ) (ind_out ind_in : ℕ × ℕ)
    (prop_out : (ℕ → α) × (ℕ → α)) (prop_in : (ℕ → β) × (ℕ → β)) (prop_dyad : ℕ → ℕ → ζ)
    (prop : ℕ → ℕ → XR) (ndir : Dir) (selfloops : Bool) (i : ℕ) (av_nn : ℕ → ℕ → XR) (j : ℕ) :
    Except NNErr (ℕ → ℕ → XR) :=
  let ind_i := ind_out.1 + i
  let ind_j := ind_in.1 + j
  if ind_i ≠ ind_j then
    let pij := p_ij param (prop_out.1 i) (prop_in.1 j) (prop_dyad i j)
    let pji := p_ij param (prop_out.2 j) (prop_in.2 i) (prop_dyad j i)
    match ndir with
    | .out => .ok (addRow (addRow av_nn ind_i (fun c => pij * prop ind_j c)) ind_j
        (fun c => pji * prop ind_i c))
    | .inn => .ok (addRow (addRow av_nn ind_i (fun c => pji * prop ind_j c)) ind_j
        (fun c => pij * prop ind_i c))
    | .outIn =>
      let p := pij + pji - pij * pji
      .ok (addRow (addRow av_nn ind_i (fun c => p * prop ind_j c)) ind_j
        (fun c => p * prop ind_i c))
    | .underscored | .other => .error .badDirection
  else if selfloops then
    let pii := p_ij param (prop_out.1 i) (prop_in.1 j) (prop_dyad i j)
    match ndir with
    | .out => .ok (addRow av_nn ind_i (fun c => pii * prop ind_i c))
    | .inn => .ok (addRow av_nn ind_i (fun c => pii * prop ind_i c))
    | .outIn => .ok (addRow av_nn ind_i (fun c => pii * prop ind_i c))
    | .underscored | .other => .error .badDirection
  else .ok av_nn

/-- `exp_av_nn_prop` on one pair of blocks (`/repo/src/graph_ensembles/spark/models.py:631-687`).
-/
def exp_av_nn_block (p_ij : δ → α → β → ζ → XR) (param : δ) (ind_out ind_in : ℕ × ℕ)
    (prop_out : (ℕ → α) × (ℕ → α)) (prop_in : (ℕ → β) × (ℕ → β)) (prop_dyad : ℕ → ℕ → ζ)
    (prop : ℕ → ℕ → XR) (ndir : Dir) (selfloops : Bool) : Except NNErr (ℕ → ℕ → XR) :=
  let fold := decide (ind_out = ind_in)
  (List.range (ind_out.2 - ind_out.1)).foldlM (fun av_nn i =>
    (List.range (Spark.inRange i ind_in fold)).foldlM
      (exp_av_nn_block_step p_ij param ind_out ind_in prop_out prop_in prop_dyad prop ndir
        selfloops i) av_nn) (fun _ _ => 0)

end

/-- `lambda x, y: x + y` on the results of the tasks
(`/repo/src/graph_ensembles/spark/models.py:242`). -/
def addArrays (x y : Except NNErr (ℕ → ℕ → XR)) : Except NNErr (ℕ → ℕ → XR) :=
  match x, y with
  | .ok a, .ok b => .ok (fun i c => a i c + b i c)
  | .error e, _ => .error e
  | _, .error e => .error e

/-- `/repo/src/graph_ensembles/spark/models.py:237-242` -/
def avTasks (E : Ens) (num_vertices p_blocks : ℕ) (prop : ℕ → ℕ → XR) (ndir : Dir)
    (selfloops : Bool) : List (Except NNErr (ℕ → ℕ → XR)) :=
  (Spark.p_sym_rdd num_vertices p_blocks E.prop_out E.prop_in).map fun x =>
    exp_av_nn_block E.p_ij E.param x.1.1 x.1.2 x.2.1 x.2.2 E.prop_dyad prop ndir selfloops

open _root_.Verif.Query in
/-- The possible outcomes of `expected_av_nn_property`
(`/repo/src/graph_ensembles/spark/models.py:196-262`) for a property of shape `(len, k)`. -/
def ExpectedAvNnProperty (z : Bool) (E : Ens) (n p len k : ℕ) (prop : ℕ → ℕ → XR)
    (ndir : Dir) (selfloops : Option Bool) (deg_recompute : Bool) (s : St E.δ)
    (r : Except (Fail Err) (ℕ → ℕ → XR)) (s' : St E.δ) : Prop :=
  match s.param with
  | none => r = .error (.other .notFitted) ∧ s' = s
  | some θ =>
    if len ≠ n then r = .error (.other .badShape) ∧ s' = s
    else
      let tmp_self := s.selfloops
      let selfloops := selfloops.getD s.selfloops
      let changed : Bool := selfloops != s.selfloops
      let deg_recompute := deg_recompute || changed
      let s := setSelfloops selfloops s
      ∃ d t, Spark.Query.DegreeByDir E n p .badNdir ndir deg_recompute s d t ∧
        match d with
        | .error e => r = .error (.other e) ∧ s' = t
        | .ok deg =>
          ∃ res, Spark.Folds addArrays (.ok (fun _ _ => 0))
              (avTasks (at_ E θ) n p prop ndir selfloops) res ∧
            match res with
            | .error _ => r = .error (.other .badNdir) ∧ s' = t
            | .ok av_nn =>
              if maskOk n k deg av_nn then
                match average z (· / ·) n k (fun i => !(deg i).isZero) av_nn deg with
                | none => r = .error .broadcast ∧ s' = t
                | some v => r = .ok v ∧ s' = restore tmp_self t
              else r = .error (.other .emptyNeighbourhood) ∧ s' = t

/-! ## Graphs -/

open Graph in
/-- `av_nn_prop` for a property with columns: `adj.dot(prop)` (`graphs.py:384-394`) multiplies
column by column, the compiled loop of the sparse version (`sparse/graphs.py:416-431`) adds rows.
-/
def nnSum (b : Backend) (n : ℕ) (a : Dense.NArr) (prop : ℕ → ℕ → ℝ) (selfloops : Bool) (i : ℕ) :
    ℕ → ℝ :=
  match b with
  | .dense => fun c => Dense.av_nn_prop n a (fun j => prop j c) selfloops i
  | .sparse => (Sparse.csrRow n a.val i).foldl (fun res j =>
      if (decide (i ≠ j.1) || selfloops) then (fun c => res c + prop j.1 c) else res)
      (fun _ => 0)

open Graph in
open Classical in
/-- `DiGraph.average_nn_property` (`graphs.py:600-643`, `sparse/graphs.py:670-716`) for a property
of shape `(n, k)`; the method of `Graph` (`graphs.py:275-307`, `sparse/graphs.py:291-325`) is the
case `ndir = "out-in"`. -/
def average_nn_property (z : Bool) (b : Backend) (g : DiG) (k : ℕ) (prop : ℕ → ℕ → ℝ)
    (ndir : Graph.Dir) (selfloops : Option Bool) : Except (Fail QErr) (ℕ → ℕ → ℝ) :=
  match selfloops with
  | none => .error (.other .attribute)
  | some sl =>
    match g.deg ndir, g.nbr ndir with
    | .ok deg, .ok a =>
      if ∀ i < g.n, deg i = 0 → ∀ c < k, nnSum b g.n a prop sl i c = 0 then
        match average z (· / ·) g.n k (fun i => decide (deg i ≠ 0)) (nnSum b g.n a prop sl) deg with
        | none => .error .broadcast
        | some v => .ok v
      else .error (.other .assertion)
    | .error e, _ => .error (.other e)
    | _, .error e => .error (.other e)

/-! ## `RandomDiGraph` -/

open Rand in
/-- The array `av_nn` before averaging in the sparse and dense versions
(`/repo/src/graph_ensembles/sparse/models/random.py:253-264`,
`/repo/src/graph_ensembles/models.py:793-804`): it has one dimension, `np.sum` adds all entries of
the array, and adding an array of shape `(n, k)` in place to one of shape `(n,)` raises. -/
def randSum (o : Obj) (p : XR) (k : ℕ) (prop : ℕ → ℕ → XR) (ndir : Dir) :
    Except (Fail Err) (ℕ → XR) :=
  let tot := fun c : XR => ((List.range o.num_vertices).map (fun j =>
    ((List.range k).map (fun l => c * prop j l)).sum)).sum
  match ndir with
  | .out | .inn => if o.selfloops then .ok (fun _ => tot p) else .error .broadcast
  | .outIn =>
    let c := fin 2 * p - p * p
    if o.selfloops then .ok (fun _ => tot c) else .error .broadcast
  | .underscored | .other => .error (.other .badDirection)

open Rand in
/-- `expected_av_nn_property` of the sparse and dense `RandomDiGraph`
(`/repo/src/graph_ensembles/sparse/models/random.py:217-278`,
`/repo/src/graph_ensembles/models.py:757-818`) for a property of shape `(len, k)`.  Whatever is
returned has one dimension. -/
def rand_av_nn_property (o : Obj) (len k : ℕ) (prop : ℕ → ℕ → XR) (ndir : Dir)
    (selfloops : Option Bool) : Obj × Except (Fail Err) (ℕ → XR) :=
  match o.param with
  | none => (o, .error (.other .notFitted))
  | some (p, _) =>
    if len ≠ o.num_vertices then (o, .error (.other .badShape))
    else
      let o' := withLoops o selfloops
      match avDeg o' ndir, randSum o' p k prop ndir with
      | .error e, _ => (o', .error (.other e))
      | _, .error e => (o', .error e)
      | .ok deg, .ok av =>
        if (List.range o.num_vertices).all (fun i => !(deg i).isZero || (av i).isZero) then
          (o, .ok (fun i => if (deg i).isZero then av i else av i / deg i))
        else (o', .error (.other .assertion))

open Rand in
/-- The array `av_nn` before averaging in the Spark version
(`/repo/src/graph_ensembles/spark/models.py:1156-1168`): it has the shape of the property and the
sum runs over the first axis. -/
def randSumSpark (o : Obj) (p : XR) (prop : ℕ → ℕ → XR) (ndir : Dir) :
    Except Err (ℕ → ℕ → XR) :=
  let tot := fun (c : XR) (l : ℕ) => ((List.range o.num_vertices).map (fun j => c * prop j l)).sum
  match ndir with
  | .out | .inn =>
    if o.selfloops then .ok (fun _ l => tot p l) else .ok (fun i l => tot p l - p * prop i l)
  | .outIn =>
    let c := fin 2 * p - p * p
    if o.selfloops then .ok (fun _ l => tot c l) else .ok (fun i l => tot c l - c * prop i l)
  | .underscored | .other => .error .badDirection

open Rand in
/-- `expected_av_nn_property` of the Spark `RandomDiGraph`
(`/repo/src/graph_ensembles/spark/models.py:1120-1181`) for a property of shape `(len, k)`. -/
def rand_av_nn_property_spark (z : Bool) (o : Obj) (len k : ℕ) (prop : ℕ → ℕ → XR) (ndir : Dir)
    (selfloops : Option Bool) : Obj × Except (Fail Err) (ℕ → ℕ → XR) :=
  match o.param with
  | none => (o, .error (.other .notFitted))
  | some (p, _) =>
    if len ≠ o.num_vertices then (o, .error (.other .badShape))
    else
      let o' := withLoops o selfloops
      match avDeg o' ndir, randSumSpark o' p prop ndir with
      | .error e, _ => (o', .error (.other e))
      | _, .error e => (o', .error (.other e))
      | .ok deg, .ok av =>
        if maskOk o.num_vertices k deg av then
          match average z (· / ·) o.num_vertices k (fun i => !(deg i).isZero) av deg with
          | none => (o', .error .broadcast)
          | some v => (o, .ok v)
        else (o', .error (.other .assertion))

end Columns

end

end Verif
