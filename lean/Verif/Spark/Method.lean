import Verif.Spark.Model
import Verif.Sampled.Model

/-!
# The methods `log_likelihood`, `confusion_matrix` and `sample` of the spark ensembles

Argument handling around the jobs of `Spark/Model.lean`.  The outcome of a job depends on the order
in which the results of the tasks arrive, so that each method is the relation between its arguments
and its possible outcomes.  Random numbers: `u i j` (multi-layer: `u k i j`) is the uniform number
drawn for a pair, `e` the standard exponential variate of its weight.
-/

namespace Verif

noncomputable section

open XR

namespace Spark

namespace Method

open Verif.Method (Arg LikeErr Backend)
open Graph (coo get_num_bytes validDtype)
open Sampled (Ref Adj boolRows floatRows ids)

/-! ## Single layer -/

/-- The attributes of a single-layer ensemble read by the methods. -/
structure Obj where
  p_ij : XR → XR → XR → XR → XR
  logp : XR → XR → XR → XR → XR
  log1mp : XR → XR → XR → XR → XR
  num_vertices : ℕ
  p_blocks : ℕ
  prop_out : ℕ → XR
  prop_in : ℕ → XR
  prop_dyad : ℕ → ℕ → XR
  selfloops : Bool
  param : Option XR

/-- What is passed to the loops, with parameter `θ`. -/
def Obj.ens (o : Obj) (θ : XR) : Ens :=
  ⟨XR, XR, XR, XR, o.p_ij, o.logp, o.log1mp, θ, o.prop_out, o.prop_in, o.prop_dyad⟩

/-- The argument `g` as read by `log_likelihood` and `confusion_matrix`
(`/repo/src/graph_ensembles/spark/models.py:328-346`, `397-415`): the link test.  The conversions
are those of the sparse backend; the shape is tested last. -/
def adjOf (n : ℕ) (g : Arg) : Except LikeErr (ℕ → ℕ → Bool) :=
  match Verif.Method.adjOf .sparse g with
  | .error e => .error e
  | .ok (shape, link) => if shape ≠ (n, n) then .error .badShape else .ok link

/-- `log_likelihood` (`/repo/src/graph_ensembles/spark/models.py:318-371`). -/
def LogLikelihood (o : Obj) (g : Arg) (selfloops : Option Bool) (r : Except LikeErr XR) : Prop :=
  match o.param with
  | none => r = .error .notFitted
  | some θ =>
    let s := selfloops.getD o.selfloops
    match adjOf o.num_vertices g with
    | .error e => r = .error e
    | .ok link => ∃ v, Folds (· + ·) 0
        (likelihoodTasks (o.ens θ) o.num_vertices o.p_blocks link s) v ∧ r = .ok v

/-- Exceptions of `confusion_matrix`; `empty` is the `ValueError` of `max()` and `min()` of an empty
array (or the `IndexError` of `param[0]` without labels), `badDim` the error of scipy for an array
with three dimensions. -/
inductive ConfErr where
  | notFitted
  | empty
  | thresholds (e : ThErr)
  | badInput
  | badDim
  | badShape
  deriving DecidableEq

/-- `array.max()`; `none` is the `ValueError` for an empty array. -/
def listMax : List XR → Option XR
  | [] => none
  | a :: t => some (t.foldl (fun m v => if ltb m v then v else m) a)

/-- `array.min()`. -/
def listMin : List XR → Option XR
  | [] => none
  | a :: t => some (t.foldl (fun m v => if ltb v m then v else m) a)

/-- The elements of an array. -/
def elements (n : ℕ) (a : ℕ → XR) : List XR := (List.range n).map a

/-- `p_min` and `p_max` (`/repo/src/graph_ensembles/spark/models.py:384-385, 389-390`).  The value
passed for the dyadic property is `None`; the models do not read it. -/
def pRange (o : Obj) (θ : XR) : Option (ℝ × ℝ) := do
  let xmax ← listMax (elements o.num_vertices o.prop_out)
  let ymax ← listMax (elements o.num_vertices o.prop_in)
  let xmin ← listMin (elements o.num_vertices o.prop_out)
  let ymin ← listMin (elements o.num_vertices o.prop_in)
  return ((o.p_ij θ xmin ymin nan).toReal, (o.p_ij θ xmax ymax nan).toReal)

/-- The choice of the thresholds given a way to compute `p_min` and `p_max`, which is used when the
argument is absent or an integer. -/
def thresholds (range : Option (ℝ × ℝ)) (arg : ThArg) : Except ConfErr (ℕ × (ℕ → XR)) :=
  match arg, range with
  | .none, none => .error .empty
  | .int _, none => .error .empty
  | arg, range =>
    match chooseThresholds (range.getD (0, 0)).1 (range.getD (0, 0)).2 arg with
    | .error e => .error (.thresholds e)
    | .ok r => .ok r

/-- `confusion_matrix` (`/repo/src/graph_ensembles/spark/models.py:373-446`); the four arrays have
the length of the thresholds, which is returned with them. -/
def Confusion (o : Obj) (g : Arg) (th : ThArg) (selfloops : Option Bool)
    (r : Except ConfErr (ℕ × Conf)) : Prop :=
  match o.param with
  | none => r = .error .notFitted
  | some θ =>
    let s := selfloops.getD o.selfloops
    match thresholds (pRange o θ) th with
    | .error e => r = .error e
    | .ok (K, t) =>
      match adjOf o.num_vertices g with
      | .error .badShape => r = .error .badShape
      | .error _ => r = .error .badInput
      | .ok link => ∃ c, Folds addConf Conf.zero
          (confusionTasks (o.ens θ) o.num_vertices o.p_blocks K t link s) c ∧ r = .ok (K, c)

/-- `sample` (`/repo/src/graph_ensembles/spark/models.py:448-535`).  Strengths are arrays of
`num_vertices` numbers; neither their type nor their length is tested by the code. -/
def Sample {ι γ κ : Type} (o : Obj) (ref : Option (Ref ι γ κ)) (w : Verif.Method.Weights)
    (selfloops : Option Bool) (u e : ℕ → ℕ → ℝ)
    (r : Except Sampled.Err (Sampled.Obj ι γ Adj)) : Prop :=
  match o.param with
  | none => r = .error .notFitted
  | some θ =>
    let n := o.num_vertices
    let s := selfloops.getD o.selfloops
    open Classical in
    if validDtype (get_num_bytes n) then
      let group := ref.bind Ref.group
      let id_dict := ids n ref
      let mk := fun A => (⟨n, get_num_bytes n, id_dict, group, A⟩ : Sampled.Obj ι γ Adj)
      match w with
      | .none => ∃ rows, Folds (· ++ ·) [] (sampleTasks (o.ens θ) n o.p_blocks s u) rows ∧
          r = .ok (mk (.bool (coo (boolRows rows))))
      | .cremb so si => ∃ rows, Folds appendRows (.ok [])
            (crembTasks (o.ens θ) n o.p_blocks so si s u e) rows ∧
          r = (match rows with
            | .error _ => .error .strengthsDiffer
            | .ok l => .ok (mk (.float (coo (floatRows l)))))
      | .other => r = .error .badWeights
    else r = .error .dtype

end Method

/-! ## Several layers

The object is that of `Layer/Method.lean`, with the number of blocks as a further argument. -/

namespace MultiMethod

open Layer.Method (Obj Arg Err)
open Layer (column)
open _root_.Verif.Spark.Method (ConfErr listMax listMin thresholds)
open Graph (coo)
open Sampled (Ref Adj boolRows floatRows)

/-- What is passed to the loops over unlabelled pairs, with parameters `θ`. -/
def ens (o : Obj (List (ℕ × XR))) (p_ij : (ℕ → XR) → List (ℕ × XR) → List (ℕ × XR) → XR)
    (θ : ℕ → XR) : Ens :=
  ⟨List (ℕ × XR), List (ℕ × XR), ℕ → XR, Unit, fun d x y _ => p_ij d x y,
    fun d x y _ => o.logp d x y, fun d x y _ => o.log1mp d x y, θ, o.prop_out, o.prop_in,
    fun _ _ => ()⟩

/-- The tasks of the tensor branch, one for each label
(`/repo/src/graph_ensembles/spark/models.py:2328-2351`). -/
def layerTasks (o : Obj (List (ℕ × XR))) (θ : ℕ → XR) (nbrs : ℕ → ℕ → List ℕ) (s : Bool) :
    List XR :=
  (List.range o.num_labels).map (fun k =>
    Layer.likelihood_layer o.link.logp_ijk o.link.log1mp_ijk (θ k) o.num_vertices
      (column o.num_vertices o.prop_out k) (column o.num_vertices o.prop_in k) o.prop_dyad (nbrs k) s)

/-- `log_likelihood` (`/repo/src/graph_ensembles/spark/models.py:2264-2382`).  The conversions and
the tests of the shapes are those of the sparse backend, including the message about a layer that
is formatted with `adj.shape`. -/
def LogLikelihood (o : Obj (List (ℕ × XR)))
    (p_ij : (ℕ → XR) → List (ℕ × XR) → List (ℕ × XR) → XR) (p_blocks : ℕ) (g : Arg)
    (selfloops : Option Bool) (r : Except Err XR) : Prop :=
  match o.param with
  | none => r = .error .notFitted
  | some θ =>
    let s := selfloops.getD o.selfloops
    match (Layer.Method.Sparse.adjOf g >>= fun adj =>
        Layer.Method.Sparse.checkShape o.num_vertices o.num_labels adj >>= fun _ => .ok adj) with
    | .error e => r = .error e
    | .ok (.tensor layers) => ∃ v, Folds (· + ·) 0 (layerTasks o θ
          (fun k i => (layers[k]?.map (fun x => x.2 i)).getD []) s) v ∧ r = .ok v
    | .ok (.matrix _ nbrs) => ∃ v, Folds (· + ·) 0
          (likelihoodTasks (ens o p_ij θ) o.num_vertices p_blocks (fun i j => (nbrs i).contains j) s)
            v ∧ r = .ok v

/-- All entries of the matrix of properties. -/
def entries (n L : ℕ) (prop : ℕ → List (ℕ × XR)) : List XR :=
  (List.range n).flatMap (fun i => (List.range L).map (fun k => Spec.entry (prop i) k))

/-- `p_min` and `p_max` (`/repo/src/graph_ensembles/spark/models.py:2396-2401, 2405-2410`): the
formula of the invariant model with the first parameter, for every model.  A value that is not a
number is read as zero. -/
def pRange (o : Obj (List (ℕ × XR))) (θ : ℕ → XR) : Option (ℝ × ℝ) := do
  let x := entries o.num_vertices o.num_labels o.prop_out
  let y := entries o.num_vertices o.num_labels o.prop_in
  let xmax ← listMax x
  let ymax ← listMax y
  let xmin ← listMin (x.filter (fun v => !(eqb v 0)))
  let ymin ← listMin (y.filter (fun v => !(eqb v 0)))
  return ((-(XR.expm1 (-(θ 0) * xmin * ymin))).toReal, (-(XR.expm1 (-(θ 0) * xmax * ymax))).toReal)

/-- The argument `g` as read by `confusion_matrix`
(`/repo/src/graph_ensembles/spark/models.py:2417-2435`): `MultiGraph` is a subclass of `Graph`, whose
`adjacency_matrix` is the projection to unlabelled links; lists are refused.  Arrays of one
dimension are not modelled. -/
def adjOf (n : ℕ) : Arg → Except ConfErr (ℕ → ℕ → Bool)
  | .multigraph m layers =>
    if m ≠ n then .error .badShape
    else .ok (fun i j => layers.any (fun G => decide ((i, j) ∈ G)))
  | .graph m G => if m ≠ n then .error .badShape else .ok (fun i j => decide ((i, j) ∈ G))
  | .sparse m =>
    if m.shape ≠ (n, n) then .error .badShape
    else .ok (fun i j => ((m.row i).map Prod.fst).contains j)
  | .array2 shape a =>
    if shape ≠ (n, n) then .error .badShape else .ok (fun i j => decide (a i j ≠ 0))
  | .array3 _ _ => .error .badDim
  | .arrayOther => .error .badDim
  | .list _ => .error .badInput
  | .other => .error .badInput

/-- `confusion_matrix` (`/repo/src/graph_ensembles/spark/models.py:2384-2469`). -/
def Confusion (o : Obj (List (ℕ × XR)))
    (p_ij : (ℕ → XR) → List (ℕ × XR) → List (ℕ × XR) → XR) (p_blocks : ℕ) (g : Arg) (th : ThArg)
    (selfloops : Option Bool) (r : Except ConfErr (ℕ × Conf)) : Prop :=
  match o.param with
  | none => r = .error .notFitted
  | some θ =>
    let s := selfloops.getD o.selfloops
    match thresholds (pRange o θ) th with
    | .error e => r = .error e
    | .ok (K, t) =>
      match adjOf o.num_vertices g with
      | .error e => r = .error e
      | .ok link => ∃ c, Folds addConf Conf.zero
          (confusionTasks (ens o p_ij θ) o.num_vertices p_blocks K t link s) c ∧ r = .ok (K, c)

/-- `_binary_sample_layer` (`/repo/src/graph_ensembles/spark/models.py:3032-3053`). -/
def binary_sample_layer (p_ijk : XR → XR → XR → XR → XR) (param : XR)
    (prop_out prop_in : List (ℕ × XR)) (dyad : ℕ → ℕ → XR) (selfloops : Bool) (u : ℕ → ℕ → ℝ) :
    List (ℕ × ℕ) :=
  prop_out.foldl (fun rows a =>
    prop_in.foldl (fun rows b =>
      if admissible a.1 b.1 selfloops then
        if ltb (fin (u a.1 b.1)) (p_ijk param a.2 b.2 (dyad a.1 b.1)) then rows ++ [(a.1, b.1)]
        else rows
      else rows) rows) []

/-- `sample` (`/repo/src/graph_ensembles/spark/models.py:2471-2622`).  The results of the labels are
collected and stored by label, so that their order does not matter; if several labels raise, any
one of the exceptions is reported.  `selfloops` is overwritten by `self.selfloops`. -/
def Sample {ι γ κ : Type} (o : Obj (List (ℕ × XR))) (ref : Option (Ref ι γ κ))
    (weights : Sampled.Weights) (out_strength in_strength : Sampled.Strength)
    (selfloops : Option Bool) (u e : ℕ → ℕ → ℕ → ℝ)
    (r : Except Sampled.Err (Sampled.MultiObj ι γ κ Adj)) : Prop :=
  match o.param with
  | none => r = .error .notFitted
  | some θ =>
    let n := o.num_vertices
    let L := o.num_labels
    let _selfloops := selfloops.getD o.selfloops
    let col := fun (prop : ℕ → List (ℕ × XR)) k =>
      (column n prop k).map (fun e => (e.1, Sampled.real e.2))
    match (Sampled.header n L ref >>= fun mk =>
        out_strength.columns n L (col o.prop_out) >>= fun s_out =>
        in_strength.columns n L (col o.prop_in) >>= fun s_in => .ok (mk, s_out, s_in)) with
    | .error err => r = .error err
    | .ok (mk, s_out, s_in) =>
      match weights with
      | .none => r = .ok (mk (fun k => .bool (coo (boolRows
          (binary_sample_layer o.link.p_ijk (θ k) (column n o.prop_out k) (column n o.prop_in k)
            o.prop_dyad o.selfloops (u k))))))
      | .cremb =>
        let task := fun k => Sampled.Sparse.cremb_layer o θ k (s_out k) (s_in k) (u k) (e k)
        (∃ k < L, ∃ err, task k = .error err ∧ r = .error err) ∨
        (∃ rows : ℕ → List ((ℕ × ℕ) × XR), (∀ k < L, task k = .ok (rows k)) ∧
          r = .ok (mk (fun k => .float (coo (floatRows (if k < L then rows k else []))))))
      | .other => r = .error .badWeights

end MultiMethod

end Spark

end

end Verif
