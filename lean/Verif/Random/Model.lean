import Verif.Ensemble.Method
import Verif.NumOrder

/-!
# Model of `RandomDiGraph`

`/repo/src/graph_ensembles/sparse/models/random.py`,
`/repo/src/graph_ensembles/models.py:552-1034` and
`/repo/src/graph_ensembles/spark/models.py:1047-1396`, which runs no job.  The versions differ only in
how `log_likelihood` reads its argument; the Spark version does it in the same way as the sparse one.

Unlike the other ensembles nothing here is compiled by numba except the samplers, so `math.log`,
`math.log1p` and division raise.
-/

namespace Verif

noncomputable section

open XR

namespace Rand

/-- Exceptions. -/
inductive Err where
  | notFitted
  | attribute
  | zeroDivision
  | domain
  | badDirection
  | badDegree
  | typing
  | assertion
  | badInput
  | badShape
  | unpack
  | badWeights
  | strengthsDiffer
  deriving DecidableEq

/-- A number attribute: its value and whether it is a numpy scalar (as computed from a graph) or
a python float (as passed by the user).  This only matters for division by zero. -/
structure Number where
  val : ℝ
  np : Bool

/-- `a / b`: python floats raise `ZeroDivisionError`, numpy returns an infinity or nan.  (The
result is a numpy operation as soon as one operand is a numpy scalar.) -/
def pyDiv (np : Bool) (a b : ℝ) : Except Err XR :=
  if b = 0 then (if np then .ok (signedInf a) else .error .zeroDivision) else .ok (fin (a / b))

/-- Attributes of the object (`sparse/models/random.py:13-25`).  There is no attribute `q`: the
constructor
accepts only the attributes listed in `sparse/models/random.py:58-65`.  `prop_out` and `prop_in`
are placeholders
(`empty_index`, `sparse/models/ensembles.py:105-107`). -/
structure Obj where
  num_vertices : ℕ
  num_edges : Option Number
  total_weight : Option Number
  discrete_weights : Option Bool
  selfloops : Bool
  param : Option (XR × XR)

/-- Second element of the parameter set by `fit` (`sparse/models/random.py:154-160`). -/
def fitWeight (o : Obj) (m : Number) : Except Err XR :=
  match o.total_weight with
  | none => .ok 0
  | some w =>
    match o.discrete_weights with
    | none => .error .attribute
    | some true => (pyDiv (m.np || w.np) m.val w.val).map (fun x => 1 - x)
    | some false => pyDiv (m.np || w.np) m.val w.val

/-- `fit` (`sparse/models/random.py:147-162`, `models.py:687-702`, `spark/models.py:1047-1062`). -/
def fit (o : Obj) : Except Err Obj :=
  match o.num_edges with
  | none => .error .attribute
  | some m =>
    let p := if o.selfloops then pyDiv m.np m.val ((o.num_vertices : ℝ) ^ 2)
      else pyDiv m.np m.val ((o.num_vertices : ℝ) * ((o.num_vertices : ℝ) - 1))
    match p with
    | .error e => .error e
    | .ok p =>
      match fitWeight o m with
      | .error e => .error e
      | .ok q => .ok { o with param := some (p, q) }

/-- `expected_num_edges` (`sparse/models/random.py:164-175`, `models.py:704-715`,
`spark/models.py:1064-1075`);
never read from a cache. -/
def expected_num_edges (o : Obj) : Except Err XR :=
  match o.param with
  | none => .error .notFitted
  | some (p, _) =>
    if o.selfloops then .ok (p * fin ((o.num_vertices : ℝ) ^ 2))
    else .ok (p * fin (o.num_vertices : ℝ) * fin ((o.num_vertices : ℝ) - 1))

/-- `expected_total_weight` (`sparse/models/random.py:177-187`, `models.py:717-727`,
`spark/models.py:1077-1087`): both branches read `self.q`, which does not exist. -/
def expected_total_weight (o : Obj) : Except Err XR :=
  match o.param with
  | none => .error .notFitted
  | some _ =>
    match o.discrete_weights with
    | none => .error .attribute
    | some true => .error .attribute
    | some false => .error .attribute

/-- `expected_degree` (`sparse/models/random.py:189-199`, `models.py:729-739`,
`spark/models.py:1089-1099`). -/
def expected_degree (o : Obj) : Except Err (ℕ → XR) :=
  match o.param with
  | none => .error .notFitted
  | some (p, _) =>
    let d := (fin 2 * p - p * p) * fin ((o.num_vertices : ℝ) - 1)
    if o.selfloops then .ok (fun _ => d + p) else .ok (fun _ => d)

/-- `expected_out_degree` (`sparse/models/random.py:201-211`, `models.py:741-751`,
`spark/models.py:1101-1111`).
-/
def expected_out_degree (o : Obj) : Except Err (ℕ → XR) :=
  match o.param with
  | none => .error .notFitted
  | some (p, _) =>
    if o.selfloops then .ok (fun _ => p * fin (o.num_vertices : ℝ))
    else .ok (fun _ => p * fin ((o.num_vertices : ℝ) - 1))

/-- `expected_in_degree` (`sparse/models/random.py:213-215`, `models.py:753-755`,
`spark/models.py:1113-1118`). -/
def expected_in_degree (o : Obj) : Except Err (ℕ → XR) := expected_out_degree o

/-! ### Nearest neighbour averages -/

/-- The array `av_nn` before averaging (`sparse/models/random.py:253-264`, `models.py:793-804`,
`spark/models.py:1156-1168`); `prop` is an array of `n` numbers. -/
def avSum (o : Obj) (p : XR) (prop : ℕ → XR) (ndir : DiGraphEnsemble.Dir) : Except Err (ℕ → XR) :=
  let tot := fun c : XR => ((List.range o.num_vertices).map (fun j => c * prop j)).sum
  match ndir with
  | .out | .inn =>
    if o.selfloops then .ok (fun _ => tot p) else .ok (fun i => tot p + -p * prop i)
  | .outIn =>
    let c := fin 2 * p - p * p
    if o.selfloops then .ok (fun _ => tot c) else .ok (fun i => tot c + -c * prop i)
  | .underscored | .other => .error .badDirection

/-- The degree used as denominator (`sparse/models/random.py:243-251`). -/
def avDeg (o : Obj) (ndir : DiGraphEnsemble.Dir) : Except Err (ℕ → XR) :=
  match ndir with
  | .out => expected_out_degree o
  | .inn => expected_in_degree o
  | .outIn => expected_degree o
  | .underscored | .other => .error .badDirection

/-- The temporary change of `self.selfloops` (`sparse/models/random.py:234-240`). -/
def withLoops (o : Obj) : Option Bool → Obj
  | none => o
  | some s => { o with selfloops := s }

/-- `expected_av_nn_property` (`sparse/models/random.py:217-278`, `models.py:757-818`,
`spark/models.py:1120-1181`).  Returns the object (whose `selfloops` is modified during the call)
and the result.  `len` is `prop.shape[0]`. -/
def expected_av_nn_property (o : Obj) (len : ℕ) (prop : ℕ → XR) (ndir : DiGraphEnsemble.Dir)
    (selfloops : Option Bool) : Obj × Except Err (ℕ → XR) :=
  match o.param with
  | none => (o, .error .notFitted)
  | some (p, _) =>
    if len ≠ o.num_vertices then (o, .error .badShape)
    else
      let o' := withLoops o selfloops
      match avDeg o' ndir, avSum o' p prop ndir with
      | .error e, _ => (o', .error e)
      | _, .error e => (o', .error e)
      | .ok deg, .ok av =>
        if (List.range o.num_vertices).all (fun i => !(deg i).isZero || (av i).isZero) then
          (o, .ok (fun i => if (deg i).isZero then av i else av i / deg i))
        else (o', .error .assertion)

/-! ### Likelihood -/

/-- What can be passed as `g`; scipy distinguishes sparse arrays and sparse matrices
(`matrix := true`). -/
inductive Arg where
  | graph (n : ℕ) (G : Finset (ℕ × ℕ))
  | sparse (matrix : Bool) (m : Method.Stored)
  | ndarray (shape : ℕ × ℕ) (a : ℕ → ℕ → ℝ)
  | other

/-- `np.count_nonzero` of an array of shape `s`. -/
def countNonzero (s : ℕ × ℕ) (a : ℕ → ℕ → ℝ) : ℕ :=
  ((List.range s.1).map (fun i => ((List.range s.2).filter (fun j => decide (a i j ≠ 0))).length)).sum

/-- What `log_likelihood` reads of its argument: the shape, the number of links and the test for
links on the diagonal. -/
structure Adj where
  shape : ℕ × ℕ
  nnz : ℕ
  diag : Bool

/-- The indicator matrix of a graph. -/
def indicator (G : Finset (ℕ × ℕ)) (i j : ℕ) : ℝ := if (i, j) ∈ G then 1 else 0

/-- Number of non-zero diagonal elements. -/
def countDiag (n : ℕ) (a : ℕ → ℕ → ℝ) : ℕ :=
  ((List.range n).filter (fun i => decide (a i i ≠ 0))).length

/-- Sum of the diagonal. -/
def sumDiag (n : ℕ) (a : ℕ → ℕ → ℝ) : ℝ := ((List.range n).map (fun i => a i i)).sum

/-- The argument as read by the sparse backend (`sparse/models/random.py:290-298,311-325`): `nnz`
counts stored
entries, the diagonal is summed.  `sp.csr_array(g)` stores the non-zero entries. -/
def adjSparse : Arg → Except Err Adj
  | .graph n G =>
    .ok ⟨(n, n), countNonzero (n, n) (indicator G), decide (0 < sumDiag n (indicator G))⟩
  | .sparse _ m =>
    .ok ⟨m.shape, ((List.range m.shape.1).map (fun i => (m.row i).length)).sum,
      decide (0 < sumDiag m.shape.1 m.val)⟩
  | .ndarray s a => .ok ⟨s, countNonzero s a, decide (0 < sumDiag s.1 a)⟩
  | .other => .error .badInput

/-- The argument as read by the dense backend (`models.py:830-838,851-866`).  `todense()` of a
sparse *matrix* is a `np.matrix`, whose `ravel()` is a matrix with one row; the slice
`[:: n + 1]` then selects that row, i.e. all entries. -/
def adjDense : Arg → Except Err Adj
  | .graph n G =>
    .ok ⟨(n, n), countNonzero (n, n) (indicator G), decide (0 < countDiag n (indicator G))⟩
  | .sparse false m =>
    .ok ⟨m.shape, countNonzero m.shape m.val, decide (0 < countDiag m.shape.1 m.val)⟩
  | .sparse true m =>
    .ok ⟨m.shape, countNonzero m.shape m.val, decide (0 < countNonzero m.shape m.val)⟩
  | .ndarray s a => .ok ⟨s, countNonzero s a, decide (0 < countDiag s.1 a)⟩
  | .other => .error .badInput

/-- The argument as read by a backend. -/
def adjOf (b : Method.Backend) (g : Arg) : Except Err Adj :=
  match b with
  | .sparse => adjSparse g
  | .dense => adjDense g

/-- `math.log`, raising. -/
def log (p : ℝ) : Except Err ℝ := if 0 < p then .ok (Real.log p) else .error .domain

/-- `math.log1p`, raising. -/
def log1p (x : ℝ) : Except Err ℝ := if 0 < 1 + x then .ok (Real.log (1 + x)) else .error .domain

/-- `log_likelihood` (`sparse/models/random.py:280-327`, `models.py:820-869`,
`spark/models.py:1183-1230`) for a
finite link probability. -/
def log_likelihood (b : Method.Backend) (o : Obj) (g : Arg) (selfloops : Option Bool) :
    Except Err XR :=
  match o.param with
  | none => .error .notFitted
  | some (p, _) =>
    let sl := selfloops.getD o.selfloops
    match adjOf b g with
    | .error e => .error e
    | .ok adj =>
      if adj.shape ≠ (o.num_vertices, o.num_vertices) then .error .badShape
      else if p.toReal = 0 ∧ 0 < adj.nnz then .ok ninf
      else if p.toReal = 1 ∧ adj.nnz ≠ 0 then .ok ninf
      else
        match log p.toReal with
        | .error e => .error e
        | .ok l =>
          match log1p (-p.toReal) with
          | .error e => .error e
          | .ok l1 =>
            let like := (adj.nnz : ℝ) * l
            if sl then .ok (fin (like + (((o.num_vertices : ℝ) ^ 2) - adj.nnz) * l1))
            else if adj.diag then .ok ninf
            else .ok (fin (like +
              ((o.num_vertices : ℝ) * ((o.num_vertices : ℝ) - 1) - adj.nnz) * l1))

/-! ### Sampling -/

/-- What a call of a compiled sampler returns: `none` (no return statement), a pair of lists or a
triple of lists. -/
inductive Ret where
  | none
  | two (rows : List (ℕ × ℕ))
  | three (rows : List ((ℕ × ℕ) × ℝ))

/-- `_binary_sample` (`sparse/models/random.py:403-417`, `models.py:945-959`,
`spark/models.py:1306-1320`); draws
as in `DiGraphEnsemble.binary_sample`. -/
def binary_sample (p : ℝ) (num_v : ℕ) (selfloops : Bool) (u : ℕ → ℕ → ℝ) : List (ℕ × ℕ) :=
  (List.range num_v).foldl (fun rows i =>
    (List.range num_v).foldl (fun rows j =>
      if admissible i j selfloops then
        if u i j < p then rows ++ [(i, j)] else rows
      else rows) rows) []

/-- The lists built by `_weighted_sample`, `_discrete_weighted_sample`
(`sparse/models/random.py:419-453`,
`models.py:961-995`, `spark/models.py:1322-1356`): a weight `w i j` is drawn for every link. -/
def weighted_lists (p : ℝ) (num_v : ℕ) (selfloops : Bool) (u w : ℕ → ℕ → ℝ) :
    List ((ℕ × ℕ) × ℝ) :=
  (List.range num_v).foldl (fun rows i =>
    (List.range num_v).foldl (fun rows j =>
      if admissible i j selfloops then
        if u i j < p then rows ++ [((i, j), w i j)] else rows
      else rows) rows) []

/-- `_weighted_sample` and `_discrete_weighted_sample`: the list of weights is not returned
(`sparse/models/random.py:435,453`, `models.py:977,995`). -/
def weighted_sample (p : ℝ) (num_v : ℕ) (selfloops : Bool) (u w : ℕ → ℕ → ℝ) : Ret :=
  .two ((weighted_lists p num_v selfloops u w).map Prod.fst)

/-- Drawing a weight with the second parameter `q`: `rng.exponential(1 / q)` divides by zero in
compiled code, `rng.geometric(1 - q)` refuses arguments outside `(0, 1]`. -/
def drawable (discrete : Bool) (q : XR) : Except Err Unit :=
  if discrete then
    if leb (1 - q) 0 || ltb 1 (1 - q) then .error .domain else .ok ()
  else if q.isZero then .error .zeroDivision else .ok ()

/-- The call of `_discrete_weighted_sample` or `_weighted_sample`, which raises as soon as a weight
cannot be drawn. -/
def weighted_call (p : ℝ) (q : XR) (discrete : Bool) (num_v : ℕ) (selfloops : Bool)
    (u w : ℕ → ℕ → ℝ) : Except Err Ret :=
  if (weighted_lists p num_v selfloops u w).isEmpty then
    .ok (weighted_sample p num_v selfloops u w)
  else (drawable discrete q).map (fun _ => weighted_sample p num_v selfloops u w)

/-- `_cremb_sample` (`sparse/models/random.py:455-475`, `models.py:997-1014`,
`spark/models.py:1358-1375`):
nothing is returned.  A zero total out-strength raises as well. -/
def cremb_sample (p : ℝ) (num_v : ℕ) (s_out s_in : ℕ → ℝ) (_selfloops : Bool)
    (_u _e : ℕ → ℕ → ℝ) : Except Err Ret :=
  let s_tot := DiGraphEnsemble.npSum num_v s_out
  let _ := p
  if |1 - DiGraphEnsemble.npSum num_v s_in / s_tot| < 1e-6 then .ok .none
  else .error .strengthsDiffer

/-- The `weights` argument together with the strengths passed (`none`: not passed). -/
inductive Weights where
  | none
  | random
  | cremb (out_strength in_strength : Option (ℕ → ℝ))
  | other

/-- `rows, cols, vals = ret` -/
def unpack3 : Ret → Except Err (List ((ℕ × ℕ) × ℝ))
  | .three r => .ok r
  | .two _ => .error .unpack
  | .none => .error .unpack

/-- `sample` up to the links and weights of the graph (`sparse/models/random.py:329-401`,
`models.py:871-943`,
`spark/models.py:1232-1304`) for a finite link probability; binary links have value 1.  The
argument `selfloops` is not used. The default strengths are the placeholders `empty_index`, which
numba refuses to sum. -/
def sample (o : Obj) (weights : Weights) (_selfloops : Option Bool) (u w : ℕ → ℕ → ℝ) :
    Except Err (List ((ℕ × ℕ) × ℝ)) :=
  match o.param with
  | none => .error .notFitted
  | some (p, q) =>
    match weights with
    | .none =>
      .ok ((binary_sample p.toReal o.num_vertices o.selfloops u).map (fun e => (e, 1)))
    | .random =>
      match o.discrete_weights with
      | none => .error .attribute
      | some d => weighted_call p.toReal q d o.num_vertices o.selfloops u w >>= unpack3
    | .cremb so si =>
      match so, si with
      | some so, some si =>
        match cremb_sample p.toReal o.num_vertices so si o.selfloops u w with
        | .error e => .error e
        | .ok r => unpack3 r
      | _, _ => .error .typing
    | .other => .error .badWeights

end Rand

end

end Verif
