import Verif.Ensemble.Query
import Verif.Solver.Fit

/-!
# Arrays shared between an ensemble and its caller

The rest of the model passes arrays by value.  Here they are passed as in Python, by reference: a
memory holds the arrays, and the attributes of an ensemble, the arguments of its methods and their
results are addresses.  The single-layer models with node properties are covered (`FitnessModel`
and `ScaleInvariantModel`, sparse and dense): constructor, `fit`, and the query methods of
`/repo/src/graph_ensembles/sparse/models/ensembles.py:109-326` (identical in
`/repo/src/graph_ensembles/models.py:115-331`).  Numbers are immutable in Python and stay values.
-/

namespace Verif

noncomputable section

open XR DiGraphEnsemble

namespace Alias

/-- The identity of an array object. -/
abbrev Addr := ℕ

/-- The arrays in existence: those with an address below `next`. -/
structure Mem where
  cell : Addr → ℕ → XR
  next : Addr

/-- Memory after `a[i] = v`, or after replacing all entries of `a`. -/
def Mem.put (m : Mem) (a : Addr) (w : ℕ → XR) : Mem := { m with cell := Function.update m.cell a w }

/-- A new array. -/
def Mem.alloc (m : Mem) (w : ℕ → XR) : Mem :=
  { cell := Function.update m.cell m.next w, next := m.next + 1 }

/-- What belongs to the class of the ensemble and is not an array: the functions of a pair of
vertices (of one parameter), `num_vertices` and `num_edges`. -/
structure Cls where
  (ζ : Type)
  p_ij : XR → XR → XR → ζ → XR
  logp : XR → XR → XR → ζ → XR
  log1mp : XR → XR → XR → ζ → XR
  p_jac_ij : XR → XR → XR → ζ → XR × XR
  prop_dyad : ℕ → ℕ → ζ
  n : ℕ
  num_edges : Option ℝ

/-- The ensemble for given contents of the property arrays and of the parameter array. -/
@[reducible] def Cls.ens (c : Cls) (x y : ℕ → XR) (θ : XR) : Ens :=
  ⟨XR, XR, XR, c.ζ, c.p_ij, c.logp, c.log1mp, θ, x, y, c.prop_dyad⟩

/-- The attributes of an ensemble: arrays by address. -/
structure Obj where
  prop_out : Addr
  prop_in : Addr
  param : Option Addr
  selfloops : Bool
  exp_num_edges : Option XR
  exp_degree : Option Addr
  exp_out_degree : Option Addr
  exp_in_degree : Option Addr
  exp_av : Dir → Dir → Option Addr

/-- Memory and ensemble. -/
structure S where
  mem : Mem
  obj : Obj

/-- The constructor, for arguments that pass its checks: `setattr(self, name, kwargs[name])`
stores the given objects, a `param` that is a number is put into a new array
(`/repo/src/graph_ensembles/sparse/models/fitness.py:71-84`, `148-150`;
`/repo/src/graph_ensembles/models.py:1092-1105`, `1169-1171`).  When a graph is given instead,
`self.prop_out = g.out_strength()` (`fitness.py:58-59`) stores the array cached by the graph. -/
inductive Param where
  | none
  | number (v : XR)
  | array (a : Addr)

def construct (m : Mem) (prop_out prop_in : Addr) (param : Param) (selfloops : Bool) : S :=
  match param with
  | .none => ⟨m, ⟨prop_out, prop_in, none, selfloops, none, none, none, none, fun _ _ => none⟩⟩
  | .number v => ⟨m.alloc (fun _ => v),
      ⟨prop_out, prop_in, some m.next, selfloops, none, none, none, none, fun _ _ => none⟩⟩
  | .array a => ⟨m, ⟨prop_out, prop_in, some a, selfloops, none, none, none, none,
      fun _ _ => none⟩⟩

/-- A method: result or exception, with memory and ensemble afterwards. -/
abbrev M (α : Type) := S → Except Query.Err α × S

def M.bind {α β : Type} (m : M α) (f : α → M β) : M β := fun s =>
  match m s with
  | (.ok a, s') => f a s'
  | (.error e, s') => (.error e, s')

/-- What the loops read: the property arrays and the parameter array `a`. -/
def S.ens (c : Cls) (s : S) (a : Addr) : Ens :=
  c.ens (s.mem.cell s.obj.prop_out) (s.mem.cell s.obj.prop_in) (s.mem.cell a 0)

/-- `expected_num_edges` (`/repo/src/graph_ensembles/sparse/models/ensembles.py:109-124`). -/
def expected_num_edges (c : Cls) (recompute : Bool) : M XR := fun s =>
  match s.obj.param with
  | none => (.error .notFitted, s)
  | some a =>
    let s' := if s.obj.exp_num_edges.isNone || recompute then
        { s with obj.exp_num_edges := some ((s.ens c a).exp_edges c.n s.obj.selfloops) } else s
    match s'.obj.exp_num_edges with
    | some v => (.ok v, s')
    | none => (.error .attribute, s')

/-- `expected_degree` (`/repo/src/graph_ensembles/sparse/models/ensembles.py:126-145`): the loop
returns three new arrays, which become attributes, and the attribute itself is returned. -/
def expected_degree (c : Cls) (recompute : Bool) : M Addr := fun s =>
  match s.obj.param with
  | none => (.error .notFitted, s)
  | some a =>
    let s' := if s.obj.exp_degree.isNone || recompute then
        let res := (s.ens c a).exp_degrees c.n s.obj.selfloops
        { mem := ((s.mem.alloc res.exp_d).alloc res.exp_d_out).alloc res.exp_d_in
          obj := { s.obj with exp_degree := some s.mem.next, exp_out_degree := some (s.mem.next + 1),
                              exp_in_degree := some (s.mem.next + 2) } }
      else s
    match s'.obj.exp_degree with
    | some v => (.ok v, s')
    | none => (.error .attribute, s')

/-- `return self._exp_out_degree` -/
def getOut : M Addr := fun s =>
  match s.obj.exp_out_degree with
  | some v => (.ok v, s)
  | none => (.error .attribute, s)

/-- `return self._exp_in_degree` -/
def getIn : M Addr := fun s =>
  match s.obj.exp_in_degree with
  | some v => (.ok v, s)
  | none => (.error .attribute, s)

/-- `expected_out_degree` (`/repo/src/graph_ensembles/sparse/models/ensembles.py:147-152`). -/
def expected_out_degree (c : Cls) (recompute : Bool) : M Addr := fun s =>
  if s.obj.exp_out_degree.isNone || recompute then
    (expected_degree c recompute).bind (fun _ => getOut) s
  else getOut s

/-- `expected_in_degree` (`/repo/src/graph_ensembles/sparse/models/ensembles.py:154-159`). -/
def expected_in_degree (c : Cls) (recompute : Bool) : M Addr := fun s =>
  if s.obj.exp_in_degree.isNone || recompute then
    (expected_degree c recompute).bind (fun _ => getIn) s
  else getIn s

/-- The degree selected by a direction string
(`/repo/src/graph_ensembles/sparse/models/ensembles.py:187-194` and `255-262`). -/
def degreeByDir (c : Cls) (bad : Query.Err) (dir : Dir) (recompute : Bool) : M Addr :=
  match dir with
  | .out => expected_out_degree c recompute
  | .inn => expected_in_degree c recompute
  | .outIn => expected_degree c recompute
  | .underscored | .other => fun s => (.error bad, s)

/-- `self.selfloops = tmp_self` and deletion of the degree attributes
(`/repo/src/graph_ensembles/sparse/models/ensembles.py:217-225` and `271-279`). -/
def restore (tmp_self : Bool) (s : S) : S :=
  if tmp_self ≠ s.obj.selfloops then
    { s with obj := { s.obj with selfloops := tmp_self, exp_degree := none, exp_out_degree := none,
                                 exp_in_degree := none } }
  else s

/-- `self.selfloops = selfloops` -/
def setSelfloops (b : Bool) (s : S) : S := { s with obj.selfloops := b }

/-- `expected_av_nn_property` (`/repo/src/graph_ensembles/sparse/models/ensembles.py:161-227`);
`prop` is the array given, `len` is `prop.shape[0]`.  `exp_av_nn_prop` returns a new array, into
which the averages are then written. -/
def expected_av_nn_property (jUndef : ℕ) (c : Cls) (len : ℕ) (prop : Addr) (ndir : Dir)
    (selfloops : Option Bool) (deg_recompute : Bool) : M Addr := fun s =>
  match s.obj.param with
  | none => (.error .notFitted, s)
  | some a =>
    if len ≠ c.n then (.error .badShape, s)
    else
      let tmp_self := s.obj.selfloops
      let selfloops := selfloops.getD s.obj.selfloops
      let changed : Bool := selfloops != s.obj.selfloops
      let deg_recompute := deg_recompute || changed
      let s := setSelfloops selfloops s
      (degreeByDir c .badNdir ndir deg_recompute).bind (fun deg s =>
        match DiGraphEnsemble.exp_av_nn_prop jUndef c.p_ij (s.mem.cell a 0) c.n
            (s.mem.cell s.obj.prop_out) (s.mem.cell s.obj.prop_in) c.prop_dyad (s.mem.cell prop) ndir
            s.obj.selfloops with
        | .error _ => (.error .badNdir, s)
        | .ok av_nn =>
          if (List.range c.n).all (fun i => !(s.mem.cell deg i).isZero || (av_nn i).isZero) then
            (.ok s.mem.next,
              restore tmp_self { s with mem := s.mem.alloc (Query.average av_nn (s.mem.cell deg)) })
          else (.error .emptyNeighbourhood, s)) s

/-- `setattr(self, name, res)`. -/
def setAv (ndir ddir : Dir) (res : Addr) (s : S) : S :=
  { s with obj.exp_av := fun a b => if a = ndir ∧ b = ddir then some res else s.obj.exp_av a b }

/-- `return getattr(self, name)`. -/
def getAv (ndir ddir : Dir) : M Addr := fun s =>
  match s.obj.exp_av ndir ddir with
  | some v => (.ok v, s)
  | none => (.error .attribute, s)

/-- `expected_av_nn_degree` (`/repo/src/graph_ensembles/sparse/models/ensembles.py:229-281`): the
stored degree array is passed on as the property. -/
def expected_av_nn_degree (jUndef : ℕ) (c : Cls) (ddir ndir : Dir) (selfloops : Option Bool)
    (deg_recompute recompute : Bool) : M Addr := fun s =>
  match s.obj.param with
  | none => (.error .notFitted, s)
  | some _ =>
    if (s.obj.exp_av ndir.key ddir.key).isNone || recompute || deg_recompute then
      let tmp_self := s.obj.selfloops
      let selfloops := selfloops.getD s.obj.selfloops
      let changed : Bool := selfloops != s.obj.selfloops
      let deg_recompute := deg_recompute || changed
      let s := setSelfloops selfloops s
      (degreeByDir c .badDdir ddir deg_recompute).bind (fun deg =>
        (expected_av_nn_property jUndef c c.n deg ndir (some selfloops) false).bind (fun res s =>
          getAv ndir.key ddir.key (restore tmp_self (setAv ndir.key ddir.key res s)))) s
    else getAv ndir.key ddir.key s

/-- The loop of `log_likelihood` on a graph of the right size
(`/repo/src/graph_ensembles/sparse/models/ensembles.py:283-326`; the argument handling is in
`Ensemble/Method.lean`). -/
def log_likelihood (c : Cls) (link : ℕ → ℕ → Bool) : M XR := fun s =>
  match s.obj.param with
  | none => (.error .notFitted, s)
  | some a => (.ok ((s.ens c a).likelihood c.n link s.obj.selfloops), s)

/-- Argument `x0` of `fit`. -/
inductive Start where
  | none
  | scalar (v : XR) (isInt : Bool)
  | array (a : Addr) (len : ℕ) (isInt numeric : Bool)

/-- The contents of `x0`. -/
def Start.read (m : Mem) : Start → Fit.X0
  | .none => .none
  | .scalar v b => .scalar v b
  | .array a len b num => .array ((List.range len).map (m.cell a)) b num

/-- `density_fit_fun` (`/repo/src/graph_ensembles/sparse/models/fitness.py:238-251`). -/
def S.func (c : Cls) (s : S) : XR → XR × XR :=
  Fit.exp_edges_f_jac (fun d i j => c.p_jac_ij d (s.mem.cell s.obj.prop_out i)
    (s.mem.cell s.obj.prop_in j) (c.prop_dyad i j)) c.n s.obj.selfloops

/-- Whether the array `sol.x` returned by the solver is the array `x0` of the caller.  The solver
starts with `x = x0` (`/repo/src/graph_ensembles/solver.py:115`) and every iteration binds `x` to
a new array, or to one of the arrays made at lines 127-128 (lines 190-193: only while no point has
replaced them), so that this is the case exactly when there was no iteration. -/
def Start.kept (sol : Solver.Solution) : Start → Option Addr
  | .array a _ _ _ => if sol.n_iter = 0 then some a else Option.none
  | _ => Option.none

/-- `fit` (`/repo/src/graph_ensembles/sparse/models/fitness.py:165-236`,
`/repo/src/graph_ensembles/models.py:1186-1257`): `self.param = sol.x`. -/
def fit (c : Cls) (x0 : Start) (method : Fit.Method) (o : Fit.Opts) (s : S) :
    Except Fit.Err Unit × S :=
  match Fit.fitSingle (s.func c) c.num_edges (x0.read s.mem) method o with
  | .error e => (.error e, s)
  | .ok sol =>
    match x0.kept sol with
    | some a => (.ok (), { s with obj.param := some a })
    | none => (.ok (), { mem := s.mem.alloc (fun _ => sol.x)
                         obj := { s.obj with param := some s.mem.next } })

/-! ## Histories -/

/-- The calls a user can make. -/
inductive Call where
  | fit (x0 : Start) (method : Fit.Method) (o : Fit.Opts)
  | numEdges (recompute : Bool)
  | degree (recompute : Bool)
  | outDegree (recompute : Bool)
  | inDegree (recompute : Bool)
  | avNnProp (len : ℕ) (prop : Addr) (ndir : Dir) (selfloops : Option Bool) (deg_recompute : Bool)
  | avNnDegree (ddir ndir : Dir) (selfloops : Option Bool) (deg_recompute recompute : Bool)
  | logLikelihood (link : ℕ → ℕ → Bool)

/-- What a call gives back; `A` is the type of arrays. -/
inductive Out (A : Type) where
  | none
  | num (v : XR)
  | arr (a : A)
  | raisedQuery (e : Query.Err)
  | raisedFit (e : Fit.Err)

/-- Result of a query. -/
def Out.of {A B : Type} (f : B → Out A) : Except Query.Err B → Out A
  | .ok b => f b
  | .error e => .raisedQuery e

/-- One call. -/
def call (jUndef : ℕ) (c : Cls) : Call → S → Out Addr × S
  | .fit x0 method o => fun s =>
    match fit c x0 method o s with
    | (.ok _, s') => (.none, s')
    | (.error e, s') => (.raisedFit e, s')
  | .numEdges r => fun s => Prod.map (Out.of .num) id (expected_num_edges c r s)
  | .degree r => fun s => Prod.map (Out.of .arr) id (expected_degree c r s)
  | .outDegree r => fun s => Prod.map (Out.of .arr) id (expected_out_degree c r s)
  | .inDegree r => fun s => Prod.map (Out.of .arr) id (expected_in_degree c r s)
  | .avNnProp len prop ndir sl dr => fun s =>
    Prod.map (Out.of .arr) id (expected_av_nn_property jUndef c len prop ndir sl dr s)
  | .avNnDegree ddir ndir sl dr r => fun s =>
    Prod.map (Out.of .arr) id (expected_av_nn_degree jUndef c ddir ndir sl dr r s)
  | .logLikelihood link => fun s => Prod.map (Out.of .num) id (log_likelihood c link s)

/-- A sequence of calls; exceptions are caught by the caller, who goes on. -/
def run (jUndef : ℕ) (c : Cls) : List Call → S → List (Out Addr) × S
  | [], s => ([], s)
  | k :: ks, s =>
    let r := call jUndef c k s
    let rest := run jUndef c ks r.2
    (r.1 :: rest.1, rest.2)

/-- The caller writes into an array. -/
def S.put (s : S) (a : Addr) (w : ℕ → XR) : S := { s with mem := s.mem.put a w }

end Alias

end

end Verif
