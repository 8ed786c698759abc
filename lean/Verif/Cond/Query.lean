import Verif.Cond.Model
import Verif.Ensemble.Query

/-!
# The query methods of `ConditionalInvariantModel` as a state machine

`ConditionalInvariantModel` overrides `expected_num_edges`, `expected_degree`,
`expected_out_degree` and `expected_in_degree`
(`/repo/src/graph_ensembles/sparse/models/conditional.py:215-268`) and inherits
`expected_av_nn_property` and `expected_av_nn_degree` from `DiGraphEnsemble`
(`/repo/src/graph_ensembles/sparse/models/ensembles.py:161-281`).  The inherited methods call
`self.exp_av_nn_prop` with `self.p_ij`, the link probability inherited from `ScaleInvariantModel`,
not with `self.cond_p_ij`.

The mutable attributes are those of `Query.St`; the object `o : Obj` supplies the fields no query
changes (its own `param` and `selfloops` are not read, those of the state are).
-/

namespace Verif.Cond.Calls

noncomputable section

open XR Verif.Query DiGraphEnsemble

/-- The exceptions of the query methods: those of the methods of `DiGraphEnsemble` and those of
the compiled loops of the conditional model. -/
inductive Err where
  | query (e : Verif.Query.Err)
  | loop (e : Cond.Err)

/-- The mutable attributes. -/
abbrev State := Verif.Query.St XR

/-- A method: result or exception, together with the new state. -/
abbrev M (α : Type) := State → Except Err α × State

/-- Sequencing: an exception aborts, keeping the state. -/
def M.bind {α β : Type} (m : M α) (f : α → M β) : M β := fun s =>
  match m s with
  | (.ok a, s') => f a s'
  | (.error e, s') => (.error e, s')

/-- Postprocess the result of a method. -/
def M.map {α β : Type} (f : α → β) (m : M α) : M β := m.bind (fun a s => (.ok (f a), s))

/-- The object with the parameter and the self-loop setting of a state. -/
def at_ (o : Obj) (θ : XR) (b : Bool) : Obj := { o with param := some θ, selfloops := b }

/-- `expected_num_edges`
(`/repo/src/graph_ensembles/sparse/models/conditional.py:215-232`). -/
def expected_num_edges (o : Obj) (recompute : Bool) : M XR := fun s =>
  match s.param with
  | none => (.error (.query .notFitted), s)
  | some θ =>
    if s.exp_num_edges.isNone || recompute then
      match exp_edges (at_ o θ s.selfloops) θ with
      | .error e => (.error (.loop e), s)
      | .ok v => (.ok v, { s with exp_num_edges := some v })
    else
      match s.exp_num_edges with
      | some v => (.ok v, s)
      | none => (.error (.query .attribute), s)

/-- `expected_degree` (`/repo/src/graph_ensembles/sparse/models/conditional.py:234-254`). -/
def expected_degree (o : Obj) (recompute : Bool) : M (ℕ → XR) := fun s =>
  match s.param with
  | none => (.error (.query .notFitted), s)
  | some θ =>
    if s.exp_degree.isNone || recompute then
      match exp_degrees (at_ o θ s.selfloops) θ with
      | .error e => (.error (.loop e), s)
      | .ok res =>
        (.ok res.exp_d,
          { s with exp_degree := some res.exp_d, exp_out_degree := some res.exp_d_out,
                   exp_in_degree := some res.exp_d_in })
    else
      match s.exp_degree with
      | some v => (.ok v, s)
      | none => (.error (.query .attribute), s)

/-- `return self._exp_out_degree` -/
def getOut : M (ℕ → XR) := fun s =>
  match s.exp_out_degree with
  | some v => (.ok v, s)
  | none => (.error (.query .attribute), s)

/-- `return self._exp_in_degree` -/
def getIn : M (ℕ → XR) := fun s =>
  match s.exp_in_degree with
  | some v => (.ok v, s)
  | none => (.error (.query .attribute), s)

/-- `expected_out_degree` (`/repo/src/graph_ensembles/sparse/models/conditional.py:256-261`). -/
def expected_out_degree (o : Obj) (recompute : Bool) : M (ℕ → XR) := fun s =>
  if s.exp_out_degree.isNone || recompute then
    (expected_degree o recompute).bind (fun _ => getOut) s
  else getOut s

/-- `expected_in_degree` (`/repo/src/graph_ensembles/sparse/models/conditional.py:263-268`). -/
def expected_in_degree (o : Obj) (recompute : Bool) : M (ℕ → XR) := fun s =>
  if s.exp_in_degree.isNone || recompute then
    (expected_degree o recompute).bind (fun _ => getIn) s
  else getIn s

/-- The degree selected by a direction string, `bad` being the exception for an unknown one
(`/repo/src/graph_ensembles/sparse/models/ensembles.py:187-194` and `255-262`). -/
def degreeByDir (o : Obj) (bad : Verif.Query.Err) (dir : Dir) (recompute : Bool) :
    M (ℕ → XR) :=
  match dir with
  | .out => expected_out_degree o recompute
  | .inn => expected_in_degree o recompute
  | .outIn => expected_degree o recompute
  | .underscored | .other => fun s => (.error (.query bad), s)

/-- The call of `self.exp_av_nn_prop`
(`/repo/src/graph_ensembles/sparse/models/ensembles.py:197-206`): `self.p_ij` is the
unconditional probability and `self.prop_dyad` the constant `1.0`
(`/repo/src/graph_ensembles/sparse/models/conditional.py:1023-1027`). -/
def neighbourSum (jUndef : ℕ) (o : Obj) (θ : XR) (prop : ℕ → XR) (ndir : Dir) (b : Bool) :
    Except NNErr (ℕ → XR) :=
  exp_av_nn_prop jUndef Sparse.ScaleInvariantModel.p_ij θ o.n o.prop_out o.prop_in
    (fun _ _ => (1 : XR)) prop ndir b

/-- `expected_av_nn_property`
(`/repo/src/graph_ensembles/sparse/models/ensembles.py:161-227`).  `len` is `prop.shape[0]`. -/
def expected_av_nn_property (jUndef : ℕ) (o : Obj) (len : ℕ) (prop : ℕ → XR) (ndir : Dir)
    (selfloops : Option Bool) (deg_recompute : Bool) : M (ℕ → XR) := fun s =>
  match s.param with
  | none => (.error (.query .notFitted), s)
  | some θ =>
    if len ≠ o.n then (.error (.query .badShape), s)
    else
      let tmp_self := s.selfloops
      let selfloops := selfloops.getD s.selfloops
      let changed : Bool := selfloops != s.selfloops
      let deg_recompute := deg_recompute || changed
      (degreeByDir o .badNdir ndir deg_recompute).bind (fun deg s =>
        match neighbourSum jUndef o θ prop ndir s.selfloops with
        | .error _ => (.error (.query .badNdir), s)
        | .ok av_nn =>
          if (List.range o.n).all (fun i => !(deg i).isZero || (av_nn i).isZero) then
            (.ok (average av_nn deg), restore tmp_self s)
          else (.error (.query .emptyNeighbourhood), s)) (setSelfloops selfloops s)

/-- `return getattr(self, name)`. -/
def getAv (ndir ddir : Dir) : M (ℕ → XR) := fun s =>
  match s.exp_av ndir ddir with
  | some v => (.ok v, s)
  | none => (.error (.query .attribute), s)

/-- `expected_av_nn_degree`
(`/repo/src/graph_ensembles/sparse/models/ensembles.py:229-281`). -/
def expected_av_nn_degree (jUndef : ℕ) (o : Obj) (ddir ndir : Dir)
    (selfloops : Option Bool) (deg_recompute recompute : Bool) : M (ℕ → XR) := fun s =>
  match s.param with
  | none => (.error (.query .notFitted), s)
  | some _ =>
    if (s.exp_av ndir.key ddir.key).isNone || recompute || deg_recompute then
      let tmp_self := s.selfloops
      let selfloops := selfloops.getD s.selfloops
      let changed : Bool := selfloops != s.selfloops
      let deg_recompute := deg_recompute || changed
      (degreeByDir o .badDdir ddir deg_recompute).bind (fun deg =>
        (expected_av_nn_property jUndef o o.n deg ndir (some selfloops) false).bind (fun res s =>
          getAv ndir.key ddir.key (restore tmp_self (setAv ndir.key ddir.key res s))))
        (setSelfloops selfloops s)
    else getAv ndir.key ddir.key s

/-- One call.  `Op.fit θ` is a call of `fit` that ended with the parameter `θ`: `fit` changes no
other attribute read here
(`/repo/src/graph_ensembles/sparse/models/conditional.py:432-521`). -/
def call (jUndef : ℕ) (o : Obj) : Op XR → M Ret
  | .fit θ => fun s => (.ok .none, { s with param := some θ })
  | .numEdges r => M.map .num (expected_num_edges o r)
  | .degree r => M.map .arr (expected_degree o r)
  | .outDegree r => M.map .arr (expected_out_degree o r)
  | .inDegree r => M.map .arr (expected_in_degree o r)
  | .avNnProp len prop ndir sl dr =>
    M.map .arr (expected_av_nn_property jUndef o len prop ndir sl dr)
  | .avNnDegree ddir ndir sl dr r =>
    M.map .arr (expected_av_nn_degree jUndef o ddir ndir sl dr r)

/-- A history of calls: the results in order and the final state (exceptions are caught by the
caller, who goes on). -/
def run (jUndef : ℕ) (o : Obj) : List (Op XR) → State → List (Except Err Ret) × State
  | [], s => ([], s)
  | op :: ops, s =>
    let r := call jUndef o op s
    let rest := run jUndef o ops r.2
    (r.1 :: rest.1, rest.2)

/-- A model made with the self-loop setting `b` and fitted to the parameter `θ`. -/
def newly (θ : XR) (b : Bool) : State := { Verif.Query.init XR b with param := some θ }

end

end Verif.Cond.Calls
