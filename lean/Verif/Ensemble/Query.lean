import Verif.Ensemble.Models

/-!
# The query methods of an ensemble as a state machine

`/repo/src/graph_ensembles/sparse/models/ensembles.py:109-281`, identical in
`/repo/src/graph_ensembles/models.py:110-290`.  The attributes created and deleted with
`hasattr` / `del` / `setattr` are `Option` fields.  A method call maps a state to a result or an
exception *and* a state: an exception does not undo the changes made before it was raised.
-/

namespace Verif

noncomputable section

open XR DiGraphEnsemble

namespace Query

/-- The exceptions raised by the query methods. -/
inductive Err where
  /-- `Exception("Model must be fitted beforehand.")` -/
  | notFitted
  /-- `ValueError`: property array of the wrong length -/
  | badShape
  /-- `ValueError("Neighbourhood direction not recognised.")` -/
  | badNdir
  /-- `ValueError("Degree type not recognised.")` -/
  | badDdir
  /-- `AssertionError("Got a av_nn for an empty neighbourhood.")` -/
  | emptyNeighbourhood
  /-- `AttributeError` of a missing attribute -/
  | attribute
  deriving DecidableEq

/-- The mutable attributes of an ensemble that the queries read or write. -/
structure St (δ : Type) where
  param : Option δ
  selfloops : Bool
  exp_num_edges : Option XR
  exp_degree : Option (ℕ → XR)
  exp_out_degree : Option (ℕ → XR)
  exp_in_degree : Option (ℕ → XR)
  /-- attribute `"exp_av_" + ndir + "_nn_d_" + ddir`, indexed by `ndir`, `ddir` -/
  exp_av : Dir → Dir → Option (ℕ → XR)

/-- A freshly constructed, not yet fitted ensemble. -/
def init (δ : Type) (selfloops : Bool) : St δ :=
  ⟨none, selfloops, none, none, none, none, fun _ _ => none⟩

/-- A method: result or exception, together with the new state. -/
abbrev M (δ α : Type) := St δ → Except Err α × St δ

/-- Sequencing: an exception aborts, keeping the state. -/
def M.bind {δ α β : Type} (m : M δ α) (f : α → M δ β) : M δ β := fun s =>
  match m s with
  | (.ok a, s') => f a s'
  | (.error e, s') => (.error e, s')

/-- The ensemble with parameter `θ`. -/
def at_ (E : Ens) (θ : E.δ) : Ens := { E with param := θ }

/-- `expected_num_edges`
(`/repo/src/graph_ensembles/sparse/models/ensembles.py:109-124`). -/
def expected_num_edges (E : Ens) (n : ℕ) (recompute : Bool) : M E.δ XR := fun s =>
  match s.param with
  | none => (.error .notFitted, s)
  | some θ =>
    let s' := if s.exp_num_edges.isNone || recompute then
        { s with exp_num_edges := some ((at_ E θ).exp_edges n s.selfloops) } else s
    match s'.exp_num_edges with
    | some v => (.ok v, s')
    | none => (.error .attribute, s')

/-- `expected_degree` (`/repo/src/graph_ensembles/sparse/models/ensembles.py:126-145`). -/
def expected_degree (E : Ens) (n : ℕ) (recompute : Bool) : M E.δ (ℕ → XR) := fun s =>
  match s.param with
  | none => (.error .notFitted, s)
  | some θ =>
    let s' := if s.exp_degree.isNone || recompute then
        let res := (at_ E θ).exp_degrees n s.selfloops
        { s with exp_degree := some res.exp_d, exp_out_degree := some res.exp_d_out,
                 exp_in_degree := some res.exp_d_in }
      else s
    match s'.exp_degree with
    | some v => (.ok v, s')
    | none => (.error .attribute, s')

/-- `return self._exp_out_degree` -/
def getOut {δ : Type} : M δ (ℕ → XR) := fun s =>
  match s.exp_out_degree with
  | some v => (.ok v, s)
  | none => (.error .attribute, s)

/-- `return self._exp_in_degree` -/
def getIn {δ : Type} : M δ (ℕ → XR) := fun s =>
  match s.exp_in_degree with
  | some v => (.ok v, s)
  | none => (.error .attribute, s)

/-- `expected_out_degree` (`/repo/src/graph_ensembles/sparse/models/ensembles.py:147-152`). -/
def expected_out_degree (E : Ens) (n : ℕ) (recompute : Bool) : M E.δ (ℕ → XR) := fun s =>
  if s.exp_out_degree.isNone || recompute then
    (expected_degree E n recompute).bind (fun _ => getOut) s
  else getOut s

/-- `expected_in_degree` (`/repo/src/graph_ensembles/sparse/models/ensembles.py:154-159`). -/
def expected_in_degree (E : Ens) (n : ℕ) (recompute : Bool) : M E.δ (ℕ → XR) := fun s =>
  if s.exp_in_degree.isNone || recompute then
    (expected_degree E n recompute).bind (fun _ => getIn) s
  else getIn s

/-- The degree selected by a direction string, `bad` being the exception for an unknown one
(`/repo/src/graph_ensembles/sparse/models/ensembles.py:187-194` and `255-262`). -/
def degreeByDir (E : Ens) (n : ℕ) (bad : Err) (dir : Dir) (recompute : Bool) : M E.δ (ℕ → XR) :=
  match dir with
  | .out => expected_out_degree E n recompute
  | .inn => expected_in_degree E n recompute
  | .outIn => expected_degree E n recompute
  | .underscored | .other => fun s => (.error bad, s)

/-- `self.selfloops = tmp_self` and deletion of the degree caches when the setting had been
changed (`/repo/src/graph_ensembles/sparse/models/ensembles.py:217-225` and `271-279`). -/
def restore {δ : Type} (tmp_self : Bool) (s : St δ) : St δ :=
  if tmp_self ≠ s.selfloops then
    { s with selfloops := tmp_self, exp_degree := none, exp_out_degree := none,
             exp_in_degree := none }
  else s

/-- `self.selfloops = selfloops` -/
def setSelfloops {δ : Type} (b : Bool) (s : St δ) : St δ := { s with selfloops := b }

/-- `av_nn[ind] = av_nn[ind] / deg[ind]` with `ind = deg != 0`
(`/repo/src/graph_ensembles/sparse/models/ensembles.py:209,214`). -/
def average (av_nn deg : ℕ → XR) : ℕ → XR := fun i =>
  if (deg i).isZero then av_nn i else av_nn i / deg i

/-- `expected_av_nn_property`
(`/repo/src/graph_ensembles/sparse/models/ensembles.py:161-227`).  `len` is `prop.shape[0]`. -/
def expected_av_nn_property (jUndef : ℕ) (E : Ens) (n : ℕ) (len : ℕ) (prop : ℕ → XR) (ndir : Dir)
    (selfloops : Option Bool) (deg_recompute : Bool) : M E.δ (ℕ → XR) := fun s =>
  match s.param with
  | none => (.error .notFitted, s)
  | some θ =>
    if len ≠ n then (.error .badShape, s)
    else
      let tmp_self := s.selfloops
      let selfloops := selfloops.getD s.selfloops
      let changed : Bool := selfloops != s.selfloops
      let deg_recompute := deg_recompute || changed
      let s := setSelfloops selfloops s
      (degreeByDir E n .badNdir ndir deg_recompute).bind (fun deg s =>
        match DiGraphEnsemble.exp_av_nn_prop jUndef E.p_ij θ n E.prop_out E.prop_in E.prop_dyad
            prop ndir s.selfloops with
        | .error _ => (.error .badNdir, s)
        | .ok av_nn =>
          if (List.range n).all (fun i => !(deg i).isZero || (av_nn i).isZero) then
            (.ok (average av_nn deg), restore tmp_self s)
          else (.error .emptyNeighbourhood, s)) s

/-- `setattr(self, name, res)`. -/
def setAv {δ : Type} (ndir ddir : Dir) (res : ℕ → XR) (s : St δ) : St δ :=
  { s with exp_av := fun a b => if a = ndir ∧ b = ddir then some res else s.exp_av a b }

/-- `return getattr(self, name)`. -/
def getAv {δ : Type} (ndir ddir : Dir) : M δ (ℕ → XR) := fun s =>
  match s.exp_av ndir ddir with
  | some v => (.ok v, s)
  | none => (.error .attribute, s)

/-- `expected_av_nn_degree`
(`/repo/src/graph_ensembles/sparse/models/ensembles.py:229-281`). -/
def expected_av_nn_degree (jUndef : ℕ) (E : Ens) (n : ℕ) (ddir ndir : Dir)
    (selfloops : Option Bool) (deg_recompute recompute : Bool) : M E.δ (ℕ → XR) := fun s =>
  match s.param with
  | none => (.error .notFitted, s)
  | some _ =>
    if (s.exp_av ndir.key ddir.key).isNone || recompute || deg_recompute then
      let tmp_self := s.selfloops
      let selfloops := selfloops.getD s.selfloops
      let changed : Bool := selfloops != s.selfloops
      let deg_recompute := deg_recompute || changed
      let s := setSelfloops selfloops s
      (degreeByDir E n .badDdir ddir deg_recompute).bind (fun deg =>
        (expected_av_nn_property jUndef E n n deg ndir (some selfloops) false).bind (fun res s =>
          getAv ndir.key ddir.key (restore tmp_self (setAv ndir.key ddir.key res s)))) s
    else getAv ndir.key ddir.key s

/-- The calls a user can make. -/
inductive Op (δ : Type) where
  /-- `fit` assigns a new parameter (`/repo/src/graph_ensembles/sparse/models/fitness.py:231`) -/
  | fit (θ : δ)
  | numEdges (recompute : Bool)
  | degree (recompute : Bool)
  | outDegree (recompute : Bool)
  | inDegree (recompute : Bool)
  | avNnProp (len : ℕ) (prop : ℕ → XR) (ndir : Dir) (selfloops : Option Bool)
      (deg_recompute : Bool)
  | avNnDegree (ddir ndir : Dir) (selfloops : Option Bool) (deg_recompute recompute : Bool)

/-- What a call returns. -/
inductive Ret where
  | none
  | num (v : XR)
  | arr (v : ℕ → XR)

/-- Postprocess the result of a method. -/
def M.map {δ α β : Type} (f : α → β) (m : M δ α) : M δ β := m.bind (fun a s => (.ok (f a), s))

/-- One call. -/
def call (jUndef : ℕ) (E : Ens) (n : ℕ) : Op E.δ → M E.δ Ret
  | .fit θ => fun s => (.ok .none, { s with param := some θ })
  | .numEdges r => M.map .num (expected_num_edges E n r)
  | .degree r => M.map .arr (expected_degree E n r)
  | .outDegree r => M.map .arr (expected_out_degree E n r)
  | .inDegree r => M.map .arr (expected_in_degree E n r)
  | .avNnProp len prop ndir sl dr => M.map .arr (expected_av_nn_property jUndef E n len prop ndir sl dr)
  | .avNnDegree ddir ndir sl dr r => M.map .arr (expected_av_nn_degree jUndef E n ddir ndir sl dr r)

/-- A history of calls: the results in order and the final state (exceptions are caught by the
caller, who goes on). -/
def run (jUndef : ℕ) (E : Ens) (n : ℕ) : List (Op E.δ) → St E.δ → List (Except Err Ret) × St E.δ
  | [], s => ([], s)
  | op :: ops, s =>
    let r := call jUndef E n op s
    let rest := run jUndef E n ops r.2
    (r.1 :: rest.1, rest.2)

end Query

end

end Verif
