import Verif.Random.Model

/-!
# The query methods of `RandomDiGraph` as a state machine

The queries of the random ensemble in all three backends: those that the class defines
(`Random/Model.lean`) and the inherited `expected_av_nn_degree`.  The class does not cache degrees;
`exp_num_edges` is written but never read.  The only cache is that of `expected_av_nn_degree`.
-/

namespace Verif

noncomputable section

open XR DiGraphEnsemble

namespace Rand

/-- The object and the attributes `"exp_av_" + ndir + "_nn_d_" + ddir`, indexed by `ndir`, `ddir`. -/
structure St where
  obj : Obj
  exp_av : Dir → Dir → Option (ℕ → XR)

/-- A newly constructed object. -/
def new (o : Obj) : St := ⟨o, fun _ _ => none⟩

/-- The degree selected by `ddir`
(`/repo/src/graph_ensembles/sparse/models/ensembles.py:255-262`,
`/repo/src/graph_ensembles/models.py:260-267`, `/repo/src/graph_ensembles/spark/models.py:291-298`). -/
def degreeOf (o : Obj) (ddir : Dir) : Except Err (ℕ → XR) :=
  match ddir with
  | .out => expected_out_degree o
  | .inn => expected_in_degree o
  | .outIn => expected_degree o
  | .underscored | .other => .error .badDegree

/-- `setattr(self, name, res)` -/
def setAv (ndir ddir : Dir) (v : ℕ → XR) (s : St) : St :=
  { s with exp_av := fun a b => if a = ndir ∧ b = ddir then some v else s.exp_av a b }

/-- `return getattr(self, name)` -/
def getAv (ndir ddir : Dir) (s : St) : Except Err (ℕ → XR) × St :=
  match s.exp_av ndir ddir with
  | some v => (.ok v, s)
  | none => (.error .attribute, s)

/-- `expected_av_nn_degree` (`/repo/src/graph_ensembles/sparse/models/ensembles.py:229-281`,
`/repo/src/graph_ensembles/models.py:235-287`, `/repo/src/graph_ensembles/spark/models.py:264-316`).
The deletion of cached degrees has no effect, since there are none. -/
def expected_av_nn_degree (ddir ndir : Dir) (selfloops : Option Bool)
    (deg_recompute recompute : Bool) (s : St) : Except Err (ℕ → XR) × St :=
  match s.obj.param with
  | none => (.error .notFitted, s)
  | some _ =>
    if (s.exp_av ndir.key ddir.key).isNone || recompute || deg_recompute then
      let tmp_self := s.obj.selfloops
      let selfloops := selfloops.getD s.obj.selfloops
      let o := { s.obj with selfloops := selfloops }
      match degreeOf o ddir with
      | .error e => (.error e, { s with obj := o })
      | .ok deg =>
        match expected_av_nn_property o o.num_vertices deg ndir (some selfloops) with
        | (o', .error e) => (.error e, { s with obj := o' })
        | (o', .ok res) =>
          getAv ndir.key ddir.key
            (setAv ndir.key ddir.key res { s with obj := { o' with selfloops := tmp_self } })
    else getAv ndir.key ddir.key s

/-- A call; `setLoops` is the assignment `ens.selfloops = b`.  The arguments `recompute` and
`deg_recompute` of the other methods are not read. -/
inductive Op where
  | fit
  | setLoops (b : Bool)
  | numEdges
  | totalWeight
  | degree
  | outDegree
  | inDegree
  | avNnProp (len : ℕ) (prop : ℕ → XR) (ndir : Dir) (selfloops : Option Bool)
  | avNnDegree (ddir ndir : Dir) (selfloops : Option Bool) (deg_recompute recompute : Bool)

/-- What a call returns. -/
inductive Val where
  | none
  | num (v : XR)
  | arr (v : ℕ → XR)

/-- One call: result or exception, and the state after it. -/
def call (s : St) : Op → Except Err Val × St
  | .fit =>
    match fit s.obj with
    | .error e => (.error e, s)
    | .ok o => (.ok .none, { s with obj := o })
  | .setLoops b => (.ok .none, { s with obj := { s.obj with selfloops := b } })
  | .numEdges => ((expected_num_edges s.obj).map .num, s)
  | .totalWeight => ((expected_total_weight s.obj).map .num, s)
  | .degree => ((expected_degree s.obj).map .arr, s)
  | .outDegree => ((expected_out_degree s.obj).map .arr, s)
  | .inDegree => ((expected_in_degree s.obj).map .arr, s)
  | .avNnProp len prop ndir sl =>
    let r := expected_av_nn_property s.obj len prop ndir sl
    (r.2.map .arr, { s with obj := r.1 })
  | .avNnDegree ddir ndir sl dr r =>
    let r := expected_av_nn_degree ddir ndir sl dr r s
    (r.1.map .arr, r.2)

/-- A history of calls: results in order and final state. -/
def run : List Op → St → List (Except Err Val) × St
  | [], s => ([], s)
  | op :: ops, s =>
    let r := call s op
    let t := run ops r.2
    (r.1 :: t.1, t.2)

end Rand

end

end Verif
