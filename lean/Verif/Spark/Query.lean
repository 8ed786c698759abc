import Verif.Spark.Model
import Verif.Ensemble.Query

/-!
# The query methods of the Spark ensembles as a state machine

`/repo/src/graph_ensembles/spark/models.py:132-316` (single layer) and `1937-1967`, `2006-2063`,
`2128-2262` (multi-layer).  The attributes are those of `Verif.Query.St`.  The result of a job may
depend on the way the partial results are combined, so a method is a relation between the state
before the call, the result or exception, and the state after the call.
-/

namespace Verif

noncomputable section

open XR DiGraphEnsemble

namespace Spark.Query

open _root_.Verif.Query (St Err Op Ret M at_ getOut getIn restore setSelfloops average setAv getAv)

/-- A method: the possible outcomes. -/
abbrev R (δ α : Type) := St δ → Except Err α → St δ → Prop

/-- Sequencing: an exception aborts, keeping the state. -/
def R.bind {δ α β : Type} (m : R δ α) (f : α → R δ β) : R δ β := fun s r s'' =>
  (∃ e, m s (.error e) s'' ∧ r = .error e) ∨ ∃ a s', m s (.ok a) s' ∧ f a s' r s''

/-- Statements that run no job. -/
def ofM {δ α : Type} (m : M δ α) : R δ α := fun s r s' => m s = (r, s')

/-- The two classes. -/
inductive Cls where
  | single | multi

/-- The test of `expected_num_edges` whether to run the job
(`/repo/src/graph_ensembles/spark/models.py:137`, `1942`).  The multi-layer class tests for the
attribute `_exp_num_edges_label`; while `expected_num_edges_label` has not been called that
attribute does not exist and the job is run every time.  Histories with `expected_num_edges_label`
are treated in `Verif/Layer/Cached.lean`. -/
def Cls.compute : Cls → Bool → Bool → Bool
  | .single, cached, recompute => !cached || recompute
  | .multi, _, _ => true

/-- `expected_num_edges` (`/repo/src/graph_ensembles/spark/models.py:132-149`, `1937-1967`). -/
def ExpectedNumEdges (c : Cls) (E : Ens) (n p : ℕ) (recompute : Bool) : R E.δ XR := fun s r s' =>
  match s.param with
  | none => r = .error .notFitted ∧ s' = s
  | some θ =>
    if c.compute s.exp_num_edges.isSome recompute then
      ∃ v, Folds (· + ·) 0 (edgesTasks (at_ E θ) n p s.selfloops) v ∧
        s' = { s with exp_num_edges := some v } ∧ r = .ok v
    else
      s' = s ∧ match s.exp_num_edges with
        | some v => r = .ok v
        | none => r = .error .attribute

/-- `expected_degree` (`/repo/src/graph_ensembles/spark/models.py:151-180`, `2006-2049`). -/
def ExpectedDegree (E : Ens) (n p : ℕ) (recompute : Bool) : R E.δ (ℕ → XR) := fun s r s' =>
  match s.param with
  | none => r = .error .notFitted ∧ s' = s
  | some θ =>
    if s.exp_degree.isNone || recompute then
      ∃ res, Folds addDegrees ⟨zeros, zeros, zeros⟩ (degreeTasks (at_ E θ) n p s.selfloops) res ∧
        s' = { s with exp_degree := some res.exp_d, exp_out_degree := some res.exp_d_out,
                      exp_in_degree := some res.exp_d_in } ∧
        r = .ok res.exp_d
    else
      s' = s ∧ match s.exp_degree with
        | some v => r = .ok v
        | none => r = .error .attribute

/-- `expected_out_degree` (`/repo/src/graph_ensembles/spark/models.py:182-187`, `2051-2056`). -/
def ExpectedOutDegree (E : Ens) (n p : ℕ) (recompute : Bool) : R E.δ (ℕ → XR) := fun s =>
  if s.exp_out_degree.isNone || recompute then
    (ExpectedDegree E n p recompute).bind (fun _ => ofM getOut) s
  else ofM getOut s

/-- `expected_in_degree` (`/repo/src/graph_ensembles/spark/models.py:189-194`, `2058-2063`). -/
def ExpectedInDegree (E : Ens) (n p : ℕ) (recompute : Bool) : R E.δ (ℕ → XR) := fun s =>
  if s.exp_in_degree.isNone || recompute then
    (ExpectedDegree E n p recompute).bind (fun _ => ofM getIn) s
  else ofM getIn s

/-- The degree selected by a direction string, `bad` being the exception for an unknown one
(`/repo/src/graph_ensembles/spark/models.py:223-230`, `291-298`, `2155-2162`, `2237-2244`). -/
def DegreeByDir (E : Ens) (n p : ℕ) (bad : Err) (dir : Dir) (recompute : Bool) :
    R E.δ (ℕ → XR) :=
  match dir with
  | .out => ExpectedOutDegree E n p recompute
  | .inn => ExpectedInDegree E n p recompute
  | .outIn => ExpectedDegree E n p recompute
  | .underscored | .other => fun s r s' => r = .error bad ∧ s' = s

/-- `expected_av_nn_property` (`/repo/src/graph_ensembles/spark/models.py:196-262`, `2128-2208`).
`len` is `prop.shape[0]`.  The job is passed the local variable `selfloops`.  A worker that raises
makes the job raise. -/
def ExpectedAvNnProperty (E : Ens) (n p : ℕ) (len : ℕ) (prop : ℕ → XR) (ndir : Dir)
    (selfloops : Option Bool) (deg_recompute : Bool) : R E.δ (ℕ → XR) := fun s =>
  match s.param with
  | none => fun r s' => r = .error .notFitted ∧ s' = s
  | some θ =>
    if len ≠ n then fun r s' => r = .error .badShape ∧ s' = s
    else
      let tmp_self := s.selfloops
      let selfloops := selfloops.getD s.selfloops
      let changed : Bool := selfloops != s.selfloops
      let deg_recompute := deg_recompute || changed
      let s := setSelfloops selfloops s
      (DegreeByDir E n p .badNdir ndir deg_recompute).bind (fun deg s r s' =>
        ∃ res, Folds addArrays (.ok zeros) (avTasks (at_ E θ) n p prop ndir selfloops) res ∧
          match res with
          | .error _ => r = .error .badNdir ∧ s' = s
          | .ok av_nn =>
            if (List.range n).all (fun i => !(deg i).isZero || (av_nn i).isZero) then
              r = .ok (average av_nn deg) ∧ s' = restore tmp_self s
            else r = .error .emptyNeighbourhood ∧ s' = s) s

/-- `expected_av_nn_degree` (`/repo/src/graph_ensembles/spark/models.py:264-316`, `2210-2262`).
The default `recompute=None` of the single-layer class counts as `False`. -/
def ExpectedAvNnDegree (E : Ens) (n p : ℕ) (ddir ndir : Dir) (selfloops : Option Bool)
    (deg_recompute recompute : Bool) : R E.δ (ℕ → XR) := fun s =>
  match s.param with
  | none => fun r s' => r = .error .notFitted ∧ s' = s
  | some _ =>
    if (s.exp_av ndir.key ddir.key).isNone || recompute || deg_recompute then
      let tmp_self := s.selfloops
      let selfloops := selfloops.getD s.selfloops
      let changed : Bool := selfloops != s.selfloops
      let deg_recompute := deg_recompute || changed
      let s := setSelfloops selfloops s
      (DegreeByDir E n p .badDdir ddir deg_recompute).bind (fun deg =>
        (ExpectedAvNnProperty E n p n deg ndir (some selfloops) false).bind (fun res =>
          ofM (fun s =>
            getAv ndir.key ddir.key (restore tmp_self (setAv ndir.key ddir.key res s))))) s
    else ofM (getAv ndir.key ddir.key) s

/-- The value of a method as the result of a call. -/
def R.map {δ α β : Type} (f : α → β) (m : R δ α) : R δ β :=
  m.bind (fun a => ofM (fun s => (.ok (f a), s)))

/-- One call. -/
def Call (c : Cls) (E : Ens) (n p : ℕ) : Op E.δ → R E.δ Ret
  | .fit θ => ofM (fun s => (.ok .none, { s with param := some θ }))
  | .numEdges r => R.map .num (ExpectedNumEdges c E n p r)
  | .degree r => R.map .arr (ExpectedDegree E n p r)
  | .outDegree r => R.map .arr (ExpectedOutDegree E n p r)
  | .inDegree r => R.map .arr (ExpectedInDegree E n p r)
  | .avNnProp len prop ndir sl dr => R.map .arr (ExpectedAvNnProperty E n p len prop ndir sl dr)
  | .avNnDegree ddir ndir sl dr r => R.map .arr (ExpectedAvNnDegree E n p ddir ndir sl dr r)

/-- A history of calls: the possible results in order and final states. -/
inductive Run (c : Cls) (E : Ens) (n p : ℕ) :
    List (Op E.δ) → St E.δ → List (Except Err Ret) → St E.δ → Prop
  | nil (s) : Run c E n p [] s [] s
  | cons {op ops s r s' rs s''} : Call c E n p op s r s' → Run c E n p ops s' rs s'' →
      Run c E n p (op :: ops) s (r :: rs) s''

end Spark.Query

end

end Verif
