import Verif.Round.Solver
import Verif.Layer.FitProps

/-!
# The fit label by label over an arbitrary arithmetic

`fit` of the multi-layer models with every operation taken from an `Arith`.  At `Arith.exact` the
functions are those of `Verif/Solver/Fit.lean`.
-/

namespace Verif

namespace Round

noncomputable section

open XR

variable (A : Arith)

/-- `/repo/src/graph_ensembles/sparse/models/fitness.py:745-760` -/
def exp_edges_f_jac_layer (pj : XR → XR → XR → XR × XR) (prop_out prop_in : List (ℕ × XR))
    (selfloops : Bool) (param : XR) : XR × XR :=
  prop_out.foldl (fun s a =>
    prop_in.foldl (fun s b =>
      if admissible a.1 b.1 selfloops then
        (A.add s.1 (pj param a.2 b.2).1, A.add s.2 (pj param a.2 b.2).2)
      else s) s) (0, 0)

/-- Body of the loop over the labels (`/repo/src/graph_ensembles/sparse/models/fitness.py:652-680`). -/
def fitLabel (m : Fit.MultiModel) (e : ℕ → ℝ) (x : Fit.Arr) (o : Fit.Opts) (s : Fit.MultiFit)
    (i : ℕ) : Except Fit.Err Fit.MultiFit :=
  match (Solver.solve A (Fit.cfg (m.layer i) (e i) o) (x.vals.getD i 0)).mapError .solver with
  | .error err => .error err
  | .ok sol => .ok ⟨s.param.set i (Fit.store x.isInt sol.x), s.outputs ++ [sol]⟩

/-- Loop over the labels. -/
def fitLabels (m : Fit.MultiModel) (e : ℕ → ℝ) (x : Fit.Arr) (o : Fit.Opts) :
    Except Fit.Err Fit.MultiFit :=
  (List.range m.num_labels).foldlM (fitLabel A m e x o) ⟨x.vals, []⟩

/-- `MultiFitnessModel.fit` (`/repo/src/graph_ensembles/sparse/models/fitness.py:578-706`). -/
def fitMulti (m : Fit.MultiModel) (x0 : Fit.X0) (method : Fit.Method) (o : Fit.Opts) :
    Except Fit.Err Fit.MultiFit :=
  let x := x0.multi m.num_labels
  if x.vals.length ≠ m.num_labels then .error .valueError
  else if !x.numeric then .error .valueError
  else if Fit.anyNeg x.vals then .error .valueError
  else match method with
    | .density =>
      if m.per_label then
        match m.num_edges_label with
        | .none => .error .valueError
        | .some e => fitLabels A m e x o
      else
        match m.num_edges with
        | .none => .error .valueError
        | .some e =>
          match (Solver.solve A (Fit.cfg m.func e o) (x.vals.getD 0 0)).mapError .solver with
          | .error err => .error err
          | .ok sol => .ok ⟨List.replicate m.num_labels sol.x, [sol]⟩
    | .mle => .error .valueError
    | .other => .error .valueError

/-- `p_jac_ijk` of the multi-layer models
(`/repo/src/graph_ensembles/sparse/models/fitness.py:807-822`, `invariant.py:192-207`). -/
def labelJac : Layer.Kind → XR → XR → XR → XR × XR
  | .fit => Dense.FitnessModel.p_jac_ij A
  | .inv => Dense.ScaleInvariantModel.p_jac_ij A

/-- `p_ijk` of the multi-layer models
(`/repo/src/graph_ensembles/sparse/models/fitness.py:965-976`, `invariant.py:313-324`). -/
def labelProb : Layer.Kind → XR → XR → XR → XR → XR
  | .fit => Dense.FitnessModel.p_ij A
  | .inv => Dense.ScaleInvariantModel.p_ij A

/-- What `fit` of a sparse multi-layer model uses, with `num_edges_label` given
(`/repo/src/graph_ensembles/sparse/models/fitness.py:636-655`). -/
def labelModel (K : Layer.Kind) (n L : ℕ) (x y : ℕ → List (ℕ × XR)) (selfloops : Bool)
    (num_edges_label : ℕ → ℝ) (func : XR → XR × XR) (num_edges : Option ℝ) : Fit.MultiModel where
  num_labels := L
  per_label := true
  num_edges := num_edges
  num_edges_label := some num_edges_label
  func := func
  layer k := exp_edges_f_jac_layer A (labelJac A K) (Layer.column n x k) (Layer.column n y k) selfloops

/-! ## Without rounding -/

theorem layer_jac_exact : exp_edges_f_jac_layer Arith.exact = Fit.exp_edges_f_jac_layer := rfl

theorem labelJac_exact : labelJac Arith.exact = Layer.Kind.jac := by
  funext K
  cases K <;> rfl

theorem labelProb_exact (K : Layer.Kind) : labelProb Arith.exact K = K.link.p_ijk := by
  cases K <;> rfl

theorem labelModel_exact (K : Layer.Kind) (n L : ℕ) (x y : ℕ → List (ℕ × NNReal)) (s : Bool)
    (e : ℕ → ℝ) (func : XR → XR × XR) (num_edges : Option ℝ) :
    labelModel Arith.exact K n L (fun i => Fit.rowN (x i)) (fun i => Fit.rowN (y i)) s e func num_edges
      = Layer.labelModel K n L x y s e func num_edges := by
  unfold labelModel Layer.labelModel
  rw [labelJac_exact]
  rfl

theorem fitMulti_exact : fitMulti Arith.exact = Fit.fitMulti := by
  have h : fitLabels Arith.exact = Fit.fitLabels := by
    unfold fitLabels Fit.fitLabels fitLabel
    rw [solver_exact]
    rfl
  unfold fitMulti
  rw [h, solver_exact]
  rfl

end

end Round

end Verif
