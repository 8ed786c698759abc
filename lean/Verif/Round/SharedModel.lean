import Verif.Round.LabelFit

/-!
# The fit with one parameter for all labels over an arbitrary arithmetic

`p_jac_ij` of the multi-layer models, sparse and dense, with every operation taken from an `Arith`.
At `Arith.exact` the functions are those of `Verif/Prob/Model.lean`.
-/

namespace Verif

namespace Round

noncomputable section

open XR

variable (A : Arith)

/-- Body of `MultiFitnessModel.p_jac_ij`
(`/repo/src/graph_ensembles/sparse/models/fitness.py:783-796`, `models.py:2286-2299`,
`spark/models.py:3673-3685`). -/
def fitJacBody (d : XR) (s : XR × XR) (_k : ℕ) (x y : XR) : Except (XR × XR) (XR × XR) :=
  if !x.isZero && !y.isZero then
    if d.isZero then .ok (s.1, A.add s.2 (A.mul x y))
    else
      let tmp := A.mul x y
      let tmp1 := A.mul d tmp
      if tmp1.isInf then .error (1, 0)
      else .ok (A.div s.1 (A.add 1 tmp1), A.add s.2 (A.div tmp (A.add 1 tmp1)))
  else .ok s

/-- Body of `MultiInvariantModel.p_jac_ij`
(`/repo/src/graph_ensembles/sparse/models/invariant.py:171-176`, `models.py:2487-2493`,
`spark/models.py:3912-3917`). -/
def invJacBody (val : XR) (_k : ℕ) (x y : XR) : Except (XR × XR) XR :=
  if !x.isZero && !y.isZero then
    let tmp := A.mul x y
    if tmp.isInf then .error (1, 0) else .ok (A.add val tmp)
  else .ok val

/-- Code after the loop in `MultiInvariantModel.p_jac_ij`
(`/repo/src/graph_ensembles/sparse/models/invariant.py:184-188`). -/
def invJacEnd (d val : XR) : XR × XR :=
  let val1 := A.mul d val
  if val1.isZero then (0, val) else (-(A.expm1 (-val1)), A.mul val (A.exp (-val1)))

/-- Code after the loop in `MultiFitnessModel.p_jac_ij`
(`/repo/src/graph_ensembles/sparse/models/fitness.py:803`). -/
def fitJacEnd (s : XR × XR) : XR × XR := (A.sub 1 s.1, A.mul s.1 s.2)

/-- `/repo/src/graph_ensembles/sparse/models/fitness.py:764-803`, `spark/models.py:3658-3693` -/
def Sparse.MultiFitnessModel.p_jac_ij (d : XR) (prop_out prop_in : List (ℕ × XR)) : XR × XR :=
  finish (mergeLoop (fitJacBody A d) prop_out prop_in (1, 0)) (fitJacEnd A)

/-- `/repo/src/graph_ensembles/sparse/models/invariant.py:149-188`, `spark/models.py:3894-3929` -/
def Sparse.MultiInvariantModel.p_jac_ij (d : XR) (prop_out prop_in : List (ℕ × XR)) : XR × XR :=
  if d.isInf then (1, 0)
  else finish (mergeLoop (invJacBody A) prop_out prop_in 0) (invJacEnd A d)

/-- `/repo/src/graph_ensembles/models.py:2275-2301` -/
def Dense.MultiFitnessModel.p_jac_ij (d : XR) (prop_out prop_in : List XR) : XR × XR :=
  finish (zipLoop (fitJacBody A d) 0 prop_out prop_in (1, 0)) (fitJacEnd A)

/-- `/repo/src/graph_ensembles/models.py:2472-2499` -/
def Dense.MultiInvariantModel.p_jac_ij (d : XR) (prop_out prop_in : List XR) : XR × XR :=
  if d.isInf then (1, 0)
  else finish (zipLoop (invJacBody A) 0 prop_out prop_in 0) (invJacEnd A d)

/-- What `fit` of a multi-layer model uses when one parameter is fitted to the total number of edges
(`/repo/src/graph_ensembles/sparse/models/fitness.py:682-700, 709-717`); `pj` is `p_jac_ij` on the
properties of two vertices. -/
def sharedModel (pj : XR → ℕ → ℕ → XR × XR) (n L : ℕ) (selfloops : Bool) (num_edges : Option ℝ)
    (num_edges_label : Option (ℕ → ℝ)) (layer : ℕ → XR → XR × XR) : Fit.MultiModel where
  num_labels := L
  per_label := false
  num_edges := num_edges
  num_edges_label := num_edges_label
  func := exp_edges_f_jac A pj n selfloops
  layer := layer

/-! ## Without rounding -/

open Arith in
theorem multi_jac_exact :
    Sparse.MultiFitnessModel.p_jac_ij exact = Verif.Sparse.MultiFitnessModel.p_jac_ij ∧
    Sparse.MultiInvariantModel.p_jac_ij exact = Verif.Sparse.MultiInvariantModel.p_jac_ij ∧
    Dense.MultiFitnessModel.p_jac_ij exact = Verif.Dense.MultiFitnessModel.p_jac_ij ∧
    Dense.MultiInvariantModel.p_jac_ij exact = Verif.Dense.MultiInvariantModel.p_jac_ij :=
  ⟨rfl, rfl, rfl, rfl⟩

theorem shared_func_exact (F : Fit.Fitter) (n L : ℕ) (s : Bool) (e : Option ℝ)
    (el : Option (ℕ → ℝ)) (layer : ℕ → XR → XR × XR) :
    (sharedModel Arith.exact F.pj n L s e el layer).func = F.func n s := rfl

end

end Round

end Verif
