import Verif.Cond.Model
import Verif.Solver.Fit

/-!
# The density fit of `ConditionalInvariantModel`

`/repo/src/graph_ensembles/sparse/models/conditional.py`.
-/

namespace Verif.Cond

noncomputable section

open XR

/-- `/repo/src/graph_ensembles/sparse/models/conditional.py:959-995`.  The denominators of the
divisions are non-zero by the tests above them. -/
def p_jac_ij (d x_i y_j z_ij x_I y_J z_IJ : XR) : XR × XR :=
  if x_I.isZero || y_J.isZero || z_IJ.isZero || x_i.isZero || y_j.isZero || z_ij.isZero then (0, 0)
  else
    let a := x_i * y_j * z_ij
    let b := x_I * y_J * z_IJ
    let da := d * a
    let db := d * b
    let expdbm1 := -(XR.expm1 (-db))
    if ltb expdbm1 (fin (1 / 10 ^ 12)) then
      ((x_i / x_I) * (y_j / y_J) * (z_ij / z_IJ), (fin (1 / 2) - a / (fin 2 * b)) * a)
    else if da.isInf then (1, 0)
    else if db.isInf then (-(XR.expm1 (-da)), a * XR.exp (-da))
    else
      (-(XR.expm1 (-da)) / expdbm1,
       a * XR.exp (-da) / expdbm1 - b * XR.exp (-db) * (-(XR.expm1 (-da))) / (expdbm1 * expdbm1))

/-- The call of `p_jac_ij` for the pair `(i, j)` (lines 938-952). -/
def condPJ (o : Obj) (d : XR) (i j : ℕ) : Except Err (XR × XR) :=
  o.zAgg (o.groups i) (o.groups j) >>= fun z =>
    .ok (p_jac_ij d (o.prop_out i) (o.prop_in j) 1 (o.aggOut (o.groups i))
      (o.aggIn (o.groups j)) z)

/-- `/repo/src/graph_ensembles/sparse/models/conditional.py:909-957`; also `density_fit_fun`
(lines 505-521), which passes the fields of the object. -/
def exp_edges_f_jac (o : Obj) (d : XR) : Except Err (XR × XR) :=
  (List.range o.n).foldlM (fun s i =>
    (List.range o.n).foldlM (fun (s : XR × XR) j =>
      if (o.adj.row (o.groups i)).contains (o.groups j) && admissible i j o.selfloops then
        condPJ o d i j >>= fun t => .ok (s.1 + t.1, s.2 + t.2)
      else .ok s) s) ((0, 0) : XR × XR)

/-- `density_fit_fun` as a function on numbers, used where it does not raise. -/
def objective (o : Obj) (d : XR) : XR × XR :=
  match exp_edges_f_jac o d with
  | .ok r => r
  | .error _ => (nan, nan)

/-- Exceptions leaving `fit`. -/
inductive FitErr where
  /-- `ZeroDivisionError` of `density_fit_fun` -/
  | zeroDivision
  | fit (e : Fit.Err)
  deriving DecidableEq

/-- `/repo/src/graph_ensembles/sparse/models/conditional.py:432-503`.  The checks are those of
`FitnessModel.fit` (`Fit.fitSingle`).  Whether `density_fit_fun` raises does not depend on the
parameter (`raises_iff`), so if it raises, it does at the evaluation at the initial point, which
follows the checks. -/
def fit (o : Obj) (num_edges : Option ℝ) (x0 : Fit.X0) (method : Fit.Method) (opts : Fit.Opts) :
    Except FitErr Solver.Solution :=
  match (Fit.fitSingle (objective o) num_edges x0 method opts) with
  | .error .valueError => .error (.fit .valueError)
  | r =>
    match exp_edges_f_jac o (x0.single.vals.getD 0 0) with
    | .error _ => .error .zeroDivision
    | .ok _ => r.mapError .fit

end

end Verif.Cond
