import Verif.Solver.Fit
import Verif.Round.Model

/-!
# The solver and the fit over an arbitrary arithmetic

The functions of `Verif/Solver/Model.lean` and `Verif/Solver/Fit.lean` with every operation taken
from an `Arith`; comparisons, absolute values and negation are exact.  At `Arith.exact` they are
the functions of the model without rounding (`solver_exact`, `fit_exact`).
-/

namespace Verif

namespace Round

noncomputable section

open XR

variable (A : Arith)

namespace Dense.FitnessModel

/-- `/repo/src/graph_ensembles/models.py:1288-1303`, `spark/models.py:1731-1746` -/
def p_jac_ij (d x_i y_j : XR) : XR × XR :=
  if x_i.isZero || y_j.isZero then (0, 0)
  else if d.isZero then (0, A.mul x_i y_j)
  else
    let tmp := A.mul x_i y_j
    let tmp1 := A.mul d tmp
    if tmp1.isInf then (1, 0)
    else (A.div tmp1 (A.add 1 tmp1), A.div tmp (A.mul (A.add 1 tmp1) (A.add 1 tmp1)))

end Dense.FitnessModel

namespace Dense.ScaleInvariantModel

/-- `/repo/src/graph_ensembles/models.py:1376-1391`, `spark/models.py:1831-1846` -/
def p_jac_ij (d x_i y_j : XR) : XR × XR :=
  if x_i.isZero || y_j.isZero then (0, 0)
  else if d.isZero then (0, A.mul x_i y_j)
  else
    let tmp := A.mul x_i y_j
    let tmp1 := A.mul d tmp
    if tmp1.isInf then (1, 0)
    else (-(A.expm1 (-tmp1)), A.mul tmp (A.exp (-tmp1)))

end Dense.ScaleInvariantModel

/-- `/repo/src/graph_ensembles/sparse/models/fitness.py:253-268`,
`/repo/src/graph_ensembles/models.py:1269-1284` -/
def exp_edges_f_jac (pj : XR → ℕ → ℕ → XR × XR) (n : ℕ) (selfloops : Bool) (param : XR) :
    XR × XR :=
  (List.range n).foldl (fun s i =>
    (List.range n).foldl (fun s j =>
      if admissible i j selfloops then
        (A.add s.1 (pj param i j).1, A.add s.2 (pj param i j).2)
      else s) s) (0, 0)

namespace Solver

open Verif.Solver (Cfg St Err Solution signs bracketInit bracketLoop)

/-- Division of numpy values: division by zero gives an infinity or `nan`. -/
def npDiv (a b : XR) : XR := if b.isZero then XR.npDiv a b else A.div a b

/-- solver.py:114-135 -/
def init (c : Cfg) (x0 : XR) : St :=
  let fx := c.func x0
  let f := A.add fx.1 (-(fin c.target))
  { n_iter := 0, x := x0, f := f, f_p := fx.2, x_l := c.x_l, x_u := c.x_u,
    f_l := c.f_l, f_u := c.f_u, norm := f.abs, diff := fin 1,
    f_seq := [f], x_seq := [x0], norm_seq := [f.abs], diff_seq := [fin 1] }

/-- solver.py:181-185 -/
def newtonDx (c : Cfg) (s : St) : XR :=
  if s.f_p.isZero then npDiv A (-s.f) (fin c.atol) else npDiv A (-s.f) s.f_p

/-- solver.py:189-204 -/
def nextX (c : Cfg) (s : St) : XR :=
  let dx := newtonDx A c s
  if leb s.x_u (A.add s.x dx) || leb (A.add s.x dx) s.x_l then
    match s.f_u with
    | none => s.x_u
    | some f_u =>
      match s.f_l with
      | none => s.x_l
      | some f_l =>
        if s.x_u.isInf then
          if s.x_l.isInf then fin 0
          else A.add s.x_l (A.mul (fin 2) s.x_l.abs)
        else if s.x_l.isInf then A.add s.x_u (-(A.mul (fin 2) s.x_u.abs))
        else A.add s.x_u
          (-(npDiv A (A.mul f_u (A.add s.x_u (-s.x_l))) (A.add f_u (-f_l))))
  else A.add s.x dx

/-- solver.py:206-207 -/
def evalAt (c : Cfg) (s : St) (x : XR) : St :=
  { s with x := x, f := A.add (c.func x).1 (-(fin c.target)), f_p := (c.func x).2 }

/-- solver.py:233-246 -/
def record (x_old : XR) (s : St) : St :=
  let norm := s.f.abs
  let diff := if !(x_old.isZero) && !(x_old.isInf) then (npDiv A (A.add s.x (-x_old)) x_old).abs
    else fin 1
  { s with norm := norm, diff := diff, n_iter := s.n_iter + 1,
           f_seq := s.f_seq ++ [s.f], x_seq := s.x_seq ++ [s.x],
           norm_seq := s.norm_seq ++ [norm], diff_seq := s.diff_seq ++ [diff] }

/-- solver.py:178-246 -/
def step (c : Cfg) (s : St) : Except Err St :=
  (bracketLoop (evalAt A c s (nextX A c s))).map (record A s.x)

/-- `atol + rtol * target` -/
def tol (c : Cfg) : XR := A.add (fin c.atol) (A.mul (fin c.rtol) (fin c.target))

/-- solver.py:177: the loop condition. -/
def continues (c : Cfg) (s : St) : Bool :=
  ltb (tol A c) s.norm && decide (s.n_iter < c.max_iter) && ltb (fin c.rtol) s.diff

/-- solver.py:177-246 -/
def loop (c : Cfg) : ℕ → St → Except Err St
  | 0, s => .ok s
  | fuel + 1, s =>
    if continues A c s then (step A c s).bind (loop c fuel) else .ok s

/-- `Solution.__init__` (solver.py:34-58) -/
def mkSolution (c : Cfg) (s : St) : Solution :=
  { x := s.x, target := c.target, n_iter := s.n_iter, max_iter := c.max_iter,
    f_seq := s.f_seq, x_seq := s.x_seq, norm_seq := s.norm_seq, diff_seq := s.diff_seq,
    max_iter_reached := decide (c.max_iter ≤ s.n_iter),
    converged := leb (s.norm_seq.getLastD nan) (tol A c),
    no_change_stop := leb (s.diff_seq.getLastD nan) (fin c.rtol) }

/-- solver.py:70-281 `monotonic_newton_solver(..., full_return=True)`. -/
def solve (c : Cfg) (x0 : XR) : Except Err Solution :=
  let s := init A c x0
  if ltb c.x_u x0 || ltb x0 c.x_l then .error .valueError
  else if ltb s.norm (fin c.atol) then .ok (mkSolution A c s)
  else
    (bracketInit s).bind fun s1 =>
      (loop A c c.max_iter s1).map (mkSolution A c)

end Solver

/-- `FitnessModel.fit` (`/repo/src/graph_ensembles/sparse/models/fitness.py:165-236`,
`models.py:1186-1257`). -/
def fitSingle (func : XR → XR × XR) (num_edges : Option ℝ) (x0 : Fit.X0) (method : Fit.Method)
    (o : Fit.Opts) : Except Fit.Err Verif.Solver.Solution :=
  let x := x0.single
  match x.vals with
  | [v] =>
    if !x.numeric then .error .valueError
    else if Fit.anyNeg [v] then .error .valueError
    else match method with
      | .density =>
        match num_edges with
        | .none => .error .valueError
        | .some e => (Solver.solve A (Fit.cfg func e o) v).mapError .solver
      | .mle => .error .valueError
      | .other => .error .valueError
  | _ => .error .valueError

/-! ## Without rounding -/

theorem npDiv_exact : Solver.npDiv Arith.exact = XR.npDiv := by
  funext a b
  unfold Solver.npDiv
  split
  · rfl
  · rename_i h
    show a / b = XR.npDiv a b
    cases b with
    | fin r =>
      have hr : r ≠ 0 := by simpa [isZero] using h
      cases a <;> simp [XR.npDiv, hr] <;> show XR.div _ _ = _ <;> simp [XR.div, hr]
    | pinf => cases a <;> rfl
    | ninf => cases a <;> rfl
    | nan => cases a <;> rfl

theorem solver_exact : Solver.solve Arith.exact = Verif.Solver.solve := by
  have e1 : ∀ c s, Solver.nextX Arith.exact c s = Verif.Solver.nextX c s := by
    intro c s
    unfold Solver.nextX Solver.newtonDx
    rw [npDiv_exact]
    rfl
  have e2 : ∀ x s, Solver.record Arith.exact x s = Verif.Solver.record x s := by
    intro x s
    unfold Solver.record
    rw [npDiv_exact]
    rfl
  have e3 : ∀ c s, Solver.step Arith.exact c s = Verif.Solver.step c s := by
    intro c s
    unfold Solver.step
    rw [e1, funext (e2 s.x)]
    rfl
  have e4 : ∀ c fuel s, Solver.loop Arith.exact c fuel s = Verif.Solver.loop c fuel s := by
    intro c fuel
    induction fuel with
    | zero => intro s; rfl
    | succ k ih =>
      intro s
      unfold Solver.loop Verif.Solver.loop
      rw [e3, funext ih]
      rfl
  funext c x0
  unfold Solver.solve
  simp only [e4]
  rfl

theorem fit_exact : fitSingle Arith.exact = Fit.fitSingle := by
  unfold fitSingle
  rw [solver_exact]
  rfl

theorem jac_exact :
    Dense.FitnessModel.p_jac_ij Arith.exact = Verif.Dense.FitnessModel.p_jac_ij ∧
    Dense.ScaleInvariantModel.p_jac_ij Arith.exact = Verif.Dense.ScaleInvariantModel.p_jac_ij ∧
    exp_edges_f_jac Arith.exact = Fit.exp_edges_f_jac :=
  ⟨rfl, rfl, rfl⟩

end

end Round

end Verif
