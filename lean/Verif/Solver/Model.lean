import Verif.NumOrder

/-!
# The bracketed Newton solver

Model of `/repo/src/graph_ensembles/solver.py`.  All arrays in that file have length one and
are modelled by the `XR` they contain.  The function to invert is an arbitrary
`XR → XR × XR` (value, derivative); it is pure and returns numbers (a function that raises or
keeps state is not modelled).  `target`, `atol`, `rtol` are finite, `max_iter` is a natural
number (the code also accepts a float).  Printing (`verbose`) is left out.  Division follows numpy
(`npDiv`); with `atol = 0`, a vanishing derivative and a function that returns Python floats the
code raises `ZeroDivisionError` in line 185 instead.
-/

namespace Verif

open XR

noncomputable section

namespace Solver

/-- Exceptions of `solver.py`. -/
inductive Err where
  /-- solver.py:123-124 -/
  | valueError
  /-- solver.py:170-171 and 229-230 -/
  | assertionError
  deriving DecidableEq

/-- Arguments of `monotonic_newton_solver` apart from `x0` (solver.py:70-83). -/
structure Cfg where
  func : XR → XR × XR
  target : ℝ
  atol : ℝ
  rtol : ℝ
  max_iter : ℕ
  x_l : XR
  x_u : XR
  f_l : Option XR := none
  f_u : Option XR := none

/-- Local variables of `monotonic_newton_solver`, including the recorded sequences. -/
structure St where
  n_iter : ℕ
  x : XR
  f : XR
  f_p : XR
  x_l : XR
  x_u : XR
  f_l : Option XR
  f_u : Option XR
  norm : XR
  diff : XR
  f_seq : List XR
  x_seq : List XR
  norm_seq : List XR
  diff_seq : List XR

/-- solver.py:114-135: evaluation at `x0` and initial values of the local variables. -/
def init (c : Cfg) (x0 : XR) : St :=
  let fx := c.func x0
  let f := fx.1 + -(fin c.target)
  { n_iter := 0, x := x0, f := f, f_p := fx.2, x_l := c.x_l, x_u := c.x_u,
    f_l := c.f_l, f_u := c.f_u, norm := f.abs, diff := fin 1,
    f_seq := [f], x_seq := [x0], norm_seq := [f.abs], diff_seq := [fin 1] }

/-- `f > 0`. -/
def pos (v : XR) : Bool := ltb 0 v
/-- `f < 0`. -/
def negv (v : XR) : Bool := ltb v 0

/-- The four sign tests shared by solver.py:155-166 and 209-220; `none` if none applies. -/
def signs (s : St) : Option St :=
  if pos s.f && pos s.f_p && leb s.x s.x_u then
    some { s with x_u := s.x, f_u := some s.f }
  else if negv s.f && pos s.f_p && leb s.x_l s.x then
    some { s with x_l := s.x, f_l := some s.f }
  else if pos s.f && negv s.f_p && leb s.x_l s.x then
    some { s with x_l := s.x, f_l := some s.f }
  else if negv s.f && negv s.f_p && leb s.x s.x_u then
    some { s with x_u := s.x, f_u := some s.f }
  else none

/-- solver.py:155-171: bracket after the evaluation at the initial point. -/
def bracketInit (s : St) : Except Err St :=
  match signs s with
  | some s' => .ok s'
  | none => if s.f_p.isZero then .ok s else .error .assertionError

/-- solver.py:209-230: bracket after the evaluation at a new point. -/
def bracketLoop (s : St) : Except Err St :=
  match signs s with
  | some s' => .ok s'
  | none =>
    if s.f_p.isZero then
      if eqb s.x s.x_u then .ok { s with f_u := some s.f }
      else if eqb s.x s.x_l then .ok { s with f_l := some s.f }
      else .ok s
    else if s.f.isZero then .ok s
    else .error .assertionError

/-- solver.py:181-185: the Newton step. -/
def newtonDx (c : Cfg) (s : St) : XR :=
  if s.f_p.isZero then npDiv (-s.f) (fin c.atol) else npDiv (-s.f) s.f_p

/-- solver.py:189-204: the next point. -/
def nextX (c : Cfg) (s : St) : XR :=
  let dx := newtonDx c s
  if leb s.x_u (s.x + dx) || leb (s.x + dx) s.x_l then
    match s.f_u with
    | none => s.x_u
    | some f_u =>
      match s.f_l with
      | none => s.x_l
      | some f_l =>
        if s.x_u.isInf then
          if s.x_l.isInf then fin 0
          else s.x_l + fin 2 * s.x_l.abs
        else if s.x_l.isInf then s.x_u + -(fin 2 * s.x_u.abs)
        else s.x_u + -(npDiv (f_u * (s.x_u + -s.x_l)) (f_u + -f_l))
  else s.x + dx

/-- solver.py:206-207: the state after evaluating the function at the next point `x`. -/
def evalAt (c : Cfg) (s : St) (x : XR) : St :=
  { s with x := x, f := (c.func x).1 + -(fin c.target), f_p := (c.func x).2 }

/-- solver.py:233-246: stopping quantities, recorded sequences and iteration count; `x_old`
is the previous point. -/
def record (x_old : XR) (s : St) : St :=
  let norm := s.f.abs
  let diff := if !(x_old.isZero) && !(x_old.isInf) then (npDiv (s.x + -x_old) x_old).abs
    else fin 1
  { s with norm := norm, diff := diff, n_iter := s.n_iter + 1,
           f_seq := s.f_seq ++ [s.f], x_seq := s.x_seq ++ [s.x],
           norm_seq := s.norm_seq ++ [norm], diff_seq := s.diff_seq ++ [diff] }

/-- solver.py:178-246: one iteration. -/
def step (c : Cfg) (s : St) : Except Err St :=
  (bracketLoop (evalAt c s (nextX c s))).map (record s.x)

/-- `atol + rtol * target`. -/
def Cfg.tol (c : Cfg) : ℝ := c.atol + c.rtol * c.target

/-- solver.py:177: the loop condition. -/
def continues (c : Cfg) (s : St) : Bool :=
  ltb (fin c.tol) s.norm && decide (s.n_iter < c.max_iter) && ltb (fin c.rtol) s.diff

/-- solver.py:177-246: the `while` loop.  The iteration count bounds the number of rounds, so
`max_iter` rounds of fuel are enough. -/
def loop (c : Cfg) : ℕ → St → Except Err St
  | 0, s => .ok s
  | fuel + 1, s =>
    if continues c s then (step c s).bind (loop c fuel) else .ok s

/-- `Solution` for `method = "newton"` (solver.py:4-58). -/
structure Solution where
  x : XR
  target : ℝ
  n_iter : ℕ
  max_iter : ℕ
  f_seq : List XR
  x_seq : List XR
  norm_seq : List XR
  diff_seq : List XR
  max_iter_reached : Bool
  converged : Bool
  no_change_stop : Bool

/-- `Solution.__init__` with the arguments passed at solver.py:139-151 and 267-279: the flags
are computed from the recorded sequences (solver.py:34-58). -/
def mkSolution (c : Cfg) (s : St) : Solution :=
  { x := s.x, target := c.target, n_iter := s.n_iter, max_iter := c.max_iter,
    f_seq := s.f_seq, x_seq := s.x_seq, norm_seq := s.norm_seq, diff_seq := s.diff_seq,
    max_iter_reached := decide (c.max_iter ≤ s.n_iter),
    converged := leb (s.norm_seq.getLastD nan) (fin (c.atol + c.rtol * c.target)),
    no_change_stop := leb (s.diff_seq.getLastD nan) (fin c.rtol) }

/-- solver.py:70-281 `monotonic_newton_solver(..., full_return=True)`. -/
def solve (c : Cfg) (x0 : XR) : Except Err Solution :=
  let s := init c x0
  if ltb c.x_u x0 || ltb x0 c.x_l then .error .valueError
  else if ltb s.norm (fin c.atol) then .ok (mkSolution c s)
  else
    (bracketInit s).bind fun s1 =>
      (loop c c.max_iter s1).map (mkSolution c)

/-- solver.py:281: the value returned with `full_return=False`. -/
def solveX (c : Cfg) (x0 : XR) : Except Err XR := (solve c x0).map (·.x)

end Solver

end

end Verif
