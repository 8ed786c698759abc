import Verif.Solver.Model

/-!
# Vocabulary for the solver properties
-/

namespace Verif

open XR

noncomputable section

namespace Solver

/-- `x` lies in the initial interval. -/
def Cfg.Mem (c : Cfg) (x : XR) : Prop := leb c.x_l x = true ∧ leb x c.x_u = true

/-- Assumptions under which the bracket is kept: `σ = 1` (increasing) or `-1` (decreasing). -/
structure Good (σ : ℝ) (c : Cfg) : Prop where
  sgn : σ = 1 ∨ σ = -1
  atol_pos : 0 < c.atol
  tol_nonneg : 0 ≤ c.tol
  no_f_l : c.f_l = none
  no_f_u : c.f_u = none
  l_ne : c.x_l ≠ pinf
  u_ne : c.x_u ≠ ninf
  /-- values and derivatives are numbers, and the derivative has the sign `σ` -/
  val : ∀ x, c.Mem x → ∃ v j : ℝ, c.func x = (fin v, fin j) ∧ 0 ≤ σ * j
  /-- at a finite end of the interval with zero derivative the value is on the right side -/
  end_u : ∀ b v : ℝ, c.x_u = fin b → c.Mem c.x_u → c.func c.x_u = (fin v, fin 0) →
    0 ≤ σ * (v - c.target)
  end_l : ∀ a v : ℝ, c.x_l = fin a → c.Mem c.x_l → c.func c.x_l = (fin v, fin 0) →
    σ * (v - c.target) ≤ 0

/-- States of the local variables at the top of the `while` loop (solver.py:177), i.e. after
the initial evaluation and after every completed iteration. -/
inductive Reaches (c : Cfg) (x0 : XR) : St → Prop
  | start {s : St} : c.Mem x0 → ltb (init c x0).norm (fin c.atol) = false →
      bracketInit (init c x0) = .ok s → Reaches c x0 s
  | next {s s' : St} : Reaches c x0 s → continues c s = true → step c s = .ok s' →
      Reaches c x0 s'

open Classical in
/-- Relative change of the last two points of a list of iterates; `1` if there is only one
point or if the previous one is zero or infinite. -/
def lastChange (xs : List XR) : XR :=
  match xs.reverse with
  | x :: x_old :: _ =>
    if x_old = fin 0 ∨ x_old = pinf ∨ x_old = ninf then fin 1
    else (npDiv (x + -x_old) x_old).abs
  | _ => fin 1

/-- The absolute residual at a point. -/
def residual (c : Cfg) (x : XR) : XR := ((c.func x).1 + -(fin c.target)).abs

end Solver

end

end Verif
