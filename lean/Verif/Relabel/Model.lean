import Verif.Ensemble.Query
import Verif.Ensemble.Method
import Verif.Solver.Fit

/-!
# Renumbering the vertices

What it means for two ensembles, calls and results to be the same up to the numbers given to the
vertices.  Vertex `i` of the renumbered data is vertex `σ i` of the original data.  Nothing here
models code.
-/

namespace Verif

open XR DiGraphEnsemble

/-- `σ` permutes the vertices `0..n-1`. -/
def Renum (n : ℕ) (σ : Equiv.Perm ℕ) : Prop := ∀ i, σ i < n ↔ i < n

namespace Relabel

variable (σ : Equiv.Perm ℕ) (n : ℕ)

/-- The ensemble given the same properties in another order. -/
abbrev ens (E : Ens) : Ens :=
  { E with
    prop_out := fun i => E.prop_out (σ i)
    prop_in := fun i => E.prop_in (σ i)
    prop_dyad := fun i j => E.prop_dyad (σ i) (σ j) }

/-- The same model to be fitted. -/
def fitter (F : Fit.Fitter) : Fit.Fitter :=
  ⟨fun d => ens σ (F.ens d), fun d i j => F.pj d (σ i) (σ j), fun i j => F.linkable (σ i) (σ j)⟩

/-- The same call: the array passed as property is in the other order. -/
def op {δ : Type} : Query.Op δ → Query.Op δ
  | .avNnProp len prop ndir sl dr => .avNnProp len (fun i => prop (σ i)) ndir sl dr
  | o => o

/-- The same result: numbers and exceptions are equal, arrays are in the other order. -/
def Same : Except Query.Err Query.Ret → Except Query.Err Query.Ret → Prop
  | .error e, .error e' => e = e'
  | .ok .none, .ok .none => True
  | .ok (.num v), .ok (.num v') => v = v'
  | .ok (.arr v), .ok (.arr v') => ∀ i < n, v' i = v (σ i)
  | _, _ => False

/-- The link `e` in the other numbering. -/
def link (e : ℕ × ℕ) : ℕ × ℕ := (σ.symm e.1, σ.symm e.2)

/-- The same graph as argument of `log_likelihood`. -/
def arg : Method.Arg → Method.Arg
  | .graph n G => .graph n (G.image (link σ))
  | .sparse m => .sparse ⟨m.shape, fun i => (m.row (σ i)).map (fun e => (σ.symm e.1, e.2))⟩
  | .ndarray shape a => .ndarray shape (fun i j => a (σ i) (σ j))
  | .other => .other

/-- The same `weights` argument of `sample`. -/
def weights : Method.Weights → Method.Weights
  | .cremb so si => .cremb (fun i => so (σ i)) (fun i => si (σ i))
  | w => w

end Relabel

end Verif
