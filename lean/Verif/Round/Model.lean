import Verif.Prob.Model
import Verif.Ensemble.Model
import Verif.Round.Arith

/-!
# The probability functions over an arbitrary arithmetic

The functions of `Verif/Prob/Model.lean` and the loops of `Verif/Ensemble/Model.lean` with every
operation taken from an `Arith`.  The order of the operations is that of the code.  At
`Arith.exact` each of them is the function of the model without rounding (theorems `*_exact`).
-/

namespace Verif

namespace Round

noncomputable section

open XR

variable (A : Arith)

/-- The product `param[0] * x_i * y_j * z_ij`, evaluated from the left. -/
def prod4 (d x y z : XR) : XR := A.mul (A.mul (A.mul d x) y) z

/-- The product `param[0] * x_i * y_j`, evaluated from the left. -/
def prod3 (d x y : XR) : XR := A.mul (A.mul d x) y

namespace Sparse.FitnessModel

/-- `/repo/src/graph_ensembles/sparse/models/fitness.py:291-300` -/
def p_ij (d x_i y_j z_ij : XR) : XR :=
  if x_i.isZero || y_j.isZero || z_ij.isZero || d.isZero then 0
  else
    let tmp := prod4 A d x_i y_j z_ij
    if tmp.isInf then 1 else A.div tmp (A.add 1 tmp)

/-- `/repo/src/graph_ensembles/sparse/models/fitness.py:272-287` -/
def p_jac_ij (d x_i y_j z_ij : XR) : XR × XR :=
  if x_i.isZero || y_j.isZero || z_ij.isZero then (0, 0)
  else if d.isZero then (0, prod3 A x_i y_j z_ij)
  else
    let tmp := prod3 A x_i y_j z_ij
    let tmp1 := A.mul d tmp
    if tmp1.isInf then (1, 0)
    else (A.div tmp1 (A.add 1 tmp1), A.div tmp (A.mul (A.add 1 tmp1) (A.add 1 tmp1)))

/-- `/repo/src/graph_ensembles/sparse/models/fitness.py:304-313` -/
def logp (d x_i y_j z_ij : XR) : XR :=
  if x_i.isZero || y_j.isZero || z_ij.isZero || d.isZero then ninf
  else
    let tmp := prod4 A d x_i y_j z_ij
    if tmp.isInf then 0 else A.log (A.div tmp (A.add 1 tmp))

/-- `/repo/src/graph_ensembles/sparse/models/fitness.py:317-328` -/
def log1mp (d x_i y_j z_ij : XR) : XR :=
  if x_i.isZero || y_j.isZero || z_ij.isZero || d.isZero then 0
  else
    let tmp := prod4 A d x_i y_j z_ij
    if tmp.isInf then ninf else A.log1p (A.div (-tmp) (A.add 1 tmp))

end Sparse.FitnessModel

namespace Sparse.ScaleInvariantModel

/-- `/repo/src/graph_ensembles/sparse/models/invariant.py:68-77` -/
def p_ij (d x_i y_j z_ij : XR) : XR :=
  if x_i.isZero || y_j.isZero || z_ij.isZero || d.isZero then 0
  else
    let tmp := prod4 A d x_i y_j z_ij
    if tmp.isInf then 1 else -(A.expm1 (-tmp))

/-- `/repo/src/graph_ensembles/sparse/models/invariant.py:49-64` -/
def p_jac_ij (d x_i y_j z_ij : XR) : XR × XR :=
  if x_i.isZero || y_j.isZero || z_ij.isZero then (0, 0)
  else if d.isZero then (0, prod3 A x_i y_j z_ij)
  else
    let tmp := prod3 A x_i y_j z_ij
    let tmp1 := A.mul d tmp
    if tmp1.isInf then (1, 0)
    else (-(A.expm1 (-tmp1)), A.mul tmp (A.exp (-tmp1)))

/-- `/repo/src/graph_ensembles/sparse/models/invariant.py:81-90` -/
def logp (d x_i y_j z_ij : XR) : XR :=
  if x_i.isZero || y_j.isZero || z_ij.isZero || d.isZero then ninf
  else
    let tmp := prod4 A d x_i y_j z_ij
    if tmp.isInf then 0 else A.log (-(A.expm1 (-tmp)))

/-- `/repo/src/graph_ensembles/sparse/models/invariant.py:94-105` -/
def log1mp (d x_i y_j z_ij : XR) : XR :=
  if x_i.isZero || y_j.isZero || z_ij.isZero || d.isZero then 0
  else
    let tmp := prod4 A d x_i y_j z_ij
    if tmp.isInf then ninf else -tmp

end Sparse.ScaleInvariantModel

namespace Dense.FitnessModel

/-- `/repo/src/graph_ensembles/models.py:1307-1316`, `spark/models.py:1750-1759`, and `p_ijk` of the
multi-layer models -/
def p_ij (d x_i y_j : XR) (_z : XR) : XR :=
  if x_i.isZero || y_j.isZero || d.isZero then 0
  else
    let tmp := prod3 A d x_i y_j
    if tmp.isInf then 1 else A.div tmp (A.add 1 tmp)

/-- `/repo/src/graph_ensembles/models.py:1320-1329`, `spark/models.py:1763-1772` -/
def logp (d x_i y_j : XR) (_z : XR) : XR :=
  if x_i.isZero || y_j.isZero || d.isZero then ninf
  else
    let tmp := prod3 A d x_i y_j
    if tmp.isInf then 0 else A.log (A.div tmp (A.add 1 tmp))

/-- `/repo/src/graph_ensembles/models.py:1333-1344`, `spark/models.py:1776-1787` -/
def log1mp (d x_i y_j : XR) (_z : XR) : XR :=
  if x_i.isZero || y_j.isZero || d.isZero then 0
  else
    let tmp := prod3 A d x_i y_j
    if tmp.isInf then ninf else A.log1p (A.div (-tmp) (A.add 1 tmp))

end Dense.FitnessModel

namespace Dense.ScaleInvariantModel

/-- `/repo/src/graph_ensembles/models.py:1395-1404`, `spark/models.py:1850-1859`, and `p_ijk` of the
multi-layer models -/
def p_ij (d x_i y_j : XR) (_z : XR) : XR :=
  if x_i.isZero || y_j.isZero || d.isZero then 0
  else
    let tmp := prod3 A d x_i y_j
    if tmp.isInf then 1 else -(A.expm1 (-tmp))

/-- `/repo/src/graph_ensembles/models.py:1408-1417`, `spark/models.py:1863-1872` -/
def logp (d x_i y_j : XR) (_z : XR) : XR :=
  if x_i.isZero || y_j.isZero || d.isZero then ninf
  else
    let tmp := prod3 A d x_i y_j
    if tmp.isInf then 0 else A.log (-(A.expm1 (-tmp)))

/-- `/repo/src/graph_ensembles/models.py:1421-1428` -/
def log1mp (d x_i y_j : XR) (_z : XR) : XR :=
  if x_i.isZero || y_j.isZero || d.isZero then 0
  else prod3 A (-d) x_i y_j

end Dense.ScaleInvariantModel

/-! ## All layers -/

/-- Body of the loop of `MultiFitnessModel.p_ij`, `logp`, `log1mp`
(`/repo/src/graph_ensembles/sparse/models/fitness.py:879-884,913-918,947-952`,
`models.py:2333-2338`, `spark/models.py:3730-3735`) -/
def fitBody (ret : XR) (d : ℕ → XR) (val : XR) (k : ℕ) (x y : XR) : Except XR XR :=
  if !(d k).isZero && !x.isZero && !y.isZero then
    let tmp := prod3 A (d k) x y
    if tmp.isInf then .error ret else .ok (A.div val (A.add 1 tmp))
  else .ok val

/-- Body of the loop of `MultiInvariantModel.p_ij`, `logp`, `log1mp`
(`/repo/src/graph_ensembles/sparse/models/invariant.py:229-234,260-265,296-301`,
`models.py:2533-2538`, `spark/models.py:3966-3971`) -/
def invBody (ret : XR) (d : ℕ → XR) (val : XR) (k : ℕ) (x y : XR) : Except XR XR :=
  if !(d k).isZero && !x.isZero && !y.isZero then
    let tmp := prod3 A (d k) x y
    if tmp.isInf then .error ret else .ok (A.add val tmp)
  else .ok val

/-- Code after the loop in `MultiFitnessModel.logp`
(`/repo/src/graph_ensembles/sparse/models/fitness.py:922-925`, `models.py:2360-2363`) -/
def fitLogpEnd (val : XR) : XR := if val.isOne then ninf else A.log1p (-val)

/-- Code after the loop in `MultiInvariantModel.logp`
(`/repo/src/graph_ensembles/sparse/models/invariant.py:273-276`) -/
def invLogpEnd (val : XR) : XR := if val.isZero then ninf else A.log (-(A.expm1 (-val)))

namespace Sparse.MultiFitnessModel

/-- `/repo/src/graph_ensembles/sparse/models/fitness.py:860-891`, `spark/models.py:3716-3743` -/
def p_ij (d : ℕ → XR) (prop_out prop_in : List (ℕ × XR)) : XR :=
  finish (mergeLoop (fitBody A 1 d) prop_out prop_in 1) (fun val => A.sub 1 val)

/-- `/repo/src/graph_ensembles/sparse/models/fitness.py:895-925`, `spark/models.py:3747-3773` -/
def logp (d : ℕ → XR) (prop_out prop_in : List (ℕ × XR)) : XR :=
  finish (mergeLoop (fitBody A 0 d) prop_out prop_in 1) (fitLogpEnd A)

/-- `/repo/src/graph_ensembles/sparse/models/fitness.py:929-961`, `spark/models.py:3777-3805` -/
def log1mp (d : ℕ → XR) (prop_out prop_in : List (ℕ × XR)) : XR :=
  finish (mergeLoop (fitBody A ninf d) prop_out prop_in 1)
    (fun val => if val.isOne then 0 else A.log val)

end Sparse.MultiFitnessModel

namespace Sparse.MultiInvariantModel

/-- `/repo/src/graph_ensembles/sparse/models/invariant.py:211-242`, `spark/models.py:3952-3979` -/
def p_ij (d : ℕ → XR) (prop_out prop_in : List (ℕ × XR)) : XR :=
  finish (mergeLoop (invBody A 1 d) prop_out prop_in 0) (fun val => -(A.expm1 (-val)))

/-- `/repo/src/graph_ensembles/sparse/models/invariant.py:246-276`, `spark/models.py:3983-4009` -/
def logp (d : ℕ → XR) (prop_out prop_in : List (ℕ × XR)) : XR :=
  finish (mergeLoop (invBody A 0 d) prop_out prop_in 0) (invLogpEnd A)

/-- `/repo/src/graph_ensembles/sparse/models/invariant.py:280-309`, `spark/models.py:4013-4038` -/
def log1mp (d : ℕ → XR) (prop_out prop_in : List (ℕ × XR)) : XR :=
  finish (mergeLoop (invBody A ninf d) prop_out prop_in 0) (fun val => -val)

end Sparse.MultiInvariantModel

namespace Dense.MultiFitnessModel

/-- `/repo/src/graph_ensembles/models.py:2324-2342` -/
def p_ij (d : ℕ → XR) (prop_out prop_in : List XR) : XR :=
  finish (zipLoop (fitBody A 1 d) 0 prop_out prop_in 1) (fun val => A.sub 1 val)

/-- `/repo/src/graph_ensembles/models.py:2346-2363` -/
def logp (d : ℕ → XR) (prop_out prop_in : List XR) : XR :=
  finish (zipLoop (fitBody A 0 d) 0 prop_out prop_in 1) (fitLogpEnd A)

/-- `/repo/src/graph_ensembles/models.py:2367-2383` -/
def log1mp (d : ℕ → XR) (prop_out prop_in : List XR) : XR :=
  finish (zipLoop (fitBody A ninf d) 0 prop_out prop_in 1) A.log

end Dense.MultiFitnessModel

namespace Dense.MultiInvariantModel

/-- `/repo/src/graph_ensembles/models.py:2521-2542` -/
def p_ij (d : ℕ → XR) (prop_out prop_in : List XR) : XR :=
  finish (zipLoop (invBody A 1 d) 0 prop_out prop_in 0)
    (fun val => if val.isZero then 0 else -(A.expm1 (-val)))

/-- `/repo/src/graph_ensembles/models.py:2546-2563` -/
def logp (d : ℕ → XR) (prop_out prop_in : List XR) : XR :=
  finish (zipLoop (invBody A 0 d) 0 prop_out prop_in 0) (invLogpEnd A)

/-- `/repo/src/graph_ensembles/models.py:2567-2583` -/
def log1mp (d : ℕ → XR) (prop_out prop_in : List XR) : XR :=
  finish (zipLoop (invBody A ninf d) 0 prop_out prop_in 0) (fun val => -val)

end Dense.MultiInvariantModel

/-! ## Loops over the pairs of vertices -/

section Loops

variable {α β δ ζ : Type}

/-- `a[i] += v` -/
def addAt (a : ℕ → XR) (i : ℕ) (v : XR) : ℕ → XR := Function.update a i (A.add (a i) v)

/-- `/repo/src/graph_ensembles/sparse/models/ensembles.py:407-415`,
`/repo/src/graph_ensembles/models.py:410-418` -/
def exp_edges (p_ij : δ → α → β → ζ → XR) (param : δ) (n : ℕ) (prop_out : ℕ → α)
    (prop_in : ℕ → β) (prop_dyad : ℕ → ℕ → ζ) (selfloops : Bool) : XR :=
  (List.range n).foldl (fun exp_e i =>
    (List.range n).foldl (fun exp_e j =>
      if admissible i j selfloops then
        A.add exp_e (p_ij param (prop_out i) (prop_in j) (prop_dyad i j))
      else exp_e) exp_e) 0

/-- Body of the inner loop of `exp_degrees`
(`/repo/src/graph_ensembles/sparse/models/ensembles.py:428-444`,
`/repo/src/graph_ensembles/models.py:431-447`) -/
def exp_degrees_step (p_ij : δ → α → β → ζ → XR) (param : δ) (prop_out : ℕ → α)
    (prop_in : ℕ → β) (prop_dyad : ℕ → ℕ → ζ) (selfloops : Bool) (i : ℕ)
    (s : DiGraphEnsemble.Degrees) (j : ℕ) : DiGraphEnsemble.Degrees :=
  if i ≠ j then
    let pij := p_ij param (prop_out i) (prop_in j) (prop_dyad i j)
    let pji := p_ij param (prop_out j) (prop_in i) (prop_dyad j i)
    let p := A.sub (A.add pij pji) (A.mul pij pji)
    { exp_d := addAt A (addAt A s.exp_d i p) j p
      exp_d_out := addAt A (addAt A s.exp_d_out i pij) j pji
      exp_d_in := addAt A (addAt A s.exp_d_in j pij) i pji }
  else if selfloops then
    let pii := p_ij param (prop_out i) (prop_in j) (prop_dyad i j)
    { exp_d := addAt A s.exp_d i pii
      exp_d_out := addAt A s.exp_d_out i pii
      exp_d_in := addAt A s.exp_d_in j pii }
  else s

/-- `/repo/src/graph_ensembles/sparse/models/ensembles.py:419-446`,
`/repo/src/graph_ensembles/models.py:422-449` -/
def exp_degrees (p_ij : δ → α → β → ζ → XR) (param : δ) (n : ℕ) (prop_out : ℕ → α)
    (prop_in : ℕ → β) (prop_dyad : ℕ → ℕ → ζ) (selfloops : Bool) : DiGraphEnsemble.Degrees :=
  (List.range n).foldl (fun s i =>
    (List.range (i + 1)).foldl
      (exp_degrees_step A p_ij param prop_out prop_in prop_dyad selfloops i) s)
    ⟨zeros, zeros, zeros⟩

/-- `/repo/src/graph_ensembles/sparse/models/ensembles.py:491-512` and
`/repo/src/graph_ensembles/models.py:494-510`; an early `return tmp` is `Except.error tmp` -/
def likelihoodLoop (logp log1mp : δ → α → β → ζ → XR) (param : δ) (n : ℕ) (prop_out : ℕ → α)
    (prop_in : ℕ → β) (prop_dyad : ℕ → ℕ → ζ) (link : ℕ → ℕ → Bool) (selfloops : Bool) :
    Except XR XR :=
  (List.range n).foldlM (fun like i =>
    (List.range n).foldlM (fun like j =>
      if admissible i j selfloops then
        let tmp :=
          if link i j then logp param (prop_out i) (prop_in j) (prop_dyad i j)
          else log1mp param (prop_out i) (prop_in j) (prop_dyad i j)
        if tmp.isInf then .error tmp else .ok (A.add like tmp)
      else .ok like) like) 0

/-- The value returned by `_likelihood`. -/
def likelihood (logp log1mp : δ → α → β → ζ → XR) (param : δ) (n : ℕ) (prop_out : ℕ → α)
    (prop_in : ℕ → β) (prop_dyad : ℕ → ℕ → ζ) (link : ℕ → ℕ → Bool) (selfloops : Bool) : XR :=
  match likelihoodLoop A logp log1mp param n prop_out prop_in prop_dyad link selfloops with
  | .error v => v
  | .ok v => v

end Loops

/-! ## Without rounding -/

open Arith in
/-- At the arithmetic without rounding these functions are those of the rest of the model. -/
theorem prob_exact :
    Sparse.FitnessModel.p_ij exact = Verif.Sparse.FitnessModel.p_ij ∧
    Sparse.FitnessModel.p_jac_ij exact = Verif.Sparse.FitnessModel.p_jac_ij ∧
    Sparse.FitnessModel.logp exact = Verif.Sparse.FitnessModel.logp ∧
    Sparse.FitnessModel.log1mp exact = Verif.Sparse.FitnessModel.log1mp ∧
    Sparse.ScaleInvariantModel.p_ij exact = Verif.Sparse.ScaleInvariantModel.p_ij ∧
    Sparse.ScaleInvariantModel.p_jac_ij exact = Verif.Sparse.ScaleInvariantModel.p_jac_ij ∧
    Sparse.ScaleInvariantModel.logp exact = Verif.Sparse.ScaleInvariantModel.logp ∧
    Sparse.ScaleInvariantModel.log1mp exact = Verif.Sparse.ScaleInvariantModel.log1mp ∧
    Dense.FitnessModel.p_ij exact = Verif.Dense.FitnessModel.p_ij ∧
    Dense.FitnessModel.logp exact = Verif.Dense.FitnessModel.logp ∧
    Dense.FitnessModel.log1mp exact = Verif.Dense.FitnessModel.log1mp ∧
    Dense.ScaleInvariantModel.p_ij exact = Verif.Dense.ScaleInvariantModel.p_ij ∧
    Dense.ScaleInvariantModel.logp exact = Verif.Dense.ScaleInvariantModel.logp ∧
    Dense.ScaleInvariantModel.log1mp exact = Verif.Dense.ScaleInvariantModel.log1mp :=
  ⟨rfl, rfl, rfl, rfl, rfl, rfl, rfl, rfl, rfl, rfl, rfl, rfl, rfl, rfl⟩

open Arith in
theorem multi_exact :
    Sparse.MultiFitnessModel.p_ij exact = Verif.Sparse.MultiFitnessModel.p_ij ∧
    Sparse.MultiFitnessModel.logp exact = Verif.Sparse.MultiFitnessModel.logp ∧
    Sparse.MultiFitnessModel.log1mp exact = Verif.Sparse.MultiFitnessModel.log1mp ∧
    Sparse.MultiInvariantModel.p_ij exact = Verif.Sparse.MultiInvariantModel.p_ij ∧
    Sparse.MultiInvariantModel.logp exact = Verif.Sparse.MultiInvariantModel.logp ∧
    Sparse.MultiInvariantModel.log1mp exact = Verif.Sparse.MultiInvariantModel.log1mp ∧
    Dense.MultiFitnessModel.p_ij exact = Verif.Dense.MultiFitnessModel.p_ij ∧
    Dense.MultiFitnessModel.logp exact = Verif.Dense.MultiFitnessModel.logp ∧
    Dense.MultiFitnessModel.log1mp exact = Verif.Dense.MultiFitnessModel.log1mp ∧
    Dense.MultiInvariantModel.p_ij exact = Verif.Dense.MultiInvariantModel.p_ij ∧
    Dense.MultiInvariantModel.logp exact = Verif.Dense.MultiInvariantModel.logp ∧
    Dense.MultiInvariantModel.log1mp exact = Verif.Dense.MultiInvariantModel.log1mp :=
  ⟨rfl, rfl, rfl, rfl, rfl, rfl, rfl, rfl, rfl, rfl, rfl, rfl⟩

open Arith in
theorem loops_exact {α β δ ζ : Type} :
    exp_edges exact (α := α) (β := β) (δ := δ) (ζ := ζ) = DiGraphEnsemble.exp_edges ∧
    exp_degrees exact (α := α) (β := β) (δ := δ) (ζ := ζ) = DiGraphEnsemble.exp_degrees ∧
    likelihood exact (α := α) (β := β) (δ := δ) (ζ := ζ) = DiGraphEnsemble.likelihood :=
  ⟨rfl, rfl, rfl⟩

end

end Round

end Verif
