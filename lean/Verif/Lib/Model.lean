import Mathlib.Data.Real.Basic
import Mathlib.Algebra.BigOperators.Group.Finset.Basic
import Mathlib.Algebra.Order.Floor.Ring
import Mathlib.Algebra.Order.Archimedean.Real.Basic
import Mathlib.Order.Interval.Finset.Nat

/-! # Model of `/repo/src/graph_ensembles/lib.py`

The functions of the module: `normalise_rows` (lines 8-21), `propagate_measure` (24-44), `pagerank`
(47-88) and `trophic_depth` (91-124).

Arrays are functions of the index; numbers are reals, so rounding is not modelled and neither is the
`nan` which a division by a zero row sum would give (graphs have positive weights,
`/repo/src/graph_ensembles/sparse/graphs.py:179-181`; the theorems that divide assume a positive
sum). What is modelled is the conversion on assignment to an array of another dtype, because
`normalise_rows` allocates its result with the dtype of the weights. The printed messages are
represented by the flag `converged`. -/

namespace Verif.Lib

open Finset

/-- The dtypes an adjacency matrix can have: weights given as floats, as integers, or no weights
(`/repo/src/graph_ensembles/sparse/graphs.py:175-192` and `adj != 0`, 537-538). -/
inductive Dt where
  | float
  | int
  | bool

/-- Conversion of a float on assignment to an array: integers truncate towards zero, booleans
record whether the value is non-zero. -/
noncomputable def Dt.cast : Dt → ℝ → ℝ
  | .float, r => r
  | .int, r => if 0 ≤ r then (⌊r⌋ : ℝ) else (⌈r⌉ : ℝ)
  | .bool, r => if r = 0 then 0 else 1

/-- The arrays of a compressed matrix; `n` is the number of rows (`len(indptr) - 1`). -/
structure Csr where
  n : ℕ
  indptr : ℕ → ℕ
  indices : ℕ → ℕ
  data : ℕ → ℝ
  dt : Dt

/-- `new_w[n:m] = vals / np.sum(vals)` for one row
(`/repo/src/graph_ensembles/lib.py:12-19`). -/
noncomputable def normaliseRow (c : Csr) (w : ℕ → ℝ) (i : ℕ) : ℕ → ℝ :=
  let n := c.indptr i
  let m := c.indptr (i + 1)
  if n = m then w
  else fun k => if n ≤ k ∧ k < m then c.dt.cast (c.data k / ∑ l ∈ Ico n m, c.data l) else w k

/-- `normalise_rows` (`/repo/src/graph_ensembles/lib.py:8-21`). -/
noncomputable def normalise_rows (c : Csr) : ℕ → ℝ :=
  (List.range c.n).foldl (normaliseRow c) (fun _ => 0)

/-- `a[i] += v` -/
noncomputable def addAt (a : ℕ → ℝ) (i : ℕ) (v : ℝ) : ℕ → ℝ :=
  fun k => if k = i then a k + v else a k

/-- One turn of the loop of `propagate_measure` (`/repo/src/graph_ensembles/lib.py:29-42`); `N` is
`len(meas)`. -/
noncomputable def propagateRow (N : ℕ) (indptr indices : ℕ → ℕ) (weights meas : ℕ → ℝ)
    (absorb : Bool) (update : ℕ → ℝ) (i : ℕ) : ℕ → ℝ :=
  let n := indptr i
  let m := indptr (i + 1)
  if n = m then
    if !absorb then (List.range N).foldl (fun u k => addAt u k (meas i / N)) update else update
  else
    (List.range (m - n)).foldl
      (fun u k => addAt u (indices (n + k)) (weights (n + k) * meas i)) update

/-- `propagate_measure` (`/repo/src/graph_ensembles/lib.py:24-44`); `rows` is `len(indptr) - 1`. -/
noncomputable def propagate_measure (rows N : ℕ) (indptr indices : ℕ → ℕ) (weights meas : ℕ → ℝ)
    (absorb : Bool) : ℕ → ℝ :=
  (List.range rows).foldl (propagateRow N indptr indices weights meas absorb) (fun _ => 0)

/-- What the iterations return: the values and whether the message was "Converged". -/
structure Result where
  value : ℕ → ℝ
  converged : Bool

/-- Exceptions. -/
inductive Err where
  /-- `n` is used after a loop that was never entered (`UnboundLocalError`, lines 87 and 123). -/
  | unbound
  /-- A dense array has no `indptr` or `tocsc`; the sum of a sparse array has no `A1`
  (`AttributeError`, lines 62 and 106). -/
  | attribute
  deriving DecidableEq

/-- `for n in range(max_iter): ...` with the test `np.all(np.absolute(new - old) < tol)`
(`/repo/src/graph_ensembles/lib.py:71-86`, `109-122`). -/
noncomputable def iterate (N : ℕ) (step : (ℕ → ℝ) → ℕ → ℝ) (tol : ℝ) :
    ℕ → (ℕ → ℝ) → Result
  | 0, r => ⟨r, false⟩
  | k + 1, r =>
    let r' := step r
    if ∀ i ∈ range N, |r' i - r i| < tol then ⟨r', true⟩ else iterate N step tol k r'

/-- The matrix returned by `g.adjacency_matrix`: a dense array, a sparse matrix (`csr_matrix`), or a
sparse array (`csr_array`, which the graphs of this package hold,
`/repo/src/graph_ensembles/sparse/graphs.py:183-192`). -/
inductive Container where
  | dense
  | matrix
  | array

/-- `pagerank` (`/repo/src/graph_ensembles/lib.py:47-88`); the argument `weighted` has been used to
select the adjacency matrix `c`, which holds `g.num_vertices` rows. -/
noncomputable def pagerank (k : Container) (c : Csr) (alpha : ℝ) (max_iter : ℕ) (tol : ℝ) :
    Except Err Result :=
  match k with
  | .dense => .error .attribute
  | _ =>
    let w := normalise_rows c
    let N := c.n
    let rank := fun _ => (1 : ℝ) / N
    if max_iter = 0 then .error .unbound
    else .ok (iterate N (fun rank i =>
      propagate_measure c.n N c.indptr c.indices w rank false i * alpha + (1 - alpha) / N)
      tol max_iter rank)

/-- `new_depth[idx] = (final + new_depth)[idx] / strength[idx]`
(`/repo/src/graph_ensembles/lib.py:115`), with `idx = strength != 0` (105). -/
noncomputable def depthStep (c : Csr) (strength final depth : ℕ → ℝ) : ℕ → ℝ :=
  let new_depth := propagate_measure c.n c.n c.indptr c.indices c.data (fun i => depth i + 1) true
  fun i => if strength i ≠ 0 then (final i + new_depth i) / strength i else new_depth i

/-- `adj.sum(axis=1)` of the matrix whose compressed columns are `c`
(`/repo/src/graph_ensembles/lib.py:104`). -/
noncomputable def rowSum (c : Csr) (i : ℕ) : ℝ :=
  ∑ j ∈ range c.n, ∑ k ∈ Ico (c.indptr j) (c.indptr (j + 1)),
    if c.indices k = i then c.data k else 0

/-- `trophic_depth` (`/repo/src/graph_ensembles/lib.py:91-124`); `c` holds the arrays of
`adj.tocsc()`: `c.indptr` are the column pointers, `c.indices` the rows. -/
noncomputable def trophic_depth (k : Container) (c : Csr) (final : ℕ → ℝ) (max_iter : ℕ) (tol : ℝ) :
    Except Err Result :=
  match k with
  | .dense => .error .attribute
  | .array => .error .attribute
  | .matrix =>
    let strength := fun i => rowSum c i + final i
    if max_iter = 0 then .error .unbound
    else .ok (iterate c.n (depthStep c strength final) tol max_iter final)

end Verif.Lib
