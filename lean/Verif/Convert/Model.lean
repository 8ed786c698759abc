import Mathlib.Data.List.Basic

/-! # Model of the conversion between compressed matrices and lists of rows

`csx_to_tuple_list` and `tuple_list_to_csx`
(`/repo/src/graph_ensembles/sparse/models/fitness.py:824-856`). Arrays are functions of the index
together with a length; `V` is the type of the values, with default value `z` (the zero of
`np.zeros`). The arrays of a tuple are taken to have equal lengths (they are slices of arrays of
equal length); the exception raised otherwise is not modelled. Integer overflow of the dtype of the
indices is not modelled. -/

namespace Verif.Convert

/-- `a[m:n]` -/
def slice {α : Type} (a : ℕ → α) (m n : ℕ) : List α := (List.range (n - m)).map (fun t => a (m + t))

/-- `csx_to_tuple_list` (`/repo/src/graph_ensembles/sparse/models/fitness.py:826-833`);
`N = len(indptr) - 1`. -/
def csx_to_tuple_list {V : Type} (N : ℕ) (indptr indices : ℕ → ℕ) (data : ℕ → V) :
    List (List ℕ × List V) :=
  (List.range N).map (fun i =>
    let m := indptr i
    let n := indptr (i + 1)
    (slice indices m n, slice data m n))

/-- The compressed arrays with their lengths: `len(indptr) = rows + 1`,
`len(indices) = len(vals) = nnz`. -/
structure Csx (V : Type) where
  rows : ℕ
  nnz : ℕ
  vals : ℕ → V
  indices : ℕ → ℕ
  indptr : ℕ → ℕ

/-- `a[m:m + len(x)] = x` -/
def write {α : Type} (a : ℕ → α) (m len : ℕ) (x : List α) (z : α) : ℕ → α :=
  fun k => if m ≤ k ∧ k < m + len then x.getD (k - m) z else a k

/-- Variables of the loop. -/
structure St (V : Type) where
  i : ℕ
  n : ℕ
  vals : ℕ → V
  indices : ℕ → ℕ
  indptr : ℕ → ℕ

/-- The body of the loop (`/repo/src/graph_ensembles/sparse/models/fitness.py:848-854`). -/
def step {V : Type} (z : V) (s : St V) (r : List ℕ × List V) : St V :=
  { i := s.i + 1
    n := s.n + r.1.length
    indptr := fun k => if k = s.i + 1 then s.n + r.1.length else s.indptr k
    indices := write s.indices s.n r.1.length r.1 0
    vals := write s.vals s.n r.1.length r.2 z }

/-- `tuple_list_to_csx` (`/repo/src/graph_ensembles/sparse/models/fitness.py:835-856`); `none` is the
error of `data[0]` for an empty list. -/
def tuple_list_to_csx {V : Type} (z : V) (data : List (List ℕ × List V)) : Option (Csx V) :=
  if data = [] then none
  else
    let nnz := data.foldl (fun nnz r => nnz + r.1.length) 0
    let s := data.foldl (step z) ⟨0, 0, fun _ => z, fun _ => 0, fun _ => 0⟩
    some ⟨data.length, nnz, s.vals, s.indices, s.indptr⟩

end Verif.Convert
