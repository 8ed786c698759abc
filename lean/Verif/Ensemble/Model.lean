import Verif.Num

/-!
# Model of the ensemble loops

The static methods of `DiGraphEnsemble` that loop over pairs of vertices.  They take the
probability function as an argument, exactly like the code; `α`, `β` are the types of the out
and in property of one vertex (a float for the single-layer models, a label list for the
multi-layer ones), `δ` the type of the parameter array, `ζ` the type of a dyadic property.

`prop_out`, `prop_in` are arrays of length `n` (`enumerate(prop_out)` is `List.range n`); the
constructors ensure that both have length `num_vertices`.
-/

namespace Verif

noncomputable section

open XR

/-- `a[i] += v` -/
def addAt (a : ℕ → XR) (i : ℕ) (v : XR) : ℕ → XR := Function.update a i (a i + v)

/-- `np.zeros(n)` -/
def zeros : ℕ → XR := fun _ => 0

/-- The condition `(i != j) | selfloops`. -/
def admissible (i j : ℕ) (selfloops : Bool) : Bool := (i != j) || selfloops

namespace DiGraphEnsemble

variable {α β δ ζ : Type}

/-- `/repo/src/graph_ensembles/sparse/models/ensembles.py:407-415`,
`/repo/src/graph_ensembles/models.py:410-418`. -/
def exp_edges (p_ij : δ → α → β → ζ → XR) (param : δ) (n : ℕ) (prop_out : ℕ → α)
    (prop_in : ℕ → β) (prop_dyad : ℕ → ℕ → ζ) (selfloops : Bool) : XR :=
  (List.range n).foldl (fun exp_e i =>
    (List.range n).foldl (fun exp_e j =>
      if admissible i j selfloops then
        exp_e + p_ij param (prop_out i) (prop_in j) (prop_dyad i j)
      else exp_e) exp_e) 0

/-- The three degree arrays accumulated by `exp_degrees`. -/
structure Degrees where
  exp_d : ℕ → XR
  exp_d_out : ℕ → XR
  exp_d_in : ℕ → XR

/-- Body of the inner loop of `exp_degrees`
(`/repo/src/graph_ensembles/sparse/models/ensembles.py:428-444`,
`/repo/src/graph_ensembles/models.py:431-447`). -/
def exp_degrees_step (p_ij : δ → α → β → ζ → XR) (param : δ) (prop_out : ℕ → α)
    (prop_in : ℕ → β) (prop_dyad : ℕ → ℕ → ζ) (selfloops : Bool) (i : ℕ) (s : Degrees) (j : ℕ) :
    Degrees :=
  if i ≠ j then
    let pij := p_ij param (prop_out i) (prop_in j) (prop_dyad i j)
    let pji := p_ij param (prop_out j) (prop_in i) (prop_dyad j i)
    let p := pij + pji - pij * pji
    { exp_d := addAt (addAt s.exp_d i p) j p
      exp_d_out := addAt (addAt s.exp_d_out i pij) j pji
      exp_d_in := addAt (addAt s.exp_d_in j pij) i pji }
  else if selfloops then
    let pii := p_ij param (prop_out i) (prop_in j) (prop_dyad i j)
    { exp_d := addAt s.exp_d i pii
      exp_d_out := addAt s.exp_d_out i pii
      exp_d_in := addAt s.exp_d_in j pii }
  else s

/-- `/repo/src/graph_ensembles/sparse/models/ensembles.py:419-446`,
`/repo/src/graph_ensembles/models.py:422-449`. -/
def exp_degrees (p_ij : δ → α → β → ζ → XR) (param : δ) (n : ℕ) (prop_out : ℕ → α)
    (prop_in : ℕ → β) (prop_dyad : ℕ → ℕ → ζ) (selfloops : Bool) : Degrees :=
  (List.range n).foldl (fun s i =>
    (List.range (i + 1)).foldl
      (exp_degrees_step p_ij param prop_out prop_in prop_dyad selfloops i) s)
    ⟨zeros, zeros, zeros⟩

/-- Values of the string argument `ndir`/`ddir`: the three documented ones, the string `"out_in"`,
and any other string. -/
inductive Dir where
  | out | inn | outIn | underscored | other
  deriving DecidableEq

/-- The documented directions (used in statements only). -/
def Dir.Known : Dir → Prop
  | .out | .inn | .outIn => True
  | .underscored | .other => False

@[simp] theorem Dir.known_out : Dir.Known .out := trivial
@[simp] theorem Dir.known_inn : Dir.Known .inn := trivial
@[simp] theorem Dir.known_outIn : Dir.Known .outIn := trivial
@[simp] theorem Dir.known_underscored : ¬ Dir.Known .underscored := not_false
@[simp] theorem Dir.known_other : ¬ Dir.Known .other := not_false

/-- The part of the attribute name that depends on a direction string, in which hyphens are
replaced by underscores (`/repo/src/graph_ensembles/sparse/models/ensembles.py:244`,
`/repo/src/graph_ensembles/models.py:250`, `/repo/src/graph_ensembles/spark/models.py:279`,
`2225`). -/
def Dir.key : Dir → Dir
  | .underscored => .outIn
  | d => d

theorem Dir.Known.key {d : Dir} (h : d.Known) : d.key = d := by
  cases d <;> first | rfl | exact False.elim h

/-- `ValueError("Direction of neighbourhood not right.")` of `exp_av_nn_prop`. -/
inductive NNErr where
  | badDirection
  deriving DecidableEq

/-- Body of the pair loop of `exp_av_nn_prop`
(`/repo/src/graph_ensembles/sparse/models/ensembles.py:456-473`). -/
def exp_av_nn_step (p_ij : δ → α → β → ζ → XR) (param : δ) (prop_out : ℕ → α)
    (prop_in : ℕ → β) (prop_dyad : ℕ → ℕ → ζ) (prop : ℕ → XR) (ndir : Dir) (i : ℕ)
    (av_nn : ℕ → XR) (j : ℕ) : Except NNErr (ℕ → XR) :=
  let pij := p_ij param (prop_out i) (prop_in j) (prop_dyad i j)
  let pji := p_ij param (prop_out j) (prop_in i) (prop_dyad j i)
  match ndir with
  | .out => .ok (addAt (addAt av_nn i (pij * prop j)) j (pji * prop i))
  | .inn => .ok (addAt (addAt av_nn i (pji * prop j)) j (pij * prop i))
  | .outIn =>
    let p := 1 - (1 - pij) * (1 - pji)
    .ok (addAt (addAt av_nn i (p * prop j)) j (p * prop i))
  | .underscored | .other => .error .badDirection

/-- Body of the self-loop pass of `exp_av_nn_prop`
(`/repo/src/graph_ensembles/sparse/models/ensembles.py:476-485`).  `jLast` is the value the
variable `j` has when this second loop is reached: the loop does not assign `j`. -/
def exp_av_nn_self (p_ij : δ → α → β → ζ → XR) (param : δ) (prop_out : ℕ → α)
    (prop_in : ℕ → β) (prop_dyad : ℕ → ℕ → ζ) (prop : ℕ → XR) (ndir : Dir) (jLast : ℕ)
    (av_nn : ℕ → XR) (i : ℕ) : Except NNErr (ℕ → XR) :=
  let pii := p_ij param (prop_out i) (prop_in i) (prop_dyad i jLast)
  match ndir with
  | .out => .ok (addAt av_nn i (pii * prop i))
  | .inn => .ok (addAt av_nn i (pii * prop i))
  | .outIn => .ok (addAt av_nn i (pii * prop i))
  | .underscored | .other => .error .badDirection

/-- `/repo/src/graph_ensembles/sparse/models/ensembles.py:450-487`,
`/repo/src/graph_ensembles/models.py:453-490`.

The variable `j` read in the self-loop pass was last assigned in the pair loop of the last
vertex, where its final value is `n - 2`; for `n ≤ 1` it has never been assigned and `jUndef`
(arbitrary) stands for whatever compiled code reads. -/
def exp_av_nn_prop (jUndef : ℕ) (p_ij : δ → α → β → ζ → XR) (param : δ) (n : ℕ)
    (prop_out : ℕ → α) (prop_in : ℕ → β) (prop_dyad : ℕ → ℕ → ζ) (prop : ℕ → XR) (ndir : Dir)
    (selfloops : Bool) : Except NNErr (ℕ → XR) :=
  let pairs := (List.range n).foldlM (fun av_nn i =>
    (List.range i).foldlM
      (exp_av_nn_step p_ij param prop_out prop_in prop_dyad prop ndir i) av_nn) zeros
  pairs >>= fun av_nn =>
    if selfloops then
      (List.range n).foldlM
        (exp_av_nn_self p_ij param prop_out prop_in prop_dyad prop ndir
          (if 2 ≤ n then n - 2 else jUndef)) av_nn
    else .ok av_nn

/-- `/repo/src/graph_ensembles/sparse/models/ensembles.py:491-512` (sparse) and
`/repo/src/graph_ensembles/models.py:494-510` (dense).  `link i j` is the test for the existence
of the link: `j in adj_j[adj_i[i]:adj_i[i + 1]]`, resp. `adj[i, j] != 0`.  An early `return tmp`
is `Except.error tmp`. -/
def likelihoodLoop (logp log1mp : δ → α → β → ζ → XR) (param : δ) (n : ℕ) (prop_out : ℕ → α)
    (prop_in : ℕ → β) (prop_dyad : ℕ → ℕ → ζ) (link : ℕ → ℕ → Bool) (selfloops : Bool) :
    Except XR XR :=
  (List.range n).foldlM (fun like i =>
    (List.range n).foldlM (fun like j =>
      if admissible i j selfloops then
        let tmp :=
          if link i j then logp param (prop_out i) (prop_in j) (prop_dyad i j)
          else log1mp param (prop_out i) (prop_in j) (prop_dyad i j)
        if tmp.isInf then .error tmp else .ok (like + tmp)
      else .ok like) like) 0

/-- The value returned by `_likelihood`. -/
def likelihood (logp log1mp : δ → α → β → ζ → XR) (param : δ) (n : ℕ) (prop_out : ℕ → α)
    (prop_in : ℕ → β) (prop_dyad : ℕ → ℕ → ζ) (link : ℕ → ℕ → Bool) (selfloops : Bool) : XR :=
  match likelihoodLoop logp log1mp param n prop_out prop_in prop_dyad link selfloops with
  | .error v => v
  | .ok v => v

/-- The link test of the sparse backend: `j in adj_j[adj_i[i]:adj_i[i+1]]`
(`/repo/src/graph_ensembles/sparse/models/ensembles.py:497-503`). -/
def csrLink (indptr : ℕ → ℕ) (indices : List ℕ) (i j : ℕ) : Bool :=
  ((indices.drop (indptr i)).take (indptr (i + 1) - indptr i)).contains j

/-- `/repo/src/graph_ensembles/sparse/models/ensembles.py:516-528`,
`/repo/src/graph_ensembles/models.py:514-526`.  `u i j` is the value returned by the call
`rng.random()` made for the pair `(i, j)`; the result is the list of appended `(row, col)`. -/
def binary_sample (p_ij : δ → α → β → ζ → XR) (param : δ) (n : ℕ) (prop_out : ℕ → α)
    (prop_in : ℕ → β) (prop_dyad : ℕ → ℕ → ζ) (selfloops : Bool) (u : ℕ → ℕ → ℝ) :
    List (ℕ × ℕ) :=
  (List.range n).foldl (fun rows i =>
    (List.range n).foldl (fun rows j =>
      if admissible i j selfloops then
        let p := p_ij param (prop_out i) (prop_in j) (prop_dyad i j)
        if ltb (fin (u i j)) p then rows ++ [(i, j)] else rows
      else rows) rows) []

/-- The same function with the generator made explicit as a stream: the `k`-th call of
`rng.random()` returns `u k`.  The state is the number of calls made so far and the list of
appended pairs. -/
def binary_sample_stream (p_ij : δ → α → β → ζ → XR) (param : δ) (n : ℕ) (prop_out : ℕ → α)
    (prop_in : ℕ → β) (prop_dyad : ℕ → ℕ → ζ) (selfloops : Bool) (u : ℕ → ℝ) :
    ℕ × List (ℕ × ℕ) :=
  (List.range n).foldl (fun s i =>
    (List.range n).foldl (fun s j =>
      if admissible i j selfloops then
        let p := p_ij param (prop_out i) (prop_in j) (prop_dyad i j)
        (s.1 + 1, if ltb (fin (u s.1)) p then s.2 ++ [(i, j)] else s.2)
      else s) s) (0, [])

/-- `AssertionError` of `_cremb_sample`. -/
inductive CrembErr where
  | strengthsDiffer
  deriving DecidableEq

/-- `np.sum` of an array of length `n`. -/
def npSum (n : ℕ) (a : ℕ → ℝ) : ℝ := (List.range n).foldl (fun s i => s + a i) 0

/-- `/repo/src/graph_ensembles/sparse/models/ensembles.py:532-551`,
`/repo/src/graph_ensembles/models.py:530-549`.  `u i j` as in `binary_sample`; `e i j` is the
standard exponential variate underlying the call `rng.exponential(scale)`, which returns
`scale * e i j`.  Strengths are real numbers.  When `s_tot` is zero the code divides by zero and
raises; in the model `x / 0 = 0`, the test fails and the call is an error too. -/
def cremb_sample (p_ij : δ → α → β → ζ → XR) (param : δ) (n : ℕ) (prop_out : ℕ → α)
    (prop_in : ℕ → β) (prop_dyad : ℕ → ℕ → ζ) (s_out s_in : ℕ → ℝ) (selfloops : Bool)
    (u e : ℕ → ℕ → ℝ) : Except CrembErr (List ((ℕ × ℕ) × XR)) :=
  let s_tot := npSum n s_out
  if |1 - npSum n s_in / s_tot| < 1e-6 then
    .ok ((List.range n).foldl (fun rows i =>
      (List.range n).foldl (fun rows j =>
        if admissible i j selfloops then
          let p := p_ij param (prop_out i) (prop_in j) (prop_dyad i j)
          if ltb (fin (u i j)) p then
            rows ++ [((i, j), fin (s_out i * s_in j) / (fin s_tot * p) * fin (e i j))]
          else rows
        else rows) rows) [])
  else .error .strengthsDiffer

end DiGraphEnsemble

end

end Verif
