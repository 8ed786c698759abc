import Verif.Ensemble.Models
import Verif.NumOrder
import Mathlib.Algebra.Order.Floor.Ring
import Mathlib.Analysis.SpecialFunctions.Pow.Real
import Mathlib.Algebra.Order.Archimedean.Real.Basic

/-!
# Model of the spark backend

`/repo/src/graph_ensembles/spark/models.py` divides the vertices into blocks, hands every pair of
blocks to a worker and combines the results with `RDD.fold`.

* A range of vertices `(lo, hi)` is a pair of naturals; a slice `x[lo:hi]` is the array
  `k ↦ x (lo + k)`, whose length is `hi - lo`.
* The loops take the probability function as an argument.  The multi-layer methods have the same
  loops, with a row of a csr matrix (a label list) in place of a number: `α` and `β` are arbitrary.
* An RDD is the list of its elements, `map` is `List.map`.  `Folds` describes every way in which
  partial results can be combined.
* Not modelled: serialisation, scheduling, and the seeding of the generators of the workers.  The
  draw made for the pair `(i, j)` is `u i j` whichever worker makes it.
-/

namespace Verif

open XR

namespace Spark

/-! ## Blocks -/

/-- `ValueError`s on the option `p_blocks`. -/
inductive BlockErr where
  | notInteger | notPositive
  deriving DecidableEq

/-- `int(v)` of a finite float. -/
noncomputable def pyInt (r : ℝ) : ℤ := if 0 ≤ r then ⌊r⌋ else ⌈r⌉

/-- Validation of the option `p_blocks`, absent or a float
(`spark/models.py:985-996`, `1559-1570`, `3363-3374`).  `int` raises on `inf` and `nan`, the
division raises on `0`; every exception becomes a `ValueError`. -/
noncomputable def validBlocks : Option XR → Except BlockErr ℕ
  | none => .ok 10
  | some (fin r) =>
    if pyInt r = 0 then .error .notInteger
    else if r / pyInt r = 1 then
      if pyInt r ≤ 0 then .error .notPositive else .ok (pyInt r).toNat
    else .error .notInteger
  | some _ => .error .notInteger

/-- Adjustment of the number of blocks to the number of vertices
(`spark/models.py:998-1004`, `1572-1578`, `3376-3382`). -/
def clampBlocks (num_vertices p_blocks : ℕ) : ℕ :=
  if num_vertices < 10 * p_blocks then
    if num_vertices / 10 < 2 then 2 else num_vertices / 10
  else p_blocks

/-- The range of vertices of block `i`
(`spark/models.py:1009-1014`, `1583-1588`, `3387-3392`). -/
def bounds (num_vertices p_blocks i : ℕ) : ℕ × ℕ :=
  let step := num_vertices / p_blocks
  if i = p_blocks - 1 then (i * step, num_vertices) else (i * step, (i + 1) * step)

/-- The elements of `p_iter_rdd`: all pairs of blocks
(`spark/models.py:1008-1019`, `1582-1595`, `3386-3399`). -/
def iterBlocks (num_vertices p_blocks : ℕ) : List ((ℕ × ℕ) × (ℕ × ℕ)) :=
  (List.range p_blocks).flatMap fun i =>
    (List.range p_blocks).map fun j =>
      (bounds num_vertices p_blocks i, bounds num_vertices p_blocks j)

/-- The elements of `p_sym_rdd`: the lower triangle of pairs of blocks
(`spark/models.py:1025-1037`, `1601-1613`, `3405-3417`). -/
def symBlocks (num_vertices p_blocks : ℕ) : List ((ℕ × ℕ) × (ℕ × ℕ)) :=
  (List.range p_blocks).flatMap fun i =>
    (List.range (i + 1)).map fun j =>
      (bounds num_vertices p_blocks i, bounds num_vertices p_blocks j)

/-- `x[r[0]:r[1]]` -/
def slice {α : Type} (x : ℕ → α) (r : ℕ × ℕ) : ℕ → α := fun k => x (r.1 + k)

variable {α β δ ζ : Type}

/-- `p_iter_rdd` with the slices of the properties attached
(`spark/models.py:1591-1593`, `3395-3397`; `1018` for the model without properties). -/
def p_iter_rdd (num_vertices p_blocks : ℕ) (prop_out : ℕ → α) (prop_in : ℕ → β) :
    List (((ℕ × ℕ) × (ℕ × ℕ)) × (ℕ → α) × (ℕ → β)) :=
  (iterBlocks num_vertices p_blocks).map fun b => (b, slice prop_out b.1, slice prop_in b.2)

/-- `spark/models.py:537-566` -/
def fit_map (ind : (ℕ × ℕ) × (ℕ × ℕ)) (x : ℕ → α) (y : ℕ → β) :
    ((ℕ × ℕ) × (ℕ × ℕ)) × ((ℕ → α) × (ℕ → α)) × ((ℕ → β) × (ℕ → β)) :=
  (ind, (slice x ind.1, slice x ind.2), (slice y ind.2, slice y ind.1))

/-- `p_sym_rdd` after the map (`spark/models.py:1042-1045`, `1618-1621`, `3422-3425`). -/
def p_sym_rdd (num_vertices p_blocks : ℕ) (prop_out : ℕ → α) (prop_in : ℕ → β) :
    List (((ℕ × ℕ) × (ℕ × ℕ)) × ((ℕ → α) × (ℕ → α)) × ((ℕ → β) × (ℕ → β))) :=
  (symBlocks num_vertices p_blocks).map fun b => fit_map b prop_out prop_in

/-- Every way of combining the results of a list of tasks with a binary operation: the results
may be taken in any order and grouped in any way, and the initial value may be inserted
anywhere.  `RDD.fold(zero, op)` combines within partitions first, then the results of the
partitions, starting with `zero` each time. -/
inductive Folds {σ : Type} (op : σ → σ → σ) (zero : σ) : List σ → σ → Prop
  | nil : Folds op zero [] zero
  | single (x : σ) : Folds op zero [x] x
  | node {l r : List σ} {a b : σ} : Folds op zero l a → Folds op zero r b →
      Folds op zero (l ++ r) (op a b)
  | perm {l l' : List σ} {a : σ} : l.Perm l' → Folds op zero l a → Folds op zero l' a

/-! ## Loops over one pair of blocks -/

/-- `spark/models.py:574-588`, `2626-2657`.  The dyadic property is read at the positions within
the block. -/
noncomputable def exp_edges (p_ij : δ → α → β → ζ → XR) (param : δ) (ind_out ind_in : ℕ × ℕ)
    (prop_out : ℕ → α) (prop_in : ℕ → β) (prop_dyad : ℕ → ℕ → ζ) (selfloops : Bool) : XR :=
  (List.range (ind_out.2 - ind_out.1)).foldl (fun exp_e i =>
    (List.range (ind_in.2 - ind_in.1)).foldl (fun exp_e j =>
      if admissible (ind_out.1 + i) (ind_in.1 + j) selfloops then
        exp_e + p_ij param (prop_out i) (prop_in j) (prop_dyad i j)
      else exp_e) exp_e) 0

/-- The length of `in_range(i, ind, fold)` (`spark/models.py:46-51`). -/
def inRange (i : ℕ) (ind : ℕ × ℕ) (fold : Bool) : ℕ := if fold then i + 1 else ind.2 - ind.1

open DiGraphEnsemble (Degrees Dir NNErr CrembErr npSum csrLink)

/-- Body of the inner loop of `exp_degrees` (`spark/models.py:610-627`, `2716-2731`). -/
noncomputable def exp_degrees_step (p_ij : δ → α → β → ζ → XR) (param : δ) (ind_out ind_in : ℕ × ℕ)
    (prop_out : (ℕ → α) × (ℕ → α)) (prop_in : (ℕ → β) × (ℕ → β)) (prop_dyad : ℕ → ℕ → ζ)
    (selfloops : Bool) (i : ℕ) (s : Degrees) (j : ℕ) : Degrees :=
  let ind_i := ind_out.1 + i
  let ind_j := ind_in.1 + j
  if ind_i ≠ ind_j then
    let pij := p_ij param (prop_out.1 i) (prop_in.1 j) (prop_dyad i j)
    let pji := p_ij param (prop_out.2 j) (prop_in.2 i) (prop_dyad j i)
    let p := pij + pji - pij * pji
    { exp_d := addAt (addAt s.exp_d ind_i p) ind_j p
      exp_d_out := addAt (addAt s.exp_d_out ind_i pij) ind_j pji
      exp_d_in := addAt (addAt s.exp_d_in ind_j pij) ind_i pji }
  else if selfloops then
    let pii := p_ij param (prop_out.1 i) (prop_in.1 j) (prop_dyad i j)
    { exp_d := addAt s.exp_d ind_i pii
      exp_d_out := addAt s.exp_d_out ind_i pii
      exp_d_in := addAt s.exp_d_in ind_j pii }
  else s

/-- `spark/models.py:592-629`, `2675-2733`. -/
noncomputable def exp_degrees (p_ij : δ → α → β → ζ → XR) (param : δ) (ind_out ind_in : ℕ × ℕ)
    (prop_out : (ℕ → α) × (ℕ → α)) (prop_in : (ℕ → β) × (ℕ → β)) (prop_dyad : ℕ → ℕ → ζ)
    (selfloops : Bool) : Degrees :=
  let fold := decide (ind_out = ind_in)
  (List.range (ind_out.2 - ind_out.1)).foldl (fun s i =>
    (List.range (inRange i ind_in fold)).foldl
      (exp_degrees_step p_ij param ind_out ind_in prop_out prop_in prop_dyad selfloops i) s)
    ⟨zeros, zeros, zeros⟩

/-- `lambda x, y: (x[0] + y[0], x[1] + y[1], x[2] + y[2])` on three arrays
(`spark/models.py:172-175`, `2041-2044`). -/
noncomputable def addDegrees (x y : Degrees) : Degrees :=
  ⟨fun k => x.exp_d k + y.exp_d k, fun k => x.exp_d_out k + y.exp_d_out k,
    fun k => x.exp_d_in k + y.exp_d_in k⟩

/-- Body of the inner loop of `exp_av_nn_prop` (`spark/models.py:656-685`, `2838-2871`). -/
noncomputable def exp_av_nn_step (p_ij : δ → α → β → ζ → XR) (param : δ) (ind_out ind_in : ℕ × ℕ)
    (prop_out : (ℕ → α) × (ℕ → α)) (prop_in : (ℕ → β) × (ℕ → β)) (prop_dyad : ℕ → ℕ → ζ)
    (prop : ℕ → XR) (ndir : Dir) (selfloops : Bool) (i : ℕ) (av_nn : ℕ → XR) (j : ℕ) :
    Except NNErr (ℕ → XR) :=
  let ind_i := ind_out.1 + i
  let ind_j := ind_in.1 + j
  if ind_i ≠ ind_j then
    let pij := p_ij param (prop_out.1 i) (prop_in.1 j) (prop_dyad i j)
    let pji := p_ij param (prop_out.2 j) (prop_in.2 i) (prop_dyad j i)
    match ndir with
    | .out => .ok (addAt (addAt av_nn ind_i (pij * prop ind_j)) ind_j (pji * prop ind_i))
    | .inn => .ok (addAt (addAt av_nn ind_i (pji * prop ind_j)) ind_j (pij * prop ind_i))
    | .outIn =>
      let p := pij + pji - pij * pji
      .ok (addAt (addAt av_nn ind_i (p * prop ind_j)) ind_j (p * prop ind_i))
    | .underscored | .other => .error .badDirection
  else if selfloops then
    let pii := p_ij param (prop_out.1 i) (prop_in.1 j) (prop_dyad i j)
    match ndir with
    | .out => .ok (addAt av_nn ind_i (pii * prop ind_i))
    | .inn => .ok (addAt av_nn ind_i (pii * prop ind_i))
    | .outIn => .ok (addAt av_nn ind_i (pii * prop ind_i))
    | .underscored | .other => .error .badDirection
  else .ok av_nn

/-- `spark/models.py:631-687`, `2802-2873`. -/
noncomputable def exp_av_nn_prop (p_ij : δ → α → β → ζ → XR) (param : δ) (ind_out ind_in : ℕ × ℕ)
    (prop_out : (ℕ → α) × (ℕ → α)) (prop_in : (ℕ → β) × (ℕ → β)) (prop_dyad : ℕ → ℕ → ζ)
    (prop : ℕ → XR) (ndir : Dir) (selfloops : Bool) : Except NNErr (ℕ → XR) :=
  let fold := decide (ind_out = ind_in)
  (List.range (ind_out.2 - ind_out.1)).foldlM (fun av_nn i =>
    (List.range (inRange i ind_in fold)).foldlM
      (exp_av_nn_step p_ij param ind_out ind_in prop_out prop_in prop_dyad prop ndir selfloops i)
      av_nn) zeros

/-- `lambda x, y: x + y` on the results of the tasks (`spark/models.py:242`); a task that raises
makes the whole job raise. -/
noncomputable def addArrays (x y : Except NNErr (ℕ → XR)) : Except NNErr (ℕ → XR) :=
  match x, y with
  | .ok a, .ok b => .ok (fun k => a k + b k)
  | .error e, _ => .error e
  | _, .error e => .error e

/-- `spark/models.py:691-726`, `2877-2920`.  An early `return tmp` is `Except.error tmp`. -/
noncomputable def likelihoodLoop (logp log1mp : δ → α → β → ζ → XR) (param : δ)
    (ind_out ind_in : ℕ × ℕ) (prop_out : ℕ → α) (prop_in : ℕ → β) (prop_dyad : ℕ → ℕ → ζ)
    (link : ℕ → ℕ → Bool) (selfloops : Bool) : Except XR XR :=
  (List.range (ind_out.2 - ind_out.1)).foldlM (fun like i =>
    (List.range (ind_in.2 - ind_in.1)).foldlM (fun like j =>
      if admissible (ind_out.1 + i) (ind_in.1 + j) selfloops then
        let tmp :=
          if link (ind_out.1 + i) (ind_in.1 + j) then
            logp param (prop_out i) (prop_in j) (prop_dyad i j)
          else log1mp param (prop_out i) (prop_in j) (prop_dyad i j)
        if tmp.isInf then .error tmp else .ok (like + tmp)
      else .ok like) like) 0

/-- The value returned by `_likelihood`. -/
noncomputable def likelihood (logp log1mp : δ → α → β → ζ → XR) (param : δ)
    (ind_out ind_in : ℕ × ℕ) (prop_out : ℕ → α) (prop_in : ℕ → β) (prop_dyad : ℕ → ℕ → ζ)
    (link : ℕ → ℕ → Bool) (selfloops : Bool) : XR :=
  match likelihoodLoop logp log1mp param ind_out ind_in prop_out prop_in prop_dyad link
    selfloops with
  | .error v => v
  | .ok v => v

/-- The four count arrays of `_confusion_matrix`. -/
structure Conf where
  tp : ℕ → ℕ
  fp : ℕ → ℕ
  tn : ℕ → ℕ
  fn : ℕ → ℕ

/-- `a[k] += 1` -/
def incr (a : ℕ → ℕ) (k : ℕ) : ℕ → ℕ := Function.update a k (a k + 1)

/-- Four arrays of zeros (`spark/models.py:437-440`, `746-749`). -/
def Conf.zero : Conf := ⟨fun _ => 0, fun _ => 0, fun _ => 0, fun _ => 0⟩

/-- Body of the loop over thresholds (`spark/models.py:762-772`, `3015-3025`). -/
noncomputable def confStep (thresholds : ℕ → XR) (p : XR) (linked : Bool) (c : Conf) (k : ℕ) : Conf :=
  if linked then
    if leb (thresholds k) p then { c with tp := incr c.tp k } else { c with fn := incr c.fn k }
  else
    if leb (thresholds k) p then { c with fp := incr c.fp k } else { c with tn := incr c.tn k }

/-- `spark/models.py:730-774`, `2980-3028`; `K` is the number of thresholds. -/
noncomputable def confusion (K : ℕ) (thresholds : ℕ → XR) (p_ij : δ → α → β → ζ → XR) (param : δ)
    (ind_out ind_in : ℕ × ℕ) (prop_out : ℕ → α) (prop_in : ℕ → β) (prop_dyad : ℕ → ℕ → ζ)
    (link : ℕ → ℕ → Bool) (selfloops : Bool) : Conf :=
  (List.range (ind_out.2 - ind_out.1)).foldl (fun c i =>
    (List.range (ind_in.2 - ind_in.1)).foldl (fun c j =>
      if admissible (ind_out.1 + i) (ind_in.1 + j) selfloops then
        (List.range K).foldl (confStep thresholds
          (p_ij param (prop_out i) (prop_in j) (prop_dyad i j))
          (link (ind_out.1 + i) (ind_in.1 + j))) c
      else c) c) Conf.zero

/-- `spark/models.py:441-444` -/
def addConf (x y : Conf) : Conf :=
  ⟨fun k => x.tp k + y.tp k, fun k => x.fp k + y.fp k, fun k => x.tn k + y.tn k,
    fun k => x.fn k + y.fn k⟩

/-- `spark/models.py:778-796`; `u i j` is the number drawn for the pair `(i, j)`. -/
noncomputable def binary_sample (p_ij : δ → α → β → ζ → XR) (param : δ) (ind_out ind_in : ℕ × ℕ)
    (prop_out : ℕ → α) (prop_in : ℕ → β) (prop_dyad : ℕ → ℕ → ζ) (selfloops : Bool)
    (u : ℕ → ℕ → ℝ) : List (ℕ × ℕ) :=
  (List.range (ind_out.2 - ind_out.1)).foldl (fun rows i =>
    (List.range (ind_in.2 - ind_in.1)).foldl (fun rows j =>
      if admissible (ind_out.1 + i) (ind_in.1 + j) selfloops then
        let p := p_ij param (prop_out i) (prop_in j) (prop_dyad i j)
        if ltb (fin (u (ind_out.1 + i) (ind_in.1 + j))) p then
          rows ++ [(ind_out.1 + i, ind_in.1 + j)]
        else rows
      else rows) rows) []

/-- `spark/models.py:800-834`; every task receives the whole strength arrays of length `n`. -/
noncomputable def cremb_sample (p_ij : δ → α → β → ζ → XR) (param : δ) (n : ℕ)
    (ind_out ind_in : ℕ × ℕ) (prop_out : ℕ → α) (prop_in : ℕ → β) (prop_dyad : ℕ → ℕ → ζ)
    (s_out s_in : ℕ → ℝ) (selfloops : Bool) (u e : ℕ → ℕ → ℝ) :
    Except CrembErr (List ((ℕ × ℕ) × XR)) :=
  let s_tot := npSum n s_out
  if |1 - npSum n s_in / s_tot| < 1e-6 then
    .ok ((List.range (ind_out.2 - ind_out.1)).foldl (fun rows i =>
      (List.range (ind_in.2 - ind_in.1)).foldl (fun rows j =>
        let ind_i := ind_out.1 + i
        let ind_j := ind_in.1 + j
        if admissible ind_i ind_j selfloops then
          let p := p_ij param (prop_out i) (prop_in j) (prop_dyad i j)
          if ltb (fin (u ind_i ind_j)) p then
            rows ++ [((ind_i, ind_j),
              fin (s_out ind_i * s_in ind_j) / (fin s_tot * p) * fin (e ind_i ind_j))]
          else rows
        else rows) rows) [])
  else .error .strengthsDiffer

/-- `tuple_of_lists_append` on the results of the tasks (`spark/models.py:568-572`); the two or
three lists are one list of tuples. -/
def appendRows {γ : Type} (x y : Except CrembErr (List γ)) : Except CrembErr (List γ) :=
  match x, y with
  | .ok a, .ok b => .ok (a ++ b)
  | .error e, _ => .error e
  | _, .error e => .error e

/-- `spark/models.py:1712-1727`, `3593-3624`. -/
noncomputable def exp_edges_f_jac (p_jac_ij : XR → α → β → XR × XR) (param : XR)
    (ind_out ind_in : ℕ × ℕ) (prop_out : ℕ → α) (prop_in : ℕ → β) (selfloops : Bool) : XR × XR :=
  (List.range (ind_out.2 - ind_out.1)).foldl (fun s i =>
    (List.range (ind_in.2 - ind_in.1)).foldl (fun s j =>
      if admissible (ind_out.1 + i) (ind_in.1 + j) selfloops then
        (s.1 + (p_jac_ij param (prop_out i) (prop_in j)).1,
          s.2 + (p_jac_ij param (prop_out i) (prop_in j)).2)
      else s) s) (0, 0)

/-- `lambda x, y: (x[0] + y[0], x[1] + y[1])` (`spark/models.py:1706`, `3587`). -/
noncomputable def addPair (x y : XR × XR) : XR × XR := (x.1 + y.1, x.2 + y.2)

/-! ## Jobs

Each job maps a loop over an RDD and combines the results.  `v` is a possible outcome when it is
related to the list of results by `Folds`. -/

section
variable (E : Ens) (num_vertices p_blocks : ℕ)

/-- `spark/models.py:143-147`, `1949-1965` -/
noncomputable def edgesTasks (selfloops : Bool) : List XR :=
  (p_iter_rdd num_vertices p_blocks E.prop_out E.prop_in).map fun x =>
    exp_edges E.p_ij E.param x.1.1 x.1.2 x.2.1 x.2.2 E.prop_dyad selfloops

/-- `spark/models.py:163-168`, `2019-2034` -/
noncomputable def degreeTasks (selfloops : Bool) : List Degrees :=
  (p_sym_rdd num_vertices p_blocks E.prop_out E.prop_in).map fun x =>
    exp_degrees E.p_ij E.param x.1.1 x.1.2 x.2.1 x.2.2 E.prop_dyad selfloops

/-- `spark/models.py:237-242` -/
noncomputable def avTasks (prop : ℕ → XR) (ndir : Dir) (selfloops : Bool) :
    List (Except NNErr (ℕ → XR)) :=
  (p_sym_rdd num_vertices p_blocks E.prop_out E.prop_in).map fun x =>
    exp_av_nn_prop E.p_ij E.param x.1.1 x.1.2 x.2.1 x.2.2 E.prop_dyad prop ndir selfloops

/-- `spark/models.py:355-369` -/
noncomputable def likelihoodTasks (link : ℕ → ℕ → Bool) (selfloops : Bool) : List XR :=
  (p_iter_rdd num_vertices p_blocks E.prop_out E.prop_in).map fun x =>
    likelihood E.logp E.log1mp E.param x.1.1 x.1.2 x.2.1 x.2.2 E.prop_dyad link selfloops

/-- `spark/models.py:421-436`, `2446-2464` -/
noncomputable def confusionTasks (K : ℕ) (thresholds : ℕ → XR) (link : ℕ → ℕ → Bool)
    (selfloops : Bool) : List Conf :=
  (p_iter_rdd num_vertices p_blocks E.prop_out E.prop_in).map fun x =>
    confusion K thresholds E.p_ij E.param x.1.1 x.1.2 x.2.1 x.2.2 E.prop_dyad link selfloops

/-- `spark/models.py:494-500` -/
noncomputable def sampleTasks (selfloops : Bool) (u : ℕ → ℕ → ℝ) : List (List (ℕ × ℕ)) :=
  (p_iter_rdd num_vertices p_blocks E.prop_out E.prop_in).map fun x =>
    binary_sample E.p_ij E.param x.1.1 x.1.2 x.2.1 x.2.2 E.prop_dyad selfloops u

/-- `spark/models.py:508-523` -/
noncomputable def crembTasks (s_out s_in : ℕ → ℝ) (selfloops : Bool) (u e : ℕ → ℕ → ℝ) :
    List (Except CrembErr (List ((ℕ × ℕ) × XR))) :=
  (p_iter_rdd num_vertices p_blocks E.prop_out E.prop_in).map fun x =>
    cremb_sample E.p_ij E.param num_vertices x.1.1 x.1.2 x.2.1 x.2.2 E.prop_dyad s_out s_in
      selfloops u e

end

/-- `spark/models.py:1703-1706`, `3572-3587` -/
noncomputable def jacTasks (p_jac_ij : XR → α → β → XR × XR) (num_vertices p_blocks : ℕ)
    (prop_out : ℕ → α) (prop_in : ℕ → β) (selfloops : Bool) (param : XR) : List (XR × XR) :=
  (p_iter_rdd num_vertices p_blocks prop_out prop_in).map fun x =>
    exp_edges_f_jac p_jac_ij param x.1.1 x.1.2 x.2.1 x.2.2 selfloops

/-! ## Automatic thresholds -/

/-- `ValueError: math domain error` of `math.log`, and the other `ValueError`s. -/
inductive ThErr where
  | mathDomain | valueError
  deriving DecidableEq

/-- `math.log` of a finite float. -/
noncomputable def mathLog (r : ℝ) : Except ThErr ℝ :=
  if 0 < r then .ok (Real.log r) else .error .mathDomain

/-- `np.logspace(a, b, K)`: powers of ten with exponents equally spaced from `a` to `b`. -/
noncomputable def logspace (a b : ℝ) (K k : ℕ) : ℝ :=
  (10 : ℝ) ^ (if K = 1 then a else a + k * ((b - a) / (K - 1 : ℝ)))

/-- The argument `thresholds` of `confusion_matrix`. -/
inductive ThArg where
  | none
  | int (k : ℤ)
  | array (K : ℕ) (th : ℕ → XR)
  | other

/-- `np.logspace(log(p_min), log(p_max), K)`; `np.logspace` raises for a negative number. -/
noncomputable def autoThresholds (p_min p_max : ℝ) (K : ℤ) : Except ThErr (ℕ × (ℕ → XR)) :=
  mathLog p_min >>= fun a => mathLog p_max >>= fun b =>
    if K < 0 then .error .valueError
    else .ok (K.toNat, fun k => fin (logspace a b K.toNat k))

/-- The choice of the thresholds (`spark/models.py:383-395`, `2394-2415`): their number and their
values.  `p_min`, `p_max` are the probabilities computed from the smallest and largest
properties. -/
noncomputable def chooseThresholds (p_min p_max : ℝ) : ThArg → Except ThErr (ℕ × (ℕ → XR))
  | .none => autoThresholds p_min p_max 20
  | .int k => autoThresholds p_min p_max k
  | .array K th => .ok (K, th)
  | .other => .error .valueError

end Spark

end Verif
