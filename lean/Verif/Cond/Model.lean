import Verif.Ensemble.Model
import Verif.Prob.Model

/-!
# Model of `ConditionalInvariantModel`

`/repo/src/graph_ensembles/sparse/models/conditional.py`.  All float divisions of the code whose
denominator is not tested before raise `ZeroDivisionError` on a zero denominator (numba's default
error model): they are `divZ`.  The static loops take `p_ij`, `cond_p_ij`, `logp`, `log1mp` of the
class as arguments; as the class fixes them they are used directly here.
-/

namespace Verif.Cond

noncomputable section

open XR

/-- Exceptions of the modelled methods. -/
inductive Err where
  /-- `ZeroDivisionError` -/
  | zeroDivision
  /-- `AssertionError("Sum of in/out strengths not the same.")` -/
  | strengthsDiffer
  /-- `ValueError("Weights method not recognised or implemented.")` -/
  | badWeights
  /-- `Exception("Ensemble has to be fitted before ...")` -/
  | notFitted
  /-- `ValueError("Passed graph adjacency matrix does not have the correct shape ...")` -/
  | badShape
  deriving DecidableEq

/-- Float division that raises on a zero denominator. -/
def divZ (a b : XR) : Except Err XR := if b.isZero then .error .zeroDivision else .ok (a / b)

/-- A compressed sparse matrix as stored: `indptr`, `indices`, `data`. -/
structure Mat where
  indptr : ℕ → ℕ
  indices : List ℕ
  data : List ℝ

/-- `indices[indptr[a]:indptr[a+1]]` -/
def Mat.row (m : Mat) (a : ℕ) : List ℕ :=
  (m.indices.drop (m.indptr a)).take (m.indptr (a + 1) - m.indptr a)

/-- `data[indptr[a]:indptr[a+1]]` -/
def Mat.vals (m : Mat) (a : ℕ) : List ℝ :=
  (m.data.drop (m.indptr a)).take (m.indptr (a + 1) - m.indptr a)

/-- The entry `m[a, b]`: duplicates are summed. -/
def Mat.at (m : Mat) (a b : ℕ) : ℝ :=
  (((m.row a).zip (m.vals a)).map (fun e => if e.1 = b then e.2 else 0)).sum

/-- The fields of the object read by the modelled methods: `num_vertices`, `num_groups`
(`= adj.shape[0] = np.max(groups) + 1`, asserted by the constructor, lines 203-213), `prop_out`,
`prop_in`, `groups`, `adj`, `param[0]`, `selfloops`. -/
structure Obj where
  n : ℕ
  M : ℕ
  prop_out : ℕ → XR
  prop_in : ℕ → XR
  groups : ℕ → ℕ
  adj : Mat
  param : Option XR
  selfloops : Bool

/-- `for i, gr in enumerate(groups): agg[gr] += v[i]` (lines 530-534 and repeated in each
function). -/
def agg (n : ℕ) (groups : ℕ → ℕ) (v : ℕ → XR) : ℕ → XR :=
  (List.range n).foldl (fun s i => addAt s (groups i) (v i)) zeros

namespace Obj

variable (o : Obj)

/-- `agg_p_out` -/
def aggOut : ℕ → XR := agg o.n o.groups o.prop_out
/-- `agg_p_in` -/
def aggIn : ℕ → XR := agg o.n o.groups o.prop_in
/-- `agg_diag` (only computed when `not selfloops`) -/
def aggDiag : ℕ → XR := agg o.n o.groups (fun i => o.prop_out i * o.prop_in i)

/-- The last argument of `cond_p_ij` (lines 544-564), `p_ij` (lines 699-706), ...:
`1 - agg_diag[a] / (agg_p_out[a] * agg_p_in[b])` if `not selfloops and (a == b)`, else `1.0`. -/
def zAgg (a b : ℕ) : Except Err XR :=
  if !o.selfloops && a == b then
    divZ (o.aggDiag a) (o.aggOut a * o.aggIn b) >>= fun q => .ok (1 - q)
  else .ok 1

/-- `np.where(groups == a)[0]` -/
def members (a : ℕ) : List ℕ := (List.range o.n).filter (fun i => o.groups i == a)

end Obj

/-- `/repo/src/graph_ensembles/sparse/models/conditional.py:999-1021`.  The denominators of the
divisions are non-zero by the tests above them. -/
def cond_p_ij (d x_i y_j z_ij x_I y_J z_IJ : XR) : XR :=
  if x_I.isZero || y_J.isZero || z_IJ.isZero || x_i.isZero || y_j.isZero || z_ij.isZero then 0
  else if d.isZero then (x_i / x_I) * (y_j / y_J) * (z_ij / z_IJ)
  else
    let tmp := d * x_i * y_j * z_ij
    let tmp1 := d * x_I * y_J * z_IJ
    if tmp.isInf then 1
    else if tmp1.isInf then -(XR.expm1 (-tmp))
    else -(XR.expm1 (-tmp)) / -(XR.expm1 (-tmp1))

/-- The call `p_ij(param, x_i, y_j, 1.0, agg_p_out[a], agg_p_in[b], ...)` of `exp_edges` and
`exp_degrees` (there `p_ij` is `self.cond_p_ij`) for the pair `(i, j)`. -/
def condP (o : Obj) (d : XR) (i j : ℕ) : Except Err XR :=
  o.zAgg (o.groups i) (o.groups j) >>= fun z =>
    .ok (cond_p_ij d (o.prop_out i) (o.prop_in j) 1 (o.aggOut (o.groups i))
      (o.aggIn (o.groups j)) z)

/-- `/repo/src/graph_ensembles/sparse/models/conditional.py:523-570` -/
def exp_edges (o : Obj) (d : XR) : Except Err XR :=
  (List.range o.n).foldlM (fun exp_e i =>
    (List.range o.n).foldlM (fun exp_e j =>
      if (o.adj.row (o.groups i)).contains (o.groups j) && admissible i j o.selfloops then
        condP o d i j >>= fun pij => .ok (exp_e + pij)
      else .ok exp_e) exp_e) (0 : XR)

open DiGraphEnsemble (Degrees)

/-- The update of the degree arrays for a pair `i ≠ j` (lines 636-643). -/
def addPair (s : Degrees) (i j : ℕ) (pij pji : XR) : Degrees :=
  let p := pij + pji - pij * pji
  { exp_d := addAt (addAt s.exp_d i p) j p
    exp_d_out := addAt (addAt s.exp_d_out i pij) j pji
    exp_d_in := addAt (addAt s.exp_d_in j pij) i pji }

/-- The update for a self loop (lines 654-656). -/
def addSelf (s : Degrees) (i j : ℕ) (pii : XR) : Degrees :=
  { exp_d := addAt s.exp_d i pii
    exp_d_out := addAt s.exp_d_out i pii
    exp_d_in := addAt s.exp_d_in j pii }

/-- Body of the inner loop of `exp_degrees`
(`/repo/src/graph_ensembles/sparse/models/conditional.py:596-656`).  The two denominators
`agg_p_out[a] * agg_p_in[b]` and `agg_p_out[b] * agg_p_in[a]` are those of `zAgg` because `a == b`
there. -/
def exp_degrees_step (o : Obj) (d : XR) (i : ℕ) (s : Degrees) (j : ℕ) : Except Err Degrees :=
  if (o.adj.row (o.groups i)).contains (o.groups j) then
    if i ≠ j then
      condP o d i j >>= fun pij => condP o d j i >>= fun pji => .ok (addPair s i j pij pji)
    else if o.selfloops then
      condP o d i j >>= fun pii => .ok (addSelf s i j pii)
    else .ok s
  else .ok s

/-- `/repo/src/graph_ensembles/sparse/models/conditional.py:573-658` -/
def exp_degrees (o : Obj) (d : XR) : Except Err Degrees :=
  (List.range o.n).foldlM (fun s i =>
    (List.range (i + 1)).foldlM (exp_degrees_step o d i) s) ⟨zeros, zeros, zeros⟩

/-- `/repo/src/graph_ensembles/sparse/models/conditional.py:215-232` (cache ignored). -/
def expected_num_edges (o : Obj) : Except Err XR :=
  match o.param with
  | none => .error .notFitted
  | some d => exp_edges o d

/-- `/repo/src/graph_ensembles/sparse/models/conditional.py:234-268` (cache ignored). -/
def expected_degrees (o : Obj) : Except Err Degrees :=
  match o.param with
  | none => .error .notFitted
  | some d => exp_degrees o d

/-! ## Sampling -/

/-- `p_ij(param, agg_p_out[a], agg_p_in[b], z)` (lines 698-706). -/
def pAgg (o : Obj) (d : XR) (a b : ℕ) : Except Err XR :=
  o.zAgg a b >>= fun z => .ok (Sparse.ScaleInvariantModel.p_ij d (o.aggOut a) (o.aggIn b) z)

/-- The state of the loop over the pairs of one coarse link: appended rows (with values),
`atleastone`, `pnorm`, and `snorm` (`_wagg_sample` only). -/
structure St (ω : Type) where
  rows : List ((ℕ × ℕ) × ω)
  atleastone : Bool
  pnorm : XR

/-- Body of the pair loop (lines 711-727).  `val i j p` is the value appended for the new link;
`u i j` is the result of the call `rng.random()` for the pair. -/
def pairStep {ω : Type} (o : Obj) (d : XR) (u : ℕ → ℕ → ℝ) (val : ℕ → ℕ → XR → Except Err ω)
    (s : St ω) (i j : ℕ) : Except Err (St ω) :=
  if admissible i j o.selfloops then
    let p := Sparse.ScaleInvariantModel.p_ij d (o.prop_out i) (o.prop_in j) 1
    (if s.atleastone then .ok p else divZ p s.pnorm) >>= fun p_sample =>
      if ltb (fin (u i j)) p_sample then
        val i j p >>= fun v => .ok { rows := s.rows ++ [((i, j), v)], atleastone := true,
                                     pnorm := s.pnorm }
      else
        divZ (1 - s.pnorm) (1 - p) >>= fun r =>
          .ok { rows := s.rows, atleastone := s.atleastone, pnorm := 1 - r }
  else .ok s

/-- The loops over `i_in_a` and `j_in_b` (lines 708-727). -/
def blockLoop {ω : Type} (o : Obj) (d : XR) (u : ℕ → ℕ → ℝ) (val : ℕ → ℕ → XR → Except Err ω)
    (a b : ℕ) (s : St ω) : Except Err (St ω) :=
  (o.members a).foldlM (fun s i =>
    (o.members b).foldlM (fun s j => pairStep o d u val s i j) s) s

/-- `/repo/src/graph_ensembles/sparse/models/conditional.py:669-729` -/
def binary_sample (o : Obj) (d : XR) (u : ℕ → ℕ → ℝ) : Except Err (List ((ℕ × ℕ) × Unit)) :=
  (List.range o.M).foldlM (fun rows a =>
    (o.adj.row a).foldlM (fun rows b =>
      pAgg o d a b >>= fun pnorm =>
        blockLoop o d u (fun _ _ _ => .ok ()) a b ⟨rows, false, pnorm⟩ >>= fun s =>
          .ok s.rows) rows) []

/-- `/repo/src/graph_ensembles/sparse/models/conditional.py:733-817`; `e i j` is the standard
exponential variate of the call `rng.exponential`, strengths are real numbers. -/
def cremb_sample (o : Obj) (d : XR) (s_out s_in : ℕ → ℝ) (u e : ℕ → ℕ → ℝ) :
    Except Err (List ((ℕ × ℕ) × XR)) :=
  let s_tot := DiGraphEnsemble.npSum o.n s_out
  divZ (fin (DiGraphEnsemble.npSum o.n s_in)) (fin s_tot) >>= fun r =>
  if |1 - r.toReal| < 1e-6 then
    (List.range o.M).foldlM (fun rows a =>
      (o.adj.row a).foldlM (fun rows b =>
        pAgg o d a b >>= fun p_ab =>
          blockLoop o d u (fun i j p =>
            divZ p p_ab >>= fun q =>
              divZ (fin (s_out i * s_in j)) (fin s_tot * q) >>= fun scale =>
                .ok (scale * fin (e i j))) a b ⟨rows, false, p_ab⟩ >>= fun s =>
            .ok s.rows) rows) []
  else .error .strengthsDiffer

/-- The renormalisation of the values appended since `s_start` (lines 903-905);
`snorm` is the sum of the values `s_out[i] * s_in[j]` appended for this coarse link, accumulated
in the same order (lines 880, 896). -/
def renorm (start : ℕ) (w_ab : XR) (rows : List ((ℕ × ℕ) × XR)) :
    Except Err (List ((ℕ × ℕ) × XR)) :=
  let new := rows.drop start
  let snorm := new.foldl (fun s r => s + r.2) 0
  new.mapM (fun r => divZ r.2 snorm >>= fun frac => .ok (r.1, frac * w_ab)) >>= fun vs =>
    .ok (rows.take start ++ vs)

/-- `/repo/src/graph_ensembles/sparse/models/conditional.py:821-907` -/
def wagg_sample (o : Obj) (d : XR) (s_out s_in : ℕ → ℝ) (u : ℕ → ℕ → ℝ) :
    Except Err (List ((ℕ × ℕ) × XR)) :=
  (List.range o.M).foldlM (fun rows a =>
    ((o.adj.row a).zip (o.adj.vals a)).foldlM (fun rows bw =>
      pAgg o d a bw.1 >>= fun pnorm =>
        blockLoop o d u (fun i j _ => .ok (fin (s_out i * s_in j))) a bw.1
          ⟨rows, false, pnorm⟩ >>= fun s =>
          renorm rows.length (fin bw.2) s.rows) rows) []

/-- The argument `weights` of `sample`; `other` is any other string. -/
inductive Weights where
  | none | cremb | wagg | other

/-- `/repo/src/graph_ensembles/sparse/models/conditional.py:333-430`: the links and values of the
sampled graph.  Unset strengths default to the properties; the argument `selfloops` of `sample` is
not used by the code. -/
def sample (o : Obj) (w : Weights) (out_strength in_strength : Option (ℕ → ℝ))
    (u e : ℕ → ℕ → ℝ) : Except Err (List ((ℕ × ℕ) × XR)) :=
  match o.param with
  | Option.none => .error .notFitted
  | some d =>
    let s_out := out_strength.getD (fun i => (o.prop_out i).toReal)
    let s_in := in_strength.getD (fun i => (o.prop_in i).toReal)
    match w with
    | .none => binary_sample o d u >>= fun rows => .ok (rows.map (fun r => (r.1, 1)))
    | .cremb => cremb_sample o d s_out s_in u e
    | .wagg => wagg_sample o d s_out s_in u
    | .other => .error .badWeights

/-! ## Likelihood -/

/-- `/repo/src/graph_ensembles/sparse/models/conditional.py:1031-1087`; `link a b` is
`b in adj_j[adj_i[a]:adj_i[a+1]]` for the aggregated matrix.  The outer `Except` carries
exceptions, the inner one the early `return tmp`. -/
def agg_likelihood (o : Obj) (d : XR) (link : ℕ → ℕ → Bool) : Except Err (Except XR XR) :=
  (List.range o.M).foldlM (fun like a =>
    (List.range o.M).foldlM (fun (like : Except XR XR) b =>
      match like with
      | .error v => .ok (.error v)
      | .ok l =>
        o.zAgg a b >>= fun z =>
          let tmp := if link a b then Sparse.ScaleInvariantModel.logp d (o.aggOut a) (o.aggIn b) z
            else Sparse.ScaleInvariantModel.log1mp d (o.aggOut a) (o.aggIn b) z
          .ok (if tmp.isInf then .error tmp else .ok (l + tmp))) like) (.ok (0 : XR))

/-- Entry of `Gmat.dot(adj).dot(Gmat.T)` (line 304). -/
def aggAt (o : Obj) (g : Mat) (a b : ℕ) : ℝ :=
  ((o.members a).map (fun i => ((o.members b).map (fun j => g.at i j)).sum)).sum

/-- `/repo/src/graph_ensembles/sparse/models/conditional.py:270-331`: `g` is the csr matrix made
from the argument, `size` its number of rows and columns. -/
def log_likelihood (o : Obj) (size : ℕ × ℕ) (g : Mat) : Except Err XR :=
  match o.param with
  | none => .error .notFitted
  | some d =>
    if size ≠ (o.n, o.n) then .error .badShape
    else if (List.range o.M).any (fun a => (List.range o.M).any (fun b =>
        decide (0 < aggAt o g a b) != decide (0 < o.adj.at a b))) then .ok ninf
    else
      let like := DiGraphEnsemble.likelihood Sparse.ScaleInvariantModel.logp
        Sparse.ScaleInvariantModel.log1mp d o.n o.prop_out o.prop_in (fun _ _ => (1 : XR))
        (DiGraphEnsemble.csrLink g.indptr g.indices) o.selfloops
      agg_likelihood o d (fun a b => decide (0 < aggAt o g a b)) >>= fun agg_like =>
        .ok (like - (match agg_like with | .error v => v | .ok v => v))

end

end Verif.Cond
