import Verif.Prob.Model
import Verif.Prob.Spec
import Verif.Ensemble.Model

/-!
# Model of the label-resolved loops of `MultiDiGraphEnsemble`

The properties of one label are a column of the property matrix: in the sparse and spark backends
the list of the stored (vertex, value) pairs, in the dense backend an array over all vertices.
`p_ijk`, `logp_ijk`, `log1mp_ijk` are passed to the loops exactly like in the code; `dyad i j` is
the value of `prop_dyad(i, j)` (no library model uses it).
-/

namespace Verif

noncomputable section

open XR Spec

namespace Layer

/-- The functions of one labelled link passed to the loops. -/
structure Link where
  p_ijk : XR → XR → XR → XR → XR
  logp_ijk : XR → XR → XR → XR → XR
  log1mp_ijk : XR → XR → XR → XR → XR

/-- `MultiFitnessModel`, all backends. -/
def fitLink : Link :=
  ⟨MultiFitnessModel.p_ijk, MultiFitnessModel.logp_ijk, MultiFitnessModel.log1mp_ijk⟩

/-- `MultiInvariantModel`, all backends. -/
def invLink : Link :=
  ⟨MultiInvariantModel.p_ijk, MultiInvariantModel.logp_ijk, MultiInvariantModel.log1mp_ijk⟩

/-- Column `k` of a matrix with `n` rows given by the lists of its rows:
`csr_array(tuple_list_to_csx(prop)).tocsc()` followed by `csx_to_tuple_list`
(`/repo/src/graph_ensembles/sparse/models/ensembles.py:607-623`), in spark `tocsc()[:, k]`
(`spark/models.py:3428-3431`).  `tocsc` goes through the rows in order. -/
def column {α : Type} (n : ℕ) (rows : ℕ → List (ℕ × α)) (k : ℕ) : List (ℕ × α) :=
  (List.range n).flatMap (fun i => ((rows i).filter (fun e => e.1 == k)).map (fun e => (i, e.2)))

/-! ### Expected number of edges -/

/-- `/repo/src/graph_ensembles/sparse/models/ensembles.py:971-983`; `spark/models.py:2661-2673`
does the same (and passes positions instead of vertices to `pdyad`). -/
def exp_edges_layer (p_ijk : XR → XR → XR → XR → XR) (param : XR) (prop_out prop_in : List (ℕ × XR))
    (dyad : ℕ → ℕ → XR) (selfloops : Bool) : XR :=
  prop_out.foldl (fun exp_e a =>
    prop_in.foldl (fun exp_e b =>
      if admissible a.1 b.1 selfloops then exp_e + p_ijk param a.2 b.2 (dyad a.1 b.1)
      else exp_e) exp_e) 0

/-- `expected_num_edges_label` of the sparse backend with `exp_edges_label`
(`/repo/src/graph_ensembles/sparse/models/ensembles.py:601-634, 953-969`); in spark the labels are
mapped in parallel and collected (`spark/models.py:1969-2004`). -/
def exp_edges_label (p_ijk : XR → XR → XR → XR → XR) (n L : ℕ) (param : ℕ → XR)
    (prop_out prop_in : ℕ → List (ℕ × XR)) (dyad : ℕ → ℕ → XR) (selfloops : Bool) : List XR :=
  (List.range L).map (fun k =>
    exp_edges_layer p_ijk (param k) (column n prop_out k) (column n prop_in k) dyad selfloops)

namespace Dense

/-- Column `k` of an array with `L` columns; `none` is an index error (or, in compiled code without
bounds checks, memory outside of the array). -/
def col (L : ℕ) (prop : ℕ → ℕ → XR) (k : ℕ) : Option (ℕ → XR) :=
  if k < L then some (fun i => prop i k) else none

/-- One label of the dense `exp_edges_label`. -/
def exp_edges_col (p_ijk : XR → XR → XR → XR → XR) (param : XR) (n : ℕ) (prop_out prop_in : ℕ → XR)
    (dyad : ℕ → ℕ → XR) (selfloops : Bool) : XR :=
  (List.range n).foldl (fun e i => (List.range n).foldl (fun e j =>
    if admissible i j selfloops then e + p_ijk param (prop_out i) (prop_in j) (dyad i j)
    else e) e) 0

/-- `/repo/src/graph_ensembles/models.py:1731-1748`.  The properties have shape `(n, L)`, so
`num_labels = len(prop_out)` is `n`. -/
def exp_edges_label (p_ijk : XR → XR → XR → XR → XR) (n L : ℕ) (param : ℕ → XR)
    (prop_out prop_in : ℕ → ℕ → XR) (dyad : ℕ → ℕ → XR) (selfloops : Bool) : Option (List XR) :=
  (List.range n).mapM (fun k =>
    (col L prop_out k).bind (fun a => (col L prop_in k).map (fun b =>
      exp_edges_col p_ijk (param k) n a b dyad selfloops)))

end Dense

/-! ### Expected degrees -/

/-- A dictionary from `(vertex, label)` to floats. -/
abbrev Dict := ℕ × ℕ → Option XR

/-- `exp_d`, `exp_d_out`, `exp_d_in`. -/
structure Dicts where
  d : Dict
  dOut : Dict
  dIn : Dict

/-- `dict[key] += v` (a `KeyError` for a missing key is not represented; the keys of the three
dictionaries are always the same). -/
def inc (t : Dict) (key : ℕ × ℕ) (v : XR) : Dict :=
  Function.update t key ((t key).map (fun w => w + v))

/-- `dict[key] = v` -/
def set (t : Dict) (key : ℕ × ℕ) (v : XR) : Dict := Function.update t key (some v)

/-- The update `if key in exp_d: ... else: ...`
(`/repo/src/graph_ensembles/sparse/models/ensembles.py:1014-1021`). -/
def bump (s : Dicts) (key : ℕ × ℕ) (v vOut vIn : XR) : Dicts :=
  if (s.d key).isSome then ⟨inc s.d key v, inc s.dOut key vOut, inc s.dIn key vIn⟩
  else ⟨set s.d key v, set s.dOut key vOut, set s.dIn key vIn⟩

/-- Body of the two inner loops of the sparse `exp_degrees_label`
(`/repo/src/graph_ensembles/sparse/models/ensembles.py:996-1045`).  `p_in[1][p_in[0] == i][0]`, or
zero when there is no such entry, is `entry p_in i`. -/
def exp_degrees_step (p_ijk : XR → XR → XR → XR → XR) (param : XR) (p_out p_in : List (ℕ × XR))
    (dyad : ℕ → ℕ → XR) (selfloops : Bool) (lbl : ℕ) (a : ℕ × XR) (s : Dicts) (b : ℕ × XR) :
    Dicts :=
  let p_in_i := entry p_in a.1
  let p_out_j := entry p_out b.1
  if a.1 ≠ b.1 then
    let pij := p_ijk param a.2 b.2 (dyad a.1 b.1)
    let pji := p_ijk param p_out_j p_in_i (dyad b.1 a.1)
    let p := pij + pji - pij * pji
    bump (bump s (a.1, lbl) p pij pji) (b.1, lbl) p pji pij
  else if selfloops then
    let pii := p_ijk param a.2 b.2 (dyad a.1 b.1)
    bump s (a.1, lbl) pii pii pii
  else s

/-- `exp_degrees_label` (`/repo/src/graph_ensembles/sparse/models/ensembles.py:985-1046`) on the
columns of the properties. -/
def exp_degrees_label (p_ijk : XR → XR → XR → XR → XR) (n L : ℕ) (param : ℕ → XR)
    (prop_out prop_in : ℕ → List (ℕ × XR)) (dyad : ℕ → ℕ → XR) (selfloops : Bool) : Dicts :=
  (List.range L).foldl (fun s lbl =>
    (column n prop_out lbl).foldl (fun s a =>
      (column n prop_in lbl).foldl
        (exp_degrees_step p_ijk (param lbl) (column n prop_out lbl) (column n prop_in lbl) dyad
          selfloops lbl a) s) s)
    ⟨fun _ => none, fun _ => none, fun _ => none⟩

/-- Entry of the sparse array built from a dictionary (`dok_array._update`,
`/repo/src/graph_ensembles/sparse/models/ensembles.py:668-682`). -/
def at_ (t : Dict) (i k : ℕ) : XR := (t (i, k)).getD 0

namespace Spark

/-- Body of the loops of `exp_degrees_layer` (`/repo/src/graph_ensembles/spark/models.py:2744-2788`);
the reversed link is only evaluated when both vertices have both properties (and `pdyad` is not
reversed). -/
def exp_degrees_step (p_ijk : XR → XR → XR → XR → XR) (param : XR) (p_out p_in : List (ℕ × XR))
    (dyad : ℕ → ℕ → XR) (selfloops : Bool) (lbl : ℕ) (a : ℕ × XR) (s : Dicts) (b : ℕ × XR) :
    Dicts :=
  if a.1 ≠ b.1 then
    let pij := p_ijk param a.2 b.2 (dyad a.1 b.1)
    let both := (p_in.lookup a.1).isSome && (p_out.lookup b.1).isSome
    let pji := if both then p_ijk param (entry p_out b.1) (entry p_in a.1) (dyad a.1 b.1) else 0
    let p := if both then pij + pji - pij * pji else pij
    bump (bump s (a.1, lbl) p pij pji) (b.1, lbl) p pji pij
  else if selfloops then
    let pii := p_ijk param a.2 b.2 (dyad a.1 b.1)
    bump s (a.1, lbl) pii pii pii
  else s

/-- `exp_degrees_layer` (`/repo/src/graph_ensembles/spark/models.py:2735-2800`). -/
def exp_degrees_layer (p_ijk : XR → XR → XR → XR → XR) (param : XR) (p_out p_in : List (ℕ × XR))
    (dyad : ℕ → ℕ → XR) (selfloops : Bool) (lbl : ℕ) : Dicts :=
  p_out.foldl (fun s a =>
    p_in.foldl (exp_degrees_step p_ijk param p_out p_in dyad selfloops lbl a) s)
    ⟨fun _ => none, fun _ => none, fun _ => none⟩

/-- `expected_degree_by_label` (`/repo/src/graph_ensembles/spark/models.py:2065-2112`): the entries
of all layers are collected into a coordinate matrix, which adds up repeated entries; `sel` selects
one of the three dictionaries. -/
def degrees_by_label (p_ijk : XR → XR → XR → XR → XR) (n L : ℕ) (param : ℕ → XR)
    (prop_out prop_in : ℕ → List (ℕ × XR)) (dyad : ℕ → ℕ → XR) (selfloops : Bool)
    (sel : Dicts → Dict) (i k : ℕ) : XR :=
  (List.range L).foldl (fun v lbl => v +
    at_ (sel (exp_degrees_layer p_ijk (param lbl) (column n prop_out lbl) (column n prop_in lbl)
      dyad selfloops lbl)) i k) 0

end Spark

namespace Dense

/-- The three `(num_v, num_l)` arrays. -/
structure Arrays where
  exp_d : ℕ × ℕ → XR
  exp_d_out : ℕ × ℕ → XR
  exp_d_in : ℕ × ℕ → XR

/-- `a[i, l] += v` -/
def add2 (a : ℕ × ℕ → XR) (key : ℕ × ℕ) (v : XR) : ℕ × ℕ → XR :=
  Function.update a key (a key + v)

/-- Body of the inner loop of the dense `exp_degrees_label`
(`/repo/src/graph_ensembles/models.py:1764-1784`). -/
def exp_degrees_step (p_ijk : XR → XR → XR → XR → XR) (param : ℕ → XR)
    (prop_out prop_in : ℕ → ℕ → XR) (dyad : ℕ → ℕ → XR) (selfloops : Bool) (lbl i : ℕ)
    (s : Arrays) (j : ℕ) : Arrays :=
  if i ≠ j then
    let pij := p_ijk (param lbl) (prop_out i lbl) (prop_in j lbl) (dyad i j)
    let pji := p_ijk (param lbl) (prop_out j lbl) (prop_in i lbl) (dyad j i)
    let p := pij + pji - pij * pji
    { exp_d := add2 (add2 s.exp_d (i, lbl) p) (j, lbl) p
      exp_d_out := add2 (add2 s.exp_d_out (i, lbl) pij) (j, lbl) pji
      exp_d_in := add2 (add2 s.exp_d_in (i, lbl) pji) (j, lbl) pij }
  else if selfloops then
    let pii := p_ijk (param lbl) (prop_out i lbl) (prop_in j lbl) (dyad i j)
    { exp_d := add2 s.exp_d (i, lbl) pii
      exp_d_out := add2 s.exp_d_out (i, lbl) pii
      exp_d_in := add2 s.exp_d_in (i, lbl) pii }
  else s

/-- `/repo/src/graph_ensembles/models.py:1750-1786`. -/
def exp_degrees_label (p_ijk : XR → XR → XR → XR → XR) (n L : ℕ) (param : ℕ → XR)
    (prop_out prop_in : ℕ → ℕ → XR) (dyad : ℕ → ℕ → XR) (selfloops : Bool) : Arrays :=
  (List.range L).foldl (fun s lbl =>
    (List.range n).foldl (fun s i =>
      (List.range (i + 1)).foldl
        (exp_degrees_step p_ijk param prop_out prop_in dyad selfloops lbl i) s) s)
    ⟨fun _ => 0, fun _ => 0, fun _ => 0⟩

end Dense

/-! ### Likelihood -/

/-- First pass of `_likelihood_layer`: links from or to vertices without (or with vanishing)
property (`/repo/src/graph_ensembles/sparse/models/ensembles.py:1066-1083`,
`spark/models.py:2942-2959`).  `nbrs i` is `indices[indptr[i]:indptr[i + 1]]`. -/
def precheck (n : ℕ) (prop_out prop_in : List (ℕ × XR)) (nbrs : ℕ → List ℕ) : Except XR Unit :=
  (List.range n).foldlM (fun _ i =>
    if (nbrs i).length ≠ 0 then
      if !(prop_out.any (fun e => e.1 == i)) then .error ninf
      else if (prop_out.filter (fun e => e.1 == i)).any (fun e => e.2.isZero) then .error ninf
      else (nbrs i).foldlM (fun _ j =>
        if !(prop_in.any (fun e => e.1 == j)) then .error ninf
        else if (prop_in.filter (fun e => e.1 == j)).any (fun e => e.2.isZero) then .error ninf
        else .ok ()) ()
    else .ok ()) ()

/-- Second pass (`/repo/src/graph_ensembles/sparse/models/ensembles.py:1085-1100`). -/
def layerLoop (logp_ijk log1mp_ijk : XR → XR → XR → XR → XR) (param : XR)
    (prop_out prop_in : List (ℕ × XR)) (dyad : ℕ → ℕ → XR) (nbrs : ℕ → List ℕ) (selfloops : Bool) :
    Except XR XR :=
  prop_out.foldlM (fun like a =>
    prop_in.foldlM (fun like b =>
      if admissible a.1 b.1 selfloops then
        let tmp := if (nbrs a.1).contains b.1 then logp_ijk param a.2 b.2 (dyad a.1 b.1)
          else log1mp_ijk param a.2 b.2 (dyad a.1 b.1)
        if tmp.isInf then .error tmp else .ok (like + tmp)
      else .ok like) like) 0

/-- The value of a function with early returns. -/
def value (r : Except XR XR) : XR :=
  match r with
  | .error v => v
  | .ok v => v

/-- `_likelihood_layer` (`/repo/src/graph_ensembles/sparse/models/ensembles.py:1048-1100`,
`spark/models.py:2924-2977`). -/
def likelihood_layer (logp_ijk log1mp_ijk : XR → XR → XR → XR → XR) (param : XR) (n : ℕ)
    (prop_out prop_in : List (ℕ × XR)) (dyad : ℕ → ℕ → XR) (nbrs : ℕ → List ℕ) (selfloops : Bool) :
    XR :=
  value (precheck n prop_out prop_in nbrs >>= fun _ =>
    layerLoop logp_ijk log1mp_ijk param prop_out prop_in dyad nbrs selfloops)

/-- The tensor branch of `log_likelihood`
(`/repo/src/graph_ensembles/sparse/models/ensembles.py:777-797`); `nbrs k i` are the stored columns
of row `i` in layer `k`. -/
def log_likelihood (logp_ijk log1mp_ijk : XR → XR → XR → XR → XR) (n L : ℕ) (param : ℕ → XR)
    (prop_out prop_in : ℕ → List (ℕ × XR)) (dyad : ℕ → ℕ → XR) (nbrs : ℕ → ℕ → List ℕ)
    (selfloops : Bool) : XR :=
  value ((List.range L).foldlM (fun like k =>
    let tmp := likelihood_layer logp_ijk log1mp_ijk (param k) n (column n prop_out k)
      (column n prop_in k) dyad (nbrs k) selfloops
    if tmp.isInf then .error tmp else .ok (like + tmp)) 0)

/-- The tensor branch in spark: the layers are added up without early return
(`/repo/src/graph_ensembles/spark/models.py:2333-2356`). -/
def Spark.log_likelihood (logp_ijk log1mp_ijk : XR → XR → XR → XR → XR) (n L : ℕ) (param : ℕ → XR)
    (prop_out prop_in : ℕ → List (ℕ × XR)) (dyad : ℕ → ℕ → XR) (nbrs : ℕ → ℕ → List ℕ)
    (selfloops : Bool) : XR :=
  (List.range L).foldl (fun like k => like +
    likelihood_layer logp_ijk log1mp_ijk (param k) n (column n prop_out k)
      (column n prop_in k) dyad (nbrs k) selfloops) 0

/-- `_likelihood_tensor` of the dense backend (`/repo/src/graph_ensembles/models.py:1788-1810`);
`adj k i j` is `adj[k, i, j] != 0`. -/
def Dense.likelihood_tensor (logp_ijk log1mp_ijk : XR → XR → XR → XR → XR) (n L : ℕ)
    (param : ℕ → XR) (prop_out prop_in : ℕ → ℕ → XR) (dyad : ℕ → ℕ → XR) (adj : ℕ → ℕ → ℕ → Bool)
    (selfloops : Bool) : XR :=
  value ((List.range L).foldlM (fun like k =>
    (List.range n).foldlM (fun like i =>
      (List.range n).foldlM (fun like j =>
        if admissible i j selfloops then
          let tmp := if adj k i j then logp_ijk (param k) (prop_out i k) (prop_in j k) (dyad i j)
            else log1mp_ijk (param k) (prop_out i k) (prop_in j k) (dyad i j)
          if tmp.isInf then .error tmp else .ok (like + tmp)
        else .ok like) like) like) 0)

/-! ### Samples -/

/-- `_binary_sample_layer` with the generator as a stream: `c` numbers have been drawn before, the
first component is the number drawn afterwards
(`/repo/src/graph_ensembles/sparse/models/ensembles.py:1102-1117`). -/
def binary_sample_layer_stream (p_ijk : XR → XR → XR → XR → XR) (param : XR)
    (prop_out prop_in : List (ℕ × XR)) (dyad : ℕ → ℕ → XR) (selfloops : Bool) (u : ℕ → ℝ) (c : ℕ) :
    ℕ × List (ℕ × ℕ) :=
  prop_out.foldl (fun st a =>
    prop_in.foldl (fun st b =>
      if admissible a.1 b.1 selfloops then
        (st.1 + 1, if ltb (fin (u st.1)) (p_ijk param a.2 b.2 (dyad a.1 b.1))
          then st.2 ++ [(a.1, b.1)] else st.2)
      else st) st) (c, [])

/-- The layers of a sampled graph with the generator as a stream
(`/repo/src/graph_ensembles/sparse/models/ensembles.py:916-951`). -/
def sample_stream (p_ijk : XR → XR → XR → XR → XR) (n L : ℕ) (param : ℕ → XR)
    (prop_out prop_in : ℕ → List (ℕ × XR)) (dyad : ℕ → ℕ → XR) (selfloops : Bool)
    (u : ℕ → ℝ) : ℕ × List (List (ℕ × ℕ)) :=
  (List.range L).foldl (fun st k =>
    let r := binary_sample_layer_stream p_ijk (param k) (column n prop_out k) (column n prop_in k)
      dyad selfloops u st.1
    (r.1, st.2 ++ [r.2])) (0, [])

/-- `_binary_sample_tensor` with the generator as a stream
(`/repo/src/graph_ensembles/models.py:1812-1830`). -/
def Dense.binary_sample_tensor_stream (p_ijk : XR → XR → XR → XR → XR) (n L : ℕ) (param : ℕ → XR)
    (prop_out prop_in : ℕ → ℕ → XR) (dyad : ℕ → ℕ → XR) (selfloops : Bool) (u : ℕ → ℝ) :
    ℕ × List (ℕ × ℕ × ℕ) :=
  (List.range L).foldl (fun st k =>
    (List.range n).foldl (fun st i =>
      (List.range n).foldl (fun st j =>
        if admissible i j selfloops then
          (st.1 + 1, if ltb (fin (u st.1)) (p_ijk (param k) (prop_out i k) (prop_in j k) (dyad i j))
            then st.2 ++ [(k, i, j)] else st.2)
        else st) st) st) (0, [])

/-- Exceptions of the weighted sampler: the assertion (when the out-strengths sum to zero the division
in it raises `ZeroDivisionError`, which is not distinguished here), and the index error of `[...][0]`
on an empty selection (in compiled code an unchecked read). -/
inductive CrembErr where
  | strengthsDiffer | emptySelection
  deriving DecidableEq

/-- `np.sum` of the stored values. -/
def total (s : List (ℕ × ℝ)) : ℝ := (s.map Prod.snd).foldl (fun t v => t + v) 0

/-- The weight of one link (`/repo/src/graph_ensembles/sparse/models/ensembles.py:1137-1151`);
`e` is the standard exponential variate used by `rng.exponential(scale)`. -/
def crembWeight (s_out s_in : List (ℕ × ℝ)) (s_tot : ℝ) (i j : ℕ) (p : XR) (e : ℝ) :
    Except CrembErr XR :=
  if (s_out.lookup i).isSome || (s_in.lookup j).isSome then
    match s_out.lookup i, s_in.lookup j with
    | some a, some b => .ok (fin (a * b) / (fin s_tot * p) * fin e)
    | _, _ => .error .emptySelection
  else .ok 0

/-- `_cremb_sample_layer` (`/repo/src/graph_ensembles/sparse/models/ensembles.py:1119-1153`,
`spark/models.py:3057-3108`). -/
def cremb_sample_layer (p_ijk : XR → XR → XR → XR → XR) (param : XR)
    (prop_out prop_in : List (ℕ × XR)) (dyad : ℕ → ℕ → XR) (s_out s_in : List (ℕ × ℝ))
    (selfloops : Bool) (u e : ℕ → ℕ → ℝ) : Except CrembErr (List ((ℕ × ℕ) × XR)) :=
  if |1 - total s_in / total s_out| < 1e-6 then
    prop_out.foldlM (fun rows a =>
      prop_in.foldlM (fun rows b =>
        if admissible a.1 b.1 selfloops then
          if ltb (fin (u a.1 b.1)) (p_ijk param a.2 b.2 (dyad a.1 b.1)) then
            (crembWeight s_out s_in (total s_out) a.1 b.1 (p_ijk param a.2 b.2 (dyad a.1 b.1))
              (e a.1 b.1)).map (fun w => rows ++ [((a.1, b.1), w)])
          else .ok rows
        else .ok rows) rows) []
  else .error .strengthsDiffer

end Layer

end

end Verif
