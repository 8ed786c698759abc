import Verif.Layer.Model
import Verif.Ensemble.Weighted

/-!
# Samplers of label-resolved ensembles on one stream of random numbers

The layers of a sample are drawn one after the other from the generator of the module, and so are
successive samples.  The weighted sampler reads a number for each visited pair and one more for each
link both of whose strengths are stored.
-/

namespace Verif

noncomputable section

open XR

namespace Layer

/-- The weight of one link (`/repo/src/graph_ensembles/sparse/models/ensembles.py:1139-1151`), and how
many random numbers are read for it; `v` is the next number of the generator. -/
def crembWeight_stream (s_out s_in : List (ℕ × ℝ)) (s_tot : ℝ) (i j : ℕ) (p : XR) (v : ℝ) :
    ℕ × Except CrembErr XR :=
  if (s_out.lookup i).isSome || (s_in.lookup j).isSome then
    match s_out.lookup i, s_in.lookup j with
    | some a, some b => (1, .ok (DiGraphEnsemble.exponential (fin (a * b) / (fin s_tot * p)) v))
    | _, _ => (0, .error .emptySelection)
  else (0, .ok 0)

/-- `_cremb_sample_layer` (`/repo/src/graph_ensembles/sparse/models/ensembles.py:1119-1153`,
`spark/models.py:3057-3108`) reading the stream `u` from position `c`: the position where it stops, and
the links with their weights or the exception. -/
def cremb_sample_layer_stream (p_ijk : XR → XR → XR → XR → XR) (param : XR)
    (prop_out prop_in : List (ℕ × XR)) (dyad : ℕ → ℕ → XR) (s_out s_in : List (ℕ × ℝ))
    (selfloops : Bool) (u : ℕ → ℝ) (c : ℕ) : ℕ × Except CrembErr (List ((ℕ × ℕ) × XR)) :=
  if |1 - total s_in / total s_out| < 1e-6 then
    prop_out.foldl (fun st a =>
      prop_in.foldl (fun st b =>
        if admissible a.1 b.1 selfloops then
          match st.2 with
          | .error _ => st
          | .ok rows =>
            let p := p_ijk param a.2 b.2 (dyad a.1 b.1)
            if ltb (fin (u st.1)) p then
              let w := crembWeight_stream s_out s_in (total s_out) a.1 b.1 p (u (st.1 + 1))
              (st.1 + 1 + w.1, w.2.map fun w => rows ++ [((a.1, b.1), w)])
            else (st.1 + 1, .ok rows)
        else st) st) (c, .ok [])
  else (c, .error .strengthsDiffer)

/-- The loop over the labels with `weights="cremb"`
(`/repo/src/graph_ensembles/sparse/models/ensembles.py:916-949`); an exception ends it. -/
def cremb_sample_stream (p_ijk : XR → XR → XR → XR → XR) (n L : ℕ) (param : ℕ → XR)
    (prop_out prop_in : ℕ → List (ℕ × XR)) (dyad : ℕ → ℕ → XR) (s_out s_in : ℕ → List (ℕ × ℝ))
    (selfloops : Bool) (u : ℕ → ℝ) : ℕ × Except CrembErr (List (List ((ℕ × ℕ) × XR))) :=
  (List.range L).foldl (fun st k =>
    match st.2 with
    | .error _ => st
    | .ok layers =>
      let r := cremb_sample_layer_stream p_ijk (param k) (column n prop_out k) (column n prop_in k)
        dyad (s_out k) (s_in k) selfloops u st.1
      (r.1, r.2.map fun l => layers ++ [l])) (0, .ok [])

/-- The argument `weights` of `MultiDiGraphEnsemble.sample` and, for `"cremb"`, the strengths by label
(`/repo/src/graph_ensembles/sparse/models/ensembles.py:874-914`). -/
inductive Strengths where
  | none
  | cremb (s_out s_in : ℕ → List (ℕ × ℝ))

/-- The properties: rows of stored entries (sparse and spark), or arrays (dense), where only
unweighted samples can be drawn (`/repo/src/graph_ensembles/models.py:1707-1724`: the method called
with `weights="cremb"` does not exist). -/
inductive Source where
  | sparse (prop_out prop_in : ℕ → List (ℕ × XR)) (weights : Strengths)
  | dense (prop_out prop_in : ℕ → ℕ → XR)

/-- A call of `MultiDiGraphEnsemble.sample`. -/
structure LCall where
  p_ijk : XR → XR → XR → XR → XR
  n : ℕ
  L : ℕ
  param : ℕ → XR
  src : Source
  dyad : ℕ → ℕ → XR
  s : Bool

namespace LCall

/-- One call: how many random numbers it reads, and the links of each layer with their weights (one for
unweighted samples: `np.ones(…)`, `sparse/models/ensembles.py:927`, `models.py:1716`). -/
def sample (c : LCall) (u : ℕ → ℝ) : ℕ × Except CrembErr (List (List ((ℕ × ℕ) × XR))) :=
  match c.src with
  | .sparse x y .none =>
    let r := sample_stream c.p_ijk c.n c.L c.param x y c.dyad c.s u
    (r.1, .ok (r.2.map fun l => l.map fun e => (e, fin 1)))
  | .sparse x y (.cremb s_out s_in) =>
    cremb_sample_stream c.p_ijk c.n c.L c.param x y c.dyad s_out s_in c.s u
  | .dense x y =>
    let r := Dense.binary_sample_tensor_stream c.p_ijk c.n c.L c.param x y c.dyad c.s u
    (r.1, .ok ((List.range c.L).map fun k => (r.2.filter fun t => t.1 == k).map fun t =>
      ((t.2.1, t.2.2), fin 1)))

/-- The first `m` of the calls `c 0, c 1, …` on one generator: how many random numbers have been read,
and the results. -/
def run (c : ℕ → LCall) (u : ℕ → ℝ) :
    ℕ → ℕ × List (Except CrembErr (List (List ((ℕ × ℕ) × XR))))
  | 0 => (0, [])
  | m + 1 =>
    let s := run c u m
    let r := (c m).sample (fun k => u (s.1 + k))
    (s.1 + r.1, s.2 ++ [r.2])

end LCall

end Layer

end

end Verif
