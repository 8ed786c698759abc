import Verif.Ensemble.Repeat

/-!
# Samplers with weights on one stream of random numbers

The weighted sampler draws one random number for each admissible pair and, for every link, one more
for its weight.  Where the numbers of a pair are found in the stream depends on the links drawn
before.
-/

namespace Verif

open XR

namespace DiGraphEnsemble

variable {α β δ ζ : Type}

/-- `rng.exponential(scale)` as compiled by numba: `-log(1.0 - random()) * scale`, where `v < 1` is the
random number drawn. -/
noncomputable def exponential (scale : XR) (v : ℝ) : XR := fin (-Real.log (1 - v)) * scale

/-- `_cremb_sample` (`/repo/src/graph_ensembles/sparse/models/ensembles.py:532-551`,
`/repo/src/graph_ensembles/models.py:530-549`) reading one stream; also returns how many numbers it
has read.  See `cremb_sample` for the assertion. -/
noncomputable def cremb_sample_stream (p_ij : δ → α → β → ζ → XR) (param : δ) (n : ℕ)
    (prop_out : ℕ → α) (prop_in : ℕ → β) (prop_dyad : ℕ → ℕ → ζ) (s_out s_in : ℕ → ℝ)
    (selfloops : Bool) (u : ℕ → ℝ) : Except CrembErr (ℕ × List ((ℕ × ℕ) × XR)) :=
  let s_tot := npSum n s_out
  if |1 - npSum n s_in / s_tot| < 1e-6 then
    .ok ((List.range n).foldl (fun s i =>
      (List.range n).foldl (fun s j =>
        if admissible i j selfloops then
          let p := p_ij param (prop_out i) (prop_in j) (prop_dyad i j)
          if ltb (fin (u s.1)) p then
            (s.1 + 2, s.2 ++ [((i, j),
              exponential (fin (s_out i * s_in j) / (fin s_tot * p)) (u (s.1 + 1)))])
          else (s.1 + 1, s.2)
        else s) s) (0, []))
  else .error .strengthsDiffer

end DiGraphEnsemble

/-- The argument `weights` of `sample` and, for `"cremb"`, the strengths
(`/repo/src/graph_ensembles/sparse/models/ensembles.py:370-396`).  Other values of `weights` raise
before any number is drawn (line 396). -/
inductive Weights where
  | none
  | cremb (s_out s_in : ℕ → ℝ)

/-- A call of `sample` with or without weights. -/
structure WCall : Type 1 extends Call where
  weights : Weights

namespace WCall

open DiGraphEnsemble

/-- One call: how many random numbers it reads, and the links with their weights
(`np.ones(…, dtype=bool)`, line 379, for unweighted samples) or the exception. -/
noncomputable def sample (c : WCall) (u : ℕ → ℝ) : ℕ × Except CrembErr (List ((ℕ × ℕ) × XR)) :=
  match c.weights with
  | .none =>
    let r := c.toCall.sample u
    (r.1, .ok (r.2.map fun e => (e, fin 1)))
  | .cremb s_out s_in =>
    match cremb_sample_stream c.ens.p_ij c.ens.param c.n c.ens.prop_out c.ens.prop_in c.ens.prop_dyad
      s_out s_in c.sl u with
    | .ok r => (r.1, .ok r.2)
    | .error e => (0, .error e)

/-- The first `m` of the calls `c 0, c 1, …` on one generator: how many random numbers have been read,
and the results. -/
noncomputable def run (c : ℕ → WCall) (u : ℕ → ℝ) :
    ℕ → ℕ × List (Except CrembErr (List ((ℕ × ℕ) × XR)))
  | 0 => (0, [])
  | m + 1 =>
    let s := run c u m
    let r := (c m).sample (fun k => u (s.1 + k))
    (s.1 + r.1, s.2 ++ [r.2])

end WCall

end Verif
