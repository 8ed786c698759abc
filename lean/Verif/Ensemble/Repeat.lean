import Verif.Ensemble.Models

/-!
# Successive calls of the sampler

The samplers draw from one generator (`numpy.random`, global to the compiled code), whose state
carries over from one call to the next.
-/

namespace Verif

/-- A call of `sample` on an ensemble (`/repo/src/graph_ensembles/sparse/models/ensembles.py:328-406`
and the dense equivalent): what it passes to `_binary_sample` (lines 371-379). -/
structure Call : Type 1 where
  ens : Ens
  n : ℕ
  sl : Bool

namespace Call

/-- One call, with the number of random numbers it uses; `u k` is the `k`-th one from here on. -/
noncomputable def sample (c : Call) (u : ℕ → ℝ) : ℕ × List (ℕ × ℕ) :=
  DiGraphEnsemble.binary_sample_stream c.ens.p_ij c.ens.param c.n c.ens.prop_out c.ens.prop_in
    c.ens.prop_dyad c.sl u

/-- The first `m` of the calls `c 0, c 1, …` on one generator: how many random numbers have been used,
and the links of each sample. -/
noncomputable def run (c : ℕ → Call) (u : ℕ → ℝ) : ℕ → ℕ × List (List (ℕ × ℕ))
  | 0 => (0, [])
  | m + 1 =>
    let s := run c u m
    let r := (c m).sample (fun k => u (s.1 + k))
    (s.1 + r.1, s.2 ++ [r.2])

end Call

end Verif
