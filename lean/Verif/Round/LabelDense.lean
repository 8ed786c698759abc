import Verif.Round.LabelFit

/-!
# The fit label by label on arrays over an arbitrary arithmetic

`fit` of the dense multi-layer models.  The text of `fit` is that of the sparse models
(`Round.fitMulti`); a label is selected as a column of the property arrays, so all vertices are visited.
-/

namespace Verif

namespace Round

noncomputable section

variable (A : Arith)

/-- `enumerate(prop[:, k])` (`/repo/src/graph_ensembles/models.py:2160-2161`, `2264-2265`) -/
def Dense.column (n : ℕ) (x : ℕ → ℕ → XR) (k : ℕ) : List (ℕ × XR) :=
  (List.range n).map fun i => (i, x i k)

/-- What `fit` of a dense multi-layer model uses, with `num_edges_label` given
(`/repo/src/graph_ensembles/models.py:2149-2176`).  `exp_edges_f_jac_layer` is
`models.py:2256-2273`, `p_jac_ijk` is `models.py:2305-2320`, `2502-2517`. -/
def Dense.labelModel (K : Layer.Kind) (n L : ℕ) (x y : ℕ → ℕ → XR) (selfloops : Bool)
    (num_edges_label : ℕ → ℝ) (func : XR → XR × XR) (num_edges : Option ℝ) : Fit.MultiModel where
  num_labels := L
  per_label := true
  num_edges := num_edges
  num_edges_label := some num_edges_label
  func := func
  layer k := exp_edges_f_jac_layer A (labelJac A K) (Dense.column n x k) (Dense.column n y k) selfloops

end

end Round

end Verif
