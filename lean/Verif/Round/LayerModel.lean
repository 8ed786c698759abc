import Verif.Round.Model
import Verif.Layer.Model

/-!
# The loops over one label in any arithmetic

The expected number of edges and the expected degrees by label of the sparse backend, with the
operations of an arithmetic `A`.  For `Arith.exact` they are the definitions of `Verif.Layer`.  The
sampler of one label (`Layer.binary_sample_layer_stream`) does no arithmetic besides the probabilities.
-/

namespace Verif.Round

open XR Verif.Spec

variable (A : Arith)

/-- `exp_edges_layer` (`/repo/src/graph_ensembles/sparse/models/ensembles.py:971-983`). -/
def exp_edges_layer (p_ijk : XR → XR → XR → XR → XR) (param : XR) (prop_out prop_in : List (ℕ × XR))
    (dyad : ℕ → ℕ → XR) (selfloops : Bool) : XR :=
  prop_out.foldl (fun exp_e a =>
    prop_in.foldl (fun exp_e b =>
      if admissible a.1 b.1 selfloops then A.add exp_e (p_ijk param a.2 b.2 (dyad a.1 b.1))
      else exp_e) exp_e) 0

/-- `exp_edges_label` on the columns of the properties
(`/repo/src/graph_ensembles/sparse/models/ensembles.py:601-634, 953-969`). -/
def exp_edges_label (p_ijk : XR → XR → XR → XR → XR) (n L : ℕ) (param : ℕ → XR)
    (prop_out prop_in : ℕ → List (ℕ × XR)) (dyad : ℕ → ℕ → XR) (selfloops : Bool) : List XR :=
  (List.range L).map (fun k => exp_edges_layer A p_ijk (param k) (Layer.column n prop_out k)
    (Layer.column n prop_in k) dyad selfloops)

/-- `dict[key] += v` -/
def incLabel (t : Layer.Dict) (key : ℕ × ℕ) (v : XR) : Layer.Dict :=
  Function.update t key ((t key).map (fun w => A.add w v))

/-- The update `if key in exp_d: ... else: ...`
(`/repo/src/graph_ensembles/sparse/models/ensembles.py:1014-1021`). -/
def bumpLabel (s : Layer.Dicts) (key : ℕ × ℕ) (v vOut vIn : XR) : Layer.Dicts :=
  if (s.d key).isSome then
    ⟨incLabel A s.d key v, incLabel A s.dOut key vOut, incLabel A s.dIn key vIn⟩
  else ⟨Layer.set s.d key v, Layer.set s.dOut key vOut, Layer.set s.dIn key vIn⟩

/-- Body of the two inner loops of the sparse `exp_degrees_label`
(`/repo/src/graph_ensembles/sparse/models/ensembles.py:996-1045`). -/
def exp_degrees_label_step (p_ijk : XR → XR → XR → XR → XR) (param : XR)
    (p_out p_in : List (ℕ × XR)) (dyad : ℕ → ℕ → XR) (selfloops : Bool) (lbl : ℕ) (a : ℕ × XR)
    (s : Layer.Dicts) (b : ℕ × XR) : Layer.Dicts :=
  let p_in_i := entry p_in a.1
  let p_out_j := entry p_out b.1
  if a.1 ≠ b.1 then
    let pij := p_ijk param a.2 b.2 (dyad a.1 b.1)
    let pji := p_ijk param p_out_j p_in_i (dyad b.1 a.1)
    let p := A.sub (A.add pij pji) (A.mul pij pji)
    bumpLabel A (bumpLabel A s (a.1, lbl) p pij pji) (b.1, lbl) p pji pij
  else if selfloops then
    let pii := p_ijk param a.2 b.2 (dyad a.1 b.1)
    bumpLabel A s (a.1, lbl) pii pii pii
  else s

/-- `exp_degrees_label` (`/repo/src/graph_ensembles/sparse/models/ensembles.py:985-1046`) on the
columns of the properties. -/
def exp_degrees_label (p_ijk : XR → XR → XR → XR → XR) (n L : ℕ) (param : ℕ → XR)
    (prop_out prop_in : ℕ → List (ℕ × XR)) (dyad : ℕ → ℕ → XR) (selfloops : Bool) : Layer.Dicts :=
  (List.range L).foldl (fun s lbl =>
    (Layer.column n prop_out lbl).foldl (fun s a =>
      (Layer.column n prop_in lbl).foldl
        (exp_degrees_label_step A p_ijk (param lbl) (Layer.column n prop_out lbl)
          (Layer.column n prop_in lbl) dyad selfloops lbl a) s) s)
    ⟨fun _ => none, fun _ => none, fun _ => none⟩

theorem exp_edges_layer_exact : exp_edges_layer Arith.exact = Layer.exp_edges_layer := rfl

theorem exp_edges_label_exact : exp_edges_label Arith.exact = Layer.exp_edges_label := rfl

theorem exp_degrees_label_exact : exp_degrees_label Arith.exact = Layer.exp_degrees_label := rfl

end Verif.Round
