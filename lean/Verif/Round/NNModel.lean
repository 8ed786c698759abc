import Verif.Round.Model
import Verif.Ensemble.QueryLemmas

/-!
# Nearest-neighbour averages in rounded arithmetic
-/

namespace Verif

open XR

namespace Round

open DiGraphEnsemble (NNErr Dir)

variable (A : Arith)

noncomputable section

variable {α β δ ζ : Type}

/-- Body of the pair loop of `exp_av_nn_prop`
(`/repo/src/graph_ensembles/sparse/models/ensembles.py:456-473`,
`/repo/src/graph_ensembles/models.py:459-476`). -/
def exp_av_nn_step (p_ij : δ → α → β → ζ → XR) (param : δ) (prop_out : ℕ → α)
    (prop_in : ℕ → β) (prop_dyad : ℕ → ℕ → ζ) (prop : ℕ → XR) (ndir : Dir) (i : ℕ)
    (av_nn : ℕ → XR) (j : ℕ) : Except NNErr (ℕ → XR) :=
  let pij := p_ij param (prop_out i) (prop_in j) (prop_dyad i j)
  let pji := p_ij param (prop_out j) (prop_in i) (prop_dyad j i)
  match ndir with
  | .out => .ok (addAt A (addAt A av_nn i (A.mul pij (prop j))) j (A.mul pji (prop i)))
  | .inn => .ok (addAt A (addAt A av_nn i (A.mul pji (prop j))) j (A.mul pij (prop i)))
  | .outIn =>
    let p := A.sub 1 (A.mul (A.sub 1 pij) (A.sub 1 pji))
    .ok (addAt A (addAt A av_nn i (A.mul p (prop j))) j (A.mul p (prop i)))
  | .underscored | .other => .error .badDirection

/-- Body of the self-loop pass of `exp_av_nn_prop`
(`/repo/src/graph_ensembles/sparse/models/ensembles.py:476-485`,
`/repo/src/graph_ensembles/models.py:479-488`); `jLast` is the left-over value of `j`. -/
def exp_av_nn_self (p_ij : δ → α → β → ζ → XR) (param : δ) (prop_out : ℕ → α)
    (prop_in : ℕ → β) (prop_dyad : ℕ → ℕ → ζ) (prop : ℕ → XR) (ndir : Dir) (jLast : ℕ)
    (av_nn : ℕ → XR) (i : ℕ) : Except NNErr (ℕ → XR) :=
  let pii := p_ij param (prop_out i) (prop_in i) (prop_dyad i jLast)
  match ndir with
  | .out => .ok (addAt A av_nn i (A.mul pii (prop i)))
  | .inn => .ok (addAt A av_nn i (A.mul pii (prop i)))
  | .outIn => .ok (addAt A av_nn i (A.mul pii (prop i)))
  | .underscored | .other => .error .badDirection

/-- `/repo/src/graph_ensembles/sparse/models/ensembles.py:450-487`,
`/repo/src/graph_ensembles/models.py:453-490`; `jUndef` as in `DiGraphEnsemble.exp_av_nn_prop`. -/
def exp_av_nn_prop (jUndef : ℕ) (p_ij : δ → α → β → ζ → XR) (param : δ) (n : ℕ)
    (prop_out : ℕ → α) (prop_in : ℕ → β) (prop_dyad : ℕ → ℕ → ζ) (prop : ℕ → XR) (ndir : Dir)
    (selfloops : Bool) : Except NNErr (ℕ → XR) :=
  let pairs := (List.range n).foldlM (fun av_nn i =>
    (List.range i).foldlM
      (exp_av_nn_step A p_ij param prop_out prop_in prop_dyad prop ndir i) av_nn) zeros
  pairs >>= fun av_nn =>
    if selfloops then
      (List.range n).foldlM
        (exp_av_nn_self A p_ij param prop_out prop_in prop_dyad prop ndir
          (if 2 ≤ n then n - 2 else jUndef)) av_nn
    else .ok av_nn

/-- `av_nn[ind] = av_nn[ind] / deg[ind]` with `ind = deg != 0`
(`/repo/src/graph_ensembles/sparse/models/ensembles.py:209,214`). -/
def average (av_nn deg : ℕ → XR) : ℕ → XR := fun i =>
  if (deg i).isZero then av_nn i else A.div (av_nn i) (deg i)

/-- `expected_av_nn_property` with `deg_recompute=True` in a fitted ensemble
(`/repo/src/graph_ensembles/sparse/models/ensembles.py:161-227`,
`/repo/src/graph_ensembles/models.py:167-230`).  `av_nn_exact` relates it to the method with state.
Simplification: the result of directions other than the three known ones is one exception. -/
def av_nn (jUndef : ℕ) (p_ij : δ → α → β → ζ → XR) (param : δ) (n : ℕ)
    (prop_out : ℕ → α) (prop_in : ℕ → β) (prop_dyad : ℕ → ℕ → ζ) (prop : ℕ → XR) (ndir : Dir)
    (selfloops : Bool) : Except Query.Err (ℕ → XR) :=
  let deg := Query.pick ndir (exp_degrees A p_ij param n prop_out prop_in prop_dyad selfloops)
  match exp_av_nn_prop A jUndef p_ij param n prop_out prop_in prop_dyad prop ndir selfloops with
  | .error _ => .error .badNdir
  | .ok av =>
    if (List.range n).all (fun i => !(deg i).isZero || (av i).isZero) then .ok (average A av deg)
    else .error .emptyNeighbourhood

/-- At the arithmetic without rounding these functions are those of the rest of the model. -/
theorem nn_exact :
    exp_av_nn_prop Arith.exact (α := α) (β := β) (δ := δ) (ζ := ζ) = DiGraphEnsemble.exp_av_nn_prop ∧
    average Arith.exact = Query.average :=
  ⟨rfl, rfl⟩

/-- The method of the rest of the model, called with `deg_recompute=True` in any state. -/
theorem av_nn_exact (jUndef : ℕ) (E : Ens) (n : ℕ) (θ : E.δ) (prop : ℕ → XR) (ndir : Dir)
    (hdir : ndir.Known) (sl : Bool) (s : Query.St E.δ) (hθ : s.param = some θ) :
    (Query.expected_av_nn_property jUndef E n n prop ndir (some sl) true s).1
      = av_nn Arith.exact jUndef E.p_ij θ n E.prop_out E.prop_in E.prop_dyad prop ndir sl := by
  unfold Query.expected_av_nn_property
  simp only [hθ, ne_eq, not_true_eq_false, if_false, Option.getD_some, Bool.true_or]
  unfold Query.M.bind
  rw [Query.degreeByDir_spec E n θ (Query.setSelfloops sl s) .badNdir ndir hdir _ hθ
    (.inr rfl)]
  unfold av_nn
  have h1 : (Query.filled E n θ (Query.setSelfloops sl s)).selfloops = sl := rfl
  have h2 : (Query.setSelfloops sl s).selfloops = sl := rfl
  simp only [h1, h2]
  show (match DiGraphEnsemble.exp_av_nn_prop jUndef E.p_ij θ n E.prop_out E.prop_in E.prop_dyad prop
    ndir sl with | .error _ => _ | .ok _ => _ : Except Query.Err _ × Query.St E.δ).1 =
    match DiGraphEnsemble.exp_av_nn_prop jUndef E.p_ij θ n E.prop_out E.prop_in E.prop_dyad prop
      ndir sl with | .error _ => _ | .ok _ => _
  generalize DiGraphEnsemble.exp_av_nn_prop jUndef E.p_ij θ n E.prop_out E.prop_in E.prop_dyad prop
    ndir sl = r
  cases r with
  | error e => rfl
  | ok av =>
    simp only
    split <;> split <;> first | rfl | contradiction

end

end Round

end Verif
