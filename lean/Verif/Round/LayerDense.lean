import Verif.Round.Model
import Verif.Layer.DegLemmas

/-!
# The dense loops over one label in any arithmetic

The expected numbers of edges and the expected degrees by label of the dense backend, with the
operations of an arithmetic `A`.  For `Arith.exact` they are the definitions of `Verif.Layer.Dense`.
-/

namespace Verif.Round

open XR

namespace Dense

open Layer.Dense (Arrays col slice foldl_slice foldl_id)

variable (A : Arith)

/-- One label of the dense `exp_edges_label`. -/
def exp_edges_col (p_ijk : XR → XR → XR → XR → XR) (param : XR) (n : ℕ) (prop_out prop_in : ℕ → XR)
    (dyad : ℕ → ℕ → XR) (selfloops : Bool) : XR :=
  (List.range n).foldl (fun e i => (List.range n).foldl (fun e j =>
    if admissible i j selfloops then A.add e (p_ijk param (prop_out i) (prop_in j) (dyad i j))
    else e) e) 0

/-- `/repo/src/graph_ensembles/models.py:1731-1748`.  The properties have shape `(n, L)`, so
`num_labels = len(prop_out)` is `n`. -/
def exp_edges_label (p_ijk : XR → XR → XR → XR → XR) (n L : ℕ) (param : ℕ → XR)
    (prop_out prop_in : ℕ → ℕ → XR) (dyad : ℕ → ℕ → XR) (selfloops : Bool) : Option (List XR) :=
  (List.range n).mapM (fun k =>
    (col L prop_out k).bind (fun a => (col L prop_in k).map (fun b =>
      exp_edges_col A p_ijk (param k) n a b dyad selfloops)))

/-- `a[i, l] += v` -/
def add2 (a : ℕ × ℕ → XR) (key : ℕ × ℕ) (v : XR) : ℕ × ℕ → XR :=
  Function.update a key (A.add (a key) v)

/-- Body of the inner loop of the dense `exp_degrees_label`
(`/repo/src/graph_ensembles/models.py:1764-1784`). -/
def exp_degrees_label_step (p_ijk : XR → XR → XR → XR → XR) (param : ℕ → XR)
    (prop_out prop_in : ℕ → ℕ → XR) (dyad : ℕ → ℕ → XR) (selfloops : Bool) (lbl i : ℕ)
    (s : Arrays) (j : ℕ) : Arrays :=
  if i ≠ j then
    let pij := p_ijk (param lbl) (prop_out i lbl) (prop_in j lbl) (dyad i j)
    let pji := p_ijk (param lbl) (prop_out j lbl) (prop_in i lbl) (dyad j i)
    let p := A.sub (A.add pij pji) (A.mul pij pji)
    { exp_d := add2 A (add2 A s.exp_d (i, lbl) p) (j, lbl) p
      exp_d_out := add2 A (add2 A s.exp_d_out (i, lbl) pij) (j, lbl) pji
      exp_d_in := add2 A (add2 A s.exp_d_in (i, lbl) pji) (j, lbl) pij }
  else if selfloops then
    let pii := p_ijk (param lbl) (prop_out i lbl) (prop_in j lbl) (dyad i j)
    { exp_d := add2 A s.exp_d (i, lbl) pii
      exp_d_out := add2 A s.exp_d_out (i, lbl) pii
      exp_d_in := add2 A s.exp_d_in (i, lbl) pii }
  else s

/-- `/repo/src/graph_ensembles/models.py:1750-1786`. -/
def exp_degrees_label (p_ijk : XR → XR → XR → XR → XR) (n L : ℕ) (param : ℕ → XR)
    (prop_out prop_in : ℕ → ℕ → XR) (dyad : ℕ → ℕ → XR) (selfloops : Bool) : Arrays :=
  (List.range L).foldl (fun s lbl =>
    (List.range n).foldl (fun s i =>
      (List.range (i + 1)).foldl
        (exp_degrees_label_step A p_ijk param prop_out prop_in dyad selfloops lbl i) s) s)
    ⟨fun _ => 0, fun _ => 0, fun _ => 0⟩

theorem exp_edges_label_exact : exp_edges_label Arith.exact = Layer.Dense.exp_edges_label := rfl

theorem exp_degrees_label_exact :
    exp_degrees_label Arith.exact = Layer.Dense.exp_degrees_label := rfl

/-! ## One label of the arrays -/

variable (p : XR → XR → XR → XR → XR) (param : ℕ → XR) (po pi : ℕ → ℕ → XR) (dyad : ℕ → ℕ → XR)
  (s : Bool)

theorem add2_slice (a : ℕ × ℕ → XR) (i k : ℕ) (v : XR) :
    (fun u => add2 A a (i, k) v (u, k)) = addAt A (fun u => a (u, k)) i v := by
  funext u
  unfold add2 addAt
  by_cases h : u = i
  · subst h; simp
  · rw [Function.update_of_ne h, Function.update_of_ne (fun e => h (Prod.mk.inj e).1)]

theorem add2_other (a : ℕ × ℕ → XR) {l k : ℕ} (h : l ≠ k) (i u : ℕ) (v : XR) :
    add2 A a (i, l) v (u, k) = a (u, k) := by
  unfold add2
  rw [Function.update_of_ne (fun e => h (Prod.mk.inj e).2.symm)]

theorem addAt_comm (a : ℕ → XR) {i j : ℕ} (h : i ≠ j) (v w : XR) :
    addAt A (addAt A a i v) j w = addAt A (addAt A a j w) i v := by
  funext u
  unfold addAt
  by_cases h1 : u = i
  · subst h1; simp [h]
  · by_cases h2 : u = j
    · subst h2; simp [h1]
    · simp [h1, h2]

theorem step_same (k i : ℕ) (t : Arrays) (j : ℕ) :
    slice (exp_degrees_label_step A p param po pi dyad s k i t j) k
      = exp_degrees_step A p (param k) (fun i => po i k) (fun j => pi j k) dyad s i
          (slice t k) j := by
  unfold exp_degrees_label_step exp_degrees_step
  by_cases h : i = j
  · subst h
    simp only [ne_eq, not_true_eq_false, if_false]
    cases s
    · simp
    · simp only [if_true]
      simp only [slice, add2_slice]
  · rw [if_pos h, if_pos h]
    simp only [slice, add2_slice]
    rw [addAt_comm A (fun u => t.exp_d_in (u, k)) h]

theorem step_other {l k : ℕ} (h : l ≠ k) (i : ℕ) (t : Arrays) (j : ℕ) :
    slice (exp_degrees_label_step A p param po pi dyad s l i t j) k = slice t k := by
  unfold exp_degrees_label_step slice
  split_ifs <;> simp [add2_other A _ h]

/-- One label of the expected degrees is what the single-layer loop computes for it. -/
theorem slice_label (n L k : ℕ) (hk : k < L) :
    slice (exp_degrees_label A p n L param po pi dyad s) k
      = exp_degrees A p (param k) n (fun i => po i k) (fun j => pi j k) dyad s := by
  have same : ∀ t, slice ((List.range n).foldl (fun s' i => (List.range (i + 1)).foldl
        (exp_degrees_label_step A p param po pi dyad s k i) s') t) k
      = (List.range n).foldl (fun s' i => (List.range (i + 1)).foldl
        (exp_degrees_step A p (param k) (fun i => po i k) (fun j => pi j k) dyad s i)
          s') (slice t k) := fun t =>
    foldl_slice _ (fun t => slice t k) _ (fun t i =>
      foldl_slice _ (fun t => slice t k) _ (fun t j => step_same A p param po pi dyad s k i t j)
        _ t) _ t
  have other : ∀ l, l ≠ k → ∀ t, slice ((List.range n).foldl (fun s' i =>
        (List.range (i + 1)).foldl (exp_degrees_label_step A p param po pi dyad s l i) s') t) k
      = slice t k := by
    intro l hl t
    rw [foldl_slice _ (fun t => slice t k) (fun c _ => c) (fun t i => ?_), foldl_id]
    rw [foldl_slice _ (fun t => slice t k) (fun c _ => c)
      (fun t j => step_other A p param po pi dyad s hl i t j), foldl_id]
  have pre : ∀ m, m ≤ k → slice (exp_degrees_label A p n m param po pi dyad s) k
      = ⟨zeros, zeros, zeros⟩ := by
    intro m
    induction m with
    | zero => intro _; rfl
    | succ m ih =>
      intro hm
      unfold exp_degrees_label
      rw [List.range_succ, List.foldl_append, List.foldl_cons, List.foldl_nil,
        other m (by omega)]
      exact ih (by omega)
  have post : ∀ m, k < m → slice (exp_degrees_label A p n m param po pi dyad s) k
      = exp_degrees A p (param k) n (fun i => po i k) (fun j => pi j k) dyad s := by
    intro m
    induction m with
    | zero => intro h; omega
    | succ m ih =>
      intro hm
      unfold exp_degrees_label
      rw [List.range_succ, List.foldl_append, List.foldl_cons, List.foldl_nil]
      by_cases hmk : m = k
      · subst hmk
        rw [same]
        have := pre m le_rfl
        unfold exp_degrees_label at this
        rw [this]
        rfl
      · rw [other m hmk]
        exact ih (by omega)
  exact post L hk

end Dense

end Verif.Round
