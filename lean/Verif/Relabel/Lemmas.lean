import Verif.Ensemble.QueryProps
import Verif.Solver.Fit

/-!
# Sums that do not depend on the numbering of the vertices

Addition of the numbers of the model (`XR`) is commutative and associative, infinities and `nan`
included.  Hence the values accumulated by the loops are sums over sets of pairs, whatever the
order in which the loops visit them.
-/

namespace Verif

open XR DiGraphEnsemble

namespace Relabel

noncomputable section

theorem add_comm' (a b : XR) : a + b = b + a := by
  cases a <;> cases b <;> first | rfl | exact congrArg fin (add_comm _ _)

theorem add_assoc' (a b c : XR) : a + b + c = a + (b + c) := by
  cases a <;> cases b <;> cases c <;> first | rfl | exact congrArg fin (add_assoc _ _ _)

theorem zero_add' (a : XR) : 0 + a = a := by
  cases a <;> first | rfl | exact congrArg fin (zero_add _)

theorem mul_comm' (a b : XR) : a * b = b * a := by
  cases a <;> cases b <;> first | rfl | exact congrArg fin (mul_comm _ _)

/-- The additive monoid of the numbers of the model. -/
@[reducible] def addMonoid : AddCommMonoid XR where
  add := (· + ·)
  zero := 0
  add_assoc := add_assoc'
  zero_add := zero_add'
  add_zero a := by rw [add_comm', zero_add']
  add_comm := add_comm'
  nsmul := nsmulRec

attribute [local instance] addMonoid

/-! ## The loops as sums -/

variable {α β δ ζ : Type} {p_ij : δ → α → β → ζ → XR} {param : δ} {prop_out : ℕ → α}
  {prop_in : ℕ → β} {prop_dyad : ℕ → ℕ → ζ} {n : ℕ}

/-- Value on admissible pairs, `0` elsewhere. -/
def on (b : Bool) (q : ℕ → ℕ → XR) (i j : ℕ) : XR := if admissible i j b then q i j else 0

/-- Contribution of an ordered pair to the undirected degree of its first vertex. -/
def both (b : Bool) (q : ℕ → ℕ → XR) (i j : ℕ) : XR :=
  if i ≠ j then q i j + q j i - q i j * q j i else if b then q i i else 0

theorem both_symm (b : Bool) (q : ℕ → ℕ → XR) (i j : ℕ) : both b q i j = both b q j i := by
  unfold both
  by_cases h : i = j
  · subst h; rfl
  · rw [if_pos h, if_pos (Ne.symm h), add_comm' (q i j), mul_comm' (q i j)]

theorem exp_edges_sum (b : Bool) :
    exp_edges p_ij param n prop_out prop_in prop_dyad b
      = ∑ i ∈ Finset.range n, ∑ j ∈ Finset.range n,
          on b (fun i j => p_ij param (prop_out i) (prop_in j) (prop_dyad i j)) i j := by
  unfold exp_edges
  rw [show (0 : XR) = id 0 from rfl, foldl_rep (A := XR) id _ (fun i => ∑ j ∈ Finset.range n,
    on b (fun i j => p_ij param (prop_out i) (prop_in j) (prop_dyad i j)) i j) n, id, zero_add]
  intro i _ a
  refine foldl_rep (A := XR) id _ _ n (fun j _ a => ?_) a
  unfold on
  by_cases h : admissible i j b = true
  · simp only [h, if_true, id]
  · simp only [h, if_false, add_zero, Bool.false_eq_true]

/-- Arrays built by additions. -/
def mk (a : (ℕ → XR) × (ℕ → XR) × (ℕ → XR)) : Degrees := ⟨a.1, a.2.1, a.2.2⟩

theorem addAt_single (a : ℕ → XR) (i : ℕ) (v : XR) : addAt a i v = a + Pi.single i v := by
  funext k
  unfold addAt
  by_cases h : k = i
  · subst h; simp
  · simp [h]

theorem exp_degrees_sum (b : Bool) :
    exp_degrees p_ij param n prop_out prop_in prop_dyad b
      = mk (∑ i ∈ Finset.range n, ∑ j ∈ Finset.range n,
          (let q := fun i j => p_ij param (prop_out i) (prop_in j) (prop_dyad i j)
           (Pi.single i (both b q i j), Pi.single i (on b q i j), Pi.single j (on b q i j)))) := by
  unfold exp_degrees
  have h0 : (⟨zeros, zeros, zeros⟩ : Degrees) = mk 0 := rfl
  rw [h0, ← sum_triangle, ← zero_add (∑ i ∈ Finset.range n, _), foldl_rep mk]
  intro i hi a
  refine foldl_rep mk _ _ (i + 1) (fun j hj a => ?_) a
  unfold exp_degrees_step
  by_cases hij : i ≠ j
  · have hji : j ≠ i := Ne.symm hij
    have e1 : admissible i j b = true := admissible_iff.2 (Or.inl hij)
    have e2 : admissible j i b = true := admissible_iff.2 (Or.inl hji)
    rw [if_pos hij, if_pos hij]
    dsimp only
    rw [both_symm b _ j i]
    simp only [both, on, if_pos hij, e1, e2, if_true, mk, addAt_single]
    simp only [Prod.fst_add, Prod.snd_add, add_assoc]
  · have hij' : i = j := by simpa using hij
    subst hij'
    simp only [ne_eq, not_true_eq_false, if_false]
    by_cases hs : b = true
    · subst hs
      have e1 : admissible i i true = true := by simp [admissible]
      simp only [mk, addAt_single, both, on, e1, if_true, ne_eq, not_true_eq_false, if_false,
        Prod.fst_add, Prod.snd_add]
    · obtain rfl : b = false := by simpa using hs
      have e1 : admissible i i false = false := by simp [admissible]
      simp only [mk, both, on, e1, if_false, ne_eq, not_true_eq_false, Bool.false_eq_true,
        Pi.single_zero, Prod.fst_add, Prod.snd_add, add_zero]

theorem sum_row (F : ℕ → ℕ → XR) (k : ℕ) (hk : k < n) :
    (∑ i ∈ Finset.range n, ∑ j ∈ Finset.range n, (Pi.single i (F i j) : ℕ → XR)) k
      = ∑ j ∈ Finset.range n, F k j := by
  simp only [Finset.sum_apply, Pi.single_apply]
  rw [Finset.sum_eq_single k]
  · simp
  · intro i _ hi
    simp [Ne.symm hi]
  · simp [hk]

theorem sum_col (F : ℕ → ℕ → XR) (k : ℕ) (hk : k < n) :
    (∑ i ∈ Finset.range n, ∑ j ∈ Finset.range n, (Pi.single j (F i j) : ℕ → XR)) k
      = ∑ i ∈ Finset.range n, F i k := by
  simp only [Finset.sum_apply, Pi.single_apply]
  refine Finset.sum_congr rfl (fun i _ => ?_)
  simp [hk]

theorem exp_degrees_at' (b : Bool) (k : ℕ) (hk : k < n) :
    let q := fun i j => p_ij param (prop_out i) (prop_in j) (prop_dyad i j)
    let D := exp_degrees p_ij param n prop_out prop_in prop_dyad b
    D.exp_d k = ∑ j ∈ Finset.range n, both b q k j ∧
      D.exp_d_out k = ∑ j ∈ Finset.range n, on b q k j ∧
      D.exp_d_in k = ∑ j ∈ Finset.range n, on b q j k := by
  dsimp only
  rw [exp_degrees_sum]
  simp only [mk, Prod.fst_sum, Prod.snd_sum]
  exact ⟨sum_row _ k hk, sum_row _ k hk, sum_col _ k hk⟩

/-- Weight of the pair in the neighbour sums, for pairs of distinct vertices. -/
def nnWeight (q : ℕ → ℕ → XR) : Dir → ℕ → ℕ → XR
  | .out, i, j => q i j
  | .inn, i, j => q j i
  | _, i, j => 1 - (1 - q i j) * (1 - q j i)

/-- Summand of the neighbour sum of `i`; `r i` is the probability used for the self-loop. -/
def nnTerm (q : ℕ → ℕ → XR) (r : ℕ → XR) (b : Bool) (ndir : Dir) (x : ℕ → XR) (i j : ℕ) : XR :=
  if i ≠ j then nnWeight q ndir i j * x j else if b then r i * x i else 0

theorem exp_av_nn_sum (jUndef : ℕ) (x : ℕ → XR) (ndir : Dir) (hdir : ndir.Known) (b : Bool) :
    exp_av_nn_prop jUndef p_ij param n prop_out prop_in prop_dyad x ndir b
      = .ok (∑ i ∈ Finset.range n, ∑ j ∈ Finset.range n,
          (Pi.single i (nnTerm
            (fun i j => p_ij param (prop_out i) (prop_in j) (prop_dyad i j))
            (fun i => p_ij param (prop_out i) (prop_in i)
              (prop_dyad i (if 2 ≤ n then n - 2 else jUndef))) b ndir x i j) : ℕ → XR)) := by
  set q : ℕ → ℕ → XR := fun i j => p_ij param (prop_out i) (prop_in j) (prop_dyad i j) with hq
  set r : ℕ → XR := fun i => p_ij param (prop_out i) (prop_in i)
    (prop_dyad i (if 2 ≤ n then n - 2 else jUndef)) with hr
  let F : ℕ → ℕ → ℕ → XR := fun i j => Pi.single i (nnTerm q r b ndir x i j)
  have hpairs : (List.range n).foldlM (fun av_nn i =>
      (List.range i).foldlM
        (exp_av_nn_step p_ij param prop_out prop_in prop_dyad x ndir i) av_nn) zeros
      = .ok (id (0 + ∑ i ∈ Finset.range n, ∑ j ∈ Finset.range i, (F i j + F j i))) := by
    have h0 : (zeros : ℕ → XR) = id 0 := rfl
    rw [h0]
    refine foldlM_rep (A := ℕ → XR) id _ _ n (fun i _ a => ?_) 0
    refine foldlM_rep (A := ℕ → XR) id _ _ i (fun j hj a => ?_) a
    have hij : i ≠ j := by omega
    unfold exp_av_nn_step
    cases ndir with
    | underscored | other => exact False.elim hdir
    | out =>
      simp only [id, addAt_single, F, nnTerm, nnWeight, if_pos hij, if_pos hij.symm, add_assoc, q]
    | inn =>
      simp only [id, addAt_single, F, nnTerm, nnWeight, if_pos hij, if_pos hij.symm, add_assoc, q]
    | outIn =>
      simp only [id, addAt_single, F, nnTerm, nnWeight, if_pos hij, if_pos hij.symm, add_assoc, q]
      rw [mul_comm' (1 - p_ij param (prop_out j) (prop_in i) (prop_dyad j i))]
  unfold exp_av_nn_prop
  dsimp only
  rw [hpairs]
  show (if b = true then _ else _) = _
  rw [zero_add]
  by_cases hs : b = true
  · rw [if_pos hs]
    refine (foldlM_rep (A := ℕ → XR) id _ (fun i => F i i) n (fun i _ a => ?_) _).trans ?_
    · unfold exp_av_nn_self
      cases ndir with
      | underscored | other => exact False.elim hdir
      | out => simp [addAt_single, F, nnTerm, hs, r]
      | inn => simp [addAt_single, F, nnTerm, hs, r]
      | outIn => simp [addAt_single, F, nnTerm, hs, r]
    · rw [sum_strict_triangle]; rfl
  · rw [if_neg hs]
    have hz : ∀ i, F i i = 0 := by
      intro i
      simp [F, nnTerm, hs]
    have h2 := sum_strict_triangle F n
    simp only [hz, Finset.sum_const_zero, add_zero] at h2
    rw [h2]; rfl

end

end Relabel

end Verif
