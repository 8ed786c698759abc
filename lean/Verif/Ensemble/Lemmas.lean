import Verif.Ensemble.Model
import Verif.Law
import Verif.Prob.Props
import Mathlib.Algebra.BigOperators.Group.Finset.Basic
import Mathlib.Algebra.BigOperators.Intervals
import Mathlib.Algebra.BigOperators.Pi
import Mathlib.Algebra.Group.Prod

/-! # Loops as finite sums -/

namespace Verif

open XR

/-- A loop adding `g i` to a represented accumulator computes the sum. -/
theorem foldl_rep {σ A : Type} [AddCommMonoid A] (R : A → σ) (f : σ → ℕ → σ) (g : ℕ → A)
    (n : ℕ) (h : ∀ i < n, ∀ a, f (R a) i = R (a + g i)) (a : A) :
    (List.range n).foldl f (R a) = R (a + ∑ i ∈ Finset.range n, g i) := by
  induction n with
  | zero => simp
  | succ n ih =>
    rw [List.range_succ, List.foldl_append, ih (fun i hi => h i (by omega))]
    simp only [List.foldl_cons, List.foldl_nil]
    rw [h n (by omega), Finset.sum_range_succ, add_assoc]

/-- Same for a loop with error exits, when none is taken. -/
theorem foldlM_rep {σ A ε : Type} [AddCommMonoid A] (R : A → σ) (f : σ → ℕ → Except ε σ)
    (g : ℕ → A) (n : ℕ) (h : ∀ i < n, ∀ a, f (R a) i = .ok (R (a + g i))) (a : A) :
    (List.range n).foldlM f (R a) = .ok (R (a + ∑ i ∈ Finset.range n, g i)) := by
  induction n with
  | zero => simp [pure, Except.pure]
  | succ n ih =>
    rw [List.range_succ, List.foldlM_append, ih (fun i hi => h i (by omega))]
    simp only [List.foldlM_cons, List.foldlM_nil]
    show (f _ n >>= fun s => pure s) = _
    rw [h n (by omega), Finset.sum_range_succ, add_assoc]; rfl

/-- The triangular loop `j ≤ i` visiting both orientations covers the square. -/
theorem sum_triangle {A : Type} [AddCommMonoid A] (F : ℕ → ℕ → A) (n : ℕ) :
    (∑ i ∈ Finset.range n, ∑ j ∈ Finset.range (i + 1),
      if i ≠ j then F i j + F j i else F i i)
      = ∑ i ∈ Finset.range n, ∑ j ∈ Finset.range n, F i j := by
  induction n with
  | zero => simp
  | succ n ih =>
    rw [Finset.sum_range_succ, ih, Finset.sum_range_succ (n := n) (f := fun i => ∑ j ∈ _, F i j)]
    simp only [Finset.sum_range_succ]
    have h1 : ∀ j ∈ Finset.range n, (if n ≠ j then F n j + F j n else F n n) = F n j + F j n := by
      intro j hj; rw [Finset.mem_range] at hj; rw [if_pos (by omega)]
    rw [Finset.sum_congr rfl h1]
    simp only [Finset.sum_add_distrib, ne_eq, not_true_eq_false, if_false]
    abel

/-- The strictly triangular loop plus a diagonal pass covers the square. -/
theorem sum_strict_triangle {A : Type} [AddCommMonoid A] (F : ℕ → ℕ → A) (n : ℕ) :
    (∑ i ∈ Finset.range n, ∑ j ∈ Finset.range i, (F i j + F j i))
      + ∑ i ∈ Finset.range n, F i i
      = ∑ i ∈ Finset.range n, ∑ j ∈ Finset.range n, F i j := by
  rw [← sum_triangle, ← Finset.sum_add_distrib]
  refine Finset.sum_congr rfl (fun i _ => ?_)
  rw [Finset.sum_range_succ]
  congr 1
  · refine Finset.sum_congr rfl (fun j hj => ?_)
    rw [Finset.mem_range] at hj; rw [if_pos (by omega)]
  · simp

theorem admissible_iff {i j : ℕ} {s : Bool} : admissible i j s = true ↔ i ≠ j ∨ s = true := by
  simp [admissible]

theorem sum_pairs {A : Type} [AddCommMonoid A] (n : ℕ) (s : Bool) (f : ℕ × ℕ → A) :
    ∑ e ∈ Law.pairs n s, f e
      = ∑ i ∈ Finset.range n, ∑ j ∈ Finset.range n, if admissible i j s then f (i, j) else 0 := by
  rw [Law.pairs, Finset.sum_filter, Finset.sum_product]
  simp only [admissible_iff]

/-- `a[i] += v` on a finite array. -/
theorem addAt_fin (a : ℕ → ℝ) (i : ℕ) (v : ℝ) :
    addAt (fun k => fin (a k)) i (fin v) = fun k => fin ((a + (Pi.single i v : ℕ → ℝ)) k) := by
  funext k
  by_cases h : k = i
  · subst h; simp [addAt]
  · simp [addAt, h]

namespace DiGraphEnsemble

variable {α β δ ζ : Type} {p_ij : δ → α → β → ζ → XR} {param : δ} {n : ℕ} {prop_out : ℕ → α}
  {prop_in : ℕ → β} {prop_dyad : ℕ → ℕ → ζ} {selfloops : Bool} {q : ℕ → ℕ → ℝ}

theorem exp_edges_eq
    (h : ∀ i < n, ∀ j < n, admissible i j selfloops →
      p_ij param (prop_out i) (prop_in j) (prop_dyad i j) = fin (q i j)) :
    exp_edges p_ij param n prop_out prop_in prop_dyad selfloops
      = fin (∑ i ∈ Finset.range n, ∑ j ∈ Finset.range n,
          if admissible i j selfloops then q i j else 0) := by
  unfold exp_edges
  have h0 : (0 : XR) = fin 0 := rfl
  rw [h0, foldl_rep fin _ (fun i => ∑ j ∈ Finset.range n,
          if admissible i j selfloops then q i j else 0) n, zero_add]
  intro i hi a
  refine foldl_rep fin _ _ n (fun j hj a => ?_) a
  by_cases hadm : admissible i j selfloops = true
  · simp only [hadm, if_true, h i hi j hj hadm, fin_add_fin]
  · simp only [hadm, if_false, add_zero, Bool.false_eq_true]

/-- Finite degree arrays. -/
def rep (a : (ℕ → ℝ) × (ℕ → ℝ) × (ℕ → ℝ)) : Degrees :=
  ⟨fun k => fin (a.1 k), fun k => fin (a.2.1 k), fun k => fin (a.2.2 k)⟩

/-- Link probability with non-admissible pairs set to `0`. -/
def masked (selfloops : Bool) (q : ℕ → ℕ → ℝ) (i j : ℕ) : ℝ :=
  if admissible i j selfloops then q i j else 0

/-- Contribution of the ordered pair to the undirected degree of its first vertex. -/
noncomputable def undir (selfloops : Bool) (q : ℕ → ℕ → ℝ) (i j : ℕ) : ℝ :=
  if i ≠ j then q i j + q j i - q i j * q j i else if selfloops then q i i else 0

theorem exp_degrees_eq
    (h : ∀ i < n, ∀ j < n, admissible i j selfloops →
      p_ij param (prop_out i) (prop_in j) (prop_dyad i j) = fin (q i j)) :
    exp_degrees p_ij param n prop_out prop_in prop_dyad selfloops
      = rep (∑ i ∈ Finset.range n, ∑ j ∈ Finset.range n,
          (Pi.single i (undir selfloops q i j), Pi.single i (masked selfloops q i j),
            Pi.single j (masked selfloops q i j))) := by
  unfold exp_degrees
  have h0 : (⟨zeros, zeros, zeros⟩ : Degrees) = rep 0 := rfl
  rw [h0, ← sum_triangle, ← zero_add (∑ i ∈ Finset.range n, _), foldl_rep rep]
  intro i hi a
  refine foldl_rep rep _ _ (i + 1) (fun j hj a => ?_) a
  have hj' : j < n := by omega
  unfold exp_degrees_step
  by_cases hij : i ≠ j
  · have hji : j ≠ i := Ne.symm hij
    have e1 : admissible i j selfloops = true := admissible_iff.2 (Or.inl hij)
    have e2 : admissible j i selfloops = true := admissible_iff.2 (Or.inl hji)
    rw [if_pos hij, if_pos hij]
    simp only [h i hi j hj' e1, h j hj' i hi e2, fin_add_fin, fin_mul_fin, fin_sub_fin, rep,
      addAt_fin, undir, masked, if_pos hij, if_pos hji, e1, e2, if_true]
    simp only [Degrees.mk.injEq, Prod.fst_add, Prod.snd_add]
    refine ⟨?_, ?_, ?_⟩
    · rw [add_comm (q j i), mul_comm (q j i), add_assoc]
    · rw [add_assoc]
    · rw [add_assoc]
  · have hij' : i = j := by simpa using hij
    subst hij'
    simp only [ne_eq, not_true_eq_false, if_false]
    by_cases hs : selfloops = true
    · subst hs
      have e1 : admissible i i true = true := by simp [admissible]
      simp only [h i hi i hi e1, rep, addAt_fin, undir, masked, e1, if_true, ne_eq,
        not_true_eq_false, if_false]
      simp only [Prod.fst_add, Prod.snd_add]
    · obtain rfl : selfloops = false := by simpa using hs
      have e1 : admissible i i false = false := by simp [admissible]
      simp only [ if_false, undir, masked, e1, ne_eq, not_true_eq_false, Bool.false_eq_true,
        Pi.single_zero]
      simp only [rep, Prod.fst_add, Prod.snd_add, add_zero]

theorem sum_single_row (F : ℕ → ℕ → ℝ) (k : ℕ) (hk : k < n) :
    (∑ i ∈ Finset.range n, ∑ j ∈ Finset.range n, (Pi.single i (F i j) : ℕ → ℝ)) k
      = ∑ j ∈ Finset.range n, F k j := by
  simp only [Finset.sum_apply, Pi.single_apply]
  rw [Finset.sum_eq_single k]
  · simp
  · intro i _ hi
    simp [Ne.symm hi]
  · simp [hk]

theorem sum_single_col (F : ℕ → ℕ → ℝ) (k : ℕ) (hk : k < n) :
    (∑ i ∈ Finset.range n, ∑ j ∈ Finset.range n, (Pi.single j (F i j) : ℕ → ℝ)) k
      = ∑ i ∈ Finset.range n, F i k := by
  simp only [Finset.sum_apply, Pi.single_apply]
  refine Finset.sum_congr rfl (fun i _ => ?_)
  simp [hk]

theorem exp_degrees_at
    (h : ∀ i < n, ∀ j < n, admissible i j selfloops →
      p_ij param (prop_out i) (prop_in j) (prop_dyad i j) = fin (q i j)) (k : ℕ) (hk : k < n) :
    let D := exp_degrees p_ij param n prop_out prop_in prop_dyad selfloops
    D.exp_d k = fin (∑ j ∈ Finset.range n, undir selfloops q k j) ∧
    D.exp_d_out k = fin (∑ j ∈ Finset.range n, masked selfloops q k j) ∧
    D.exp_d_in k = fin (∑ i ∈ Finset.range n, masked selfloops q i k) := by
  simp only [exp_degrees_eq h, rep, Prod.fst_sum, Prod.snd_sum, fin_inj]
  exact ⟨sum_single_row _ k hk, sum_single_row _ k hk, sum_single_col _ k hk⟩

end DiGraphEnsemble

end Verif
