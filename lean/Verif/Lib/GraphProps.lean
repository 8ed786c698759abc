import Verif.Lib.Props
import Verif.Cond.LikeProps
import Mathlib.Data.List.GetD

/-! # C45 for the matrices held by graphs

Every square matrix with non-negative entries has a compressed form satisfying the hypotheses of the
theorems in `Verif.Lib.Props`. -/

namespace Verif.Lib

open Finset

/-- `sp.csr_array` of the matrix `A`: the non-zero entries, row by row. -/
noncomputable def csrOf (n : ℕ) (A : ℕ → ℕ → ℝ) (d : Dt) : Csr where
  n := n
  indptr := fun a => ∑ i ∈ range a, ((List.range n).filter (fun b => A i b ≠ 0)).length
  indices := fun k => ((List.range n).flatMap (fun a =>
    (List.range n).filter (fun b => A a b ≠ 0))).getD k 0
  data := fun k => ((List.range n).flatMap (fun a =>
    ((List.range n).filter (fun b => A a b ≠ 0)).map (A a))).getD k 0
  dt := d

theorem getD_slice {α : Type} (z : α) (L R : List α) (p : ℕ)
    (h : (L.drop p).take R.length = R) {t : ℕ} (ht : t < R.length) :
    L.getD (p + t) z = R.getD t z := by
  rw [List.getD_eq_getElem?_getD, List.getD_eq_getElem?_getD]
  congr 1
  conv_rhs => rw [← h]
  rw [List.getElem?_take, if_pos ht, List.getElem?_drop]

theorem sum_getD (R : List ℕ) (f : ℕ → ℝ) :
    ∑ t ∈ range R.length, f (R.getD t 0) = (R.map f).sum := by
  induction R with
  | nil => simp
  | cons a R ih =>
    rw [List.length_cons, Finset.sum_range_succ', List.map_cons, List.sum_cons, ← ih, add_comm]
    simp

theorem csrOf_indices (n : ℕ) (A : ℕ → ℕ → ℝ) (d : Dt) {i : ℕ} (hi : i < n) {t : ℕ}
    (ht : t < ((List.range n).filter (fun b => A i b ≠ 0)).length) :
    (csrOf n A d).indices ((csrOf n A d).indptr i + t)
      = ((List.range n).filter (fun b => A i b ≠ 0)).getD t 0 ∧
    (csrOf n A d).data ((csrOf n A d).indptr i + t)
      = A i (((List.range n).filter (fun b => A i b ≠ 0)).getD t 0) := by
  constructor
  · exact getD_slice 0 _ _ _ (Cond.csr_slice (fun a => (List.range n).filter (fun b => A a b ≠ 0)) n hi)
      ht
  · have h := Cond.csr_slice (fun a => ((List.range n).filter (fun b => A a b ≠ 0)).map (A a)) n hi
    simp only [List.length_map] at h
    have h2 := getD_slice 0 _ (((List.range n).filter (fun b => A i b ≠ 0)).map (A i))
      (∑ i ∈ range i, ((List.range n).filter (fun b => A i b ≠ 0)).length)
      (by rw [List.length_map]; exact h) (t := t) (by rw [List.length_map]; exact ht)
    refine h2.trans ?_
    rw [List.getD_eq_getElem _ _ (by rw [List.length_map]; exact ht), List.getElem_map,
      List.getD_eq_getElem _ _ ht]

theorem csrOf_indptr_succ (n : ℕ) (A : ℕ → ℕ → ℝ) (d : Dt) (i : ℕ) :
    (csrOf n A d).indptr (i + 1)
      = (csrOf n A d).indptr i + ((List.range n).filter (fun b => A i b ≠ 0)).length := by
  simp only [csrOf]
  exact Finset.sum_range_succ _ _

theorem csrOf_valid (n : ℕ) (A : ℕ → ℕ → ℝ) (d : Dt) (hA : ∀ i < n, ∀ j < n, 0 ≤ A i j) :
    (csrOf n A d).Valid := by
  have hrow : ∀ i < n, ∀ k ∈ Ico ((csrOf n A d).indptr i) ((csrOf n A d).indptr (i + 1)),
      ∃ b, b < n ∧ A i b ≠ 0 ∧ (csrOf n A d).indices k = b ∧ (csrOf n A d).data k = A i b := by
    intro i hi k hk
    rw [mem_Ico, csrOf_indptr_succ] at hk
    have ht : k - (csrOf n A d).indptr i
        < ((List.range n).filter (fun b => A i b ≠ 0)).length := by omega
    obtain ⟨h1, h2⟩ := csrOf_indices n A d hi ht
    rw [Nat.add_sub_cancel' hk.1] at h1 h2
    have hmem := List.getElem_mem ht
    rw [← List.getD_eq_getElem _ 0 ht, List.mem_filter] at hmem
    exact ⟨_, List.mem_range.1 hmem.1, by simpa using hmem.2, h1, h2⟩
  refine ⟨fun i _ => ?_, fun i hi k hk => ?_, fun i hi k hk => ?_⟩
  · rw [csrOf_indptr_succ]; omega
  · obtain ⟨b, hb, _, h, _⟩ := hrow i hi k hk
    rw [h]; exact hb
  · obtain ⟨b, hb, h0, _, h⟩ := hrow i hi k hk
    rw [h]; exact lt_of_le_of_ne (hA i hi b hb) h0.symm

theorem csrOf_entry (n : ℕ) (A : ℕ → ℕ → ℝ) (d : Dt) {i j : ℕ} (hi : i < n) (hj : j < n) :
    (csrOf n A d).entry i j = A i j := by
  unfold Csr.entry
  rw [csrOf_indptr_succ, Finset.sum_Ico_eq_sum_range, Nat.add_sub_cancel_left]
  rw [Finset.sum_congr rfl (fun t ht => by
    rw [(csrOf_indices n A d hi (mem_range.1 ht)).1, (csrOf_indices n A d hi (mem_range.1 ht)).2])]
  rw [sum_getD _ (fun b => if b = j then A i b else 0)]
  have hnd : ((List.range n).filter (fun b => A i b ≠ 0)).Nodup := List.nodup_range.filter _
  have key : ∀ L : List ℕ, L.Nodup → (L.map (fun b => if b = j then A i b else 0)).sum
      = if j ∈ L then A i j else 0 := by
    intro L hL
    induction L with
    | nil => simp
    | cons c L ih =>
      rw [List.nodup_cons] at hL
      rw [List.map_cons, List.sum_cons, ih hL.2]
      by_cases hc : c = j
      · subst hc; simp [hL.1]
      · have : j ≠ c := fun h => hc h.symm
        simp [hc, this]
  rw [key _ hnd]
  by_cases h : A i j = 0
  · rw [h]; simp
  · rw [if_pos]
    simpa using ⟨hj, h⟩

/-- A graph with non-negative float weights `A`: pagerank is a probability vector after any number
of iterations. -/
theorem C45_graph_partial {n : ℕ} (hn : 0 < n) (A : ℕ → ℕ → ℝ) (hA : ∀ i < n, ∀ j < n, 0 ≤ A i j)
    {alpha : ℝ} (ha : 0 ≤ alpha ∧ alpha ≤ 1) {m : ℕ} (hm : 0 < m) (tol : ℝ) :
    ∃ r, pagerank .array (csrOf n A .float) alpha m tol = .ok r ∧ (∀ i < n, 0 ≤ r.value i) ∧
      ∑ i ∈ range n, r.value i = 1 :=
  C45_probability_partial (Or.inr rfl) (csrOf_valid n A .float hA) (Or.inl rfl) hn ha hm tol

end Verif.Lib
