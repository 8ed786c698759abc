import Verif.Spark.Model
import Verif.Ensemble.QueryProps
import Verif.Ensemble.SampleLemmas
import Verif.Solver.Fit
import Verif.Random.Props
import Mathlib.Data.List.Perm.Basic
import Mathlib.Algebra.BigOperators.Group.List.Basic

/-! # Blocks, combination orders and the loops as sums -/

namespace Verif

open XR Spec

/-- Exact addition of extended floats is associative and commutative. -/
noncomputable instance : AddCommMonoid XR where
  add := (· + ·)
  zero := 0
  add_assoc a b c := by
    rcases a with a | _ | _ | _ <;> rcases b with b | _ | _ | _ <;> rcases c with c | _ | _ | _ <;>
      first
        | rfl
        | exact congrArg fin (add_assoc _ _ _)
  zero_add a := by
    rcases a with a | _ | _ | _ <;> first | rfl | exact congrArg fin (zero_add _)
  add_zero a := by
    rcases a with a | _ | _ | _ <;> first | rfl | exact congrArg fin (add_zero _)
  add_comm a b := by
    rcases a with a | _ | _ | _ <;> rcases b with b | _ | _ | _ <;>
      first | rfl | exact congrArg fin (add_comm _ _)
  nsmul := nsmulRec

namespace Spark

/-! ## Combination orders -/

theorem forall₂_append_left {σ A : Type} {r : σ → A → Prop} {l₁ l₂ : List σ} :
    ∀ {m : List A}, List.Forall₂ r (l₁ ++ l₂) m →
      ∃ m₁ m₂, m = m₁ ++ m₂ ∧ List.Forall₂ r l₁ m₁ ∧ List.Forall₂ r l₂ m₂ := by
  induction l₁ with
  | nil => intro m h; exact ⟨[], m, rfl, .nil, h⟩
  | cons x l ih =>
    intro m h
    cases h with
    | cons h1 h2 =>
      obtain ⟨m₁, m₂, rfl, h3, h4⟩ := ih h2
      exact ⟨_ :: m₁, m₂, rfl, .cons h1 h3, h4⟩

theorem folds_rep {σ A : Type} [AddCommMonoid A] (R : A → σ) {op : σ → σ → σ} {zero : σ}
    (h0 : zero = R 0) (hop : ∀ a b, op (R a) (R b) = R (a + b)) {ls : List σ} {v : σ}
    (h : Folds op zero ls v) :
    ∀ {l : List A}, List.Forall₂ (fun s a => s = R a) ls l → v = R l.sum := by
  induction h with
  | nil => intro l hl; cases hl; simpa using h0
  | single x =>
    intro l hl
    cases hl with
    | cons h1 h2 => cases h2; simpa using h1
  | @node l r a b _ _ iha ihb =>
    intro m hm
    obtain ⟨m₁, m₂, rfl, h1, h2⟩ := forall₂_append_left hm
    rw [iha h1, ihb h2, hop, List.sum_append]
  | @perm l l' a hp _ ih =>
    intro m hm
    have hc := List.perm_comp_forall₂ hp hm
    obtain ⟨w, hw1, hw2⟩ := hc
    rw [ih hw1, hw2.sum_eq]

theorem forall₂_map {σ A B : Type} (R : A → σ) (f : B → σ) (g : B → A) (l : List B)
    (h : ∀ b ∈ l, f b = R (g b)) :
    List.Forall₂ (fun s a => s = R a) (l.map f) (l.map g) := by
  induction l with
  | nil => exact .nil
  | cons x l ih =>
    exact .cons (h x List.mem_cons_self) (ih fun b hb => h b (List.mem_cons_of_mem _ hb))

/-- What `RDD.fold` does with one element per partition is one of the admitted orders. -/
theorem folds_fold {σ : Type} (op : σ → σ → σ) (zero : σ) (l : List σ) :
    Folds op zero l (l.foldl (fun a x => op a (op zero x)) zero) := by
  induction l using List.reverseRecOn with
  | nil => exact .nil
  | append_singleton l x ih =>
    rw [List.foldl_append]
    exact .node ih (.node (l := []) .nil (.single x))

/-! ## The blocks partition the vertices -/

theorem bounds_fst (N p i : ℕ) : (bounds N p i).1 = i * (N / p) := by
  unfold bounds; dsimp only; split <;> rfl

theorem bounds_last (N p : ℕ) : (bounds N (p + 1) p).2 = N := by
  unfold bounds; simp

theorem bounds_snd {N p i : ℕ} (h : i + 1 < p) : (bounds N p i).2 = (i + 1) * (N / p) := by
  unfold bounds; dsimp only; rw [if_neg (by omega)]

theorem step_le {N p i : ℕ} (h : i ≤ p) : i * (N / p) ≤ N :=
  (Nat.mul_le_mul_right _ h).trans (Nat.mul_div_le N p)

theorem bounds_le {N p i : ℕ} (h : i < p) : (bounds N p i).1 ≤ (bounds N p i).2 := by
  obtain rfl | h' : i + 1 = p ∨ i + 1 < p := by omega
  · rw [bounds_last, bounds_fst]; exact step_le (by omega)
  · rw [bounds_snd h', bounds_fst]; exact Nat.mul_le_mul_right _ (by omega)

theorem bounds_snd_le {N p i : ℕ} (h : i < p) : (bounds N p i).2 ≤ N := by
  obtain rfl | h' : i + 1 = p ∨ i + 1 < p := by omega
  · rw [bounds_last]
  · rw [bounds_snd h']; exact step_le (by omega)

/-- Blocks are disjoint and ordered. -/
theorem bounds_lt {N p i j : ℕ} (hji : j < i) (hi : i < p) :
    (bounds N p j).2 ≤ (bounds N p i).1 := by
  rw [bounds_snd (by omega), bounds_fst]; exact Nat.mul_le_mul_right _ (by omega)

theorem sum_shift {A : Type} [AddCommMonoid A] (F : ℕ → A) {a b : ℕ} (h : a ≤ b) :
    (∑ k ∈ Finset.range a, F k) + ∑ k ∈ Finset.range (b - a), F (a + k)
      = ∑ k ∈ Finset.range b, F k := by
  rw [← Finset.sum_range_add, Nat.add_sub_cancel' h]

/-- Summing block by block is summing over all vertices. -/
theorem sum_bounds {A : Type} [AddCommMonoid A] (F : ℕ → A) (N : ℕ) {p : ℕ} (hp : 0 < p) :
    ∑ i ∈ Finset.range p, ∑ k ∈ Finset.range ((bounds N p i).2 - (bounds N p i).1),
        F ((bounds N p i).1 + k)
      = ∑ k ∈ Finset.range N, F k := by
  obtain ⟨q, rfl⟩ : ∃ q, p = q + 1 := ⟨p - 1, by omega⟩
  have key : ∀ m ≤ q, ∑ i ∈ Finset.range m,
      ∑ k ∈ Finset.range ((bounds N (q + 1) i).2 - (bounds N (q + 1) i).1),
        F ((bounds N (q + 1) i).1 + k) = ∑ k ∈ Finset.range (m * (N / (q + 1))), F k := by
    intro m
    induction m with
    | zero => simp
    | succ m ih =>
      intro hm
      rw [Finset.sum_range_succ, ih (by omega), bounds_snd (by omega), bounds_fst,
        sum_shift _ (Nat.mul_le_mul_right _ (by omega))]
  rw [Finset.sum_range_succ, key q le_rfl, bounds_last, bounds_fst, sum_shift _ (step_le (by omega))]

theorem sum_flatMap_range {A B : Type} [AddCommMonoid A] (p : ℕ) (m : ℕ → ℕ) (c : ℕ → ℕ → B)
    (g : B → A) :
    (((List.range p).flatMap fun i => (List.range (m i)).map fun j => c i j).map g).sum
      = ∑ i ∈ Finset.range p, ∑ j ∈ Finset.range (m i), g (c i j) := by
  induction p with
  | zero => simp
  | succ p ih =>
    rw [List.range_succ, List.flatMap_append, List.map_append, List.sum_append, ih,
      Finset.sum_range_succ]
    congr 1
    simp only [List.flatMap_cons, List.flatMap_nil, List.append_nil, List.map_map]
    exact Rand.sum_list_range _ _

theorem sum_iterBlocks {A : Type} [AddCommMonoid A] (F : ℕ → ℕ → A) (N : ℕ) {p : ℕ} (hp : 0 < p) :
    ((iterBlocks N p).map fun b => ∑ i ∈ Finset.range (b.1.2 - b.1.1),
        ∑ j ∈ Finset.range (b.2.2 - b.2.1), F (b.1.1 + i) (b.2.1 + j)).sum
      = ∑ i ∈ Finset.range N, ∑ j ∈ Finset.range N, F i j := by
  unfold iterBlocks
  rw [sum_flatMap_range p (fun _ => p)]
  rw [← sum_bounds (fun i => ∑ j ∈ Finset.range N, F i j) N hp]
  refine Finset.sum_congr rfl (fun a _ => ?_)
  dsimp only
  rw [Finset.sum_comm (s := Finset.range p)]
  refine Finset.sum_congr rfl (fun i _ => ?_)
  exact sum_bounds (fun j => F _ j) N hp

/-- The triangular layout: below the diagonal all pairs, on the diagonal the pairs `j ≤ i`. -/
theorem sum_symBlocks {A : Type} [AddCommMonoid A] (F : ℕ → ℕ → A) (N : ℕ) {p : ℕ} (hp : 0 < p) :
    ((symBlocks N p).map fun b => ∑ i ∈ Finset.range (b.1.2 - b.1.1),
        ∑ j ∈ Finset.range (inRange i b.2 (decide (b.1 = b.2))), F (b.1.1 + i) (b.2.1 + j)).sum
      = ∑ i ∈ Finset.range N, ∑ j ∈ Finset.range (i + 1), F i j := by
  let G : ℕ → ℕ → A := fun i j => if j ≤ i then F i j else 0
  have hG : ∑ i ∈ Finset.range N, ∑ j ∈ Finset.range (i + 1), F i j
      = ∑ i ∈ Finset.range N, ∑ j ∈ Finset.range N, G i j := by
    refine Finset.sum_congr rfl (fun i hi => ?_)
    rw [Finset.mem_range] at hi
    rw [← Finset.sum_filter]
    refine Finset.sum_congr ?_ (fun _ _ => rfl)
    ext j; simp only [Finset.mem_range, Finset.mem_filter]; omega
  rw [hG, ← sum_iterBlocks G N hp]
  unfold symBlocks iterBlocks
  rw [sum_flatMap_range p (fun i => i + 1), sum_flatMap_range p (fun _ => p)]
  refine Finset.sum_congr rfl (fun a ha => ?_)
  rw [Finset.mem_range] at ha
  have hsub : Finset.range (a + 1) ⊆ Finset.range p := by
    intro x hx; simp only [Finset.mem_range] at hx ⊢; omega
  rw [← Finset.sum_subset hsub]
  · refine Finset.sum_congr rfl (fun b hb => ?_)
    rw [Finset.mem_range] at hb
    refine Finset.sum_congr rfl (fun i hi => ?_)
    rw [Finset.mem_range] at hi
    dsimp only at hi ⊢
    obtain rfl | hba : b = a ∨ b < a := by omega
    · simp only [decide_true, inRange, if_true, G]
      rw [← Finset.sum_filter]
      refine Finset.sum_congr ?_ (fun _ _ => rfl)
      ext j; simp only [Finset.mem_range, Finset.mem_filter]; omega
    · have h1 := bounds_lt (N := N) hba ha
      have h2 := bounds_le (N := N) (show b < p by omega)
      have hne : bounds N p a ≠ bounds N p b := by
        intro he; rw [he] at hi h1; omega
      simp only [hne, decide_false, inRange, Bool.false_eq_true, if_false, G]
      refine Finset.sum_congr rfl (fun j hj => ?_)
      rw [Finset.mem_range] at hj
      rw [if_pos (by omega)]
  · intro b hb hb'
    rw [Finset.mem_range] at hb hb'
    have h1 := bounds_lt (N := N) (show a < b by omega) hb
    refine Finset.sum_eq_zero (fun i hi => Finset.sum_eq_zero (fun j hj => ?_))
    rw [Finset.mem_range] at hi hj
    dsimp only at hi hj ⊢
    exact if_neg (by omega)

theorem mem_iterBlocks {N p : ℕ} {b : (ℕ × ℕ) × (ℕ × ℕ)} :
    b ∈ iterBlocks N p ↔ ∃ i < p, ∃ j < p, b = (bounds N p i, bounds N p j) := by
  simp only [iterBlocks, List.mem_flatMap, List.mem_range, List.mem_map]
  constructor
  · rintro ⟨i, hi, j, hj, rfl⟩; exact ⟨i, hi, j, hj, rfl⟩
  · rintro ⟨i, hi, j, hj, rfl⟩; exact ⟨i, hi, j, hj, rfl⟩

theorem mem_symBlocks {N p : ℕ} {b : (ℕ × ℕ) × (ℕ × ℕ)} :
    b ∈ symBlocks N p ↔ ∃ i < p, ∃ j ≤ i, b = (bounds N p i, bounds N p j) := by
  simp only [symBlocks, List.mem_flatMap, List.mem_range, List.mem_map]
  constructor
  · rintro ⟨i, hi, j, hj, rfl⟩; exact ⟨i, hi, j, by omega, rfl⟩
  · rintro ⟨i, hi, j, hj, rfl⟩; exact ⟨i, hi, j, by omega, rfl⟩

end Spark

end Verif
