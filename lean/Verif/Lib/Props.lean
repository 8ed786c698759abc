import Verif.Lib.Lemmas
import Mathlib.Data.Nat.Cast.Order.Field
import Mathlib.Tactic.IntervalCases
import Mathlib.Tactic.LinearCombination

/-! # C45, C50, C59, C60: pagerank, propagation of a measure and trophic depth -/

namespace Verif.Lib

open Finset

/-! ## Concrete graphs -/

/-- Links `0 → 1`, `0 → 2` of weights `w` and `w'`; dtype `d`. -/
noncomputable def exFork (w w' : ℝ) (d : Dt) : Csr where
  n := 3
  indptr := fun i => if i = 0 then 0 else 2
  indices := fun k => k + 1
  data := fun k => if k = 0 then w else w'
  dt := d

theorem exFork_valid {w w' : ℝ} (hw : 0 < w) (hw' : 0 < w') (d : Dt) : (exFork w w' d).Valid := by
  constructor
  · intro i _
    simp only [exFork]
    split <;> simp
  · intro i _ k hk
    simp only [exFork, mem_Ico] at hk ⊢
    by_cases h : i = 0
    · simp [h] at hk; omega
    · simp [h] at hk; omega
  · intro i _ k _
    simp only [exFork]
    split <;> assumption

/-! ## C45 -/

/-- The step of `pagerank`. -/
theorem pagerank_step {c : Csr} (h : c.Valid) (hd : c.Keeps) (alpha : ℝ) (r : ℕ → ℝ) {i : ℕ}
    (hi : i < c.n) :
    propagate_measure c.n c.n c.indptr c.indices (normalise_rows c) r false i * alpha
      + (1 - alpha) / c.n = walk c.n c.entry false r i * alpha + (1 - alpha) / c.n := by
  rw [propagate_walk h hd r false hi]

theorem pagerank_ok {k : Container} (hk : k = .matrix ∨ k = .array) (c : Csr) (alpha : ℝ) {m : ℕ}
    (hm : 0 < m) (tol : ℝ) :
    pagerank k c alpha m tol = .ok (iterate c.n (fun rank i =>
      propagate_measure c.n c.n c.indptr c.indices (normalise_rows c) rank false i * alpha
        + (1 - alpha) / c.n) tol m (fun _ => (1 : ℝ) / c.n)) := by
  rcases hk with rfl | rfl <;> simp [pagerank, hm.ne']

theorem step_prob {c : Csr} (h : c.Valid) (hd : c.Keeps) (h0 : 0 < c.n) {alpha : ℝ}
    (ha : 0 ≤ alpha ∧ alpha ≤ 1) (k : ℕ) :
    (∀ i < c.n, 0 ≤ (fun (rank : ℕ → ℝ) i =>
      propagate_measure c.n c.n c.indptr c.indices (normalise_rows c) rank false i * alpha
        + (1 - alpha) / c.n)^[k] (fun _ => (1 : ℝ) / c.n) i) ∧
    ∑ i ∈ range c.n, (fun (rank : ℕ → ℝ) i =>
      propagate_measure c.n c.n c.indptr c.indices (normalise_rows c) rank false i * alpha
        + (1 - alpha) / c.n)^[k] (fun _ => (1 : ℝ) / c.n) i = 1 := by
  have hn : (c.n : ℝ) ≠ 0 := by positivity
  induction k with
  | zero =>
    refine ⟨fun i _ => by simp, ?_⟩
    simp [hn]
  | succ k ih =>
    rw [Function.iterate_succ_apply']
    set v := (fun (rank : ℕ → ℝ) i =>
      propagate_measure c.n c.n c.indptr c.indices (normalise_rows c) rank false i * alpha
        + (1 - alpha) / c.n)^[k] (fun _ => (1 : ℝ) / c.n) with hv
    constructor
    · intro i hi
      rw [pagerank_step h hd alpha v hi]
      have h1 := walk_nonneg (absorb := false) (fun i hi j => h.entry_nonneg hi j) ih.1 i
      have h2 : 0 ≤ (1 - alpha) / c.n := div_nonneg (by linarith [ha.2]) (by positivity)
      have := mul_nonneg h1 ha.1
      linarith
    · rw [Finset.sum_congr rfl (fun i hi => pagerank_step h hd alpha v (mem_range.1 hi)),
        Finset.sum_add_distrib, ← Finset.sum_mul, sum_walk_false, ih.2]
      simp only [sum_const, card_range, nsmul_eq_mul]
      field_simp
      ring

/-- `pagerank` returns a probability vector after any number of iterations, for every graph with
float weights, and for any dtype if no vertex has more than one outgoing link. (Any tolerance, so
that this covers every iterate.) -/
theorem C45_probability_partial {k : Container} (hk : k = .matrix ∨ k = .array) {c : Csr}
    (h : c.Valid) (hd : c.Keeps) (h0 : 0 < c.n) {alpha : ℝ} (ha : 0 ≤ alpha ∧ alpha ≤ 1) {m : ℕ}
    (hm : 0 < m) (tol : ℝ) :
    ∃ r, pagerank k c alpha m tol = .ok r ∧ (∀ i < c.n, 0 ≤ r.value i) ∧
      ∑ i ∈ range c.n, r.value i = 1 := by
  refine ⟨_, pagerank_ok hk c alpha hm tol, ?_⟩
  obtain ⟨t, _, hv, _⟩ := iterate_spec c.n (fun rank i =>
      propagate_measure c.n c.n c.indptr c.indices (normalise_rows c) rank false i * alpha
        + (1 - alpha) / c.n) tol m (fun _ => (1 : ℝ) / c.n)
  rw [hv]
  exact step_prob h hd h0 ha t

/-- Weights `2` and `3` as floats. -/
example : (exFork 2 3 .float).Valid ∧ (exFork 2 3 .float).Keeps ∧ 0 < (exFork 2 3 .float).n :=
  ⟨exFork_valid (by norm_num) (by norm_num) _, Or.inl rfl, by simp [exFork]⟩

/-- One iteration on the fork, whatever the dtype. -/
theorem exFork_one {w w' : ℝ} (hw : 0 < w) (hw' : 0 < w') (d : Dt) (alpha : ℝ) :
    ∃ r, pagerank .array (exFork w w' d) alpha 1 0 = .ok r ∧
      ∑ i ∈ range 3, r.value i
        = 1 + alpha / 3 * (d.cast (w / (w + w')) + d.cast (w' / (w + w')) - 1) := by
  refine ⟨_, pagerank_ok (Or.inr rfl) _ alpha (by norm_num) 0, ?_⟩
  have hv := exFork_valid hw hw' d
  have e0 : normalise_rows (exFork w w' d) 0 = d.cast (w / (w + w')) := by
    rw [normalise_at hv (i := 0) (by simp [exFork]) (by simp [exFork])]
    simp [exFork, Finset.sum_range_succ]
  have e1 : normalise_rows (exFork w w' d) 1 = d.cast (w' / (w + w')) := by
    rw [normalise_at hv (i := 0) (by simp [exFork]) (by simp [exFork])]
    simp [exFork, Finset.sum_range_succ]
  have hn : (exFork w w' d).n = 3 := rfl
  have hit : ∀ (step : (ℕ → ℝ) → ℕ → ℝ) (r : ℕ → ℝ), (iterate 3 step 0 1 r).value = step r := by
    intro step r
    unfold iterate
    dsimp only
    split
    · rfl
    · rfl
  rw [hn, hit]
  simp only [propagate_at, Finset.sum_range_succ, Finset.sum_range_zero, contrib, exFork]
  simp only [show (0 + 1 : ℕ) = 1 from rfl, show (1 + 1 : ℕ) = 2 from rfl,
    show (2 + 1 : ℕ) = 3 from rfl]
  have e0' := e0
  have e1' := e1
  simp only [exFork] at e0' e1'
  norm_num [Finset.sum_Ico_eq_sum_range, Finset.sum_range_succ, e0', e1']
  ring

/-- On an unweighted graph (boolean adjacency matrix) the result is not a probability vector: every
neighbour receives the whole rank. -/
theorem C45_unweighted_violated {alpha : ℝ} (ha : 0 < alpha) :
    (exFork 1 1 .bool).Valid ∧ ∃ r, pagerank .array (exFork 1 1 .bool) alpha 1 0 = .ok r ∧
      1 < ∑ i ∈ range 3, r.value i := by
  refine ⟨exFork_valid one_pos one_pos _, ?_⟩
  obtain ⟨r, hr, hs⟩ := exFork_one one_pos one_pos .bool alpha
  refine ⟨r, hr, ?_⟩
  rw [hs]
  norm_num [Dt.cast]
  exact ha

/-- On a graph with integer weights rank is lost: the normalised weights are truncated. -/
theorem C45_integer_violated {alpha : ℝ} (ha : 0 < alpha) :
    (exFork 1 1 .int).Valid ∧ ∃ r, pagerank .array (exFork 1 1 .int) alpha 1 0 = .ok r ∧
      ∑ i ∈ range 3, r.value i < 1 := by
  refine ⟨exFork_valid one_pos one_pos _, ?_⟩
  obtain ⟨r, hr, hs⟩ := exFork_one one_pos one_pos .int alpha
  refine ⟨r, hr, ?_⟩
  rw [hs]
  have : ⌊(2⁻¹ : ℝ)⌋ = 0 := by norm_num [Int.floor_eq_iff]
  norm_num [Dt.cast, this]
  exact ha

/-- Graphs of the dense backend are not accepted, and no iterations raise an exception. -/
theorem C45_refused (c : Csr) (alpha tol : ℝ) (m : ℕ) :
    pagerank .dense c alpha m tol = .error .attribute ∧
    pagerank .array c alpha 0 tol = .error .unbound :=
  ⟨rfl, by simp [pagerank]⟩

/-! ## C60 -/

/-- A solution of the PageRank equation. -/
def IsRank (N : ℕ) (A : ℕ → ℕ → ℝ) (alpha : ℝ) (r : ℕ → ℝ) : Prop :=
  ∀ i < N, r i = alpha * walk N A false r i + (1 - alpha) / N

/-- If `pagerank` reports convergence its result is close to the solution of the PageRank
equation. -/
theorem C60_accuracy {k : Container} (hk : k = .matrix ∨ k = .array) {c : Csr}
    (h : c.Valid) (hd : c.Keeps) {alpha : ℝ} (ha : 0 ≤ alpha ∧ alpha < 1) {m : ℕ}
    (hm : 0 < m) (tol : ℝ) (r : Result) (hr : pagerank k c alpha m tol = .ok r)
    (hc : r.converged = true) (R : ℕ → ℝ) (hR : IsRank c.n c.entry alpha R) :
    (1 - alpha) * ∑ i ∈ range c.n, |r.value i - R i| ≤ alpha * (c.n * tol) := by
  rw [pagerank_ok hk c alpha hm tol] at hr
  set step := (fun (rank : ℕ → ℝ) i =>
      propagate_measure c.n c.n c.indptr c.indices (normalise_rows c) rank false i * alpha
        + (1 - alpha) / c.n) with hstep
  set r0 : ℕ → ℝ := fun _ => (1 : ℝ) / c.n with hr0
  obtain ⟨t', _, hv, _, ht⟩ := iterate_spec c.n step tol m r0
  have hr' : iterate c.n step tol m r0 = r := Except.ok.inj hr
  rw [hr'] at hv ht
  obtain ⟨t, rfl, hlast⟩ := ht hc
  rw [hv]
  set v := step^[t] r0 with hvdef
  have hsucc : step^[t + 1] r0 = step v := Function.iterate_succ_apply' _ _ _
  rw [hsucc] at hlast ⊢
  have key : ∑ i ∈ range c.n, |step v i - R i| ≤ alpha * ∑ i ∈ range c.n, |v i - R i| := by
    have h1 : ∀ i ∈ range c.n, |step v i - R i|
        = alpha * |walk c.n c.entry false (fun j => v j - R j) i| := by
      intro i hi
      have hi' := mem_range.1 hi
      rw [hR i hi', ← walk_sub, ← abs_of_nonneg ha.1, ← abs_mul]
      rw [abs_of_nonneg ha.1]
      congr 1
      show propagate_measure c.n c.n c.indptr c.indices (normalise_rows c) v false i * alpha
        + (1 - alpha) / c.n - _ = _
      rw [propagate_walk h hd v false hi']
      ring
    rw [Finset.sum_congr rfl h1, ← Finset.mul_sum]
    exact mul_le_mul_of_nonneg_left (abs_walk (fun i hi j => h.entry_nonneg hi j) _) ha.1
  have tri : ∑ i ∈ range c.n, |v i - R i|
      ≤ ∑ i ∈ range c.n, |step v i - v i| + ∑ i ∈ range c.n, |step v i - R i| := by
    rw [← Finset.sum_add_distrib]
    refine Finset.sum_le_sum (fun i _ => ?_)
    have : v i - R i = -(step v i - v i) + (step v i - R i) := by ring
    rw [this]
    exact (abs_add_le _ _).trans_eq (by rw [abs_neg])
  have small : ∑ i ∈ range c.n, |step v i - v i| ≤ c.n * tol := by
    calc ∑ i ∈ range c.n, |step v i - v i| ≤ ∑ _i ∈ range c.n, tol :=
          Finset.sum_le_sum (fun i hi => (hlast i (mem_range.1 hi)).le)
      _ = c.n * tol := by simp
  have := mul_le_mul_of_nonneg_left (tri.trans (add_le_add_left small _)) ha.1
  nlinarith

/-- Convergence is reported as soon as `2 * alpha ^ (max_iter - 1) < tol`. -/
theorem C60_converges {k : Container} (hk : k = .matrix ∨ k = .array) {c : Csr}
    (h : c.Valid) (hd : c.Keeps) (h0 : 0 < c.n) {alpha : ℝ} (ha : 0 ≤ alpha ∧ alpha ≤ 1) {m : ℕ}
    (hm : 0 < m) (tol : ℝ) (htol : 2 * alpha ^ (m - 1) < tol) :
    ∃ r, pagerank k c alpha m tol = .ok r ∧ r.converged = true := by
  refine ⟨_, pagerank_ok hk c alpha hm tol, ?_⟩
  have hp := step_prob h hd h0 ha
  set step := (fun (rank : ℕ → ℝ) i =>
      propagate_measure c.n c.n c.indptr c.indices (normalise_rows c) rank false i * alpha
        + (1 - alpha) / c.n) with hstep
  set r0 : ℕ → ℝ := fun _ => (1 : ℝ) / c.n with hr0
  obtain ⟨_, _, _, hf, _⟩ := iterate_spec c.n step tol m r0
  by_contra hc
  have hc' : (iterate c.n step tol m r0).converged = false := by
    cases h : (iterate c.n step tol m r0).converged <;> simp_all
  obtain ⟨_, hno⟩ := hf hc'
  have contract : ∀ v w : ℕ → ℝ, ∑ i ∈ range c.n, |step v i - step w i|
      ≤ alpha * ∑ i ∈ range c.n, |v i - w i| := by
    intro v w
    have h1 : ∀ i ∈ range c.n, |step v i - step w i|
        = alpha * |walk c.n c.entry false (fun j => v j - w j) i| := by
      intro i hi
      have hi' := mem_range.1 hi
      rw [← walk_sub]
      conv_rhs => rw [← abs_of_nonneg ha.1, ← abs_mul]
      congr 1
      show propagate_measure c.n c.n c.indptr c.indices (normalise_rows c) v false i * alpha
        + (1 - alpha) / c.n - (propagate_measure c.n c.n c.indptr c.indices (normalise_rows c) w
          false i * alpha + (1 - alpha) / c.n) = _
      rw [propagate_walk h hd v false hi', propagate_walk h hd w false hi']
      ring
    rw [Finset.sum_congr rfl h1, ← Finset.mul_sum]
    exact mul_le_mul_of_nonneg_left (abs_walk (fun i hi j => h.entry_nonneg hi j) _) ha.1
  have geo : ∀ t, ∑ i ∈ range c.n, |step^[t + 1] r0 i - step^[t] r0 i| ≤ 2 * alpha ^ t := by
    intro t
    induction t with
    | zero =>
      rw [pow_zero, mul_one]
      have h1 := hp 1
      have h2 := hp 0
      calc ∑ i ∈ range c.n, |step^[0 + 1] r0 i - step^[0] r0 i|
          ≤ ∑ i ∈ range c.n, (step^[1] r0 i + step^[0] r0 i) := by
            refine Finset.sum_le_sum (fun i hi => ?_)
            have hi' := mem_range.1 hi
            refine (abs_sub _ _).trans_eq ?_
            rw [abs_of_nonneg (h1.1 i hi'), abs_of_nonneg (h2.1 i hi')]
        _ = 2 := by rw [Finset.sum_add_distrib, h1.2, h2.2]; norm_num
    | succ t ih =>
      have := contract (step^[t + 1] r0) (step^[t] r0)
      rw [← Function.iterate_succ_apply' step, ← Function.iterate_succ_apply' step] at this
      calc _ ≤ alpha * ∑ i ∈ range c.n, |step^[t + 1] r0 i - step^[t] r0 i| := this
        _ ≤ alpha * (2 * alpha ^ t) := mul_le_mul_of_nonneg_left ih ha.1
        _ = 2 * alpha ^ (t + 1) := by ring
  have h1 := hno (m - 1) (by omega)
  apply h1
  intro i hi
  calc |step^[m - 1 + 1] r0 i - step^[m - 1] r0 i|
      ≤ ∑ i ∈ range c.n, |step^[m - 1 + 1] r0 i - step^[m - 1] r0 i| :=
        Finset.single_le_sum (f := fun i => |step^[m - 1 + 1] r0 i - step^[m - 1] r0 i|)
          (fun _ _ => abs_nonneg _) (mem_range.2 hi)
    _ ≤ 2 * alpha ^ (m - 1) := geo _
    _ < tol := htol

/-- The default tolerance is met within the default number of iterations for the default damping
factor. -/
example : (exFork 2 3 .float).Valid ∧ (exFork 2 3 .float).Keeps ∧
    2 * (0.85 : ℝ) ^ (100 - 1) < 1e-6 :=
  ⟨exFork_valid (by norm_num) (by norm_num) _, Or.inl rfl, by norm_num⟩

/-! ## C50 -/

/-- Propagation moves the measure along links in proportion to their weights; what is on a vertex
without links is spread evenly or absorbed. -/
theorem C50_step {c : Csr} (h : c.Valid) (hd : c.Keeps) (v : ℕ → ℝ) (absorb : Bool) {j : ℕ}
    (hj : j < c.n) :
    propagate_measure c.n c.n c.indptr c.indices (normalise_rows c) v absorb j
      = ∑ i ∈ range c.n, v i *
          (if ∑ k ∈ range c.n, c.entry i k = 0 then (if absorb then (0 : ℝ) else 1 / c.n)
            else c.entry i j / ∑ k ∈ range c.n, c.entry i k) :=
  propagate_walk h hd v absorb hj

/-- Without absorption the total is conserved. -/
theorem C50_conserved {c : Csr} (h : c.Valid) (hd : c.Keeps) (v : ℕ → ℝ) :
    ∑ j ∈ range c.n, propagate_measure c.n c.n c.indptr c.indices (normalise_rows c) v false j
      = ∑ i ∈ range c.n, v i := by
  rw [Finset.sum_congr rfl (fun j hj => propagate_walk h hd v false (mem_range.1 hj)),
    sum_walk_false]

/-- With absorption the total of a non-negative measure decreases by what is on the vertices without
links. -/
theorem C50_absorbed {c : Csr} (h : c.Valid) (hd : c.Keeps) (v : ℕ → ℝ) :
    ∑ j ∈ range c.n, propagate_measure c.n c.n c.indptr c.indices (normalise_rows c) v true j
      = ∑ i ∈ range c.n, v i
        - ∑ i ∈ (range c.n).filter (fun i => ∑ k ∈ range c.n, c.entry i k = 0), v i := by
  rw [Finset.sum_congr rfl (fun j hj => propagate_walk h hd v true (mem_range.1 hj)), sum_walk,
    Finset.sum_filter, ← Finset.sum_sub_distrib]
  refine Finset.sum_congr rfl (fun i hi => ?_)
  rw [sum_trans]
  have hn : c.n ≠ 0 := by have := mem_range.1 hi; omega
  by_cases h0 : ∑ k ∈ range c.n, c.entry i k = 0
  · simp [h0]
  · simp [h0, hn]

/-- With absorption the total never increases. -/
theorem C50_decreases {c : Csr} (h : c.Valid) (hd : c.Keeps) (v : ℕ → ℝ)
    (hv : ∀ i < c.n, 0 ≤ v i) :
    ∑ j ∈ range c.n, propagate_measure c.n c.n c.indptr c.indices (normalise_rows c) v true j
      ≤ ∑ i ∈ range c.n, v i := by
  rw [C50_absorbed h hd]
  have : 0 ≤ ∑ i ∈ (range c.n).filter (fun i => ∑ k ∈ range c.n, c.entry i k = 0), v i :=
    Finset.sum_nonneg (fun i hi => hv i (mem_range.1 (mem_filter.1 hi).1))
  linarith

/-- On an acyclic graph it has vanished after as many steps as there are vertices. -/
theorem C50_vanishes {c : Csr} (h : c.Valid) (hd : c.Keeps) (hac : Acyclic c.n c.entry)
    (v : ℕ → ℝ) {k : ℕ} (hk : c.n ≤ k) {j : ℕ} (hj : j < c.n) :
    (fun u => propagate_measure c.n c.n c.indptr c.indices (normalise_rows c) u true)^[k] v j = 0 := by
  refine vanish (R := Link c.n c.entry) (fun i j hij => ⟨hij.1, hij.2.1⟩) hac _ ?_ v hk hj
  intro v j hne hj
  rw [propagate_walk h hd v true hj] at hne
  obtain ⟨i, hi, hi0⟩ := Finset.exists_ne_zero_of_sum_ne_zero hne
  have hi' := mem_range.1 hi
  refine ⟨i, ⟨hi', hj, fun h2 => hi0 ?_⟩, fun h2 => hi0 ?_⟩
  · unfold trans
    simp [h2]
  · rw [h2, zero_mul]

theorem exFork_entry (w w' : ℝ) (d : Dt) (i j : ℕ) :
    (exFork w w' d).entry i j
      = if i = 0 then (if j = 1 then w else 0) + (if j = 2 then w' else 0) else 0 := by
  unfold Csr.entry
  by_cases h : i = 0
  · subst h
    simp [exFork, Finset.sum_range_succ, eq_comm]
  · simp [exFork, h]

theorem exFork_acyclic (w w' : ℝ) (d : Dt) : Acyclic 3 (exFork w w' d).entry := by
  intro i hi
  have h1 : ∀ a b, Relation.TransGen (Link 3 (exFork w w' d).entry) a b → a = 0 ∧ b ≠ 0 := by
    intro a b hab
    have hl : ∀ a b, Link 3 (exFork w w' d).entry a b → a = 0 ∧ b ≠ 0 := by
      rintro a b ⟨_, _, hne⟩
      rw [exFork_entry] at hne
      by_cases h : a = 0
      · refine ⟨h, ?_⟩
        rintro rfl
        simp at hne
      · simp [h] at hne
    induction hab with
    | single h => exact hl _ _ h
    | tail _ h ih => exact ⟨ih.1, (hl _ _ h).2⟩
  exact (h1 i i hi).2 (h1 i i hi).1

example : (exFork 2 3 .float).Valid ∧ (exFork 2 3 .float).Keeps ∧
    Acyclic (exFork 2 3 .float).n (exFork 2 3 .float).entry ∧
    (exFork 2 3 .float).entry 0 2 = 3 :=
  ⟨exFork_valid (by norm_num) (by norm_num) _, Or.inl rfl, exFork_acyclic _ _ _, by
    rw [exFork_entry]; norm_num⟩

/-! ## C59 -/

/-- The equation of the trophic depth: a vertex of positive strength lies one step above the mean
depth of what it is connected to, in proportion to the weights, the final node having depth zero;
a vertex of strength zero has depth zero. -/
def IsDepth (N : ℕ) (A : ℕ → ℕ → ℝ) (final D : ℕ → ℝ) : Prop :=
  ∀ i < N, if ∑ j ∈ range N, A i j + final i = 0 then D i = 0
    else (∑ j ∈ range N, A i j + final i) * D i
      = ∑ j ∈ range N, A i j * (D j + 1) + final i * (0 + 1)

theorem propagate_columns {c : Csr} (v : ℕ → ℝ) (i : ℕ) :
    propagate_measure c.n c.n c.indptr c.indices c.data v true i
      = ∑ j ∈ range c.n, c.entry j i * v j := by
  rw [propagate_at]
  refine Finset.sum_congr rfl (fun j _ => ?_)
  unfold contrib Csr.entry
  by_cases h : c.indptr j = c.indptr (j + 1)
  · rw [if_pos h, h]; simp
  · rw [if_neg h, Finset.sum_mul]
    refine Finset.sum_congr rfl (fun k _ => ?_)
    split <;> simp

/-- The linear part of the step. -/
noncomputable def dstep (N : ℕ) (A : ℕ → ℕ → ℝ) (s v : ℕ → ℝ) (i : ℕ) : ℝ :=
  if s i = 0 then 0 else (∑ j ∈ range N, A i j * v j) / s i

section
variable {c : Csr}

theorem depth_sub (h : c.Valid) {final : ℕ → ℝ} (hfin : ∀ i < c.n, 0 ≤ final i) (v w : ℕ → ℝ)
    {i : ℕ} (hi : i < c.n) :
    depthStep c (fun i => rowSum c i + final i) final v i
      - depthStep c (fun i => rowSum c i + final i) final w i
      = dstep c.n (fun i j => c.entry j i) (fun i => rowSum c i + final i)
          (fun i => v i - w i) i := by
  unfold depthStep dstep
  dsimp only
  rw [propagate_columns, propagate_columns]
  have hd : (∑ j ∈ range c.n, c.entry j i * (v j + 1)) - ∑ j ∈ range c.n, c.entry j i * (w j + 1)
      = ∑ j ∈ range c.n, c.entry j i * (v j - w j) := by
    rw [← Finset.sum_sub_distrib]
    exact Finset.sum_congr rfl (fun j _ => by ring)
  by_cases hs : rowSum c i + final i = 0
  · simp only [hs, ne_eq, not_true_eq_false, if_false, if_true]
    have h0 : rowSum c i = 0 := by
      have h1 : 0 ≤ rowSum c i :=
        Finset.sum_nonneg (fun j hj => h.entry_nonneg (mem_range.1 hj) i)
      linarith [hfin i hi]
    have hz : ∀ j ∈ range c.n, c.entry j i = 0 :=
      (Finset.sum_eq_zero_iff_of_nonneg (fun j hj => h.entry_nonneg (mem_range.1 hj) i)).1 h0
    rw [hd]
    exact Finset.sum_eq_zero (fun j hj => by rw [hz j hj, zero_mul])
  · simp only [ne_eq, hs, not_false_eq_true, if_true, if_false]
    rw [← sub_div, ← hd]
    congr 1
    ring

/-- A solution is a fixed point. -/
theorem depth_fixed (h : c.Valid) {final : ℕ → ℝ} (hfin : ∀ i < c.n, 0 ≤ final i) (D : ℕ → ℝ) :
    IsDepth c.n (fun i j => c.entry j i) final D ↔
      ∀ i < c.n, depthStep c (fun i => rowSum c i + final i) final D i = D i := by
  refine forall_congr' (fun i => forall_congr' (fun hi => ?_))
  have hsum : ∑ j ∈ range c.n, c.entry j i = rowSum c i := rfl
  unfold depthStep
  dsimp only
  rw [hsum, propagate_columns]
  by_cases hs : rowSum c i + final i = 0
  · simp only [hs, ne_eq, not_true_eq_false, if_false, if_true]
    have h0 : rowSum c i = 0 := by
      have h1 : 0 ≤ rowSum c i :=
        Finset.sum_nonneg (fun j hj => h.entry_nonneg (mem_range.1 hj) i)
      linarith [hfin i hi]
    have hz : ∀ j ∈ range c.n, c.entry j i = 0 :=
      (Finset.sum_eq_zero_iff_of_nonneg (fun j hj => h.entry_nonneg (mem_range.1 hj) i)).1 h0
    rw [Finset.sum_eq_zero (fun j hj => by rw [hz j hj, zero_mul])]
    exact eq_comm
  · simp only [ne_eq, hs, not_false_eq_true, if_true, if_false]
    rw [div_eq_iff hs]
    constructor
    · intro h2; linarith
    · intro h2; linarith

theorem dstep_iterate_zero (hac : Acyclic c.n (fun i j => c.entry j i))
    (s v : ℕ → ℝ) {k : ℕ} (hk : c.n ≤ k) {i : ℕ} (hi : i < c.n) :
    (dstep c.n (fun i j => c.entry j i) s)^[k] v i = 0 := by
  refine vanish (R := fun a b => Link c.n (fun i j => c.entry j i) b a)
    (fun a b hab => ⟨hab.2.1, hab.1⟩) ?_ _ ?_ v hk hi
  · intro a ha
    exact hac a (Relation.transGen_swap.1 ha)
  · intro v i hne hi
    unfold dstep at hne
    split at hne
    · exact absurd rfl hne
    · have : ∑ j ∈ range c.n, c.entry j i * v j ≠ 0 := fun h2 => hne (by rw [h2, zero_div])
      obtain ⟨j, hj, hj0⟩ := Finset.exists_ne_zero_of_sum_ne_zero this
      refine ⟨j, ⟨hi, mem_range.1 hj, left_ne_zero_of_mul hj0⟩, right_ne_zero_of_mul hj0⟩

theorem dstep_bound (h : c.Valid) {final : ℕ → ℝ} (hfin : ∀ i < c.n, 0 ≤ final i) {v : ℕ → ℝ}
    {B : ℝ} (hB : 0 ≤ B) (hv : ∀ i < c.n, |v i| ≤ B) {i : ℕ} (hi : i < c.n) :
    |dstep c.n (fun i j => c.entry j i) (fun i => rowSum c i + final i) v i| ≤ B := by
  unfold dstep
  split
  · simpa using hB
  · rename_i hs
    have h1 : 0 ≤ rowSum c i :=
      Finset.sum_nonneg (fun j hj => h.entry_nonneg (mem_range.1 hj) i)
    have hpos : 0 < rowSum c i + final i :=
      lt_of_le_of_ne (add_nonneg h1 (hfin i hi)) (Ne.symm hs)
    rw [abs_div, abs_of_pos hpos, div_le_iff₀ hpos]
    calc |∑ j ∈ range c.n, c.entry j i * v j| ≤ ∑ j ∈ range c.n, c.entry j i * B := by
          refine (Finset.abs_sum_le_sum_abs _ _).trans (Finset.sum_le_sum (fun j hj => ?_))
          rw [abs_mul, abs_of_nonneg (h.entry_nonneg (mem_range.1 hj) i)]
          exact mul_le_mul_of_nonneg_left (hv j (mem_range.1 hj))
            (h.entry_nonneg (mem_range.1 hj) i)
      _ = B * rowSum c i := by rw [← Finset.sum_mul, mul_comm]; rfl
      _ ≤ B * (rowSum c i + final i) :=
          mul_le_mul_of_nonneg_left (by linarith [hfin i hi]) hB

theorem dstep_congr (s : ℕ → ℝ) {v w : ℕ → ℝ} (hvw : ∀ i < c.n, v i = w i) (i : ℕ) :
    dstep c.n (fun i j => c.entry j i) s v i = dstep c.n (fun i j => c.entry j i) s w i := by
  unfold dstep
  rw [Finset.sum_congr rfl (fun j hj => by rw [hvw j (mem_range.1 hj)])]

theorem dstep_iterate_congr (s : ℕ → ℝ) {v w : ℕ → ℝ} (hvw : ∀ i < c.n, v i = w i) (k : ℕ) :
    ∀ i < c.n, (dstep c.n (fun i j => c.entry j i) s)^[k] v i
      = (dstep c.n (fun i j => c.entry j i) s)^[k] w i := by
  induction k with
  | zero => exact hvw
  | succ k ih =>
    intro i _
    rw [Function.iterate_succ_apply', Function.iterate_succ_apply']
    exact dstep_congr s ih i

/-- Differences of iterates. -/
theorem depth_iterate_sub (h : c.Valid) {final : ℕ → ℝ} (hfin : ∀ i < c.n, 0 ≤ final i)
    (v w : ℕ → ℝ) (k : ℕ) : ∀ i < c.n,
    (depthStep c (fun i => rowSum c i + final i) final)^[k] v i
      - (depthStep c (fun i => rowSum c i + final i) final)^[k] w i
      = (dstep c.n (fun i j => c.entry j i) (fun i => rowSum c i + final i))^[k]
          (fun i => v i - w i) i := by
  induction k with
  | zero => intro i _; rfl
  | succ k ih =>
    intro i hi
    rw [Function.iterate_succ_apply', Function.iterate_succ_apply', Function.iterate_succ_apply',
      depth_sub h hfin _ _ hi]
    exact dstep_congr _ ih i

theorem fixed_iterate (F : (ℕ → ℝ) → ℕ → ℝ) (n : ℕ) (D : ℕ → ℝ)
    (hcongr : ∀ v w, (∀ i < n, v i = w i) → ∀ i < n, F v i = F w i)
    (hD : ∀ i < n, F D i = D i) (k : ℕ) : ∀ i < n, F^[k] D i = D i := by
  induction k with
  | zero => intro i _; rfl
  | succ k ih =>
    intro i hi
    rw [Function.iterate_succ_apply', hcongr _ _ ih i hi, hD i hi]

theorem depthStep_congr (h : c.Valid) {final : ℕ → ℝ} (hfin : ∀ i < c.n, 0 ≤ final i)
    (v w : ℕ → ℝ) (hvw : ∀ i < c.n, v i = w i) : ∀ i < c.n,
    depthStep c (fun i => rowSum c i + final i) final v i
      = depthStep c (fun i => rowSum c i + final i) final w i := by
  intro i hi
  have h1 := depth_sub h hfin v w hi
  have h2 : dstep c.n (fun i j => c.entry j i) (fun i => rowSum c i + final i)
      (fun i => v i - w i) i = 0 := by
    rw [dstep_congr (c := c) _ (w := fun _ => 0) (fun j hj => by simp [hvw j hj])]
    unfold dstep
    simp
  linarith

/-- On an acyclic graph the equation of the depths has exactly one solution. -/
theorem C59_unique (h : c.Valid) (hac : Acyclic c.n (fun i j => c.entry j i)) {final : ℕ → ℝ}
    (hfin : ∀ i < c.n, 0 ≤ final i) :
    ∃ D, IsDepth c.n (fun i j => c.entry j i) final D ∧
      ∀ D', IsDepth c.n (fun i j => c.entry j i) final D' → ∀ i < c.n, D' i = D i := by
  set F := depthStep c (fun i => rowSum c i + final i) final with hF
  have hfix : ∀ D D' : ℕ → ℝ, (∀ i < c.n, F D' i = D' i) → ∀ i < c.n, F^[c.n] D i = D' i := by
    intro D D' hD' i hi
    have h1 := depth_iterate_sub h hfin D D' c.n i hi
    rw [dstep_iterate_zero hac _ _ (le_refl _) hi, ← hF,
      fixed_iterate F c.n D' (fun v w hvw => depthStep_congr h hfin v w hvw) hD' c.n i hi] at h1
    linarith
  refine ⟨F^[c.n] (fun _ => 0), (depth_fixed h hfin _).2 (fun i hi => ?_), fun D' hD' i hi => ?_⟩
  · have h1 := depth_iterate_sub h hfin (F (fun _ => 0)) (fun _ => 0) c.n i hi
    rw [dstep_iterate_zero hac _ _ (le_refl _) hi, ← hF, ← Function.iterate_succ_apply,
      Function.iterate_succ_apply'] at h1
    linarith
  · exact (hfix (fun _ => 0) D' ((depth_fixed h hfin D').1 hD') i hi).symm

/-- `trophic_depth` of an acyclic graph held as a sparse matrix: with at least as many iterations as
vertices, the result is within `num_vertices * tol` of the solution, and exactly the solution if the
iteration was not stopped by the tolerance. -/
theorem C59_depth_partial (h : c.Valid) (hac : Acyclic c.n (fun i j => c.entry j i))
    {final : ℕ → ℝ} (hfin : ∀ i < c.n, 0 ≤ final i) {m : ℕ} (hm : 0 < m) (hmn : c.n ≤ m) {tol : ℝ}
    (D : ℕ → ℝ) (hD : IsDepth c.n (fun i j => c.entry j i) final D) :
    ∃ r, trophic_depth .matrix c final m tol = .ok r ∧
      (r.converged = false → ∀ i < c.n, r.value i = D i) ∧
      (r.converged = true → ∀ i < c.n, |r.value i - D i| ≤ c.n * tol) ∧
      (0 < tol → c.n < m → r.converged = true) := by
  set F := depthStep c (fun i => rowSum c i + final i) final with hF
  refine ⟨iterate c.n F tol m final, by simp [trophic_depth, hm.ne', hF], ?_⟩
  have hfix := (depth_fixed h hfin D).1 hD
  have herr : ∀ (v : ℕ → ℝ) k, ∀ i < c.n, F^[k] v i - D i
      = (dstep c.n (fun i j => c.entry j i) (fun i => rowSum c i + final i))^[k]
          (fun i => v i - D i) i := by
    intro v k i hi
    rw [← depth_iterate_sub h hfin v D k i hi, ← hF,
      fixed_iterate F c.n D (fun v w hvw => depthStep_congr h hfin v w hvw) hfix k i hi]
  have hexact : ∀ (v : ℕ → ℝ) k, c.n ≤ k → ∀ i < c.n, F^[k] v i = D i := by
    intro v k hk i hi
    have := herr v k i hi
    rw [dstep_iterate_zero hac _ _ hk hi] at this
    linarith
  obtain ⟨k, hk, hv, hf, ht⟩ := iterate_spec c.n F tol m final
  refine ⟨fun hc i hi => ?_, fun hc i hi => ?_, fun htol hlt => ?_⟩
  · rw [hv, (hf hc).1]
    exact hexact _ _ hmn i hi
  · obtain ⟨t, rfl, hlast⟩ := ht hc
    rw [hv]
    set v := F^[t] final with hvdef
    have hs : F^[t + 1] final = F v := Function.iterate_succ_apply' _ _ _
    rw [hs] at hlast ⊢
    have htol : 0 ≤ tol := (abs_nonneg _).trans (hlast i hi).le
    -- the later changes are bounded by the last one
    have hch : ∀ l, ∀ i < c.n, |F^[l + 1] v i - F^[l] v i| ≤ tol := by
      intro l
      induction l with
      | zero => intro i hi; exact (hlast i hi).le
      | succ l ih =>
        intro i hi
        have e : F^[l + 1 + 1] v i - F^[l + 1] v i = F (F^[l + 1] v) i - F (F^[l] v) i := by
          rw [← Function.iterate_succ_apply' F (l + 1), ← Function.iterate_succ_apply' F l]
        rw [e, hF, depth_sub h hfin _ _ hi, ← hF]
        exact dstep_bound h hfin htol ih hi
    have hsum : ∀ l, ∀ i < c.n, |F^[l + 1] v i - F v i| ≤ l * tol := by
      intro l
      induction l with
      | zero => intro i _; simp
      | succ l ih =>
        intro i hi
        have e : F^[l + 1 + 1] v i - F v i
            = (F^[l + 1 + 1] v i - F^[l + 1] v i) + (F^[l + 1] v i - F v i) := by ring
        rw [e]
        refine (abs_add_le _ _).trans ?_
        have := add_le_add (hch (l + 1) i hi) (ih i hi)
        push_cast
        linarith
    have := hsum c.n i hi
    rw [hexact v (c.n + 1) (by omega) i hi] at this
    rwa [abs_sub_comm]
  · by_contra hc
    have hc' : (iterate c.n F tol m final).converged = false := by
      cases h : (iterate c.n F tol m final).converged <;> simp_all
    refine (hf hc').2 c.n hlt (fun i hi => ?_)
    rw [hexact _ (c.n + 1) (by omega) i hi, hexact _ c.n (le_refl _) i hi]
    simpa using htol

/-- For the graphs of this package, whose adjacency matrix is a sparse array or a dense array,
`trophic_depth` raises `AttributeError` whatever the arguments. -/
theorem C59_violated (c : Csr) (final : ℕ → ℝ) (m : ℕ) (tol : ℝ) :
    trophic_depth .array c final m tol = .error .attribute ∧
    trophic_depth .dense c final m tol = .error .attribute := ⟨rfl, rfl⟩

end

/-- The columns of a graph with links `1 → 0` and `2 → 0`, everything else going to the final node
from vertex `0`: depths `1`, `2`, `2`. -/
example : (exFork 2 3 .float).Valid ∧
    Acyclic (exFork 2 3 .float).n (fun i j => (exFork 2 3 .float).entry j i) ∧
    IsDepth (exFork 2 3 .float).n (fun i j => (exFork 2 3 .float).entry j i)
      (fun i => if i = 0 then 5 else 0) (fun i => if i = 0 then 1 else 2) := by
  refine ⟨exFork_valid (by norm_num) (by norm_num) _, ?_, ?_⟩
  · intro i hi
    refine exFork_acyclic 2 3 .float i ?_
    have : Relation.TransGen (Function.swap (Link 3 (exFork 2 3 .float).entry)) i i := by
      refine Relation.TransGen.mono ?_ i i hi
      rintro a b ⟨h1, h2, h3⟩
      exact ⟨h2, h1, h3⟩
    exact Relation.transGen_swap.1 this
  · intro i hi
    have hi' : i < 3 := hi
    have hn : (exFork 2 3 .float).n = 3 := rfl
    simp only [hn, exFork_entry, Finset.sum_range_succ, Finset.sum_range_zero]
    interval_cases i <;> norm_num

end Verif.Lib
