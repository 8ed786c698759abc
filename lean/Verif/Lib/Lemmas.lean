import Verif.Lib.Model
import Mathlib.Algebra.BigOperators.Intervals
import Mathlib.Algebra.BigOperators.Field
import Mathlib.Algebra.BigOperators.Group.Finset.Sigma
import Mathlib.Algebra.Order.BigOperators.Ring.Finset
import Mathlib.Algebra.Order.BigOperators.Group.Finset
import Mathlib.Algebra.Order.Field.Basic
import Mathlib.Data.Finset.Card
import Mathlib.Logic.Relation
import Mathlib.Combinatorics.Pigeonhole
import Mathlib.Tactic.Linarith
import Mathlib.Tactic.Positivity
import Mathlib.Tactic.FieldSimp
import Mathlib.Tactic.Ring
import Mathlib.Tactic.NormNum

/-! # Specification and lemmas for `lib.py` -/

namespace Verif.Lib

open Finset

/-! ## Specification -/

/-- The entry `(i, j)` of a compressed matrix: duplicates are summed. -/
noncomputable def Csr.entry (c : Csr) (i j : ℕ) : ℝ :=
  ∑ k ∈ Ico (c.indptr i) (c.indptr (i + 1)), if c.indices k = j then c.data k else 0

/-- A square compressed matrix with positive stored values. -/
structure Csr.Valid (c : Csr) : Prop where
  mono : ∀ i < c.n, c.indptr i ≤ c.indptr (i + 1)
  bound : ∀ i < c.n, ∀ k ∈ Ico (c.indptr i) (c.indptr (i + 1)), c.indices k < c.n
  pos : ∀ i < c.n, ∀ k ∈ Ico (c.indptr i) (c.indptr (i + 1)), 0 < c.data k

/-- The probability of going from `i` to `j`: in proportion to the weight `A i j`; from a vertex
without outgoing weight to any vertex alike, or nowhere if it absorbs. -/
noncomputable def trans (N : ℕ) (A : ℕ → ℕ → ℝ) (absorb : Bool) (i j : ℕ) : ℝ :=
  if ∑ k ∈ range N, A i k = 0 then (if absorb then 0 else 1 / N) else A i j / ∑ k ∈ range N, A i k

/-- One step of the random walk. -/
noncomputable def walk (N : ℕ) (A : ℕ → ℕ → ℝ) (absorb : Bool) (v : ℕ → ℝ) (j : ℕ) : ℝ :=
  ∑ i ∈ range N, v i * trans N A absorb i j

/-- `i` has a link to `j`, both below `N`. -/
def Link (N : ℕ) (A : ℕ → ℕ → ℝ) (i j : ℕ) : Prop := i < N ∧ j < N ∧ A i j ≠ 0

/-- There is no cycle. -/
def Acyclic (N : ℕ) (A : ℕ → ℕ → ℝ) : Prop := ∀ i, ¬ Relation.TransGen (Link N A) i i

/-! ## The loops -/

theorem foldl_addAt (f : ℕ → ℕ) (g : ℕ → ℝ) (u : ℕ → ℝ) (L : ℕ) (x : ℕ) :
    (List.range L).foldl (fun u k => addAt u (f k) (g k)) u x
      = u x + ∑ k ∈ range L, if f k = x then g k else 0 := by
  induction L with
  | zero => simp
  | succ L ih =>
    rw [List.range_succ, List.foldl_append, Finset.sum_range_succ]
    simp only [List.foldl_cons, List.foldl_nil, addAt, ih]
    by_cases h : x = f L
    · rw [if_pos h, if_pos h.symm]; ring
    · rw [if_neg h, if_neg (fun h2 => h h2.symm)]; ring

/-- What row `i` adds to vertex `x`. -/
noncomputable def contrib (N : ℕ) (indptr indices : ℕ → ℕ) (weights meas : ℕ → ℝ) (absorb : Bool)
    (x i : ℕ) : ℝ :=
  if indptr i = indptr (i + 1) then
    (if absorb then 0 else if x < N then meas i / N else 0)
  else ∑ k ∈ Ico (indptr i) (indptr (i + 1)), if indices k = x then weights k * meas i else 0

theorem propagateRow_at (N : ℕ) (indptr indices : ℕ → ℕ) (weights meas : ℕ → ℝ)
    (absorb : Bool) (update : ℕ → ℝ) (i x : ℕ) :
    propagateRow N indptr indices weights meas absorb update i x
      = update x + contrib N indptr indices weights meas absorb x i := by
  unfold propagateRow contrib
  by_cases h : indptr i = indptr (i + 1)
  · rw [if_pos h, if_pos h]
    cases absorb with
    | true => simp
    | false =>
      rw [if_pos (by rfl), if_neg (by simp), foldl_addAt (fun k => k) (fun _ => meas i / N)]
      congr 1
      by_cases hx : x < N
      · rw [if_pos hx, Finset.sum_eq_single x]
        · simp
        · intro k _ hk; simp [hk]
        · simp [hx]
      · rw [if_neg hx]
        refine Finset.sum_eq_zero (fun k hk => ?_)
        rw [if_neg]
        rintro rfl
        exact hx (mem_range.1 hk)
  · rw [if_neg h, if_neg h, foldl_addAt (fun k => indices (indptr i + k))
      (fun k => weights (indptr i + k) * meas i), Finset.sum_Ico_eq_sum_range]

theorem propagate_at (rows N : ℕ) (indptr indices : ℕ → ℕ) (weights meas : ℕ → ℝ)
    (absorb : Bool) (x : ℕ) :
    propagate_measure rows N indptr indices weights meas absorb x
      = ∑ i ∈ range rows, contrib N indptr indices weights meas absorb x i := by
  unfold propagate_measure
  induction rows with
  | zero => simp
  | succ r ih =>
    rw [List.range_succ, List.foldl_append, Finset.sum_range_succ, List.foldl_cons, List.foldl_nil,
      propagateRow_at, ih]

theorem Csr.Valid.mono_le {c : Csr} (h : c.Valid) {i j : ℕ} (hij : i ≤ j) (hj : j ≤ c.n) :
    c.indptr i ≤ c.indptr j := by
  induction j, hij using Nat.le_induction with
  | base => exact le_refl _
  | succ j hij ih => exact (ih (by omega)).trans (h.mono j (by omega))

theorem normaliseRow_at (c : Csr) (w : ℕ → ℝ) (i k : ℕ) :
    normaliseRow c w i k = if c.indptr i = c.indptr (i + 1) then w k
      else if c.indptr i ≤ k ∧ k < c.indptr (i + 1) then
        c.dt.cast (c.data k / ∑ l ∈ Ico (c.indptr i) (c.indptr (i + 1)), c.data l) else w k := by
  unfold normaliseRow
  by_cases h : c.indptr i = c.indptr (i + 1)
  · simp only [h, if_true]
  · simp only [h, if_false]

theorem normalise_at {c : Csr} (h : c.Valid) {i k : ℕ} (hi : i < c.n)
    (hk : k ∈ Ico (c.indptr i) (c.indptr (i + 1))) :
    normalise_rows c k
      = c.dt.cast (c.data k / ∑ l ∈ Ico (c.indptr i) (c.indptr (i + 1)), c.data l) := by
  rw [mem_Ico] at hk
  have key : ∀ t, t ≤ c.n → i < t →
      (List.range t).foldl (normaliseRow c) (fun _ => 0) k
        = c.dt.cast (c.data k / ∑ l ∈ Ico (c.indptr i) (c.indptr (i + 1)), c.data l) := by
    intro t
    induction t with
    | zero => intro _ h; omega
    | succ t ih =>
      intro ht hit
      rw [List.range_succ, List.foldl_append, List.foldl_cons, List.foldl_nil, normaliseRow_at]
      by_cases hti : t = i
      · subst hti
        rw [if_neg (by omega), if_pos hk]
      · have h1 : c.indptr (i + 1) ≤ c.indptr t := h.mono_le (by omega) (by omega)
        have h2 := ih (by omega) (by omega)
        split
        · exact h2
        · rw [if_neg (by omega)]
          exact h2
  exact key c.n (le_refl _) hi

/-! ## Entries and row sums -/

theorem Csr.Valid.entry_nonneg {c : Csr} (h : c.Valid) {i : ℕ} (hi : i < c.n) (j : ℕ) :
    0 ≤ c.entry i j := by
  refine Finset.sum_nonneg (fun k hk => ?_)
  split
  · exact (h.pos i hi k hk).le
  · exact le_refl _

theorem Csr.Valid.sum_entry {c : Csr} (h : c.Valid) {i : ℕ} (hi : i < c.n) :
    ∑ j ∈ range c.n, c.entry i j = ∑ k ∈ Ico (c.indptr i) (c.indptr (i + 1)), c.data k := by
  unfold Csr.entry
  rw [Finset.sum_comm]
  refine Finset.sum_congr rfl (fun k hk => ?_)
  rw [Finset.sum_eq_single (c.indices k)]
  · simp
  · intro j _ hj
    rw [if_neg (fun h2 => hj h2.symm)]
  · intro h2
    exact absurd (mem_range.2 (h.bound i hi k hk)) h2

theorem Csr.Valid.sum_eq_zero_iff {c : Csr} (h : c.Valid) {i : ℕ} (hi : i < c.n) :
    ∑ j ∈ range c.n, c.entry i j = 0 ↔ c.indptr i = c.indptr (i + 1) := by
  rw [h.sum_entry hi]
  constructor
  · intro h0
    by_contra hne
    have hlt : c.indptr i < c.indptr (i + 1) := lt_of_le_of_ne (h.mono i hi) hne
    have : 0 < ∑ k ∈ Ico (c.indptr i) (c.indptr (i + 1)), c.data k :=
      Finset.sum_pos (fun k hk => h.pos i hi k hk) ⟨c.indptr i, by simp [hlt]⟩
    exact this.ne' h0
  · intro he
    rw [he]; simp

/-- Values survive the assignment to the new array: floats always, other dtypes when every row has
at most one value. -/
def Csr.Keeps (c : Csr) : Prop := c.dt = .float ∨ ∀ i < c.n, c.indptr (i + 1) ≤ c.indptr i + 1

theorem cast_one (d : Dt) : d.cast 1 = 1 := by
  cases d <;> simp [Dt.cast]

theorem normalise_keeps {c : Csr} (h : c.Valid) (hd : c.Keeps) {i k : ℕ} (hi : i < c.n)
    (hk : k ∈ Ico (c.indptr i) (c.indptr (i + 1))) :
    normalise_rows c k = c.data k / ∑ j ∈ range c.n, c.entry i j := by
  rw [normalise_at h hi hk, h.sum_entry hi]
  rcases hd with hd | hd
  · rw [hd]; rfl
  · have h1 := hd i hi
    have hk' := mem_Ico.1 hk
    have h2 : Ico (c.indptr i) (c.indptr (i + 1)) = {k} := by
      ext l; simp only [mem_Ico, mem_singleton]; omega
    rw [h2, Finset.sum_singleton, div_self (h.pos i hi k hk).ne', cast_one]

/-- `propagate_measure` with normalised weights is a step of the walk. -/
theorem propagate_walk {c : Csr} (h : c.Valid) (hd : c.Keeps) (v : ℕ → ℝ) (absorb : Bool) {j : ℕ}
    (hj : j < c.n) :
    propagate_measure c.n c.n c.indptr c.indices (normalise_rows c) v absorb j
      = walk c.n c.entry absorb v j := by
  rw [propagate_at]
  unfold walk
  refine Finset.sum_congr rfl (fun i hi => ?_)
  have hi' := mem_range.1 hi
  unfold contrib trans
  by_cases h0 : c.indptr i = c.indptr (i + 1)
  · rw [if_pos h0, if_pos ((h.sum_eq_zero_iff hi').2 h0)]
    cases absorb with
    | true => simp
    | false => simp [hj, div_eq_mul_inv]
  · rw [if_neg h0, if_neg (fun h2 => h0 ((h.sum_eq_zero_iff hi').1 h2))]
    conv_rhs => rw [Csr.entry]
    rw [Finset.sum_div, Finset.mul_sum]
    refine Finset.sum_congr rfl (fun k hk => ?_)
    split
    · rw [normalise_keeps h hd hi' hk]; ring
    · simp

/-! ## The walk -/

section
variable {N : ℕ} {A : ℕ → ℕ → ℝ} {absorb : Bool}

theorem trans_nonneg (hA : ∀ i < N, ∀ j, 0 ≤ A i j) {i : ℕ} (hi : i < N) (j : ℕ) :
    0 ≤ trans N A absorb i j := by
  unfold trans
  split
  · split
    · exact le_refl _
    · positivity
  · exact div_nonneg (hA i hi j) (Finset.sum_nonneg (fun k _ => hA i hi k))

theorem sum_trans (i : ℕ) :
    ∑ j ∈ range N, trans N A absorb i j
      = if absorb ∧ ∑ k ∈ range N, A i k = 0 ∨ N = 0 then 0 else 1 := by
  rcases Nat.eq_zero_or_pos N with h0 | h0
  · subst h0; simp
  have hN : (N : ℝ) ≠ 0 := by positivity
  have hN' : N ≠ 0 := h0.ne'
  unfold trans
  by_cases h : ∑ k ∈ range N, A i k = 0
  · cases absorb with
    | true => simp [h]
    | false => simp [h, hN, hN']
  · simp only [h, if_false]
    rw [← Finset.sum_div, div_self h]
    simp [hN']

theorem walk_nonneg (hA : ∀ i < N, ∀ j, 0 ≤ A i j) {v : ℕ → ℝ} (hv : ∀ i < N, 0 ≤ v i) (j : ℕ) :
    0 ≤ walk N A absorb v j :=
  Finset.sum_nonneg (fun i hi => mul_nonneg (hv i (mem_range.1 hi))
    (trans_nonneg hA (mem_range.1 hi) j))

theorem sum_walk (v : ℕ → ℝ) :
    ∑ j ∈ range N, walk N A absorb v j
      = ∑ i ∈ range N, v i * ∑ j ∈ range N, trans N A absorb i j := by
  unfold walk
  rw [Finset.sum_comm]
  exact Finset.sum_congr rfl (fun i _ => (Finset.mul_sum _ _ _).symm)

theorem sum_walk_false (v : ℕ → ℝ) :
    ∑ j ∈ range N, walk N A false v j = ∑ i ∈ range N, v i := by
  rw [sum_walk]
  refine Finset.sum_congr rfl (fun i hi => ?_)
  rw [sum_trans, if_neg, mul_one]
  have := mem_range.1 hi
  simp; omega

theorem walk_sub (v w : ℕ → ℝ) (j : ℕ) :
    walk N A absorb v j - walk N A absorb w j = walk N A absorb (fun i => v i - w i) j := by
  unfold walk
  rw [← Finset.sum_sub_distrib]
  exact Finset.sum_congr rfl (fun i _ => by ring)

theorem walk_congr {v w : ℕ → ℝ} (h : ∀ i < N, v i = w i) (j : ℕ) :
    walk N A absorb v j = walk N A absorb w j :=
  Finset.sum_congr rfl (fun i hi => by rw [h i (mem_range.1 hi)])

/-- The walk does not increase the total variation. -/
theorem abs_walk (hA : ∀ i < N, ∀ j, 0 ≤ A i j) (v : ℕ → ℝ) :
    ∑ j ∈ range N, |walk N A absorb v j| ≤ ∑ i ∈ range N, |v i| := by
  calc ∑ j ∈ range N, |walk N A absorb v j|
      ≤ ∑ j ∈ range N, ∑ i ∈ range N, |v i| * trans N A absorb i j := by
        refine Finset.sum_le_sum (fun j _ => (Finset.abs_sum_le_sum_abs _ _).trans_eq ?_)
        refine Finset.sum_congr rfl (fun i hi => ?_)
        rw [abs_mul, abs_of_nonneg (trans_nonneg hA (mem_range.1 hi) j)]
    _ = ∑ i ∈ range N, |v i| * ∑ j ∈ range N, trans N A absorb i j := by
        rw [Finset.sum_comm]
        exact Finset.sum_congr rfl (fun i _ => (Finset.mul_sum _ _ _).symm)
    _ ≤ ∑ i ∈ range N, |v i| := by
        refine Finset.sum_le_sum (fun i _ => mul_le_of_le_one_right (abs_nonneg _) ?_)
        rw [sum_trans]
        split <;> norm_num

end

/-! ## Acyclic graphs -/

/-- A step that moves values along links only: its iterates vanish after `N` steps when there is no
cycle. -/
theorem vanish {N : ℕ} {R : ℕ → ℕ → Prop} (hR : ∀ i j, R i j → i < N ∧ j < N)
    (hac : ∀ i, ¬ Relation.TransGen R i i) (F : (ℕ → ℝ) → ℕ → ℝ)
    (hF : ∀ v j, F v j ≠ 0 → j < N → ∃ i, R i j ∧ v i ≠ 0) (v : ℕ → ℝ) {k : ℕ} (hk : N ≤ k) {j : ℕ}
    (hj : j < N) : F^[k] v j = 0 := by
  by_contra hne
  have chain : ∀ k j, j < N → F^[k] v j ≠ 0 → ∃ p : ℕ → ℕ, p k = j ∧ ∀ t < k, R (p t) (p (t + 1)) := by
    intro k
    induction k with
    | zero => intro j _ _; exact ⟨fun _ => j, rfl, fun t ht => by omega⟩
    | succ k ih =>
      intro j hj hne
      rw [Function.iterate_succ_apply'] at hne
      obtain ⟨i, hij, hi⟩ := hF _ j hne hj
      obtain ⟨p, hp, hlink⟩ := ih i (hR i j hij).1 hi
      refine ⟨fun t => if t ≤ k then p t else j, by simp, fun t ht => ?_⟩
      rcases Nat.lt_or_ge t k with h | h
      · have := hlink t h
        simpa [h.le, Nat.succ_le_of_lt h] using this
      · have : t = k := by omega
        subst this
        simpa [hp] using hij
  obtain ⟨p, hp, hlink⟩ := chain k j hj hne
  have hlt : ∀ t ≤ k, p t < N := by
    intro t ht
    rcases Nat.lt_or_ge t k with h | h
    · exact (hR _ _ (hlink t h)).1
    · have : t = k := by omega
      rw [this, hp]; exact hj
  obtain ⟨s, hs, t, ht, hst, he⟩ := Finset.exists_ne_map_eq_of_card_lt_of_maps_to
    (s := range (k + 1)) (t := range N) (f := p) (by simp; omega)
    (fun t ht => by
      have := Finset.mem_range.1 ht
      exact mem_range.2 (hlt t (by omega)))
  have path : ∀ a b, a < b → b ≤ k → Relation.TransGen R (p a) (p b) := by
    intro a b hab
    induction b, hab using Nat.le_induction with
    | base => intro hb; exact Relation.TransGen.single (hlink a (by omega))
    | succ b hab ih => intro hb; exact (ih (by omega)).tail (hlink b (by omega))
  rw [mem_range] at hs ht
  rcases lt_or_gt_of_ne hst with h | h
  · have := path s t h (by omega)
    rw [he] at this
    exact hac _ this
  · have := path t s h (by omega)
    rw [he] at this
    exact hac _ this

/-! ## The iteration -/

/-- The iteration returns some iterate; if it reports convergence the last change was small. -/
theorem iterate_spec (N : ℕ) (step : (ℕ → ℝ) → ℕ → ℝ) (tol : ℝ) (m : ℕ) (r : ℕ → ℝ) :
    ∃ k ≤ m, (iterate N step tol m r).value = step^[k] r ∧
      ((iterate N step tol m r).converged = false → k = m ∧
        ∀ t < m, ¬ ∀ i < N, |step^[t + 1] r i - step^[t] r i| < tol) ∧
      ((iterate N step tol m r).converged = true → ∃ t, k = t + 1 ∧
        ∀ i < N, |step^[t + 1] r i - step^[t] r i| < tol) := by
  induction m generalizing r with
  | zero => exact ⟨0, le_refl _, rfl, fun _ => ⟨rfl, fun t ht => by omega⟩, fun h => by simp [iterate] at h⟩
  | succ m ih =>
    unfold iterate
    dsimp only
    by_cases h : ∀ i ∈ range N, |step r i - r i| < tol
    · rw [if_pos h]
      refine ⟨1, by omega, rfl, fun h2 => by simp at h2, fun _ => ⟨0, rfl, fun i hi => ?_⟩⟩
      exact h i (mem_range.2 hi)
    · rw [if_neg h]
      obtain ⟨k, hk, hv, hf, ht⟩ := ih (step r)
      refine ⟨k + 1, by omega, ?_, fun hc => ?_, fun hc => ?_⟩
      · rw [hv]; rfl
      · obtain ⟨h1, h2⟩ := hf hc
        refine ⟨by omega, fun t ht2 => ?_⟩
        cases t with
        | zero => intro h3; exact h (fun i hi => h3 i (mem_range.1 hi))
        | succ t => exact h2 t (by omega)
      · obtain ⟨t, h1, h2⟩ := ht hc
        exact ⟨t + 1, by omega, h2⟩

end Verif.Lib
