import Verif.Graph.Query
import Verif.Graph.Props
import Mathlib.Tactic.NormNum
import Mathlib.Algebra.Order.BigOperators.Ring.Finset

/-!
# Properties C26 and C29
-/

namespace Verif

open Finset

noncomputable section

namespace Graph

/-! ### C26 -/

/-- **C26**: the number of bytes is a power of two `b` with `n < 256 ^ b`, so every index (and `n`
itself) is representable, and no smaller power of two would be enough for the values `0..n`. -/
theorem C26 (n : ℕ) : ∃ k : ℕ, get_num_bytes n = 2 ^ k ∧ n < 256 ^ (2 ^ k) ∧
    (0 < k → 256 ^ (2 ^ (k - 1)) ≤ n) := by
  by_cases h0 : n = 0
  · subst h0
    refine ⟨0, ?_, by norm_num, by simp⟩
    unfold get_num_bytes
    simp
  set x : ℝ := Real.logb 2 ((n : ℝ) + 1) with hx
  have hn1 : (1 : ℝ) ≤ n := by exact_mod_cast Nat.one_le_iff_ne_zero.mpr h0
  have hx1 : 1 ≤ x := by
    rw [hx, Real.le_logb_iff_rpow_le (by norm_num) (by linarith)]
    simp; linarith
  set y : ℝ := Real.logb 2 (x / 8) with hy
  set m : ℤ := ⌈y⌉ with hm
  have hxy : x = 8 * (2 : ℝ) ^ y := by
    rw [hy, Real.rpow_logb (by norm_num) (by norm_num) (by linarith)]; ring
  have hnx : (n : ℝ) + 1 = (2 : ℝ) ^ x := by
    rw [hx, Real.rpow_logb (by norm_num) (by norm_num) (by linarith)]
  have hpow : ∀ k : ℕ, (2 : ℝ) ^ (8 * (2 : ℝ) ^ (k : ℝ)) = ((256 ^ (2 ^ k) : ℕ) : ℝ) := by
    intro k
    rw [Real.rpow_natCast, Real.rpow_mul (by norm_num)]
    have h1 : ((2 : ℝ) ^ (8 : ℝ)) = 256 := by
      rw [show (8 : ℝ) = ((8 : ℕ) : ℝ) by norm_num, Real.rpow_natCast]; norm_num
    rw [h1]
    have h2 : ((2 : ℝ) ^ k) = ((2 ^ k : ℕ) : ℝ) := by push_cast; rfl
    rw [h2, Real.rpow_natCast]
    push_cast
    rfl
  have hval : get_num_bytes n = ⌊max ((2 : ℝ) ^ m) 1⌋ := by
    unfold get_num_bytes
    simp only [if_neg h0]
    rfl
  by_cases hneg : m ≤ 0
  · refine ⟨0, ?_, ?_, by simp⟩
    · rw [hval, max_eq_right]
      · simp
      · exact zpow_le_one_of_nonpos₀ (by norm_num) hneg
    · have hy0 : y ≤ 0 := by
        have := Int.le_ceil y
        have h2 : (⌈y⌉ : ℝ) ≤ 0 := by exact_mod_cast hneg
        linarith
      have h3 : (2 : ℝ) ^ y ≤ 1 := by
        have := Real.rpow_le_rpow_of_exponent_le (x := 2) (by norm_num) hy0
        simpa using this
      have h4 : (n : ℝ) + 1 ≤ 2 ^ (8 : ℝ) := by
        rw [hnx]
        exact Real.rpow_le_rpow_of_exponent_le (by norm_num) (by rw [hxy]; linarith)
      have h5 : ((2 : ℝ) ^ (8 : ℝ)) = 256 := by
        rw [show (8 : ℝ) = ((8 : ℕ) : ℝ) by norm_num, Real.rpow_natCast]; norm_num
      rw [h5] at h4
      have : (n : ℝ) < 256 := by linarith
      simpa using (by exact_mod_cast this : n < 256)
  · push Not at hneg
    obtain ⟨k, hk⟩ := Int.eq_ofNat_of_zero_le hneg.le
    have hk0 : 0 < k := by
      have : (0 : ℤ) < (k : ℤ) := by rw [← hk]; exact hneg
      exact_mod_cast this
    refine ⟨k, ?_, ?_, ?_⟩
    · rw [hval, max_eq_left]
      · rw [hk, zpow_natCast]
        have : ((2 : ℝ) ^ k) = ((2 ^ k : ℤ) : ℝ) := by push_cast; rfl
        rw [this, Int.floor_intCast]
      · exact one_le_zpow₀ (by norm_num) hneg.le
    · have hyk : y ≤ (k : ℝ) := by
        have h1 := Int.le_ceil y
        have h2 : (⌈y⌉ : ℝ) = (k : ℝ) := by
          have : ⌈y⌉ = (k : ℤ) := hk
          rw [this]; simp
        linarith
      have h4 : (n : ℝ) + 1 ≤ 2 ^ (8 * (2 : ℝ) ^ (k : ℝ)) := by
        rw [hnx, hxy]
        refine Real.rpow_le_rpow_of_exponent_le (by norm_num) ?_
        have := Real.rpow_le_rpow_of_exponent_le (x := 2) (by norm_num) hyk
        linarith
      rw [hpow] at h4
      have h5 : n + 1 ≤ 256 ^ (2 ^ k) := by exact_mod_cast h4
      omega
    · intro _
      have hyk : ((k - 1 : ℕ) : ℝ) < y := by
        have h1 : ⌈y⌉ = (k : ℤ) := hk
        have h2 := Int.ceil_lt_add_one y
        rw [h1] at h2
        have h3 : ((k : ℤ) : ℝ) = ((k - 1 : ℕ) : ℝ) + 1 := by
          rw [Nat.cast_sub hk0]; simp
        rw [h3] at h2
        linarith
      have h4 : (2 : ℝ) ^ (8 * (2 : ℝ) ^ ((k - 1 : ℕ) : ℝ)) < (n : ℝ) + 1 := by
        rw [hnx, hxy]
        refine Real.rpow_lt_rpow_of_exponent_lt (by norm_num) ?_
        have := Real.rpow_lt_rpow_of_exponent_lt (x := 2) (by norm_num) hyk
        linarith
      rw [hpow] at h4
      have h5 : 256 ^ (2 ^ (k - 1)) < n + 1 := by exact_mod_cast h4
      omega

/-- **C26**: the dtype exists exactly for counts below `2 ^ 64`. -/
theorem C26_valid (n : ℕ) : validDtype (get_num_bytes n) ↔ n < 2 ^ 64 := by
  obtain ⟨k, hk, h1, h2⟩ := C26 n
  unfold validDtype
  rw [hk]
  constructor
  · intro h
    have hk3 : k ≤ 3 := by
      by_contra hc
      have : (2 : ℤ) ^ 4 ≤ 2 ^ k := pow_le_pow_right₀ (by norm_num) (by omega)
      norm_num at this
      omega
    calc n < 256 ^ (2 ^ k) := h1
      _ ≤ 256 ^ (2 ^ 3) := Nat.pow_le_pow_right (by norm_num) (Nat.pow_le_pow_right (by norm_num) hk3)
      _ = 2 ^ 64 := by norm_num
  · intro h
    have hk3 : k ≤ 3 := by
      by_contra hc
      have h3 := h2 (by omega)
      have : 256 ^ (2 ^ 3) ≤ 256 ^ (2 ^ (k - 1)) :=
        Nat.pow_le_pow_right (by norm_num) (Nat.pow_le_pow_right (by norm_num) (by omega))
      norm_num at this
      norm_num at h
      omega
    have : k = 0 ∨ k = 1 ∨ k = 2 ∨ k = 3 := by omega
    rcases this with rfl | rfl | rfl | rfl <;> norm_num

/-- The boundaries: 255 items still fit in one byte, 256 need two. -/
example : get_num_bytes 255 = 1 ∧ get_num_bytes 256 = 2 := by
  constructor
  · obtain ⟨k, hk, h1, h2⟩ := C26 255
    have : k = 0 := by
      by_contra hc
      have h3 := h2 (by omega)
      have : 256 ^ 1 ≤ 256 ^ (2 ^ (k - 1)) := Nat.pow_le_pow_right (by norm_num) Nat.one_le_two_pow
      omega
    subst this; rw [hk]; norm_num
  · obtain ⟨k, hk, h1, h2⟩ := C26 256
    have h3 : k ≠ 0 := by rintro rfl; norm_num at h1
    have : k = 1 := by
      by_contra hc
      have h4 := h2 (by omega)
      have : 256 ^ (2 ^ 1) ≤ 256 ^ (2 ^ (k - 1)) :=
        Nat.pow_le_pow_right (by norm_num) (Nat.pow_le_pow_right (by norm_num) (by omega))
      norm_num at this
      omega
    subst this; rw [hk]; norm_num

/-! ### C29 -/

/-- `j` is a successor of `i`, a predecessor, or one of the two. -/
def isNbr (g : DiG) (ndir : Dir) (i j : ℕ) : Bool :=
  match ndir with
  | .out => g.adj i j
  | .inn => g.adj j i
  | _ => g.adj i j || g.adj j i

/-- Neighbourhood of `i`: successors, predecessors or both; `i` itself only with self loops. -/
def nbrs (g : DiG) (ndir : Dir) (selfloops : Bool) (i : ℕ) : Finset ℕ :=
  (range g.n).filter (fun j => (selfloops = true ∨ j ≠ i) ∧ isNbr g ndir i j = true)

/-- Mean of a function over a finite set, zero for the empty set. -/
def meanOver (S : Finset ℕ) (f : ℕ → ℝ) : ℝ := (∑ j ∈ S, f j) / S.card

/-- Rows of the matrix used for a direction. -/
def rowOf (g : DiG) : Dir → ℕ → ℕ → Bool
  | .out => g.adj
  | .inn => fun i j => g.adj j i
  | _ => orT g.adj

theorem nnSum_sparse (n : ℕ) (a : Dense.NArr) (prop : ℕ → ℝ) (sl : Bool) (i : ℕ) :
    nnSum .sparse n a prop sl i =
      ∑ j ∈ (range n).filter (fun j => a.val i j = true ∧ (sl = true ∨ j ≠ i)), prop j := by
  unfold nnSum Sparse.av_nn_prop Sparse.csrRow
  simp only
  rw [List.foldl_map]
  have key : ∀ l : List ℕ, ∀ x : ℝ,
      (l.filter (fun j => Dtype.nz (a.val i j))).foldl
        (fun res j => if (decide (i ≠ j) || sl) then res + prop j else res) x =
      x + ((l.filter (fun j => a.val i j = true ∧ (sl = true ∨ j ≠ i))).map prop).sum := by
    intro l
    induction l with
    | nil => intro x; simp
    | cons j l ih =>
      intro x
      rw [List.filter_cons, List.filter_cons]
      by_cases hj : a.val i j = true
      · have hnz : Dtype.nz (a.val i j) = true := hj
        rw [if_pos hnz, List.foldl_cons, ih]
        by_cases hc : sl = true ∨ j ≠ i
        · have c1 : (decide (i ≠ j) || sl) = true := by
            rcases hc with h | h
            · simp [h]
            · simp [Ne.symm h]
          rw [if_pos c1, if_pos (by simpa using ⟨hj, hc⟩), List.map_cons, List.sum_cons]
          ring
        · push Not at hc
          have c1 : ¬ (decide (i ≠ j) || sl) = true := by
            simp [hc.2, hc.1]
          rw [if_neg c1, if_neg (by simp [hc.2, hc.1])]
      · have hnz : ¬ Dtype.nz (a.val i j) = true := hj
        rw [if_neg hnz, if_neg (by simp [hj]), ih]
  rw [key (List.range n) 0, zero_add]
  clear key
  induction n with
  | zero => simp
  | succ n ih =>
    rw [List.range_succ, List.filter_append, List.map_append, List.sum_append, ih,
      Finset.range_add_one, Finset.filter_insert]
    by_cases hc : a.val i n = true ∧ (sl = true ∨ n ≠ i)
    · rw [if_pos hc, Finset.sum_insert (by simp)]
      simp only [List.filter_cons, List.filter_nil]
      rw [if_pos (by simpa using hc)]
      simp [add_comm]
    · rw [if_neg hc]
      simp only [List.filter_cons, List.filter_nil]
      rw [if_neg (by simpa using hc)]
      simp

theorem nnSum_dense (n : ℕ) (a : Dense.NArr) (prop : ℕ → ℝ) (sl : Bool) {i : ℕ} :
    nnSum .dense n a prop sl i =
      ∑ j ∈ (range n).filter (fun j => a.val i j = true ∧
        (sl = true ∨ a.contiguous = false ∨ j ≠ i)), prop j := by
  unfold nnSum Dense.av_nn_prop
  simp only
  rw [Finset.sum_filter]
  refine Finset.sum_congr rfl (fun j hj => ?_)
  have hj' := Finset.mem_range.mp hj
  by_cases hc : (!sl && a.contiguous) = true
  · rw [if_pos hc, pyRange_diag, List.map_map]
    have := flatSets_diag n a.val (fun _ => false) n le_rfl i j hj'
    rw [show ((fun p => (p, false)) ∘ fun k => k * (n + 1)) = fun k => (k * (n + 1), false) from rfl,
      this]
    simp only [Bool.and_eq_true, Bool.not_eq_true'] at hc
    by_cases hij : i = j
    · subst hij
      simp [hj', hc.1, hc.2, Dtype.num]
    · have hji : j ≠ i := fun h => hij h.symm
      cases hv : a.val i j <;> simp [hij, hji, Dtype.num]
  · rw [if_neg hc]
    have hc' : sl = true ∨ a.contiguous = false := by
      cases sl <;> cases hcc : a.contiguous <;> simp_all
    cases hv : a.val i j
    · simp [Dtype.num]
    · rcases hc' with h | h <;> simp [h, Dtype.num]

theorem deg_card (n : ℕ) (B : Mat Bool) (i : ℕ) :
    rowSums n B i = ((range n).filter (fun j => B i j = true)).card := by
  unfold rowSums sum1
  have : ∀ j, (Dtype.num (B i j) : ℝ) = if B i j = true then 1 else 0 := fun j => rfl
  simp only [this]
  rw [← Finset.sum_filter, Finset.sum_const, nsmul_eq_mul, mul_one]

theorem deg_row (g : DiG) {ndir : Dir} (hd : ndir = .out ∨ ndir = .inn ∨ ndir = .both) :
    g.deg ndir = .ok (fun i => (((range g.n).filter (fun j => rowOf g ndir i j = true)).card : ℝ)) := by
  rcases hd with rfl | rfl | rfl
  · simp only [DiG.deg, rowOf]
    congr 1; funext i; exact deg_card g.n g.adj i
  · simp only [DiG.deg, rowOf]
    congr 1; funext i; exact deg_card g.n (fun i j => g.adj j i) i
  · simp only [DiG.deg, rowOf]
    congr 1; funext i
    refine Eq.trans ?_ (deg_card g.n (orT g.adj) i)
    unfold colSums sum0 rowSums sum1
    refine Finset.sum_congr rfl (fun j _ => ?_)
    unfold orT
    rw [Bool.or_comm]

theorem nbr_row (g : DiG) {ndir : Dir} (hd : ndir = .out ∨ ndir = .inn ∨ ndir = .both) :
    ∃ a, g.nbr ndir = .ok a ∧ a.val = rowOf g ndir ∧ (ndir ≠ .inn → a.contiguous = true) := by
  rcases hd with rfl | rfl | rfl
  · exact ⟨_, rfl, rfl, fun _ => rfl⟩
  · exact ⟨_, rfl, rfl, fun h => absurd rfl h⟩
  · exact ⟨_, rfl, rfl, fun _ => rfl⟩

theorem nbrs_row (g : DiG) {ndir : Dir} (hd : ndir = .out ∨ ndir = .inn ∨ ndir = .both)
    (sl : Bool) (i : ℕ) :
    nbrs g ndir sl i = (range g.n).filter (fun j => rowOf g ndir i j = true ∧ (sl = true ∨ j ≠ i)) := by
  unfold nbrs
  refine Finset.filter_congr (fun j _ => ?_)
  rcases hd with rfl | rfl | rfl <;> exact and_comm

/-- What the method returns, whatever the self loops: the sum over the neighbourhood divided by
the degree, which counts self loops.  It never fails for the documented arguments.  The dense
method for `"in"` keeps the diagonal unless there is at most one vertex. -/
theorem average_nn_value (b : Backend) (g : DiG) (prop : ℕ → ℝ) {ndir : Dir}
    (hd : ndir = .out ∨ ndir = .inn ∨ ndir = .both) (sl : Bool) :
    ∃ r, average_nn_property b g prop ndir (some sl) = .ok r ∧ ∀ i,
      ∃ keep : Bool, (keep = true → sl = true ∨ (b = .dense ∧ ndir = .inn)) ∧ (sl = true → keep = true) ∧
      r i = (∑ j ∈ nbrs g ndir keep i, prop j) / ((nbrs g ndir true i).card : ℝ) := by
  obtain ⟨a, ha, hval, hcont⟩ := nbr_row g hd
  have hdeg := deg_row g hd
  have hsum : ∀ i, ∃ keep : Bool, (keep = true → sl = true ∨ (b = .dense ∧ ndir = .inn)) ∧
      (sl = true → keep = true) ∧ nnSum b g.n a prop sl i = ∑ j ∈ nbrs g ndir keep i, prop j := by
    intro i
    cases b with
    | sparse =>
      refine ⟨sl, fun h => Or.inl h, fun h => h, ?_⟩
      rw [nnSum_sparse, nbrs_row g hd, hval]
    | dense =>
      refine ⟨sl || !a.contiguous, ?_, ?_, ?_⟩
      · intro h
        by_cases hs : sl = true
        · exact Or.inl hs
        · right
          refine ⟨rfl, ?_⟩
          by_contra hni
          have := hcont hni
          simp [this, hs] at h
      · intro h; simp [h]
      · rw [nnSum_dense, nbrs_row g hd, hval]
        refine Finset.sum_congr (Finset.filter_congr (fun j _ => ?_)) (fun _ _ => rfl)
        cases sl <;> cases a.contiguous <;> simp
  have hfull : ∀ i, (range g.n).filter (fun j => rowOf g ndir i j = true) = nbrs g ndir true i := by
    intro i
    rw [nbrs_row g hd]
    simp
  have hmask : ∀ i < g.n, (((range g.n).filter (fun j => rowOf g ndir i j = true)).card : ℝ) = 0 →
      nnSum b g.n a prop sl i = 0 := by
    intro i _ h0
    obtain ⟨keep, _, _, hk⟩ := hsum i
    rw [hk]
    have h1 : nbrs g ndir true i = ∅ := by
      rw [← hfull i]
      exact Finset.card_eq_zero.mp (by exact_mod_cast h0)
    have h2 : nbrs g ndir keep i ⊆ nbrs g ndir true i := by
      rw [nbrs_row g hd, nbrs_row g hd]
      intro j hj
      simp only [Finset.mem_filter] at hj ⊢
      exact ⟨hj.1, hj.2.1, Or.inl trivial⟩
    rw [h1] at h2
    rw [Finset.subset_empty.mp h2, Finset.sum_empty]
  refine ⟨fun i => if (((range g.n).filter (fun j => rowOf g ndir i j = true)).card : ℝ) ≠ 0 then
    nnSum b g.n a prop sl i / (((range g.n).filter (fun j => rowOf g ndir i j = true)).card : ℝ)
    else nnSum b g.n a prop sl i, ?_, ?_⟩
  · unfold average_nn_property
    simp only [hdeg, ha]
    unfold average
    rw [if_pos hmask]
  · intro i
    obtain ⟨keep, h1, h2, h3⟩ := hsum i
    refine ⟨keep, h1, h2, ?_⟩
    simp only [h3, hfull i]
    by_cases hc : ((nbrs g ndir true i).card : ℝ) = 0
    · have h4 : nbrs g ndir true i = ∅ := Finset.card_eq_zero.mp (by exact_mod_cast hc)
      have h5 : nbrs g ndir keep i ⊆ nbrs g ndir true i := by
        rw [nbrs_row g hd, nbrs_row g hd]
        intro j hj
        simp only [Finset.mem_filter] at hj ⊢
        exact ⟨hj.1, hj.2.1, Or.inl trivial⟩
      rw [h4] at h5
      rw [Finset.subset_empty.mp h5, h4]
      simp
    · rw [if_pos hc]

theorem nbrs_noloop (g : DiG) {ndir : Dir} (hd : ndir = .out ∨ ndir = .inn ∨ ndir = .both)
    {i : ℕ} (h : g.adj i i = false) (k k' : Bool) : nbrs g ndir k i = nbrs g ndir k' i := by
  have key : ∀ k, nbrs g ndir k i = (range g.n).filter (fun j => rowOf g ndir i j = true) := by
    intro k
    rw [nbrs_row g hd]
    refine Finset.filter_congr (fun j _ => ?_)
    constructor
    · exact fun h => h.1
    · intro hj
      refine ⟨hj, Or.inr ?_⟩
      rintro rfl
      rcases hd with rfl | rfl | rfl <;> simp [rowOf, orT, h] at hj
  rw [key, key]

/-- **C29**, values, both backends and all directions: the result is the mean of the property over
the neighbourhood, and lies between any bounds of the property on it.  Missing: `selfloops=False`
at a vertex that has a self loop, where the claim is false (`C29_selfloop_violated`). -/
theorem C29_mean_partial (b : Backend) (g : DiG) (prop : ℕ → ℝ) {ndir : Dir}
    (hd : ndir = .out ∨ ndir = .inn ∨ ndir = .both) (sl : Bool) :
    ∃ r, average_nn_property b g prop ndir (some sl) = .ok r ∧ ∀ i,
      (sl = true ∨ g.adj i i = false) →
      r i = meanOver (nbrs g ndir sl i) prop ∧
      ((nbrs g ndir sl i).Nonempty → ∀ lo hi, (∀ j ∈ nbrs g ndir sl i, lo ≤ prop j ∧ prop j ≤ hi) →
        lo ≤ r i ∧ r i ≤ hi) := by
  obtain ⟨r, hr, hv⟩ := average_nn_value b g prop hd sl
  refine ⟨r, hr, fun i hi => ?_⟩
  obtain ⟨keep, h1, h2, h3⟩ := hv i
  have hmean : r i = meanOver (nbrs g ndir sl i) prop := by
    rw [h3]
    unfold meanOver
    rcases hi with rfl | hi
    · rw [h2 rfl]
    · rw [nbrs_noloop g hd hi keep sl, nbrs_noloop g hd hi true sl]
  refine ⟨hmean, fun hne lo hi' hb => ?_⟩
  rw [hmean]
  unfold meanOver
  have hc : (0 : ℝ) < (nbrs g ndir sl i).card := by exact_mod_cast Finset.card_pos.mpr hne
  constructor
  · rw [le_div_iff₀ hc]
    have := Finset.card_nsmul_le_sum (nbrs g ndir sl i) prop lo (fun j hj => (hb j hj).1)
    rw [nsmul_eq_mul] at this
    linarith
  · rw [div_le_iff₀ hc]
    have := Finset.sum_le_card_nsmul (nbrs g ndir sl i) prop hi' (fun j hj => (hb j hj).2)
    rw [nsmul_eq_mul] at this
    linarith

/-- **C29**, unknown directions and `selfloops=None` are rejected. -/
theorem C29_errors (b : Backend) (g : DiG) (prop : ℕ → ℝ) (ndir : Dir) (sl : Option Bool) :
    (sl = none → average_nn_property b g prop ndir sl = .error .attribute) ∧
    (sl ≠ none → ndir = .underscored ∨ ndir = .other →
      average_nn_property b g prop ndir sl = .error .value) := by
  constructor
  · rintro rfl; rfl
  · intro h hd
    obtain ⟨s, rfl⟩ := Option.ne_none_iff_exists'.mp h
    rcases hd with rfl | rfl <;> rfl

/-- Two vertices, the link 0 → 1 and the self loop at 0. -/
def exG : DiG := ⟨2, fun i j => decide (i = 0 ∧ (j = 0 ∨ j = 1))⟩

/-- **C29** is violated with a self loop and `selfloops=False`: the mean of the constant property
one over the only neighbour is one, the method returns one half, in both backends. -/
theorem C29_selfloop_violated (b : Backend) :
    ∃ r, average_nn_property b exG (fun _ => 1) .out (some false) = .ok r ∧ r 0 = 1 / 2 ∧
      meanOver (nbrs exG .out false 0) (fun _ => 1) = 1 := by
  obtain ⟨r, hr, hv⟩ := average_nn_value b exG (fun _ => 1) (Or.inl rfl) false
  have e1 : nbrs exG .out false 0 = {1} := by decide
  have e2 : nbrs exG .out true 0 = {0, 1} := by decide
  obtain ⟨keep, h1, _, h3⟩ := hv 0
  have hk : keep = false := by
    by_contra h
    rcases h1 (by simpa using h) with h | h
    · cases h
    · cases h.2
  subst hk
  refine ⟨r, hr, ?_, ?_⟩
  · rw [h3, e1, e2]; norm_num
  · rw [e1]; simp [meanOver]

/-- **C29**, dense `ndir="in"`: the diagonal is cleared in a copy, so the vertex itself stays in
the average although `selfloops=False`, and the dense and the sparse result differ. -/
theorem C29_dense_in_violated :
    ∃ r r', average_nn_property .dense exG (fun _ => 1) .inn (some false) = .ok r ∧
      average_nn_property .sparse exG (fun _ => 1) .inn (some false) = .ok r' ∧
      nbrs exG .inn false 0 = ∅ ∧ r 0 = 1 ∧ r' 0 = 0 := by
  obtain ⟨r', hr', hv'⟩ := average_nn_value .sparse exG (fun _ => 1) (Or.inr (Or.inl rfl)) false
  have e0 : nbrs exG .inn false 0 = ∅ := by decide
  have e1 : nbrs exG .inn true 0 = {0} := by decide
  have hdeg := deg_row exG (ndir := .inn) (Or.inr (Or.inl rfl))
  obtain ⟨r, hr, hv⟩ := average_nn_value .dense exG (fun _ => 1) (Or.inr (Or.inl rfl)) false
  refine ⟨r, r', hr, hr', e0, ?_, ?_⟩
  · unfold average_nn_property at hr
    simp only [hdeg, DiG.nbr] at hr
    unfold average at hr
    split_ifs at hr with hm
    simp only [Except.ok.injEq] at hr
    have hs : nnSum .dense exG.n ⟨fun i j => exG.adj j i, decide (exG.n ≤ 1)⟩ (fun _ => 1) false 0 = 1 := by
      rw [nnSum_dense]
      have : (range exG.n).filter (fun j => exG.adj j 0 = true ∧
          (false = true ∨ decide (exG.n ≤ 1) = false ∨ j ≠ 0)) = {0} := by decide
      simp only
      rw [this]; simp
    have hd0 : (range exG.n).filter (fun j => rowOf exG .inn 0 j = true) = {0} := by decide
    rw [← hr]
    simp only [hs, hd0]
    norm_num
  · obtain ⟨keep, h1, _, h3⟩ := hv' 0
    have hk : keep = false := by
      by_contra h
      rcases h1 (by simpa using h) with h | h
      · cases h
      · cases h.1
    subst hk
    rw [h3, e0]; simp

/-- **C29**, queries: with `recompute=True` the value is the one for the arguments given, whatever
happened before. -/
theorem C29_recompute (b : Backend) (g : DiG) (c : Cache) (a : Args) (h : a.recompute = true) :
    (average_nn_degree b g c a).2 = compute b g a := by
  unfold average_nn_degree
  rw [h]
  cases c (a.ndir.key, a.ddir.key) <;> (cases compute b g a <;> rfl)

theorem key_inj {d d' : Dir} (h : d.key = d'.key) (hd : d ≠ .underscored) (hd' : d' ≠ .underscored) :
    d = d' := by
  cases d <;> cases d' <;> first | rfl | (exfalso; revert h; decide) | exact absurd rfl hd |
    exact absurd rfl hd'

/-- **C29**, query histories: the value returned is the one for the arguments given.  Missing:
histories that use different values of `selfloops` and those that use `"out_in"` for `"out-in"`,
for which the claim is false (`C29_history_violated`, `C29_key_violated`). -/
theorem C29_history_partial (b : Backend) (g : DiG) (l : List Args) (a : Args)
    (hsl : ∀ a' ∈ l, a'.selfloops = a.selfloops)
    (hdir : ∀ a' ∈ a :: l, a'.ndir ≠ .underscored ∧ a'.ddir ≠ .underscored) :
    (average_nn_degree b g (history b g l) a).2 = compute b g a := by
  have inv : ∀ l : List Args, (∀ a' ∈ l, a'.selfloops = a.selfloops) →
      (∀ a' ∈ l, a'.ndir ≠ .underscored ∧ a'.ddir ≠ .underscored) →
      ∀ k r, history b g l k = some r → ∀ a' : Args, a'.selfloops = a.selfloops →
        a'.ndir ≠ .underscored → a'.ddir ≠ .underscored → (a'.ndir.key, a'.ddir.key) = k →
        compute b g a' = .ok r := by
    intro l
    induction l using List.reverseRecOn with
    | nil => intro _ _ k r h; cases h
    | append_singleton l x ih =>
      intro h1 h2 k r hk a' hs hn hdd hkey
      have ih' := ih (fun y hy => h1 y (by simp [hy])) (fun y hy => h2 y (by simp [hy]))
      have hx := h2 x (by simp)
      have hstep : history b g (l ++ [x]) = (average_nn_degree b g (history b g l) x).1 := by
        simp [history]
      rw [hstep] at hk
      have same : (x.ndir.key, x.ddir.key) = k → compute b g x = compute b g a' := by
        intro hxk
        rw [← hkey, Prod.mk.injEq] at hxk
        have e1 := key_inj hxk.1 hx.1 hn
        have e2 := key_inj hxk.2 hx.2 hdd
        have e3 : x.selfloops = a'.selfloops := (h1 x (by simp)).trans hs.symm
        unfold compute
        rw [e1, e2, e3]
      unfold average_nn_degree at hk
      split at hk
      · exact ih' k r hk a' hs hn hdd hkey
      · cases hc : compute b g x with
        | error e =>
          rw [hc] at hk
          exact ih' k r hk a' hs hn hdd hkey
        | ok r' =>
          rw [hc] at hk
          simp only at hk
          by_cases hxk : k = (x.ndir.key, x.ddir.key)
          · rw [if_pos hxk, Option.some.injEq] at hk
            rw [← same hxk.symm, hc, hk]
          · rw [if_neg hxk] at hk
            exact ih' k r hk a' hs hn hdd hkey
  have ha := hdir a (by simp)
  unfold average_nn_degree
  split
  · rename_i r heq _
    exact (inv l hsl (fun y hy => hdir y (by simp [hy])) _ r heq a rfl ha.1 ha.2 rfl).symm
  · cases compute b g a <;> rfl

theorem degree_first (b : Backend) (sl : Bool) :
    ∃ r, compute b exG ⟨.out, .out, some sl, false⟩ = .ok r ∧ r 0 = if sl then 1 else 0 := by
  have hdeg := deg_row exG (ndir := .out) (Or.inl rfl)
  obtain ⟨r, hr, hv⟩ := average_nn_value b exG
    (fun i => (((range exG.n).filter (fun j => rowOf exG .out i j = true)).card : ℝ)) (Or.inl rfl) sl
  have e1 : nbrs exG .out false 0 = {1} := by decide
  have e2 : nbrs exG .out true 0 = {0, 1} := by decide
  have d0 : (range exG.n).filter (fun j => rowOf exG .out 0 j = true) = {0, 1} := by decide
  have d1 : (range exG.n).filter (fun j => rowOf exG .out 1 j = true) = ∅ := by decide
  refine ⟨r, ?_, ?_⟩
  · unfold compute
    simp only [hdeg]
    exact hr
  · obtain ⟨keep, h1, h2, h3⟩ := hv 0
    have hk : keep = sl := by
      cases hs : sl with
      | true => exact h2 hs
      | false =>
        by_contra h
        rcases h1 (by simpa using h) with h | h
        · rw [hs] at h; cases h
        · cases h.2
    rw [h3, hk, e2]
    cases sl
    · rw [e1, Finset.sum_singleton, d1]; simp
    · rw [e2, Finset.sum_pair (by norm_num), d0, d1]; norm_num

/-- **C29** is violated by histories: a query with `selfloops=True` makes the following one with
`selfloops=False` return its value. -/
theorem C29_history_violated (b : Backend) :
    ∃ r, compute b exG ⟨.out, .out, some false, false⟩ = .ok r ∧
      (average_nn_degree b exG (history b exG [⟨.out, .out, some true, false⟩])
        ⟨.out, .out, some false, false⟩).2 ≠ .ok r := by
  obtain ⟨r, hr, h0⟩ := degree_first b false
  obtain ⟨r', hr', h0'⟩ := degree_first b true
  refine ⟨r, hr, ?_⟩
  have hh : history b exG [⟨.out, .out, some true, false⟩] (Dir.key .out, Dir.key .out) = some r' := by
    simp [history, average_nn_degree, hr']
  have : (average_nn_degree b exG (history b exG [⟨.out, .out, some true, false⟩])
        ⟨.out, .out, some false, false⟩).2 = .ok r' := by
    unfold average_nn_degree
    simp only [hh]
  rw [this]
  intro hcon
  simp only [Except.ok.injEq] at hcon
  rw [hcon, h0] at h0'
  norm_num at h0'

/-- **C29**: `"out_in"` is rejected on a new object but accepted after a query for `"out-in"`. -/
theorem C29_key_violated (b : Backend) :
    (average_nn_degree b exG (history b exG []) ⟨.underscored, .both, some true, false⟩).2 =
      .error .value ∧
    ∃ r, (average_nn_degree b exG (history b exG [⟨.both, .both, some true, false⟩])
      ⟨.underscored, .both, some true, false⟩).2 = .ok r := by
  constructor
  · rfl
  · have hdeg := deg_row exG (ndir := .both) (Or.inr (Or.inr rfl))
    obtain ⟨r, hr, _⟩ := average_nn_value b exG
      (fun i => (((range exG.n).filter (fun j => rowOf exG .both i j = true)).card : ℝ))
      (Or.inr (Or.inr rfl)) true
    have hc : compute b exG ⟨.both, .both, some true, false⟩ = .ok r := by
      unfold compute
      simp only [hdeg]
      exact hr
    refine ⟨r, ?_⟩
    have hh : history b exG [⟨.both, .both, some true, false⟩]
        (Dir.key .underscored, Dir.key .both) = some r := by
      simp [history, average_nn_degree, hc, Dir.key]
    unfold average_nn_degree
    simp only [hh]

/-- A history meeting the hypotheses of `C29_history_partial`: the same query repeated after
another one. -/
example : (average_nn_degree .sparse exG
    (history .sparse exG [⟨.both, .inn, some true, false⟩, ⟨.out, .out, some true, true⟩])
    ⟨.out, .out, some true, false⟩).2 = compute .sparse exG ⟨.out, .out, some true, false⟩ :=
  C29_history_partial _ _ _ _ (by simp) (by simp)

/-- The mean over the two successors of vertex 0 of the property 1, 5 is 3. -/
example (b : Backend) : ∃ r, average_nn_property b exG (fun i => if i = 0 then 1 else 5) .out
    (some true) = .ok r ∧ r 0 = 3 := by
  obtain ⟨r, hr, h⟩ := C29_mean_partial b exG (fun i => if i = 0 then 1 else 5) (Or.inl rfl) true
  refine ⟨r, hr, ?_⟩
  have e2 : nbrs exG .out true 0 = {0, 1} := by decide
  rw [(h 0 (Or.inl rfl)).1, e2]
  unfold meanOver
  rw [Finset.sum_pair (by norm_num)]
  norm_num

end Graph

end

end Verif
