import Verif.Spark.MultiMethodProps

/-!
# C80: automatic thresholds and `sample` of the multi-layer spark ensembles
-/

namespace Verif

noncomputable section

open XR Spec DiGraphEnsemble MeasureTheory Layer
open scoped ENNReal

namespace Spark

namespace MultiMethod

open Layer.Method (sparseObj Obj Arg)
open _root_.Verif.Spark.Method (listMax listMin listMax_spec listMin_spec)
open Graph (coo)
open Sampled (Ref Adj Described RefOk LayerOk Strength boolRows floatRows header_ok
  columns_exists columns_ok coo_bool coo_float cremb_layer_facts columns_cases header_dtype
  header_label real MultiObj loopD loopX loopX_sorted)

/-! ## The range of the automatic thresholds -/

theorem entries_rowX (n L : ℕ) (x : ℕ → List (ℕ × ℝ≥0∞)) :
    entries n L (fun i => rowX (x i))
      = ((List.range n).flatMap (fun i => (List.range L).map (fun k => entry (x i) k))).map ofENN := by
  unfold entries
  rw [List.map_flatMap]
  congr 1
  funext i
  rw [List.map_map]
  refine List.map_congr_left (fun k _ => ?_)
  exact Layer.entry_rowX _ _

theorem filter_nonzero (l : List ℝ≥0∞) :
    (l.map ofENN).filter (fun v => !(eqb v 0)) = (l.filter (fun v => decide (v ≠ 0))).map ofENN := by
  rw [List.filter_map]
  congr 1
  refine List.filter_congr (fun a _ => ?_)
  show (!(eqb (ofENN a) 0)) = decide (a ≠ 0)
  by_cases ht : a = ⊤
  · subst ht; simp [zero_def, eqb]
  · rw [XR.ofENN_of_ne_top ht, zero_def]
    by_cases h : a = 0
    · simp [h, eqb]
    · have : a.toReal ≠ 0 := fun h' => by
        rcases ENNReal.toReal_eq_zero_iff a |>.1 h' with h' | h'
        · exact h h'
        · exact ht h'
      simp [h, eqb, this]

theorem neg_mul_xr (a b : XR) : -a * b = -(a * b) := by
  have hs : ∀ c : ℝ, XR.signedInf (-c) = -(XR.signedInf c) := by
    intro c
    unfold XR.signedInf
    rcases lt_trichotomy c 0 with h | h | h
    · simp [h, not_lt.2 h.le]
    · subst h
      simp
      rfl
    · simp [h, not_lt.2 h.le]
  cases a <;> cases b <;> first
    | rfl
    | exact hs _
    | (rename_i r
       show XR.signedInf _ = -(XR.signedInf _)
       rw [← hs]
       try rw [neg_neg])
    | (rename_i r q
       show fin (-r * q) = fin (-(r * q))
       rw [neg_mul])

theorem expm1_range {d a b : ℝ≥0∞} (hd : d ≠ 0) (ha : a ≠ 0) (hb : b ≠ 0) :
    (-(XR.expm1 (-(ofENN d) * ofENN a * ofENN b))).toReal = invProb (d * a * b) := by
  rw [neg_mul_xr, neg_mul_xr, (mul3_ne_zero ha hb hd).1]
  by_cases h : d * a * b = ⊤
  · rw [h, invProb_top]
    show (-(fin (-1) : XR)).toReal = 1
    rw [neg_fin, neg_neg]
    rfl
  · have := inv_ladder (d * a * b)
    rw [if_neg (by simpa using h)] at this
    rw [this]
    rfl

/-- What `p_min` and `p_max` are: the invariant probability, with the first parameter, of the smallest
positive and of the largest properties of all labels. -/
theorem pRange_spec (K : Kind) (n L : ℕ) (d : ℕ → ℝ≥0∞) (x y : ℕ → List (ℕ × ℝ≥0∞))
    (dyad : ℕ → ℕ → XR) (s : Bool) (hd : d 0 ≠ 0) (hx : ∃ i < n, ∃ k < L, entry (x i) k ≠ 0)
    (hy : ∃ i < n, ∃ k < L, entry (y i) k ≠ 0) :
    ∃ i < n, ∃ k < L, ∃ j < n, ∃ l < L, ∃ i' < n, ∃ k' < L, ∃ j' < n, ∃ l' < L,
      pRange (sparseObj K n L (some d) x y dyad s) (fun k => ofENN (d k)) = some
        (invProb (d 0 * entry (x i) k * entry (y j) l),
          invProb (d 0 * entry (x i') k' * entry (y j') l')) ∧
      entry (x i) k ≠ 0 ∧ entry (y j) l ≠ 0 ∧
      (∀ a < n, ∀ b < L, (entry (x a) b ≠ 0 → entry (x i) k ≤ entry (x a) b) ∧
        (entry (y a) b ≠ 0 → entry (y j) l ≤ entry (y a) b) ∧
        entry (x a) b ≤ entry (x i') k' ∧ entry (y a) b ≤ entry (y j') l') := by
  have key : ∀ x : ℕ → List (ℕ × ℝ≥0∞), (∃ i < n, ∃ k < L, entry (x i) k ≠ 0) →
      ∃ i < n, ∃ k < L, ∃ i' < n, ∃ k' < L,
        listMin ((entries n L (fun i => rowX (x i))).filter (fun v => !(eqb v 0)))
          = some (ofENN (entry (x i) k)) ∧
        listMax (entries n L (fun i => rowX (x i))) = some (ofENN (entry (x i') k')) ∧
        entry (x i) k ≠ 0 ∧ ∀ a < n, ∀ b < L, (entry (x a) b ≠ 0 → entry (x i) k ≤ entry (x a) b) ∧
          entry (x a) b ≤ entry (x i') k' := by
    intro x hx
    rw [entries_rowX, filter_nonzero]
    have hmem : ∀ v, v ∈ (List.range n).flatMap (fun i => (List.range L).map (fun k => entry (x i) k))
        ↔ ∃ i < n, ∃ k < L, entry (x i) k = v := by
      intro v
      simp [List.mem_flatMap]
    obtain ⟨a, ha, b, hb, hab⟩ := hx
    have h1 := (hmem _).2 ⟨a, ha, b, hb, rfl⟩
    have h2 : entry (x a) b ∈ ((List.range n).flatMap (fun i => (List.range L).map
        (fun k => entry (x i) k))).filter (fun v => decide (v ≠ 0)) :=
      List.mem_filter.2 ⟨h1, by simpa using hab⟩
    obtain ⟨m, hm, hm1, hm2⟩ := listMin_spec _ (List.ne_nil_of_mem h2)
    obtain ⟨M, hM, hM1, hM2⟩ := listMax_spec _ (List.ne_nil_of_mem h1)
    obtain ⟨hm3, hm4⟩ := List.mem_filter.1 hm
    obtain ⟨i, hi, k, hk, rfl⟩ := (hmem m).1 hm3
    obtain ⟨i', hi', k', hk', rfl⟩ := (hmem M).1 hM
    refine ⟨i, hi, k, hk, i', hi', k', hk', hm1, hM1, by simpa using hm4, fun a ha b hb => ⟨?_, ?_⟩⟩
    · intro h
      exact hm2 _ (List.mem_filter.2 ⟨(hmem _).2 ⟨a, ha, b, hb, rfl⟩, by simpa using h⟩)
    · exact hM2 _ ((hmem _).2 ⟨a, ha, b, hb, rfl⟩)
  obtain ⟨i, hi, k, hk, i', hi', k', hk', e1, e2, e3, e4⟩ := key x hx
  obtain ⟨j, hj, l, hl, j', hj', l', hl', f1, f2, f3, f4⟩ := key y hy
  refine ⟨i, hi, k, hk, j, hj, l, hl, i', hi', k', hk', j', hj', l', hl', ?_, e3, f3,
    fun a ha b hb => ⟨(e4 a ha b hb).1, (f4 a ha b hb).1, (e4 a ha b hb).2, (f4 a ha b hb).2⟩⟩
  show (listMax (entries n L (fun i => rowX (x i))) >>= fun xmax =>
    listMax (entries n L (fun i => rowX (y i))) >>= fun ymax =>
    listMin ((entries n L (fun i => rowX (x i))).filter (fun v => !(eqb v 0))) >>= fun xmin =>
    listMin ((entries n L (fun i => rowX (y i))).filter (fun v => !(eqb v 0))) >>= fun ymin =>
    some ((-(XR.expm1 (-(ofENN (d 0)) * xmin * ymin))).toReal,
      (-(XR.expm1 (-(ofENN (d 0)) * xmax * ymax))).toReal)) = _
  rw [e1, e2, f1, f2]
  have e5 : entry (x i') k' ≠ 0 := fun h0 => e3 (by
    have := (e4 i hi k hk).2
    rw [h0] at this
    exact le_antisymm this bot_le)
  have f5 : entry (y j') l' ≠ 0 := fun h0 => f3 (by
    have := (f4 j hj l hl).2
    rw [h0] at this
    exact le_antisymm this bot_le)
  rw [← expm1_range hd e3 f3, ← expm1_range hd e5 f5]
  rfl

/-- **C80**, one label and the invariant model: `p_min` and `p_max` are the smallest and the largest
probability of the pairs of vertices whose properties are not zero.  What fails:
`C80_multi_range_violated`. -/
theorem C80_multi_range_partial (n : ℕ) (d : ℕ → ℝ≥0∞) (x y : ℕ → List (ℕ × ℝ≥0∞))
    (dyad : ℕ → ℕ → XR) (s : Bool) (hd : d 0 ≠ 0) (hx : ∃ i < n, entry (x i) 0 ≠ 0)
    (hy : ∃ i < n, entry (y i) 0 ≠ 0) :
    ∃ lo hi, pRange (sparseObj .inv n 1 (some d) x y dyad s) (fun k => ofENN (d k)) = some (lo, hi) ∧
      (∃ i < n, ∃ j < n, entry (x i) 0 ≠ 0 ∧ entry (y j) 0 ≠ 0 ∧ anyProb .inv 1 d x y (i, j) = lo) ∧
      (∃ i < n, ∃ j < n, anyProb .inv 1 d x y (i, j) = hi) ∧
      ∀ i < n, ∀ j < n, anyProb .inv 1 d x y (i, j) ≤ hi ∧
        (entry (x i) 0 ≠ 0 → entry (y j) 0 ≠ 0 → lo ≤ anyProb .inv 1 d x y (i, j)) := by
  have hq : ∀ i j, anyProb .inv 1 d x y (i, j) = invProb (d 0 * entry (x i) 0 * entry (y j) 0) := by
    intro i j
    unfold anyProb
    rw [Finset.prod_range_one, sub_sub_cancel]
    rfl
  have up : ∀ x : ℕ → List (ℕ × ℝ≥0∞), (∃ i < n, entry (x i) 0 ≠ 0) →
      ∃ i < n, ∃ k < 1, entry (x i) k ≠ 0 := fun x ⟨i, hi, h⟩ => ⟨i, hi, 0, one_pos, h⟩
  obtain ⟨i, hi, k, hk, j, hj, l, hl, i', hi', k', hk', j', hj', l', hl', hr, h1, h2, hall⟩ :=
    pRange_spec .inv n 1 d x y dyad s hd (up x hx) (up y hy)
  obtain rfl := Nat.lt_one_iff.1 hk
  obtain rfl := Nat.lt_one_iff.1 hl
  obtain rfl := Nat.lt_one_iff.1 hk'
  obtain rfl := Nat.lt_one_iff.1 hl'
  refine ⟨_, _, hr, ⟨i, hi, j, hj, h1, h2, hq i j⟩, ⟨i', hi', j', hj', hq i' j'⟩,
    fun a ha b hb => ⟨?_, fun ha0 hb0 => ?_⟩⟩
  · rw [hq]
    exact _root_.Verif.Spark.Method.q_mono .inv (mul_le_mul'
      (mul_le_mul' le_rfl (hall a ha 0 one_pos).2.2.1) (hall b hb 0 one_pos).2.2.2)
  · rw [hq]
    exact _root_.Verif.Spark.Method.q_mono .inv (mul_le_mul'
      (mul_le_mul' le_rfl ((hall a ha 0 one_pos).1 ha0)) ((hall b hb 0 one_pos).2.1 hb0))

theorem pRange_ones (K : Kind) (L : ℕ) (hL : 0 < L) (d : ℕ → ℝ≥0∞) (hd : d 0 ≠ 0)
    (x : ℕ → List (ℕ × ℝ≥0∞)) (hx : ∀ k < L, entry (x 0) k = 1) (dyad : ℕ → ℕ → XR) (s : Bool) :
    pRange (sparseObj K 1 L (some d) x x dyad s) (fun k => ofENN (d k))
      = some (invProb (d 0), invProb (d 0)) := by
  have h1 : ∃ i < 1, ∃ k < L, entry (x i) k ≠ 0 := ⟨0, one_pos, 0, hL, by rw [hx 0 hL]; exact one_ne_zero⟩
  obtain ⟨i, hi, k, hk, j, hj, l, hl, i', hi', k', hk', j', hj', l', hl', hr, -⟩ :=
    pRange_spec K 1 L d x x dyad s hd h1 h1
  obtain rfl := Nat.lt_one_iff.1 hi
  obtain rfl := Nat.lt_one_iff.1 hj
  obtain rfl := Nat.lt_one_iff.1 hi'
  obtain rfl := Nat.lt_one_iff.1 hj'
  rw [hr, hx k hk, hx l hl, hx k' hk', hx l' hl', mul_one, mul_one]

/-- **C80** fails for the automatic thresholds: (1) the fitness model uses the formula of the invariant
model: all the probabilities are 1/2, `p_min` and `p_max` are both 1 - exp(-1); (2) with two labels
the only probability is 1 - exp(-2), `p_max` is 1 - exp(-1); (3) the parameters of the other labels
are ignored: the link is certain, `p_max` is 1 - exp(-1). -/
theorem C80_multi_range_violated (dyad : ℕ → ℕ → XR) :
    let x1 : ℕ → List (ℕ × ℝ≥0∞) := fun _ => [(0, 1)]
    let x2 : ℕ → List (ℕ × ℝ≥0∞) := fun _ => [(0, 1), (1, 1)]
    let d2 : ℕ → ℝ≥0∞ := fun k => if k = 0 then 1 else ⊤
    (anyProb .fit 1 (fun _ => 1) x1 x1 (0, 0) = 1 / 2 ∧
      pRange (sparseObj .fit 1 1 (some fun _ => 1) x1 x1 dyad true) (fun _ => ofENN 1)
        = some (1 - Real.exp (-1), 1 - Real.exp (-1)) ∧ 1 / 2 < 1 - Real.exp (-1)) ∧
    (anyProb .inv 2 (fun _ => 1) x2 x2 (0, 0) = 1 - Real.exp (-2) ∧
      pRange (sparseObj .inv 1 2 (some fun _ => 1) x2 x2 dyad true) (fun _ => ofENN 1)
        = some (1 - Real.exp (-1), 1 - Real.exp (-1)) ∧
        1 - Real.exp (-1) < 1 - Real.exp (-2)) ∧
    (anyProb .inv 2 d2 x2 x2 (0, 0) = 1 ∧
      pRange (sparseObj .inv 1 2 (some d2) x2 x2 dyad true) (fun k => ofENN (d2 k))
        = some (1 - Real.exp (-1), 1 - Real.exp (-1)) ∧ 1 - Real.exp (-1) < 1) := by
  intro x1 x2 d2
  have hi1 : invProb 1 = 1 - Real.exp (-1) := by simp [invProb]
  have hx1 : ∀ k < 1, entry (x1 0) k = 1 := by
    intro k hk
    obtain rfl := Nat.lt_one_iff.1 hk
    simp [x1, entry]
  have hx2 : ∀ k < 2, entry (x2 0) k = 1 := by
    intro k hk
    interval_cases k <;> simp [x2, entry, List.lookup_cons]
  have hexp : Real.exp (-1) < 1 / 2 := by
    rw [Real.exp_neg, one_div]
    exact inv_strictAnti₀ (by norm_num) (by
      have := Real.exp_one_gt_d9
      linarith)
  refine ⟨⟨?_, ?_, by linarith⟩, ⟨?_, ?_, ?_⟩, ⟨?_, ?_, ?_⟩⟩
  · simp [anyProb, Kind.q, x1, entry, fitProb]
    norm_num
  · rw [← hi1]; exact pRange_ones .fit 1 one_pos (fun _ => 1) one_ne_zero x1 hx1 dyad true
  · unfold anyProb
    rw [Finset.prod_range_succ, Finset.prod_range_one]
    show 1 - (1 - invProb (1 * entry (x2 0) 0 * entry (x2 0) 0))
      * (1 - invProb (1 * entry (x2 0) 1 * entry (x2 0) 1)) = _
    rw [hx2 0 (by norm_num), hx2 1 (by norm_num), one_mul, one_mul, hi1, sub_sub_cancel,
      ← Real.exp_add]
    norm_num
  · rw [← hi1]; exact pRange_ones .inv 2 two_pos (fun _ => 1) one_ne_zero x2 hx2 dyad true
  · have := Real.exp_lt_exp.2 (show (-2 : ℝ) < -1 by norm_num)
    linarith
  · unfold anyProb
    rw [Finset.prod_range_succ, Finset.prod_range_one]
    show 1 - (1 - invProb (d2 0 * entry (x2 0) 0 * entry (x2 0) 0))
      * (1 - invProb (d2 1 * entry (x2 0) 1 * entry (x2 0) 1)) = _
    rw [hx2 0 (by norm_num), hx2 1 (by norm_num), mul_one, mul_one, show d2 1 = ⊤ from rfl,
      mul_one, mul_one, invProb_top]
    norm_num
  · rw [← hi1]; exact pRange_ones .inv 2 two_pos d2 (by simp [d2]) x2 hx2 dyad true
  · have := Real.exp_pos (-1)
    linarith

/-! ## `sample` -/

theorem foldl_flatMap_if {α β : Type} (f : α → β → Bool) (g : α → β → ℕ × ℕ) (a : List α) (b : List β)
    (acc : List (ℕ × ℕ)) (e : ℕ × ℕ) :
    e ∈ a.foldl (fun rows x => b.foldl (fun rows y => if f x y then rows ++ [g x y] else rows) rows) acc
      ↔ e ∈ acc ∨ ∃ x ∈ a, ∃ y ∈ b, f x y = true ∧ g x y = e := by
  have inner : ∀ (x : α) (b : List β) (acc : List (ℕ × ℕ)),
      e ∈ b.foldl (fun rows y => if f x y then rows ++ [g x y] else rows) acc
        ↔ e ∈ acc ∨ ∃ y ∈ b, f x y = true ∧ g x y = e := by
    intro x b
    induction b with
    | nil => intro acc; simp
    | cons y t ih =>
      intro acc
      rw [List.foldl_cons, ih]
      by_cases h : f x y = true
      · rw [if_pos h, List.mem_append, List.mem_singleton, or_assoc]
        refine or_congr_right ⟨?_, ?_⟩
        · rintro (rfl | ⟨z, hz, h1, h2⟩)
          · exact ⟨y, List.mem_cons_self, h, rfl⟩
          · exact ⟨z, List.mem_cons_of_mem _ hz, h1, h2⟩
        · rintro ⟨z, hz, h1, h2⟩
          rcases List.mem_cons.1 hz with rfl | hz
          · exact Or.inl h2.symm
          · exact Or.inr ⟨z, hz, h1, h2⟩
      · rw [if_neg h]
        refine or_congr_right ⟨?_, ?_⟩
        · rintro ⟨z, hz, h1, h2⟩
          exact ⟨z, List.mem_cons_of_mem _ hz, h1, h2⟩
        · rintro ⟨z, hz, h1, h2⟩
          rcases List.mem_cons.1 hz with rfl | hz
          · exact absurd h1 h
          · exact ⟨z, hz, h1, h2⟩
  induction a generalizing acc with
  | nil => simp
  | cons x t ih =>
    rw [List.foldl_cons]
    refine (ih _).trans ?_
    rw [inner, or_assoc]
    refine or_congr_right ⟨?_, ?_⟩
    · rintro (⟨y, hy, h⟩ | ⟨z, hz, h⟩)
      · exact ⟨x, List.mem_cons_self, y, hy, h⟩
      · exact ⟨z, List.mem_cons_of_mem _ hz, h⟩
    · rintro ⟨z, hz, y, hy, h⟩
      rcases List.mem_cons.1 hz with rfl | hz
      · exact Or.inl ⟨y, hy, h⟩
      · exact Or.inr ⟨z, hz, y, hy, h⟩

theorem mem_layer (K : Kind) (n : ℕ) (d : ℕ → ℝ≥0∞) (x y : ℕ → List (ℕ × ℝ≥0∞))
    (hx : ∀ i, RowSorted (x i)) (hy : ∀ i, RowSorted (y i)) (dyad : ℕ → ℕ → XR) (s : Bool)
    (u : ℕ → ℕ → ℝ) (k : ℕ) (e : ℕ × ℕ) :
    e ∈ binary_sample_layer K.link.p_ijk (ofENN (d k)) (column n (fun i => rowX (x i)) k)
        (column n (fun i => rowX (y i)) k) dyad s u ↔
      e ∈ pairOrder (column n x k) (column n y k) s ∧ u e.1 e.2 < layerProb K d x y k e := by
  have hval : ∀ a ∈ column n x k, ∀ b ∈ column n y k,
      ltb (fin (u a.1 b.1)) (K.link.p_ijk (ofENN (d k)) (ofENN a.2) (ofENN b.2) (dyad a.1 b.1))
        = decide (u a.1 b.1 < layerProb K d x y k (a.1, b.1)) := by
    intro a ha b hb
    rw [K.p_eq, ← entry_of_mem (column_sorted hx k) ha, ← entry_of_mem (column_sorted hy k) hb,
      entry_column (column_lt a ha), entry_column (column_lt b hb)]
    rfl
  have hf : binary_sample_layer K.link.p_ijk (ofENN (d k)) (column n (fun i => rowX (x i)) k)
        (column n (fun i => rowX (y i)) k) dyad s u
      = (column n x k).foldl (fun rows a => (column n y k).foldl (fun rows b =>
        if (admissible a.1 b.1 s && decide (u a.1 b.1 < layerProb K d x y k (a.1, b.1)))
          then rows ++ [(a.1, b.1)] else rows) rows) [] := by
    unfold binary_sample_layer
    rw [column_rowX, column_rowX]
    unfold rowX
    simp only [List.foldl_map]
    refine foldl_congr_mem _ _ _ (fun a ha st => ?_) _
    refine foldl_congr_mem _ _ _ (fun b hb st => ?_) _
    rw [hval a ha b hb]
    cases admissible a.1 b.1 s <;> simp
  rw [hf, foldl_flatMap_if (fun (a b : ℕ × ℝ≥0∞) => (admissible a.1 b.1 s
    && decide (u a.1 b.1 < layerProb K d x y k (a.1, b.1)))) (fun a b => (a.1, b.1)), mem_pairOrder]
  constructor
  · rintro (h | ⟨a, ha, b, hb, h, rfl⟩)
    · simp at h
    · rw [Bool.and_eq_true, decide_eq_true_eq] at h
      exact ⟨⟨⟨a, ha, rfl⟩, ⟨b, hb, rfl⟩, h.1⟩, h.2⟩
  · rintro ⟨⟨⟨a, ha, h1⟩, ⟨b, hb, h2⟩, hadm⟩, hlt⟩
    obtain ⟨i, j⟩ := e
    dsimp only at h1 h2 hadm hlt
    subst h1 h2
    exact Or.inr ⟨a, ha, b, hb, by rw [hadm]; simpa using hlt, rfl⟩

variable {ι γ κ : Type} [DecidableEq ι] [DecidableEq κ]

theorem sample_run (K : Kind) (n L : ℕ) (hn : n < 2 ^ 64) (hL : L < 2 ^ 64) (d : ℕ → ℝ≥0∞)
    (x y : ℕ → List (ℕ × ℝ≥0∞)) (hx : ∀ i, RowSorted (x i)) (hy : ∀ i, RowSorted (y i))
    (dyad : ℕ → ℕ → XR) (s : Bool) (ref : Option (Ref ι γ κ)) (hr : RefOk ref)
    (so si : Strength) (hso : so.Fits n L) (hsi : si.Fits n L) (sl : Option Bool)
    (u e : ℕ → ℕ → ℕ → ℝ) :
    ∃ g, (∀ r, Sample (sparseObj K n L (some d) x y dyad s) ref .none so si sl u e r ↔ r = .ok g) ∧
      Described n L ref g ∧
      ∀ k, ∃ A, g.adj k = .bool A ∧ ∀ i j, A i j = true ↔
        (i, j) ∈ pairOrder (column n x k) (column n y k) s ∧ u k i j < layerProb K d x y k (i, j) := by
  obtain ⟨mk, hmk, hmk2⟩ := header_ok (A := Adj) hn hL hr
  obtain ⟨co, hco⟩ := columns_exists hso (fun k => (column n (fun i => rowX (x i)) k).map
    (fun e => (e.1, real e.2)))
  obtain ⟨ci, hci⟩ := columns_exists hsi (fun k => (column n (fun i => rowX (y i)) k).map
    (fun e => (e.1, real e.2)))
  have hpre : (Sampled.header n L ref >>= fun mk => so.columns n L (fun k =>
        (column n (fun i => rowX (x i)) k).map (fun e => (e.1, real e.2))) >>= fun s_out =>
        si.columns n L (fun k => (column n (fun i => rowX (y i)) k).map
          (fun e => (e.1, real e.2))) >>= fun s_in => .ok (mk, s_out, s_in))
      = (.ok (mk, co, ci) : Except Sampled.Err (((ℕ → Adj) → MultiObj ι γ κ Adj) × _ × _)) := by
    rw [hmk]
    show (so.columns n L (fun k => (column n (fun i => rowX (x i)) k).map
      (fun e => (e.1, real e.2))) >>= fun _ => _) = _
    rw [hco]
    show (si.columns n L (fun k => (column n (fun i => rowX (y i)) k).map
      (fun e => (e.1, real e.2))) >>= fun _ => _) = _
    rw [hci]
    rfl
  refine ⟨mk (fun k => .bool (coo (boolRows (binary_sample_layer K.link.p_ijk (ofENN (d k))
    (column n (fun i => rowX (x i)) k) (column n (fun i => rowX (y i)) k) dyad s (u k))))),
    fun r => ?_, (hmk2 _).1, fun k => ?_⟩
  · show (match ((Sampled.header n L ref >>= fun mk => so.columns n L (fun k =>
        (column n (fun i => rowX (x i)) k).map (fun e => (e.1, real e.2))) >>= fun s_out =>
        si.columns n L (fun k => (column n (fun i => rowX (y i)) k).map
          (fun e => (e.1, real e.2))) >>= fun s_in => .ok (mk, s_out, s_in)) :
          Except Sampled.Err (((ℕ → Adj) → MultiObj ι γ κ Adj) × _ × _)) with
      | .error err => r = .error err
      | .ok (mk, s_out, s_in) => _) ↔ _
    rw [hpre]
    exact Iff.rfl
  · rw [(hmk2 _).2]
    exact ⟨_, rfl, fun i j => (coo_bool _ i j).trans (mem_layer K n d x y hx hy dyad s (u k) k (i, j))⟩

/-- **C80**, samples without weights: there is one outcome, which carries the number of vertices and
labels, names and groups; layer `k` is the set of the pairs whose number is below the probability of a
link with label `k`.  Missing: the argument `selfloops` has no effect (`C80_multi_violated_sample`). -/
theorem C80_multi_sample_partial (K : Kind) (n L : ℕ) (hn : n < 2 ^ 64) (hL : L < 2 ^ 64)
    (d : ℕ → ℝ≥0∞) (x y : ℕ → List (ℕ × ℝ≥0∞)) (hx : ∀ i, RowSorted (x i))
    (hy : ∀ i, RowSorted (y i)) (dyad : ℕ → ℕ → XR) (s : Bool) (ref : Option (Ref ι γ κ))
    (hr : RefOk ref) (so si : Strength) (hso : so.Fits n L) (hsi : si.Fits n L) (sl : Option Bool)
    (u e : ℕ → ℕ → ℕ → ℝ) (hu : ∀ k i j, 0 ≤ u k i j) :
    ∃ g, (∀ r, Sample (sparseObj K n L (some d) x y dyad s) ref .none so si sl u e r ↔ r = .ok g) ∧
      Described n L ref g ∧
      ∀ k < L, ∃ A, g.adj k = .bool A ∧ ∀ i j, A i j = true ↔
        (i, j) ∈ Law.pairs n s ∧ u k i j < layerProb K d x y k (i, j) := by
  obtain ⟨g, h1, h2, h3⟩ := sample_run K n L hn hL d x y hx hy dyad s ref hr so si hso hsi sl u e
  refine ⟨g, h1, h2, fun k _ => ?_⟩
  obtain ⟨A, hA, hlink⟩ := h3 k
  refine ⟨A, hA, fun i j => (hlink i j).trans ⟨fun h => ⟨pairOrder_sub h.1, h.2⟩, fun h => ⟨?_, h.2⟩⟩⟩
  by_contra hc
  have h0 := pairOrder_zero (K := K) (d := d) h.1 hc
  rw [h0] at h
  exact absurd h.2 (not_lt.2 (hu k i j))

/-- **C80**: over independent uniform numbers, one for each label and pair, the layers of the sampled
object are `G` with the probability of the labelled graph `G` in the ensemble. -/
theorem C80_multi_sample_law (K : Kind) (n L : ℕ) (hn : n < 2 ^ 64) (hL : L < 2 ^ 64)
    (d : ℕ → ℝ≥0∞) (x y : ℕ → List (ℕ × ℝ≥0∞)) (hx : ∀ i, RowSorted (x i))
    (hy : ∀ i, RowSorted (y i)) (dyad : ℕ → ℕ → XR) (s : Bool) (ref : Option (Ref ι γ κ))
    (hr : RefOk ref) (so si : Strength) (hso : so.Fits n L) (hsi : si.Fits n L) (sl : Option Bool)
    (e : ℕ → ℕ → ℕ → ℝ) {Ω : Type} [MeasurableSpace Ω] (P : Measure Ω) (U : ℕ × ℕ × ℕ → Ω → ℝ)
    (hU : IsUniform P U) (G : ℕ → Finset (ℕ × ℕ)) (hG : ∀ k < L, G k ⊆ Law.pairs n s) :
    P {ω | ∃ g, Sample (sparseObj K n L (some d) x y dyad s) ref .none so si sl
          (fun k i j => U (k, i, j) ω) e (.ok g) ∧ ∀ k < L, (g.adj k).Links (G k : Set (ℕ × ℕ))}
      = ENNReal.ofReal
          (∏ k ∈ Finset.range L, Law.prob (Law.pairs n s) (layerProb K d x y k) (G k)) := by
  let O := fun k => pairOrder (column n x k) (column n y k) s
  have hset : {ω | ∃ g, Sample (sparseObj K n L (some d) x y dyad s) ref .none so si sl
          (fun k i j => U (k, i, j) ω) e (.ok g) ∧ ∀ k < L, (g.adj k).Links (G k : Set (ℕ × ℕ))}
      = {ω | ∀ k < L, (∀ e ∈ O k, U (k, e) ω < layerProb K d x y k e ↔ e ∈ G k)
        ∧ ∀ e ∈ G k, e ∈ O k} := by
    ext ω
    obtain ⟨g, hg, -, hA⟩ := sample_run K n L hn hL d x y hx hy dyad s ref hr so si hso hsi sl
      (fun k i j => U (k, i, j) ω) e
    simp only [Set.mem_ofPred_eq]
    have hk : ∀ k, (g.adj k).Links (G k : Set (ℕ × ℕ)) ↔
        ((∀ e ∈ O k, U (k, e) ω < layerProb K d x y k e ↔ e ∈ G k) ∧ ∀ e ∈ G k, e ∈ O k) := by
      intro k
      obtain ⟨A, hA1, hA2⟩ := hA k
      rw [hA1]
      constructor
      · intro h
        have h' : ∀ i j, A i j = true ↔ (i, j) ∈ G k := h
        refine ⟨?_, ?_⟩
        · rintro ⟨i, j⟩ he
          rw [← h' i j, hA2]
          exact ⟨fun hlt => ⟨he, hlt⟩, fun hlt => hlt.2⟩
        · rintro ⟨i, j⟩ he
          exact ((hA2 i j).1 ((h' i j).2 he)).1
      · rintro ⟨h1, h2⟩ i j
        refine (hA2 i j).trans ?_
        show _ ↔ (i, j) ∈ (G k : Set (ℕ × ℕ))
        rw [Finset.mem_coe]
        exact ⟨fun h => (h1 _ h.1).1 h.2, fun h => ⟨h2 _ h, (h1 _ (h2 _ h)).2 h⟩⟩
    constructor
    · rintro ⟨g', hg', h⟩
      rw [hg] at hg'
      cases hg'
      exact fun k hkL => (hk k).1 (h k hkL)
    · intro h
      exact ⟨g, (hg _).2 rfl, fun k hkL => (hk k).2 (h k hkL)⟩
  rw [hset]
  by_cases hsub : ∀ k < L, ∀ e ∈ G k, e ∈ O k
  · let S : Finset (Σ _ : ℕ, ℕ × ℕ) := (Finset.range L).sigma (fun k => (O k).toFinset)
    have hS : ∀ a : Σ _ : ℕ, ℕ × ℕ, a ∈ S ↔ a.1 < L ∧ a.2 ∈ O a.1 := fun a => by
      simp [S, Finset.mem_sigma]
    have hf : Function.Injective (fun a : Σ _ : ℕ, ℕ × ℕ => (a.1, a.2)) := by
      rintro ⟨k, e⟩ ⟨k', e'⟩ h
      cases h
      rfl
    have hbox := (hU.precomp hf).measure_box S (fun a => layerProb K d x y a.1 a.2)
      (fun a _ => K.q_mem _) (fun a => a.2 ∈ G a.1)
    have : {ω | ∀ k < L, (∀ e ∈ O k, U (k, e) ω < layerProb K d x y k e ↔ e ∈ G k)
        ∧ ∀ e ∈ G k, e ∈ O k}
        = {ω | ∀ a ∈ S, U (a.1, a.2) ω < layerProb K d x y a.1 a.2 ↔ a.2 ∈ G a.1} := by
      ext ω
      exact ⟨fun h a ha => (h a.1 ((hS a).1 ha).1).1 a.2 ((hS a).1 ha).2,
        fun h k hk => ⟨fun e he => h ⟨k, e⟩ ((hS _).2 ⟨hk, he⟩), hsub k hk⟩⟩
    rw [this, hbox]
    congr 1
    rw [Finset.prod_sigma]
    refine Finset.prod_congr rfl (fun k hk => ?_)
    unfold Law.prob
    refine Finset.prod_subset (fun e he => pairOrder_sub (List.mem_toFinset.1 he))
      (fun e he hn => ?_)
    rw [List.mem_toFinset] at hn
    rw [if_neg (fun hc => hn (hsub k (Finset.mem_range.1 hk) e hc)), pairOrder_zero he hn, sub_zero]
  · push Not at hsub
    obtain ⟨k, hk, e, he, hn⟩ := hsub
    have : {ω | ∀ k < L, (∀ e ∈ O k, U (k, e) ω < layerProb K d x y k e ↔ e ∈ G k)
        ∧ ∀ e ∈ G k, e ∈ O k} = ∅ := by
      ext ω
      simp only [Set.mem_ofPred_eq, Set.mem_empty_iff_false, iff_false]
      exact fun h => hn ((h k hk).2 e he)
    rw [this, measure_empty, Finset.prod_eq_zero (Finset.mem_range.2 hk), ENNReal.ofReal_zero]
    unfold Law.prob
    refine Finset.prod_eq_zero (hG k hk he) ?_
    rw [if_pos he]
    exact pairOrder_zero (hG k hk he) hn

/-- **C80**, weights: there is an outcome; it is an object exactly when every layer is accepted, and
then the entry of a drawn link is its weight and all other entries are zero; otherwise it is the
exception of a layer that is not accepted, not necessarily the first. -/
theorem C80_multi_sample_weights (K : Kind) (n L : ℕ) (hn : n < 2 ^ 64) (hL : L < 2 ^ 64)
    (d : ℕ → ℝ≥0∞) (x y : ℕ → List (ℕ × ℝ≥0∞)) (hx : ∀ i, RowSorted (x i))
    (hy : ∀ i, RowSorted (y i)) (hxf : ∀ i, ∀ a ∈ x i, a.2 ≠ ∞) (hyf : ∀ i, ∀ a ∈ y i, a.2 ≠ ∞)
    (dyad : ℕ → ℕ → XR) (s : Bool) (ref : Option (Ref ι γ κ)) (hr : RefOk ref)
    (so si : Strength) (hso : so.Fits n L) (hsi : si.Fits n L) (sl : Option Bool)
    (u e : ℕ → ℕ → ℕ → ℝ) (hu : ∀ k i j, 0 ≤ u k i j) :
    let R := Sample (sparseObj K n L (some d) x y dyad s) ref .cremb so si sl u e
    let ok := fun k => LayerOk n s (layerProb K d x y k) (u k) (fun i => so.value x i k)
      (fun j => si.value y j k) (fun i => so.stored x i k) (fun j => si.stored y j k)
    (∃ r, R r) ∧
    ((∃ g, R (.ok g)) ↔ ∀ k < L, ok k) ∧
    (∀ g, R (.ok g) → ∀ r, R r → r = .ok g) ∧
    (∀ err, R (.error err) → ∃ k < L, ¬ ok k ∧
      (err = .strengthsDiffer ∨ err = .emptySelection) ∧
      (err = .strengthsDiffer ↔ ((∑ i ∈ Finset.range n, so.value x i k) = 0 ∨
        1e-6 * |∑ i ∈ Finset.range n, so.value x i k|
          ≤ |(∑ i ∈ Finset.range n, so.value x i k) - ∑ i ∈ Finset.range n, si.value y i k|))) ∧
    (∀ k < L, ¬ ok k → ∃ err, R (.error err)) ∧
    ∀ g, R (.ok g) → Described n L ref g ∧ ∀ k < L, ∃ A, g.adj k = .float A ∧ ∀ i j,
      ((i, j) ∈ Law.pairs n s → u k i j < layerProb K d x y k (i, j) →
        A i j = so.value x i k * si.value y j k /
          ((∑ i ∈ Finset.range n, so.value x i k) * layerProb K d x y k (i, j)) * e k i j) ∧
      (¬ ((i, j) ∈ Law.pairs n s ∧ u k i j < layerProb K d x y k (i, j)) → A i j = 0) := by
  intro R ok
  obtain ⟨mk, hmk, hmk2⟩ := header_ok (A := Adj) hn hL hr
  obtain ⟨co, hco, hco'⟩ := columns_ok (L := L) hx hxf hso
  obtain ⟨ci, hci, hci'⟩ := columns_ok (L := L) hy hyf hsi
  let F := fun k => Sampled.Sparse.cremb_layer (sparseObj K n L (some d) x y dyad s)
    (fun k => ofENN (d k)) k (co k) (ci k) (u k) (e k)
  have hfacts := fun k => cremb_layer_facts K n L d x y hx hy dyad s k (co k) (ci k) _ _ _ _
    (hco' k).1 (hco' k).2 (hci' k).1 (hci' k).2 (u k) (e k) (hu k)
  have hok : ∀ k, (∃ l, F k = .ok l) ↔ ok k := fun k => (hfacts k).1
  have herr : ∀ k, ¬ ok k → ∃ err, F k = .error err := by
    intro k hk
    cases hc : F k with
    | error err => exact ⟨err, rfl⟩
    | ok l => exact absurd ((hok k).1 ⟨l, hc⟩) hk
  have hrun : ∀ r, R r ↔ (∃ k < L, ∃ err, F k = .error err ∧ r = .error err) ∨
        (∃ rows : ℕ → List ((ℕ × ℕ) × XR), (∀ k < L, F k = .ok (rows k)) ∧
          r = .ok (mk (fun k => .float (coo (floatRows (if k < L then rows k else [])))))) := by
    intro r
    have hpre : (Sampled.header n L ref >>= fun mk => so.columns n L (fun k =>
        (column n (fun i => rowX (x i)) k).map (fun e => (e.1, real e.2))) >>= fun s_out =>
        si.columns n L (fun k => (column n (fun i => rowX (y i)) k).map
          (fun e => (e.1, real e.2))) >>= fun s_in => .ok (mk, s_out, s_in))
      = (.ok (mk, co, ci) : Except Sampled.Err (((ℕ → Adj) → MultiObj ι γ κ Adj) × _ × _)) := by
      rw [hmk]
      show (so.columns n L (fun k => (column n (fun i => rowX (x i)) k).map
        (fun e => (e.1, real e.2))) >>= fun _ => _) = _
      rw [hco]
      show (si.columns n L (fun k => (column n (fun i => rowX (y i)) k).map
        (fun e => (e.1, real e.2))) >>= fun _ => _) = _
      rw [hci]
      rfl
    show (match ((Sampled.header n L ref >>= fun mk => so.columns n L (fun k =>
        (column n (fun i => rowX (x i)) k).map (fun e => (e.1, real e.2))) >>= fun s_out =>
        si.columns n L (fun k => (column n (fun i => rowX (y i)) k).map
          (fun e => (e.1, real e.2))) >>= fun s_in => .ok (mk, s_out, s_in)) :
          Except Sampled.Err (((ℕ → Adj) → MultiObj ι γ κ Adj) × _ × _)) with
      | .error err => r = .error err
      | .ok (mk, s_out, s_in) => _) ↔ _
    rw [hpre]
    exact Iff.rfl
  have hgood : (∀ k < L, ok k) → ∃ rows : ℕ → List ((ℕ × ℕ) × XR), ∀ k < L, F k = .ok (rows k) := by
    intro h
    have : ∀ k, ∃ l, k < L → F k = .ok l := by
      intro k
      by_cases hk : k < L
      · obtain ⟨l, hl⟩ := (hok k).2 (h k hk)
        exact ⟨l, fun _ => hl⟩
      · exact ⟨[], fun h => absurd h hk⟩
    choose rows hrows using this
    exact ⟨rows, hrows⟩
  have hall : ∀ g, R (.ok g) → ∃ rows : ℕ → List ((ℕ × ℕ) × XR), (∀ k < L, F k = .ok (rows k)) ∧
      g = mk (fun k => .float (coo (floatRows (if k < L then rows k else [])))) := by
    intro g hg
    rcases (hrun _).1 hg with ⟨k, -, err, -, h⟩ | ⟨rows, h1, h2⟩
    · cases h
    · exact ⟨rows, h1, by cases h2; rfl⟩
  refine ⟨?_, ⟨?_, ?_⟩, ?_, ?_, ?_, ?_⟩
  · by_cases h : ∀ k < L, ok k
    · obtain ⟨rows, hrows⟩ := hgood h
      exact ⟨_, (hrun _).2 (Or.inr ⟨rows, hrows, rfl⟩)⟩
    · push Not at h
      obtain ⟨k, hk, hno⟩ := h
      obtain ⟨err, he⟩ := herr k hno
      exact ⟨_, (hrun _).2 (Or.inl ⟨k, hk, err, he, rfl⟩)⟩
  · rintro ⟨g, hg⟩ k hk
    obtain ⟨rows, h1, -⟩ := hall g hg
    exact (hok k).1 ⟨_, h1 k hk⟩
  · intro h
    obtain ⟨rows, hrows⟩ := hgood h
    exact ⟨_, (hrun _).2 (Or.inr ⟨rows, hrows, rfl⟩)⟩
  · intro g hg r hr
    obtain ⟨rows, h1, rfl⟩ := hall g hg
    rcases (hrun _).1 hr with ⟨k, hk, err, h, -⟩ | ⟨rows', h1', rfl⟩
    · rw [h1 k hk] at h; cases h
    · have : (fun k => if k < L then rows' k else []) = fun k => if k < L then rows k else [] := by
        funext k
        by_cases hk : k < L
        · rw [if_pos hk, if_pos hk]
          exact Except.ok.inj ((h1' k hk).symm.trans (h1 k hk))
        · rw [if_neg hk, if_neg hk]
      simp only [funext_iff] at this
      simp only [this]
  · intro err he
    rcases (hrun _).1 he with ⟨k, hk, err', h, h'⟩ | ⟨rows, -, h⟩
    · cases h'
      refine ⟨k, hk, fun hc => ?_, (hfacts k).2.1 err h⟩
      obtain ⟨l, hl⟩ := (hok k).2 hc
      rw [h] at hl
      cases hl
    · cases h
  · intro k hk hno
    obtain ⟨err, he⟩ := herr k hno
    exact ⟨err, (hrun _).2 (Or.inl ⟨k, hk, err, he, rfl⟩)⟩
  · intro g hg
    obtain ⟨rows, h1, rfl⟩ := hall g hg
    refine ⟨(hmk2 _).1, fun k hk => ?_⟩
    rw [(hmk2 _).2]
    refine ⟨_, rfl, fun i j => ?_⟩
    rw [if_pos hk]
    obtain ⟨hnd, hmem⟩ := (hfacts k).2.2 (rows k) (h1 k hk)
    obtain ⟨f1, f2⟩ := coo_float hnd i j
    constructor
    · intro hp hlt
      exact f1 _ ((hmem i j _).2 ⟨hp, hlt, rfl⟩)
    · intro hno
      refine f2 (fun h => hno ?_)
      obtain ⟨⟨a, w⟩, ha, hae⟩ := List.mem_map.1 h
      cases hae
      have := (hmem i j w).1 ha
      exact ⟨this.1, this.2.1⟩

/-- **C80**, errors of `sample` in the order of the tests; unknown weights are refused also when there
are no labels. -/
theorem C80_multi_sample_errors (o : Obj (List (ℕ × XR))) (ref : Option (Ref ι γ κ))
    (w : Sampled.Weights) (so si : Strength) (sl : Option Bool) (u e : ℕ → ℕ → ℕ → ℝ) :
    let R := fun err => ∀ r, Sample o ref w so si sl u e r ↔ r = .error err
    let n := o.num_vertices
    let L := o.num_labels
    (o.param = none → R .notFitted) ∧
    (o.param ≠ none → (2 ^ 64 ≤ n ∨ 2 ^ 64 ≤ L → R .dtype) ∧
      (n < 2 ^ 64 → L < 2 ^ 64 →
        (¬ RefOk ref → R .noLabelDict) ∧
        (RefOk ref →
          (so = .other → R .strengthType) ∧
          (∀ sh, so.shape = some sh → sh ≠ (n, L) → R .strengthShape) ∧
          (so.ShapeOk n L →
            (si = .other → R .strengthType) ∧
            (∀ sh, si.shape = some sh → sh ≠ (n, L) → R .strengthShape) ∧
            (si.ShapeOk n L → w = .other → R .badWeights))))) := by
  intro R n L
  refine ⟨fun h r => ?_, fun h => ?_⟩
  · unfold Sample
    rw [h]
  obtain ⟨θ, hθ⟩ := Option.ne_none_iff_exists'.1 h
  let col := fun (prop : ℕ → List (ℕ × XR)) k =>
      (Layer.column n prop k).map (fun e => (e.1, real e.2))
  let pre : Except Sampled.Err (((ℕ → Adj) → MultiObj ι γ κ Adj) × _ × _) :=
    (Sampled.header n L ref >>= fun mk => so.columns n L (col o.prop_out) >>= fun s_out =>
      si.columns n L (col o.prop_in) >>= fun s_in => .ok (mk, s_out, s_in))
  have hpre : ∀ err, pre = .error err → R err := by
    intro err he r
    unfold Sample
    rw [hθ]
    show (match (generalizing := false) pre with
      | .error err => r = .error err
      | .ok (mk, s_out, s_in) => _) ↔ _
    rw [he]
  refine ⟨fun hbig => hpre _ ?_, fun hn hL => ⟨fun hr => hpre _ ?_, fun hr => ?_⟩⟩
  · simp only [pre]; rw [header_dtype hbig]; rfl
  · unfold RefOk at hr
    push Not at hr
    obtain ⟨r0, rfl, h0⟩ := hr
    simp only [pre]; rw [header_label hn hL h0]; rfl
  obtain ⟨mk, hmk, -⟩ := header_ok (A := Adj) hn hL hr
  obtain ⟨a1, a2, a3⟩ := columns_cases so n L (col o.prop_out)
  obtain ⟨b1, b2, b3⟩ := columns_cases si n L (col o.prop_in)
  have p1 : pre = (so.columns n L (col o.prop_out) >>= fun s_out =>
      si.columns n L (col o.prop_in) >>= fun s_in => .ok (mk, s_out, s_in)) := by
    simp only [pre]; rw [hmk]; rfl
  refine ⟨fun h1 => hpre _ ?_, fun sh h1 h2 => hpre _ ?_, fun h1 => ?_⟩
  · rw [p1, a1 h1]; rfl
  · rw [p1, a2 sh h1 h2]; rfl
  obtain ⟨co, hco⟩ := a3 h1
  have p2 : pre = (si.columns n L (col o.prop_in) >>= fun s_in => .ok (mk, co, s_in)) := by
    rw [p1, hco]; rfl
  refine ⟨fun h2 => hpre _ ?_, fun sh h2 h3 => hpre _ ?_, fun h2 hw r => ?_⟩
  · rw [p2, b1 h2]; rfl
  · rw [p2, b2 sh h2 h3]; rfl
  obtain ⟨ci, hci⟩ := b3 h2
  have p3 : pre = .ok (mk, co, ci) := by rw [p2, hci]; rfl
  unfold Sample
  rw [hθ, hw]
  show (match (generalizing := false) pre with
    | .error err => r = .error err
    | .ok (mk, s_out, s_in) => _) ↔ _
  rw [p3]

/-- **C80** fails for `sample(selfloops=False)`: the argument is ignored, the sample contains a self
loop. -/
theorem C80_multi_violated_sample (K : Kind) (u e : ℕ → ℕ → ℕ → ℝ)
    (hu : ∀ k i j, 0 ≤ u k i j ∧ u k i j < 1) :
    (0, 0) ∉ Law.pairs 1 false ∧
    ∃ g : MultiObj ℕ ℕ ℕ Adj, (∀ r, Sample (sparseObj K 1 1 (some loopD) loopX loopX (fun _ _ => 1)
        true) none .none .none .none (some false) u e r ↔ r = .ok g) ∧
      ∃ A, g.adj 0 = .bool A ∧ A 0 0 = true := by
  refine ⟨by decide, ?_⟩
  obtain ⟨g, hg, -, hA⟩ := C80_multi_sample_partial (ι := ℕ) (γ := ℕ) (κ := ℕ) K 1 1 (by norm_num)
    (by norm_num) loopD loopX loopX loopX_sorted loopX_sorted (fun _ _ => 1) true none nofun .none
    .none trivial trivial (some false) u e (fun k i j => (hu k i j).1)
  obtain ⟨A, hA1, hA2⟩ := hA 0 (by norm_num)
  refine ⟨g, hg, A, hA1, (hA2 0 0).2 ⟨by decide, ?_⟩⟩
  have : layerProb K loopD loopX loopX 0 (0, 0) = 1 := by
    have h : loopD 0 * entry (loopX 0) 0 * entry (loopX 0) 0 = ⊤ := by
      simp [loopD, loopX, entry]
    show K.q (loopD 0 * entry (loopX 0) 0 * entry (loopX 0) 0) = 1
    rw [h]
    cases K
    · exact fitProb_top
    · exact invProb_top
  rw [this]
  exact (hu 0 0 0).2

/-- The hypotheses can be met, with strengths given as an array. -/
example : (∀ i, RowSorted (loopX i)) ∧ (∀ i, ∀ a ∈ loopX i, a.2 ≠ ∞) ∧
    RefOk (none : Option (Ref ℕ ℕ ℕ)) ∧ (Strength.array (2, 1) (fun _ _ => 1)).Fits 2 1 ∧
    LayerOk 2 false (layerProb .fit (fun _ => 1) loopX loopX 0) (fun _ _ => 0)
      (fun i => (Strength.array (2, 1) (fun _ _ => 1)).value loopX i 0)
      (fun i => (Strength.array (2, 1) (fun _ _ => 1)).value loopX i 0)
      (fun i => (Strength.array (2, 1) (fun _ _ => 1)).stored loopX i 0)
      (fun i => (Strength.array (2, 1) (fun _ _ => 1)).stored loopX i 0) ∧
    ∃ (Ω : Type) (_ : MeasurableSpace Ω) (P : Measure Ω) (_ : IsProbabilityMeasure P)
      (U : ℕ × ℕ × ℕ → Ω → ℝ), IsUniform P U := by
  refine ⟨loopX_sorted, by simp [loopX], nofun, rfl, ⟨?_, ?_, ?_⟩, exists_isUniform _⟩
  · simp [Strength.value]
  · simp [Strength.value]
    norm_num
  · simp [Strength.stored]

end MultiMethod

end Spark

end

end Verif
