import Verif.Round.LayerLemmas
import Verif.Round.DegProps

/-!
# C112: expected edges, expected degrees and samples by label in double precision

The loops over one label of the sparse backend (`Round.exp_edges_label`, `Round.exp_degrees_label`) and
the samplers of the layers of the sparse and the dense backend, which compare the computed
probabilities with random numbers of 53 bits (`IsGrid`).

Missing in the theorems with the suffix `_partial`: factors whose partial products leave the range of
`Round.LayerRange`, and mathematical functions that are not correctly rounded.
-/

namespace Verif

open XR Round Verif.Spec MeasureTheory

/-- `p_ijk` of the multi-layer models, in double precision and without rounding. -/
noncomputable def Round.layerModels : List ((XR → XR → XR → XR → XR) × (XR → XR → XR → XR → XR)) :=
  [(Round.Dense.FitnessModel.p_ij binary64, Verif.MultiFitnessModel.p_ijk),
    (Round.Dense.ScaleInvariantModel.p_ij binary64, Verif.MultiInvariantModel.p_ijk)]

/-- The labelled pairs `(k, i, j)` for which label `k` is stored in the out properties of `i` and in
the in properties of `j`. -/
noncomputable def Round.stored (n L : ℕ) (sl : Bool) (x y : ℕ → List (ℕ × ℝ)) :
    Finset (ℕ × ℕ × ℕ) :=
  open Classical in
  (Finset.range L ×ˢ Law.pairs n sl).filter fun e =>
    (∃ a, (e.1, a) ∈ x e.2.1) ∧ ∃ b, (e.1, b) ∈ y e.2.2

/-- The values as the code holds them. -/
noncomputable def Round.row (x : List (ℕ × ℝ)) : List (ℕ × XR) := x.map fun p => (p.1, fin p.2)

/-- The links drawn in the layers, as labelled pairs. -/
def Round.labelled (S : List (List (ℕ × ℕ))) : Finset (ℕ × ℕ × ℕ) :=
  ((List.range S.length).flatMap fun k => (S.getD k []).map fun e => (k, e)).toFinset

theorem Round.layer_term {f : (XR → XR → XR → XR → XR) × (XR → XR → XR → XR → XR)}
    (hf : f ∈ Round.layerModels) {d a b : ℝ} (h : LayerRange d a b) (z : XR) :
    Term (5.3 * ulp2) (f.1 (fin d) (fin a) (fin b) z) (f.2 (fin d) (fin a) (fin b) z) := by
  have hm : f ∈ Round.models := by
    simp only [Round.layerModels, List.mem_cons, List.not_mem_nil, or_false] at hf
    rcases hf with rfl | rfl <;> simp [Round.models]
  have hz : ∀ w, f.1 (fin d) (fin a) (fin b) z = f.1 (fin d) (fin a) (fin b) w ∧
      f.2 (fin d) (fin a) (fin b) z = f.2 (fin d) (fin a) (fin b) w := by
    intro w
    simp only [Round.layerModels, List.mem_cons, List.not_mem_nil, or_false] at hf
    rcases hf with rfl | rfl <;> exact ⟨rfl, rfl⟩
  have hr : Round.InRange d a b 0 := by
    rcases h with h | ⟨h1, h2, h3, h4, h5⟩
    · exact .inl h
    · exact .inr ⟨h1, h2, h3, h4, h5, .inl rfl⟩
  rw [(hz (fin 0)).1, (hz (fin 0)).2]
  obtain ⟨p, hp, q, q0, p0, p1, e1, e2, hw⟩ := Round.pair_acc hm hr
  exact ⟨p, hp, q, e1, e2, p0, p1, q0, Round.exact_le_one hm hr e2, hw⟩

theorem Round.mem_row {x : List (ℕ × ℝ)} {k : ℕ} {v : XR} (h : (k, v) ∈ Round.row x) :
    ∃ a, v = fin a ∧ (k, a) ∈ x := by
  obtain ⟨⟨k', a⟩, h1, e⟩ := List.mem_map.1 h
  obtain ⟨rfl, rfl⟩ := Prod.mk.inj e
  exact ⟨a, rfl, h1⟩

private theorem sorted_row {x : List (ℕ × ℝ)} (h : RowSorted x) : RowSorted (Round.row x) := by
  unfold RowSorted Round.row at *
  rw [List.pairwise_map]
  exact h

private theorem mem_row_of {x : List (ℕ × ℝ)} {k : ℕ} {a : ℝ} (h : (k, a) ∈ x) :
    (k, fin a) ∈ Round.row x := List.mem_map.2 ⟨(k, a), h, rfl⟩

section

variable {n L : ℕ} {sl : Bool} {x y : ℕ → List (ℕ × ℝ)}

private theorem mem_stored {k i j : ℕ} : (k, i, j) ∈ Round.stored n L sl x y ↔
    k < L ∧ (i, j) ∈ Law.pairs n sl ∧ (∃ a, (k, a) ∈ x i) ∧ ∃ b, (k, b) ∈ y j := by
  classical
  unfold Round.stored
  rw [Finset.mem_filter, Finset.mem_product, Finset.mem_range]
  tauto

private theorem mem_order_iff {k i j : ℕ} (hk : k < L) :
    (i, j) ∈ Layer.pairOrder (Layer.column n (fun i => Round.row (x i)) k)
      (Layer.column n (fun i => Round.row (y i)) k) sl ↔ (k, i, j) ∈ Round.stored n L sl x y := by
  rw [Layer.mem_pairOrder, mem_stored, Law.mem_pairs]
  constructor
  · rintro ⟨⟨⟨i', a⟩, ha, rfl⟩, ⟨⟨j', b⟩, hb, rfl⟩, hadm⟩
    obtain ⟨h1, ha⟩ := Layer.mem_column.1 ha
    obtain ⟨h2, hb⟩ := Layer.mem_column.1 hb
    obtain ⟨a', -, ha⟩ := Round.mem_row ha
    obtain ⟨b', -, hb⟩ := Round.mem_row hb
    exact ⟨hk, ⟨h1, h2, by simpa [admissible, or_comm] using hadm⟩, ⟨a', ha⟩, b', hb⟩
  · rintro ⟨-, ⟨h1, h2, h3⟩, ⟨a, ha⟩, b, hb⟩
    exact ⟨⟨(i, fin a), Layer.mem_column.2 ⟨h1, mem_row_of ha⟩, rfl⟩,
      ⟨(j, fin b), Layer.mem_column.2 ⟨h2, mem_row_of hb⟩, rfl⟩,
      by simpa [admissible, or_comm] using h3⟩

theorem Round.visits_card (hx : ∀ i, RowSorted (x i)) (hy : ∀ i, RowSorted (y i)) {k : ℕ}
    (hk : k < L) :
    (visits (Layer.column n (fun i => Round.row (x i)) k)
      (Layer.column n (fun i => Round.row (y i)) k) sl).length
      = ((Round.stored n L sl x y).filter fun e => e.1 = k).card := by
  rw [← List.length_map (f := fun v : (ℕ × XR) × (ℕ × XR) => (v.1.1, v.2.1)), map_visits,
    ← List.toFinset_card_of_nodup (Layer.nodup_pairOrder
      (Layer.column_sorted (fun i => sorted_row (hx i)) k)
      (Layer.column_sorted (fun i => sorted_row (hy i)) k) sl)]
  refine Finset.card_bij (fun e _ => (k, e)) ?_ ?_ ?_
  · rintro ⟨i, j⟩ he
    rw [List.mem_toFinset, mem_order_iff hk] at he
    exact Finset.mem_filter.2 ⟨he, rfl⟩
  · intro a _ b _ h
    exact (Prod.mk.inj h).2
  · rintro ⟨k', i, j⟩ he
    obtain ⟨he2, ek⟩ := Finset.mem_filter.1 he
    replace ek : k' = k := ek
    subst ek
    exact ⟨(i, j), by rw [List.mem_toFinset, mem_order_iff hk]; exact he2, rfl⟩

private theorem touches_card (hx : ∀ i, RowSorted (x i)) (hy : ∀ i, RowSorted (y i)) (key : ℕ × ℕ) :
    touches (allVisits n L (fun i => Round.row (x i)) (fun i => Round.row (y i)) sl) key
      = ((Round.stored n L sl x y).filter fun e =>
          e.1 = key.2 ∧ (e.2.1 = key.1 ∨ e.2.2 = key.1)).card := by
  have hmap : (allVisits n L (fun i => Round.row (x i)) (fun i => Round.row (y i)) sl).map
        (fun v => (v.1, v.2.1.1, v.2.2.1))
      = (List.range L).flatMap fun k => (Layer.pairOrder
          (Layer.column n (fun i => Round.row (x i)) k)
          (Layer.column n (fun i => Round.row (y i)) k) sl).map fun e => (k, e) := by
    unfold allVisits
    rw [List.map_flatMap]
    congr 1
    funext k
    rw [List.map_map, ← map_visits, List.map_map]
    rfl
  have hnd : ((allVisits n L (fun i => Round.row (x i)) (fun i => Round.row (y i)) sl).map
        (fun v => (v.1, v.2.1.1, v.2.2.1))).Nodup := by
    rw [hmap, List.nodup_flatMap]
    refine ⟨fun k _ => (Layer.nodup_pairOrder
      (Layer.column_sorted (fun i => sorted_row (hx i)) k)
      (Layer.column_sorted (fun i => sorted_row (hy i)) k) sl).map
        (fun a b h => (Prod.mk.inj h).2), ?_⟩
    refine List.nodup_range.imp (fun {a b} hab => ?_)
    intro e h1 h2
    obtain ⟨f, -, rfl⟩ := List.mem_map.1 h1
    obtain ⟨g, -, h3⟩ := List.mem_map.1 h2
    exact hab (Prod.mk.inj h3).1.symm
  have hc : touches (allVisits n L (fun i => Round.row (x i)) (fun i => Round.row (y i)) sl) key
      = (((allVisits n L (fun i => Round.row (x i)) (fun i => Round.row (y i)) sl).map
        (fun v => (v.1, v.2.1.1, v.2.2.1))).filter
          (fun e => decide (e.1 = key.2 ∧ (e.2.1 = key.1 ∨ e.2.2 = key.1)))).length := by
    unfold touches
    rw [← List.countP_eq_length_filter, List.countP_map]
    rfl
  rw [hc, ← List.toFinset_card_of_nodup (hnd.filter _)]
  congr 1
  ext ⟨k, i, j⟩
  rw [List.mem_toFinset, List.mem_filter, Finset.mem_filter, hmap]
  simp only [decide_eq_true_eq]
  refine and_congr_left fun _ => ?_
  rw [List.mem_flatMap]
  constructor
  · rintro ⟨k', hk', h⟩
    obtain ⟨e, he, e2⟩ := List.mem_map.1 h
    obtain ⟨rfl, rfl⟩ := Prod.mk.inj e2
    exact (mem_order_iff (List.mem_range.1 hk')).1 he
  · intro h
    have hk := (mem_stored.1 h).1
    exact ⟨k, List.mem_range.2 hk, List.mem_map.2 ⟨(i, j), (mem_order_iff hk).2 h, rfl⟩⟩

theorem Round.stored_label_le (k : ℕ) :
    ((Round.stored n L sl x y).filter fun e => e.1 = k).card ≤ n * n := by
  have hp : (Law.pairs n sl).card ≤ n * n := by
    have : Law.pairs n sl ⊆ Finset.range n ×ˢ Finset.range n := by
      rintro ⟨i, j⟩ he
      obtain ⟨h1, h2, _⟩ := Law.mem_pairs.1 he
      exact Finset.mem_product.2 ⟨Finset.mem_range.2 h1, Finset.mem_range.2 h2⟩
    refine (Finset.card_le_card this).trans ?_
    rw [Finset.card_product, Finset.card_range]
  refine le_trans ?_ hp
  refine Finset.card_le_card_of_injOn (fun e => e.2) ?_ ?_
  · rintro ⟨k', i, j⟩ he
    obtain ⟨he, _⟩ := Finset.mem_filter.1 (Finset.mem_coe.1 he)
    exact (mem_stored.1 he).2.1
  · rintro ⟨k1, e1⟩ h1 ⟨k2, e2⟩ h2 h
    have a1 := (Finset.mem_filter.1 (Finset.mem_coe.1 h1)).2
    have a2 := (Finset.mem_filter.1 (Finset.mem_coe.1 h2)).2
    exact Prod.ext (a1.trans a2.symm) h

private theorem label_card (hn : n ≤ 2 ^ 25) (k : ℕ) :
    ((Round.stored n L sl x y).filter fun e => e.1 = k).card ≤ 2 ^ 50 := by
  refine (Round.stored_label_le k).trans ?_
  calc n * n ≤ 2 ^ 25 * 2 ^ 25 := Nat.mul_le_mul hn hn
    _ = 2 ^ 50 := by norm_num

private theorem touch_card (hn : n ≤ 2 ^ 25) (key : ℕ × ℕ) :
    ((Round.stored n L sl x y).filter fun e =>
      e.1 = key.2 ∧ (e.2.1 = key.1 ∨ e.2.2 = key.1)).card ≤ 2 ^ 50 := by
  refine le_trans (Finset.card_le_card ?_) (label_card (L := L) (sl := sl) (x := x) (y := y) hn key.2)
  intro e he
  obtain ⟨h1, h2, _⟩ := Finset.mem_filter.1 he
  exact Finset.mem_filter.2 ⟨h1, h2⟩

private theorem range_term {f : (XR → XR → XR → XR → XR) × (XR → XR → XR → XR → XR)}
    (hf : f ∈ Round.layerModels) {d : ℕ → ℝ}
    (h : ∀ i < n, ∀ j < n, ∀ k a b, (k, a) ∈ x i → (k, b) ∈ y j → LayerRange (d k) a b) {k : ℕ}
    {a b z : XR} (ha : a = 0 ∨ ∃ i, (i, a) ∈ Layer.column n (fun i => Round.row (x i)) k)
    (hb : b = 0 ∨ ∃ j, (j, b) ∈ Layer.column n (fun i => Round.row (y i)) k) :
    Term (5.3 * ulp2) (f.1 (fin (d k)) a b z) (f.2 (fin (d k)) a b z) := by
  have key : ∃ r s : ℝ, a = fin r ∧ b = fin s ∧ LayerRange (d k) r s := by
    have ea : a = 0 ∨ ∃ i < n, ∃ r, a = fin r ∧ (k, r) ∈ x i := ha.imp_right fun ⟨i, h⟩ => by
      obtain ⟨h1, h2⟩ := Layer.mem_column.1 h
      obtain ⟨r, e, hr⟩ := Round.mem_row h2
      exact ⟨i, h1, r, e, hr⟩
    have eb : b = 0 ∨ ∃ i < n, ∃ r, b = fin r ∧ (k, r) ∈ y i := hb.imp_right fun ⟨i, h⟩ => by
      obtain ⟨h1, h2⟩ := Layer.mem_column.1 h
      obtain ⟨r, e, hr⟩ := Round.mem_row h2
      exact ⟨i, h1, r, e, hr⟩
    rcases ea with rfl | ⟨i, hi, r, rfl, hr⟩
    · rcases eb with rfl | ⟨j, hj, s, rfl, hs⟩
      · exact ⟨0, 0, rfl, rfl, .inl (.inl rfl)⟩
      · exact ⟨0, s, rfl, rfl, .inl (.inl rfl)⟩
    · rcases eb with rfl | ⟨j, hj, s, rfl, hs⟩
      · exact ⟨r, 0, rfl, rfl, .inl (.inr (.inl rfl))⟩
      · exact ⟨r, s, rfl, rfl, h i hi j hj k r s hr hs⟩
  obtain ⟨r, s, rfl, rfl, hrs⟩ := key
  exact Round.layer_term hf hrs z

end

private theorem small_count {c : ℝ} {k : ℕ} (hc : c ≤ 2 ^ 40) (hk : k ≤ 2 ^ 50) :
    (c + k) * ulp2 ≤ 1 / 2 := by
  have h1 : (k : ℝ) ≤ 2 ^ 50 := by exact_mod_cast hk
  calc (c + k) * ulp2 ≤ (2 ^ 40 + 2 ^ 50) * ulp2 :=
        mul_le_mul_of_nonneg_right (by linarith) ulp2_pos.le
    _ ≤ (2 ^ 40 + 2 ^ 50) * (1 / 2 ^ 53) :=
        mul_le_mul_of_nonneg_left (by unfold ulp2; norm_num) (by norm_num)
    _ ≤ _ := by norm_num

private theorem close_at {c : ℝ} (c0 : 0 ≤ c) (hc : c ≤ 2 ^ 40) {m : ℕ × ℕ → ℕ} {s t : Layer.Dict}
    (h : DictRel (c * ulp2) m s t) (i k : ℕ) (hm : m (i, k) ≤ 2 ^ 50) {b : ℝ}
    (hb : c + m (i, k) ≤ b) :
    Close (fun V => b * (2 : ℝ) ^ (-52 : ℤ) * V) (Layer.at_ s i k) (Layer.at_ t i k) := by
  unfold Layer.at_
  rcases h (i, k) with ⟨h1, h2⟩ | ⟨v, w, h1, h2, ha⟩
  · rw [h1, h2]
    exact ⟨0, 0, rfl, rfl, le_rfl, by simp⟩
  · rw [h1, h2]
    exact ha.close c0 (small_count hc hm) hb

/-- **C112**, expected numbers of edges and expected degrees by label (sparse backend).  With at most
`2 ^ 25` vertices, any number of labels and factors in the normal range or zero, the expected number of
edges of a label has a relative error of at most `(N + 6) * 2 ^ -52`, where `N` is the number of pairs
that store the label; the out-degree and in-degree of a vertex under a label have relative errors of at
most `(M + 6) * 2 ^ -52` and its degree of at most `(M + 11) * 2 ^ -52`, where `M` is the number of such
pairs that contain the vertex. -/
theorem C112_expected_partial (f : (XR → XR → XR → XR → XR) × (XR → XR → XR → XR → XR))
    (hf : f ∈ Round.layerModels) (n L : ℕ) (hn : n ≤ 2 ^ 25) (d : ℕ → ℝ) (x y : ℕ → List (ℕ × ℝ))
    (hx : ∀ i, RowSorted (x i)) (hy : ∀ i, RowSorted (y i))
    (h : ∀ i < n, ∀ j < n, ∀ k a b, (k, a) ∈ x i → (k, b) ∈ y j → Round.LayerRange (d k) a b)
    (dyad : ℕ → ℕ → XR) (sl : Bool) :
    let D : ℕ → XR := fun k => fin (d k)
    let X := fun i => Round.row (x i)
    let Y := fun i => Round.row (y i)
    let e := Round.exp_edges_label binary64 f.1 n L D X Y dyad sl
    let E := Layer.exp_edges_label f.2 n L D X Y dyad sl
    let s := Round.exp_degrees_label binary64 f.1 n L D X Y dyad sl
    let t := Layer.exp_degrees_label f.2 n L D X Y dyad sl
    e.length = L ∧ E.length = L ∧ ∀ k < L,
      Round.Close (fun V => (((Round.stored n L sl x y).filter fun e => e.1 = k).card + 6)
        * (2 : ℝ) ^ (-52 : ℤ) * V) (e.getD k 0) (E.getD k 0) ∧
      ∀ i, ∃ M : ℕ, M = ((Round.stored n L sl x y).filter fun e =>
          e.1 = k ∧ (e.2.1 = i ∨ e.2.2 = i)).card ∧
        Round.Close (fun V => (M + 6) * (2 : ℝ) ^ (-52 : ℤ) * V) (Layer.at_ s.dOut i k)
          (Layer.at_ t.dOut i k) ∧
        Round.Close (fun V => (M + 6) * (2 : ℝ) ^ (-52 : ℤ) * V) (Layer.at_ s.dIn i k)
          (Layer.at_ t.dIn i k) ∧
        Round.Close (fun V => (M + 11) * (2 : ℝ) ^ (-52 : ℤ) * V) (Layer.at_ s.d i k)
          (Layer.at_ t.d i k) := by
  intro D X Y e E s t
  have hu := ulp2_pos
  have hu' := ulp2_small
  refine ⟨by simp [e, Round.exp_edges_label], by simp [E, Layer.exp_edges_label], fun k hk => ?_⟩
  have hdeg := degrees_label_rel (c := 5.3) (by norm_num) (by norm_num) (n := n) (L := L) (p := f.1)
    (q := f.2) (D := D) (X := X) (Y := Y) (dyad := dyad) (sl := sl)
    (fun key => by rw [touches_card hx hy]; exact touch_card hn key)
    (fun k _ a b z ha hb => range_term hf h ha hb)
  constructor
  · have hN := Round.visits_card (n := n) (L := L) (sl := sl) hx hy hk
    have hNle : (visits (Layer.column n X k) (Layer.column n Y k) sl).length ≤ 2 ^ 50 := by
      rw [hN]; exact label_card hn k
    have := edges_layer_acc (c := 5.3 * ulp2) (by positivity) (by linarith) (p := f.1) (q := f.2)
      (D := D k) (a := Layer.column n X k) (b := Layer.column n Y k) (dyad := dyad) (sl := sl)
      (by omega) (fun a ha b hb => range_term hf h (.inr ⟨a.1, ha⟩) (.inr ⟨b.1, hb⟩))
    have e1 : e.getD k 0 = Round.exp_edges_layer binary64 f.1 (D k) (Layer.column n X k)
        (Layer.column n Y k) dyad sl := by
      simp [e, Round.exp_edges_label, List.getD, hk]
    have e2 : E.getD k 0 = Layer.exp_edges_layer f.2 (D k) (Layer.column n X k)
        (Layer.column n Y k) dyad sl := by
      simp [E, Layer.exp_edges_label, List.getD, hk]
    rw [e1, e2]
    refine this.close (by norm_num) (small_count (by norm_num) hNle) ?_
    rw [hN]
    linarith
  · intro i
    obtain ⟨h1, h2, h3, -⟩ := hdeg
    have hM : touches (allVisits n L X Y sl) (i, k) = _ := touches_card hx hy (i, k)
    have hMle : touches (allVisits n L X Y sl) (i, k) ≤ 2 ^ 50 := by
      rw [hM]; exact touch_card hn (i, k)
    refine ⟨_, rfl, close_at (by norm_num) (by norm_num) h2 i k hMle ?_,
      close_at (by norm_num) (by norm_num) h3 i k hMle ?_,
      close_at (by norm_num) (by norm_num) h1 i k hMle ?_⟩ <;> rw [hM] <;> linarith

/-! ## Samples -/

private theorem six {v : ℝ} (hv : 0 ≤ v) : 5.3 * (2 : ℝ) ^ (-53 : ℤ) * v ≤ 6 * (2 : ℝ) ^ (-53 : ℤ) * v :=
  mul_le_mul_of_nonneg_right (mul_le_mul_of_nonneg_right (by norm_num) (by positivity)) hv

private theorem seven {v B : ℝ} (hv : 0 ≤ v) (hB : 0 ≤ B) :
    (5.3 + 1) * (2 : ℝ) ^ (-53 : ℤ) * v * B ≤ 7 * (2 : ℝ) ^ (-53 : ℤ) * v * B :=
  mul_le_mul_of_nonneg_right (mul_le_mul_of_nonneg_right
    (mul_le_mul_of_nonneg_right (by norm_num) (by positivity)) hv) hB

private theorem Round.layer_probs {f : (XR → XR → XR → XR → XR) × (XR → XR → XR → XR → XR)}
    (hf : f ∈ Round.layerModels) {n : ℕ} {d : ℕ → ℝ} {x y : ℕ → List (ℕ × ℝ)}
    (hx : ∀ i, RowSorted (x i)) (hy : ∀ i, RowSorted (y i))
    (h : ∀ i < n, ∀ j < n, ∀ k a b, (k, a) ∈ x i → (k, b) ∈ y j → LayerRange (d k) a b)
    (dyad : ℕ → ℕ → XR) (e : ℕ × ℕ × ℕ) :
    ∃ r : ℝ × ℝ, e.2.1 < n → e.2.2 < n → ∀ a b, (e.1, a) ∈ x e.2.1 →
      (e.1, b) ∈ y e.2.2 → f.1 (fin (d e.1)) (fin a) (fin b) (dyad e.2.1 e.2.2) = fin r.1 ∧
        f.2 (fin (d e.1)) (fin a) (fin b) (dyad e.2.1 e.2.2) = fin r.2 ∧
        0 ≤ r.1 ∧ r.1 ≤ 1 ∧ 0 ≤ r.2 ∧ r.2 ≤ 1 ∧ Within (5.3 * ulp2) r.2 r.1 := by
  obtain ⟨k, i, j⟩ := e
  by_cases he : i < n ∧ j < n ∧ (∃ a, (k, a) ∈ x i) ∧ ∃ b, (k, b) ∈ y j
  · obtain ⟨hi, hj, ⟨a, ha⟩, b, hb⟩ := he
    obtain ⟨s, hs, t, e1, e2, s0, s1, t0, t1, hw⟩ :=
      Round.layer_term hf (h i hi j hj k a b ha hb) (dyad i j)
    refine ⟨(s, t), fun _ _ a' b' ha' hb' => ?_⟩
    replace ha' : (k, a') ∈ x i := ha'
    replace hb' : (k, b') ∈ y j := hb'
    have h1 := Layer.entry_of_mem (hx i) ha
    have h2 := Layer.entry_of_mem (hx i) ha'
    have h3 := Layer.entry_of_mem (hy j) hb
    have h4 := Layer.entry_of_mem (hy j) hb'
    have ea : a' = a := h2.symm.trans h1
    have eb : b' = b := h4.symm.trans h3
    rw [ea, eb]
    exact ⟨e1, e2, s0, s1, t0, t1, hw⟩
  · exact ⟨0, fun hi hj a b ha hb => absurd ⟨hi, hj, ⟨a, ha⟩, b, hb⟩ he⟩

private theorem Round.edges_layer_sum {n L : ℕ} {sl : Bool} {x y : ℕ → List (ℕ × ℝ)}
    (hx : ∀ i, RowSorted (x i)) (hy : ∀ i, RowSorted (y i)) {k : ℕ} (hk : k < L)
    {p_ijk : XR → XR → XR → XR → XR} {D : XR} {dyad : ℕ → ℕ → XR} {q : ℕ × ℕ × ℕ → ℝ}
    (h : ∀ a ∈ Layer.column n (fun i => Round.row (x i)) k,
      ∀ b ∈ Layer.column n (fun i => Round.row (y i)) k,
        p_ijk D a.2 b.2 (dyad a.1 b.1) = fin (q (k, a.1, b.1))) :
    Layer.exp_edges_layer p_ijk D (Layer.column n (fun i => Round.row (x i)) k)
      (Layer.column n (fun i => Round.row (y i)) k) dyad sl
      = fin (∑ e ∈ (Round.stored n L sl x y).filter (fun e => e.1 = k), q e) := by
  have h1 : ∀ l : List ((ℕ × XR) × (ℕ × XR)), (∀ v ∈ l,
      v.1 ∈ Layer.column n (fun i => Round.row (x i)) k ∧
      v.2 ∈ Layer.column n (fun i => Round.row (y i)) k) → ∀ s : ℝ,
      l.foldl (fun st v => st + p_ijk D v.1.2 v.2.2 (dyad v.1.1 v.2.1)) (fin s)
        = fin (s + ((l.map fun v => (v.1.1, v.2.1)).map fun e => q (k, e)).sum) := by
    intro l
    induction l with
    | nil => intro _ s; simp
    | cons v l ih =>
      intro hl s
      obtain ⟨m1, m2⟩ := hl v (by simp)
      rw [List.foldl_cons, h _ m1 _ m2]
      show l.foldl _ (fin (s + q (k, v.1.1, v.2.1))) = _
      rw [ih (fun w hw => hl w (by simp [hw]))]
      simp only [List.map_cons, List.sum_cons, add_assoc]
  unfold Layer.exp_edges_layer
  rw [foldl_visits (fun e a b => e + p_ijk D a.2 b.2 (dyad a.1 b.1))]
  refine (h1 _ (fun v hv => ?_) 0).trans ?_
  · obtain ⟨m1, m2, _⟩ := mem_visits.1 hv
    exact ⟨m1, m2⟩
  · rw [map_visits, zero_add, ← List.sum_toFinset _ (Layer.nodup_pairOrder
      (Layer.column_sorted (fun i => sorted_row (hx i)) k)
      (Layer.column_sorted (fun i => sorted_row (hy i)) k) sl)]
    congr 1
    refine Finset.sum_bij (fun e _ => (k, e)) ?_ ?_ ?_ (fun _ _ => rfl)
    · rintro ⟨i, j⟩ he
      rw [List.mem_toFinset, mem_order_iff hk] at he
      exact Finset.mem_filter.2 ⟨he, rfl⟩
    · intro a _ b _ h
      exact (Prod.mk.inj h).2
    · rintro ⟨k', i, j⟩ he
      obtain ⟨he2, ek⟩ := Finset.mem_filter.1 he
      replace ek : k' = k := ek
      subst ek
      exact ⟨(i, j), by rw [List.mem_toFinset, mem_order_iff hk]; exact he2, rfl⟩

/-- **C112**, samples of the sparse backend.  All labelled links are drawn independently, each with its
computed probability rounded up to a multiple of `2 ^ -53`.  The mean of every quantity of the layers
with values between 0 and `B` differs from its mean over the exact ensemble by at most `7 * 2 ^ -53` per
stored labelled pair, times `B`; the mean number of links of every label differs from
`expected_num_edges_label` computed without rounding by at most `2 ^ -53` per stored pair of the label
and a relative error of `6 * 2 ^ -53`. -/
theorem C112_sparse_sample_partial (f : (XR → XR → XR → XR → XR) × (XR → XR → XR → XR → XR))
    (hf : f ∈ Round.layerModels) (n L : ℕ) (d : ℕ → ℝ) (x y : ℕ → List (ℕ × ℝ))
    (hx : ∀ i, RowSorted (x i)) (hy : ∀ i, RowSorted (y i))
    (h : ∀ i < n, ∀ j < n, ∀ k a b, (k, a) ∈ x i → (k, b) ∈ y j → Round.LayerRange (d k) a b)
    (dyad : ℕ → ℕ → XR) (sl : Bool)
    {Ω : Type} [MeasurableSpace Ω] (P : Measure Ω) [IsProbabilityMeasure P] (U : ℕ → Ω → ℝ)
    (hU : IsGrid P U) :
    let D : ℕ → XR := fun k => fin (d k)
    let X := fun i => Round.row (x i)
    let Y := fun i => Round.row (y i)
    let S := Round.stored n L sl x y
    let G := fun ω => Round.labelled (Layer.sample_stream f.1 n L D X Y dyad sl fun m => U m ω).2
    ∃ p q : ℕ × ℕ × ℕ → ℝ,
      (∀ k i j, (k, i, j) ∈ S → ∀ a b, (k, a) ∈ x i → (k, b) ∈ y j →
        f.1 (D k) (fin a) (fin b) (dyad i j) = fin (p (k, i, j)) ∧
        f.2 (D k) (fin a) (fin b) (dyad i j) = fin (q (k, i, j)) ∧
        0 ≤ q (k, i, j) ∧ q (k, i, j) ≤ 1) ∧
      (∀ H ⊆ S, P {ω | G ω = H} = ENNReal.ofReal
        (Law.prob S (fun e => (⌈p e * 2 ^ 53⌉₊ : ℝ) / 2 ^ 53) H)) ∧
      (∀ (B : ℝ) (F : Finset (ℕ × ℕ × ℕ) → ℝ), (∀ H, 0 ≤ F H ∧ F H ≤ B) →
        |∫ ω, F (G ω) ∂P - Law.mean S q F| ≤ 7 * (2 : ℝ) ^ (-53 : ℤ) * S.card * B) ∧
      ∀ k < L, ∃ E : ℝ, (Layer.exp_edges_label f.2 n L D X Y dyad sl)[k]? = some (fin E) ∧ 0 ≤ E ∧
        |∫ ω, (((G ω).filter fun e => e.1 = k).card : ℝ) ∂P - E|
          ≤ (2 : ℝ) ^ (-53 : ℤ) * (S.filter fun e => e.1 = k).card
            + 6 * (2 : ℝ) ^ (-53 : ℤ) * E := by
  intro D X Y S G
  have hu := ulp2_pos
  have hval := Round.layer_probs hf hx hy h dyad
  choose r hr using hval
  set p : ℕ × ℕ × ℕ → ℝ := fun e => (r e).1 with hpdef
  set q : ℕ × ℕ × ℕ → ℝ := fun e => (r e).2 with hqdef
  have hpq : ∀ e ∈ S, 0 ≤ p e ∧ p e ≤ 1 ∧ 0 ≤ q e ∧ q e ≤ 1 ∧ Within (5.3 * ulp2) (q e) (p e) := by
    rintro ⟨k, i, j⟩ he
    obtain ⟨hk, hp, ⟨a, ha⟩, b, hb⟩ := mem_stored.1 he
    obtain ⟨hi, hj, _⟩ := Law.mem_pairs.1 hp
    obtain ⟨-, -, h1, h2, h3, h4, h5⟩ := hr (k, i, j) hi hj a b ha hb
    exact ⟨h1, h2, h3, h4, h5⟩
  -- the sampler
  let O := fun k => Layer.pairOrder (Layer.column n X k) (Layer.column n Y k) sl
  let pos : ℕ × ℕ × ℕ → ℕ := fun e => Layer.pos O e.1 e.2
  have hO : ∀ {e : ℕ × ℕ × ℕ}, e ∈ S → e.2 ∈ O e.1 := by
    rintro ⟨k, i, j⟩ he
    exact (mem_order_iff (mem_stored.1 he).1).2 he
  have hpos : Set.InjOn pos S := by
    intro e he e' he' hee
    obtain ⟨h1, h2⟩ := Layer.pos_inj O (hO he) (hO he') hee
    exact Prod.ext h1 h2
  have hG : ∀ ω e, e ∈ G ω ↔ e ∈ S ∧ U (pos e) ω < p e := by
    rintro ω ⟨k, i, j⟩
    have hs := sample_stream_gen f.1 n L D X Y (fun i => sorted_row (hx i))
      (fun i => sorted_row (hy i)) dyad sl (fun m => U m ω) (p := fun k e => p (k, e)) (by
        rintro k hk ⟨i, a⟩ ha ⟨j, b⟩ hb
        obtain ⟨hi, ha⟩ := Layer.mem_column.1 ha
        obtain ⟨hj, hb⟩ := Layer.mem_column.1 hb
        obtain ⟨a', rfl, ha⟩ := Round.mem_row ha
        obtain ⟨b', rfl, hb⟩ := Round.mem_row hb
        exact (hr (k, i, j) hi hj a' b' ha hb).1)
    dsimp only at hs
    show (k, i, j) ∈ Round.labelled (Layer.sample_stream f.1 n L D X Y dyad sl fun m => U m ω).2 ↔ _
    rw [hs]
    unfold Round.labelled
    rw [List.mem_toFinset, List.mem_flatMap]
    simp only [List.length_map, List.length_range, List.mem_range]
    constructor
    · rintro ⟨k', hk', hm⟩
      obtain ⟨e, he, e2⟩ := List.mem_map.1 hm
      obtain ⟨rfl, rfl⟩ := Prod.mk.inj e2
      simp only [List.getD, List.getElem?_map, List.getElem?_range hk', Option.map_some,
        Option.getD_some, List.mem_filter, decide_eq_true_eq] at he
      exact ⟨(mem_order_iff hk').1 he.1, he.2⟩
    · rintro ⟨hm, hlt⟩
      have hk := (mem_stored.1 hm).1
      refine ⟨k, hk, List.mem_map.2 ⟨(i, j), ?_, rfl⟩⟩
      simp only [List.getD, List.getElem?_map, List.getElem?_range hk, Option.map_some,
        Option.getD_some, List.mem_filter, decide_eq_true_eq]
      exact ⟨(mem_order_iff hk).2 hm, hlt⟩
  clear_value G
  refine ⟨p, q, ?_, ?_, ?_, ?_⟩
  · intro k i j he a b ha hb
    obtain ⟨hi, hj, _⟩ := Law.mem_pairs.1 (mem_stored.1 he).2.1
    obtain ⟨h1, h2, -, -, h3, h4, -⟩ := hr (k, i, j) hi hj a b ha hb
    exact ⟨h1, h2, h3, h4⟩
  · intro H hH
    exact grid_law hU hpos (fun e he => (hpq e he).2.1) hG H hH
  · intro B F hF
    refine ((grid_dist hU hpos (by norm_num) hpq hG F hF).1).trans ?_
    exact seven (Nat.cast_nonneg _) ((hF ∅).1.trans (hF ∅).2)
  · intro k hk
    have hT : (S.filter fun e => e.1 = k) ⊆ S := Finset.filter_subset _ _
    have h1 := (grid_dist (B := 0) hU hpos (by norm_num) hpq hG (fun _ => 0)
      (fun _ => ⟨le_rfl, le_rfl⟩)).2 _ hT
    have h2 : ∀ ω, G ω ∩ S.filter (fun e => e.1 = k) = (G ω).filter fun e => e.1 = k := by
      intro ω
      ext e
      rw [Finset.mem_inter, Finset.mem_filter, Finset.mem_filter]
      exact ⟨fun h => ⟨h.1, h.2.2⟩, fun h => ⟨h.1, ((hG ω e).1 h.1).1, h.2⟩⟩
    simp only [h2] at h1
    have q0 : 0 ≤ ∑ e ∈ S.filter (fun e => e.1 = k), q e :=
      Finset.sum_nonneg fun e he => (hpq e (hT he)).2.2.1
    have h3 := h1.trans (add_le_add_right (six q0) _)
    generalize hE : ∑ e ∈ S.filter (fun e => e.1 = k), q e = E at h3 q0
    refine ⟨E, ?_, q0, h3⟩
    subst hE
    have e1 : (Layer.exp_edges_label f.2 n L D X Y dyad sl)[k]?
        = some (Layer.exp_edges_layer f.2 (D k) (Layer.column n X k) (Layer.column n Y k) dyad sl)
        := by simp [Layer.exp_edges_label, hk]
    rw [e1, Round.edges_layer_sum hx hy hk (q := q)]
    rintro ⟨i, a⟩ ha ⟨j, b⟩ hb
    obtain ⟨hi, ha⟩ := Layer.mem_column.1 ha
    obtain ⟨hj, hb⟩ := Layer.mem_column.1 hb
    obtain ⟨a', rfl, ha⟩ := Round.mem_row ha
    obtain ⟨b', rfl, hb⟩ := Round.mem_row hb
    exact (hr (k, i, j) hi hj a' b' ha hb).2.1

/-- **C112**, samples of the dense backend.  As for the sparse backend, with a link possible for every
label and every pair of vertices; the mean number of links between two vertices under a label, and of
all links of a set of labelled pairs, is compared with the probabilities computed without rounding. -/
theorem C112_dense_sample_partial (f : (XR → XR → XR → XR → XR) × (XR → XR → XR → XR → XR))
    (hf : f ∈ Round.layerModels) (n L : ℕ) (d : ℕ → ℝ) (x y : ℕ → ℕ → ℝ)
    (h : ∀ i < n, ∀ j < n, ∀ k < L, Round.LayerRange (d k) (x i k) (y j k))
    (dyad : ℕ → ℕ → XR) (sl : Bool)
    {Ω : Type} [MeasurableSpace Ω] (P : Measure Ω) [IsProbabilityMeasure P] (U : ℕ → Ω → ℝ)
    (hU : IsGrid P U) :
    let D : ℕ → XR := fun k => fin (d k)
    let X := fun i k => fin (x i k)
    let Y := fun i k => fin (y i k)
    let S := Finset.range L ×ˢ Law.pairs n sl
    let G := fun ω =>
      (Layer.Dense.binary_sample_tensor_stream f.1 n L D X Y dyad sl fun m => U m ω).2.toFinset
    ∃ p q : ℕ × ℕ × ℕ → ℝ,
      (∀ k i j, (k, i, j) ∈ S →
        f.1 (D k) (X i k) (Y j k) (dyad i j) = fin (p (k, i, j)) ∧
        f.2 (D k) (X i k) (Y j k) (dyad i j) = fin (q (k, i, j)) ∧
        0 ≤ q (k, i, j) ∧ q (k, i, j) ≤ 1) ∧
      (∀ H ⊆ S, P {ω | G ω = H} = ENNReal.ofReal
        (Law.prob S (fun e => (⌈p e * 2 ^ 53⌉₊ : ℝ) / 2 ^ 53) H)) ∧
      (∀ (B : ℝ) (F : Finset (ℕ × ℕ × ℕ) → ℝ), (∀ H, 0 ≤ F H ∧ F H ≤ B) →
        |∫ ω, F (G ω) ∂P - Law.mean S q F| ≤ 7 * (2 : ℝ) ^ (-53 : ℤ) * S.card * B) ∧
      ∀ T ⊆ S, |∫ ω, ((G ω ∩ T).card : ℝ) ∂P - ∑ e ∈ T, q e|
          ≤ (2 : ℝ) ^ (-53 : ℤ) * T.card + 6 * (2 : ℝ) ^ (-53 : ℤ) * ∑ e ∈ T, q e := by
  intro D X Y S G
  have hval : ∀ e : ℕ × ℕ × ℕ, ∃ r : ℝ × ℝ, e.1 < L → e.2.1 < n → e.2.2 < n →
      f.1 (D e.1) (X e.2.1 e.1) (Y e.2.2 e.1) (dyad e.2.1 e.2.2) = fin r.1 ∧
      f.2 (D e.1) (X e.2.1 e.1) (Y e.2.2 e.1) (dyad e.2.1 e.2.2) = fin r.2 ∧
        0 ≤ r.1 ∧ r.1 ≤ 1 ∧ 0 ≤ r.2 ∧ r.2 ≤ 1 ∧ Within (5.3 * ulp2) r.2 r.1 := by
    rintro ⟨k, i, j⟩
    by_cases he : k < L ∧ i < n ∧ j < n
    · obtain ⟨s, hs, t, e1, e2, s0, s1, t0, t1, hw⟩ :=
        Round.layer_term hf (h i he.2.1 j he.2.2 k he.1) (dyad i j)
      exact ⟨(s, t), fun _ _ _ => ⟨e1, e2, s0, s1, t0, t1, hw⟩⟩
    · exact ⟨0, fun h1 h2 h3 => absurd ⟨h1, h2, h3⟩ he⟩
  choose r hr using hval
  set p : ℕ × ℕ × ℕ → ℝ := fun e => (r e).1 with hpdef
  set q : ℕ × ℕ × ℕ → ℝ := fun e => (r e).2 with hqdef
  have hS : ∀ {k i j : ℕ}, (k, i, j) ∈ S ↔ k < L ∧ (i, j) ∈ order n sl := by
    intro k i j
    show _ ∈ Finset.range L ×ˢ Law.pairs n sl ↔ _
    rw [Finset.mem_product, Finset.mem_range, mem_order]
  have hlt : ∀ {k i j : ℕ}, (k, i, j) ∈ S → k < L ∧ i < n ∧ j < n := by
    intro k i j he
    obtain ⟨h1, h2⟩ := hS.1 he
    obtain ⟨h3, h4, _⟩ := Law.mem_pairs.1 (mem_order.1 h2)
    exact ⟨h1, h3, h4⟩
  have hpq : ∀ e ∈ S, 0 ≤ p e ∧ p e ≤ 1 ∧ 0 ≤ q e ∧ q e ≤ 1 ∧ Within (5.3 * ulp2) (q e) (p e) := by
    rintro ⟨k, i, j⟩ he
    obtain ⟨hk, hi, hj⟩ := hlt he
    obtain ⟨-, -, h1, h2, h3, h4, h5⟩ := hr (k, i, j) hk hi hj
    exact ⟨h1, h2, h3, h4, h5⟩
  let O : ℕ → List (ℕ × ℕ) := fun _ => order n sl
  let pos : ℕ × ℕ × ℕ → ℕ := fun e => Layer.pos O e.1 e.2
  have hpos : Set.InjOn pos S := by
    rintro ⟨k, i, j⟩ he ⟨k', i', j'⟩ he' hee
    obtain ⟨h1, h2⟩ := Layer.pos_inj O (hS.1 he).2 (hS.1 he').2 hee
    exact Prod.ext h1 h2
  have hG : ∀ ω e, e ∈ G ω ↔ e ∈ S ∧ U (pos e) ω < p e := by
    rintro ω ⟨k, i, j⟩
    have hs := dense_stream_gen f.1 n L D X Y dyad sl (fun m => U m ω) (p := fun k e => p (k, e))
      (fun k hk i hi j hj => (hr (k, i, j) hk hi hj).1)
    show (k, i, j) ∈ (Layer.Dense.binary_sample_tensor_stream f.1 n L D X Y dyad sl
      fun m => U m ω).2.toFinset ↔ _
    rw [hs, List.mem_toFinset, hS]
    simp only [List.mem_flatMap, List.mem_range, List.mem_map, List.mem_filter, decide_eq_true_eq,
      Prod.mk.injEq, Prod.exists]
    constructor
    · rintro ⟨k', hk', i', j', ⟨h1, h2⟩, rfl, rfl, rfl⟩
      exact ⟨⟨hk', h1⟩, h2⟩
    · rintro ⟨⟨hk, h1⟩, h2⟩
      exact ⟨k, hk, i, j, ⟨h1, h2⟩, rfl, rfl, rfl⟩
  clear_value G
  refine ⟨p, q, ?_, ?_, ?_, ?_⟩
  · intro k i j he
    obtain ⟨hk, hi, hj⟩ := hlt he
    obtain ⟨h1, h2, -, -, h3, h4, -⟩ := hr (k, i, j) hk hi hj
    exact ⟨h1, h2, h3, h4⟩
  · intro H hH
    exact grid_law hU hpos (fun e he => (hpq e he).2.1) hG H hH
  · intro B F hF
    refine ((grid_dist hU hpos (by norm_num) hpq hG F hF).1).trans ?_
    exact seven (Nat.cast_nonneg _) ((hF ∅).1.trans (hF ∅).2)
  · intro T hT
    have h1 := (grid_dist (B := 0) hU hpos (by norm_num) hpq hG (fun _ => 0)
      (fun _ => ⟨le_rfl, le_rfl⟩)).2 T hT
    have q0 : 0 ≤ ∑ e ∈ T, q e := Finset.sum_nonneg fun e he => (hpq e (hT he)).2.2.1
    have h3 := h1.trans (add_le_add_right (six q0) _)
    exact h3

private theorem moderate' {r : ℝ} (h1 : 1 ≤ r) (h2 : r ≤ 32) :
    (2 : ℝ) ^ (-1000 : ℤ) ≤ r ∧ r ≤ (2 : ℝ) ^ (1000 : ℤ) :=
  ⟨(zpow_le_one_of_nonpos₀ (by norm_num) (by norm_num)).trans h1,
    h2.trans ((show (32 : ℝ) ≤ (2 : ℝ) ^ (5 : ℤ) by norm_num).trans
      (zpow_le_zpow_right₀ (by norm_num) (by norm_num)))⟩

/-- Every vertex exports under the labels 0 and 2 and imports under the labels 1 and 2: the hypotheses
hold, and label 2 is stored for every pair. -/
example : (∀ _ : ℕ, RowSorted [(0, (3 : ℝ)), (2, 5)]) ∧ (∀ _ : ℕ, RowSorted [(1, (7 : ℝ)), (2, 3)]) ∧
    (∀ k a b, (k, a) ∈ [(0, (3 : ℝ)), (2, 5)] → (k, b) ∈ [(1, (7 : ℝ)), (2, 3)] →
      Round.LayerRange 2 a b) ∧
    (2, 0, 1) ∈ Round.stored 2 3 false (fun _ => [(0, (3 : ℝ)), (2, 5)])
      (fun _ => [(1, (7 : ℝ)), (2, 3)]) := by
  refine ⟨fun _ => by simp [RowSorted], fun _ => by simp [RowSorted], fun k a b ha hb => ?_, ?_⟩
  · simp only [List.mem_cons, Prod.mk.injEq, List.not_mem_nil, or_false] at ha hb
    rcases ha with ⟨rfl, rfl⟩ | ⟨rfl, rfl⟩ <;> rcases hb with ⟨h, rfl⟩ | ⟨h, rfl⟩
    · omega
    · omega
    · omega
    · exact .inr ⟨by norm_num, by norm_num, by norm_num, moderate' (by norm_num) (by norm_num),
        moderate' (by norm_num) (by norm_num)⟩
  · exact mem_stored.2 ⟨by norm_num, Law.mem_pairs.2 ⟨by norm_num, by norm_num, by norm_num⟩,
      ⟨5, by simp⟩, 3, by simp⟩

/-- The random numbers exist, and the properties of the dense backend meet the hypothesis. -/
example : (∃ (Ω : Type) (_ : MeasurableSpace Ω) (P : Measure Ω) (U : ℕ → Ω → ℝ),
      IsProbabilityMeasure P ∧ IsGrid P U) ∧
    ∀ i < 2, ∀ j < 2, ∀ k < 2, Round.LayerRange 2 (if i = k then 3 else 0) (if j = 0 then 5 else 1) := by
  refine ⟨?_, fun i _ j _ k _ => ?_⟩
  · obtain ⟨Ω, m, P, h1, U, h2⟩ := exists_isGrid ℕ
    exact ⟨Ω, m, P, U, h1, h2⟩
  · split
    · split <;> exact .inr ⟨by norm_num, by norm_num, by norm_num,
        moderate' (by norm_num) (by norm_num), moderate' (by norm_num) (by norm_num)⟩
    · exact .inl (.inl rfl)

end Verif
