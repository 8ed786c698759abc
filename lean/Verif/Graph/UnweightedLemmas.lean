import Verif.Graph.Unweighted
import Verif.Graph.GroupProps
import Verif.Graph.NetworkxProps

/-!
# Lemmas about graphs without weights
-/

namespace Verif

open Finset

noncomputable section

namespace Graph

theorem symWB_apply (A : Mat Bool) (i j : ℕ) :
    Sparse.symWB A i j = if i = j then false else A i j || A j i := by
  unfold Sparse.symWB boolSub addT
  by_cases h : i = j
  · subst h; cases hA : A i i <;> simp [Dtype.add]
  · simp [h, Dtype.add]

theorem ne0_bool (A : Mat Bool) : ne0 A = A := rfl

theorem dense_symW_bool {n : ℕ} (A : Mat Bool) {i j : ℕ} (hi : i < n) (hj : j < n) :
    Dense.symW n A i j = (A i j || A j i) := by
  unfold Dense.symW
  rw [setDiag_eq n _ _ hi hj]
  by_cases h : i = j
  · subst h; simp
  · simp [h, addT, Dtype.add]

theorem num_false : (Dtype.num false : ℝ) = 0 := by simp [Dtype.num]

theorem num_num (b : Bool) : (Dtype.num (Dtype.num b : ℝ) : ℝ) = Dtype.num b := rfl

/-- The weighted matrix is the one without weights, except that the undirected one lacks the
diagonal if `drop` is set. -/
structure Matches (w : View) (drop : Bool) : Prop where
  directed : ∀ i < w.n, ∀ j < w.n, w.adjW true i j = Dtype.num (w.adjB true i j)
  undirected : ∀ i < w.n, ∀ j < w.n, w.adjW false i j =
    if drop = true ∧ i = j then 0 else Dtype.num (w.adjB false i j)
  sym : ∀ i j, w.adjB false i j = w.adjB false j i

/-- What is dropped. -/
def loopNum (w : View) (drop : Bool) (i : ℕ) : ℝ :=
  if drop then Dtype.num (w.adjB false i i) else 0

theorem Matches.sub {w : View} {drop : Bool} (h : Matches w drop) {i j : ℕ} (hi : i < w.n)
    (hj : j < w.n) : (Dtype.num (w.adjW false i j) : ℝ) =
      Dtype.num (w.adjB false i j) - (if i = j then loopNum w drop i else 0) := by
  show w.adjW false i j = _
  rw [h.undirected i hi j hj]
  unfold loopNum
  by_cases hij : i = j
  · subst hij; cases drop <;> simp
  · simp [hij]

theorem Matches.sum {w : View} {drop : Bool} (h : Matches w drop) {i : ℕ} (hi : i < w.n)
    {s : Finset ℕ} (hs : s ⊆ range w.n) :
    ∑ j ∈ s, (Dtype.num (w.adjW false i j) : ℝ) =
      ∑ j ∈ s, (Dtype.num (w.adjB false i j) : ℝ) - (if i ∈ s then loopNum w drop i else 0) := by
  rw [Finset.sum_congr rfl fun j hj => h.sub hi (Finset.mem_range.1 (hs hj)),
    Finset.sum_sub_distrib, Finset.sum_ite_eq]

theorem loopNum_int (w : View) (drop : Bool) (i : ℕ) : ∃ z : ℤ, loopNum w drop i = z := by
  unfold loopNum
  cases drop
  · exact ⟨0, by simp⟩
  · cases w.adjB false i i
    · exact ⟨0, by simp [Dtype.num]⟩
    · exact ⟨1, by simp [Dtype.num]⟩

theorem byGroup_int {V : Type} [Dtype V] [LawfulDtype V] (w : View) (A : Mat V) (i k : ℕ) {z : ℤ}
    (h : ∑ j ∈ (range w.n).filter (fun j => w.groups j = k), (Dtype.num (A i j) : ℝ) = z) :
    w.byGroup A i k = z := by
  unfold View.byGroup
  cases w.backend
  · show Dense.sum_by_group w.n A w.groups i k = _
    unfold Dense.sum_by_group
    rw [h, toInt64_int]
  · show Sparse.sum_by_group w.n A w.groups i k = _
    rw [sparse_group, h]

theorem byGroup_bool (w : View) (A : Mat Bool) (i k : ℕ) : w.byGroup A i k =
    ∑ j ∈ (range w.n).filter (fun j => w.groups j = k), (Dtype.num (A i j) : ℝ) := by
  obtain ⟨z, hz⟩ := num_bool_int w.n A w.groups i k
  rw [hz, byGroup_int w A i k hz]

theorem byGroup_same {w : View} {A : Mat ℝ} {B : Mat Bool} {i k : ℕ}
    (h : ∀ j < w.n, A i j = Dtype.num (B i j)) : w.byGroup A i k = w.byGroup B i k := by
  obtain ⟨z, hz⟩ := num_bool_int w.n B w.groups i k
  rw [byGroup_int w B i k hz]
  refine byGroup_int w A i k ?_
  rw [← hz]
  exact Finset.sum_congr rfl fun j hj => h j (Finset.mem_range.1 (Finset.mem_filter.1 hj).1)

theorem fresh_directed {w : View}
    (h : ∀ i < w.n, ∀ j < w.n, w.adjW true i j = Dtype.num (w.adjB true i j)) {i : ℕ} (hi : i < w.n)
    (k : ℕ) :
    w.fresh i k .out_strength = w.fresh i k .out_degree ∧
    w.fresh i k .in_strength = w.fresh i k .in_degree ∧
    w.fresh i k .out_strength_by_group = w.fresh i k .out_degree_by_group ∧
    w.fresh i k .in_strength_by_group = w.fresh i k .in_degree_by_group ∧
    (w.directed = true → w.fresh i k .total_weight = w.fresh i k .num_edges) := by
  refine ⟨?_, ?_, ?_, ?_, fun hd => ?_⟩
  · exact Finset.sum_congr rfl fun j hj => h i hi j (Finset.mem_range.1 hj)
  · exact Finset.sum_congr rfl fun j hj => h j (Finset.mem_range.1 hj) i hi
  · exact byGroup_same fun j hj => h i hi j hj
  · exact byGroup_same fun j hj => h j hj i hi
  · unfold View.fresh
    rw [if_pos hd, if_pos hd]
    unfold fullTotal total
    exact Finset.sum_congr rfl fun i hi => Finset.sum_congr rfl fun j hj =>
      h i (Finset.mem_range.1 hi) j (Finset.mem_range.1 hj)

theorem Matches.fresh {w : View} {drop : Bool} (h : Matches w drop) {i : ℕ} (hi : i < w.n) (k : ℕ) :
    w.fresh i k .out_strength = w.fresh i k .out_degree ∧
    w.fresh i k .in_strength = w.fresh i k .in_degree ∧
    w.fresh i k .out_strength_by_group = w.fresh i k .out_degree_by_group ∧
    w.fresh i k .in_strength_by_group = w.fresh i k .in_degree_by_group ∧
    w.fresh i k .strength = w.fresh i k .degree - loopNum w drop i ∧
    w.fresh i k .strength_by_group = w.fresh i k .degree_by_group -
      (if w.groups i = k then loopNum w drop i else 0) ∧
    w.fresh i k .total_weight = w.fresh i k .num_edges -
      (if w.directed then 0 else ∑ j ∈ range w.n, loopNum w drop j) := by
  have hcol : colSums w.n (w.adjB false) i = rowSums w.n (w.adjB false) i := by
    unfold colSums rowSums sum0 sum1
    exact Finset.sum_congr rfl fun j _ => by rw [h.sym]
  have hrow : ∀ i < w.n, rowSums w.n (w.adjW false) i
      = rowSums w.n (w.adjB false) i - loopNum w drop i := fun i hi => by
    have := h.sum hi (Finset.Subset.refl (range w.n))
    rw [if_pos (Finset.mem_range.2 hi)] at this
    exact this
  obtain ⟨d1, d2, d3, d4, d5⟩ := fresh_directed h.directed hi k
  refine ⟨d1, d2, d3, d4, ?_, ?_, ?_⟩
  · show rowSums _ _ _ = colSums _ _ _ - _
    rw [hcol, hrow i hi]
  · show w.byGroup (w.adjW false) i k = w.byGroup (w.adjB false) i k - _
    obtain ⟨z, hz⟩ := num_bool_int w.n (w.adjB false) w.groups i k
    obtain ⟨y, hy⟩ := loopNum_int w drop i
    rw [byGroup_int w (w.adjB false) i k hz,
      byGroup_int w (w.adjW false) i k (z := z - (if w.groups i = k then y else 0)) ?_, hy]
    · push_cast; rfl
    · rw [h.sum hi (Finset.filter_subset _ _), hz, hy]
      simp only [Finset.mem_filter, Finset.mem_range, hi, true_and]
      push_cast; rfl
  · cases hd : w.directed
    · unfold View.fresh
      simp only [hd, Bool.false_eq_true, if_false]
      unfold halfTotal total diagSum
      have e1 : ∑ i ∈ range w.n, ∑ j ∈ range w.n, (Dtype.num (w.adjW false i j) : ℝ) =
          ∑ i ∈ range w.n, ∑ j ∈ range w.n, (Dtype.num (w.adjB false i j) : ℝ)
            - ∑ i ∈ range w.n, loopNum w drop i := by
        rw [← Finset.sum_sub_distrib]
        exact Finset.sum_congr rfl fun j hj => hrow j (Finset.mem_range.1 hj)
      have e2 : ∑ i ∈ range w.n, (Dtype.num (w.adjW false i i) : ℝ) =
          ∑ i ∈ range w.n, (Dtype.num (w.adjB false i i) : ℝ)
            - ∑ i ∈ range w.n, loopNum w drop i := by
        rw [← Finset.sum_sub_distrib]
        refine Finset.sum_congr rfl fun j hj => ?_
        rw [h.sub (Finset.mem_range.1 hj) (Finset.mem_range.1 hj), if_pos rfl]
      rw [e1, e2]; ring
    · rw [d5 hd, if_pos rfl, sub_zero]

theorem numbering_sum {α : Type} [LinearOrder α] {l : List α} {N : ℕ} {f : α → Option ℕ}
    (h : Numbering l N f) (F : ℕ → ℝ) (G : α → ℝ) (hFG : ∀ x i, f x = some i → F i = G x) :
    ∑ i ∈ range N, F i = ∑ x ∈ l.toFinset, G x := by
  have hs : ∀ x ∈ l, f x = some ((f x).getD 0) := fun x hx => by
    obtain ⟨i, hi⟩ := Option.isSome_iff_exists.1 ((h.dom x).2 hx)
    rw [hi]; rfl
  symm
  refine Finset.sum_bij (fun x _ => (f x).getD 0) ?_ ?_ ?_ ?_
  · exact fun x hx => Finset.mem_range.2 (h.range _ _ (hs x (List.mem_toFinset.1 hx)))
  · intro x hx y hy hxy
    exact h.inj (hs x (List.mem_toFinset.1 hx)) (hxy ▸ hs y (List.mem_toFinset.1 hy))
  · intro i hi
    obtain ⟨x, hx⟩ := h.onto i (Finset.mem_range.1 hi)
    exact ⟨x, List.mem_toFinset.2 ((h.dom x).1 (by rw [hx]; rfl)), by rw [hx]; rfl⟩
  · exact fun x hx => (hFG x _ (hs x (List.mem_toFinset.1 hx))).symm

theorem numbering_card {α β : Type} [LinearOrder α] [LinearOrder β] {l : List α} {m : List β}
    {N M : ℕ} {f : α → Option ℕ} {g : β → Option ℕ} (h : Numbering l N f) (h' : Numbering m M g)
    (A : ℕ → ℕ → Bool) (S : Finset (α × β)) (hS : ∀ p ∈ S, p.1 ∈ l ∧ p.2 ∈ m)
    (hA : ∀ a i b j, f a = some i → g b = some j → (A i j = true ↔ (a, b) ∈ S)) :
    ∑ i ∈ range N, ∑ j ∈ range M, (Dtype.num (A i j) : ℝ) = (S.card : ℝ) := by
  rw [numbering_sum h _ (fun a => ∑ b ∈ m.toFinset, if (a, b) ∈ S then (1 : ℝ) else 0)]
  · rw [← Finset.sum_product', Finset.sum_boole]
    congr 2
    ext p
    simp only [Finset.mem_filter, Finset.mem_product, List.mem_toFinset]
    exact ⟨fun hp => hp.2, fun hp => ⟨hS p hp, hp⟩⟩
  · intro a i ha
    refine numbering_sum h' _ _ fun b j hb => ?_
    by_cases hm : (a, b) ∈ S
    · rw [if_pos hm, (hA a i b j ha hb).2 hm]; simp [Dtype.num]
    · rw [if_neg hm, Bool.eq_false_iff.2 (fun hc => hm ((hA a i b j ha hb).1 hc)), num_false]

theorem symWMulti_apply {n : ℕ} (A : Mat ℝ) {i j : ℕ} (hi : i < n) (hj : j < n) :
    Dense.symWMulti n A i j = A i j + A j i := by
  unfold Dense.symWMulti
  rw [setDiag_eq n _ _ hi hj]
  by_cases h : i = j
  · subst h; rw [if_pos rfl]; rfl
  · rw [if_neg h]; rfl

section

variable {ι γ κ : Type}

theorem single_matches (b : Backend) (directed : Bool) (o : Obj ι γ Bool) :
    Matches (View.singleU b directed o) (b = .sparse) := by
  refine ⟨fun i _ j _ => rfl, fun i hi j hj => ?_, fun i j => ?_⟩
  · cases b
    · show Dtype.num (Dense.symW o.num_vertices o.adj i j) = _
      rw [dense_symW_bool (n := o.num_vertices) o.adj hi hj]
      simp only [reduceCtorEq, decide_false, Bool.false_eq_true, false_and, if_false]
      rfl
    · show Dtype.num (Sparse.symWB o.adj i j) = _
      rw [symWB_apply]
      by_cases hij : i = j
      · simp [hij, Dtype.num]
      · simp only [hij, and_false, if_false]
        rfl
  · cases b <;> exact Bool.or_comm _ _

theorem multi_matches_sparse (directed : Bool) (o : MultiObj ι γ κ Bool) :
    Matches (View.multiU .sparse directed o) true := by
  refine ⟨fun i _ j _ => rfl, fun i hi j hj => ?_, fun i j => Bool.or_comm _ _⟩
  show Dtype.num (Sparse.symWB _ i j) = _
  rw [symWB_apply]
  by_cases hij : i = j
  · simp [hij, Dtype.num]
  · simp only [hij, and_false, if_false]
    rfl

/-- One layer of a multigraph as a graph. -/
def MultiObj.layer (o : MultiObj ι γ κ Bool) (l : ℕ) : Obj ι γ Bool :=
  ⟨o.num_vertices, o.id_dict, o.group_dict, o.groups, o.adj l⟩

theorem fresh_layerU (b : Backend) (directed : Bool) (o : MultiObj ι γ κ Bool) {l : ℕ}
    (hl : l < o.num_labels) {i : ℕ} (hi : i < o.num_vertices) (j : ℕ) :
    let w := View.multiU b directed o
    let w' := View.singleU b directed (o.layer l)
    w.fresh i l .num_edges_label = w'.fresh i j .num_edges ∧
    w.fresh i l .total_weight_label = w'.fresh i j .total_weight ∧
    w.fresh i l .strength_by_label = w'.fresh i j .strength ∧
    w.fresh i l .degree_by_label = w'.fresh i j .degree ∧
    w.fresh i l .out_degree_by_label = w'.fresh i j .out_degree ∧
    w.fresh i l .in_degree_by_label = w'.fresh i j .in_degree ∧
    w.fresh i l .out_strength_by_label = w'.fresh i j .out_strength ∧
    w.fresh i l .in_strength_by_label = w'.fresh i j .in_strength := by
  have hw : ∀ i < o.num_vertices, ∀ j < o.num_vertices,
      numM (Dense.symWTensor o.num_labels o.num_vertices o.adj l) i j =
        numM (Dense.symW o.num_vertices (o.adj l)) i j := fun i hi j hj => by
    unfold numM
    rw [symWTensor_at _ _ _ hl hi hj, dense_symW_bool _ hi hj]
    by_cases hij : i = j
    · subst hij; simp
    · rw [if_neg hij]; rfl
  have hrow : rowSums o.num_vertices
        (numM (Dense.symWTensor o.num_labels o.num_vertices o.adj l)) i =
      rowSums o.num_vertices (numM (Dense.symW o.num_vertices (o.adj l))) i := by
    unfold rowSums sum1
    exact Finset.sum_congr rfl fun j hj => by rw [hw i hi j (Finset.mem_range.1 hj)]
  have hsym : rowSums o.num_vertices (orT (ne0 (o.adj l))) i =
      colSums o.num_vertices (orT (ne0 (o.adj l))) i := by
    unfold rowSums colSums sum1 sum0
    exact Finset.sum_congr rfl fun j _ => by unfold orT; rw [Bool.or_comm]
  have hhalf := halfTotal_congr hw
  refine ⟨?_, ?_, ?_, ?_, ?_, ?_, ?_, ?_⟩
  · cases b <;> cases directed <;> rfl
  · cases b <;> cases directed <;> first | rfl | exact hhalf
  · cases b <;> first | rfl | exact hrow
  · cases b <;> exact hsym
  all_goals cases b <;> rfl

end

end Graph

end

end Verif
