import Verif.Graph.MultiLemmas
import Mathlib.Algebra.BigOperators.Field

/-!
# Properties of multigraphs and of undirected views: C27, C28 and the multigraph parts of C21–C23
-/

namespace Verif

open Finset

noncomputable section

namespace Graph

/-! ### C28 -/

/-- What the undirected view of a weighted matrix has to be. -/
def undirectedSpec (A : ℕ → ℕ → ℝ) (i j : ℕ) : ℝ := if i = j then A i i else A i j + A j i

theorem symW_spec (A : Mat ℝ) (i j : ℕ) : Sparse.symW A i j = undirectedSpec A i j := by
  unfold Sparse.symW undirectedSpec
  by_cases h : i = j
  · subst h; simp
  · simp [h]

/-- **C28**, single-layer graphs in both backends and adjacency tensors in both backends. -/
theorem C28 (n L : ℕ) (A : Mat ℝ) (T : ℕ → Mat ℝ) {l i j : ℕ} (hl : l < L) (hi : i < n)
    (hj : j < n) :
    Dense.symW n A i j = undirectedSpec A i j ∧ Sparse.symW A i j = undirectedSpec A i j ∧
    Dense.symWTensor L n T l i j = undirectedSpec (T l) i j ∧
    Sparse.symW (T l) i j = undirectedSpec (T l) i j :=
  ⟨by rw [dense_symW A hi hj, symW_spec], symW_spec A i j,
    by rw [symWTensor_eq L n T hl hi hj, symW_spec], symW_spec (T l) i j⟩

/-- **C28**, sparse multigraphs: the projection is symmetrised. -/
theorem C28_multi_sparse (L : ℕ) (T : ℕ → Mat ℝ) (hL : 0 < L) (i j : ℕ) :
    Sparse.symW (Sparse.project L T) i j =
      undirectedSpec (fun i j => ∑ l ∈ range L, T l i j) i j := by
  rw [symW_spec]
  unfold undirectedSpec
  simp only [sparse_project_real L T hL]

/-- **C28**, without weights: the support of the weighted view. -/
theorem C28_support {V : Type} [Dtype V] (A : Mat V) (i j : ℕ) :
    (Dense.symB A i j = true ↔ Dtype.nz (A i j) = true ∨ Dtype.nz (A j i) = true) ∧
    (Sparse.symB A i j = true ↔ Dtype.nz (A i j) = true ∨ Dtype.nz (A j i) = true) :=
  ⟨Bool.or_eq_true _ _ ▸ Iff.rfl, Bool.or_eq_true _ _ ▸ Iff.rfl⟩

theorem C28_support_weighted (A : Mat ℝ) (hA : ∀ i j, 0 ≤ A i j) (i j : ℕ) :
    (Dense.symB A i j = true ↔ undirectedSpec A i j ≠ 0) ∧
    (Sparse.symB A i j = true ↔ undirectedSpec A i j ≠ 0) := by
  have key : (Dtype.nz (A i j) = true ∨ Dtype.nz (A j i) = true) ↔ undirectedSpec A i j ≠ 0 := by
    unfold undirectedSpec
    simp only [Dtype.nz, decide_eq_true_eq]
    by_cases h : i = j
    · subst h; simp
    · rw [if_neg h]
      have h1 := hA i j
      have h2 := hA j i
      constructor
      · intro h3 h4
        rcases h3 with h3 | h3 <;> exact h3 (by linarith)
      · intro h3
        by_contra h4
        push Not at h4
        exact h3 (by rw [h4.1, h4.2, add_zero])
  exact ⟨(C28_support A i j).1.trans key, (C28_support A i j).2.trans key⟩

/-- **C28**, dense multigraphs, off the diagonal.  Missing: the diagonal, which is doubled
(`C28_multi_dense_violated`). -/
theorem C28_multi_dense_partial (n L : ℕ) (T : ℕ → Mat ℝ) {i j : ℕ} (hi : i < n) (hj : j < n) :
    (i ≠ j → Dense.symWMulti n (Dense.project L T) i j =
      undirectedSpec (fun i j => ∑ l ∈ range L, T l i j) i j) ∧
    (i = j → Dense.symWMulti n (Dense.project L T) i j =
      2 * undirectedSpec (fun i j => ∑ l ∈ range L, T l i j) i j) := by
  unfold Dense.symWMulti undirectedSpec
  rw [setDiag_eq n _ _ hi hj]
  constructor
  · intro h
    rw [if_neg h, if_neg h]; rfl
  · intro h
    subst h
    rw [if_pos rfl, if_pos rfl]
    unfold addT Dense.project
    simp only [Dtype.add, Dtype.num]
    ring

/-! ### Multigraph objects -/

section Multi

variable {ι γ κ V : Type} [LinearOrder ι] [LinearOrder γ] [LinearOrder κ] [Dtype V]
  [LawfulDtype V]

omit [LawfulDtype V] in
/-- The layer of label `k` is the sparse graph built from the rows with that label, so that
everything proved about single-layer graphs (C21 to C24) holds layer by layer. -/
theorem C21_layer_sparse {v : List (ι × γ)} {e : List (κ × Row ι V)} {o : MultiObj ι γ κ V}
    (h : Sparse.mkMulti v e = .ok o) {k : κ} {l : ℕ} (hk : o.label_dict.lookup k = some l) :
    ∃ o' : Obj ι γ V, Sparse.mk v ((e.filter (fun kr => kr.1 = k)).map Prod.snd) = .ok o' ∧
      o'.num_vertices = o.num_vertices ∧ o'.id_dict = o.id_dict ∧ o'.groups = o.groups ∧
      o'.group_dict = o.group_dict ∧ o'.adj = o.adj l := by
  obtain ⟨h1, h2, h3, e1, e2, e3, e4, e5, e6, e7⟩ := mkMulti_ok h
  have hsub : ∀ r ∈ (e.filter (fun kr => kr.1 = k)).map Prod.snd, r ∈ e.map Prod.snd := by
    intro r hr
    obtain ⟨kr, hkr, rfl⟩ := List.mem_map.mp hr
    exact List.mem_map.mpr ⟨kr, (List.mem_filter.mp hkr).1, rfl⟩
  obtain ⟨o', ho'⟩ := sparse_accepts h1 (fun r hr => h2 r (hsub r hr)) (fun r hr => h3 r (hsub r hr))
  obtain ⟨_, _, _, f1, f2, f3, f4, _⟩ := built_ok (Or.inr ho')
  refine ⟨o', ho', by rw [f1, e1], by rw [f2, e2], by rw [f4, e6], by rw [f3, e5], ?_⟩
  rw [e3] at hk
  rw [sparse_adj ho', e7]
  unfold Sparse.cooT
  rw [ledges_layer (labOf e) e (labOf_iff hk)]

omit [LawfulDtype V] in
/-- The same for dense multigraphs. -/
theorem C21_layer_dense {v : List (ι × γ)} {e : List (κ × Row ι V)} {o : MultiObj ι γ κ V}
    (h : Dense.mkMulti v e = .ok o) {k : κ} {l : ℕ} (hk : o.label_dict.lookup k = some l) :
    ∃ o' : Obj ι γ V, Dense.mk v ((e.filter (fun kr => kr.1 = k)).map Prod.snd) = .ok o' ∧
      o'.num_vertices = o.num_vertices ∧ o'.id_dict = o.id_dict ∧ o'.groups = o.groups ∧
      o'.group_dict = o.group_dict ∧ o'.adj = o.adj l := by
  obtain ⟨h1, h2, h3, e1, e2, e3, e4, e5, e6, e7⟩ := mkMulti_ok h
  have hsub : ∀ r ∈ (e.filter (fun kr => kr.1 = k)).map Prod.snd, r ∈ e.map Prod.snd := by
    intro r hr
    obtain ⟨kr, hkr, rfl⟩ := List.mem_map.mp hr
    exact List.mem_map.mpr ⟨kr, (List.mem_filter.mp hkr).1, rfl⟩
  obtain ⟨o', ho'⟩ := dense_accepts h1 (fun r hr => h2 r (hsub r hr)) (fun r hr => h3 r (hsub r hr))
  obtain ⟨_, _, _, f1, f2, f3, f4, _⟩ := built_ok (Or.inl ho')
  refine ⟨o', ho', by rw [f1, e1], by rw [f2, e2], by rw [f4, e6], by rw [f3, e5], ?_⟩
  rw [e3] at hk
  rw [dense_adj ho', e7, assignT_layer, ledges_layer (labOf e) e (labOf_iff hk)]

omit [LinearOrder γ] [LinearOrder κ] [LawfulDtype V] [Dtype V] in
theorem ledges_perm {v v' : List (ι × γ)} {e e' : List (κ × Row ι V)} (hv : v.Perm v')
    (he : e.Perm e') (lab : κ → ℕ) : (ledgesOf v lab e).Perm (ledgesOf v' lab e') := by
  unfold ledgesOf
  rw [npUnique_congr (fun x => (hv.map Prod.fst).mem_iff)]
  exact he.filterMap _

/-- **C22** for sparse multigraphs. -/
theorem C22_multi_sparse {v v' : List (ι × γ)} {e e' : List (κ × Row ι V)} (hv : v.Perm v')
    (he : e.Perm e') : Sparse.mkMulti v e = Sparse.mkMulti v' e' := by
  have he2 : (e.map Prod.snd).Perm (e'.map Prod.snd) := he.map _
  have hlab : npUnique (e.map Prod.fst) = npUnique (e'.map Prod.fst) :=
    npUnique_congr (fun x => (he.map Prod.fst).mem_iff)
  rcases base_perm hv he2 with ⟨err, h, h'⟩ | ⟨b, l', h, hl, h'⟩
  · have a1 : Sparse.mkMulti v e = .error err :=
      (C20_labels_errors (tensor := Sparse.cooT) v e err).mpr h
    have a2 : Sparse.mkMulti v' e' = .error err :=
      (C20_labels_errors (tensor := Sparse.cooT) v' e' err).mpr h'
    rw [a1, a2]
  · obtain ⟨h1, h2, h3, hb⟩ := base_ok h
    obtain ⟨h1', h2', h3', hb'⟩ := base_ok h'
    obtain ⟨o, ho⟩ := mkMulti_accepts (tensor := Sparse.cooT) h1 h2 h3
    obtain ⟨o', ho'⟩ := mkMulti_accepts (tensor := Sparse.cooT) h1' h2' h3'
    have ho1 : Sparse.mkMulti v e = .ok o := ho
    have ho2 : Sparse.mkMulti v' e' = .ok o' := ho'
    rw [ho1, ho2]
    obtain ⟨_, _, _, e1, e2, e3, e4, e5, e6, e7⟩ := mkMulti_ok ho
    obtain ⟨_, _, _, f1, f2, f3, f4, f5, f6, f7⟩ := mkMulti_ok ho'
    have hid : npUnique (v.map Prod.fst) = npUnique (v'.map Prod.fst) :=
      npUnique_congr (fun x => (hv.map Prod.fst).mem_iff)
    have hadj : o.adj = o'.adj := by
      rw [e7, f7]
      funext l
      unfold Sparse.cooT
      have : labOf e = labOf e' := by
        funext k; unfold labOf; rw [hlab]
      rw [this]
      exact coo_perm (((ledges_perm hv he (labOf e')).filter _).map _)
    congr 1
    cases o; cases o'
    simp only at *
    subst e1 e2 e3 e4 e5 e6 f1 f2 f3 f4 f5 f6
    simp only [MultiObj.mk.injEq]
    refine ⟨hv.length_eq, by rw [hlab], by rw [hid], by rw [hlab], ?_, ?_, hadj⟩
    · rw [sortedRows_congr hv h1]
    · unfold groupsOf; rw [sortedRows_congr hv h1]

/-- The object was built from these tables, in one of the two backends. -/
def BuiltMulti (v : List (ι × γ)) (e : List (κ × Row ι V)) (o : MultiObj ι γ κ V) : Prop :=
  Dense.mkMulti v e = .ok o ∨ Sparse.mkMulti v e = .ok o

/-- Every entry of a layer is either zero or a positive weight. -/
theorem layer_pos {v : List (ι × γ)} {e : List (κ × Row ι V)} {o : MultiObj ι γ κ V}
    (h : BuiltMulti v e o) (l i j : ℕ) : o.adj l i j = Dtype.zero ∨ Dtype.pos (o.adj l i j) = true := by
  have key : ∃ rows : List (Row ℕ V), (∀ r ∈ rows, Dtype.pos r.val = true) ∧
      (o.adj l = assign rows ∨ o.adj l = coo rows) := by
    have pos : (∀ r ∈ e.map Prod.snd, Dtype.pos r.val = true) →
        ∀ r ∈ ((ledgesOf v (labOf e) e).filter (fun r => r.1 == l)).map Prod.snd,
          Dtype.pos r.val = true := by
      intro h3 r hr
      obtain ⟨kr, hkr, _, _, hv, _⟩ := layer_rows l r hr
      rw [← hv]; exact h3 _ (List.mem_map.mpr ⟨kr, hkr, rfl⟩)
    rcases h with h | h
    · obtain ⟨_, _, h3, _, _, _, _, _, _, e7⟩ := mkMulti_ok h
      exact ⟨_, pos h3, Or.inl (by rw [e7, assignT_layer])⟩
    · obtain ⟨_, _, h3, _, _, _, _, _, _, e7⟩ := mkMulti_ok h
      exact ⟨_, pos h3, Or.inr (by rw [e7]; rfl)⟩
  obtain ⟨rows, hp, ha⟩ := key
  by_cases hex : ∃ r ∈ rows, i = r.src ∧ j = r.dst
  · right
    rcases ha with ha | ha
    · rw [ha]; exact assign_pos rows hp i j hex
    · rw [ha]; exact coo_pos rows hp i j hex
  · left
    push Not at hex
    rcases ha with ha | ha
    · rw [ha]; exact assign_none rows (fun r hr hc => hex r hr hc.1 hc.2)
    · rw [ha]; exact coo_none rows (fun r hr hc => hex r hr hc.1 hc.2)

end Multi

/-- Element types for which a sum of non-zero entries is non-zero. -/
class NumDtype (V : Type) [Dtype V] : Prop where
  num_pos : ∀ a : V, Dtype.pos a = true → 0 < (Dtype.num a : ℝ)
  num_zero : (Dtype.num (Dtype.zero : V) : ℝ) = 0

instance : NumDtype ℝ where
  num_pos := fun a h => by
    have : 0 < a := by simpa [Dtype.pos] using h
    exact this
  num_zero := rfl

instance : NumDtype Bool where
  num_pos := fun a h => by
    have : a = true := h
    subst this; simp [Dtype.num]
  num_zero := by simp [Dtype.num, Dtype.zero]

section C27

variable {ι γ κ V : Type} [LinearOrder ι] [LinearOrder γ] [LinearOrder κ] [Dtype V]
  [LawfulDtype V] [NumDtype V]

/-- **C27**, connected pairs of dense multigraphs, with and without weights. -/
theorem C27_connected_dense {v : List (ι × γ)} {e : List (κ × Row ι V)} {o : MultiObj ι γ κ V}
    (h : BuiltMulti v e o) (i j : ℕ) :
    (ne0 (Dense.project o.num_labels o.adj) i j = true ↔
      ∃ l < o.num_labels, ne0 (o.adj l) i j = true) ∧
    (Dense.symB (Dense.project o.num_labels o.adj) i j = true ↔
      ∃ l < o.num_labels, Dense.symBTensor o.adj l i j = true) := by
  have nn : ∀ l i j, 0 ≤ (Dtype.num (o.adj l i j) : ℝ) := by
    intro l i j
    rcases layer_pos h l i j with h0 | h0
    · rw [h0, NumDtype.num_zero]
    · exact (NumDtype.num_pos _ h0).le
  have nzpos : ∀ l i j, ne0 (o.adj l) i j = true ↔ 0 < (Dtype.num (o.adj l i j) : ℝ) := by
    intro l i j
    unfold ne0
    rcases layer_pos h l i j with h0 | h0
    · rw [h0, NumDtype.num_zero, LawfulDtype.nz_zero]; simp
    · simp [NumDtype.num_pos _ h0, LawfulDtype.nz_of_pos _ h0]
  have key : ∀ i j, ne0 (Dense.project o.num_labels o.adj) i j = true ↔
      ∃ l < o.num_labels, ne0 (o.adj l) i j = true := by
    intro i j
    simp only [nzpos]
    unfold ne0 Dense.project
    simp only [Dtype.nz, decide_eq_true_eq]
    rw [ne_eq, Finset.sum_eq_zero_iff_of_nonneg (fun l _ => nn l i j)]
    push Not
    constructor
    · rintro ⟨l, hl, hne⟩
      exact ⟨l, Finset.mem_range.mp hl, lt_of_le_of_ne (nn l i j) (Ne.symm hne)⟩
    · rintro ⟨l, hl, hpos⟩
      exact ⟨l, Finset.mem_range.mpr hl, hpos.ne'⟩
  refine ⟨key i j, ?_⟩
  unfold Dense.symB Dense.symBTensor orT
  rw [Bool.or_eq_true, key, key]
  constructor
  · rintro (⟨l, hl, h⟩ | ⟨l, hl, h⟩)
    · exact ⟨l, hl, by rw [h]; rfl⟩
    · exact ⟨l, hl, by rw [h, Bool.or_true]⟩
  · rintro ⟨l, hl, h⟩
    rcases (Bool.or_eq_true _ _ ▸ h : ne0 (o.adj l) i j = true ∨ ne0 (o.adj l) j i = true) with h | h
    · exact Or.inl ⟨l, hl, h⟩
    · exact Or.inr ⟨l, hl, h⟩

/-- **C27**, connected pairs of sparse multigraphs with weights (`V = ℝ`) or without
(`V = Bool`). -/
theorem C27_connected_sparse_real {v : List (ι × γ)} {e : List (κ × Row ι ℝ)}
    {o : MultiObj ι γ κ ℝ} (h : BuiltMulti v e o) (hL : 0 < o.num_labels) (i j : ℕ) :
    (ne0 (Sparse.project o.num_labels o.adj) i j = true ↔
      ∃ l < o.num_labels, ne0 (o.adj l) i j = true) ∧
    (Sparse.symB (Sparse.project o.num_labels o.adj) i j = true ↔
      ∃ l < o.num_labels, Sparse.symB (o.adj l) i j = true) := by
  have hp : Sparse.project o.num_labels o.adj = Dense.project o.num_labels o.adj := by
    funext i j
    rw [sparse_project_real _ _ hL]; rfl
  rw [hp]
  exact C27_connected_dense h i j

omit [LinearOrder ι] [LinearOrder γ] [LinearOrder κ] in
theorem C27_connected_sparse_bool {o : MultiObj ι γ κ Bool} (hL : 0 < o.num_labels) (i j : ℕ) :
    (ne0 (Sparse.project o.num_labels o.adj) i j = true ↔
      ∃ l < o.num_labels, ne0 (o.adj l) i j = true) ∧
    (Sparse.symB (Sparse.project o.num_labels o.adj) i j = true ↔
      ∃ l < o.num_labels, Sparse.symB (o.adj l) i j = true) := by
  have key : ∀ i j, ne0 (Sparse.project o.num_labels o.adj) i j = true ↔
      ∃ l < o.num_labels, ne0 (o.adj l) i j = true :=
    fun i j => sparse_project_bool _ _ hL i j
  refine ⟨key i j, ?_⟩
  unfold Sparse.symB orT
  rw [Bool.or_eq_true, key, key]
  constructor
  · rintro (⟨l, hl, h⟩ | ⟨l, hl, h⟩)
    · exact ⟨l, hl, by rw [h]; rfl⟩
    · exact ⟨l, hl, by rw [h, Bool.or_true]⟩
  · rintro ⟨l, hl, h⟩
    rcases (Bool.or_eq_true _ _ ▸ h : ne0 (o.adj l) i j = true ∨ ne0 (o.adj l) j i = true) with h | h
    · exact Or.inl ⟨l, hl, h⟩
    · exact Or.inr ⟨l, hl, h⟩

theorem sum_total {W : Type} [Dtype W] (n L : ℕ) (T : ℕ → Mat W) :
    ∑ l ∈ range L, total n (T l) =
      ∑ i ∈ range n, ∑ j ∈ range n, ∑ l ∈ range L, (Dtype.num (T l i j) : ℝ) := by
  unfold total
  rw [Finset.sum_comm]
  exact Finset.sum_congr rfl (fun i _ => Finset.sum_comm)

theorem sum_diag {W : Type} [Dtype W] (n L : ℕ) (T : ℕ → Mat W) :
    ∑ l ∈ range L, diagSum n (T l) =
      ∑ i ∈ range n, ∑ l ∈ range L, (Dtype.num (T l i i) : ℝ) := Finset.sum_comm

theorem num_bool_nonneg (b : Bool) : 0 ≤ (Dtype.num b : ℝ) := by cases b <;> simp [Dtype.num]

theorem num_bool_le (b : Bool) (c : ℕ → Bool) (L : ℕ)
    (h : b = true → ∃ l < L, c l = true) :
    (Dtype.num b : ℝ) ≤ ∑ l ∈ range L, (Dtype.num (c l) : ℝ) := by
  cases hb : b with
  | false =>
    exact le_trans (le_of_eq (by simp [Dtype.num]))
      (Finset.sum_nonneg (fun l _ => num_bool_nonneg (c l)))
  | true =>
    obtain ⟨l, hl, hc⟩ := h hb
    have : (Dtype.num (c l) : ℝ) ≤ ∑ l ∈ range L, (Dtype.num (c l) : ℝ) :=
      Finset.single_le_sum (f := fun l => (Dtype.num (c l) : ℝ)) (fun l _ => num_bool_nonneg (c l))
        (Finset.mem_range.mpr hl)
    rw [hc] at this
    exact this

/-- **C27**, numbers of edges.  `P` is the projected matrix and `T` the tensor, both without
weights, directed or not; they are related as in `C27_connected_*`. -/
theorem C27_num_edges (n L : ℕ) (P : Mat Bool) (T : ℕ → Mat Bool)
    (h : ∀ i j, P i j = true ↔ ∃ l < L, T l i j = true) :
    (fullTotal n P ≤ ∑ l ∈ range L, fullTotal n (T l)) ∧
    (∀ l < L, fullTotal n (T l) ≤ fullTotal n P) ∧
    (halfTotal n P ≤ ∑ l ∈ range L, halfTotal n (T l)) ∧
    (∀ l < L, halfTotal n (T l) ≤ halfTotal n P) := by
  have le1 : ∀ i j, (Dtype.num (P i j) : ℝ) ≤ ∑ l ∈ range L, (Dtype.num (T l i j) : ℝ) :=
    fun i j => num_bool_le _ (fun l => T l i j) L (h i j).mp
  have le2 : ∀ l < L, ∀ i j, (Dtype.num (T l i j) : ℝ) ≤ Dtype.num (P i j) := by
    intro l hl i j
    cases ht : T l i j with
    | false => exact le_trans (le_of_eq (by simp [Dtype.num])) (num_bool_nonneg _)
    | true => rw [(h i j).mpr ⟨l, hl, ht⟩]
  have t1 : total n P ≤ ∑ l ∈ range L, total n (T l) := by
    rw [sum_total]
    exact Finset.sum_le_sum (fun i _ => Finset.sum_le_sum (fun j _ => le1 i j))
  have d1 : diagSum n P ≤ ∑ l ∈ range L, diagSum n (T l) := by
    rw [sum_diag]
    exact Finset.sum_le_sum (fun i _ => le1 i i)
  have t2 : ∀ l < L, total n (T l) ≤ total n P := fun l hl =>
    Finset.sum_le_sum (fun i _ => Finset.sum_le_sum (fun j _ => le2 l hl i j))
  have d2 : ∀ l < L, diagSum n (T l) ≤ diagSum n P := fun l hl =>
    Finset.sum_le_sum (fun i _ => le2 l hl i i)
  refine ⟨t1, t2, ?_, ?_⟩
  · unfold halfTotal
    rw [← Finset.sum_div, Finset.sum_add_distrib]
    linarith
  · intro l hl
    unfold halfTotal
    have := t2 l hl
    have := d2 l hl
    linarith

/-- **C27**, edges of the objects of both backends. -/
theorem C27_edges_dense {v : List (ι × γ)} {e : List (κ × Row ι V)} {o : MultiObj ι γ κ V}
    (h : BuiltMulti v e o) :
    let n := o.num_vertices
    let L := o.num_labels
    (fullTotal n (ne0 (Dense.project L o.adj)) ≤ ∑ l ∈ range L, fullTotal n (ne0 (o.adj l))) ∧
    (∀ l < L, fullTotal n (ne0 (o.adj l)) ≤ fullTotal n (ne0 (Dense.project L o.adj))) ∧
    (halfTotal n (Dense.symB (Dense.project L o.adj)) ≤
      ∑ l ∈ range L, halfTotal n (Dense.symBTensor o.adj l)) ∧
    (∀ l < L, halfTotal n (Dense.symBTensor o.adj l) ≤
      halfTotal n (Dense.symB (Dense.project L o.adj))) := by
  have a := C27_num_edges o.num_vertices o.num_labels _ _ (fun i j => (C27_connected_dense h i j).1)
  have b := C27_num_edges o.num_vertices o.num_labels _ _ (fun i j => (C27_connected_dense h i j).2)
  exact ⟨a.1, a.2.1, b.2.2.1, b.2.2.2⟩

theorem C27_edges_sparse_real {v : List (ι × γ)} {e : List (κ × Row ι ℝ)} {o : MultiObj ι γ κ ℝ}
    (h : BuiltMulti v e o) (hL : 0 < o.num_labels) :
    let n := o.num_vertices
    let L := o.num_labels
    (fullTotal n (ne0 (Sparse.project L o.adj)) ≤ ∑ l ∈ range L, fullTotal n (ne0 (o.adj l))) ∧
    (∀ l < L, fullTotal n (ne0 (o.adj l)) ≤ fullTotal n (ne0 (Sparse.project L o.adj))) ∧
    (halfTotal n (Sparse.symB (Sparse.project L o.adj)) ≤
      ∑ l ∈ range L, halfTotal n (Sparse.symB (o.adj l))) ∧
    (∀ l < L, halfTotal n (Sparse.symB (o.adj l)) ≤
      halfTotal n (Sparse.symB (Sparse.project L o.adj))) := by
  have a := C27_num_edges o.num_vertices o.num_labels _ _
    (fun i j => (C27_connected_sparse_real h hL i j).1)
  have b := C27_num_edges o.num_vertices o.num_labels _ _
    (fun i j => (C27_connected_sparse_real h hL i j).2)
  exact ⟨a.1, a.2.1, b.2.2.1, b.2.2.2⟩

omit [LinearOrder ι] [LinearOrder γ] [LinearOrder κ] in
theorem C27_edges_sparse_bool {o : MultiObj ι γ κ Bool} (hL : 0 < o.num_labels) :
    let n := o.num_vertices
    let L := o.num_labels
    (fullTotal n (ne0 (Sparse.project L o.adj)) ≤ ∑ l ∈ range L, fullTotal n (ne0 (o.adj l))) ∧
    (∀ l < L, fullTotal n (ne0 (o.adj l)) ≤ fullTotal n (ne0 (Sparse.project L o.adj))) ∧
    (halfTotal n (Sparse.symB (Sparse.project L o.adj)) ≤
      ∑ l ∈ range L, halfTotal n (Sparse.symB (o.adj l))) ∧
    (∀ l < L, halfTotal n (Sparse.symB (o.adj l)) ≤
      halfTotal n (Sparse.symB (Sparse.project L o.adj))) := by
  have a := C27_num_edges o.num_vertices o.num_labels _ _
    (fun i j => (C27_connected_sparse_bool hL i j).1)
  have b := C27_num_edges o.num_vertices o.num_labels _ _
    (fun i j => (C27_connected_sparse_bool hL i j).2)
  exact ⟨a.1, a.2.1, b.2.2.1, b.2.2.2⟩

omit [LawfulDtype V] [NumDtype V] in
/-- **C27**, weights add over layers and, for directed multigraphs, `total_weight` is the sum of
`total_weight_label`: dense graphs with or without weights, sparse graphs with weights. -/
theorem C27_weight (n L : ℕ) (T : ℕ → Mat V) (R : ℕ → Mat ℝ) (hL : 0 < L) :
    (∀ i j, Dense.project L T i j = ∑ l ∈ range L, (Dtype.num (T l i j) : ℝ)) ∧
    (∀ i j, Sparse.project L R i j = ∑ l ∈ range L, R l i j) ∧
    fullTotal n (Dense.project L T) = ∑ l ∈ range L, fullTotal n (T l) ∧
    fullTotal n (Sparse.project L R) = ∑ l ∈ range L, fullTotal n (R l) := by
  refine ⟨fun i j => rfl, fun i j => sparse_project_real L R hL i j, ?_, ?_⟩
  · exact (sum_total n L T).symm
  · refine Eq.trans ?_ (sum_total n L R).symm
    unfold fullTotal total
    simp only [Dtype.num]
    exact Finset.sum_congr rfl (fun i _ => Finset.sum_congr rfl (fun j _ =>
      sparse_project_real L R hL i j))

/-- **C27**, total weight of undirected sparse multigraphs with weights. -/
theorem C27_weight_undirected_sparse (n L : ℕ) (R : ℕ → Mat ℝ) (hL : 0 < L) :
    halfTotal n (Sparse.symW (Sparse.project L R)) =
      ∑ l ∈ range L, halfTotal n (Sparse.symW (R l)) := by
  simp only [symW_total]
  exact (C27_weight n L R R hL).2.2.2

/-- **C27**, total weight of undirected dense multigraphs.  Missing: self loops, whose weight is
counted twice (`C27_weight_dense_violated`); the exact value is stated. -/
theorem C27_weight_undirected_dense_partial (n L : ℕ) (R : ℕ → Mat ℝ) (hL : 0 < L) :
    halfTotal n (Dense.symWMulti n (Dense.project L R)) =
      ∑ l ∈ range L, halfTotal n (Dense.symWTensor L n R l) +
        ∑ l ∈ range L, diagSum n (R l) ∧
    ((∀ l < L, ∀ i < n, R l i i = 0) →
      halfTotal n (Dense.symWMulti n (Dense.project L R)) =
        ∑ l ∈ range L, halfTotal n (Dense.symWTensor L n R l)) := by
  have e1 : ∀ i < n, ∀ j < n, Dense.symWMulti n (Dense.project L R) i j =
      Dense.project L R i j + Dense.project L R j i := by
    intro i hi j hj
    unfold Dense.symWMulti
    rw [setDiag_eq n _ _ hi hj]
    by_cases h : i = j
    · subst h; rw [if_pos rfl]; rfl
    · rw [if_neg h]; rfl
  have e2 : halfTotal n (Dense.symWMulti n (Dense.project L R)) =
      total n (Dense.project L R) + diagSum n (Dense.project L R) := by
    rw [halfTotal_congr e1]
    unfold halfTotal total diagSum
    simp only [Dtype.num, Finset.sum_add_distrib]
    have : ∑ i ∈ range n, ∑ j ∈ range n, Dense.project L R j i =
        ∑ i ∈ range n, ∑ j ∈ range n, Dense.project L R i j := Finset.sum_comm
    rw [this]; ring
  have e3 : ∀ l ∈ range L, halfTotal n (Dense.symWTensor L n R l) = total n (R l) := by
    intro l hl
    rw [halfTotal_congr (fun i hi j hj =>
      symWTensor_eq L n R (Finset.mem_range.mp hl) hi hj), symW_total]
  have e4 : diagSum n (Dense.project L R) = ∑ l ∈ range L, diagSum n (R l) := by
    exact (sum_diag n L R).symm
  have main : halfTotal n (Dense.symWMulti n (Dense.project L R)) =
      ∑ l ∈ range L, halfTotal n (Dense.symWTensor L n R l) +
        ∑ l ∈ range L, diagSum n (R l) := by
    rw [e2, Finset.sum_congr rfl e3, e4]
    congr 1
    exact (C27_weight n L R R hL).2.2.1
  refine ⟨main, fun h => ?_⟩
  have hz : ∑ l ∈ range L, diagSum n (R l) = 0 := by
    refine Finset.sum_eq_zero (fun l hl => ?_)
    exact Finset.sum_eq_zero (fun i hi => h l (Finset.mem_range.mp hl) i (Finset.mem_range.mp hi))
  rw [main, hz, add_zero]

end C27

/-! ### Witnesses -/

/-- One vertex. -/
def loopV : List (ℕ × ℕ) := [(0, 0)]

/-- One self loop with label 7. -/
def loopE : List (ℕ × Row ℕ ℝ) := [(7, ⟨0, 0, 1⟩)]

/-- The same link with two labels. -/
def twoE : List (ℕ × Row ℕ Bool) := [(7, ⟨0, 0, true⟩), (8, ⟨0, 0, true⟩)]

theorem loop_id : idOf loopV 0 = some 0 := by
  have hn : (loopV.map Prod.fst).Nodup := by simp [loopV]
  have hi := idOf_some (v := loopV) (x := 0) (by simp [loopV])
  have hlt := idOf_lt hn hi
  rw [hi]
  simp only [loopV, List.length_cons, List.length_nil] at hlt
  congr 1
  change (idOf loopV 0).getD 0 < 1 at hlt
  omega

theorem loop_dense : ∃ o : MultiObj ℕ ℕ ℕ ℝ, Dense.mkMulti loopV loopE = .ok o ∧
    o.num_vertices = 1 ∧ o.num_labels = 1 ∧ o.adj 0 0 0 = 1 := by
  obtain ⟨o, ho⟩ := mkMulti_accepts (tensor := Dense.assignT) (v := loopV) (e := loopE)
    (by simp [loopV]) (by simp [loopV, loopE]) (by simp [loopE, Dtype.pos])
  obtain ⟨_, _, _, e1, _, e3, e4, _, _, e7⟩ := mkMulti_ok ho
  have hL : o.num_labels = 1 := by
    rw [e4, (npUnique_perm (by simp [loopE])).length_eq]; rfl
  have hlk : o.label_dict.lookup 7 = some 0 := by
    have hn := (C20_labels ho).2
    obtain ⟨l, hl⟩ := Option.isSome_iff_exists.mp ((hn.dom 7).mpr (by simp [loopE]))
    have := hn.range 7 l hl
    rw [hL] at this
    have : l = 0 := by omega
    subst this; exact hl
  obtain ⟨o', ho', _, _, _, _, hadj⟩ := C21_layer_dense (o := o) ho hlk
  refine ⟨o, ho, e1, hL, ?_⟩
  rw [← hadj, dense_adj ho']
  have he : edgesOf loopV ((loopE.filter (fun kr => kr.1 = 7)).map Prod.snd) = [⟨0, 0, 1⟩] := by
    have : (loopE.filter (fun kr => kr.1 = 7)).map Prod.snd = [⟨0, 0, 1⟩] := by simp [loopE]
    rw [this]
    unfold edgesOf
    rw [List.filterMap_cons_some (toInternal_some.mpr ⟨loop_id, loop_id, rfl⟩)]
    rfl
  rw [he]
  simp [assign]

/-- **C28** is violated by dense multigraphs: a self loop of weight one appears with weight two in
the undirected view. -/
theorem C28_multi_dense_violated : ∃ (v : List (ℕ × ℕ)) (e : List (ℕ × Row ℕ ℝ))
    (o : MultiObj ℕ ℕ ℕ ℝ), Dense.mkMulti v e = .ok o ∧
    Dense.symWMulti o.num_vertices (Dense.project o.num_labels o.adj) 0 0 = 2 ∧
    undirectedSpec (fun i j => ∑ l ∈ range o.num_labels, o.adj l i j) 0 0 = 1 := by
  obtain ⟨o, ho, hn, hL, ha⟩ := loop_dense
  refine ⟨loopV, loopE, o, ho, ?_, ?_⟩
  · rw [(C28_multi_dense_partial o.num_vertices o.num_labels o.adj (by omega) (by omega)).2 rfl]
    unfold undirectedSpec
    rw [if_pos rfl, hL]
    simp only [Finset.sum_range_one, ha]; norm_num
  · unfold undirectedSpec
    rw [if_pos rfl, hL]
    simp only [Finset.sum_range_one, ha]

/-- **C27** (and C23) are violated by undirected dense multigraphs with self loops: the total
weight of one self loop of weight one is two, while the layer has total weight one. -/
theorem C27_weight_dense_violated : ∃ (v : List (ℕ × ℕ)) (e : List (ℕ × Row ℕ ℝ))
    (o : MultiObj ℕ ℕ ℕ ℝ), Dense.mkMulti v e = .ok o ∧
    (e.map (fun kr => kr.2.val)).sum = 1 ∧
    halfTotal o.num_vertices
      (Dense.symWMulti o.num_vertices (Dense.project o.num_labels o.adj)) = 2 ∧
    ∑ l ∈ range o.num_labels, halfTotal o.num_vertices
      (Dense.symWTensor o.num_labels o.num_vertices o.adj l) = 1 := by
  obtain ⟨o, ho, hn, hL, ha⟩ := loop_dense
  have h1 : ∑ l ∈ range o.num_labels, halfTotal o.num_vertices
      (Dense.symWTensor o.num_labels o.num_vertices o.adj l) = 1 := by
    rw [hL, hn, Finset.sum_range_one, halfTotal_congr (fun i hi j hj =>
      symWTensor_eq 1 1 o.adj (by omega) hi hj), symW_total]
    unfold total
    simp [Dtype.num, ha]
  refine ⟨loopV, loopE, o, ho, by simp [loopE], ?_, h1⟩
  rw [(C27_weight_undirected_dense_partial o.num_vertices o.num_labels o.adj (by omega)).1, h1, hL, hn,
    Finset.sum_range_one]
  unfold diagSum
  rw [Finset.sum_range_one, ha]
  simp [Dtype.num]
  norm_num

/-- **C27** is violated by sparse directed multigraphs without weights: the projection is a
disjunction, so a link with two labels has total weight one instead of two. -/
theorem C27_weight_sparse_bool_violated : ∃ (v : List (ℕ × ℕ)) (e : List (ℕ × Row ℕ Bool))
    (o : MultiObj ℕ ℕ ℕ Bool), Sparse.mkMulti v e = .ok o ∧
    fullTotal o.num_vertices (Sparse.project o.num_labels o.adj) = 1 ∧
    ∑ l ∈ range o.num_labels, fullTotal o.num_vertices (o.adj l) = 2 := by
  obtain ⟨o, ho⟩ := mkMulti_accepts (tensor := Sparse.cooT) (v := loopV) (e := twoE)
    (by simp [loopV]) (by simp [loopV, twoE]) (by simp [twoE, Dtype.pos])
  obtain ⟨_, _, _, e1, _, e3, e4, _, _, e7⟩ := mkMulti_ok ho
  have hL : o.num_labels = 2 := by
    rw [e4, (npUnique_perm (by simp [twoE])).length_eq]; rfl
  have hn : o.num_vertices = 1 := e1
  have key : ∀ l < 2, o.adj l 0 0 = true := by
    intro l hl
    have hnum := (C20_labels ho).2
    obtain ⟨k, hk⟩ := hnum.onto l (by omega)
    have hk' : o.label_dict.lookup k = some l := hk
    have hmem : k ∈ twoE.map Prod.fst := (hnum.dom k).mp (by
      show (o.label_dict.lookup k).isSome = true
      rw [hk']; rfl)
    obtain ⟨o', ho', _, f2, _, _, hadj⟩ := C21_layer_sparse (o := o) ho hk'
    have hid : o'.id_dict.lookup 0 = some 0 := by
      rw [(built_ok (Or.inr ho')).2.2.2.2.1]; exact loop_id
    have hc := (C21_connected (Or.inr ho') hid hid).1
    rw [hadj] at hc
    refine hc.mpr ?_
    have : k = 7 ∨ k = 8 := by simpa [twoE] using hmem
    rcases this with rfl | rfl
    · exact ⟨⟨0, 0, true⟩, by simp [twoE], rfl, rfl⟩
    · exact ⟨⟨0, 0, true⟩, by simp [twoE], rfl, rfl⟩
  refine ⟨loopV, twoE, o, ho, ?_, ?_⟩
  · unfold fullTotal total
    rw [hn, hL, Finset.sum_range_one, Finset.sum_range_one,
      (sparse_project_bool 2 o.adj (by omega) 0 0).mpr ⟨0, by omega, key 0 (by omega)⟩]
    simp [Dtype.num]
  · unfold fullTotal total
    rw [hn, hL]
    simp only [Finset.sum_range_succ, Finset.sum_range_zero, zero_add]
    rw [key 0 (by omega), key 1 (by omega)]
    simp [Dtype.num]
    norm_num

example : (∃ o : MultiObj ℕ ℕ ℕ ℝ, BuiltMulti exV (exE.map (fun r => (r.src, r))) o ∧
    0 < o.num_labels) := by
  obtain ⟨o, ho⟩ := mkMulti_accepts (tensor := Sparse.cooT) (v := exV)
    (e := exE.map (fun r => (r.src, r))) exV_nodup
    (by rw [List.map_map]; simpa using exE_known) (by rw [List.map_map]; simpa using exE_pos)
  refine ⟨o, Or.inr ho, ?_⟩
  have hn := (C20_labels ho).2
  obtain ⟨l, hl⟩ := Option.isSome_iff_exists.mp ((hn.dom 5).mpr (by simp [exE]))
  have := hn.range 5 l hl
  omega

end Graph

end

end Verif
