import Verif.Graph.CachedProps

/-!
# C70: the queries by group
-/

namespace Verif

open Finset

noncomputable section

namespace Graph

section Group

variable {ι γ : Type} [LinearOrder ι] [LinearOrder γ]

theorem group_iff {V : Type} [Dtype V] {v : List (ι × γ)} {e : List (Row ι V)} {o : Obj ι γ V}
    (h : Built v e o) {y : ι} {j k : ℕ} {g : γ} (hy : o.id_dict.lookup y = some j)
    (hg : o.group_dict.lookup g = some k) : o.group j = k ↔ (y, g) ∈ v := by
  obtain ⟨c1, c2, c3, c4⟩ := C20 h
  have hnd := (built_ok h).1
  have hm : y ∈ v.map Prod.fst := (c1.dom y).1 (by
    show (o.id_dict.lookup y).isSome = true
    rw [hy]; rfl)
  obtain ⟨⟨y', g'⟩, hyg, rfl⟩ := List.mem_map.1 hm
  obtain ⟨j', k', hj', hk', hgr⟩ := c4 y' g' hyg
  have : j' = j := Option.some.inj (hj'.symm.trans hy)
  subst this
  have hgk : o.group j' = k' := by unfold Obj.group; rw [hgr]; rfl
  constructor
  · intro hk
    have : k' = k := hgk.symm.trans hk
    subst this
    have : g' = g := c2.inj hk' hg
    subst this
    exact hyg
  · intro hmem
    have : (y', g) = (y', g') := row_inj hnd hmem hyg rfl
    have hgg : g = g' := (Prod.mk.inj this).2
    subst hgg
    have : k' = k := Option.some.inj (hk'.symm.trans hg)
    rw [← this]; exact hgk

theorem group_count {v : List (ι × γ)} {e : List (Row ι ℝ)} {o : Obj ι γ ℝ} (h : Built v e o)
    {g : γ} {k : ℕ} (hg : o.group_dict.lookup g = some k) (B : ℕ → Bool) (R : ι → Prop)
    (hB : ∀ y j, o.id_dict.lookup y = some j → (B j = true ↔ R y)) :
    ∑ j ∈ (range o.num_vertices).filter (fun j => o.group j = k), (Dtype.num (B j) : ℝ) =
      count v (fun y => (y, g) ∈ v ∧ R y) := by
  obtain ⟨h1, _, _, e1, e2, _⟩ := built_ok h
  rw [e1, Finset.sum_filter, ← sum_count h1 (fun j => decide (o.group j = k) && B j)]
  · refine Finset.sum_congr rfl fun j _ => ?_
    by_cases hj : o.group j = k <;> simp [hj, Dtype.num]
  · intro y j hy
    have hy' : o.id_dict.lookup y = some j := by rw [e2]; exact hy
    rw [Bool.and_eq_true, decide_eq_true_eq, group_iff h hy' hg, hB y j hy']

/-- **C70**, degrees by group of single-layer graphs with weights, in both backends: after any
history the degree of `x` towards the group `g` is the number of vertices of `g` that rows join to
`x` in the queried direction. -/
theorem C70_group {b : Backend} {directed : Bool} {v : List (ι × γ)} {e : List (Row ι ℝ)}
    {o : Obj ι γ ℝ} (h : mkOf b v e = .ok o) (l : List (Q × Bool)) (rc : Bool) {x : ι} {i : ℕ}
    (hx : o.id_dict.lookup x = some i) {g : γ} {k : ℕ} (hg : o.group_dict.lookup g = some k) :
    let ask := fun q => ((View.single b directed o).query ((View.single b directed o).after l) q rc).2
    ask .out_degree_by_group i k =
      count v (fun y => (y, g) ∈ v ∧ ∃ r ∈ e, r.src = x ∧ r.dst = y) ∧
    ask .in_degree_by_group i k =
      count v (fun y => (y, g) ∈ v ∧ ∃ r ∈ e, r.src = y ∧ r.dst = x) ∧
    ask .degree_by_group i k = count v (fun y => (y, g) ∈ v ∧
      ∃ r ∈ e, (r.src = x ∧ r.dst = y) ∨ (r.src = y ∧ r.dst = x)) := by
  have hb := mkOf_built h
  simp only [C70_history]
  have hby : ∀ A : Mat Bool, (View.single b directed o).byGroup A i k =
      ∑ j ∈ (range o.num_vertices).filter (fun j => o.group j = k), (Dtype.num (A i j) : ℝ) := by
    intro A
    have hgr : (View.single b directed o).groups = o.group := by
      funext j
      show o.groups.getD j 0 = _
      rw [List.getD_eq_getElem?_getD]; rfl
    unfold View.byGroup
    rw [hgr]
    cases b
    · exact (C25_dense_degree hb A i).1 k
    · exact (C25_sparse hb A i).1 k
  refine ⟨?_, ?_, ?_⟩
  · refine (hby _).trans (group_count hb hg _ _ fun y j hy => ?_)
    exact (C21_connected hb hx hy).1
  · refine (hby _).trans (group_count hb hg _ _ fun y j hy => ?_)
    exact (C21_connected hb hy hx).1
  · refine (hby _).trans (group_count hb hg _ _ fun y j hy => ?_)
    cases b
    · exact (C21_connected hb hx hy).2.2
    · exact (C21_connected hb hx hy).2.1

theorem group_sum {v : List (ι × γ)} {e : List (Row ι ℝ)} {o : Obj ι γ ℝ} (h : Built v e o)
    {g : γ} {k : ℕ} (hg : o.group_dict.lookup g = some k) (f : ℕ → ℝ) (F : ι → ℝ)
    (hf : ∀ y j, o.id_dict.lookup y = some j → f j = F y) :
    ∑ j ∈ (range o.num_vertices).filter (fun j => o.group j = k), f j =
      ∑ y ∈ (v.map Prod.fst).toFinset, if (y, g) ∈ v then F y else 0 := by
  obtain ⟨h1, _, _, e1, e2, _⟩ := built_ok h
  rw [e1, Finset.sum_filter]
  refine sum_ids h1 _ _ fun y j hy => ?_
  have hy' : o.id_dict.lookup y = some j := by rw [e2]; exact hy
  by_cases hj : o.group j = k
  · rw [if_pos hj, if_pos ((group_iff h hy' hg).1 hj), hf y j hy']
  · rw [if_neg hj, if_neg (fun hc => hj ((group_iff h hy' hg).2 hc))]

omit [LinearOrder γ] in
/-- Rows towards a group. -/
theorem sum_split_group [DecidableEq γ] {v : List (ι × γ)} {e : List (Row ι ℝ)} (g : γ)
    (q : Row ι ℝ → Prop) [DecidablePred q]
    (far : Row ι ℝ → ι) (hf : ∀ r ∈ e, q r → far r ∈ v.map Prod.fst) :
    (∑ y ∈ (v.map Prod.fst).toFinset, if (y, g) ∈ v then
      ((e.filter (fun r => q r ∧ far r = y)).map Row.val).sum else 0) =
      ((e.filter (fun r => q r ∧ (far r, g) ∈ v)).map Row.val).sum := by
  rw [← sum_split (v := v) (fun r => q r ∧ (far r, g) ∈ v) far
    (fun r hr hq => hf r hr hq.1)]
  refine Finset.sum_congr rfl fun y _ => ?_
  by_cases hy : (y, g) ∈ v
  · rw [if_pos hy]
    congr 2
    apply List.filter_congr
    intro r _
    simp only [decide_eq_decide]
    constructor
    · rintro ⟨h1, rfl⟩; exact ⟨⟨h1, hy⟩, rfl⟩
    · rintro ⟨⟨h1, _⟩, h2⟩; exact ⟨h1, h2⟩
  · rw [if_neg hy]
    symm
    rw [List.filter_eq_nil_iff.2, List.map_nil, List.sum_nil]
    intro r _ hr
    simp only [decide_eq_true_eq] at hr
    obtain ⟨⟨_, h2⟩, rfl⟩ := hr
    exact hy h2

/-- **C70**, strengths by group of sparse graphs: the weights of the rows between `x` and the
vertices of the group.  (In the dense backend they are truncated to integers,
`C25_dense_violated`.) -/
theorem C70_group_strength_sparse {directed : Bool} {v : List (ι × γ)} {e : List (Row ι ℝ)}
    {o : Obj ι γ ℝ} (h : Sparse.mk v e = .ok o) (l : List (Q × Bool)) (rc : Bool) {x : ι} {i : ℕ}
    (hx : o.id_dict.lookup x = some i) {g : γ} {k : ℕ} (hg : o.group_dict.lookup g = some k) :
    let w := View.single .sparse directed o
    let ask := fun q => (w.query (w.after l) q rc).2
    ask .out_strength_by_group i k =
      ((e.filter (fun r => r.src = x ∧ (r.dst, g) ∈ v)).map Row.val).sum ∧
    ask .in_strength_by_group i k =
      ((e.filter (fun r => r.dst = x ∧ (r.src, g) ∈ v)).map Row.val).sum ∧
    ask .strength_by_group i k = ((e.filter (fun r => (r.src = x ∧ (r.dst, g) ∈ v) ∨
      (r.dst = x ∧ (r.src, g) ∈ v))).map Row.val).sum := by
  have hb : Built v e o := Or.inr h
  have h2 := (built_ok hb).2.1
  simp only [C70_history]
  have hby : ∀ A : Mat ℝ, (View.single .sparse directed o).byGroup A i k =
      ∑ j ∈ (range o.num_vertices).filter (fun j => o.group j = k), A i j := by
    intro A
    have hgr : (View.single .sparse directed o).groups = o.group := by
      funext j
      show o.groups.getD j 0 = _
      rw [List.getD_eq_getElem?_getD]; rfl
    unfold View.byGroup
    rw [hgr]
    exact (C25_sparse hb A i).1 k
  have hout : (∑ y ∈ (v.map Prod.fst).toFinset, if (y, g) ∈ v then
      ((e.filter (fun r => r.src = x ∧ r.dst = y)).map Row.val).sum else 0) =
      ((e.filter (fun r => r.src = x ∧ (r.dst, g) ∈ v)).map Row.val).sum :=
    sum_split_group g (fun r : Row ι ℝ => r.src = x) Row.dst (fun r hr _ => (h2 r hr).2)
  have hinn : (∑ y ∈ (v.map Prod.fst).toFinset, if (y, g) ∈ v then
      ((e.filter (fun r => r.dst = x ∧ r.src = y)).map Row.val).sum else 0) =
      ((e.filter (fun r => r.dst = x ∧ (r.src, g) ∈ v)).map Row.val).sum :=
    sum_split_group g (fun r : Row ι ℝ => r.dst = x) Row.src (fun r hr _ => (h2 r hr).1)
  have hcomm : ∀ y, (e.filter (fun r => r.src = y ∧ r.dst = x)) =
      e.filter (fun r => r.dst = x ∧ r.src = y) := by
    intro y
    apply List.filter_congr
    intro r _
    simp [and_comm]
  refine ⟨?_, ?_, ?_⟩
  · refine (hby _).trans ((group_sum hb hg _ _ fun y j hy => (C21_sparse h hx hy).1).trans hout)
  · refine (hby _).trans ((group_sum hb hg _ _ fun y j hy => (C21_sparse h hy hx).1).trans ?_)
    simp only [hcomm]
    exact hinn
  · refine (hby _).trans ((group_sum hb hg _ _ fun y j hy => (C21_sparse h hx hy).2).trans ?_)
    -- every row is counted with the vertex at its other end
    have hsplit := sum_split_group (v := v) (e := e) g
      (fun r : Row ι ℝ => r.src = x ∨ r.dst = x) (fun r => if r.src = x then r.dst else r.src)
      (fun r hr _ => by
        by_cases hc : r.src = x
        · simpa [hc] using (h2 r hr).2
        · simpa [hc] using (h2 r hr).1)
    refine Eq.trans ?_ (hsplit.trans ?_)
    · refine Finset.sum_congr rfl fun y _ => ?_
      by_cases hy : (y, g) ∈ v
      · rw [if_pos hy, if_pos hy]
        congr 2
        apply List.filter_congr
        intro r _
        simp only [decide_eq_decide]
        by_cases hc : r.src = x
        · simp only [hc, true_and, true_or, if_true]
          constructor
          · rintro (h | ⟨h1, h2⟩)
            · exact h
            · rw [h2, h1]
          · exact Or.inl
        · simp only [hc, false_and, false_or, if_false]
          exact and_comm
      · rw [if_neg hy, if_neg hy]
    · congr 2
      apply List.filter_congr
      intro r _
      simp only [decide_eq_decide]
      by_cases hc : r.src = x
      · simp only [hc, true_and, true_or, if_true]
        constructor
        · exact Or.inl
        · rintro (h | ⟨h1, h2⟩)
          · exact h
          · rw [h1]; exact h2
      · simp only [hc, false_and, false_or, if_false]

end Group

example : ∃ o : Obj ℕ ℕ ℝ, Sparse.mk exV exE = .ok o ∧ ∃ i k, o.id_dict.lookup 5 = some i ∧
    o.group_dict.lookup 1 = some k ∧
    (View.single .sparse true o).fresh i k .out_strength_by_group = 3 / 2 := by
  obtain ⟨o, ho⟩ := sparse_accepts exV_nodup exE_known exE_pos
  obtain ⟨c1, c2, _⟩ := C20 (Or.inr ho)
  obtain ⟨i, hi⟩ := Option.isSome_iff_exists.1 ((c1.dom 5).2 (by simp [exV]))
  obtain ⟨k, hk⟩ := Option.isSome_iff_exists.1 ((c2.dom 1).2 (by simp [exV]))
  refine ⟨o, ho, i, k, hi, hk, ?_⟩
  have := (C70_group_strength_sparse (directed := true) ho [] true hi hk).1
  simp only [C70_history] at this
  rw [this]
  simp [exE, exV]; norm_num

end Graph

end

end Verif
