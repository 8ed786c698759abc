import Verif.Graph.Props

/-!
# Lemmas about multigraphs
-/

namespace Verif

open Finset

noncomputable section

namespace Graph

section Layers

variable {ι γ κ V : Type} [LinearOrder ι] [LinearOrder γ] [LinearOrder κ] [Dtype V]

/-- Edges with internal ids and label numbers. -/
def ledgesOf (v : List (ι × γ)) (lab : κ → ℕ) (e : List (κ × Row ι V)) : List (ℕ × Row ℕ V) :=
  e.filterMap (fun kr => (toInternal (npUnique (v.map Prod.fst)).zipIdx kr.2).map
    (fun r => (lab kr.1, r)))

omit [LinearOrder γ] [LinearOrder κ] [Dtype V] in
theorem zip_ledges {v : List (ι × γ)} (lab : κ → ℕ) {e : List (κ × Row ι V)}
    (h2 : ∀ r ∈ e.map Prod.snd, r.src ∈ v.map Prod.fst ∧ r.dst ∈ v.map Prod.fst) :
    (e.map (fun r => lab r.1)).zip (edgesOf v (e.map Prod.snd)) = ledgesOf v lab e := by
  induction e with
  | nil => rfl
  | cons kr e ih =>
    have hs := (toInternal_isSome v kr.2).mpr (h2 kr.2 (by simp))
    obtain ⟨r', hr'⟩ := Option.isSome_iff_exists.mp hs
    have ih' := ih (fun r hr => h2 r (by
      rw [List.map_cons]; exact List.mem_cons_of_mem _ hr))
    have e1 : edgesOf v ((kr :: e).map Prod.snd) = r' :: edgesOf v (e.map Prod.snd) := by
      unfold edgesOf
      rw [List.map_cons, List.filterMap_cons_some hr']
    have e2 : ledgesOf v lab (kr :: e) = (lab kr.1, r') :: ledgesOf v lab e := by
      unfold ledgesOf
      rw [List.filterMap_cons_some (b := (lab kr.1, r')) (by rw [hr']; rfl)]
    rw [e1, e2, List.map_cons, List.zip_cons_cons, ih']

omit [LinearOrder γ] [Dtype V] in
/-- The rows of one layer are the edges of the table restricted to the label. -/
theorem ledges_layer {v : List (ι × γ)} (lab : κ → ℕ) {k : κ} {l : ℕ} (e : List (κ × Row ι V))
    (hl : ∀ k' ∈ e.map Prod.fst, lab k' = l ↔ k' = k) :
    ((ledgesOf v lab e).filter (fun r => r.1 == l)).map Prod.snd =
      edgesOf v ((e.filter (fun kr => kr.1 = k)).map Prod.snd) := by
  induction e with
  | nil => rfl
  | cons kr e ih =>
    have ih' := ih (fun k' hk' => hl k' (by rw [List.map_cons]; exact List.mem_cons_of_mem _ hk'))
    have hk := hl kr.1 (by simp)
    unfold ledgesOf edgesOf at *
    cases hr : toInternal (npUnique (v.map Prod.fst)).zipIdx kr.2 with
    | none =>
      rw [List.filterMap_cons_none (by rw [hr]; rfl), ih', List.filter_cons]
      by_cases hm : kr.1 = k
      · rw [if_pos (by simpa using hm), List.map_cons, List.filterMap_cons_none hr]
      · rw [if_neg (by simpa using hm)]
    | some r' =>
      rw [List.filterMap_cons_some (b := (lab kr.1, r')) (by rw [hr]; rfl), List.filter_cons,
        List.filter_cons]
      by_cases hm : kr.1 = k
      · rw [if_pos (by simpa using hk.mpr hm), if_pos (by simpa using hm), List.map_cons,
          List.map_cons, List.filterMap_cons_some hr, ih']
      · rw [if_neg (by simpa using fun h => hm (hk.mp h)), if_neg (by simpa using hm), ih']

/-- Label number. -/
def labOf (e : List (κ × Row ι V)) (k : κ) : ℕ :=
  ((npUnique (e.map Prod.fst)).zipIdx.lookup k).getD 0

theorem mkMulti_ok {tensor : List (ℕ × Row ℕ V) → ℕ → Mat V} {v : List (ι × γ)}
    {e : List (κ × Row ι V)} {o : MultiObj ι γ κ V} (h : mkMulti tensor v e = .ok o) :
    (v.map Prod.fst).Nodup ∧
    (∀ r ∈ e.map Prod.snd, r.src ∈ v.map Prod.fst ∧ r.dst ∈ v.map Prod.fst) ∧
    (∀ r ∈ e.map Prod.snd, Dtype.pos r.val = true) ∧ o.num_vertices = v.length ∧
    o.id_dict = (npUnique (v.map Prod.fst)).zipIdx ∧
    o.label_dict = (npUnique (e.map Prod.fst)).zipIdx ∧
    o.num_labels = (npUnique (e.map Prod.fst)).length ∧
    o.group_dict = (npUnique ((sortedRows v).map Prod.snd)).zipIdx ∧ o.groups = groupsOf v ∧
    o.adj = tensor (ledgesOf v (labOf e) e) := by
  unfold mkMulti at h
  cases hb : base v (e.map Prod.snd) with
  | error err => rw [hb] at h; cases h
  | ok b =>
    rw [hb] at h
    simp only [generate_id_dict, Bool.false_and, Bool.false_eq_true, if_false,
      Except.ok.injEq] at h
    obtain ⟨h1, h2, h3, rfl⟩ := base_ok hb
    subst h
    refine ⟨h1, h2, h3, rfl, rfl, rfl, by simp, rfl, rfl, ?_⟩
    rw [← zip_ledges (labOf e) h2]
    rfl

theorem mkMulti_accepts {tensor : List (ℕ × Row ℕ V) → ℕ → Mat V} {v : List (ι × γ)}
    {e : List (κ × Row ι V)} (h1 : (v.map Prod.fst).Nodup)
    (h2 : ∀ r ∈ e.map Prod.snd, r.src ∈ v.map Prod.fst ∧ r.dst ∈ v.map Prod.fst)
    (h3 : ∀ r ∈ e.map Prod.snd, Dtype.pos r.val = true) : ∃ o, mkMulti tensor v e = .ok o := by
  obtain ⟨b, hb⟩ := base_accepts h1 h2 h3
  unfold mkMulti
  rw [hb]
  exact ⟨_, rfl⟩

omit [LinearOrder ι] [Dtype V] in
theorem labOf_iff {e : List (κ × Row ι V)} {k : κ} {l : ℕ}
    (hk : (npUnique (e.map Prod.fst)).zipIdx.lookup k = some l) :
    ∀ k' ∈ e.map Prod.fst, labOf e k' = l ↔ k' = k := by
  intro k' hk'
  obtain ⟨l', hl'⟩ := Option.isSome_iff_exists.mp ((lookup_isSome (e.map Prod.fst) k').mpr hk')
  unfold labOf
  rw [hl', Option.getD_some]
  constructor
  · rintro rfl
    exact (numbering_dict (e.map Prod.fst)).inj hl' hk
  · rintro rfl
    exact Option.some.inj (hl'.symm.trans hk)

omit [LinearOrder ι] in
theorem assignT_layer (rows : List (ℕ × Row ℕ V)) (l : ℕ) :
    Dense.assignT rows l = assign ((rows.filter (fun r => r.1 == l)).map Prod.snd) := by
  induction rows using List.reverseRecOn with
  | nil => rfl
  | append_singleton rows r ih =>
    funext i j
    have e1 : Dense.assignT (rows ++ [r]) l i j =
        if l = r.1 ∧ i = r.2.src ∧ j = r.2.dst then r.2.val else Dense.assignT rows l i j := by
      simp [Dense.assignT]
    rw [e1, List.filter_append, List.map_append, ih]
    by_cases hl : r.1 = l
    · have : List.map Prod.snd (List.filter (fun r : ℕ × Row ℕ V => r.1 == l) [r]) = [r.2] := by
        simp [hl]
      rw [this, assign_append]
      simp only [hl, true_and]
    · have : List.map Prod.snd (List.filter (fun r : ℕ × Row ℕ V => r.1 == l) [r]) = [] := by
        simp [hl]
      rw [this, List.append_nil, if_neg (fun h => hl h.1.symm)]

omit [LinearOrder γ] [Dtype V] in
/-- The rows of a layer come from rows of the table. -/
theorem layer_rows {v : List (ι × γ)} {e : List (κ × Row ι V)} (l : ℕ) :
    ∀ r ∈ ((ledgesOf v (labOf e) e).filter (fun r => r.1 == l)).map Prod.snd,
      ∃ kr ∈ e, idOf v kr.2.src = some r.src ∧ idOf v kr.2.dst = some r.dst ∧
        kr.2.val = r.val ∧ labOf e kr.1 = l := by
  intro r hr
  simp only [List.mem_map, List.mem_filter, beq_iff_eq] at hr
  obtain ⟨⟨l', r'⟩, ⟨hm, hl⟩, rfl⟩ := hr
  unfold ledgesOf at hm
  obtain ⟨kr, hkr, hmap⟩ := List.mem_filterMap.mp hm
  obtain ⟨r'', hr'', he⟩ := Option.map_eq_some_iff.mp hmap
  rw [Prod.mk.injEq] at he
  obtain ⟨he1, rfl⟩ := he
  have := toInternal_some.mp hr''
  exact ⟨kr, hkr, this.1, this.2.1, this.2.2, he1.trans hl⟩

end Layers

/-! ### Projections -/

theorem sparse_project_real (L : ℕ) (A : ℕ → Mat ℝ) (hL : 0 < L) (i j : ℕ) :
    Sparse.project L A i j = ∑ l ∈ range L, A l i j := by
  obtain ⟨m, rfl⟩ : ∃ m, L = m + 1 := ⟨L - 1, by omega⟩
  clear hL
  induction m with
  | zero => simp [Sparse.project]
  | succ m ih =>
    rw [Finset.sum_range_succ, ← ih]
    unfold Sparse.project
    rw [show m + 1 + 1 - 1 = m + 1 by omega, show m + 1 - 1 = m by omega, List.range'_concat,
      List.foldl_append]
    simp only [List.foldl_cons, List.foldl_nil]
    rw [show 1 + 1 * m = m + 1 by ring]
    rfl

theorem sparse_project_bool (L : ℕ) (A : ℕ → Mat Bool) (hL : 0 < L) (i j : ℕ) :
    Sparse.project L A i j = true ↔ ∃ l < L, A l i j = true := by
  obtain ⟨m, rfl⟩ : ∃ m, L = m + 1 := ⟨L - 1, by omega⟩
  clear hL
  induction m with
  | zero =>
    simp only [Sparse.project, zero_add, Nat.sub_self, List.range'_zero, List.foldl_nil]
    constructor
    · intro h; exact ⟨0, by omega, h⟩
    · rintro ⟨l, hl, h⟩
      have : l = 0 := by omega
      subst this; exact h
  | succ m ih =>
    have e1 : Sparse.project (m + 1 + 1) A i j = (Sparse.project (m + 1) A i j || A (m + 1) i j) := by
      unfold Sparse.project
      rw [show m + 1 + 1 - 1 = m + 1 by omega, show m + 1 - 1 = m by omega, List.range'_concat,
        List.foldl_append]
      simp only [List.foldl_cons, List.foldl_nil]
      rw [show 1 + 1 * m = m + 1 by ring]
      rfl
    rw [e1, Bool.or_eq_true, ih]
    constructor
    · rintro (⟨l, hl, h⟩ | h)
      · exact ⟨l, by omega, h⟩
      · exact ⟨m + 1, by omega, h⟩
    · rintro ⟨l, hl, h⟩
      rcases Nat.lt_succ_iff_lt_or_eq.mp hl with hl | rfl
      · exact Or.inl ⟨l, hl, h⟩
      · exact Or.inr h

theorem flatSetT_apply {W : Type} (n : ℕ) (A : Dense.Tensor W) (p : ℕ) (x : W) (l i j : ℕ) :
    Dense.flatSetT n A p x l i j =
      if l * (n * n) + i * n + j = p ∧ i < n ∧ j < n then x else A l i j := rfl

/-- The diagonal positions of the flattened tensor. -/
theorem symWTensor_at {W : Type} [Dtype W] (L n : ℕ) (A : Dense.Tensor W) {l i j : ℕ} (hl : l < L)
    (hi : i < n) (hj : j < n) :
    Dense.symWTensor L n A l i j = if i = j then A l i i else Dtype.add (A l i j) (A l j i) := by
  have hzip : (Dense.diagIndex L n).zip (Dense.diagonals L n A) =
      (List.range L).flatMap (fun l => (List.range n).map (fun i =>
        (l * (n * n) + i * n + i, A l i i))) := by
    have h1 : Dense.diagIndex L n = (List.range L).flatMap (fun l => (List.range n).map (fun i =>
        l * (n * n) + i * n + i)) := by
      unfold Dense.diagIndex
      clear hl
      induction L with
      | zero => simp
      | succ L ih =>
        rw [List.range_succ, List.flatMap_append, ← ih, Nat.succ_mul, List.range_add, List.map_append]
        congr 1
        simp only [List.map_map, List.flatMap_cons, List.flatMap_nil, List.append_nil]
        refine List.map_congr_left (fun r hr => ?_)
        exact Dense.diagIndex_eq n L r (List.mem_range.mp hr)
    rw [h1]
    unfold Dense.diagonals
    clear h1 hl
    induction L with
    | zero => simp
    | succ L ih =>
      rw [List.range_succ, List.flatMap_append, List.flatMap_append, List.flatMap_append,
        List.zip_append, ih]
      · simp only [List.flatMap_cons, List.flatMap_nil, List.append_nil, List.zip_map']
      · simp
  unfold Dense.symWTensor
  rw [hzip]
  have key : ∀ (M : ℕ) (B : Dense.Tensor W) (l i j : ℕ), i < n → j < n →
      ((List.range M).flatMap (fun l => (List.range n).map (fun i =>
        (l * (n * n) + i * n + i, A l i i)))).foldl
          (fun B (pv : ℕ × W) => Dense.flatSetT n B pv.1 pv.2) B l i j =
        if i = j ∧ l < M then A l i i else B l i j := by
    intro M
    induction M with
    | zero => intro B l i j _ _; simp
    | succ M ih =>
      intro B l i j hi hj
      rw [List.range_succ, List.flatMap_append, List.foldl_append]
      simp only [List.flatMap_cons, List.flatMap_nil, List.append_nil]
      have inner : ∀ (m : ℕ) (C : Dense.Tensor W), m ≤ n → ∀ l i j, i < n → j < n →
          ((List.range m).map (fun i => (M * (n * n) + i * n + i, A M i i))).foldl
            (fun B (pv : ℕ × W) => Dense.flatSetT n B pv.1 pv.2) C l i j =
          if l = M ∧ i = j ∧ i < m then A l i i else C l i j := by
        intro m
        induction m with
        | zero => intro C _ l i j _ _; simp
        | succ m ih2 =>
          intro C hm l i j hi hj
          rw [List.range_succ, List.map_append, List.foldl_append]
          simp only [List.map_cons, List.map_nil, List.foldl_cons, List.foldl_nil]
          rw [flatSetT_apply]
          have hpos : l * (n * n) + i * n + j = M * (n * n) + m * n + m ↔ l = M ∧ i = m ∧ j = m := by
            constructor
            · intro h
              have hn : 0 < n := by omega
              have a1 : (l * (n * n) + i * n + j) / n = l * n + i := by
                rw [show l * (n * n) + i * n + j = j + (l * n + i) * n by ring,
                  Nat.add_mul_div_right _ _ hn, Nat.div_eq_of_lt hj]; omega
              have a2 : (M * (n * n) + m * n + m) / n = M * n + m := by
                rw [show M * (n * n) + m * n + m = m + (M * n + m) * n by ring,
                  Nat.add_mul_div_right _ _ hn, Nat.div_eq_of_lt (by omega)]; omega
              have b : l * n + i = M * n + m := by rw [← a1, ← a2, h]
              have c1 : (l * n + i) / n = l := by
                rw [Nat.add_comm, Nat.add_mul_div_right _ _ hn, Nat.div_eq_of_lt hi]; omega
              have c2 : (M * n + m) / n = M := by
                rw [Nat.add_comm, Nat.add_mul_div_right _ _ hn, Nat.div_eq_of_lt (by omega)]; omega
              have d : l = M := by rw [← c1, ← c2, b]
              subst d
              have f : i = m := by omega
              subst f
              exact ⟨rfl, rfl, by omega⟩
            · rintro ⟨rfl, rfl, rfl⟩; rfl
          have := ih2 C (by omega) l i j hi hj
          rw [this]
          by_cases h1 : l = M ∧ i = m ∧ j = m
          · rw [if_pos ⟨hpos.mpr h1, hi, hj⟩, if_pos ⟨h1.1, by rw [h1.2.1, h1.2.2], by omega⟩]
            rw [h1.1, h1.2.1]
          · rw [if_neg (fun h => h1 (hpos.mp h.1))]
            by_cases h2 : l = M ∧ i = j ∧ i < m
            · rw [if_pos h2, if_pos ⟨h2.1, h2.2.1, by omega⟩]
            · rw [if_neg h2, if_neg]
              rintro ⟨h3, h4, h5⟩
              rcases Nat.lt_succ_iff_lt_or_eq.mp h5 with h6 | h6
              · exact h2 ⟨h3, h4, h6⟩
              · exact h1 ⟨h3, h6, by rw [← h4, h6]⟩
      rw [inner n _ le_rfl l i j hi hj, ih B l i j hi hj]
      by_cases h1 : l = M ∧ i = j
      · rw [if_pos ⟨h1.1, h1.2, hi⟩, if_pos ⟨h1.2, by omega⟩]
      · rw [if_neg (fun h => h1 ⟨h.1, h.2.1⟩)]
        by_cases h2 : i = j ∧ l < M
        · rw [if_pos h2, if_pos ⟨h2.1, by omega⟩]
        · rw [if_neg h2, if_neg]
          rintro ⟨h3, h4⟩
          rcases Nat.lt_succ_iff_lt_or_eq.mp h4 with h5 | h5
          · exact h2 ⟨h3, h5⟩
          · exact h1 ⟨h5, h3⟩
  rw [key L _ l i j hi hj]
  unfold addT
  simp only [hl, and_true]

theorem symWTensor_eq (L n : ℕ) (A : Dense.Tensor ℝ) {l i j : ℕ} (hl : l < L) (hi : i < n)
    (hj : j < n) : Dense.symWTensor L n A l i j = Sparse.symW (A l) i j := by
  rw [symWTensor_at L n A hl hi hj]
  unfold Sparse.symW
  by_cases hij : i = j
  · subst hij
    simp
  · simp [hij, Dtype.add]

end Graph

end

end Verif
