import Verif.Graph.Cached
import Verif.Graph.MultiProps

/-!
# C70: what the queries of a graph return, vertex by vertex and label by label
-/

namespace Verif

open Finset

noncomputable section

namespace Graph

/-! ### Histories -/

theorem Q.mem_writes (b : Backend) (q : Q) : q ∈ q.writes b := by
  cases q <;> simp only [Q.writes] <;> (try split) <;> simp

theorem View.after_ok (w : View) (l : List (Q × Bool)) (q : Q) {r : ℕ → ℕ → ℝ}
    (h : w.after l q = some r) : r = fun i k => w.fresh i k q := by
  unfold View.after at h
  have key : ∀ (l : List (Q × Bool)) (c : Attrs),
      (∀ q r, c q = some r → r = fun i k => w.fresh i k q) →
      ∀ q r, l.foldl (fun c a => (w.query c a.1 a.2).1) c q = some r →
        r = fun i k => w.fresh i k q := by
    intro l
    induction l with
    | nil => exact fun c hc => hc
    | cons a l ih =>
      intro c hc
      rw [List.foldl_cons]
      refine ih _ ?_
      intro q r hq
      unfold View.query at hq
      split at hq
      · exact hc q r hq
      · simp only at hq
        split at hq
        · exact (Option.some.inj hq).symm
        · exact hc q r hq
  exact key l _ (by simp) q r h

/-- **C70**: whatever the attributes hold (they may be out of date), a query with `recompute`
returns what a new object computes and stores it, a query that finds its attribute returns it and
changes nothing, and the attributes of queries about other quantities are left alone. -/
theorem C70_recompute (w : View) (c : Attrs) (q : Q) :
    (∀ i k, (w.query c q true).2 i k = w.fresh i k q) ∧
    (∀ i k, ((w.query c q true).1 q).map (fun f => f i k) = some (w.fresh i k q)) ∧
    (∀ r, c q = some r → w.query c q false = (c, r)) ∧
    (c q = none → w.query c q false = w.query c q true) ∧
    (∀ p, p ∉ q.writes w.backend → (w.query c q true).1 p = c p) := by
  have h : w.query c q true = (fun p => if p ∈ q.writes w.backend then
      some (fun i k => w.fresh i k p) else c p, fun i k => w.fresh i k q) := by
    unfold View.query
    cases c q <;> simp [Q.mem_writes]
  refine ⟨fun i k => by rw [h], fun i k => by rw [h]; simp [Q.mem_writes], ?_, ?_, ?_⟩
  · intro r hr; unfold View.query; rw [hr]
  · intro hn; unfold View.query; rw [hn]
  · intro p hp; rw [h]; exact if_neg hp

/-- **C70**, caches: whatever queries were made before, and with whatever `recompute` flags, a
query returns what it computes on a new object. -/
theorem C70_history (w : View) (l : List (Q × Bool)) (q : Q) (recompute : Bool) (i k : ℕ) :
    (w.query (w.after l) q recompute).2 i k = w.fresh i k q := by
  unfold View.query
  split
  · rename_i r h
    rw [w.after_ok l q h]
  · simp [Q.mem_writes]

/-! ### Single vertices -/

section Vertex

variable {ι γ V : Type} [LinearOrder ι] [LinearOrder γ] [Dtype V] [LawfulDtype V]

omit [LinearOrder γ] in
theorem sum_ids {v : List (ι × γ)} (h1 : (v.map Prod.fst).Nodup) (f : ℕ → ℝ) (g : ι → ℝ)
    (hfg : ∀ y j, idOf v y = some j → f j = g y) :
    ∑ j ∈ range v.length, f j = ∑ y ∈ (v.map Prod.fst).toFinset, g y := by
  symm
  refine Finset.sum_bij (fun y _ => (idOf v y).getD 0) ?_ ?_ ?_ ?_
  · intro y hy
    exact Finset.mem_range.2 (idOf_lt h1 (idOf_some (List.mem_toFinset.1 hy)))
  · intro y hy z hz h
    exact getD_inj (List.mem_toFinset.1 hy) (List.mem_toFinset.1 hz) h
  · intro j hj
    have hlen : (npUnique (v.map Prod.fst)).length = v.length := by
      rw [(npUnique_perm h1).length_eq, List.length_map]
    obtain ⟨y, hy⟩ := (idOf_numbering v).onto j (by rw [hlen]; exact Finset.mem_range.1 hj)
    exact ⟨y, List.mem_toFinset.2 (idOf_mem hy), by rw [hy]; rfl⟩
  · intro y hy
    exact (hfg y _ (idOf_some (List.mem_toFinset.1 hy))).symm

/-- The vertices related to a vertex, counted. -/
def count (v : List (ι × γ)) (R : ι → Prop) : ℝ := by
  classical exact (((v.map Prod.fst).toFinset.filter R).card : ℝ)

omit [LinearOrder γ] in
theorem sum_count {v : List (ι × γ)} (h1 : (v.map Prod.fst).Nodup) (B : ℕ → Bool) (R : ι → Prop)
    (h : ∀ y j, idOf v y = some j → (B j = true ↔ R y)) :
    ∑ j ∈ range v.length, (Dtype.num (B j) : ℝ) = count v R := by
  classical
  rw [sum_ids h1 _ (fun y => if R y then 1 else 0)]
  · unfold count
    rw [← Finset.sum_filter, Finset.sum_const, nsmul_eq_mul, mul_one]
  · intro y j hy
    by_cases hR : R y
    · simp [Dtype.num, hR, (h y j hy).2 hR]
    · have : B j = false := by
        rw [Bool.eq_false_iff]; exact fun hb => hR ((h y j hy).1 hb)
      simp [Dtype.num, hR, this]

/-- **C70**, degrees: in both backends, with and without weights, the out-degree of a vertex is
the number of vertices it has a row to, the in-degree the number of vertices with a row to it, and
the undirected degree the number of vertices with a row in either direction. -/
theorem C70_degree {v : List (ι × γ)} {e : List (Row ι V)} {o : Obj ι γ V} (h : Built v e o)
    {x : ι} {i : ℕ} (hx : o.id_dict.lookup x = some i) :
    rowSums o.num_vertices (ne0 o.adj) i = count v (fun y => ∃ r ∈ e, r.src = x ∧ r.dst = y) ∧
    colSums o.num_vertices (ne0 o.adj) i = count v (fun y => ∃ r ∈ e, r.src = y ∧ r.dst = x) ∧
    (∀ B, B = Dense.symB o.adj ∨ B = Sparse.symB o.adj →
      colSums o.num_vertices B i =
        count v (fun y => ∃ r ∈ e, (r.src = x ∧ r.dst = y) ∨ (r.src = y ∧ r.dst = x)) ∧
      rowSums o.num_vertices B i =
        count v (fun y => ∃ r ∈ e, (r.src = x ∧ r.dst = y) ∨ (r.src = y ∧ r.dst = x))) := by
  obtain ⟨h1, h2, h3, e1, e2, e3, e4, ha⟩ := built_ok h
  have hid : ∀ y j, idOf v y = some j → o.id_dict.lookup y = some j := by
    intro y j hy; rw [e2]; exact hy
  rw [e1]
  refine ⟨sum_count h1 _ _ fun y j hy => ?_, sum_count h1 _ _ fun y j hy => ?_,
    fun B hB => ⟨?_, ?_⟩⟩
  · exact (C21_connected h hx (hid y j hy)).1
  · exact (C21_connected h (hid y j hy) hx).1
  · refine sum_count h1 _ _ fun y j hy => ?_
    have := (C21_connected h (hid y j hy) hx).2
    rcases hB with rfl | rfl
    · rw [this.2]; exact ⟨fun ⟨r, hr, hc⟩ => ⟨r, hr, hc.symm⟩, fun ⟨r, hr, hc⟩ => ⟨r, hr, hc.symm⟩⟩
    · rw [this.1]; exact ⟨fun ⟨r, hr, hc⟩ => ⟨r, hr, hc.symm⟩, fun ⟨r, hr, hc⟩ => ⟨r, hr, hc.symm⟩⟩
  · refine sum_count h1 _ _ fun y j hy => ?_
    have := (C21_connected h hx (hid y j hy)).2
    rcases hB with rfl | rfl
    · exact this.2
    · exact this.1

omit [LinearOrder γ] in
/-- Rows grouped by the vertex at the other end. -/
theorem sum_split {v : List (ι × γ)} {e : List (Row ι ℝ)} (q : Row ι ℝ → Prop) [DecidablePred q]
    (far : Row ι ℝ → ι) (hf : ∀ r ∈ e, q r → far r ∈ v.map Prod.fst) :
    ∑ y ∈ (v.map Prod.fst).toFinset, ((e.filter (fun r => q r ∧ far r = y)).map Row.val).sum =
      ((e.filter (fun r => q r)).map Row.val).sum := by
  induction e with
  | nil => simp
  | cons r e ih =>
    have ih' := ih (fun r hr => hf r (by simp [hr]))
    simp only [List.filter_cons]
    by_cases hq : q r
    · have hm := List.mem_toFinset.2 (hf r (by simp) hq)
      simp only [hq, decide_true, if_true, true_and, List.map_cons, List.sum_cons]
      rw [← ih']
      have : ∀ y, ((if decide (far r = y) = true then r :: e.filter (fun r => q r ∧ far r = y)
          else e.filter (fun r => q r ∧ far r = y)).map Row.val).sum =
          (if far r = y then r.val else 0) +
            ((e.filter (fun r => q r ∧ far r = y)).map Row.val).sum := by
        intro y
        by_cases hy : far r = y <;> simp [hy]
      simp only [this, Finset.sum_add_distrib, Finset.sum_ite_eq, hm, if_true]
    · simp only [hq, decide_false, Bool.false_eq_true, if_false, false_and]
      exact ih'

/-- **C70**, strengths of sparse graphs: the out-strength is the sum of the weights of the rows
leaving the vertex, the in-strength of those entering it, and the undirected strength of those
with the vertex at either end (self loops once). -/
theorem C70_strength_sparse {v : List (ι × γ)} {e : List (Row ι ℝ)} {o : Obj ι γ ℝ}
    (h : Sparse.mk v e = .ok o) {x : ι} {i : ℕ} (hx : o.id_dict.lookup x = some i) :
    rowSums o.num_vertices o.adj i = ((e.filter (fun r => r.src = x)).map Row.val).sum ∧
    colSums o.num_vertices o.adj i = ((e.filter (fun r => r.dst = x)).map Row.val).sum ∧
    rowSums o.num_vertices (Sparse.symW o.adj) i =
      ((e.filter (fun r => r.src = x ∨ r.dst = x)).map Row.val).sum := by
  obtain ⟨h1, h2, h3, e1, e2, _⟩ := built_ok (Or.inr h)
  have hid : ∀ y j, idOf v y = some j → o.id_dict.lookup y = some j := by
    intro y j hy; rw [e2]; exact hy
  rw [e1]
  refine ⟨?_, ?_, ?_⟩
  · rw [← sum_split (v := v) (fun r => r.src = x) Row.dst (fun r hr _ => (h2 r hr).2)]
    exact sum_ids h1 _ _ fun y j hy => (C21_sparse h hx (hid y j hy)).1
  · rw [← sum_split (v := v) (fun r => r.dst = x) Row.src (fun r hr _ => (h2 r hr).1)]
    refine sum_ids h1 _ _ fun y j hy => ?_
    rw [show (Dtype.num (o.adj j i) : ℝ) = o.adj j i from rfl, (C21_sparse h (hid y j hy) hx).1]
    simp only [and_comm]
  · have far : ∀ r : Row ι ℝ, ∃ y, y = if r.src = x then r.dst else r.src := fun r => ⟨_, rfl⟩
    rw [← sum_split (v := v) (fun r => r.src = x ∨ r.dst = x)
      (fun r => if r.src = x then r.dst else r.src) (fun r hr _ => by
        split
        · exact (h2 r hr).2
        · exact (h2 r hr).1)]
    refine sum_ids h1 _ _ fun y j hy => ?_
    rw [show (Dtype.num (Sparse.symW o.adj i j) : ℝ) = Sparse.symW o.adj i j from rfl,
      (C21_sparse h hx (hid y j hy)).2]
    congr 2
    apply List.filter_congr
    intro r _
    rw [decide_eq_decide]
    by_cases hs : r.src = x
    · simp only [hs, true_and, true_or, if_true]
      constructor
      · rintro (h | ⟨h, h'⟩)
        · exact h
        · exact h'.trans h
      · exact fun h => Or.inl h
    · simp only [hs, false_and, false_or, if_false]
      exact and_comm

/-- **C70**, strengths of dense graphs.  Missing: tables in which an ordered pair occurs more than
once (`C21_dense_violated`). -/
theorem C70_strength_dense_partial {v : List (ι × γ)} {e : List (Row ι ℝ)} {o : Obj ι γ ℝ}
    (h : Dense.mk v e = .ok o) (hu : (e.map (fun r => (r.src, r.dst))).Nodup)
    {x : ι} {i : ℕ} (hx : o.id_dict.lookup x = some i) :
    rowSums o.num_vertices o.adj i = ((e.filter (fun r => r.src = x)).map Row.val).sum ∧
    colSums o.num_vertices o.adj i = ((e.filter (fun r => r.dst = x)).map Row.val).sum ∧
    rowSums o.num_vertices (Dense.symW o.num_vertices o.adj) i =
      ((e.filter (fun r => r.src = x ∨ r.dst = x)).map Row.val).sum := by
  obtain ⟨h1, h2, h3, e1, e2, _⟩ := built_ok (Or.inl h)
  obtain ⟨o', ho'⟩ := sparse_accepts h1 h2 h3
  obtain ⟨_, _, _, f1, f2, _⟩ := built_ok (Or.inr ho')
  have hx' : o'.id_dict.lookup x = some i := by rw [f2, ← e2]; exact hx
  have hadj : o.adj = o'.adj := by
    rw [dense_adj h, sparse_adj ho', assign_eq_coo _ (edges_nodup hu)]
  have hn : o.num_vertices = o'.num_vertices := by rw [e1, f1]
  obtain ⟨s1, s2, s3⟩ := C70_strength_sparse ho' hx'
  rw [hadj, hn]
  refine ⟨s1, s2, ?_⟩
  rw [← s3]
  have hi : i < o'.num_vertices := by
    rw [f1]; rw [f2] at hx'; exact idOf_lt h1 hx'
  unfold rowSums sum1
  exact Finset.sum_congr rfl fun j hj => by rw [dense_symW _ hi (Finset.mem_range.1 hj)]

end Vertex

/-! ### Single-layer objects -/

section Single

variable {ι γ : Type} [LinearOrder ι] [LinearOrder γ]

/-- The constructor of the backend. -/
def mkOf (b : Backend) (v : List (ι × γ)) (e : List (Row ι ℝ)) : Except Err (Obj ι γ ℝ) :=
  match b with
  | .dense => Dense.mk v e
  | .sparse => Sparse.mk v e

theorem mkOf_built {b : Backend} {v : List (ι × γ)} {e : List (Row ι ℝ)} {o : Obj ι γ ℝ}
    (h : mkOf b v e = .ok o) : Built v e o := by
  cases b
  · exact Or.inl h
  · exact Or.inr h

/-- **C70**, single-layer graphs with weights, through the queries: after any history the degrees
are the numbers of neighbours in the edge table and the number of edges is the number of ordered
(`DiGraph`) or unordered (`Graph`) pairs in it. -/
theorem C70_single {b : Backend} {directed : Bool} {v : List (ι × γ)} {e : List (Row ι ℝ)}
    {o : Obj ι γ ℝ} (h : mkOf b v e = .ok o) (l : List (Q × Bool)) (rc : Bool) {x : ι} {i : ℕ}
    (hx : o.id_dict.lookup x = some i) (k : ℕ) :
    let ask := fun q => ((View.single b directed o).query ((View.single b directed o).after l) q rc).2
    ask .out_degree i k = count v (fun y => ∃ r ∈ e, r.src = x ∧ r.dst = y) ∧
    ask .in_degree i k = count v (fun y => ∃ r ∈ e, r.src = y ∧ r.dst = x) ∧
    ask .degree i k =
      count v (fun y => ∃ r ∈ e, (r.src = x ∧ r.dst = y) ∨ (r.src = y ∧ r.dst = x)) ∧
    ask .num_edges i k =
      if directed then ((e.map (fun r => (r.src, r.dst))).toFinset.card : ℝ)
      else ((e.map (fun r => s(r.src, r.dst))).toFinset.card : ℝ) := by
  have hb := mkOf_built h
  obtain ⟨d1, d2, d3⟩ := C70_degree hb hx
  simp only [C70_history]
  refine ⟨d1, d2, ?_, ?_⟩
  · cases b
    · exact (d3 _ (Or.inl rfl)).1
    · exact (d3 _ (Or.inr rfl)).1
  · cases directed
    · cases b
      · exact (C23_edges hb).2.2.1
      · exact (C23_edges hb).2.2.2
    · exact (C24_directed hb).2.2.1

/-- **C70**, strengths through the queries; in the dense backend for tables without repeated
ordered pairs. -/
theorem C70_single_strength_partial {b : Backend} {directed : Bool} {v : List (ι × γ)}
    {e : List (Row ι ℝ)} {o : Obj ι γ ℝ} (h : mkOf b v e = .ok o)
    (hu : b = .dense → (e.map (fun r => (r.src, r.dst))).Nodup)
    (l : List (Q × Bool)) (rc : Bool) {x : ι} {i : ℕ} (hx : o.id_dict.lookup x = some i) (k : ℕ) :
    let ask := fun q => ((View.single b directed o).query ((View.single b directed o).after l) q rc).2
    ask .out_strength i k = ((e.filter (fun r => r.src = x)).map Row.val).sum ∧
    ask .in_strength i k = ((e.filter (fun r => r.dst = x)).map Row.val).sum ∧
    ask .strength i k = ((e.filter (fun r => r.src = x ∨ r.dst = x)).map Row.val).sum ∧
    ask .total_weight i k = (e.map Row.val).sum := by
  simp only [C70_history]
  cases b
  · obtain ⟨d1, d2, d3⟩ := C70_strength_dense_partial h (hu rfl) hx
    refine ⟨d1, d2, d3, ?_⟩
    cases directed
    · exact C23_weight_dense_partial h (hu rfl)
    · obtain ⟨h1, h2, h3, e1, _⟩ := built_ok (Or.inl h)
      show total o.num_vertices o.adj = _
      rw [dense_adj h, assign_eq_coo _ (edges_nodup (hu rfl)), e1, total_coo _ _ (edges_lt h1),
        edges_val v e h2]
  · obtain ⟨d1, d2, d3⟩ := C70_strength_sparse h hx
    refine ⟨d1, d2, d3, ?_⟩
    cases directed
    · exact (C23_weight_sparse h).2
    · exact C24_weight_sparse h

end Single

/-! ### Multigraphs -/

section Multi

variable {ι γ κ : Type} [LinearOrder ι] [LinearOrder γ] [LinearOrder κ]

/-- The constructor of the backend. -/
def mkMultiOf (b : Backend) (v : List (ι × γ)) (e : List (κ × Row ι ℝ)) :
    Except Err (MultiObj ι γ κ ℝ) :=
  match b with
  | .dense => Dense.mkMulti v e
  | .sparse => Sparse.mkMulti v e

theorem layer_of {b : Backend} {v : List (ι × γ)} {e : List (κ × Row ι ℝ)} {o : MultiObj ι γ κ ℝ}
    (h : mkMultiOf b v e = .ok o) {k : κ} {l : ℕ} (hk : o.label_dict.lookup k = some l) :
    ∃ o' : Obj ι γ ℝ, mkOf b v ((e.filter (fun kr => kr.1 = k)).map Prod.snd) = .ok o' ∧
      o'.num_vertices = o.num_vertices ∧ o'.id_dict = o.id_dict ∧ o'.adj = o.adj l := by
  cases b
  · obtain ⟨o', h1, h2, h3, -, -, h6⟩ := C21_layer_dense h hk
    exact ⟨o', h1, h2, h3, h6⟩
  · obtain ⟨o', h1, h2, h3, -, -, h6⟩ := C21_layer_sparse h hk
    exact ⟨o', h1, h2, h3, h6⟩

omit [LinearOrder ι] in
theorem mem_layer {e : List (κ × Row ι ℝ)} {k : κ} {p : Row ι ℝ → Prop} :
    (∃ r ∈ (e.filter (fun kr => kr.1 = k)).map Prod.snd, p r) ↔ ∃ r ∈ e, r.1 = k ∧ p r.2 := by
  simp only [List.mem_map, List.mem_filter, decide_eq_true_eq]
  constructor
  · rintro ⟨r, ⟨kr, ⟨h1, h2⟩, rfl⟩, hp⟩
    exact ⟨kr, h1, h2, hp⟩
  · rintro ⟨kr, h1, h2, hp⟩
    exact ⟨kr.2, ⟨kr, ⟨h1, h2⟩, rfl⟩, hp⟩

omit [LinearOrder ι] in
theorem layer_filter {α : Type} (e : List (κ × Row ι ℝ)) (k : κ) (p : Row ι ℝ → Prop)
    [DecidablePred p] (f : Row ι ℝ → α) :
    (((e.filter (fun kr => kr.1 = k)).map Prod.snd).filter (fun r => p r)).map f =
      (e.filter (fun kr => kr.1 = k ∧ p kr.2)).map (fun kr => f kr.2) := by
  rw [List.filter_map, List.filter_filter, List.map_map]
  congr 1
  apply List.filter_congr
  intro r _
  simp [and_comm]

omit [LinearOrder ι] [LinearOrder γ] [LinearOrder κ] in
theorem fresh_layer {b : Backend} {directed : Bool} {o : MultiObj ι γ κ ℝ} {o' : Obj ι γ ℝ} {l : ℕ}
    (hl : l < o.num_labels) (h2 : o'.num_vertices = o.num_vertices) (h6 : o'.adj = o.adj l)
    {i : ℕ} (hi : i < o.num_vertices) (j : ℕ) :
    let w := View.multi b directed o
    let w' := View.single b directed o'
    w.fresh i l .num_edges_label = w'.fresh i j .num_edges ∧
    w.fresh i l .total_weight_label = w'.fresh i j .total_weight ∧
    w.fresh i l .strength_by_label = w'.fresh i j .strength ∧
    w.fresh i l .degree_by_label = rowSums o'.num_vertices (Sparse.symB o'.adj) i ∧
    w.fresh i l .out_degree_by_label = w'.fresh i j .out_degree ∧
    w.fresh i l .in_degree_by_label = w'.fresh i j .in_degree ∧
    w.fresh i l .out_strength_by_label = w'.fresh i j .out_strength ∧
    w.fresh i l .in_strength_by_label = w'.fresh i j .in_strength := by
  have hw : ∀ i < o.num_vertices, ∀ j < o.num_vertices,
      Dense.symWTensor o.num_labels o.num_vertices o.adj l i j =
        Dense.symW o.num_vertices (o.adj l) i j := fun i hi j hj => by
    rw [symWTensor_eq _ _ _ hl hi hj, dense_symW _ hi hj]
  have hrow : rowSums o.num_vertices (Dense.symWTensor o.num_labels o.num_vertices o.adj l) i =
      rowSums o.num_vertices (Dense.symW o.num_vertices (o.adj l)) i := by
    unfold rowSums sum1
    exact Finset.sum_congr rfl fun j hj => by rw [hw i hi j (Finset.mem_range.1 hj)]
  cases b <;> cases directed <;>
    simp only [View.fresh, View.multi, View.single, h2, h6, if_true, Bool.false_eq_true, if_false,
      hrow, halfTotal_congr hw, and_self, true_and, and_true] <;>
    first | rfl | exact ⟨rfl, rfl⟩

/-- **C70**, multigraphs with weights: for every label the degrees are the numbers of neighbours
in the rows with that label, and the number of edges the number of ordered (`MultiDiGraph`) or
unordered (`MultiGraph`) pairs in these rows; after any history of queries. -/
theorem C70_label {b : Backend} {directed : Bool} {v : List (ι × γ)} {e : List (κ × Row ι ℝ)}
    {o : MultiObj ι γ κ ℝ} (h : mkMultiOf b v e = .ok o) (hist : List (Q × Bool)) (rc : Bool)
    {x : ι} {i : ℕ} (hx : o.id_dict.lookup x = some i)
    {k : κ} {l : ℕ} (hk : o.label_dict.lookup k = some l) :
    let ask := fun q =>
      ((View.multi b directed o).query ((View.multi b directed o).after hist) q rc).2 i l
    ask .out_degree_by_label =
      count v (fun y => ∃ r ∈ e, r.1 = k ∧ r.2.src = x ∧ r.2.dst = y) ∧
    ask .in_degree_by_label =
      count v (fun y => ∃ r ∈ e, r.1 = k ∧ r.2.src = y ∧ r.2.dst = x) ∧
    ask .degree_by_label =
      count v (fun y => ∃ r ∈ e, r.1 = k ∧
        ((r.2.src = x ∧ r.2.dst = y) ∨ (r.2.src = y ∧ r.2.dst = x))) ∧
    ask .num_edges_label =
      if directed then
        (((e.filter (fun kr => kr.1 = k)).map (fun kr => (kr.2.src, kr.2.dst))).toFinset.card : ℝ)
      else
        (((e.filter (fun kr => kr.1 = k)).map (fun kr => s(kr.2.src, kr.2.dst))).toFinset.card :
          ℝ) := by
  obtain ⟨o', h1, h2, h3, h6⟩ := layer_of h hk
  have hnum : Numbering (v.map Prod.fst) o.num_vertices (fun x => o.id_dict.lookup x) ∧
      Numbering (e.map Prod.fst) o.num_labels (fun l => o.label_dict.lookup l) := by
    cases b <;> exact C20_labels h
  have hx' : o'.id_dict.lookup x = some i := by rw [h3]; exact hx
  obtain ⟨f1, -, -, f4, f5, f6, -, -⟩ := fresh_layer (b := b) (directed := directed)
    (hnum.2.range _ _ hk) h2 h6 (hnum.1.range _ _ hx) 0
  have hs := C70_single (directed := directed) h1 [] true hx' 0
  simp only [C70_history] at hs ⊢
  obtain ⟨s1, s2, s3, s4⟩ := hs
  rw [f1, f4, f5, f6, s1, s2, s4, (((C70_degree (mkOf_built h1) hx').2.2 _ (Or.inr rfl)).2)]
  refine ⟨?_, ?_, ?_, ?_⟩
  · simp only [mem_layer]
  · simp only [mem_layer]
  · simp only [mem_layer]
  · simp only [List.map_map]; rfl

/-- **C70**, weights by label; in the dense backend for tables in which no label and ordered pair
is repeated. -/
theorem C70_label_strength_partial {b : Backend} {directed : Bool} {v : List (ι × γ)}
    {e : List (κ × Row ι ℝ)} {o : MultiObj ι γ κ ℝ} (h : mkMultiOf b v e = .ok o)
    (hu : b = .dense → (e.map (fun r => (r.1, r.2.src, r.2.dst))).Nodup)
    (hist : List (Q × Bool)) (rc : Bool)
    {x : ι} {i : ℕ} (hx : o.id_dict.lookup x = some i)
    {k : κ} {l : ℕ} (hk : o.label_dict.lookup k = some l) :
    let ask := fun q =>
      ((View.multi b directed o).query ((View.multi b directed o).after hist) q rc).2 i l
    ask .out_strength_by_label =
      ((e.filter (fun r => r.1 = k ∧ r.2.src = x)).map (fun r => r.2.val)).sum ∧
    ask .in_strength_by_label =
      ((e.filter (fun r => r.1 = k ∧ r.2.dst = x)).map (fun r => r.2.val)).sum ∧
    ask .strength_by_label =
      ((e.filter (fun r => r.1 = k ∧ (r.2.src = x ∨ r.2.dst = x))).map (fun r => r.2.val)).sum ∧
    ask .total_weight_label = ((e.filter (fun r => r.1 = k)).map (fun r => r.2.val)).sum := by
  obtain ⟨o', h1, h2, h3, h6⟩ := layer_of h hk
  have hnum : Numbering (v.map Prod.fst) o.num_vertices (fun x => o.id_dict.lookup x) ∧
      Numbering (e.map Prod.fst) o.num_labels (fun l => o.label_dict.lookup l) := by
    cases b <;> exact C20_labels h
  have hx' : o'.id_dict.lookup x = some i := by rw [h3]; exact hx
  obtain ⟨-, f2, f3, -, -, -, f7, f8⟩ := fresh_layer (b := b) (directed := directed)
    (hnum.2.range _ _ hk) h2 h6 (hnum.1.range _ _ hx) 0
  have hu' : b = .dense → (((e.filter (fun kr => kr.1 = k)).map Prod.snd).map
      (fun r => (r.src, r.dst))).Nodup := by
    intro hb
    have hf : ((e.filter (fun kr => kr.1 = k)).map (fun r => (r.1, r.2.src, r.2.dst))).Nodup :=
      (hu hb).sublist (List.filter_sublist.map _)
    rw [List.map_map]
    have : (e.filter (fun kr => kr.1 = k)).map (fun r => (r.1, r.2.src, r.2.dst)) =
        ((e.filter (fun kr => kr.1 = k)).map ((fun r : Row ι ℝ => (r.src, r.dst)) ∘ Prod.snd)).map
          (fun p => (k, p)) := by
      rw [List.map_map]
      apply List.map_congr_left
      intro r hr
      simp only [List.mem_filter, decide_eq_true_eq] at hr
      simp [hr.2]
    rw [this] at hf
    exact hf.of_map _
  have hs := C70_single_strength_partial (directed := directed) h1 hu' [] true hx' 0
  simp only [C70_history] at hs ⊢
  obtain ⟨s1, s2, s3, s4⟩ := hs
  rw [f2, f3, f7, f8, s1, s2, s3, s4, layer_filter, layer_filter, layer_filter, List.map_map]
  exact ⟨rfl, rfl, rfl, rfl⟩

omit [LinearOrder ι] [LinearOrder γ] [LinearOrder κ] in
/-- **C70**, sums over the vertices, label by label. -/
theorem C70_label_sums {b : Backend} (directed : Bool) (o : MultiObj ι γ κ ℝ) (l i : ℕ) :
    let w := View.multi b directed o
    (directed = true →
      ∑ j ∈ range o.num_vertices, w.fresh j l .out_degree_by_label = w.fresh i l .num_edges_label ∧
      ∑ j ∈ range o.num_vertices, w.fresh j l .in_degree_by_label = w.fresh i l .num_edges_label ∧
      ∑ j ∈ range o.num_vertices, w.fresh j l .out_strength_by_label =
        w.fresh i l .total_weight_label ∧
      ∑ j ∈ range o.num_vertices, w.fresh j l .in_strength_by_label =
        w.fresh i l .total_weight_label) ∧
    (directed = false →
      ∑ j ∈ range o.num_vertices, w.fresh j l .degree_by_label =
        2 * w.fresh i l .num_edges_label - diagSum o.num_vertices (w.tenB false l) ∧
      ∑ j ∈ range o.num_vertices, w.fresh j l .strength_by_label =
        2 * w.fresh i l .total_weight_label - diagSum o.num_vertices (w.tenW false l)) := by
  constructor
  · rintro rfl
    exact ⟨rfl, sum_cols _ _, rfl, sum_cols _ _⟩
  · rintro rfl
    exact ⟨(sum_degrees _ _).2, (sum_degrees _ _).2⟩

end Multi

/-- **C70** is violated by the strengths of dense graphs: a repeated row overwrites. -/
theorem C70_dense_violated : ∃ (v : List (ℕ × ℕ)) (e : List (Row ℕ ℝ)) (o : Obj ℕ ℕ ℝ) (i : ℕ),
    Dense.mk v e = .ok o ∧ o.id_dict.lookup 0 = some i ∧
    (View.single .dense true o).fresh i 0 .out_strength = 2 ∧
    ((e.filter (fun r => r.src = 0)).map Row.val).sum = 3 := by
  obtain ⟨o, ho⟩ := dense_accepts dupV_nodup dupE_known dupE_pos
  have hi := idOf_some (v := dupV) (x := 0) (by simp [dupV])
  have hj := idOf_some (v := dupV) (x := 1) (by simp [dupV])
  have he := dup_edges hi hj [1, 2]
  obtain ⟨-, -, -, e1, e2, -⟩ := built_ok (Or.inl ho)
  refine ⟨dupV, dupE, o, (idOf dupV 0).getD 0, ho, by rw [e2]; exact hi, ?_, ?_⟩
  · have hlt := idOf_lt dupV_nodup hj
    show ∑ j ∈ range o.num_vertices, o.adj _ j = 2
    rw [dense_adj ho, show dupE = [1, 2].map (fun w => (⟨0, 1, w⟩ : Row ℕ ℝ)) from rfl, he, e1]
    rw [Finset.sum_eq_single ((idOf dupV 1).getD 0)]
    · simp [assign]
    · intro j _ hj
      simp [assign, hj, Dtype.zero]
    · intro h
      exact absurd (Finset.mem_range.2 hlt) h
  · norm_num [dupE]

/-- Two labels on the example table. -/
def exLE : List (ℕ × Row ℕ ℝ) := [(4, ⟨5, 3, 1⟩), (4, ⟨5, 9, 2⟩), (8, ⟨5, 3, 3⟩), (4, ⟨9, 5, 1 / 2⟩)]

example : ∃ (o : MultiObj ℕ ℕ ℕ ℝ) (i l : ℕ), mkMultiOf .dense exV exLE = .ok o ∧
    (exLE.map (fun r => (r.1, r.2.src, r.2.dst))).Nodup ∧
    o.id_dict.lookup 5 = some i ∧ o.label_dict.lookup 4 = some l ∧
    (View.multi .dense true o).fresh i l .out_strength_by_label = 3 ∧
    (View.multi .dense true o).fresh i l .strength_by_label = 7 / 2 ∧
    (View.multi .dense true o).fresh i l .num_edges_label = 3 := by
  have hu : (exLE.map (fun r => (r.1, r.2.src, r.2.dst))).Nodup := by simp [exLE]
  obtain ⟨b, hb⟩ := base_accepts (e := exLE.map Prod.snd) exV_nodup (by simp [exLE, exV])
    (by simp [exLE, Dtype.pos])
  have hm : ∃ o, mkMultiOf .dense exV exLE = .ok o := by
    unfold mkMultiOf Dense.mkMulti mkMulti
    simp only [hb, generate_id_dict, Bool.false_and, Bool.false_eq_true, if_false]
    exact ⟨_, rfl⟩
  obtain ⟨o, ho⟩ := hm
  have hn := C20_labels (show mkMulti Dense.assignT exV exLE = .ok o from ho)
  obtain ⟨i, hi⟩ := Option.isSome_iff_exists.1 ((hn.1.dom 5).2 (by simp [exV]))
  obtain ⟨l, hl⟩ := Option.isSome_iff_exists.1 ((hn.2.dom 4).2 (by simp [exLE]))
  obtain ⟨s1, -, s3, -⟩ := C70_label_strength_partial (directed := true) ho (fun _ => hu) [] false hi hl
  obtain ⟨-, -, -, c4⟩ := C70_label (directed := true) ho [] false hi hl
  simp only [C70_history] at s1 s3 c4
  refine ⟨o, i, l, ho, hu, hi, hl, ?_, ?_, ?_⟩
  · rw [s1]; norm_num [exLE]
  · rw [s3]; norm_num [exLE]
  · rw [c4]
    have : ((exLE.filter (fun kr => kr.1 = 4)).map (fun kr => (kr.2.src, kr.2.dst))).toFinset =
        {(5, 3), (5, 9), (9, 5)} := by
      ext p; simp [exLE]
    rw [this]
    norm_num

end Graph

end

end Verif
