import Verif.Graph.UnweightedLemmas

/-!
# C87: strengths of graphs without weights

The documentation of the graph classes says: "edges can be weighted or not. If they are not, the
strengths will be equal to the degrees."
-/

namespace Verif

open Finset

noncomputable section

namespace Graph

/-- The query of degrees or numbers of edges that corresponds to a query of strengths or weights. -/
def Q.plain : Q → Q
  | .total_weight => .num_edges
  | .strength => .degree
  | .strength_by_group => .degree_by_group
  | .out_strength => .out_degree
  | .in_strength => .in_degree
  | .out_strength_by_group => .out_degree_by_group
  | .in_strength_by_group => .in_degree_by_group
  | .total_weight_label => .num_edges_label
  | .strength_by_label => .degree_by_label
  | .out_strength_by_label => .out_degree_by_label
  | .in_strength_by_label => .in_degree_by_label
  | q => q

/-- The queries by label. -/
def Q.byLabel : Q → Bool
  | .num_edges_label | .total_weight_label | .degree_by_label | .strength_by_label
  | .out_degree_by_label | .in_degree_by_label | .out_strength_by_label
  | .in_strength_by_label => true
  | _ => false

/-- What a query returns after a history. -/
def View.ask (w : View) (hist : List (Q × Bool)) (rc : Bool) (q : Q) (i k : ℕ) : ℝ :=
  (w.query (w.after hist) q rc).2 i k

theorem View.ask_eq (w : View) (hist : List (Q × Bool)) (rc : Bool) (q : Q) (i k : ℕ) :
    w.ask hist rc q i k = w.fresh i k q := C70_history w hist q rc i k

section Single

variable {ι γ : Type} [LinearOrder ι] [LinearOrder γ]

omit [LinearOrder ι] [LinearOrder γ] in
/-- **C87**, single-layer graphs of the dense backend: after any queries, every strength is the
corresponding degree and the total weight is the number of edges. -/
theorem C87_dense (directed : Bool) (o : Obj ι γ Bool) (hist : List (Q × Bool)) (rc : Bool) (q : Q)
    {i : ℕ} (hi : i < o.num_vertices) (k : ℕ) :
    let w := View.singleU .dense directed o
    w.ask hist rc q i k = w.ask hist rc q.plain i k := by
  dsimp only
  rw [View.ask_eq, View.ask_eq]
  have hl : ∀ i, loopNum (View.singleU .dense directed o) (decide (Backend.dense = .sparse)) i = 0 :=
    fun i => by simp [loopNum]
  obtain ⟨h1, h2, h3, h4, h5, h6, h7⟩ := (single_matches .dense directed o).fresh hi k
  simp only [hl, ite_self, sub_zero, Finset.sum_const_zero] at h5 h6 h7
  cases q <;> first
    | rfl
    | exact h1
    | exact h2
    | exact h3
    | exact h4
    | exact h5
    | exact h6
    | exact h7

omit [LinearOrder ι] [LinearOrder γ] in
/-- **C87**, the part that holds for all graphs of the sparse backend: in and out strengths are the
in and out degrees, and the total weight of a directed graph is its number of edges. -/
theorem C87_sparse_directed (directed : Bool) (o : Obj ι γ Bool) (hist : List (Q × Bool)) (rc : Bool)
    {i : ℕ} (hi : i < o.num_vertices) (k : ℕ) :
    let ask := (View.singleU .sparse directed o).ask hist rc
    ask .out_strength i k = ask .out_degree i k ∧
    ask .in_strength i k = ask .in_degree i k ∧
    ask .out_strength_by_group i k = ask .out_degree_by_group i k ∧
    ask .in_strength_by_group i k = ask .in_degree_by_group i k ∧
    (directed = true → ask .total_weight i k = ask .num_edges i k) := by
  simp only [View.ask_eq]
  obtain ⟨h1, h2, h3, h4, -, -, h7⟩ := (single_matches .sparse directed o).fresh hi k
  refine ⟨h1, h2, h3, h4, fun hd => ?_⟩
  subst hd
  simpa [View.singleU] using h7

open Classical in
theorem loop_num {v : List (ι × γ)} {e : List (Row ι Bool)} {o : Obj ι γ Bool}
    (h : Sparse.mk v e = .ok o) (directed : Bool) {x : ι} {i : ℕ}
    (hx : o.id_dict.lookup x = some i) :
    loopNum (View.singleU .sparse directed o) (decide (Backend.sparse = .sparse)) i =
      if ∃ r ∈ e, r.src = x ∧ r.dst = x then 1 else 0 := by
  have hc := (C21_connected (Or.inr h) hx hx).2.1
  simp only [or_self] at hc
  unfold loopNum
  rw [if_pos (by simp)]
  show Dtype.num (Sparse.symB o.adj i i) = _
  by_cases hr : ∃ r ∈ e, r.src = x ∧ r.dst = x
  · rw [if_pos hr, hc.2 hr]; simp [Dtype.num]
  · rw [if_neg hr, Bool.eq_false_iff.2 (fun hb => hr (hc.1 hb)), num_false]

open Classical in
/-- **C87**, the undirected queries of the sparse backend: self loops are missing from them.  The
strength of a vertex is its degree, less one if a row joins it to itself; the total weight of an
undirected graph is its number of edges less the number of vertices with such a row. -/
theorem C87_sparse {v : List (ι × γ)} {e : List (Row ι Bool)} {o : Obj ι γ Bool}
    (h : Sparse.mk v e = .ok o) (directed : Bool) (hist : List (Q × Bool)) (rc : Bool) {x : ι} {g : γ}
    {i k : ℕ} (hx : o.id_dict.lookup x = some i) (hg : o.group_dict.lookup g = some k) :
    let ask := (View.singleU .sparse directed o).ask hist rc
    ask .strength i k = ask .degree i k - (if ∃ r ∈ e, r.src = x ∧ r.dst = x then 1 else 0) ∧
    ask .strength_by_group i k = ask .degree_by_group i k -
      (if (x, g) ∈ v ∧ ∃ r ∈ e, r.src = x ∧ r.dst = x then 1 else 0) ∧
    (directed = false → ask .total_weight i k = ask .num_edges i k -
      count v (fun y => ∃ r ∈ e, r.src = y ∧ r.dst = y)) := by
  have hi := (C20 (Or.inr h)).1.range _ _ hx
  obtain ⟨h1, _, _, e1, e2, _⟩ := built_ok (Or.inr h)
  simp only [View.ask_eq]
  obtain ⟨-, -, -, -, h5, h6, h7⟩ := (single_matches .sparse directed o).fresh hi k
  rw [loop_num h directed hx] at h5 h6
  refine ⟨h5, ?_, fun hd => ?_⟩
  · rw [h6]
    have hgr : (View.singleU .sparse directed o).groups i = k ↔ (x, g) ∈ v := by
      rw [← group_iff (Or.inr h) hx hg]
      show o.groups.getD i 0 = k ↔ _
      rw [List.getD_eq_getElem?_getD]; exact Iff.rfl
    by_cases hm : (x, g) ∈ v
    · rw [if_pos (hgr.2 hm)]; simp only [hm, true_and]
    · rw [if_neg (fun hc => hm (hgr.1 hc))]; simp only [hm, false_and, if_false]
  · subst hd
    rw [h7]
    congr 1
    show (if false = true then (0 : ℝ) else ∑ j ∈ range o.num_vertices, _) = _
    rw [if_neg (by simp), e1, ← sum_count h1 (fun j => Sparse.symB o.adj j j)]
    · exact Finset.sum_congr rfl fun j _ => by unfold loopNum; rw [if_pos (by simp)]; rfl
    · intro y j hy
      have hy' : o.id_dict.lookup y = some j := by rw [e2]; exact hy
      have := (C21_connected (Or.inr h) hy' hy').2.1
      simpa only [or_self] using this

/-- **C87**, sparse backend.  Missing: tables in which a row joins a vertex to itself
(`C87_sparse_violated`). -/
theorem C87_sparse_partial {v : List (ι × γ)} {e : List (Row ι Bool)} {o : Obj ι γ Bool}
    (h : Sparse.mk v e = .ok o) (hloop : ∀ r ∈ e, r.src ≠ r.dst) (directed : Bool)
    (hist : List (Q × Bool)) (rc : Bool) (q : Q) {i : ℕ} (hi : i < o.num_vertices) (k : ℕ) :
    let w := View.singleU .sparse directed o
    w.ask hist rc q i k = w.ask hist rc q.plain i k := by
  dsimp only
  rw [View.ask_eq, View.ask_eq]
  have hl : ∀ j < o.num_vertices,
      loopNum (View.singleU .sparse directed o) (decide (Backend.sparse = .sparse)) j = 0 := by
    intro j hj
    obtain ⟨x, hx⟩ := (C20 (Or.inr h)).1.onto j hj
    rw [loop_num h directed hx, if_neg]
    rintro ⟨r, hr, h1, h2⟩
    exact hloop r hr (h1.trans h2.symm)
  obtain ⟨h1, h2, h3, h4, h5, h6, h7⟩ := (single_matches .sparse directed o).fresh hi k
  rw [hl i hi, sub_zero] at h5
  rw [hl i hi, ite_self, sub_zero] at h6
  have hsum : ∑ j ∈ range (View.singleU .sparse directed o).n,
      loopNum (View.singleU .sparse directed o) (decide (Backend.sparse = .sparse)) j = 0 :=
    Finset.sum_eq_zero fun j hj => hl j (Finset.mem_range.1 hj)
  rw [hsum, ite_self, sub_zero] at h7
  cases q <;> first
    | rfl
    | exact h1
    | exact h2
    | exact h3
    | exact h4
    | exact h5
    | exact h6
    | exact h7

/-- **C87**: what the degrees and numbers of edges are, in both backends. -/
theorem C87_degrees {b : Backend} {v : List (ι × γ)} {e : List (Row ι Bool)} {o : Obj ι γ Bool}
    (h : Built v e o) (directed : Bool) (hist : List (Q × Bool)) (rc : Bool) {x : ι} {i : ℕ}
    (hx : o.id_dict.lookup x = some i) (k : ℕ) :
    let ask := (View.singleU b directed o).ask hist rc
    ask .out_degree i k = count v (fun y => ∃ r ∈ e, r.src = x ∧ r.dst = y) ∧
    ask .in_degree i k = count v (fun y => ∃ r ∈ e, r.src = y ∧ r.dst = x) ∧
    ask .degree i k =
      count v (fun y => ∃ r ∈ e, (r.src = x ∧ r.dst = y) ∨ (r.src = y ∧ r.dst = x)) ∧
    ask .num_edges i k =
      if directed then ((e.map (fun r => (r.src, r.dst))).toFinset.card : ℝ)
      else ((e.map (fun r => s(r.src, r.dst))).toFinset.card : ℝ) := by
  obtain ⟨d1, d2, d3⟩ := C70_degree h hx
  simp only [View.ask_eq]
  refine ⟨d1, d2, ?_, ?_⟩
  · cases b
    · exact (d3 _ (Or.inl rfl)).1
    · exact (d3 _ (Or.inr rfl)).1
  · cases directed
    · cases b
      · exact (C23_edges h).2.2.1
      · exact (C23_edges h).2.2.2
    · exact (C24_directed h).2.2.1

/-- **C87**, conversion of undirected graphs to networkx: two vertices are joined iff some row
joins them, in the sparse backend only if they are different. -/
theorem C87_networkx {b : Backend} {v : List (ι × γ)} {e : List (Row ι Bool)} {o : Obj ι γ Bool}
    (h : Built v e o) (hg : Bool) {x y : ι} {i j : ℕ} (hx : o.id_dict.lookup x = some i)
    (hy : o.id_dict.lookup y = some j) :
    Describes v (fun x => o.id_dict.lookup x) hg (toNxU b hg o) ∧
    ((toNxU b hg o).edge i j () = some true ↔
      (∃ r ∈ e, (r.src = x ∧ r.dst = y) ∨ (r.src = y ∧ r.dst = x)) ∧ (b = .sparse → x ≠ y)) ∧
    ((toNxU b hg o).edge i j () = some true ∨ (toNxU b hg o).edge i j () = none) := by
  have hn := (C20 h).1
  have hi := hn.range _ _ hx
  have hj := hn.range _ _ hy
  have hM : ∀ i < o.num_vertices, ∀ j < o.num_vertices, symOfU b o i j =
      ((o.adj i j || o.adj j i) && !decide (b = .sparse ∧ i = j)) := by
    intro i hi j hj
    cases b
    · show Dense.symW _ _ _ _ = _
      rw [dense_symW_bool _ hi hj]; simp
    · show Sparse.symWB _ _ _ = _
      rw [symWB_apply]
      by_cases hij : i = j <;> simp [hij]
  have hs : ∀ i < o.num_vertices, ∀ j < o.num_vertices, symOfU b o i j = symOfU b o j i := by
    intro i hi j hj
    rw [hM i hi j hj, hM j hj i hi, Bool.or_comm]
    congr 3
    exact propext ⟨fun hc => ⟨hc.1, hc.2.symm⟩, fun hc => ⟨hc.1, hc.2.symm⟩⟩
  have hedge : (toNxU b hg o).edge i j () = if symOfU b o i j = true then some true else none := by
    unfold toNxU
    rw [Nx.annotate_edge, ofMatrix_edge (fun _ => hs) hi hj]
    show (if symOfU b o i j = true then _ else _) = _
    by_cases hb : symOfU b o i j = true
    · rw [if_pos hb, if_pos hb, hb]
    · rw [if_neg hb, if_neg hb]
  refine ⟨ofMatrix_describes h false hg _, ?_, ?_⟩
  · rw [hedge, hM i hi j hj]
    have hc := (C21_connected h hx hy).2.1
    have hij : i = j ↔ x = y := ⟨fun hij => hn.inj hx (hij ▸ hy), fun hxy => by
      subst hxy; exact Option.some.inj (hx.symm.trans hy)⟩
    rw [← hc]
    show (if ((o.adj i j || o.adj j i) && !decide (b = .sparse ∧ i = j)) = true then some true
      else none) = some true ↔ (o.adj i j || o.adj j i) = true ∧ _
    rw [ne_eq, ← hij]
    cases (o.adj i j || o.adj j i) <;> by_cases hb : b = .sparse <;> by_cases hij : i = j <;>
      simp [hb, hij]
  · rw [hedge]; by_cases hb : symOfU b o i j = true <;> simp [hb]

end Single

/-! ## Multigraphs -/

section Multi

variable {ι γ κ : Type} [LinearOrder ι] [LinearOrder γ] [LinearOrder κ]

omit [LinearOrder ι] [LinearOrder γ] [LinearOrder κ] in
/-- **C87**, label by label, dense backend. -/
theorem C87_label_dense (directed : Bool) (o : MultiObj ι γ κ Bool) (hist : List (Q × Bool))
    (rc : Bool) (q : Q) (hq : q.byLabel = true) {i l : ℕ} (hi : i < o.num_vertices)
    (hl : l < o.num_labels) :
    let w := View.multiU .dense directed o
    w.ask hist rc q i l = w.ask hist rc q.plain i l := by
  dsimp only
  rw [View.ask_eq, View.ask_eq]
  obtain ⟨f1, f2, f3, f4, f5, f6, f7, f8⟩ := fresh_layerU .dense directed o hl hi 0
  have hs : ∀ q : Q, (View.singleU .dense directed (o.layer l)).fresh i 0 q =
      (View.singleU .dense directed (o.layer l)).fresh i 0 q.plain := fun q => by
    have := C87_dense directed (o.layer l) [] true q hi 0
    dsimp only at this
    rwa [View.ask_eq, View.ask_eq] at this
  cases q <;> first
    | rfl
    | exact f2.trans ((hs .total_weight).trans f1.symm)
    | exact f3.trans ((hs .strength).trans f4.symm)
    | exact f7.trans ((hs .out_strength).trans f5.symm)
    | exact f8.trans ((hs .in_strength).trans f6.symm)
    | cases hq

theorem layer_built {v : List (ι × γ)} {e : List (κ × Row ι Bool)} {o : MultiObj ι γ κ Bool}
    (h : Sparse.mkMulti v e = .ok o) {k : κ} {l : ℕ} (hk : o.label_dict.lookup k = some l) :
    Sparse.mk v ((e.filter (fun kr => kr.1 = k)).map Prod.snd) = .ok (o.layer l) := by
  obtain ⟨o', h1, h2, h3, h4, h5, h6⟩ := C21_layer_sparse h hk
  rw [h1]
  congr 1
  cases o'
  simp only at h2 h3 h4 h5 h6
  subst h2 h3 h4 h5 h6
  rfl

open Classical in
/-- **C87**, label by label, sparse backend: the in and out strengths are the degrees, the
undirected ones lack the self loops with that label. -/
theorem C87_label_sparse {v : List (ι × γ)} {e : List (κ × Row ι Bool)} {o : MultiObj ι γ κ Bool}
    (h : Sparse.mkMulti v e = .ok o) (directed : Bool) (hist : List (Q × Bool)) (rc : Bool) {x : ι}
    {k : κ} {i l : ℕ} (hx : o.id_dict.lookup x = some i) (hk : o.label_dict.lookup k = some l) :
    let ask := (View.multiU .sparse directed o).ask hist rc
    ask .out_strength_by_label i l = ask .out_degree_by_label i l ∧
    ask .in_strength_by_label i l = ask .in_degree_by_label i l ∧
    ask .strength_by_label i l = ask .degree_by_label i l -
      (if ∃ r ∈ e, r.1 = k ∧ r.2.src = x ∧ r.2.dst = x then 1 else 0) ∧
    ask .total_weight_label i l = ask .num_edges_label i l -
      (if directed then 0 else count v (fun y => ∃ r ∈ e, r.1 = k ∧ r.2.src = y ∧ r.2.dst = y)) := by
  have hb := layer_built h hk
  have hnum := C20_labels h
  have hi := hnum.1.range _ _ hx
  have hl := hnum.2.range _ _ hk
  obtain ⟨f1, f2, f3, f4, f5, f6, f7, f8⟩ := fresh_layerU .sparse directed o hl hi (0 : ℕ)
  obtain ⟨s1, s2, -, -, s5⟩ := C87_sparse_directed directed (o.layer l) [] true hi 0
  obtain ⟨t1, t2, t3, t4⟩ := C20 (Or.inr hb)
  have hrow : ∀ y, (∃ r ∈ (e.filter (fun kr => kr.1 = k)).map Prod.snd, r.src = y ∧ r.dst = y) ↔
      ∃ r ∈ e, r.1 = k ∧ r.2.src = y ∧ r.2.dst = y := by
    intro y
    simp only [List.mem_map, List.mem_filter, decide_eq_true_eq]
    constructor
    · rintro ⟨r, ⟨kr, ⟨h1, h2⟩, rfl⟩, hp⟩
      exact ⟨kr, h1, h2, hp⟩
    · rintro ⟨kr, h1, h2, hp⟩
      exact ⟨kr.2, ⟨kr, ⟨h1, h2⟩, rfl⟩, hp⟩
  obtain ⟨-, -, -, -, u5, -, u7⟩ := (single_matches .sparse directed (o.layer l)).fresh hi 0
  simp only [View.ask_eq] at s1 s2 s5 ⊢
  refine ⟨f7.trans (s1.trans f5.symm), f8.trans (s2.trans f6.symm), ?_, ?_⟩
  · rw [f3, f4, u5, loop_num hb directed hx]
    simp only [hrow]
  · rw [f1, f2, u7]
    congr 1
    cases directed
    · obtain ⟨h1, _, _, e1, e2, _⟩ := built_ok (Or.inr hb)
      show (if false = true then (0 : ℝ) else ∑ j ∈ range (o.layer l).num_vertices, _) = _
      rw [if_neg (by simp), if_neg (by simp), e1, ← sum_count h1 (fun j => Sparse.symB (o.adj l) j j)]
      · exact Finset.sum_congr rfl fun j _ => by unfold loopNum; rw [if_pos (by simp)]; rfl
      · intro y j hy
        have hy' : (o.layer l).id_dict.lookup y = some j := by rw [e2]; exact hy
        have := (C21_connected (Or.inr hb) hy' hy').2.1
        simp only [or_self] at this
        rw [← hrow]
        exact this
    · rfl

/-- **C87**, label by label, sparse backend.  Missing: labels with self loops. -/
theorem C87_label_sparse_partial {v : List (ι × γ)} {e : List (κ × Row ι Bool)}
    {o : MultiObj ι γ κ Bool} (h : Sparse.mkMulti v e = .ok o) {k : κ} {l : ℕ}
    (hk : o.label_dict.lookup k = some l) (hloop : ∀ r ∈ e, r.1 = k → r.2.src ≠ r.2.dst)
    (directed : Bool) (hist : List (Q × Bool)) (rc : Bool) (q : Q) (hq : q.byLabel = true) {i : ℕ}
    (hi : i < o.num_vertices) :
    let w := View.multiU .sparse directed o
    w.ask hist rc q i l = w.ask hist rc q.plain i l := by
  classical
  obtain ⟨x, hx⟩ := (C20_labels h).1.onto i hi
  obtain ⟨s1, s2, s3, s4⟩ := C87_label_sparse h directed hist rc hx hk
  have h0 : ∀ y, ¬ ∃ r ∈ e, r.1 = k ∧ r.2.src = y ∧ r.2.dst = y :=
    fun y ⟨r, hr, h1, h2, h3⟩ => hloop r hr h1 (h2.trans h3.symm)
  rw [if_neg (h0 x), sub_zero] at s3
  have hc : count v (fun y => ∃ r ∈ e, r.1 = k ∧ r.2.src = y ∧ r.2.dst = y) = 0 := by
    unfold count
    simp only [h0, Finset.filter_false, Finset.card_empty, Nat.cast_zero]
  rw [hc, ite_self, sub_zero] at s4
  cases q <;> first
    | rfl
    | exact s1
    | exact s2
    | exact s3
    | exact s4
    | cases hq

/-- Vertices joined in some layer. -/
theorem project_connected {v : List (ι × γ)} {e : List (κ × Row ι Bool)} {o : MultiObj ι γ κ Bool}
    (h : BuiltMulti v e o) {x y : ι} {i j : ℕ} (hx : o.id_dict.lookup x = some i)
    (hy : o.id_dict.lookup y = some j) :
    (∃ l < o.num_labels, ne0 (o.adj l) i j = true) ↔ ∃ r ∈ e, r.2.src = x ∧ r.2.dst = y := by
  have hnum : Numbering (e.map Prod.fst) o.num_labels (fun l => o.label_dict.lookup l) := by
    rcases h with h | h <;> exact (C20_labels h).2
  constructor
  · rintro ⟨l, hl, hn⟩
    obtain ⟨k, hk⟩ := hnum.onto l hl
    obtain ⟨r, hr, _, h1, h2⟩ := (layer_connected h hx hy hk).1 hn
    exact ⟨r, hr, h1, h2⟩
  · rintro ⟨r, hr, h1, h2⟩
    obtain ⟨l, hl⟩ := Option.isSome_iff_exists.1 ((hnum.dom r.1).2 (List.mem_map.2 ⟨r, hr, rfl⟩))
    exact ⟨l, hnum.range _ _ hl, (layer_connected h hx hy hl).2 ⟨r, hr, rfl, h1, h2⟩⟩

theorem labels_pos {v : List (ι × γ)} {e : List (κ × Row ι Bool)} {o : MultiObj ι γ κ Bool}
    (h : BuiltMulti v e o) (he : e ≠ []) : 0 < o.num_labels := by
  have hn : Numbering (e.map Prod.fst) o.num_labels (fun l => o.label_dict.lookup l) := by
    rcases h with h | h <;> exact (C20_labels h).2
  obtain ⟨r, hr⟩ := List.exists_mem_of_ne_nil e he
  obtain ⟨l, hl⟩ := Option.isSome_iff_exists.1 ((hn.dom r.1).2 (List.mem_map.2 ⟨r, hr, rfl⟩))
  have := hn.range _ _ hl
  omega

theorem project_loop {v : List (ι × γ)} {e : List (κ × Row ι Bool)} {o : MultiObj ι γ κ Bool}
    (h : Sparse.mkMulti v e = .ok o) (he : e ≠ []) {x : ι} {i : ℕ}
    (hx : o.id_dict.lookup x = some i) :
    Sparse.symB (Sparse.project o.num_labels o.adj) i i = true ↔
      ∃ r ∈ e, r.2.src = x ∧ r.2.dst = x := by
  rw [← project_connected (Or.inr h) hx hx,
    ← (C27_connected_sparse_bool (labels_pos (Or.inr h) he) i i).1]
  unfold Sparse.symB orT
  rw [Bool.or_self]

open Classical in
/-- **C87**, the projection of sparse multigraphs: in and out strengths are the in and out degrees,
the undirected strengths and total weights lack the self loops. -/
theorem C87_multi_sparse {v : List (ι × γ)} {e : List (κ × Row ι Bool)} {o : MultiObj ι γ κ Bool}
    (h : Sparse.mkMulti v e = .ok o) (he : e ≠ []) (directed : Bool) (hist : List (Q × Bool))
    (rc : Bool) {x : ι} {i : ℕ} (hx : o.id_dict.lookup x = some i) (k : ℕ) :
    let ask := (View.multiU .sparse directed o).ask hist rc
    ask .out_strength i k = ask .out_degree i k ∧
    ask .in_strength i k = ask .in_degree i k ∧
    ask .out_strength_by_group i k = ask .out_degree_by_group i k ∧
    ask .in_strength_by_group i k = ask .in_degree_by_group i k ∧
    ask .strength i k = ask .degree i k -
      (if ∃ r ∈ e, r.2.src = x ∧ r.2.dst = x then 1 else 0) ∧
    ask .strength_by_group i k = ask .degree_by_group i k -
      (if o.groups.getD i 0 = k ∧ ∃ r ∈ e, r.2.src = x ∧ r.2.dst = x then 1 else 0) ∧
    ask .total_weight i k = ask .num_edges i k -
      (if directed then 0 else count v (fun y => ∃ r ∈ e, r.2.src = y ∧ r.2.dst = y)) := by
  have hi := (C20_labels h).1.range _ _ hx
  have hl : ∀ {y : ι} {j : ℕ}, o.id_dict.lookup y = some j →
      loopNum (View.multiU .sparse directed o) true j =
        if ∃ r ∈ e, r.2.src = y ∧ r.2.dst = y then 1 else 0 := by
    intro y j hy
    have hc := project_loop h he hy
    unfold loopNum
    rw [if_pos rfl]
    show Dtype.num (Sparse.symB (Sparse.project o.num_labels o.adj) j j) = _
    by_cases hr : ∃ r ∈ e, r.2.src = y ∧ r.2.dst = y
    · rw [if_pos hr, hc.2 hr]; simp [Dtype.num]
    · rw [if_neg hr, Bool.eq_false_iff.2 (fun hb => hr (hc.1 hb)), num_false]
  obtain ⟨h1, h2, h3, h4, h5, h6, h7⟩ := (multi_matches_sparse directed o).fresh hi k
  rw [hl hx] at h5 h6
  simp only [View.ask_eq]
  refine ⟨h1, h2, h3, h4, h5, ?_, ?_⟩
  · rw [h6]
    have : (View.multiU .sparse directed o).groups i = o.groups.getD i 0 := rfl
    rw [this]
    by_cases hk : o.groups.getD i 0 = k
    · rw [if_pos hk]; simp only [hk, true_and]
    · rw [if_neg hk]; simp only [hk, false_and, if_false]
  · rw [h7]
    congr 1
    cases directed
    · obtain ⟨g1, _, _, e1, e2, _⟩ := mkMulti_ok h
      show (if false = true then (0 : ℝ) else ∑ j ∈ range o.num_vertices, _) = _
      rw [if_neg (by simp), if_neg (by simp), e1,
        ← sum_count g1 (fun j => Sparse.symB (Sparse.project o.num_labels o.adj) j j)]
      · exact Finset.sum_congr rfl fun j _ => by unfold loopNum; rw [if_pos rfl]; rfl
      · intro y j hy
        exact project_loop h he (by rw [e2]; exact hy)
    · rfl

/-- **C87**, the projection of sparse multigraphs.  Missing: tables with self loops. -/
theorem C87_multi_sparse_partial {v : List (ι × γ)} {e : List (κ × Row ι Bool)}
    {o : MultiObj ι γ κ Bool} (h : Sparse.mkMulti v e = .ok o) (he : e ≠ [])
    (hloop : ∀ r ∈ e, r.2.src ≠ r.2.dst) (directed : Bool) (hist : List (Q × Bool)) (rc : Bool)
    (q : Q) (hq : q.byLabel = false) {i : ℕ} (hi : i < o.num_vertices) (k : ℕ) :
    let w := View.multiU .sparse directed o
    w.ask hist rc q i k = w.ask hist rc q.plain i k := by
  classical
  obtain ⟨x, hx⟩ := (C20_labels h).1.onto i hi
  obtain ⟨h1, h2, h3, h4, h5, h6, h7⟩ := C87_multi_sparse h he directed hist rc hx k
  have h0 : ∀ y, ¬ ∃ r ∈ e, r.2.src = y ∧ r.2.dst = y :=
    fun y ⟨r, hr, r1, r2⟩ => hloop r hr (r1.trans r2.symm)
  have hc : count v (fun y => ∃ r ∈ e, r.2.src = y ∧ r.2.dst = y) = 0 := by
    unfold count
    simp only [h0, Finset.filter_false, Finset.card_empty, Nat.cast_zero]
  rw [if_neg (h0 x), sub_zero] at h5
  rw [if_neg (fun hh => h0 x hh.2), sub_zero] at h6
  rw [hc, ite_self, sub_zero] at h7
  cases q <;> first
    | rfl
    | exact h1
    | exact h2
    | exact h3
    | exact h4
    | exact h5
    | exact h6
    | exact h7
    | cases hq

/-- **C87**, the projection of dense multigraphs: every label counts.  The out-strength of a vertex
is the number of pairs of a label and a vertex that it has a row to, and so on; the undirected
strength is the sum of the two, and the total weight of an undirected graph counts self loops
twice. -/
theorem C87_multi_dense {v : List (ι × γ)} {e : List (κ × Row ι Bool)} {o : MultiObj ι γ κ Bool}
    (h : Dense.mkMulti v e = .ok o) (directed : Bool) (hist : List (Q × Bool)) (rc : Bool) {x : ι}
    {i : ℕ} (hx : o.id_dict.lookup x = some i) (k : ℕ) :
    let ask := (View.multiU .dense directed o).ask hist rc
    let out : ℝ := (((e.filter (fun r => r.2.src = x)).map (fun r => (r.1, r.2.dst))).toFinset.card)
    let inn : ℝ := (((e.filter (fun r => r.2.dst = x)).map (fun r => (r.1, r.2.src))).toFinset.card)
    ask .out_strength i k = out ∧ ask .in_strength i k = inn ∧ ask .strength i k = out + inn := by
  have hnum := C20_labels h
  have hi := hnum.1.range _ _ hx
  obtain ⟨h1, h2, h3, e1, e2, -⟩ := mkMulti_ok h
  have hknown : ∀ r ∈ e, r.2.src ∈ v.map Prod.fst ∧ r.2.dst ∈ v.map Prod.fst :=
    fun r hr => h2 r.2 (List.mem_map.2 ⟨r, hr, rfl⟩)
  have hout : ∑ j ∈ range o.num_vertices, Dense.project o.num_labels o.adj i j =
      (((e.filter (fun r => r.2.src = x)).map (fun r => (r.1, r.2.dst))).toFinset.card : ℝ) := by
    unfold Dense.project
    rw [Finset.sum_comm]
    refine numbering_card hnum.2 hnum.1 (fun l j => o.adj l i j) _ ?_ ?_
    · intro p hp
      obtain ⟨r, hr, rfl⟩ := List.mem_map.1 (List.mem_toFinset.1 hp)
      have := (List.mem_filter.1 hr).1
      exact ⟨List.mem_map.2 ⟨r, this, rfl⟩, (hknown r this).2⟩
    · intro a l y j ha hy
      refine (layer_connected (Or.inl h) hx hy ha).trans ?_
      simp only [List.mem_toFinset, List.mem_map, List.mem_filter, decide_eq_true_eq, Prod.mk.injEq]
      exact ⟨fun ⟨r, hr, q1, q2, q3⟩ => ⟨r, ⟨hr, q2⟩, q1, q3⟩,
        fun ⟨r, ⟨hr, q2⟩, q1, q3⟩ => ⟨r, hr, q1, q2, q3⟩⟩
  have hinn : ∑ j ∈ range o.num_vertices, Dense.project o.num_labels o.adj j i =
      (((e.filter (fun r => r.2.dst = x)).map (fun r => (r.1, r.2.src))).toFinset.card : ℝ) := by
    unfold Dense.project
    rw [Finset.sum_comm]
    refine numbering_card hnum.2 hnum.1 (fun l j => o.adj l j i) _ ?_ ?_
    · intro p hp
      obtain ⟨r, hr, rfl⟩ := List.mem_map.1 (List.mem_toFinset.1 hp)
      have := (List.mem_filter.1 hr).1
      exact ⟨List.mem_map.2 ⟨r, this, rfl⟩, (hknown r this).1⟩
    · intro a l y j ha hy
      refine (layer_connected (Or.inl h) hy hx ha).trans ?_
      simp only [List.mem_toFinset, List.mem_map, List.mem_filter, decide_eq_true_eq, Prod.mk.injEq]
      exact ⟨fun ⟨r, hr, q1, q2, q3⟩ => ⟨r, ⟨hr, q3⟩, q1, q2⟩,
        fun ⟨r, ⟨hr, q3⟩, q1, q2⟩ => ⟨r, hr, q1, q2, q3⟩⟩
  simp only [View.ask_eq]
  refine ⟨hout, hinn, ?_⟩
  rw [← hout, ← hinn, ← Finset.sum_add_distrib]
  exact Finset.sum_congr rfl fun j hj => symWMulti_apply _ hi (Finset.mem_range.1 hj)

/-- **C87**, the total weight of dense multigraphs: the triples of label and vertices, to which the
undirected one adds the pairs of a label and a vertex with a self loop. -/
theorem C87_multi_dense_total {v : List (ι × γ)} {e : List (κ × Row ι Bool)}
    {o : MultiObj ι γ κ Bool} (h : Dense.mkMulti v e = .ok o) (directed : Bool)
    (hist : List (Q × Bool)) (rc : Bool) (i k : ℕ) :
    (View.multiU .dense directed o).ask hist rc .total_weight i k =
      ((e.map (fun r => ((r.1, r.2.src), r.2.dst))).toFinset.card : ℝ) +
      if directed then 0 else
        (((e.filter (fun r => r.2.src = r.2.dst)).map (fun r => (r.1, r.2.src))).toFinset.card : ℝ) := by
  have hnum := C20_labels h
  obtain ⟨h1, h2, h3, e1, e2, -⟩ := mkMulti_ok h
  have hknown : ∀ r ∈ e, r.2.src ∈ v.map Prod.fst ∧ r.2.dst ∈ v.map Prod.fst :=
    fun r hr => h2 r.2 (List.mem_map.2 ⟨r, hr, rfl⟩)
  have hT : total o.num_vertices (Dense.project o.num_labels o.adj) =
      ((e.map (fun r => ((r.1, r.2.src), r.2.dst))).toFinset.card : ℝ) := by
    have hrow : ∀ i, o.num_vertices > i → ∀ x, o.id_dict.lookup x = some i →
        ∑ j ∈ range o.num_vertices, Dense.project o.num_labels o.adj i j =
          ∑ p ∈ (e.map (fun r => ((r.1, r.2.src), r.2.dst))).toFinset,
            if p.1.2 = x then (1 : ℝ) else 0 := by
      intro i hi x hx
      have := (C87_multi_dense h directed [] true hx 0).1
      rw [View.ask_eq] at this
      have h' : ∑ j ∈ range o.num_vertices, Dense.project o.num_labels o.adj i j = _ := this
      rw [h', Finset.sum_boole]
      congr 1
      refine Finset.card_bij (fun p _ => ((p.1, x), p.2)) ?_ ?_ ?_
      · intro p hp
        simp only [List.mem_toFinset, List.mem_map, List.mem_filter, decide_eq_true_eq] at hp
        obtain ⟨r, ⟨hr, hs⟩, rfl⟩ := hp
        simp only [Finset.mem_filter, List.mem_toFinset, List.mem_map, and_true]
        exact ⟨r, hr, by rw [hs]⟩
      · intro p _ q _ hpq
        simp only [Prod.mk.injEq, and_true] at hpq
        exact Prod.ext hpq.1 hpq.2
      · intro p hp
        simp only [Finset.mem_filter, List.mem_toFinset, List.mem_map] at hp
        obtain ⟨⟨r, hr, rfl⟩, hs⟩ := hp
        refine ⟨(r.1, r.2.dst), ?_, by rw [← hs]⟩
        simp only [List.mem_toFinset, List.mem_map, List.mem_filter, decide_eq_true_eq]
        exact ⟨r, ⟨hr, hs⟩, rfl⟩
    show ∑ i ∈ range o.num_vertices, ∑ j ∈ range o.num_vertices,
      Dense.project o.num_labels o.adj i j = _
    rw [numbering_sum hnum.1 _ (fun x => ∑ p ∈ (e.map (fun r => ((r.1, r.2.src), r.2.dst))).toFinset,
            if p.1.2 = x then (1 : ℝ) else 0) (fun x i hx => hrow i (hnum.1.range _ _ hx) x hx),
      Finset.sum_comm]
    rw [Finset.card_eq_sum_ones, Nat.cast_sum]
    refine Finset.sum_congr rfl fun p hp => ?_
    obtain ⟨r, hr, rfl⟩ := List.mem_map.1 (List.mem_toFinset.1 hp)
    rw [Finset.sum_ite_eq, if_pos (List.mem_toFinset.2 (hknown r hr).1), Nat.cast_one]
  have hD : diagSum o.num_vertices (Dense.project o.num_labels o.adj) =
      (((e.filter (fun r => r.2.src = r.2.dst)).map (fun r => (r.1, r.2.src))).toFinset.card : ℝ) := by
    unfold diagSum Dense.project
    show ∑ i ∈ range o.num_vertices, ∑ l ∈ range o.num_labels, _ = _
    rw [Finset.sum_comm]
    refine numbering_card hnum.2 hnum.1 (fun l i => o.adj l i i) _ ?_ ?_
    · intro p hp
      obtain ⟨r, hr, rfl⟩ := List.mem_map.1 (List.mem_toFinset.1 hp)
      have := (List.mem_filter.1 hr).1
      exact ⟨List.mem_map.2 ⟨r, this, rfl⟩, (hknown r this).1⟩
    · intro a l y j ha hy
      refine (layer_connected (Or.inl h) hy hy ha).trans ?_
      simp only [List.mem_toFinset, List.mem_map, List.mem_filter, decide_eq_true_eq, Prod.mk.injEq]
      exact ⟨fun ⟨r, hr, q1, q2, q3⟩ => ⟨r, ⟨hr, q2.trans q3.symm⟩, q1, q2⟩,
        fun ⟨r, ⟨hr, q2⟩, q1, q3⟩ => ⟨r, hr, q1, q3, q2 ▸ q3⟩⟩
  rw [View.ask_eq, ← hT, ← hD]
  cases directed
  · show (total o.num_vertices (Dense.symWMulti o.num_vertices _)
      + diagSum o.num_vertices (Dense.symWMulti o.num_vertices _)) / 2 = _
    have ht : total o.num_vertices (Dense.symWMulti o.num_vertices
        (Dense.project o.num_labels o.adj)) =
        total o.num_vertices (Dense.project o.num_labels o.adj) +
        total o.num_vertices (Dense.project o.num_labels o.adj) := by
      unfold total
      have : ∑ i ∈ range o.num_vertices, ∑ j ∈ range o.num_vertices,
          Dtype.num (Dense.symWMulti o.num_vertices (Dense.project o.num_labels o.adj) i j) =
          ∑ i ∈ range o.num_vertices, ∑ j ∈ range o.num_vertices,
            (Dense.project o.num_labels o.adj i j + Dense.project o.num_labels o.adj j i) :=
        Finset.sum_congr rfl fun i hi => Finset.sum_congr rfl fun j hj =>
          symWMulti_apply _ (Finset.mem_range.1 hi) (Finset.mem_range.1 hj)
      rw [this]
      simp only [Finset.sum_add_distrib]
      congr 1
      exact Finset.sum_comm
    have hd : diagSum o.num_vertices (Dense.symWMulti o.num_vertices
        (Dense.project o.num_labels o.adj)) =
        diagSum o.num_vertices (Dense.project o.num_labels o.adj) +
        diagSum o.num_vertices (Dense.project o.num_labels o.adj) := by
      unfold diagSum
      rw [← Finset.sum_add_distrib]
      exact Finset.sum_congr rfl fun i hi =>
        symWMulti_apply _ (Finset.mem_range.1 hi) (Finset.mem_range.1 hi)
    rw [ht, hd, if_neg (by simp)]
    ring
  · rw [if_pos rfl, add_zero]; rfl

/-- An ordered pair that occurs once has one label. -/
theorem project_once {v : List (ι × γ)} {e : List (κ × Row ι Bool)} {o : MultiObj ι γ κ Bool}
    (h : Dense.mkMulti v e = .ok o) (hu : (e.map (fun r => (r.2.src, r.2.dst))).Nodup) {i j : ℕ}
    (hi : i < o.num_vertices) (hj : j < o.num_vertices) :
    Dense.project o.num_labels o.adj i j
      = Dtype.num (ne0 (Dense.project o.num_labels o.adj) i j) := by
  have hnum := C20_labels h
  obtain ⟨x, hx⟩ := hnum.1.onto i hi
  obtain ⟨y, hy⟩ := hnum.1.onto j hj
  by_cases hc : ne0 (Dense.project o.num_labels o.adj) i j = true
  · obtain ⟨l, hl, hne⟩ := (C27_connected_dense (Or.inl h) i j).1.1 hc
    rw [hc]
    unfold Dense.project
    rw [Finset.sum_eq_single l]
    · rw [show o.adj l i j = true from hne]
    · intro m hm hml
      have : o.adj m i j = false := by
        rw [Bool.eq_false_iff]
        intro hb
        obtain ⟨k, hk⟩ := hnum.2.onto l hl
        obtain ⟨k', hk'⟩ := hnum.2.onto m (Finset.mem_range.1 hm)
        obtain ⟨r, hr, r0, r1, r2⟩ := (layer_connected (Or.inl h) hx hy hk).1 hne
        obtain ⟨t, ht, t0, t1, t2⟩ := (layer_connected (Or.inl h) hx hy hk').1 hb
        have hrt : r = t := List.inj_on_of_nodup_map hu hr ht (by rw [r1, r2, t1, t2])
        subst hrt
        have : k = k' := r0.symm.trans t0
        subst this
        exact hml (Option.some.inj (hk'.symm.trans hk))
      rw [this, num_false]
    · exact fun hn => absurd (Finset.mem_range.2 hl) hn
  · rw [Bool.eq_false_iff.2 hc, num_false]
    by_contra hne
    exact hc (by unfold ne0; simpa [Dtype.nz] using hne)

/-- **C87**, directed queries of dense multigraphs.  Missing: tables in which an ordered pair occurs
more than once (`C87_multi_dense_violated`). -/
theorem C87_multi_dense_directed_partial {v : List (ι × γ)} {e : List (κ × Row ι Bool)}
    {o : MultiObj ι γ κ Bool} (h : Dense.mkMulti v e = .ok o)
    (hu : (e.map (fun r => (r.2.src, r.2.dst))).Nodup) (directed : Bool) (hist : List (Q × Bool))
    (rc : Bool) {i : ℕ} (hi : i < o.num_vertices) (k : ℕ) :
    let ask := (View.multiU .dense directed o).ask hist rc
    ask .out_strength i k = ask .out_degree i k ∧
    ask .in_strength i k = ask .in_degree i k ∧
    ask .out_strength_by_group i k = ask .out_degree_by_group i k ∧
    ask .in_strength_by_group i k = ask .in_degree_by_group i k ∧
    (directed = true → ask .total_weight i k = ask .num_edges i k) := by
  simp only [View.ask_eq]
  exact fresh_directed (w := View.multiU .dense directed o)
    (fun i hi j hj => project_once h hu hi hj) hi k

/-- **C87**, dense multigraphs.  Missing: tables in which two vertices are joined more than once or
a vertex is joined to itself (`C87_multi_dense_violated`). -/
theorem C87_multi_dense_partial {v : List (ι × γ)} {e : List (κ × Row ι Bool)}
    {o : MultiObj ι γ κ Bool} (h : Dense.mkMulti v e = .ok o)
    (hu : (e.map (fun r => s(r.2.src, r.2.dst))).Nodup) (hloop : ∀ r ∈ e, r.2.src ≠ r.2.dst)
    (directed : Bool) (hist : List (Q × Bool)) (rc : Bool) (q : Q) (hq : q.byLabel = false) {i : ℕ}
    (hi : i < o.num_vertices) (k : ℕ) :
    let w := View.multiU .dense directed o
    w.ask hist rc q i k = w.ask hist rc q.plain i k := by
  dsimp only
  rw [View.ask_eq, View.ask_eq]
  have hu' : (e.map (fun r => (r.2.src, r.2.dst))).Nodup := by
    have : e.map (fun r => s(r.2.src, r.2.dst)) =
        (e.map (fun r => (r.2.src, r.2.dst))).map (fun p => s(p.1, p.2)) := by
      rw [List.map_map]; rfl
    rw [this] at hu
    exact hu.of_map _
  have hm : Matches (View.multiU .dense directed o) false := by
    refine ⟨fun i hi j hj => project_once h hu' hi hj, fun i hi j hj => ?_,
      fun i j => Bool.or_comm _ _⟩
    simp only [Bool.false_eq_true, false_and, if_false]
    show Dense.symWMulti o.num_vertices _ i j = Dtype.num (ne0 _ i j || ne0 _ j i)
    rw [symWMulti_apply (n := o.num_vertices) _ hi hj, project_once h hu' hi hj,
      project_once h hu' hj hi]
    have hex : ¬ (ne0 (Dense.project o.num_labels o.adj) i j = true ∧
        ne0 (Dense.project o.num_labels o.adj) j i = true) := by
      rintro ⟨ha, hb⟩
      obtain ⟨x, hx⟩ := (C20_labels h).1.onto i hi
      obtain ⟨y, hy⟩ := (C20_labels h).1.onto j hj
      obtain ⟨r, hr, r1, r2⟩ := (project_connected (Or.inl h) hx hy).1
        ((C27_connected_dense (Or.inl h) i j).1.1 ha)
      obtain ⟨t, ht, t1, t2⟩ := (project_connected (Or.inl h) hy hx).1
        ((C27_connected_dense (Or.inl h) j i).1.1 hb)
      have : r = t := List.inj_on_of_nodup_map hu hr ht (by
        rw [r1, r2, t1, t2]; exact Sym2.eq_swap)
      subst this
      exact hloop r hr (r1.trans t2.symm)
    cases h1 : ne0 (Dense.project o.num_labels o.adj) i j <;>
      cases h2 : ne0 (Dense.project o.num_labels o.adj) j i
    · simp [Dtype.num]
    · simp [Dtype.num]
    · simp [Dtype.num]
    · exact absurd ⟨h1, h2⟩ hex
  have hl : ∀ j, loopNum (View.multiU .dense directed o) false j = 0 := fun j => by simp [loopNum]
  obtain ⟨h1, h2, h3, h4, h5, h6, h7⟩ := hm.fresh hi k
  simp only [hl, ite_self, sub_zero, Finset.sum_const_zero] at h5 h6 h7
  cases q <;> first
    | rfl
    | exact h1
    | exact h2
    | exact h3
    | exact h4
    | exact h5
    | exact h6
    | exact h7
    | cases hq

/-- **C87**: what the degrees of a multigraph are, in both backends: the number of vertices joined
to it under some label. -/
theorem C87_multi_degrees {b : Backend} {v : List (ι × γ)} {e : List (κ × Row ι Bool)}
    {o : MultiObj ι γ κ Bool} (h : BuiltMulti v e o) (he : b = .sparse → e ≠ []) (directed : Bool)
    (hist : List (Q × Bool)) (rc : Bool) {x : ι} {i : ℕ} (hx : o.id_dict.lookup x = some i) (k : ℕ) :
    let ask := (View.multiU b directed o).ask hist rc
    ask .out_degree i k = count v (fun y => ∃ r ∈ e, r.2.src = x ∧ r.2.dst = y) ∧
    ask .in_degree i k = count v (fun y => ∃ r ∈ e, r.2.src = y ∧ r.2.dst = x) ∧
    ask .degree i k = count v (fun y =>
      ∃ r ∈ e, (r.2.src = x ∧ r.2.dst = y) ∨ (r.2.src = y ∧ r.2.dst = x)) := by
  obtain ⟨h1, e1, e2, _⟩ := builtMulti_ok h
  have hid : ∀ y j, idOf v y = some j → o.id_dict.lookup y = some j := by
    intro y j hy; rw [e2]; exact hy
  have hB : ∀ {y z : ι} {j m : ℕ}, o.id_dict.lookup y = some j → o.id_dict.lookup z = some m →
      ((View.multiU b directed o).adjB true j m = true ↔ ∃ r ∈ e, r.2.src = y ∧ r.2.dst = z) := by
    intro y z j m hy hz
    rw [← project_connected h hy hz]
    cases b
    · exact (C27_connected_dense h j m).1
    · exact (C27_connected_sparse_bool (labels_pos h (he rfl)) j m).1
  have hS : ∀ j m, (View.multiU b directed o).adjB false j m =
      ((View.multiU b directed o).adjB true j m || (View.multiU b directed o).adjB true m j) := by
    intro j m; cases b <;> rfl
  simp only [View.ask_eq]
  show (∑ j ∈ range o.num_vertices, _ = _) ∧ (∑ j ∈ range o.num_vertices, _ = _) ∧
    (∑ j ∈ range o.num_vertices, _ = _)
  rw [e1]
  refine ⟨sum_count h1 _ _ fun y j hy => hB hx (hid y j hy),
    sum_count h1 _ _ fun y j hy => hB (hid y j hy) hx, sum_count h1 _ _ fun y j hy => ?_⟩
  rw [hS, Bool.or_eq_true, hB (hid y j hy) hx, hB hx (hid y j hy)]
  constructor
  · rintro (⟨r, hr, hp⟩ | ⟨r, hr, hp⟩)
    · exact ⟨r, hr, Or.inr hp⟩
    · exact ⟨r, hr, Or.inl hp⟩
  · rintro ⟨r, hr, hp | hp⟩
    · exact Or.inr ⟨r, hr, hp⟩
    · exact Or.inl ⟨r, hr, hp⟩

end Multi

/-! ### Where the documentation is wrong -/

/-- One vertex joined to itself. -/
def selfE : List (Row ℕ Bool) := [⟨0, 0, true⟩]

theorem loop_count (R : ℕ → Prop) (h0 : R 0) : count loopV R = 1 := by
  classical
  unfold count
  have : (loopV.map Prod.fst).toFinset.filter R = {0} := by
    ext y
    simp only [loopV, List.map_cons, List.map_nil, List.mem_toFinset, Finset.mem_filter,
      List.mem_cons, List.not_mem_nil, or_false, Finset.mem_singleton]
    exact ⟨fun h => h.1, fun h => ⟨h, h ▸ h0⟩⟩
  convert (by rw [this]; simp : (((loopV.map Prod.fst).toFinset.filter R).card : ℝ) = 1)

/-- **C87** does not hold for self loops of the sparse backend: the vertex has degree 1 and the
graph one edge, but strength and total weight are 0, and networkx sees no edge. -/
theorem C87_sparse_violated : ∃ (v : List (ℕ × ℕ)) (e : List (Row ℕ Bool)) (o : Obj ℕ ℕ Bool),
    Sparse.mk v e = .ok o ∧ 0 < o.num_vertices ∧ ∀ (hist : List (Q × Bool)) (rc : Bool),
      let ask := (View.singleU .sparse false o).ask hist rc
      ask .degree 0 0 = 1 ∧ ask .strength 0 0 = 0 ∧
      ask .num_edges 0 0 = 1 ∧ ask .total_weight 0 0 = 0 ∧
      (toNxU .sparse false o).edge 0 0 () = none := by
  obtain ⟨o, ho⟩ := sparse_accepts (v := loopV) (e := selfE) (by simp [loopV])
    (by simp [loopV, selfE]) (by simp [selfE, Dtype.pos])
  obtain ⟨h1, _, _, e1, e2, _⟩ := built_ok (Or.inr ho)
  have hx : o.id_dict.lookup 0 = some 0 := by rw [e2]; exact loop_id
  obtain ⟨g, hg⟩ : ∃ g, o.group_dict.lookup g = some 0 := by
    have hn := (C20 (Or.inr ho)).2.1
    obtain ⟨m, hm⟩ := Option.isSome_iff_exists.1 ((hn.dom 0).2 (by simp [loopV]))
    have := hn.range _ _ hm
    exact hn.onto 0 (by omega)
  have hex : ∃ r ∈ selfE, r.src = 0 ∧ r.dst = 0 := ⟨⟨0, 0, true⟩, by simp [selfE], rfl, rfl⟩
  have hdeg : count loopV (fun y => ∃ r ∈ selfE,
      (r.src = 0 ∧ r.dst = y) ∨ (r.src = y ∧ r.dst = 0)) = 1 :=
    loop_count _ ⟨⟨0, 0, true⟩, by simp [selfE], Or.inl ⟨rfl, rfl⟩⟩
  have hloop : count loopV (fun y => ∃ r ∈ selfE, r.src = y ∧ r.dst = y) = 1 :=
    loop_count _ hex
  refine ⟨loopV, selfE, o, ho, by rw [e1]; simp [loopV], fun hist rc => ?_⟩
  obtain ⟨-, -, d3, d4⟩ := C87_degrees (b := .sparse) (Or.inr ho) false hist rc hx 0
  obtain ⟨s1, -, s3⟩ := C87_sparse ho false hist rc hx hg
  rw [d3, hdeg, if_pos hex, sub_self] at s1
  have hne : ((selfE.map (fun r => s(r.src, r.dst))).toFinset.card : ℝ) = 1 := by simp [selfE]
  rw [if_neg (by simp), hne] at d4
  have s3' := s3 rfl
  rw [d4, hloop, sub_self] at s3'
  refine ⟨d3.trans hdeg, s1, d4, s3', ?_⟩
  obtain ⟨-, n2, n3⟩ := C87_networkx (b := .sparse) (Or.inr ho) false hx hx
  rcases n3 with n3 | n3
  · exact absurd rfl ((n2.1 n3).2 rfl)
  · exact n3

/-- Two vertices. -/
def pairV : List (ℕ × ℕ) := [(0, 0), (1, 0)]

/-- They are joined under two labels. -/
def pairE : List (ℕ × Row ℕ Bool) := [(7, ⟨0, 1, true⟩), (8, ⟨0, 1, true⟩)]

theorem pair_count (R : ℕ → Prop) (h0 : ¬ R 0) (h1 : R 1) : count pairV R = 1 := by
  classical
  unfold count
  have : (pairV.map Prod.fst).toFinset.filter R = {1} := by
    ext y
    simp only [pairV, List.map_cons, List.map_nil, List.mem_toFinset, Finset.mem_filter,
      List.mem_cons, List.not_mem_nil, or_false, Finset.mem_singleton]
    constructor
    · rintro ⟨rfl | rfl, hr⟩
      · exact absurd hr h0
      · rfl
    · rintro rfl
      exact ⟨Or.inr rfl, h1⟩
  convert (by rw [this]; simp : (((pairV.map Prod.fst).toFinset.filter R).card : ℝ) = 1)

/-- **C87** does not hold for dense multigraphs, whose strengths count labels, and there the two
backends disagree: the vertex has degree 1 in both, strength 2 in one and 1 in the other. -/
theorem C87_multi_dense_violated : ∃ (v : List (ℕ × ℕ)) (e : List (ℕ × Row ℕ Bool))
    (o o' : MultiObj ℕ ℕ ℕ Bool) (i : ℕ), Dense.mkMulti v e = .ok o ∧ Sparse.mkMulti v e = .ok o' ∧
    (∀ r ∈ e, r.2.src ≠ r.2.dst) ∧ i < o.num_vertices ∧
    ∀ (directed : Bool) (hist : List (Q × Bool)) (rc : Bool),
      let ask := (View.multiU .dense directed o).ask hist rc
      let ask' := (View.multiU .sparse directed o').ask hist rc
      ask .out_degree i 0 = 1 ∧ ask .out_strength i 0 = 2 ∧
      ask .degree i 0 = 1 ∧ ask .strength i 0 = 2 ∧ ask .total_weight i 0 = 2 ∧
      ask' .out_strength i 0 = 1 ∧ ask' .strength i 0 = 1 := by
  have hnd : (pairV.map Prod.fst).Nodup := by simp [pairV]
  have hk : ∀ r ∈ pairE.map Prod.snd, r.src ∈ pairV.map Prod.fst ∧ r.dst ∈ pairV.map Prod.fst := by
    simp [pairV, pairE]
  have hp : ∀ r ∈ pairE.map Prod.snd, Dtype.pos r.val = true := by simp [pairE, Dtype.pos]
  obtain ⟨o, ho⟩ := mkMulti_accepts (tensor := Dense.assignT) hnd hk hp
  obtain ⟨o', ho'⟩ := mkMulti_accepts (tensor := Sparse.cooT) hnd hk hp
  have ho : Dense.mkMulti pairV pairE = .ok o := ho
  have ho' : Sparse.mkMulti pairV pairE = .ok o' := ho'
  have hnum := (C20_labels ho).1
  obtain ⟨i, hx⟩ := Option.isSome_iff_exists.1 ((hnum.dom 0).2 (by simp [pairV]))
  have hi := hnum.range _ _ hx
  have hx' : o'.id_dict.lookup 0 = some i := by
    rw [(mkMulti_ok ho').2.2.2.2.1, ← (mkMulti_ok ho).2.2.2.2.1]; exact hx
  have hl : ∀ r ∈ pairE, r.2.src ≠ r.2.dst := by simp [pairE]
  have hne : pairE ≠ [] := by simp [pairE]
  have c1 : count pairV (fun y => ∃ r ∈ pairE, r.2.src = 0 ∧ r.2.dst = y) = 1 :=
    pair_count _ (by simp [pairE]) (by simp [pairE])
  have c2 : count pairV (fun y => ∃ r ∈ pairE,
      (r.2.src = 0 ∧ r.2.dst = y) ∨ (r.2.src = y ∧ r.2.dst = 0)) = 1 :=
    pair_count _ (by simp [pairE]) (by simp [pairE])
  have k1 : ((pairE.filter (fun r => r.2.src = 0)).map (fun r => (r.1, r.2.dst))).toFinset.card = 2 := by
    decide
  have k2 : ((pairE.filter (fun r => r.2.dst = 0)).map (fun r => (r.1, r.2.src))).toFinset.card = 0 := by
    decide
  have k3 : (pairE.map (fun r => ((r.1, r.2.src), r.2.dst))).toFinset.card = 2 := by decide
  have k4 : ((pairE.filter (fun r => r.2.src = r.2.dst)).map (fun r => (r.1, r.2.src))).toFinset.card
      = 0 := by decide
  refine ⟨pairV, pairE, o, o', i, ho, ho', hl, hi, fun directed hist rc => ?_⟩
  obtain ⟨d1, -, d3⟩ := C87_multi_degrees (b := .dense) (Or.inl ho) (fun h => by cases h)
    directed hist rc hx 0
  obtain ⟨f1, -, f3⟩ := C87_multi_degrees (b := .sparse) (Or.inr ho') (fun _ => hne)
    directed hist rc hx' 0
  obtain ⟨s1, -, s3⟩ := C87_multi_dense ho directed hist rc hx 0
  have t := C87_multi_dense_total ho directed hist rc i 0
  have hi' := (C20_labels ho').1.range _ _ hx'
  have u1 := C87_multi_sparse_partial ho' hne hl directed hist rc .out_strength rfl hi' 0
  have u3 := C87_multi_sparse_partial ho' hne hl directed hist rc .strength rfl hi' 0
  rw [k1] at s1
  rw [k1, k2] at s3
  rw [k3, k4] at t
  refine ⟨d1.trans c1, by simpa using s1, d3.trans c2, by simpa using s3, by simpa using t,
    u1.trans (f1.trans c1), u3.trans (f3.trans c2)⟩

/-! ### Examples -/

/-- A path under two labels. -/
def pathE : List (ℕ × Row ℕ Bool) := [(4, ⟨5, 3, true⟩), (8, ⟨9, 5, true⟩)]

/-- The hypotheses of the multigraph theorems. -/
example : (∃ o, Dense.mkMulti exV pathE = .ok o ∧ 0 < o.num_vertices ∧ 0 < o.num_labels) ∧
    (∃ o, Sparse.mkMulti exV pathE = .ok o ∧ ∃ i l, o.id_dict.lookup 5 = some i ∧
      o.label_dict.lookup 8 = some l) ∧ pathE ≠ [] ∧
    (∀ r ∈ pathE, r.2.src ≠ r.2.dst) ∧ (pathE.map (fun r => (r.2.src, r.2.dst))).Nodup ∧
    (pathE.map (fun r => s(r.2.src, r.2.dst))).Nodup := by
  have hk : ∀ r ∈ pathE.map Prod.snd, r.src ∈ exV.map Prod.fst ∧ r.dst ∈ exV.map Prod.fst := by
    simp [exV, pathE]
  have hp : ∀ r ∈ pathE.map Prod.snd, Dtype.pos r.val = true := by simp [pathE, Dtype.pos]
  obtain ⟨o, ho⟩ := mkMulti_accepts (tensor := Dense.assignT) exV_nodup hk hp
  obtain ⟨o', ho'⟩ := mkMulti_accepts (tensor := Sparse.cooT) exV_nodup hk hp
  refine ⟨⟨o, ho, ?_, labels_pos (Or.inl ho) (by simp [pathE])⟩, ⟨o', ho', ?_⟩, by simp [pathE],
    by simp [pathE], by simp [pathE], ?_⟩
  · rw [(mkMulti_ok ho).2.2.2.1]; simp [exV]
  · have hn := C20_labels (e := pathE) (v := exV) (o := o') ho'
    obtain ⟨i, hi⟩ := Option.isSome_iff_exists.1 ((hn.1.dom 5).2 (by simp [exV]))
    obtain ⟨l, hl⟩ := Option.isSome_iff_exists.1 ((hn.2.dom 8).2 (by simp [pathE]))
    exact ⟨i, l, hi, hl⟩
  · simp [pathE]

/-- The hypotheses of the single-layer theorems, with and without self loops. -/
example : (∃ o, Dense.mk exV ([⟨5, 3, true⟩, ⟨9, 9, true⟩] : List (Row ℕ Bool)) = .ok o) ∧
    (∃ o, Sparse.mk exV ([⟨5, 3, true⟩, ⟨9, 9, true⟩] : List (Row ℕ Bool)) = .ok o ∧
      ∃ i k, o.id_dict.lookup 9 = some i ∧ o.group_dict.lookup 7 = some k) ∧
    (∃ o, Sparse.mk exV ([⟨5, 3, true⟩, ⟨3, 5, true⟩] : List (Row ℕ Bool)) = .ok o) ∧
    (∀ r ∈ ([⟨5, 3, true⟩, ⟨3, 5, true⟩] : List (Row ℕ Bool)), r.src ≠ r.dst) := by
  obtain ⟨o, ho⟩ := sparse_accepts (e := ([⟨5, 3, true⟩, ⟨9, 9, true⟩] : List (Row ℕ Bool)))
    exV_nodup (by simp [exV]) (by simp [Dtype.pos])
  refine ⟨dense_accepts exV_nodup (by simp [exV]) (by simp [Dtype.pos]), ⟨o, ho, ?_⟩,
    sparse_accepts exV_nodup (by simp [exV]) (by simp [Dtype.pos]), by simp⟩
  obtain ⟨i, hi⟩ := Option.isSome_iff_exists.1 (((C20 (Or.inr ho)).1.dom 9).2 (by simp [exV]))
  obtain ⟨k, hk⟩ := Option.isSome_iff_exists.1 (((C20 (Or.inr ho)).2.1.dom 7).2 (by simp [exV]))
  exact ⟨i, k, hi, hk⟩

end Graph

end

end Verif
