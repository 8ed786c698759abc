import Verif.Graph.Networkx
import Verif.Graph.CachedProps

/-!
# C71: the networkx object describes the same graph
-/

namespace Verif

open Finset

noncomputable section

namespace Graph

namespace Nx

section Edges

variable {ι γ K A : Type} [DecidableEq K]

/-- The edge `t` is the one with ends `p`, `q` and key `r`. -/
def Hits (directed : Bool) (t : ℕ × ℕ × K × A) (p q : ℕ) (r : K) : Prop :=
  r = t.2.2.1 ∧ ((p = t.1 ∧ q = t.2.1) ∨ (directed = false ∧ p = t.2.1 ∧ q = t.1))

theorem addEdges_append (d : Bool) (G : Nx ι γ K A) (l : List (ℕ × ℕ × K × A))
    (t : ℕ × ℕ × K × A) :
    G.addEdges d (l ++ [t]) = (G.addEdges d l).addEdge d t.1 t.2.1 t.2.2.1 t.2.2.2 := by
  unfold addEdges
  rw [List.foldl_append]; rfl

theorem addEdges_none (d : Bool) (G : Nx ι γ K A) (l : List (ℕ × ℕ × K × A)) {p q : ℕ} {r : K}
    (h : ∀ t ∈ l, ¬ Hits d t p q r) : (G.addEdges d l).edge p q r = G.edge p q r := by
  induction l using List.reverseRecOn with
  | nil => rfl
  | append_singleton l t ih =>
    rw [addEdges_append]
    unfold addEdge
    refine (if_neg (h t (by simp))).trans ?_
    exact ih fun t ht => h t (by simp [ht])

theorem addEdges_some (d : Bool) (G : Nx ι γ K A) (l : List (ℕ × ℕ × K × A)) {p q : ℕ} {r : K}
    (h : ∃ t ∈ l, Hits d t p q r) :
    ∃ t ∈ l, Hits d t p q r ∧ (G.addEdges d l).edge p q r = some t.2.2.2 := by
  induction l using List.reverseRecOn with
  | nil => obtain ⟨t, ht, _⟩ := h; cases ht
  | append_singleton l t ih =>
    rw [addEdges_append]
    by_cases ht : Hits d t p q r
    · refine ⟨t, by simp, ht, ?_⟩
      unfold addEdge
      exact if_pos ht
    · obtain ⟨s, hs, hh⟩ := h
      have hs' : s ∈ l := by
        rcases List.mem_append.1 hs with hs | hs
        · exact hs
        · rw [List.mem_singleton.1 hs] at hh; exact absurd hh ht
      obtain ⟨u, hu, h1, h2⟩ := ih ⟨s, hs', hh⟩
      refine ⟨u, by simp [hu], h1, ?_⟩
      unfold addEdge
      exact (if_neg ht).trans h2

omit [DecidableEq K] in
theorem addNode_id (G : Nx ι γ K A) {u : ℕ} (h : (G.node u).isSome = true) :
    (G.addNode u id).node = G.node := by
  obtain ⟨a, ha⟩ := Option.isSome_iff_exists.1 h
  funext w
  unfold addNode
  by_cases hw : w = u
  · subst hw; simp [ha]
  · simp [hw]

theorem addEdges_node (d : Bool) (G : Nx ι γ K A) (l : List (ℕ × ℕ × K × A))
    (h : ∀ t ∈ l, (G.node t.1).isSome = true ∧ (G.node t.2.1).isSome = true) :
    (G.addEdges d l).node = G.node := by
  induction l using List.reverseRecOn with
  | nil => rfl
  | append_singleton l t ih =>
    have ih' := ih fun t ht => h t (by simp [ht])
    obtain ⟨h1, h2⟩ := h t (by simp)
    rw [addEdges_append]
    have e1 : (((G.addEdges d l).addNode t.1 id)).node = G.node := by
      rw [addNode_id _ (by rw [ih']; exact h1), ih']
    show (((G.addEdges d l).addNode t.1 id).addNode t.2.1 id).node = G.node
    rw [addNode_id _ (by rw [e1]; exact h2), e1]

theorem addEdges_symm (l : List (ℕ × ℕ × K × A)) (G : Nx ι γ K A)
    (hG : ∀ p q r, G.edge p q r = G.edge q p r) (p q : ℕ) (r : K) :
    (G.addEdges false l).edge p q r = (G.addEdges false l).edge q p r := by
  induction l using List.reverseRecOn with
  | nil => exact hG p q r
  | append_singleton l t ih =>
    rw [addEdges_append]
    by_cases hh : Hits false t p q r
    · have hh' : Hits false t q p r := by unfold Hits at hh ⊢; tauto
      exact (if_pos hh).trans (if_pos hh').symm
    · have hh' : ¬ Hits false t q p r := by unfold Hits at hh ⊢; tauto
      exact (if_neg hh).trans (ih.trans (if_neg hh').symm)

variable {V : Type} [Dtype V]

theorem mem_entries {n : ℕ} {M : Mat V} {t : ℕ × ℕ × V} :
    t ∈ entries n M ↔ t.1 < n ∧ t.2.1 < n ∧ Dtype.nz (M t.1 t.2.1) = true ∧ t.2.2 = M t.1 t.2.1 := by
  obtain ⟨i, j, w⟩ := t
  unfold entries
  simp only [List.mem_flatMap, List.mem_map, List.mem_filter, List.mem_range, Prod.mk.injEq]
  constructor
  · rintro ⟨a, ha, b, ⟨hb, hz⟩, rfl, rfl, rfl⟩
    exact ⟨ha, hb, hz, rfl⟩
  · rintro ⟨ha, hb, hz, rfl⟩
    exact ⟨i, ha, j, ⟨hb, hz⟩, rfl, rfl, rfl⟩

end Edges

section Nodes

variable {ι γ K A : Type}

theorem addNodes_node (G : Nx ι γ K A) (n u : ℕ) :
    ((G.addNodes n).node u).isSome = true ↔ u < n ∨ (G.node u).isSome = true := by
  induction n with
  | zero => simp [addNodes]
  | succ n ih =>
    have : G.addNodes (n + 1) = (G.addNodes n).addNode n id := by
      unfold addNodes
      rw [List.range_succ, List.foldl_append]; rfl
    rw [this]
    unfold addNode
    by_cases hu : u = n
    · subst hu; simp
    · simp only [if_neg hu, ih]
      constructor
      · rintro (h | h)
        · exact Or.inl (by omega)
        · exact Or.inr h
      · rintro (h | h)
        · exact Or.inl (by omega)
        · exact Or.inr h

theorem addNodes_attr (n u : ℕ) :
    ((empty (ι := ι) (γ := γ) (K := K) (A := A)).addNodes n).node u = none ∨
    ((empty (ι := ι) (γ := γ) (K := K) (A := A)).addNodes n).node u = some {} := by
  induction n with
  | zero => left; rfl
  | succ n ih =>
    have : (empty (ι := ι) (γ := γ) (K := K) (A := A)).addNodes (n + 1) =
        ((empty).addNodes n).addNode n id := by
      unfold addNodes
      rw [List.range_succ, List.foldl_append]; rfl
    rw [this]
    unfold addNode
    by_cases hu : u = n
    · subst hu
      right
      rcases ih with ih | ih <;> simp [ih]
    · simp only [if_neg hu]; exact ih

theorem addNodes_edge (G : Nx ι γ K A) (n : ℕ) : (G.addNodes n).edge = G.edge := by
  induction n with
  | zero => rfl
  | succ n ih =>
    have : G.addNodes (n + 1) = (G.addNodes n).addNode n id := by
      unfold addNodes
      rw [List.range_succ, List.foldl_append]; rfl
    rw [this]
    exact ih

theorem addIds_node (G : Nx ι γ K A) (l : List ι) (u : ℕ) :
    (G.addIds l.zipIdx).node u = match l[u]? with
      | some x => some { (G.node u).getD {} with node_id := some x }
      | none => G.node u := by
  induction l using List.reverseRecOn with
  | nil => rfl
  | append_singleton l x ih =>
    have e : G.addIds (l ++ [x]).zipIdx = (G.addIds l.zipIdx).addNode l.length
        (fun a => { a with node_id := some x }) := by
      unfold addIds
      rw [List.zipIdx_append, List.foldl_append]
      simp
    rw [e]
    unfold addNode
    simp only
    by_cases hu : u = l.length
    · subst hu
      rw [if_pos rfl, ih]
      simp
    · rw [if_neg hu, ih]
      by_cases hlt : u < l.length
      · rw [List.getElem?_append_left hlt]
      · have h1 : l[u]? = none := List.getElem?_eq_none (by omega)
        have h2 : (l ++ [x])[u]? = none := List.getElem?_eq_none (by simp; omega)
        rw [h1, h2]

theorem addIds_edge (G : Nx ι γ K A) (l : List (ι × ℕ)) : (G.addIds l).edge = G.edge := by
  unfold addIds
  induction l generalizing G with
  | nil => rfl
  | cons a l ih => rw [List.foldl_cons, ih]; rfl

theorem inverse_zipIdx {α : Type} (l : List α) : inverse l.zipIdx = l.map some := by
  have key : ∀ (l : List α) (N : ℕ), l.length ≤ N →
      l.zipIdx.foldl (fun l x => l.set x.2 (some x.1)) (List.replicate N none) =
        l.map some ++ List.replicate (N - l.length) none := by
    intro l
    induction l using List.reverseRecOn with
    | nil => intro N _; simp
    | append_singleton l x ih =>
      intro N hN
      rw [List.length_append, List.length_singleton] at hN
      rw [List.zipIdx_append, List.foldl_append, ih N (by omega)]
      simp only [List.zipIdx_singleton, List.foldl_cons, List.foldl_nil, Nat.zero_add]
      rw [List.set_append_right _ _ (by simp)]
      obtain ⟨m, hm⟩ : ∃ m, N - l.length = m + 1 := ⟨N - l.length - 1, by omega⟩
      rw [hm, List.replicate_succ]
      simp only [List.length_map, Nat.sub_self, List.set_cons_zero, List.map_append, List.map_cons,
        List.map_nil, List.length_append, List.length_cons, List.length_nil, List.append_assoc,
        List.cons_append, List.nil_append]
      congr 3
      omega
  unfold inverse
  rw [List.length_zipIdx, key l _ le_rfl]
  simp

theorem addGroups_node (G : Nx ι γ K A) (gd : List (γ × ℕ)) (groups : List ℕ) (u : ℕ) :
    (G.addGroups gd groups).node u = if u < groups.length then
      some { (G.node u).getD {} with group := ((inverse gd)[groups.getD u 0]?).join }
      else G.node u := by
  unfold addGroups
  have key : ∀ m, ((List.range m).foldl (fun G i => G.addNode i (fun a =>
      { a with group := ((inverse gd)[groups.getD i 0]?).join })) G).node u = if u < m then
      some { (G.node u).getD {} with group := ((inverse gd)[groups.getD u 0]?).join }
      else G.node u := by
    intro m
    induction m with
    | zero => simp
    | succ m ih =>
      rw [List.range_succ, List.foldl_append]
      simp only [List.foldl_cons, List.foldl_nil]
      unfold addNode at ih ⊢
      simp only at ih ⊢
      by_cases hu : u = m
      · subst hu
        rw [if_pos rfl, ih]
        simp
      · rw [if_neg hu, ih]
        by_cases h : u < m
        · rw [if_pos h, if_pos (by omega)]
        · rw [if_neg h, if_neg (by omega)]
  exact key _

theorem addGroups_edge (G : Nx ι γ K A) (gd : List (γ × ℕ)) (groups : List ℕ) :
    (G.addGroups gd groups).edge = G.edge := by
  unfold addGroups
  generalize List.range groups.length = l
  induction l generalizing G with
  | nil => rfl
  | cons a l ih => rw [List.foldl_cons, ih]; rfl

theorem annotate_edge (hg : Bool) (G : Nx ι γ K A) (d : List (ι × ℕ)) (gd : List (γ × ℕ))
    (groups : List ℕ) : (G.annotate hg d gd groups).edge = G.edge := by
  unfold annotate
  cases hg
  · exact addIds_edge G d
  · exact (addGroups_edge _ _ _).trans (addIds_edge G d)

end Nodes

end Nx

/-! ### Nodes -/

section Nodes

variable {ι γ κ : Type} [LinearOrder ι] [LinearOrder γ] [LinearOrder κ]

/-- The nodes of the object describe the table of vertices: there is one node for each vertex,
it carries its identifier, and its group if the graph has groups. -/
def Describes {K A : Type} (v : List (ι × γ)) (id : ι → Option ℕ) (hasGroups : Bool)
    (G : Nx ι γ K A) : Prop :=
  (∀ a ∈ v, ∃ i, id a.1 = some i ∧
    G.node i = some ⟨some a.1, if hasGroups then some a.2 else none⟩) ∧
  (∀ u, (G.node u).isSome = true → ∃ a ∈ v, id a.1 = some u)

theorem annotate_describes {K A : Type} {v : List (ι × γ)} (h1 : (v.map Prod.fst).Nodup)
    (hg : Bool) (G : Nx ι γ K A)
    (h0 : ∀ u, G.node u = none ∨ G.node u = some {})
    (hn : ∀ u, (G.node u).isSome = true → u < v.length) :
    Describes v (fun x => (npUnique (v.map Prod.fst)).zipIdx.lookup x) hg
      (G.annotate hg (npUnique (v.map Prod.fst)).zipIdx
        (npUnique ((sortedRows v).map Prod.snd)).zipIdx (groupsOf v)) := by
  have hlen : (npUnique (v.map Prod.fst)).length = v.length := by
    rw [(npUnique_perm h1).length_eq, List.length_map]
  have hglen : (groupsOf v).length = v.length := by
    unfold groupsOf
    rw [List.length_map, (sortedRows_perm v).length_eq]
  have hget : ∀ u, (G.node u).getD {} = {} := by
    intro u
    rcases h0 u with h | h <;> rw [h] <;> rfl
  have hnode : ∀ u x, (npUnique (v.map Prod.fst))[u]? = some x →
      (G.addIds (npUnique (v.map Prod.fst)).zipIdx).node u = some ⟨some x, none⟩ := by
    intro u x hx
    rw [Nx.addIds_node, hx]
    simp only [hget]
  refine ⟨fun a ha => ?_, fun u hu => ?_⟩
  · have hi := idOf_some (v := v) (x := a.1) (List.mem_map.2 ⟨a, ha, rfl⟩)
    have hlt := idOf_lt h1 hi
    refine ⟨_, hi, ?_⟩
    have hx := hnode _ _ ((lookup_dict _ _ _).1 hi)
    unfold Nx.annotate
    cases hg
    · simpa using hx
    · simp only [if_true]
      rw [Nx.addGroups_node, if_pos (by rw [hglen]; exact hlt), hx, Nx.inverse_zipIdx]
      have hgr := groupsOf_get h1 ha hi
      have hm : a.2 ∈ (sortedRows v).map Prod.snd :=
        List.mem_map.mpr ⟨a, (sortedRows_perm v).mem_iff.mpr ha, rfl⟩
      obtain ⟨k, hk⟩ := Option.isSome_iff_exists.mp ((lookup_isSome _ _).mpr hm)
      rw [hk] at hgr
      rw [List.getD_eq_getElem?_getD, hgr]
      simp only [Option.getD_some, List.getElem?_map, (lookup_dict _ _ _).1 hk]
      rfl
  · have hu' : u < v.length := by
      by_contra hc
      have e1 : (G.addIds (npUnique (v.map Prod.fst)).zipIdx).node u = G.node u := by
        rw [Nx.addIds_node, List.getElem?_eq_none (by omega)]
      have : G.node u = none := by
        rcases h0 u with h | h
        · exact h
        · exact absurd (hn u (by rw [h]; rfl)) hc
      unfold Nx.annotate at hu
      cases hg
      · simp only [Bool.false_eq_true, if_false] at hu
        rw [e1, this] at hu; cases hu
      · simp only [if_true] at hu
        rw [Nx.addGroups_node, if_neg (by omega), e1, this] at hu; cases hu
    obtain ⟨x, hx⟩ := (idOf_numbering v).onto u (by omega)
    obtain ⟨a, ha, hax⟩ := List.mem_map.1 (idOf_mem hx)
    exact ⟨a, ha, by rw [hax]; exact hx⟩

end Nodes

/-! ### One layer -/

section Single

variable {ι γ V : Type} [LinearOrder ι] [LinearOrder γ] [Dtype V]

omit [LinearOrder ι] [LinearOrder γ] in
theorem ofMatrix_node (d : Bool) (n : ℕ) (M : Mat V) :
    (Nx.ofMatrix (ι := ι) (γ := γ) d n M).node =
      ((Nx.empty (K := Unit) (A := V)).addNodes n).node := by
  unfold Nx.ofMatrix
  refine Nx.addEdges_node _ _ _ fun t ht => ?_
  obtain ⟨s, hs, rfl⟩ := List.mem_map.1 ht
  obtain ⟨h1, h2, _⟩ := Nx.mem_entries.1 hs
  exact ⟨(Nx.addNodes_node _ _ _).2 (Or.inl h1), (Nx.addNodes_node _ _ _).2 (Or.inl h2)⟩

theorem ofMatrix_describes {v : List (ι × γ)} {e : List (Row ι V)} {o : Obj ι γ V} (h : Built v e o)
    {W : Type} [Dtype W] (d hg : Bool) (M : Mat W) :
    Describes v (fun x => o.id_dict.lookup x) hg
      ((Nx.ofMatrix (ι := ι) (γ := γ) d o.num_vertices M).annotate hg o.id_dict o.group_dict
        o.groups) := by
  obtain ⟨h1, h2, h3, e1, e2, e3, e4, ha⟩ := built_ok h
  rw [e2, e3, e4, e1]
  refine annotate_describes h1 hg _ ?_ ?_
  · intro u
    rw [ofMatrix_node]
    exact Nx.addNodes_attr _ _
  · intro u hu
    rw [ofMatrix_node] at hu
    rcases (Nx.addNodes_node _ _ _).1 hu with h | h
    · exact h
    · cases h

/-- **C71**, vertices of single-layer graphs: one node for each row of the table of vertices, with
its identifier and group. -/
theorem C71_nodes {v : List (ι × γ)} {e : List (Row ι V)} {o : Obj ι γ V} (h : Built v e o)
    (hg : Bool) : Describes v (fun x => o.id_dict.lookup x) hg (toNxDi hg o) :=
  ofMatrix_describes h true hg o.adj

/-- **C71**, vertices of undirected single-layer graphs. -/
theorem C71_nodes_undirected {v : List (ι × γ)} {e : List (Row ι ℝ)} {o : Obj ι γ ℝ}
    (h : Built v e o) (b : Backend) (hg : Bool) :
    Describes v (fun x => o.id_dict.lookup x) hg (toNx b hg o) :=
  ofMatrix_describes h false hg _

omit [LinearOrder ι] [LinearOrder γ] in
theorem ofMatrix_edge {d : Bool} {n : ℕ} {M : Mat V} (hs : d = false → ∀ i < n, ∀ j < n, M i j = M j i)
    {i j : ℕ} (hi : i < n) (hj : j < n) :
    (Nx.ofMatrix (ι := ι) (γ := γ) d n M).edge i j () =
      if Dtype.nz (M i j) = true then some (M i j) else none := by
  unfold Nx.ofMatrix
  split
  · rename_i hz
    obtain ⟨t, ht, hh, he⟩ := Nx.addEdges_some d (Nx.addNodes (ι := ι) (γ := γ) Nx.empty n)
      ((Nx.entries n M).map (fun t => (t.1, t.2.1, (), t.2.2))) (p := i) (q := j) (r := ())
      ⟨(i, j, (), M i j), List.mem_map.2 ⟨(i, j, M i j), Nx.mem_entries.2 ⟨hi, hj, hz, rfl⟩, rfl⟩,
        rfl, Or.inl ⟨rfl, rfl⟩⟩
    rw [he]
    obtain ⟨s, hs', rfl⟩ := List.mem_map.1 ht
    obtain ⟨a1, a2, a3, a4⟩ := Nx.mem_entries.1 hs'
    obtain ⟨_, ⟨b1, b2⟩ | ⟨hd, b1, b2⟩⟩ := hh
    · simp only at b1 b2
      simp only [a4, b1, b2]
    · simp only at b1 b2
      simp only [a4, b1, b2]
      rw [hs hd _ a1 _ a2]
  · rename_i hz
    rw [Nx.addEdges_none, Nx.addNodes_edge]
    · rfl
    · intro t ht hh
      obtain ⟨s, hs', rfl⟩ := List.mem_map.1 ht
      obtain ⟨a1, a2, a3, a4⟩ := Nx.mem_entries.1 hs'
      obtain ⟨_, ⟨b1, b2⟩ | ⟨hd, b1, b2⟩⟩ := hh
      · simp only at b1 b2
        rw [b1, b2] at hz; exact hz a3
      · simp only at b1 b2
        rw [b1, b2, hs hd _ a2 _ a1] at hz; exact hz a3

variable [LawfulDtype V]

/-- **C71**, directed single-layer graphs, with and without weights: there is an edge from `x` to
`y` iff some row joins them, and it carries the entry of the adjacency matrix. -/
theorem C71_directed {v : List (ι × γ)} {e : List (Row ι V)} {o : Obj ι γ V} (h : Built v e o)
    (hg : Bool) {x y : ι} {i j : ℕ} (hx : o.id_dict.lookup x = some i)
    (hy : o.id_dict.lookup y = some j) :
    ((toNxDi hg o).edge i j () = none ↔ ¬ ∃ r ∈ e, r.src = x ∧ r.dst = y) ∧
    ((∃ r ∈ e, r.src = x ∧ r.dst = y) → (toNxDi hg o).edge i j () = some (o.adj i j)) := by
  have hn := (C20 h).1
  have he : (toNxDi hg o).edge i j () =
      if Dtype.nz (o.adj i j) = true then some (o.adj i j) else none := by
    unfold toNxDi
    rw [Nx.annotate_edge, ofMatrix_edge (d := true) nofun (hn.range _ _ hx) (hn.range _ _ hy)]
  have hc := (C21_connected h hx hy).1
  unfold ne0 at hc
  rw [he, ← hc]
  constructor
  · by_cases hz : Dtype.nz (o.adj i j) = true <;> simp [hz]
  · intro hz; rw [if_pos hz]

omit [Dtype V] [LawfulDtype V] in
/-- **C71**, weights: in sparse graphs the weight of the edge is the sum of the weights of the
rows joining its ends. -/
theorem C71_directed_sparse {v : List (ι × γ)} {e : List (Row ι ℝ)} {o : Obj ι γ ℝ}
    (h : Sparse.mk v e = .ok o) (hg : Bool) {x y : ι} {i j : ℕ}
    (hx : o.id_dict.lookup x = some i) (hy : o.id_dict.lookup y = some j)
    (hr : ∃ r ∈ e, r.src = x ∧ r.dst = y) :
    (toNxDi hg o).edge i j () =
      some ((e.filter (fun r => r.src = x ∧ r.dst = y)).map Row.val).sum := by
  rw [(C71_directed (Or.inr h) hg hx hy).2 hr, (C21_sparse h hx hy).1]

/-- **C71**, undirected single-layer graphs: the ends are joined iff some row joins them in either
direction, and the edge has the same weight seen from both ends. -/
theorem C71_undirected {b : Backend} {v : List (ι × γ)} {e : List (Row ι ℝ)} {o : Obj ι γ ℝ}
    (h : Built v e o) (hg : Bool) {x y : ι} {i j : ℕ} (hx : o.id_dict.lookup x = some i)
    (hy : o.id_dict.lookup y = some j) :
    ((toNx b hg o).edge i j () = none ↔
      ¬ ∃ r ∈ e, (r.src = x ∧ r.dst = y) ∨ (r.src = y ∧ r.dst = x)) ∧
    (toNx b hg o).edge i j () = (toNx b hg o).edge j i () ∧
    ((∃ r ∈ e, (r.src = x ∧ r.dst = y) ∨ (r.src = y ∧ r.dst = x)) →
      (toNx b hg o).edge i j () = some (undirectedSpec o.adj i j)) := by
  have hn := (C20 h).1
  have hi := hn.range _ _ hx
  have hj := hn.range _ _ hy
  have hpos : ∀ i j, 0 ≤ o.adj i j := by
    obtain ⟨_, _, h3, _, _, _, _, ha⟩ := built_ok h
    intro i j
    by_cases hex : ∃ r ∈ edgesOf v e, i = r.src ∧ j = r.dst
    · have : Dtype.pos (o.adj i j) = true := by
        rcases ha with ha | ha
        · rw [ha]; exact assign_pos _ (edges_pos h3) i j hex
        · rw [ha]; exact coo_pos _ (edges_pos h3) i j hex
      simp only [Dtype.pos, decide_eq_true_eq] at this
      exact this.le
    · push Not at hex
      have : o.adj i j = Dtype.zero := by
        rcases ha with ha | ha
        · rw [ha]; exact assign_none _ fun r hr hc => hex r hr hc.1 hc.2
        · rw [ha]; exact coo_none _ fun r hr hc => hex r hr hc.1 hc.2
      rw [this]; exact le_of_eq rfl
  have hsymm : ∀ i j, undirectedSpec o.adj i j = undirectedSpec o.adj j i := by
    intro i j
    unfold undirectedSpec
    by_cases hij : i = j
    · subst hij; rfl
    · rw [if_neg hij, if_neg (Ne.symm hij)]; ring
  have key : ∀ {i j : ℕ}, i < o.num_vertices → j < o.num_vertices →
      (toNx b hg o).edge i j () =
        if undirectedSpec o.adj i j ≠ 0 then some (undirectedSpec o.adj i j) else none := by
    intro i j hi hj
    have hM : ∀ i < o.num_vertices, ∀ j < o.num_vertices,
        symOf b o i j = undirectedSpec o.adj i j := by
      intro i hi j hj
      cases b
      · exact (dense_symW _ hi hj).trans (symW_spec _ _ _)
      · exact symW_spec _ _ _
    unfold toNx
    rw [Nx.annotate_edge, ofMatrix_edge (fun _ i hi j hj => by
      rw [hM i hi j hj, hM j hj i hi, hsymm]) hi hj, hM i hi j hj]
    simp only [Dtype.nz, decide_eq_true_eq]
  have hc : undirectedSpec o.adj i j ≠ 0 ↔
      ∃ r ∈ e, (r.src = x ∧ r.dst = y) ∨ (r.src = y ∧ r.dst = x) := by
    rw [← (C21_connected h hx hy).2.2]
    unfold Dense.symB orT ne0
    simp only [Bool.or_eq_true, Dtype.nz, decide_eq_true_eq]
    unfold undirectedSpec
    by_cases hij : i = j
    · subst hij; simp
    · rw [if_neg hij]
      have := hpos i j
      have := hpos j i
      constructor
      · intro hne
        by_contra hcon
        push Not at hcon
        exact hne (by rw [hcon.1, hcon.2, add_zero])
      · rintro (hne | hne) hz
        · exact hne (by linarith)
        · exact hne (by linarith)
  refine ⟨?_, ?_, fun hr => ?_⟩
  · rw [key hi hj, ← hc]
    by_cases hz : undirectedSpec o.adj i j = 0 <;> simp [hz]
  · rw [key hi hj, key hj hi, hsymm]
  · rw [key hi hj, if_pos (hc.2 hr)]

/-- **C71**, weights of undirected sparse graphs. -/
theorem C71_undirected_sparse {v : List (ι × γ)} {e : List (Row ι ℝ)} {o : Obj ι γ ℝ}
    (h : Sparse.mk v e = .ok o) (hg : Bool) {x y : ι} {i j : ℕ}
    (hx : o.id_dict.lookup x = some i) (hy : o.id_dict.lookup y = some j)
    (hr : ∃ r ∈ e, (r.src = x ∧ r.dst = y) ∨ (r.src = y ∧ r.dst = x)) :
    (toNx .sparse hg o).edge i j () =
      some ((e.filter (fun r => (r.src = x ∧ r.dst = y) ∨ (r.src = y ∧ r.dst = x))).map
        Row.val).sum := by
  rw [(C71_undirected (Or.inr h) hg hx hy).2.2 hr, ← symW_spec, (C21_sparse h hx hy).2]

end Single

/-! ### Multigraphs -/

section Multi

variable {ι γ κ V : Type} [LinearOrder ι] [LinearOrder γ] [LinearOrder κ] [Dtype V]

theorem builtMulti_ok {v : List (ι × γ)} {e : List (κ × Row ι V)} {o : MultiObj ι γ κ V}
    (h : BuiltMulti v e o) :
    (v.map Prod.fst).Nodup ∧ o.num_vertices = v.length ∧
    o.id_dict = (npUnique (v.map Prod.fst)).zipIdx ∧
    o.label_dict = (npUnique (e.map Prod.fst)).zipIdx ∧
    o.num_labels = (npUnique (e.map Prod.fst)).length ∧
    o.group_dict = (npUnique ((sortedRows v).map Prod.snd)).zipIdx ∧ o.groups = groupsOf v := by
  rcases h with h | h
  · obtain ⟨h1, _, _, e1, e2, e3, e4, e5, e6, _⟩ := mkMulti_ok h
    exact ⟨h1, e1, e2, e3, e4, e5, e6⟩
  · obtain ⟨h1, _, _, e1, e2, e3, e4, e5, e6, _⟩ := mkMulti_ok h
    exact ⟨h1, e1, e2, e3, e4, e5, e6⟩

/-- The list of edges passed to networkx. -/
def nxEdges (o : MultiObj ι γ κ V) : List (ℕ × ℕ × ℕ × (V × Option κ)) :=
  (List.range o.num_labels).flatMap (fun l =>
    (Nx.entries o.num_vertices (o.adj l)).map
      (fun t => (t.1, t.2.1, l, (t.2.2, ((Nx.inverse o.label_dict)[l]?).join))))

omit [LinearOrder ι] [LinearOrder γ] [LinearOrder κ] in
theorem mem_nxEdges {o : MultiObj ι γ κ V} {t : ℕ × ℕ × ℕ × (V × Option κ)} :
    t ∈ nxEdges o ↔ t.2.2.1 < o.num_labels ∧ t.1 < o.num_vertices ∧ t.2.1 < o.num_vertices ∧
      Dtype.nz (o.adj t.2.2.1 t.1 t.2.1) = true ∧
      t.2.2.2 = (o.adj t.2.2.1 t.1 t.2.1, ((Nx.inverse o.label_dict)[t.2.2.1]?).join) := by
  obtain ⟨i, j, l, w, k⟩ := t
  unfold nxEdges
  simp only [List.mem_flatMap, List.mem_range, List.mem_map, Prod.mk.injEq]
  constructor
  · rintro ⟨l', hl, s, hs, rfl, rfl, rfl, rfl, rfl⟩
    obtain ⟨a, b, c, d⟩ := Nx.mem_entries.1 hs
    exact ⟨hl, a, b, c, d, rfl⟩
  · rintro ⟨hl, a, b, c, rfl, rfl⟩
    exact ⟨l, hl, (i, j, o.adj l i j), Nx.mem_entries.2 ⟨a, b, c, rfl⟩, rfl, rfl, rfl, rfl, rfl⟩

/-- **C71**, vertices of multigraphs, directed or not. -/
theorem C71_nodes_multi {v : List (ι × γ)} {e : List (κ × Row ι V)} {o : MultiObj ι γ κ V}
    (h : BuiltMulti v e o) (directed hg : Bool) :
    Describes v (fun x => o.id_dict.lookup x) hg (toNxMulti directed hg o) := by
  obtain ⟨h1, e1, e2, e3, e4, e5, e6⟩ := builtMulti_ok h
  have hd : Describes v (fun x => o.id_dict.lookup x) hg
      ((Nx.empty (K := ℕ) (A := V × Option κ)).annotate hg o.id_dict o.group_dict o.groups) := by
    rw [e2, e5, e6]
    exact annotate_describes h1 hg _ (fun u => Or.inl rfl) (fun u hu => by cases hu)
  have hlen : (npUnique (v.map Prod.fst)).length = v.length := by
    rw [(npUnique_perm h1).length_eq, List.length_map]
  have hnode : (toNxMulti directed hg o).node = ((Nx.empty (K := ℕ) (A := V × Option κ)).annotate hg
      o.id_dict o.group_dict o.groups).node := by
    have hlt : ∀ u < o.num_vertices, (((Nx.empty (K := ℕ) (A := V × Option κ)).annotate hg
        o.id_dict o.group_dict o.groups).node u).isSome = true := by
      intro u hu
      obtain ⟨x, hx⟩ := (idOf_numbering v).onto u (by omega)
      obtain ⟨a, ha, hax⟩ := List.mem_map.1 (idOf_mem hx)
      obtain ⟨i, hi, hnd⟩ := hd.1 a ha
      rw [hax, e2] at hi
      have : i = u := Option.some.inj (hi.symm.trans hx)
      rw [← this, hnd]; rfl
    refine Nx.addEdges_node _ _ _ fun t ht => ?_
    obtain ⟨_, a, b, _⟩ := mem_nxEdges.1 ht
    exact ⟨hlt _ a, hlt _ b⟩
  unfold Describes at hd ⊢
  rw [hnode]
  exact hd

omit [LinearOrder ι] [LinearOrder γ] [Dtype V] in
theorem label_of {e : List (κ × Row ι V)} {o : MultiObj ι γ κ V}
    (e3 : o.label_dict = (npUnique (e.map Prod.fst)).zipIdx) {k : κ} {l : ℕ}
    (hk : o.label_dict.lookup k = some l) : ((Nx.inverse o.label_dict)[l]?).join = some k := by
  rw [e3] at hk ⊢
  rw [Nx.inverse_zipIdx, List.getElem?_map, (lookup_dict _ _ _).1 hk]
  rfl

variable [LawfulDtype V]

/-- Rows of a label, in both backends. -/
theorem layer_connected {v : List (ι × γ)} {e : List (κ × Row ι V)} {o : MultiObj ι γ κ V}
    (h : BuiltMulti v e o) {x y : ι} {k : κ} {i j l : ℕ} (hx : o.id_dict.lookup x = some i)
    (hy : o.id_dict.lookup y = some j) (hk : o.label_dict.lookup k = some l) :
    Dtype.nz (o.adj l i j) = true ↔ ∃ r ∈ e, r.1 = k ∧ r.2.src = x ∧ r.2.dst = y := by
  have key : ∀ o' : Obj ι γ V, Built v ((e.filter (fun kr => kr.1 = k)).map Prod.snd) o' →
      o'.id_dict = o.id_dict → o'.adj = o.adj l →
      (Dtype.nz (o.adj l i j) = true ↔ ∃ r ∈ e, r.1 = k ∧ r.2.src = x ∧ r.2.dst = y) := by
    intro o' hb hd ha
    have := (C21_connected hb (by rw [hd]; exact hx) (by rw [hd]; exact hy)).1
    unfold ne0 at this
    rw [ha] at this
    rw [this]
    constructor
    · rintro ⟨r, hr, h1, h2⟩
      obtain ⟨kr, hkr, rfl⟩ := List.mem_map.1 hr
      obtain ⟨hm, hl⟩ := List.mem_filter.1 hkr
      exact ⟨kr, hm, by simpa using hl, h1, h2⟩
    · rintro ⟨r, hr, h0, h1, h2⟩
      exact ⟨r.2, List.mem_map.2 ⟨r, List.mem_filter.2 ⟨hr, by simpa using h0⟩, rfl⟩, h1, h2⟩
  rcases h with h | h
  · obtain ⟨o', h1, _, h3, _, _, h6⟩ := C21_layer_dense h hk
    exact key o' (Or.inl h1) h3 h6
  · obtain ⟨o', h1, _, h3, _, _, h6⟩ := C21_layer_sparse h hk
    exact key o' (Or.inr h1) h3 h6

/-- **C71**, directed multigraphs, with and without weights: from `x` to `y` there is an edge of
label `k` iff some row says so; it carries the entry of the layer and the label. -/
theorem C71_multi_directed {v : List (ι × γ)} {e : List (κ × Row ι V)} {o : MultiObj ι γ κ V}
    (h : BuiltMulti v e o) (hg : Bool) {x y : ι} {k : κ} {i j l : ℕ}
    (hx : o.id_dict.lookup x = some i) (hy : o.id_dict.lookup y = some j)
    (hk : o.label_dict.lookup k = some l) :
    ((toNxMulti true hg o).edge i j l = none ↔
      ¬ ∃ r ∈ e, r.1 = k ∧ r.2.src = x ∧ r.2.dst = y) ∧
    ((∃ r ∈ e, r.1 = k ∧ r.2.src = x ∧ r.2.dst = y) →
      (toNxMulti true hg o).edge i j l = some (o.adj l i j, some k)) := by
  obtain ⟨h1, e1, e2, e3, e4, e5, e6⟩ := builtMulti_ok h
  have hi : i < o.num_vertices := by rw [e1]; exact idOf_lt h1 (by rw [e2] at hx; exact hx)
  have hj : j < o.num_vertices := by rw [e1]; exact idOf_lt h1 (by rw [e2] at hy; exact hy)
  have hl : l < o.num_labels := by
    rw [e4]; rw [e3] at hk; exact (numbering_dict _).range _ _ hk
  have hc := layer_connected h hx hy hk
  have yes : Dtype.nz (o.adj l i j) = true →
      (toNxMulti true hg o).edge i j l = some (o.adj l i j, some k) := by
    intro hz
    obtain ⟨t, ht, hh, he⟩ := Nx.addEdges_some true
      (Nx.empty.annotate hg o.id_dict o.group_dict o.groups) (nxEdges o) (p := i) (q := j) (r := l)
      ⟨(i, j, l, (o.adj l i j, ((Nx.inverse o.label_dict)[l]?).join)), mem_nxEdges.2 ⟨hl, hi, hj, hz, rfl⟩, rfl, Or.inl ⟨rfl, rfl⟩⟩
    refine Eq.trans he ?_
    obtain ⟨_, _, _, _, ha⟩ := mem_nxEdges.1 ht
    obtain ⟨hb, ⟨hb1, hb2⟩ | ⟨hb0, _⟩⟩ := hh
    · rw [ha, ← hb, ← hb1, ← hb2, label_of e3 hk]
    · cases hb0
  have no : ¬ Dtype.nz (o.adj l i j) = true → (toNxMulti true hg o).edge i j l = none := by
    intro hz
    refine Eq.trans (Nx.addEdges_none true _ (nxEdges o) ?_) ?_
    · intro t ht hh
      obtain ⟨_, _, _, hnz, _⟩ := mem_nxEdges.1 ht
      obtain ⟨hb, ⟨hb1, hb2⟩ | ⟨hb0, _⟩⟩ := hh
      · rw [← hb, ← hb1, ← hb2] at hnz; exact hz hnz
      · cases hb0
    · rw [Nx.annotate_edge]; rfl
  rw [← hc]
  refine ⟨⟨fun hn hz => ?_, no⟩, yes⟩
  rw [yes hz] at hn; cases hn

/-- **C71**, undirected multigraphs: two vertices are joined by an edge of label `k` iff some row
says so in either direction, and the edge is the same seen from both ends; it carries the label
and the weight of one of the two orientations. -/
theorem C71_multi_undirected {v : List (ι × γ)} {e : List (κ × Row ι V)} {o : MultiObj ι γ κ V}
    (h : BuiltMulti v e o) (hg : Bool) {x y : ι} {k : κ} {i j l : ℕ}
    (hx : o.id_dict.lookup x = some i) (hy : o.id_dict.lookup y = some j)
    (hk : o.label_dict.lookup k = some l) :
    ((toNxMulti false hg o).edge i j l = none ↔ ¬ ∃ r ∈ e, r.1 = k ∧
      ((r.2.src = x ∧ r.2.dst = y) ∨ (r.2.src = y ∧ r.2.dst = x))) ∧
    (toNxMulti false hg o).edge i j l = (toNxMulti false hg o).edge j i l ∧
    (∀ a, (toNxMulti false hg o).edge i j l = some a → a.2 = some k ∧
      ((a.1 = o.adj l i j ∧ ∃ r ∈ e, r.1 = k ∧ r.2.src = x ∧ r.2.dst = y) ∨
       (a.1 = o.adj l j i ∧ ∃ r ∈ e, r.1 = k ∧ r.2.src = y ∧ r.2.dst = x))) := by
  obtain ⟨h1, e1, e2, e3, e4, e5, e6⟩ := builtMulti_ok h
  have hi : i < o.num_vertices := by rw [e1]; exact idOf_lt h1 (by rw [e2] at hx; exact hx)
  have hj : j < o.num_vertices := by rw [e1]; exact idOf_lt h1 (by rw [e2] at hy; exact hy)
  have hl : l < o.num_labels := by
    rw [e4]; rw [e3] at hk; exact (numbering_dict _).range _ _ hk
  have hc := layer_connected h hx hy hk
  have hc' := layer_connected h hy hx hk
  have yes : (Dtype.nz (o.adj l i j) = true ∨ Dtype.nz (o.adj l j i) = true) →
      ∃ a, (toNxMulti false hg o).edge i j l = some a ∧ a.2 = some k ∧
      ((a.1 = o.adj l i j ∧ Dtype.nz (o.adj l i j) = true) ∨
       (a.1 = o.adj l j i ∧ Dtype.nz (o.adj l j i) = true)) := by
    intro hz
    obtain ⟨t, ht, hh, he⟩ := Nx.addEdges_some false
      (Nx.empty.annotate hg o.id_dict o.group_dict o.groups) (nxEdges o) (p := i) (q := j) (r := l)
      (by
        rcases hz with hz | hz
        · exact ⟨(i, j, l, (o.adj l i j, ((Nx.inverse o.label_dict)[l]?).join)), mem_nxEdges.2 ⟨hl, hi, hj, hz, rfl⟩, rfl,
            Or.inl ⟨rfl, rfl⟩⟩
        · exact ⟨(j, i, l, (o.adj l j i, ((Nx.inverse o.label_dict)[l]?).join)), mem_nxEdges.2 ⟨hl, hj, hi, hz, rfl⟩, rfl,
            Or.inr ⟨rfl, rfl, rfl⟩⟩)
    refine ⟨_, he, ?_⟩
    obtain ⟨_, _, _, hnz, ha⟩ := mem_nxEdges.1 ht
    obtain ⟨hb, ⟨hb1, hb2⟩ | ⟨_, hb1, hb2⟩⟩ := hh
    · rw [← hb, ← hb1, ← hb2] at hnz
      rw [ha, ← hb, ← hb1, ← hb2, label_of e3 hk]
      exact ⟨rfl, Or.inl ⟨rfl, hnz⟩⟩
    · rw [← hb, ← hb1, ← hb2] at hnz
      rw [ha, ← hb, ← hb1, ← hb2, label_of e3 hk]
      exact ⟨rfl, Or.inr ⟨rfl, hnz⟩⟩
  have no : ¬ (Dtype.nz (o.adj l i j) = true ∨ Dtype.nz (o.adj l j i) = true) →
      (toNxMulti false hg o).edge i j l = none := by
    intro hz
    refine Eq.trans (Nx.addEdges_none false _ (nxEdges o) ?_) ?_
    · intro t ht hh
      obtain ⟨_, _, _, hnz, _⟩ := mem_nxEdges.1 ht
      obtain ⟨hb, ⟨hb1, hb2⟩ | ⟨hb0, hb1, hb2⟩⟩ := hh
      · rw [← hb, ← hb1, ← hb2] at hnz; exact hz (Or.inl hnz)
      · rw [← hb, ← hb1, ← hb2] at hnz; exact hz (Or.inr hnz)
    · rw [Nx.annotate_edge]; rfl
  have hex : (∃ r ∈ e, r.1 = k ∧ ((r.2.src = x ∧ r.2.dst = y) ∨ (r.2.src = y ∧ r.2.dst = x))) ↔
      (Dtype.nz (o.adj l i j) = true ∨ Dtype.nz (o.adj l j i) = true) := by
    rw [hc, hc']
    constructor
    · rintro ⟨r, hr, hk, hd | hd⟩
      · exact Or.inl ⟨r, hr, hk, hd⟩
      · exact Or.inr ⟨r, hr, hk, hd⟩
    · rintro (⟨r, hr, hk, hd⟩ | ⟨r, hr, hk, hd⟩)
      · exact ⟨r, hr, hk, Or.inl hd⟩
      · exact ⟨r, hr, hk, Or.inr hd⟩
  refine ⟨?_, ?_, ?_⟩
  · rw [hex]
    refine ⟨fun hn hz => ?_, no⟩
    obtain ⟨a, ha, _⟩ := yes hz
    rw [hn] at ha; cases ha
  · exact Nx.addEdges_symm (nxEdges o) _ (fun p q r => by rw [Nx.annotate_edge]; rfl) i j l
  · intro a ha
    by_cases hz : Dtype.nz (o.adj l i j) = true ∨ Dtype.nz (o.adj l j i) = true
    · obtain ⟨a', ha', h2, h3⟩ := yes hz
      have : a = a' := Option.some.inj (ha.symm.trans ha')
      rw [this, ← hc, ← hc']
      exact ⟨h2, h3⟩
    · rw [no hz] at ha; cases ha

end Multi

section MultiReal

variable {ι γ κ : Type} [LinearOrder ι] [LinearOrder γ] [LinearOrder κ]

/-- **C71**, weights of undirected multigraphs.  Missing: pairs which rows of the same label join
in both directions, for which the claim is false (`C71_multi_undirected_violated`). -/
theorem C71_multi_undirected_partial {v : List (ι × γ)} {e : List (κ × Row ι ℝ)}
    {o : MultiObj ι γ κ ℝ} (h : BuiltMulti v e o) (hg : Bool) {x y : ι} {k : κ} {i j l : ℕ}
    (hx : o.id_dict.lookup x = some i) (hy : o.id_dict.lookup y = some j)
    (hk : o.label_dict.lookup k = some l)
    (hone : x = y ∨ ¬ ((∃ r ∈ e, r.1 = k ∧ r.2.src = x ∧ r.2.dst = y) ∧
      ∃ r ∈ e, r.1 = k ∧ r.2.src = y ∧ r.2.dst = x))
    (hr : ∃ r ∈ e, r.1 = k ∧ ((r.2.src = x ∧ r.2.dst = y) ∨ (r.2.src = y ∧ r.2.dst = x))) :
    (toNxMulti false hg o).edge i j l = some (undirectedSpec (o.adj l) i j, some k) := by
  obtain ⟨c1, _, c3⟩ := C71_multi_undirected h hg hx hy hk
  cases he : (toNxMulti false hg o).edge i j l with
  | none => exact absurd hr (c1.1 he)
  | some a =>
    obtain ⟨h2, h3⟩ := c3 a he
    have zero : ∀ p q, ¬ Dtype.nz (o.adj l p q) = true → o.adj l p q = 0 := by
      intro p q hz
      simpa [Dtype.nz] using hz
    have w : a.1 = undirectedSpec (o.adj l) i j := by
      unfold undirectedSpec
      by_cases hij : i = j
      · subst hij
        rw [if_pos rfl]
        rcases h3 with h3 | h3 <;> exact h3.1
      · rw [if_neg hij]
        have hxy : x ≠ y := by
          rintro rfl
          exact hij (Option.some.inj (hx.symm.trans hy))
        have hone' := hone.resolve_left hxy
        rcases h3 with ⟨h3, hex⟩ | ⟨h3, hex⟩
        · rw [h3, zero j i (fun hz => hone' ⟨hex, (layer_connected h hy hx hk).1 hz⟩), add_zero]
        · rw [h3, zero i j (fun hz => hone' ⟨(layer_connected h hx hy hk).1 hz, hex⟩), zero_add]
    rw [← w, ← h2]

end MultiReal

/-! ### Examples -/

/-- The same link in both directions, with one label. -/
def bothE : List (ℕ × Row ℕ ℝ) := [(7, ⟨0, 1, 1⟩), (7, ⟨1, 0, 2⟩)]

/-- **C71** is violated by undirected multigraphs in both backends: the weights of the two
orientations of an edge are not added, as they are in the adjacency tensor; one of them is lost. -/
theorem C71_multi_undirected_violated (b : Backend) : ∃ (v : List (ℕ × ℕ))
    (e : List (ℕ × Row ℕ ℝ)) (o : MultiObj ℕ ℕ ℕ ℝ) (i j l : ℕ), mkMultiOf b v e = .ok o ∧
    o.id_dict.lookup 0 = some i ∧ o.id_dict.lookup 1 = some j ∧ o.label_dict.lookup 7 = some l ∧
    undirectedSpec (o.adj l) i j = 3 ∧
    ∃ w, (toNxMulti false true o).edge i j l = some (w, some 7) ∧ w < 3 := by
  obtain ⟨o, ho⟩ : ∃ o, mkMultiOf b dupV bothE = .ok o := by
    cases b
    · exact mkMulti_accepts (tensor := Dense.assignT) (v := dupV) (e := bothE) dupV_nodup
        (by simp [dupV, bothE]) (by simp [bothE, Dtype.pos])
    · exact mkMulti_accepts (tensor := Sparse.cooT) (v := dupV) (e := bothE) dupV_nodup
        (by simp [dupV, bothE]) (by simp [bothE, Dtype.pos])
  have hB : BuiltMulti dupV bothE o := by
    cases b
    · exact Or.inl ho
    · exact Or.inr ho
  obtain ⟨h1, e1, e2, e3, e4, e5, e6⟩ := builtMulti_ok hB
  obtain ⟨i, hi⟩ := Option.isSome_iff_exists.1 (((idOf_numbering dupV).dom 0).2 (by simp [dupV]))
  obtain ⟨j, hj⟩ := Option.isSome_iff_exists.1 (((idOf_numbering dupV).dom 1).2 (by simp [dupV]))
  obtain ⟨l, hl⟩ := Option.isSome_iff_exists.1
    ((lookup_isSome (bothE.map Prod.fst) 7).2 (by simp [bothE]))
  have hij : i ≠ j := by
    intro hij
    have := (idOf_numbering dupV).inj hi (hij ▸ hj)
    norm_num at this
  have hi' : o.id_dict.lookup 0 = some i := by rw [e2]; exact hi
  have hj' : o.id_dict.lookup 1 = some j := by rw [e2]; exact hj
  have hl' : o.label_dict.lookup 7 = some l := by rw [e3]; exact hl
  have hrows : (bothE.filter (fun kr => kr.1 = 7)).map Prod.snd =
      [(⟨0, 1, 1⟩ : Row ℕ ℝ), ⟨1, 0, 2⟩] := by simp [bothE]
  have hw : o.adj l i j = 1 ∧ o.adj l j i = 2 := by
    obtain ⟨o', ho', _, hd, ha⟩ := layer_of ho hl'
    rw [hrows] at ho'
    have hx := (show o'.id_dict.lookup 0 = some i by rw [hd]; exact hi')
    have hy := (show o'.id_dict.lookup 1 = some j by rw [hd]; exact hj')
    cases b
    · have c1 := (C21_dense_partial ho' (by simp) hx hy).1
      have c2 := (C21_dense_partial ho' (by simp) hy hx).1
      rw [← ha, c1, c2]; norm_num
    · have c1 := (C21_sparse ho' hx hy).1
      have c2 := (C21_sparse ho' hy hx).1
      rw [← ha, c1, c2]; norm_num
  refine ⟨dupV, bothE, o, i, j, l, ho, hi', hj', hl', ?_, ?_⟩
  · unfold undirectedSpec
    rw [if_neg hij, hw.1, hw.2]; norm_num
  · obtain ⟨c1, _, c3⟩ := C71_multi_undirected hB true hi' hj' hl'
    cases he : (toNxMulti false true o).edge i j l with
    | none => exact absurd ⟨(7, ⟨0, 1, 1⟩), by simp [bothE], rfl, Or.inl ⟨rfl, rfl⟩⟩ (c1.1 he)
    | some a =>
      obtain ⟨h2, h3⟩ := c3 a he
      refine ⟨a.1, by rw [← h2], ?_⟩
      rw [hw.1, hw.2] at h3
      rcases h3 with ⟨h3, _⟩ | ⟨h3, _⟩ <;> rw [h3] <;> norm_num

example : ∃ o : Obj ℕ ℕ ℝ, Sparse.mk exV exE = .ok o ∧
    (∃ i j, o.id_dict.lookup 5 = some i ∧ o.id_dict.lookup 3 = some j ∧
      (toNxDi true o).edge i j () = some (3 / 2) ∧
      (toNx .sparse true o).edge i j () = some (7 / 2)) ∧
    Describes exV (fun x => o.id_dict.lookup x) true (toNxDi true o) := by
  obtain ⟨o, ho⟩ := sparse_accepts exV_nodup exE_known exE_pos
  have hn := (C20 (Or.inr ho)).1
  obtain ⟨i, hi⟩ := Option.isSome_iff_exists.1 ((hn.dom 5).2 (by simp [exV]))
  obtain ⟨j, hj⟩ := Option.isSome_iff_exists.1 ((hn.dom 3).2 (by simp [exV]))
  refine ⟨o, ho, ⟨i, j, hi, hj, ?_, ?_⟩, C71_nodes (Or.inr ho) true⟩
  · rw [C71_directed_sparse ho true hi hj ⟨⟨5, 3, 1⟩, by simp [exE], rfl, rfl⟩]
    simp [exE]; norm_num
  · rw [C71_undirected_sparse ho true hi hj ⟨⟨5, 3, 1⟩, by simp [exE], Or.inl ⟨rfl, rfl⟩⟩]
    simp [exE]; norm_num

end Graph

end

end Verif
