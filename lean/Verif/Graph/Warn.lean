import Verif.Graph.CachedProps

/-!
# Warnings about isolated vertices

Model of `graphs.py:190-209` and `sparse/graphs.py:194-211`, the end of `Graph.__init__`.  All
graph classes run it, the multigraphs on the table of edges without labels.
-/

namespace Verif

open Finset

noncomputable section

namespace Graph

/-- The warning given, with the identifiers it names. -/
inductive Warning (ι : Type) where
  /-- `… vertex has no edges.` (graphs.py:199-203, sparse/graphs.py:201-205) -/
  | vertex (x : ι)
  /-- `[…] vertices have no edges.` (graphs.py:205-209, sparse/graphs.py:207-211) -/
  | vertices (l : List ι)

variable {ι γ V : Type}

/-- graphs.py:190-193, sparse/graphs.py:194-197: the undirected degree `d`. -/
def warnDegree (b : Backend) [Dtype V] (o : Obj ι γ V) : ℕ → ℝ :=
  match b with
  | .dense => rowSums o.num_vertices (Dense.symB o.adj)
  | .sparse => rowSums o.num_vertices (Sparse.symB o.adj)

open Classical in
/-- `np.nonzero(d == 0)[0]` -/
def zeroIdx (n : ℕ) (d : ℕ → ℝ) : List ℕ := (List.range n).filter (fun i => d i = 0)

/-- graphs.py:195-209, sparse/graphs.py:199-211 -/
def isolatedWarning (b : Backend) [Dtype V] (o : Obj ι γ V) : Option (Warning ι) :=
  let zero_idx := zeroIdx o.num_vertices (warnDegree b o)
  let keys := o.id_dict.map Prod.fst
  if zero_idx.length = 1 then (zero_idx.head?.bind (fun i => keys[i]?)).map .vertex
  else if zero_idx.length > 1 then some (.vertices (zero_idx.filterMap (fun i => keys[i]?)))
  else none

/-- The identifiers in a warning. -/
def Warning.names : Option (Warning ι) → List ι
  | none => []
  | some (.vertex x) => [x]
  | some (.vertices l) => l

section

variable [LinearOrder ι] [LinearOrder γ] [Dtype V] [LawfulDtype V]

omit [LawfulDtype V] [LinearOrder ι] [LinearOrder γ] in
theorem warn_names (b : Backend) (o : Obj ι γ V) (hk : o.num_vertices ≤ o.id_dict.length) :
    Warning.names (isolatedWarning b o) =
      (zeroIdx o.num_vertices (warnDegree b o)).filterMap
        (fun i => (o.id_dict.map Prod.fst)[i]?) := by
  unfold isolatedWarning
  simp only
  have hlt : ∀ i ∈ zeroIdx o.num_vertices (warnDegree b o), i < (o.id_dict.map Prod.fst).length := by
    intro i hi
    have := List.mem_range.1 (List.mem_filter.1 hi).1
    rw [List.length_map]; omega
  generalize zeroIdx o.num_vertices (warnDegree b o) = z at hlt
  match z with
  | [] => rfl
  | [i] =>
    have := hlt i (by simp)
    rw [List.length_map] at this
    simp [List.getElem?_eq_getElem this, Warning.names]
  | i :: j :: z =>
    rw [if_neg (by simp), if_pos (by simp)]
    rfl

omit [LinearOrder γ] in
theorem count_eq_zero (v : List (ι × γ)) (R : ι → Prop) :
    count v R = 0 ↔ ∀ y ∈ v.map Prod.fst, ¬ R y := by
  classical
  unfold count
  rw [Nat.cast_eq_zero, Finset.card_eq_zero, Finset.filter_eq_empty_iff]
  simp only [List.mem_toFinset]

/-- **C72**: the constructors name, in sorted order and once, the vertices that no row of the edge
table touches.  There is no warning iff there is no such vertex, and the warning in the singular
iff there is exactly one. -/
theorem C72 {v : List (ι × γ)} {e : List (Row ι V)} {o : Obj ι γ V} (h : Built v e o)
    (b : Backend) :
    (∀ x, x ∈ Warning.names (isolatedWarning b o) ↔
      x ∈ v.map Prod.fst ∧ ∀ r ∈ e, r.src ≠ x ∧ r.dst ≠ x) ∧
    (Warning.names (isolatedWarning b o)).Pairwise (· < ·) ∧
    (isolatedWarning b o = none ↔ ∀ x ∈ v.map Prod.fst, ∃ r ∈ e, r.src = x ∨ r.dst = x) ∧
    ((∃ x, isolatedWarning b o = some (.vertex x)) ↔
      ∃! x, x ∈ v.map Prod.fst ∧ ∀ r ∈ e, r.src ≠ x ∧ r.dst ≠ x) := by
  obtain ⟨h1, h2, h3, e1, e2, e3, e4, ha⟩ := built_ok h
  have hlen : (npUnique (v.map Prod.fst)).length = v.length := by
    rw [(npUnique_perm h1).length_eq, List.length_map]
  have hkeys : o.id_dict.map Prod.fst = npUnique (v.map Prod.fst) := by rw [e2]; simp
  have hnames := warn_names b o (by rw [e1, e2, List.length_zipIdx, hlen])
  have hdeg : ∀ x i, o.id_dict.lookup x = some i →
      (warnDegree b o i = 0 ↔ ∀ r ∈ e, r.src ≠ x ∧ r.dst ≠ x) := by
    intro x i hx
    have hd : warnDegree b o i =
        count v (fun y => ∃ r ∈ e, (r.src = x ∧ r.dst = y) ∨ (r.src = y ∧ r.dst = x)) := by
      cases b
      · exact ((C70_degree h hx).2.2 _ (Or.inl rfl)).2
      · exact ((C70_degree h hx).2.2 _ (Or.inr rfl)).2
    rw [hd, count_eq_zero]
    constructor
    · intro hc r hr
      refine ⟨fun hs => ?_, fun hs => ?_⟩
      · exact hc r.dst (h2 r hr).2 ⟨r, hr, Or.inl ⟨hs, rfl⟩⟩
      · exact hc r.src (h2 r hr).1 ⟨r, hr, Or.inr ⟨rfl, hs⟩⟩
    · rintro hc y hy ⟨r, hr, hs | hs⟩
      · exact (hc r hr).1 hs.1
      · exact (hc r hr).2 hs.2
  have hmem : ∀ x, x ∈ Warning.names (isolatedWarning b o) ↔
      x ∈ v.map Prod.fst ∧ ∀ r ∈ e, r.src ≠ x ∧ r.dst ≠ x := by
    intro x
    rw [hnames, hkeys, List.mem_filterMap]
    constructor
    · rintro ⟨i, hi, hx⟩
      have hid : o.id_dict.lookup x = some i := by rw [e2]; exact (lookup_dict _ _ _).2 hx
      refine ⟨(mem_npUnique _ _).1 (List.mem_of_getElem? hx), (hdeg x i hid).1 ?_⟩
      simpa using (List.mem_filter.1 hi).2
    · rintro ⟨hx, hr⟩
      have hi := idOf_some (v := v) hx
      have hid : o.id_dict.lookup x = some ((idOf v x).getD 0) := by rw [e2]; exact hi
      refine ⟨_, List.mem_filter.2 ⟨List.mem_range.2 ?_, ?_⟩, (lookup_dict _ _ _).1 hi⟩
      · rw [e1]; exact idOf_lt h1 hi
      · simpa using (hdeg x _ hid).2 hr
  have hsorted : (Warning.names (isolatedWarning b o)).Pairwise (· < ·) := by
    rw [hnames, hkeys]
    have hz : (zeroIdx o.num_vertices (warnDegree b o)).Pairwise (· < ·) :=
      List.Pairwise.filter _ List.pairwise_lt_range
    refine hz.filterMap _ ?_
    intro i j hij x hx y hy
    have hx' : (npUnique (v.map Prod.fst))[i]? = some x := hx
    have hy' : (npUnique (v.map Prod.fst))[j]? = some y := hy
    obtain ⟨hi1, hi2⟩ := List.getElem?_eq_some_iff.1 hx'
    obtain ⟨hj1, hj2⟩ := List.getElem?_eq_some_iff.1 hy'
    rw [← hi2, ← hj2]
    exact List.pairwise_iff_getElem.1 (npUnique_sorted (v.map Prod.fst)) i j hi1 hj1 hij
  have hnone : isolatedWarning b o = none ↔ Warning.names (isolatedWarning b o) = [] := by
    constructor
    · intro hn; rw [hn]; rfl
    · intro hn
      cases hw : isolatedWarning b o with
      | none => rfl
      | some w =>
        cases w with
        | vertex x => rw [hw] at hn; cases hn
        | vertices l =>
          exfalso
          rw [hw] at hn
          have hl : l = [] := hn
          subst hl
          unfold isolatedWarning at hw
          simp only at hw
          split at hw
          · rw [Option.map_eq_some_iff] at hw
            obtain ⟨_, _, hc⟩ := hw
            cases hc
          · split at hw
            · rename_i hgt
              have hw' := Warning.vertices.inj (Option.some.inj hw)
              obtain ⟨i, hi⟩ := List.exists_mem_of_length_pos (l := zeroIdx o.num_vertices
                (warnDegree b o)) (by omega)
              have hlt : i < (o.id_dict.map Prod.fst).length := by
                rw [hkeys, hlen, ← e1]
                exact List.mem_range.1 (List.mem_filter.1 hi).1
              have : (o.id_dict.map Prod.fst)[i] ∈ (zeroIdx o.num_vertices (warnDegree b o)).filterMap
                  (fun i => (o.id_dict.map Prod.fst)[i]?) :=
                List.mem_filterMap.2 ⟨i, hi, List.getElem?_eq_getElem hlt⟩
              rw [hw'] at this
              cases this
            · cases hw
  have hone : (∃ x, isolatedWarning b o = some (.vertex x)) ↔
      ∃ x, Warning.names (isolatedWarning b o) = [x] := by
    constructor
    · rintro ⟨x, hx⟩; exact ⟨x, by rw [hx]; rfl⟩
    · rintro ⟨x, hx⟩
      refine ⟨x, ?_⟩
      have hl : (zeroIdx o.num_vertices (warnDegree b o)).length = 1 := by
        have hall : ((zeroIdx o.num_vertices (warnDegree b o)).filterMap
            (fun i => (o.id_dict.map Prod.fst)[i]?)).length =
            (zeroIdx o.num_vertices (warnDegree b o)).length := by
          rw [List.length_filterMap_eq_countP, List.countP_eq_length]
          intro i hi
          have hlt : i < (o.id_dict.map Prod.fst).length := by
            rw [hkeys, hlen, ← e1]
            exact List.mem_range.1 (List.mem_filter.1 hi).1
          rw [List.getElem?_eq_getElem hlt]; rfl
        rw [← hall, ← hnames, hx]; rfl
      cases hw : isolatedWarning b o with
      | none => rw [hw] at hx; cases hx
      | some w =>
        cases w with
        | vertex y =>
          rw [hw] at hx
          have : y = x := (List.cons.inj hx).1
          rw [this]
        | vertices l =>
          exfalso
          unfold isolatedWarning at hw
          simp only at hw
          rw [if_pos hl, Option.map_eq_some_iff] at hw
          obtain ⟨_, _, hc⟩ := hw
          cases hc
  refine ⟨hmem, hsorted, ?_, ?_⟩
  · rw [hnone, List.eq_nil_iff_forall_not_mem]
    constructor
    · intro hc x hx
      by_contra hcon
      push Not at hcon
      exact hc x ((hmem x).2 ⟨hx, hcon⟩)
    · intro hc x hx
      obtain ⟨hx1, hx2⟩ := (hmem x).1 hx
      obtain ⟨r, hr, hs | hs⟩ := hc x hx1
      · exact (hx2 r hr).1 hs
      · exact (hx2 r hr).2 hs
  · rw [hone]
    constructor
    · rintro ⟨x, hx⟩
      refine ⟨x, (hmem x).1 (by rw [hx]; simp), fun y hy => ?_⟩
      have := (hmem y).2 hy
      rw [hx] at this
      exact List.mem_singleton.1 this
    · rintro ⟨x, hx, huniq⟩
      refine ⟨x, ?_⟩
      have hx' := (hmem x).2 hx
      have hnd : (Warning.names (isolatedWarning b o)).Nodup := hsorted.imp (fun h => ne_of_lt h)
      have hall : ∀ y ∈ Warning.names (isolatedWarning b o), y = x :=
        fun y hy => huniq y ((hmem y).1 hy)
      generalize Warning.names (isolatedWarning b o) = l at hx' hnd hall
      match l with
      | [] => cases hx'
      | [y] => rw [hall y (by simp)]
      | y :: z :: l =>
        exfalso
        rw [hall y (by simp), hall z (by simp)] at hnd
        simp at hnd

end

/-- A multigraph warns about the vertices without a row of any label: its constructor first builds
the graph of all rows. -/
theorem C72_multi {ι γ κ V : Type} [LinearOrder ι] [LinearOrder γ] [LinearOrder κ] [Dtype V]
    [LawfulDtype V] {v : List (ι × γ)} {e : List (κ × Row ι V)} {o : MultiObj ι γ κ V}
    (h : BuiltMulti v e o) (b : Backend) : ∃ o' : Obj ι γ V, Built v (e.map Prod.snd) o' ∧
    ∀ x, x ∈ Warning.names (isolatedWarning b o') ↔
      x ∈ v.map Prod.fst ∧ ∀ r ∈ e, r.2.src ≠ x ∧ r.2.dst ≠ x := by
  have key : ∃ o' : Obj ι γ V, Built v (e.map Prod.snd) o' := by
    rcases h with h | h
    · obtain ⟨h1, h2, h3, _⟩ := mkMulti_ok h
      obtain ⟨o', ho'⟩ := dense_accepts h1 h2 h3
      exact ⟨o', Or.inl ho'⟩
    · obtain ⟨h1, h2, h3, _⟩ := mkMulti_ok h
      obtain ⟨o', ho'⟩ := sparse_accepts h1 h2 h3
      exact ⟨o', Or.inr ho'⟩
  obtain ⟨o', ho'⟩ := key
  refine ⟨o', ho', fun x => ?_⟩
  rw [(C72 ho' b).1 x]
  simp only [List.mem_map, forall_exists_index, and_imp, forall_apply_eq_imp_iff₂]

/-- Vertex 3 has no row: the warning names it. -/
example : ∃ o : Obj ℕ ℕ ℝ, Dense.mk exV [⟨5, 9, 1⟩] = .ok o ∧
    isolatedWarning .dense o = some (.vertex 3) := by
  obtain ⟨o, ho⟩ := dense_accepts (v := exV) (e := [(⟨5, 9, 1⟩ : Row ℕ ℝ)]) exV_nodup
    (by simp [exV]) (by simp [Dtype.pos])
  refine ⟨o, ho, ?_⟩
  obtain ⟨h1, _, _, h4⟩ := C72 (Or.inl ho) .dense
  obtain ⟨x, hx⟩ := h4.2 ⟨3, by simp [exV], by simp [exV]⟩
  have : 3 ∈ Warning.names (isolatedWarning .dense o) := (h1 3).2 (by simp [exV])
  rw [hx] at this ⊢
  have : 3 = x := List.mem_singleton.1 this
  rw [this]

/-- No vertex without a row: no warning. -/
example : ∃ o : Obj ℕ ℕ ℝ, Sparse.mk exV exE = .ok o ∧ isolatedWarning .sparse o = none := by
  obtain ⟨o, ho⟩ := sparse_accepts exV_nodup exE_known exE_pos
  exact ⟨o, ho, (C72 (Or.inr ho) .sparse).2.2.1.2 (by simp [exV, exE])⟩

end Graph

end

end Verif
