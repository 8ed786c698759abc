import Verif.Graph.BuildLemmas
import Mathlib.Tactic.NormNum
import Mathlib.Data.Int.Cast.Lemmas
import Mathlib.Tactic.Positivity

/-!
# Properties of graph objects: C20 to C25

`v` is the vertex table (identifier, group), `e` the edge table.  An object `o` is built by
`Dense.mk v e` or `Sparse.mk v e`; `o.id_dict.lookup x` is the internal id of vertex `x`.
-/

namespace Verif

open Finset

noncomputable section

namespace Graph

section Mk

variable {ι γ V : Type} [LinearOrder ι] [LinearOrder γ] [Dtype V]

/-- The object was built from these tables, in one of the two backends. -/
def Built (v : List (ι × γ)) (e : List (Row ι V)) (o : Obj ι γ V) : Prop :=
  Dense.mk v e = .ok o ∨ Sparse.mk v e = .ok o

theorem map_ok {α β : Type} {x : Except Err α} {f : α → β} {y : β} (h : x.map f = .ok y) :
    ∃ a, x = .ok a ∧ y = f a := by
  cases x with
  | error _ => cases h
  | ok a => exact ⟨a, rfl, by cases h; rfl⟩

theorem sparse_ok {v : List (ι × γ)} {e : List (Row ι V)} {o : Obj ι γ V}
    (h : Sparse.mk v e = .ok o) :
    ∃ b, base v e = .ok b ∧
      o = ⟨b.num_vertices, b.id_dict, b.group_dict, b.groups, coo b.edges⟩ := map_ok h

theorem dense_ok {v : List (ι × γ)} {e : List (Row ι V)} {o : Obj ι γ V}
    (h : Dense.mk v e = .ok o) :
    ∃ b, base v e = .ok b ∧
      o = ⟨b.num_vertices, b.id_dict, b.group_dict, b.groups, assign b.edges⟩ := map_ok h

theorem built_ok {v : List (ι × γ)} {e : List (Row ι V)} {o : Obj ι γ V} (h : Built v e o) :
    (v.map Prod.fst).Nodup ∧ (∀ r ∈ e, r.src ∈ v.map Prod.fst ∧ r.dst ∈ v.map Prod.fst) ∧
    (∀ r ∈ e, Dtype.pos r.val = true) ∧ o.num_vertices = v.length ∧
    o.id_dict = (npUnique (v.map Prod.fst)).zipIdx ∧
    o.group_dict = (npUnique ((sortedRows v).map Prod.snd)).zipIdx ∧ o.groups = groupsOf v ∧
    (o.adj = assign (edgesOf v e) ∨ o.adj = coo (edgesOf v e)) := by
  rcases h with h | h
  · obtain ⟨b, hb, rfl⟩ := dense_ok h
    obtain ⟨h1, h2, h3, rfl⟩ := base_ok hb
    exact ⟨h1, h2, h3, rfl, rfl, rfl, rfl, Or.inl rfl⟩
  · obtain ⟨b, hb, rfl⟩ := sparse_ok h
    obtain ⟨h1, h2, h3, rfl⟩ := base_ok hb
    exact ⟨h1, h2, h3, rfl, rfl, rfl, rfl, Or.inr rfl⟩

theorem sparse_adj {v : List (ι × γ)} {e : List (Row ι V)} {o : Obj ι γ V}
    (h : Sparse.mk v e = .ok o) : o.adj = coo (edgesOf v e) := by
  obtain ⟨b, hb, rfl⟩ := sparse_ok h
  obtain ⟨_, _, _, rfl⟩ := base_ok hb
  rfl

theorem dense_adj {v : List (ι × γ)} {e : List (Row ι V)} {o : Obj ι γ V}
    (h : Dense.mk v e = .ok o) : o.adj = assign (edgesOf v e) := by
  obtain ⟨b, hb, rfl⟩ := dense_ok h
  obtain ⟨_, _, _, rfl⟩ := base_ok hb
  rfl

omit [LinearOrder γ] in
theorem edges_pos {v : List (ι × γ)} {e : List (Row ι V)} (h3 : ∀ r ∈ e, Dtype.pos r.val = true) :
    ∀ r ∈ edgesOf v e, Dtype.pos r.val = true := by
  intro r hr
  obtain ⟨s, hs, _, _, he⟩ := mem_edgesOf.mp hr
  rw [← he]; exact h3 s hs

omit [LinearOrder γ] in
theorem all_pos_iff {v : List (ι × γ)} {e : List (Row ι V)}
    (h2 : ∀ r ∈ e, r.src ∈ v.map Prod.fst ∧ r.dst ∈ v.map Prod.fst) :
    (edgesOf v e).all (fun r => Dtype.pos r.val) = true ↔ ∀ r ∈ e, Dtype.pos r.val = true := by
  have e1 : (edgesOf v e).all (fun r => Dtype.pos r.val) =
      ((edgesOf v e).map Row.val).all (fun x => Dtype.pos x) := by rw [List.all_map]; rfl
  rw [e1, edges_val v e h2, List.all_map, List.all_eq_true]
  rfl

omit [LinearOrder γ] [Dtype V] in
theorem edges_lt {v : List (ι × γ)} {e : List (Row ι V)} (h1 : (v.map Prod.fst).Nodup) :
    ∀ r ∈ edgesOf v e, r.src < v.length ∧ r.dst < v.length := by
  intro r hr
  obtain ⟨s, _, ha, hb, _⟩ := mem_edgesOf.mp hr
  exact ⟨idOf_lt h1 ha, idOf_lt h1 hb⟩

/-- Valid tables are accepted. -/
theorem base_accepts {v : List (ι × γ)} {e : List (Row ι V)} (h1 : (v.map Prod.fst).Nodup)
    (h2 : ∀ r ∈ e, r.src ∈ v.map Prod.fst ∧ r.dst ∈ v.map Prod.fst)
    (h3 : ∀ r ∈ e, Dtype.pos r.val = true) : ∃ b, base v e = .ok b := by
  rw [base_eq, if_neg (not_not.mpr h1), if_neg (not_not.mpr h2), if_pos ((all_pos_iff h2).mpr h3)]
  exact ⟨_, rfl⟩

theorem sparse_accepts {v : List (ι × γ)} {e : List (Row ι V)} (h1 : (v.map Prod.fst).Nodup)
    (h2 : ∀ r ∈ e, r.src ∈ v.map Prod.fst ∧ r.dst ∈ v.map Prod.fst)
    (h3 : ∀ r ∈ e, Dtype.pos r.val = true) : ∃ o, Sparse.mk v e = .ok o := by
  obtain ⟨b, hb⟩ := base_accepts h1 h2 h3
  unfold Sparse.mk
  rw [hb]
  exact ⟨_, rfl⟩

theorem dense_accepts {v : List (ι × γ)} {e : List (Row ι V)} (h1 : (v.map Prod.fst).Nodup)
    (h2 : ∀ r ∈ e, r.src ∈ v.map Prod.fst ∧ r.dst ∈ v.map Prod.fst)
    (h3 : ∀ r ∈ e, Dtype.pos r.val = true) : ∃ o, Dense.mk v e = .ok o := by
  obtain ⟨b, hb⟩ := base_accepts h1 h2 h3
  unfold Dense.mk
  rw [hb]
  exact ⟨_, rfl⟩

theorem map_error_iff {α β : Type} {x : Except Err α} {f : α → β} {err : Err} :
    x.map f = .error err ↔ x = .error err := by
  cases x with
  | error a =>
    show (Except.error a : Except Err β) = .error err ↔ _
    rw [Except.error.injEq, Except.error.injEq]
  | ok a => constructor <;> (intro h; cases h)

end Mk

/-! ### Example tables -/

/-- Three vertices in two groups. -/
def exV : List (ℕ × ℕ) := [(5, 7), (3, 1), (9, 7)]

/-- A repeated row, both orientations and a self loop. -/
def exE : List (Row ℕ ℝ) := [⟨5, 3, 1⟩, ⟨3, 5, 2⟩, ⟨9, 9, 4⟩, ⟨5, 3, 1 / 2⟩]

theorem exV_nodup : (exV.map Prod.fst).Nodup := by simp [exV]

theorem exE_known : ∀ r ∈ exE, r.src ∈ exV.map Prod.fst ∧ r.dst ∈ exV.map Prod.fst := by
  simp [exE, exV]

theorem exE_pos : ∀ r ∈ exE, Dtype.pos r.val = true := by
  simp [exE, Dtype.pos]

section C20

variable {ι γ κ V : Type} [LinearOrder ι] [LinearOrder γ] [LinearOrder κ] [Dtype V]

/-- **C20**: identifiers are numbered one-to-one, in sorted order, from zero; so are the groups,
and the array `groups` holds at position `id(x)` the number of the group of `x`. -/
theorem C20 {v : List (ι × γ)} {e : List (Row ι V)} {o : Obj ι γ V} (h : Built v e o) :
    Numbering (v.map Prod.fst) o.num_vertices (fun x => o.id_dict.lookup x) ∧
    Numbering (v.map Prod.snd) o.group_dict.length (fun g => o.group_dict.lookup g) ∧
    o.groups.length = o.num_vertices ∧
    (∀ x g, (x, g) ∈ v → ∃ i k, o.id_dict.lookup x = some i ∧ o.group_dict.lookup g = some k ∧
      o.groups[i]? = some k) := by
  obtain ⟨h1, h2, h3, e1, e2, e3, e4, _⟩ := built_ok h
  rw [e1, e2, e3, e4]
  refine ⟨?_, ?_, ?_, ?_⟩
  · have := numbering_dict (v.map Prod.fst)
    rwa [(npUnique_perm h1).length_eq, List.length_map] at this
  · have := numbering_dict (v.map Prod.snd)
    have hc : npUnique ((sortedRows v).map Prod.snd) = npUnique (v.map Prod.snd) :=
      npUnique_congr (fun x => ((sortedRows_perm v).map Prod.snd).mem_iff)
    rw [hc, List.length_zipIdx]
    exact this
  · unfold groupsOf
    rw [List.length_map, (sortedRows_perm v).length_eq]
  · intro x g hxg
    have hx := idOf_some (v := v) (x := x) (List.mem_map.mpr ⟨(x, g), hxg, rfl⟩)
    have hg := groupsOf_get h1 hxg hx
    have hm : g ∈ (sortedRows v).map Prod.snd :=
      List.mem_map.mpr ⟨(x, g), (sortedRows_perm v).mem_iff.mpr hxg, rfl⟩
    obtain ⟨k, hk⟩ := Option.isSome_iff_exists.mp ((lookup_isSome _ _).mpr hm)
    exact ⟨_, k, hx, hk, by rw [hg]; exact hk⟩

/-- **C20**, rejected tables, for the common constructor. -/
theorem C20_base_errors (v : List (ι × γ)) (e : List (Row ι V)) :
    (base v e = .error .repeatedId ↔ ¬ (v.map Prod.fst).Nodup) ∧
    (base v e = .error .unknownVertex ↔ (v.map Prod.fst).Nodup ∧
      ∃ r ∈ e, r.src ∉ v.map Prod.fst ∨ r.dst ∉ v.map Prod.fst) ∧
    (base v e = .error .badWeight ↔ (v.map Prod.fst).Nodup ∧
      (∀ r ∈ e, r.src ∈ v.map Prod.fst ∧ r.dst ∈ v.map Prod.fst) ∧
      ∃ r ∈ e, Dtype.pos r.val = false) := by
  rw [base_eq]
  by_cases c1 : (v.map Prod.fst).Nodup
  · rw [if_neg (not_not.mpr c1)]
    by_cases c2 : ∀ r ∈ e, r.src ∈ v.map Prod.fst ∧ r.dst ∈ v.map Prod.fst
    · rw [if_neg (not_not.mpr c2)]
      have n2 : ¬ ∃ r ∈ e, r.src ∉ v.map Prod.fst ∨ r.dst ∉ v.map Prod.fst := by
        rintro ⟨r, hr, h | h⟩
        · exact h (c2 r hr).1
        · exact h (c2 r hr).2
      by_cases c3 : (edgesOf v e).all (fun r => Dtype.pos r.val) = true
      · rw [if_pos c3]
        rw [all_pos_iff c2] at c3
        have n3 : ¬ ∃ r ∈ e, Dtype.pos r.val = false := by
          rintro ⟨r, hr, h⟩
          rw [c3 r hr] at h; cases h
        refine ⟨?_, ?_, ?_⟩
        · constructor
          · intro h; cases h
          · intro h; exact absurd c1 h
        · constructor
          · intro h; cases h
          · intro h; exact absurd h.2 n2
        · constructor
          · intro h; cases h
          · intro h; exact absurd h.2.2 n3
      · rw [if_neg c3]
        rw [all_pos_iff c2] at c3
        have n3 : ∃ r ∈ e, Dtype.pos r.val = false := by
          push Not at c3
          obtain ⟨r, hr, h⟩ := c3
          exact ⟨r, hr, by simpa using h⟩
        refine ⟨?_, ?_, ?_⟩
        · constructor
          · intro h; cases h
          · intro h; exact absurd c1 h
        · constructor
          · intro h; cases h
          · intro h; exact absurd h.2 n2
        · exact ⟨fun _ => ⟨c1, c2, n3⟩, fun _ => rfl⟩
    · rw [if_pos c2]
      have n2 : ∃ r ∈ e, r.src ∉ v.map Prod.fst ∨ r.dst ∉ v.map Prod.fst := by
        by_contra hcon
        apply c2
        intro r hr
        by_contra h'
        exact hcon ⟨r, hr, by tauto⟩
      refine ⟨?_, ?_, ?_⟩
      · constructor
        · intro h; cases h
        · intro h; exact absurd c1 h
      · exact ⟨fun _ => ⟨c1, n2⟩, fun _ => rfl⟩
      · constructor
        · intro h; cases h
        · intro h; exact absurd h.2.1 c2
  · rw [if_pos c1]
    refine ⟨⟨fun _ => c1, fun _ => rfl⟩, ?_, ?_⟩
    · constructor
      · intro h; cases h
      · intro h; exact absurd h.1 c1
    · constructor
      · intro h; cases h
      · intro h; exact absurd h.1 c1

/-- **C20**, rejected tables: a repeated identifier, then an unknown endpoint, then a weight that
is not positive; everything else is accepted. -/
theorem C20_errors (v : List (ι × γ)) (e : List (Row ι V)) (mk : List (ι × γ) → List (Row ι V) →
      Except Err (Obj ι γ V)) (hmk : mk = Dense.mk ∨ mk = Sparse.mk) :
    (mk v e = .error .repeatedId ↔ ¬ (v.map Prod.fst).Nodup) ∧
    (mk v e = .error .unknownVertex ↔ (v.map Prod.fst).Nodup ∧
      ∃ r ∈ e, r.src ∉ v.map Prod.fst ∨ r.dst ∉ v.map Prod.fst) ∧
    (mk v e = .error .badWeight ↔ (v.map Prod.fst).Nodup ∧
      (∀ r ∈ e, r.src ∈ v.map Prod.fst ∧ r.dst ∈ v.map Prod.fst) ∧
      ∃ r ∈ e, Dtype.pos r.val = false) ∧
    ((∃ o, mk v e = .ok o) ↔ (v.map Prod.fst).Nodup ∧
      (∀ r ∈ e, r.src ∈ v.map Prod.fst ∧ r.dst ∈ v.map Prod.fst) ∧
      ∀ r ∈ e, Dtype.pos r.val = true) := by
  obtain ⟨b1, b2, b3⟩ := C20_base_errors v e
  rcases hmk with rfl | rfl
  · refine ⟨?_, ?_, ?_, ?_⟩
    · rw [← b1]; exact map_error_iff
    · rw [← b2]; exact map_error_iff
    · rw [← b3]; exact map_error_iff
    · constructor
      · rintro ⟨o, ho⟩
        obtain ⟨h1, h2, h3, _⟩ := built_ok (Or.inl ho)
        exact ⟨h1, h2, h3⟩
      · rintro ⟨h1, h2, h3⟩
        exact dense_accepts h1 h2 h3
  · refine ⟨?_, ?_, ?_, ?_⟩
    · rw [← b1]; exact map_error_iff
    · rw [← b2]; exact map_error_iff
    · rw [← b3]; exact map_error_iff
    · constructor
      · rintro ⟨o, ho⟩
        obtain ⟨h1, h2, h3, _⟩ := built_ok (Or.inr ho)
        exact ⟨h1, h2, h3⟩
      · rintro ⟨h1, h2, h3⟩
        exact sparse_accepts h1 h2 h3

/-- **C20**, labels of multigraphs, in both backends. -/
theorem C20_labels {tensor : List (ℕ × Row ℕ V) → ℕ → Mat V} {v : List (ι × γ)}
    {e : List (κ × Row ι V)} {o : MultiObj ι γ κ V} (h : mkMulti tensor v e = .ok o) :
    Numbering (v.map Prod.fst) o.num_vertices (fun x => o.id_dict.lookup x) ∧
    Numbering (e.map Prod.fst) o.num_labels (fun l => o.label_dict.lookup l) := by
  unfold mkMulti at h
  cases hb : base v (e.map Prod.snd) with
  | error err => rw [hb] at h; cases h
  | ok b =>
    rw [hb] at h
    simp only [generate_id_dict, Bool.false_and, Bool.false_eq_true, if_false,
      Except.ok.injEq] at h
    obtain ⟨h1, h2, h3, rfl⟩ := base_ok hb
    subst h
    refine ⟨?_, ?_⟩
    · have := numbering_dict (v.map Prod.fst)
      rwa [(npUnique_perm h1).length_eq, List.length_map] at this
    · have := numbering_dict (e.map Prod.fst)
      simp only [List.length_zipIdx]
      exact this

theorem C20_labels_errors {tensor : List (ℕ × Row ℕ V) → ℕ → Mat V} (v : List (ι × γ))
    (e : List (κ × Row ι V)) (err : Err) :
    mkMulti tensor v e = .error err ↔ base v (e.map Prod.snd) = .error err := by
  unfold mkMulti
  cases hb : base v (e.map Prod.snd) with
  | error err' => simp only [Except.error.injEq]
  | ok b =>
    simp only [generate_id_dict, Bool.false_and, Bool.false_eq_true, if_false]
    constructor <;> (intro h; cases h)

end C20

example : (∃ o, Built exV exE o) ∧
    (Sparse.mk ((5, 0) :: exV) exE = .error .repeatedId) ∧
    (Sparse.mk exV (⟨5, 4, 1⟩ :: exE) = .error .unknownVertex) ∧
    (Dense.mk exV (⟨5, 3, 0⟩ :: exE) = .error .badWeight) := by
  refine ⟨?_, ?_, ?_, ?_⟩
  · obtain ⟨o, ho⟩ := sparse_accepts exV_nodup exE_known exE_pos
    exact ⟨o, Or.inr ho⟩
  · rw [(C20_errors _ _ _ (Or.inr rfl)).1]; simp [exV]
  · rw [(C20_errors _ _ _ (Or.inr rfl)).2.1]; exact ⟨exV_nodup, _, List.mem_cons_self, by simp [exV]⟩
  · rw [(C20_errors _ _ _ (Or.inl rfl)).2.2.1]
    refine ⟨exV_nodup, ?_, ⟨5, 3, 0⟩, by simp, by simp [Dtype.pos]⟩
    intro r hr
    rcases List.mem_cons.mp hr with rfl | hr
    · simp [exV]
    · exact exE_known r hr

/-! ### C21 -/

section C21

variable {ι γ V : Type} [LinearOrder ι] [LinearOrder γ] [Dtype V] [LawfulDtype V]

/-- **C21**: a pair is connected iff some row joins it, in both backends, with and without
weights; for undirected graphs the orientation does not matter. -/
theorem C21_connected {v : List (ι × γ)} {e : List (Row ι V)} {o : Obj ι γ V} (h : Built v e o)
    {x y : ι} {i j : ℕ} (hx : o.id_dict.lookup x = some i) (hy : o.id_dict.lookup y = some j) :
    (ne0 o.adj i j = true ↔ ∃ r ∈ e, r.src = x ∧ r.dst = y) ∧
    (Sparse.symB o.adj i j = true ↔
      ∃ r ∈ e, (r.src = x ∧ r.dst = y) ∨ (r.src = y ∧ r.dst = x)) ∧
    (Dense.symB o.adj i j = true ↔
      ∃ r ∈ e, (r.src = x ∧ r.dst = y) ∨ (r.src = y ∧ r.dst = x)) := by
  obtain ⟨h1, h2, h3, e1, e2, e3, e4, ha⟩ := built_ok h
  rw [e2] at hx hy
  have key : ∀ {x y : ι} {i j : ℕ}, idOf v x = some i → idOf v y = some j →
      (ne0 o.adj i j = true ↔ ∃ r ∈ e, r.src = x ∧ r.dst = y) := by
    intro x y i j hx hy
    have hnz : ne0 o.adj i j = true ↔ ∃ r ∈ edgesOf v e, i = r.src ∧ j = r.dst := by
      rcases ha with ha | ha
      · rw [ha]; exact assign_nz _ (edges_pos h3) i j
      · rw [ha]; exact coo_nz _ (edges_pos h3) i j
    rw [hnz]
    constructor
    · rintro ⟨r', hr', rfl, rfl⟩
      obtain ⟨r, hr, ha, hb, _⟩ := mem_edgesOf.mp hr'
      exact ⟨r, hr, (idOf_numbering v).inj ha hx, (idOf_numbering v).inj hb hy⟩
    · rintro ⟨r, hr, rfl, rfl⟩
      exact ⟨⟨i, j, r.val⟩, mem_edgesOf.mpr ⟨r, hr, hx, hy, rfl⟩, rfl, rfl⟩
  have hsym : orT (ne0 o.adj) i j = true ↔
      ∃ r ∈ e, (r.src = x ∧ r.dst = y) ∨ (r.src = y ∧ r.dst = x) := by
    unfold orT
    rw [Bool.or_eq_true, key hx hy, key hy hx]
    constructor
    · rintro (⟨r, hr, h⟩ | ⟨r, hr, h⟩)
      · exact ⟨r, hr, Or.inl h⟩
      · exact ⟨r, hr, Or.inr h⟩
    · rintro ⟨r, hr, h | h⟩
      · exact Or.inl ⟨r, hr, h⟩
      · exact Or.inr ⟨r, hr, h⟩
  exact ⟨key hx hy, hsym, hsym⟩

omit [LinearOrder γ] in
theorem coo_weight {v : List (ι × γ)} {e : List (Row ι ℝ)}
    (h2 : ∀ r ∈ e, r.src ∈ v.map Prod.fst ∧ r.dst ∈ v.map Prod.fst) {x y : ι} {i j : ℕ}
    (hx : idOf v x = some i) (hy : idOf v y = some j) :
    coo (edgesOf v e) i j = ((e.filter (fun r => r.src = x ∧ r.dst = y)).map Row.val).sum := by
  rw [coo_real, edges_filter e hx hy h2]

theorem sum_either {α : Type} (l : List α) (f : α → ℝ) (p q : α → Prop) [DecidablePred p]
    [DecidablePred q] (hd : ∀ a, p a → ¬ q a) :
    ((l.filter (fun a => p a ∨ q a)).map f).sum =
      ((l.filter (fun a => p a)).map f).sum + ((l.filter (fun a => q a)).map f).sum := by
  induction l with
  | nil => simp
  | cons a l ih =>
    simp only [List.filter_cons]
    by_cases hp : p a
    · have hq := hd a hp
      simp only [hp, hq, true_or, decide_true, if_true, decide_false, Bool.false_eq_true, if_false,
        List.map_cons, List.sum_cons]
      rw [ih]; ring
    · by_cases hq : q a
      · simp only [hp, hq, or_true, decide_true, if_true, decide_false, Bool.false_eq_true, if_false,
          List.map_cons, List.sum_cons]
        rw [ih]; ring
      · simp only [hp, hq, or_self, decide_false, Bool.false_eq_true, if_false]
        exact ih

omit [LinearOrder γ] in
/-- What a weighted symmetrisation does: add both orientations, keep the diagonal. -/
theorem symW_weight {v : List (ι × γ)} {e : List (Row ι ℝ)}
    (h2 : ∀ r ∈ e, r.src ∈ v.map Prod.fst ∧ r.dst ∈ v.map Prod.fst) {x y : ι} {i j : ℕ}
    (hx : idOf v x = some i) (hy : idOf v y = some j) :
    Sparse.symW (coo (edgesOf v e)) i j =
      ((e.filter (fun r => (r.src = x ∧ r.dst = y) ∨ (r.src = y ∧ r.dst = x))).map Row.val).sum := by
  unfold Sparse.symW
  rw [coo_weight h2 hx hy, coo_weight h2 hy hx]
  by_cases hxy : x = y
  · subst hxy
    have hij : i = j := Option.some.inj (hx.symm.trans hy)
    subst hij
    rw [if_pos rfl, coo_weight h2 hx hx]
    simp only [or_self]
    ring
  · have hij : i ≠ j := fun hij => hxy ((idOf_numbering v).inj hx (hij ▸ hy))
    rw [if_neg hij, sub_zero, ← sum_either]
    rintro r ⟨ha, hb⟩ ⟨hc, hd⟩
    exact hxy (ha.symm.trans hc)

/-- **C21**, weights in sparse graphs: the sum over all rows joining the pair. -/
theorem C21_sparse {v : List (ι × γ)} {e : List (Row ι ℝ)} {o : Obj ι γ ℝ}
    (h : Sparse.mk v e = .ok o) {x y : ι} {i j : ℕ} (hx : o.id_dict.lookup x = some i)
    (hy : o.id_dict.lookup y = some j) :
    o.adj i j = ((e.filter (fun r => r.src = x ∧ r.dst = y)).map Row.val).sum ∧
    Sparse.symW o.adj i j =
      ((e.filter (fun r => (r.src = x ∧ r.dst = y) ∨ (r.src = y ∧ r.dst = x))).map Row.val).sum := by
  obtain ⟨h1, h2, h3, e1, e2, _⟩ := built_ok (Or.inr h)
  rw [e2] at hx hy
  rw [sparse_adj h]
  exact ⟨coo_weight h2 hx hy, symW_weight h2 hx hy⟩

theorem dense_symW {n : ℕ} (A : Mat ℝ) {i j : ℕ} (hi : i < n) (hj : j < n) :
    Dense.symW n A i j = Sparse.symW A i j := by
  unfold Dense.symW Sparse.symW
  rw [setDiag_eq n _ _ hi hj]
  by_cases hij : i = j
  · subst hij; simp
  · simp [hij, addT, Dtype.add]

/-- **C21**, weights in dense graphs.  Missing: tables in which an ordered pair occurs more than
once, for which the claim is false (`C21_dense_violated`). -/
theorem C21_dense_partial {v : List (ι × γ)} {e : List (Row ι ℝ)} {o : Obj ι γ ℝ}
    (h : Dense.mk v e = .ok o) (hu : (e.map (fun r => (r.src, r.dst))).Nodup)
    {x y : ι} {i j : ℕ} (hx : o.id_dict.lookup x = some i)
    (hy : o.id_dict.lookup y = some j) :
    o.adj i j = ((e.filter (fun r => r.src = x ∧ r.dst = y)).map Row.val).sum ∧
    Dense.symW o.num_vertices o.adj i j =
      ((e.filter (fun r => (r.src = x ∧ r.dst = y) ∨ (r.src = y ∧ r.dst = x))).map Row.val).sum := by
  obtain ⟨h1, h2, h3, e1, e2, _⟩ := built_ok (Or.inl h)
  rw [e2] at hx hy
  rw [dense_adj h, assign_eq_coo _ (edges_nodup hu), e1,
    dense_symW _ (idOf_lt h1 hx) (idOf_lt h1 hy)]
  exact ⟨coo_weight h2 hx hy, symW_weight h2 hx hy⟩

end C21

/-- A repeated row. -/
def dupV : List (ℕ × ℕ) := [(0, 0), (1, 0)]

def dupE : List (Row ℕ ℝ) := [⟨0, 1, 1⟩, ⟨0, 1, 2⟩]

theorem dupV_nodup : (dupV.map Prod.fst).Nodup := by simp [dupV]

theorem dupE_known : ∀ r ∈ dupE, r.src ∈ dupV.map Prod.fst ∧ r.dst ∈ dupV.map Prod.fst := by
  simp [dupE, dupV]

theorem dupE_pos : ∀ r ∈ dupE, Dtype.pos r.val = true := by simp [dupE, Dtype.pos]

theorem dup_edges {i j : ℕ} (hi : idOf dupV 0 = some i) (hj : idOf dupV 1 = some j) (l : List ℝ) :
    edgesOf dupV (l.map (fun w => (⟨0, 1, w⟩ : Row ℕ ℝ))) = l.map (fun w => ⟨i, j, w⟩) := by
  induction l with
  | nil => rfl
  | cons w l ih =>
    unfold edgesOf at *
    have : toInternal (npUnique (dupV.map Prod.fst)).zipIdx (⟨0, 1, w⟩ : Row ℕ ℝ) = some ⟨i, j, w⟩ :=
      toInternal_some.mpr ⟨hi, hj, rfl⟩
    rw [List.map_cons, List.filterMap_cons_some this, ih, List.map_cons]

/-- **C21** is violated by dense graphs: of several rows for one pair only the last is kept. -/
theorem C21_dense_violated : ∃ (v : List (ℕ × ℕ)) (e : List (Row ℕ ℝ)) (o : Obj ℕ ℕ ℝ) (i j : ℕ),
    Dense.mk v e = .ok o ∧ o.id_dict.lookup 0 = some i ∧ o.id_dict.lookup 1 = some j ∧
    o.adj i j = 2 ∧ ((e.filter (fun r => r.src = 0 ∧ r.dst = 1)).map Row.val).sum = 3 := by
  obtain ⟨o, ho⟩ := dense_accepts dupV_nodup dupE_known dupE_pos
  have hi := idOf_some (v := dupV) (x := 0) (by simp [dupV])
  have hj := idOf_some (v := dupV) (x := 1) (by simp [dupV])
  have he := dup_edges hi hj [1, 2]
  refine ⟨dupV, dupE, o, (idOf dupV 0).getD 0, (idOf dupV 1).getD 0, ho, ?_, ?_, ?_, ?_⟩
  · rw [(built_ok (Or.inl ho)).2.2.2.2.1]; exact hi
  · rw [(built_ok (Or.inl ho)).2.2.2.2.1]; exact hj
  · rw [dense_adj ho]
    rw [show dupE = [1, 2].map (fun w => (⟨0, 1, w⟩ : Row ℕ ℝ)) from rfl, he]
    simp [assign]
  · norm_num [dupE]

example : ∃ (o : Obj ℕ ℕ ℝ) (i j : ℕ), Sparse.mk exV exE = .ok o ∧ o.id_dict.lookup 5 = some i ∧
    o.id_dict.lookup 3 = some j ∧
    ((exE.filter (fun r => r.src = 5 ∧ r.dst = 3)).map Row.val).sum = 3 / 2 ∧
    ((exE.filter (fun r => (r.src = 5 ∧ r.dst = 3) ∨ (r.src = 3 ∧ r.dst = 5))).map Row.val).sum =
      7 / 2 := by
  obtain ⟨o, ho⟩ := sparse_accepts exV_nodup exE_known exE_pos
  have hi := idOf_some (v := exV) (x := 5) (by simp [exV])
  have hj := idOf_some (v := exV) (x := 3) (by simp [exV])
  have hd := (built_ok (Or.inr ho)).2.2.2.2.1
  refine ⟨o, _, _, ho, by rw [hd]; exact hi, by rw [hd]; exact hj, ?_, ?_⟩
  · norm_num [exE]
  · norm_num [exE]

/-! ### C22 -/

section C22

variable {ι γ V : Type} [LinearOrder ι] [LinearOrder γ] [Dtype V] [LawfulDtype V]

/-- **C22** for sparse graphs: the object, or the exception, does not depend on the order of the
rows of the two tables. -/
theorem C22_sparse {v v' : List (ι × γ)} {e e' : List (Row ι V)} (hv : v.Perm v')
    (he : e.Perm e') : Sparse.mk v e = Sparse.mk v' e' := by
  unfold Sparse.mk
  rcases base_perm hv he with ⟨err, h, h'⟩ | ⟨b, l', h, hl, h'⟩
  · rw [h, h']
  · rw [h, h']
    simp only [Except.map, Except.ok.injEq]
    rw [coo_perm hl]

/-- **C22** for dense graphs.  Missing: tables in which an ordered pair occurs more than once, for
which the claim is false (`C22_dense_violated`). -/
theorem C22_dense_partial {v v' : List (ι × γ)} {e e' : List (Row ι V)} (hv : v.Perm v')
    (he : e.Perm e') (hu : (e.map (fun r => (r.src, r.dst))).Nodup) :
    Dense.mk v e = Dense.mk v' e' := by
  have hu' : (e'.map (fun r => (r.src, r.dst))).Nodup := (he.map _).nodup_iff.mp hu
  unfold Dense.mk
  rcases base_perm hv he with ⟨err, h, h'⟩ | ⟨b, l', h, hl, h'⟩
  · rw [h, h']
  · have hb := (base_ok h).2.2.2
    have hb' := (base_ok h').2.2.2
    have e1 : b.edges = edgesOf v e := by rw [hb]
    have e2 : l' = edgesOf v' e' := congrArg Base.edges hb'
    rw [h, h']
    simp only [Except.map, Except.ok.injEq]
    rw [assign_eq_coo b.edges (e1 ▸ edges_nodup hu), assign_eq_coo l' (e2 ▸ edges_nodup hu'),
      coo_perm hl]

end C22

/-- **C22** is violated by dense graphs when a pair is repeated with different weights. -/
theorem C22_dense_violated : ∃ (v : List (ℕ × ℕ)) (e e' : List (Row ℕ ℝ)), e.Perm e' ∧
    (∃ o o', Dense.mk v e = .ok o ∧ Dense.mk v e' = .ok o') ∧ Dense.mk v e ≠ Dense.mk v e' := by
  obtain ⟨o, ho⟩ := dense_accepts dupV_nodup dupE_known dupE_pos
  have hp : dupE.Perm [⟨0, 1, 2⟩, ⟨0, 1, 1⟩] := List.Perm.swap _ _ _
  have hknown' : ∀ r ∈ ([⟨0, 1, 2⟩, ⟨0, 1, 1⟩] : List (Row ℕ ℝ)),
      r.src ∈ dupV.map Prod.fst ∧ r.dst ∈ dupV.map Prod.fst := by simp [dupV]
  obtain ⟨o', ho'⟩ := dense_accepts dupV_nodup hknown' (by simp [Dtype.pos])
  refine ⟨dupV, dupE, _, hp, ⟨o, o', ho, ho'⟩, ?_⟩
  intro hcon
  rw [ho, ho'] at hcon
  have hoo : o = o' := by cases hcon; rfl
  have hi := idOf_some (v := dupV) (x := 0) (by simp [dupV])
  have hj := idOf_some (v := dupV) (x := 1) (by simp [dupV])
  have h1 := dense_adj ho
  have h2 := dense_adj ho'
  rw [show dupE = [1, 2].map (fun w => (⟨0, 1, w⟩ : Row ℕ ℝ)) from rfl, dup_edges hi hj] at h1
  rw [show ([⟨0, 1, 2⟩, ⟨0, 1, 1⟩] : List (Row ℕ ℝ)) =
    [2, 1].map (fun w => (⟨0, 1, w⟩ : Row ℕ ℝ)) from rfl, dup_edges hi hj] at h2
  have h3 := congrFun (congrFun (h1.symm.trans ((congrArg Obj.adj hoo).trans h2))
    ((idOf dupV 0).getD 0)) ((idOf dupV 1).getD 0)
  simp [assign] at h3

example : exV.Perm [(3, 1), (9, 7), (5, 7)] ∧ exE.Perm exE.reverse ∧
    (∃ o, Sparse.mk exV exE = .ok o) :=
  ⟨by decide, (List.reverse_perm exE).symm, sparse_accepts exV_nodup exE_known exE_pos⟩

/-! ### C23, C24 -/

section C23

variable {ι γ V : Type} [LinearOrder ι] [LinearOrder γ] [Dtype V] [LawfulDtype V]

omit [LinearOrder γ] [Dtype V] [LawfulDtype V] in
theorem card_sym2 {v : List (ι × γ)} {e : List (Row ι V)}
    (h2 : ∀ r ∈ e, r.src ∈ v.map Prod.fst ∧ r.dst ∈ v.map Prod.fst) :
    ((edgesOf v e).map (fun r => s(r.src, r.dst))).toFinset.card =
      (e.map (fun r => s(r.src, r.dst))).toFinset.card := by
  symm
  refine Finset.card_bij (fun z _ => z.map (fun x => (idOf v x).getD 0)) ?_ ?_ ?_
  · intro z hz
    simp only [List.mem_toFinset, List.mem_map] at hz ⊢
    obtain ⟨r, hr, rfl⟩ := hz
    exact ⟨⟨(idOf v r.src).getD 0, (idOf v r.dst).getD 0, r.val⟩,
      mem_edgesOf.mpr ⟨r, hr, idOf_some (h2 r hr).1, idOf_some (h2 r hr).2, rfl⟩, rfl⟩
  · intro z hz w hw h
    simp only [List.mem_toFinset, List.mem_map] at hz hw
    obtain ⟨r, hr, rfl⟩ := hz
    obtain ⟨t, ht, rfl⟩ := hw
    rw [Sym2.map_mk, Sym2.map_mk, Sym2.eq_iff] at h
    rw [Sym2.eq_iff]
    rcases h with h | h
    · exact Or.inl ⟨getD_inj (h2 r hr).1 (h2 t ht).1 h.1, getD_inj (h2 r hr).2 (h2 t ht).2 h.2⟩
    · exact Or.inr ⟨getD_inj (h2 r hr).1 (h2 t ht).2 h.1, getD_inj (h2 r hr).2 (h2 t ht).1 h.2⟩
  · intro z hz
    simp only [List.mem_toFinset, List.mem_map] at hz
    obtain ⟨r, hr, rfl⟩ := hz
    obtain ⟨t, ht, ha, hb, _⟩ := mem_edgesOf.mp hr
    refine ⟨s(t.src, t.dst), List.mem_toFinset.mpr (List.mem_map.mpr ⟨t, ht, rfl⟩), ?_⟩
    rw [Sym2.map_mk, ha, hb]; rfl

omit [LinearOrder γ] [Dtype V] [LawfulDtype V] in
theorem card_pairs {v : List (ι × γ)} {e : List (Row ι V)}
    (h2 : ∀ r ∈ e, r.src ∈ v.map Prod.fst ∧ r.dst ∈ v.map Prod.fst) :
    ((edgesOf v e).map (fun r => (r.src, r.dst))).toFinset.card =
      (e.map (fun r => (r.src, r.dst))).toFinset.card := by
  symm
  refine Finset.card_bij (fun z _ => ((idOf v z.1).getD 0, (idOf v z.2).getD 0)) ?_ ?_ ?_
  · intro z hz
    simp only [List.mem_toFinset, List.mem_map] at hz ⊢
    obtain ⟨r, hr, rfl⟩ := hz
    exact ⟨⟨(idOf v r.src).getD 0, (idOf v r.dst).getD 0, r.val⟩,
      mem_edgesOf.mpr ⟨r, hr, idOf_some (h2 r hr).1, idOf_some (h2 r hr).2, rfl⟩, rfl⟩
  · intro z hz w hw h
    simp only [List.mem_toFinset, List.mem_map] at hz hw
    obtain ⟨r, hr, rfl⟩ := hz
    obtain ⟨t, ht, rfl⟩ := hw
    rw [Prod.mk.injEq] at h
    rw [Prod.mk.injEq]
    exact ⟨getD_inj (h2 r hr).1 (h2 t ht).1 h.1, getD_inj (h2 r hr).2 (h2 t ht).2 h.2⟩
  · intro z hz
    simp only [List.mem_toFinset, List.mem_map] at hz
    obtain ⟨r, hr, rfl⟩ := hz
    obtain ⟨t, ht, ha, hb, _⟩ := mem_edgesOf.mp hr
    refine ⟨(t.src, t.dst), List.mem_toFinset.mpr (List.mem_map.mpr ⟨t, ht, rfl⟩), ?_⟩
    simp only [ha, hb, Option.getD_some]

omit [LinearOrder γ] [Dtype V] [LawfulDtype V] in
theorem card_loops {v : List (ι × γ)} {e : List (Row ι V)}
    (h2 : ∀ r ∈ e, r.src ∈ v.map Prod.fst ∧ r.dst ∈ v.map Prod.fst) :
    (((edgesOf v e).filter (fun r => r.src = r.dst)).map Row.src).toFinset.card =
      ((e.filter (fun r => r.src = r.dst)).map Row.src).toFinset.card := by
  symm
  refine Finset.card_bij (fun z _ => (idOf v z).getD 0) ?_ ?_ ?_
  · intro z hz
    simp only [List.mem_toFinset, List.mem_map, List.mem_filter, decide_eq_true_eq] at hz ⊢
    obtain ⟨r, ⟨hr, hl⟩, rfl⟩ := hz
    refine ⟨⟨(idOf v r.src).getD 0, (idOf v r.dst).getD 0, r.val⟩,
      ⟨mem_edgesOf.mpr ⟨r, hr, idOf_some (h2 r hr).1, idOf_some (h2 r hr).2, rfl⟩, ?_⟩, rfl⟩
    rw [hl]
  · intro z hz w hw h
    simp only [List.mem_toFinset, List.mem_map, List.mem_filter, decide_eq_true_eq] at hz hw
    obtain ⟨r, ⟨hr, _⟩, rfl⟩ := hz
    obtain ⟨t, ⟨ht, _⟩, rfl⟩ := hw
    exact getD_inj (h2 r hr).1 (h2 t ht).1 h
  · intro z hz
    simp only [List.mem_toFinset, List.mem_map, List.mem_filter, decide_eq_true_eq] at hz
    obtain ⟨r, ⟨hr, hl⟩, rfl⟩ := hz
    obtain ⟨t, ht, ha, hb, _⟩ := mem_edgesOf.mp hr
    have : t.src = t.dst := (idOf_numbering v).inj ha (hl ▸ hb)
    refine ⟨t.src, ?_, by rw [ha]; rfl⟩
    simp only [List.mem_toFinset, List.mem_map, List.mem_filter, decide_eq_true_eq]
    exact ⟨t, ⟨ht, this⟩, rfl⟩

theorem built_nz {v : List (ι × γ)} {e : List (Row ι V)} {o : Obj ι γ V} (h : Built v e o)
    (i j : ℕ) : ne0 o.adj i j = true ↔ ∃ r ∈ edgesOf v e, i = r.src ∧ j = r.dst := by
  obtain ⟨_, _, h3, _, _, _, _, ha⟩ := built_ok h
  rcases ha with ha | ha
  · rw [ha]; exact assign_nz _ (edges_pos h3) i j
  · rw [ha]; exact coo_nz _ (edges_pos h3) i j

theorem built_sym {v : List (ι × γ)} {e : List (Row ι V)} {o : Obj ι γ V} (h : Built v e o)
    (i j : ℕ) : orT (ne0 o.adj) i j = true ↔
      s(i, j) ∈ ((edgesOf v e).map (fun r => s(r.src, r.dst))).toFinset := by
  unfold orT
  rw [Bool.or_eq_true, built_nz h, built_nz h]
  simp only [List.mem_toFinset, List.mem_map, Sym2.eq_iff]
  constructor
  · rintro (⟨r, hr, h1, h2⟩ | ⟨r, hr, h1, h2⟩)
    · exact ⟨r, hr, Or.inl ⟨h1.symm, h2.symm⟩⟩
    · exact ⟨r, hr, Or.inr ⟨h1.symm, h2.symm⟩⟩
  · rintro ⟨r, hr, ⟨h1, h2⟩ | ⟨h1, h2⟩⟩
    · exact Or.inl ⟨r, hr, h1.symm, h2.symm⟩
    · exact Or.inr ⟨r, hr, h1.symm, h2.symm⟩

/-- **C23**, edges: in both backends the undirected adjacency matrix is symmetric and `num_edges`
is the number of unordered pairs, self loops included once, that occur in the edge table. -/
theorem C23_edges {v : List (ι × γ)} {e : List (Row ι V)} {o : Obj ι γ V} (h : Built v e o) :
    (∀ i j, Dense.symB o.adj i j = Dense.symB o.adj j i) ∧
    (∀ i j, Sparse.symB o.adj i j = Sparse.symB o.adj j i) ∧
    halfTotal o.num_vertices (Dense.symB o.adj) =
      ((e.map (fun r => s(r.src, r.dst))).toFinset.card : ℝ) ∧
    halfTotal o.num_vertices (Sparse.symB o.adj) =
      ((e.map (fun r => s(r.src, r.dst))).toFinset.card : ℝ) := by
  obtain ⟨h1, h2, h3, e1, _⟩ := built_ok h
  have hsym : ∀ i j, orT (ne0 o.adj) i j = orT (ne0 o.adj) j i := fun i j => Bool.or_comm _ _
  have hcard : halfTotal o.num_vertices (orT (ne0 o.adj)) =
      ((e.map (fun r => s(r.src, r.dst))).toFinset.card : ℝ) := by
    rw [← card_sym2 h2]
    refine halfTotal_card _ _ _ ?_ (fun i _ j _ => built_sym h i j)
    intro i j hij
    simp only [List.mem_toFinset, List.mem_map, Sym2.eq_iff] at hij
    obtain ⟨r, hr, hr'⟩ := hij
    have := edges_lt h1 r hr
    rw [e1]
    rcases hr' with ⟨ha, hb⟩ | ⟨ha, hb⟩
    · rw [← ha, ← hb]; exact this
    · rw [← ha, ← hb]; exact this.symm
  exact ⟨hsym, hsym, hcard, hcard⟩

theorem symW_total (n : ℕ) (A : Mat ℝ) : halfTotal n (Sparse.symW A) = total n A := by
  unfold halfTotal total diagSum Sparse.symW
  simp only [Dtype.num, if_true, add_sub_cancel_right]
  simp only [Finset.sum_add_distrib, Finset.sum_sub_distrib]
  have e1 : ∑ i ∈ range n, ∑ j ∈ range n, A j i = ∑ i ∈ range n, ∑ j ∈ range n, A i j :=
    Finset.sum_comm
  have e2 : ∑ i ∈ range n, ∑ j ∈ range n, (if i = j then A i i else 0) = ∑ i ∈ range n, A i i := by
    refine Finset.sum_congr rfl (fun i hi => ?_)
    rw [Finset.sum_ite_eq, if_pos hi]
  rw [e1, e2]
  ring

theorem halfTotal_congr {n : ℕ} {A B : Mat ℝ} (h : ∀ i < n, ∀ j < n, A i j = B i j) :
    halfTotal n A = halfTotal n B := by
  unfold halfTotal total diagSum
  rw [Finset.sum_congr rfl (fun i hi => Finset.sum_congr rfl (fun j hj =>
    congrArg Dtype.num (h i (Finset.mem_range.mp hi) j (Finset.mem_range.mp hj)))),
    Finset.sum_congr rfl (fun i hi => congrArg Dtype.num
      (h i (Finset.mem_range.mp hi) i (Finset.mem_range.mp hi)))]

/-- **C23**, weights of sparse graphs: the weighted adjacency matrix is symmetric and
`total_weight` is the sum of the weights in the table. -/
theorem C23_weight_sparse {v : List (ι × γ)} {e : List (Row ι ℝ)} {o : Obj ι γ ℝ}
    (h : Sparse.mk v e = .ok o) :
    (∀ i j, Sparse.symW o.adj i j = Sparse.symW o.adj j i) ∧
    halfTotal o.num_vertices (Sparse.symW o.adj) = (e.map Row.val).sum := by
  obtain ⟨h1, h2, h3, e1, _⟩ := built_ok (Or.inr h)
  refine ⟨fun i j => ?_, ?_⟩
  · unfold Sparse.symW
    by_cases hij : i = j
    · subst hij; rfl
    · rw [if_neg hij, if_neg (Ne.symm hij)]; ring
  · rw [symW_total, sparse_adj h, e1, total_coo _ _ (edges_lt h1), edges_val v e h2]

/-- **C23**, dense graphs are symmetric whatever the table. -/
theorem C23_dense_symmetric (n : ℕ) (A : Mat ℝ) {i j : ℕ} (hi : i < n) (hj : j < n) :
    Dense.symW n A i j = Dense.symW n A j i := by
  rw [dense_symW _ hi hj, dense_symW _ hj hi]
  unfold Sparse.symW
  by_cases hij : i = j
  · subst hij; rfl
  · rw [if_neg hij, if_neg (Ne.symm hij)]; ring

/-- **C23**, total weight of dense graphs.  Missing: tables in which an ordered pair occurs more
than once (`C23_dense_violated`). -/
theorem C23_weight_dense_partial {v : List (ι × γ)} {e : List (Row ι ℝ)} {o : Obj ι γ ℝ}
    (h : Dense.mk v e = .ok o) (hu : (e.map (fun r => (r.src, r.dst))).Nodup) :
    halfTotal o.num_vertices (Dense.symW o.num_vertices o.adj) = (e.map Row.val).sum := by
  obtain ⟨h1, h2, h3, e1, _⟩ := built_ok (Or.inl h)
  rw [halfTotal_congr (fun i hi j hj => dense_symW o.adj hi hj), symW_total, dense_adj h,
    assign_eq_coo _ (edges_nodup hu), e1, total_coo _ _ (edges_lt h1), edges_val v e h2]

omit [LawfulDtype V] in
theorem sum_cols (n : ℕ) (A : Mat V) : ∑ i ∈ range n, colSums n A i = total n A := by
  unfold colSums sum0 total
  exact Finset.sum_comm

/-- **C24**, directed graphs in both backends: out- and in-degrees sum to `num_edges`, which is
the number of ordered pairs in the table; out- and in-strengths sum to `total_weight`. -/
theorem C24_directed {v : List (ι × γ)} {e : List (Row ι V)} {o : Obj ι γ V} (h : Built v e o) :
    ∑ i ∈ range o.num_vertices, rowSums o.num_vertices (ne0 o.adj) i =
      fullTotal o.num_vertices (ne0 o.adj) ∧
    ∑ i ∈ range o.num_vertices, colSums o.num_vertices (ne0 o.adj) i =
      fullTotal o.num_vertices (ne0 o.adj) ∧
    fullTotal o.num_vertices (ne0 o.adj) =
      ((e.map (fun r => (r.src, r.dst))).toFinset.card : ℝ) ∧
    ∑ i ∈ range o.num_vertices, rowSums o.num_vertices o.adj i =
      fullTotal o.num_vertices o.adj ∧
    ∑ i ∈ range o.num_vertices, colSums o.num_vertices o.adj i =
      fullTotal o.num_vertices o.adj := by
  refine ⟨rfl, sum_cols _ _, ?_, rfl, sum_cols _ _⟩
  obtain ⟨h1, h2, h3, e1, _⟩ := built_ok h
  unfold fullTotal
  rw [← card_pairs h2]
  refine total_card _ _ _ ?_ (fun i _ j _ => ?_)
  · intro i j hij
    simp only [List.mem_toFinset, List.mem_map, Prod.mk.injEq] at hij
    obtain ⟨r, hr, rfl, rfl⟩ := hij
    rw [e1]; exact edges_lt h1 r hr
  · rw [built_nz h]
    simp only [List.mem_toFinset, List.mem_map, Prod.mk.injEq]
    constructor
    · rintro ⟨r, hr, ha, hb⟩; exact ⟨r, hr, ha.symm, hb.symm⟩
    · rintro ⟨r, hr, ha, hb⟩; exact ⟨r, hr, ha.symm, hb.symm⟩

/-- **C24**, total weight of directed sparse graphs. -/
theorem C24_weight_sparse {v : List (ι × γ)} {e : List (Row ι ℝ)} {o : Obj ι γ ℝ}
    (h : Sparse.mk v e = .ok o) : fullTotal o.num_vertices o.adj = (e.map Row.val).sum := by
  obtain ⟨h1, h2, h3, e1, _⟩ := built_ok (Or.inr h)
  unfold fullTotal
  rw [sparse_adj h, e1, total_coo _ _ (edges_lt h1), edges_val v e h2]

omit [LawfulDtype V] in
theorem sum_degrees (n : ℕ) (B : Mat V) :
    ∑ i ∈ range n, colSums n B i = 2 * halfTotal n B - diagSum n B ∧
    ∑ i ∈ range n, rowSums n B i = 2 * halfTotal n B - diagSum n B := by
  have e1 : ∑ i ∈ range n, colSums n B i = total n B := sum_cols n B
  have e2 : ∑ i ∈ range n, rowSums n B i = total n B := rfl
  rw [e1, e2]
  unfold halfTotal
  constructor <;> ring

/-- **C24**, undirected graphs in both backends: the degrees sum to twice the number of edges
minus the number of vertices with a self loop. -/
theorem C24_undirected {v : List (ι × γ)} {e : List (Row ι V)} {o : Obj ι γ V} (h : Built v e o)
    {B : Mat Bool} (hB : B = Dense.symB o.adj ∨ B = Sparse.symB o.adj) :
    ∑ i ∈ range o.num_vertices, colSums o.num_vertices B i =
      2 * halfTotal o.num_vertices B -
        (((e.filter (fun r => r.src = r.dst)).map Row.src).toFinset.card : ℝ) := by
  obtain ⟨h1, h2, h3, e1, _⟩ := built_ok h
  have hB' : B = orT (ne0 o.adj) := by rcases hB with h | h <;> exact h
  subst hB'
  rw [(sum_degrees _ _).1, ← card_loops h2]
  congr 1
  refine diagSum_card _ _ _ ?_ ?_
  · intro i hi
    simp only [List.mem_toFinset, List.mem_map, List.mem_filter, decide_eq_true_eq] at hi
    obtain ⟨r, ⟨hr, _⟩, rfl⟩ := hi
    rw [e1]; exact (edges_lt h1 r hr).1
  · intro i _
    unfold orT
    rw [Bool.or_self, built_nz h]
    simp only [List.mem_toFinset, List.mem_map, List.mem_filter, decide_eq_true_eq]
    constructor
    · rintro ⟨r, hr, ha, hb⟩; exact ⟨r, ⟨hr, ha.symm.trans hb⟩, ha.symm⟩
    · rintro ⟨r, ⟨hr, hl⟩, ha⟩; exact ⟨r, hr, ha.symm, ha.symm.trans hl⟩

/-- **C24**, strengths of undirected sparse graphs: they sum to twice the total weight minus the
weight of the self loops. -/
theorem C24_undirected_weight_sparse {v : List (ι × γ)} {e : List (Row ι ℝ)} {o : Obj ι γ ℝ}
    (h : Sparse.mk v e = .ok o) :
    ∑ i ∈ range o.num_vertices, rowSums o.num_vertices (Sparse.symW o.adj) i =
      2 * (e.map Row.val).sum - ((e.filter (fun r => r.src = r.dst)).map Row.val).sum := by
  obtain ⟨h1, h2, h3, e1, _⟩ := built_ok (Or.inr h)
  rw [(sum_degrees _ _).2, (C23_weight_sparse h).2]
  congr 1
  have hd : diagSum o.num_vertices (Sparse.symW o.adj) =
      diagSum o.num_vertices (coo (edgesOf v e)) := by
    unfold diagSum Sparse.symW
    rw [sparse_adj h]
    simp only [if_true, add_sub_cancel_right]
  rw [hd, e1]
  have key : ∀ l : List (Row ℕ ℝ), (∀ r ∈ l, r.src < v.length ∧ r.dst < v.length) →
      diagSum v.length (coo l) = ((l.filter (fun r => r.src = r.dst)).map Row.val).sum := by
    intro l hl
    induction l using List.reverseRecOn with
    | nil => simp [diagSum, coo, Dtype.num, Dtype.zero]
    | append_singleton l r ih =>
      have hr := hl r (by simp)
      have ih' := ih (fun r' hr' => hl r' (by simp [hr']))
      rw [List.filter_append, List.map_append, List.sum_append, ← ih']
      unfold diagSum
      have : ∀ i, Dtype.num (coo (l ++ [r]) i i) =
          Dtype.num (coo l i i) + (if i = r.src then (if r.src = r.dst then r.val else 0) else 0) := by
        intro i
        rw [coo_append]
        by_cases h1 : i = r.src
        · subst h1
          by_cases h2 : r.src = r.dst <;> simp [h2, Dtype.num, Dtype.add]
        · simp [h1]
      simp only [this, Finset.sum_add_distrib, Finset.sum_ite_eq', Finset.mem_range, hr.1, if_true]
      congr 1
      by_cases h2 : r.src = r.dst <;> simp [h2]
  rw [key _ (edges_lt h1)]
  have hf : ∀ e : List (Row ι ℝ), (∀ r ∈ e, r.src ∈ v.map Prod.fst ∧ r.dst ∈ v.map Prod.fst) →
      ((edgesOf v e).filter (fun r => r.src = r.dst)).map Row.val =
        (e.filter (fun r => r.src = r.dst)).map Row.val := by
    intro e h2
    induction e with
    | nil => rfl
    | cons r e ih =>
      have hs := (toInternal_isSome v r).mpr (h2 r (by simp))
      obtain ⟨r', hr'⟩ := Option.isSome_iff_exists.mp hs
      have ih' := ih (fun r hr => h2 r (by simp [hr]))
      have ht := toInternal_some.mp hr'
      have hcons : edgesOf v (r :: e) = r' :: edgesOf v e := by
        unfold edgesOf
        rw [List.filterMap_cons_some hr']
      have hiff : r'.src = r'.dst ↔ r.src = r.dst := by
        constructor
        · intro h
          exact (idOf_numbering v).inj ht.1 (h ▸ ht.2.1)
        · intro h
          have h4 := ht.1
          rw [h, ht.2.1] at h4
          exact (Option.some.inj h4).symm
      rw [hcons, List.filter_cons, List.filter_cons]
      by_cases hm : r.src = r.dst
      · simp only [hiff.mpr hm, hm, decide_true, if_true, List.map_cons, ht.2.2, ih']
      · have hm' : ¬ r'.src = r'.dst := fun h => hm (hiff.mp h)
        simp only [hm', hm, decide_false, Bool.false_eq_true, if_false, ih']
  rw [hf e h2]

end C23

/-- **C23** is violated by dense graphs with a repeated row: the total weight is that of the last
row. -/
theorem C23_dense_violated : ∃ (v : List (ℕ × ℕ)) (e : List (Row ℕ ℝ)) (o : Obj ℕ ℕ ℝ),
    Dense.mk v e = .ok o ∧ (e.map Row.val).sum = 3 ∧
    halfTotal o.num_vertices (Dense.symW o.num_vertices o.adj) = 2 := by
  obtain ⟨o, ho⟩ := dense_accepts dupV_nodup dupE_known dupE_pos
  obtain ⟨h1, _, _, e1, _⟩ := built_ok (Or.inl ho)
  have hi := idOf_some (v := dupV) (x := 0) (by simp [dupV])
  have hj := idOf_some (v := dupV) (x := 1) (by simp [dupV])
  refine ⟨dupV, dupE, o, ho, by norm_num [dupE], ?_⟩
  rw [halfTotal_congr (fun i hi j hj => dense_symW o.adj hi hj), symW_total, dense_adj ho,
    show dupE = [1, 2].map (fun w => (⟨0, 1, w⟩ : Row ℕ ℝ)) from rfl, dup_edges hi hj]
  have : assign ([1, 2].map (fun w => (⟨(idOf dupV 0).getD 0, (idOf dupV 1).getD 0, w⟩ : Row ℕ ℝ))) =
      coo ([2].map (fun w => (⟨(idOf dupV 0).getD 0, (idOf dupV 1).getD 0, w⟩ : Row ℕ ℝ))) := by
    funext i j
    by_cases h : i = (idOf dupV 0).getD 0 ∧ j = (idOf dupV 1).getD 0
    · simp [assign, coo, h, Dtype.add, Dtype.zero]
    · simp [assign, coo, h]
  rw [this, total_coo]
  · simp
  · intro r hr
    simp only [List.map_cons, List.map_nil, List.mem_singleton] at hr
    subst hr
    rw [e1]
    exact ⟨idOf_lt h1 hi, idOf_lt h1 hj⟩

example : (exE.map (fun r => s(r.src, r.dst))).toFinset.card = 2 ∧
    (exE.map (fun r => (r.src, r.dst))).toFinset.card = 3 ∧
    ((exE.filter (fun r => r.src = r.dst)).map Row.src).toFinset.card = 1 ∧
    (exE.map Row.val).sum = 15 / 2 ∧ (∃ o, Sparse.mk exV exE = .ok o) := by
  refine ⟨?_, ?_, ?_, by norm_num [exE], sparse_accepts exV_nodup exE_known exE_pos⟩
  · decide
  · decide
  · simp [exE]

/-! ### C25 -/

section C25

variable {ι γ V : Type} [LinearOrder ι] [LinearOrder γ] [Dtype V] [LawfulDtype V]

theorem gcntAdd_sum (l : List (ℕ × ℝ)) (g : ℕ) (x : ℝ) (k : ℕ) :
    ((Sparse.gcntAdd l g x).map (fun gs => if gs.1 = k then gs.2 else 0)).sum =
      (l.map (fun gs => if gs.1 = k then gs.2 else 0)).sum + if g = k then x else 0 := by
  induction l with
  | nil => simp [Sparse.gcntAdd]
  | cons a l ih =>
    obtain ⟨g', s⟩ := a
    unfold Sparse.gcntAdd
    by_cases h : g' = g
    · subst h
      rw [if_pos rfl]
      by_cases hk : g' = k <;> simp [hk]
      ring
    · rw [if_neg h, List.map_cons, List.sum_cons, ih, List.map_cons, List.sum_cons]
      ring

omit [LawfulDtype V] in
theorem groupRow_sum (row : List (ℕ × V)) (g : ℕ → ℕ) (k : ℕ) :
    ((Sparse.groupRow row g).map (fun gs => if gs.1 = k then gs.2 else 0)).sum =
      (row.map (fun jv => if g jv.1 = k then Dtype.num jv.2 else 0)).sum := by
  induction row using List.reverseRecOn with
  | nil => rfl
  | append_singleton l a ih =>
    unfold Sparse.groupRow at *
    rw [List.foldl_append, List.foldl_cons, List.foldl_nil, gcntAdd_sum, ih]
    simp

theorem csrRow_sum (n : ℕ) (A : Mat V) (i : ℕ) (f : ℕ → ℝ) :
    ((Sparse.csrRow n A i).map (fun jv => f jv.1 * Dtype.num jv.2)).sum =
      ∑ j ∈ range n, f j * Dtype.num (A i j) := by
  induction n with
  | zero => rfl
  | succ n ih =>
    have : Sparse.csrRow (n + 1) A i =
        Sparse.csrRow n A i ++ (if Dtype.nz (A i n) = true then [(n, A i n)] else []) := by
      unfold Sparse.csrRow
      rw [List.range_succ, List.filter_append, List.map_append]
      by_cases h : Dtype.nz (A i n) = true <;> simp [h]
    rw [this, List.map_append, List.sum_append, ih, Finset.sum_range_succ]
    by_cases h : Dtype.nz (A i n) = true
    · rw [if_pos h]; simp
    · rw [if_neg h, LawfulDtype.num_of_nz _ (by simpa using h)]; simp

theorem sparse_group (n : ℕ) (A : Mat V) (g : ℕ → ℕ) (i k : ℕ) :
    Sparse.sum_by_group n A g i k = ∑ j ∈ (range n).filter (fun j => g j = k), Dtype.num (A i j) := by
  unfold Sparse.sum_by_group
  rw [groupRow_sum]
  have : (Sparse.csrRow n A i).map (fun jv => if g jv.1 = k then Dtype.num jv.2 else 0) =
      (Sparse.csrRow n A i).map (fun jv => (if g jv.1 = k then (1 : ℝ) else 0) * Dtype.num jv.2) := by
    refine List.map_congr_left (fun jv _ => ?_)
    by_cases h : g jv.1 = k <;> simp [h]
  rw [this, csrRow_sum n A i (fun j => if g j = k then (1 : ℝ) else 0), Finset.sum_filter]
  refine Finset.sum_congr rfl (fun j _ => ?_)
  by_cases h : g j = k <;> simp [h]

theorem sum_groups (n M : ℕ) (g : ℕ → ℕ) (hg : ∀ j < n, g j < M) (f : ℕ → ℝ) :
    ∑ k ∈ range M, ∑ j ∈ (range n).filter (fun j => g j = k), f j = ∑ j ∈ range n, f j :=
  Finset.sum_fiberwise_of_maps_to (fun j hj => Finset.mem_range.mpr (hg j (Finset.mem_range.mp hj))) f

/-- Group of vertex number `j`. -/
def Obj.group (o : Obj ι γ V) (j : ℕ) : ℕ := o.groups[j]?.getD 0

omit [LawfulDtype V] in
theorem group_lt {v : List (ι × γ)} {e : List (Row ι V)} {o : Obj ι γ V} (h : Built v e o) {j : ℕ}
    (hj : j < o.num_vertices) : o.group j < o.group_dict.length := by
  obtain ⟨c1, c2, c3, c4⟩ := C20 h
  obtain ⟨x, hx⟩ := c1.onto j hj
  have hm : x ∈ v.map Prod.fst := (c1.dom x).mp (by
    show (o.id_dict.lookup x).isSome = true
    rw [show o.id_dict.lookup x = some j from hx]; rfl)
  obtain ⟨⟨x', g⟩, hxg, rfl⟩ := List.mem_map.mp hm
  obtain ⟨i, k, hi, hk, hg⟩ := c4 x' g hxg
  have : i = j := Option.some.inj (hi.symm.trans hx)
  subst this
  unfold Obj.group
  rw [hg]
  exact c2.range g k hk

omit [LawfulDtype V] in
/-- **C25** for sparse graphs.  `A` is any of the matrices the methods are called with: the
undirected, the directed or the transposed one, with or without weights.  The entry for vertex `i`
and group `k` is the sum over the vertices of group `k`, and the entries sum to the degree or
strength of `i`. -/
theorem C25_sparse {v : List (ι × γ)} {e : List (Row ι V)} {o : Obj ι γ V} (h : Built v e o)
    {W : Type} [Dtype W] [LawfulDtype W] (A : Mat W) (i : ℕ) :
    (∀ k, Sparse.sum_by_group o.num_vertices A o.group i k =
      ∑ j ∈ (range o.num_vertices).filter (fun j => o.group j = k), Dtype.num (A i j)) ∧
    ∑ k ∈ range o.group_dict.length, Sparse.sum_by_group o.num_vertices A o.group i k =
      rowSums o.num_vertices A i := by
  refine ⟨fun k => sparse_group _ A _ i k, ?_⟩
  simp only [sparse_group]
  exact sum_groups _ _ _ (fun j hj => group_lt h hj) _

theorem toInt64_int (z : ℤ) : Dense.toInt64 (z : ℝ) = z := by
  unfold Dense.toInt64
  split_ifs <;> simp

theorem num_bool_int (n : ℕ) (A : Mat Bool) (g : ℕ → ℕ) (i k : ℕ) :
    ∃ z : ℤ, ∑ j ∈ (range n).filter (fun j => g j = k), (Dtype.num (A i j) : ℝ) = z := by
  refine ⟨∑ j ∈ (range n).filter (fun j => g j = k), (if A i j = true then 1 else 0), ?_⟩
  push_cast
  rfl

omit [LawfulDtype V] in
/-- **C25**, degrees of dense graphs. -/
theorem C25_dense_degree {v : List (ι × γ)} {e : List (Row ι V)} {o : Obj ι γ V} (h : Built v e o)
    (A : Mat Bool) (i : ℕ) :
    (∀ k, Dense.sum_by_group o.num_vertices A o.group i k =
      ∑ j ∈ (range o.num_vertices).filter (fun j => o.group j = k), (Dtype.num (A i j) : ℝ)) ∧
    ∑ k ∈ range o.group_dict.length, Dense.sum_by_group o.num_vertices A o.group i k =
      rowSums o.num_vertices A i := by
  have key : ∀ k, Dense.sum_by_group o.num_vertices A o.group i k =
      ∑ j ∈ (range o.num_vertices).filter (fun j => o.group j = k), (Dtype.num (A i j) : ℝ) := by
    intro k
    obtain ⟨z, hz⟩ := num_bool_int o.num_vertices A o.group i k
    unfold Dense.sum_by_group
    rw [hz, toInt64_int]
  refine ⟨key, ?_⟩
  simp only [key]
  exact sum_groups _ _ _ (fun j hj => group_lt h hj) _

omit [LawfulDtype V] in
/-- **C25**, strengths of dense graphs.  Missing: weights that are not integers, for which the
claim is false (`C25_dense_violated`). -/
theorem C25_dense_partial {v : List (ι × γ)} {e : List (Row ι V)} {o : Obj ι γ V} (h : Built v e o)
    (A : Mat ℝ) (Z : ℕ → ℕ → ℤ) (hZ : ∀ i j, A i j = Z i j) (i : ℕ) :
    (∀ k, Dense.sum_by_group o.num_vertices A o.group i k =
      ∑ j ∈ (range o.num_vertices).filter (fun j => o.group j = k), A i j) ∧
    ∑ k ∈ range o.group_dict.length, Dense.sum_by_group o.num_vertices A o.group i k =
      rowSums o.num_vertices A i := by
  have key : ∀ k, Dense.sum_by_group o.num_vertices A o.group i k =
      ∑ j ∈ (range o.num_vertices).filter (fun j => o.group j = k), A i j := by
    intro k
    unfold Dense.sum_by_group
    have : ∑ j ∈ (range o.num_vertices).filter (fun j => o.group j = k), Dtype.num (A i j) =
        ((∑ j ∈ (range o.num_vertices).filter (fun j => o.group j = k), Z i j : ℤ) : ℝ) := by
      push_cast
      exact Finset.sum_congr rfl (fun j _ => hZ i j)
    rw [this, toInt64_int]
    push_cast
    exact Finset.sum_congr rfl (fun j _ => (hZ i j).symm)
  refine ⟨key, ?_⟩
  simp only [key]
  exact sum_groups _ _ _ (fun j hj => group_lt h hj) _

end C25

/-- **C25** is violated by dense graphs: one self loop of weight one half gives strength one half,
but all strengths by group are zero. -/
theorem C25_dense_violated : ∃ (v : List (ℕ × ℕ)) (e : List (Row ℕ ℝ)) (o : Obj ℕ ℕ ℝ) (i : ℕ),
    Dense.mk v e = .ok o ∧ i < o.num_vertices ∧
    rowSums o.num_vertices (Dense.symW o.num_vertices o.adj) i = 1 / 2 ∧
    ∀ k, Dense.sum_by_group o.num_vertices (Dense.symW o.num_vertices o.adj) o.group i k = 0 := by
  have hn : (([(0, 0)] : List (ℕ × ℕ)).map Prod.fst).Nodup := by simp
  obtain ⟨o, ho⟩ := dense_accepts (v := [(0, 0)]) (e := [(⟨0, 0, 1 / 2⟩ : Row ℕ ℝ)]) hn (by simp)
    (by simp [Dtype.pos])
  obtain ⟨h1, _, _, e1, _⟩ := built_ok (Or.inl ho)
  have hi := idOf_some (v := [((0 : ℕ), (0 : ℕ))]) (x := 0) (by simp)
  have hlt := idOf_lt h1 hi
  have hid : idOf [((0 : ℕ), (0 : ℕ))] 0 = some 0 := by
    rw [hi]
    simp only [List.length_cons, List.length_nil] at hlt
    congr 1
    omega
  have he : edgesOf [((0 : ℕ), (0 : ℕ))] [(⟨0, 0, 1 / 2⟩ : Row ℕ ℝ)] = [⟨0, 0, 1 / 2⟩] := by
    unfold edgesOf
    rw [List.filterMap_cons_some (toInternal_some.mpr ⟨hid, hid, rfl⟩)]
    rfl
  have hadj : o.adj 0 0 = 1 / 2 := by
    rw [dense_adj ho, he]; simp [assign]
  have e1' : o.num_vertices = 1 := e1
  have hsym : Dense.symW o.num_vertices o.adj 0 0 = 1 / 2 := by
    rw [dense_symW _ (by omega) (by omega)]
    unfold Sparse.symW
    simp [hadj]
  refine ⟨_, _, o, 0, ho, by omega, ?_, ?_⟩
  · unfold rowSums sum1
    rw [e1', Finset.sum_range_one]
    rw [e1'] at hsym
    exact hsym
  · intro k
    unfold Dense.sum_by_group
    rw [e1'] at hsym ⊢
    have : ∑ j ∈ (range 1).filter (fun j => o.group j = k), Dtype.num (Dense.symW 1 o.adj 0 j) =
        if o.group 0 = k then (1 / 2 : ℝ) else 0 := by
      rw [Finset.sum_filter, Finset.sum_range_one]
      rw [hsym]; rfl
    rw [this]
    have hfl : ⌊(1 / 2 : ℝ)⌋ = 0 := by norm_num
    split_ifs
    · unfold Dense.toInt64
      rw [if_pos (by norm_num), hfl]; simp
    · exact_mod_cast toInt64_int 0

example : ∃ o : Obj ℕ ℕ ℝ, Built exV exE o :=
  let ⟨o, ho⟩ := sparse_accepts exV_nodup exE_known exE_pos
  ⟨o, Or.inr ho⟩

end Graph

end

end Verif
