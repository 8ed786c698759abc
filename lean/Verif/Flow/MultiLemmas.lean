import Verif.Flow.Multi
import Verif.Flow.Props
import Verif.Layer.MethodProps

/-! # Lemmas on runs with labels -/

namespace Verif.Flow

open XR Spec Layer
open scoped ENNReal NNReal

noncomputable section

/-! ### Rows -/

/-- Row with the non-zero values of `f` at the labels below `L`. -/
def Multi.nnRow (L : ℕ) (f : ℕ → ℝ≥0) : List (ℕ × ℝ≥0) :=
  ((List.range L).filter (fun l => decide (f l ≠ 0))).map (fun l => (l, f l))

theorem Multi.csrRow_eq (L : ℕ) {f : ℕ → ℝ} {g : ℕ → ℝ≥0} (h : ∀ l < L, f l = g l) :
    (Multi.csrRow L f).map (fun e => (e.1, fin e.2)) = Fit.rowN (Multi.nnRow L g) := by
  unfold Multi.csrRow Multi.nnRow Fit.rowN
  rw [List.map_map, List.map_map]
  have hf : (List.range L).filter (fun l => decide (f l ≠ 0)) =
      (List.range L).filter (fun l => decide (g l ≠ 0)) := by
    apply List.filter_congr
    intro l hl
    rw [h l (List.mem_range.1 hl)]
    simp
  rw [hf]
  apply List.map_congr_left
  intro l hl
  simp only [Function.comp]
  rw [h l (List.mem_range.1 (List.mem_filter.1 hl).1)]

theorem Multi.nnRow_sorted (L : ℕ) (f : ℕ → ℝ≥0) : RowSorted (Multi.nnRow L f) := by
  unfold RowSorted Multi.nnRow
  rw [List.pairwise_map]
  exact (List.pairwise_lt_range).sublist List.filter_sublist

theorem Multi.nnRow_lt {L : ℕ} {f : ℕ → ℝ≥0} : ∀ e ∈ Multi.nnRow L f, e.1 < L := by
  intro e he
  unfold Multi.nnRow at he
  obtain ⟨l, hl, rfl⟩ := List.mem_map.1 he
  exact List.mem_range.1 (List.mem_filter.1 hl).1

theorem entry_map (f : ℕ → ℝ≥0) (ls : List ℕ) (k : ℕ) :
    entry (ls.map (fun l => (l, f l))) k = if k ∈ ls then f k else 0 := by
  induction ls with
  | nil => rfl
  | cons a t ih =>
    rw [List.map_cons, Fit.entry_cons, ih]
    by_cases h : a = k
    · subst h; simp
    · have : k ≠ a := fun hh => h hh.symm
      simp [this]

theorem Multi.entry_nnRow (L : ℕ) (f : ℕ → ℝ≥0) (k : ℕ) :
    entry (Multi.nnRow L f) k = if k < L then f k else 0 := by
  unfold Multi.nnRow
  rw [entry_map]
  by_cases h : k < L
  · by_cases h0 : f k = 0 <;> simp [h, h0]
  · simp [h]

/-! ### Graphs -/

section Graph

open Graph

variable {ι γ κ : Type} [LinearOrder ι] [LinearOrder γ] [LinearOrder κ]

/-- The rows with label `k`. -/
def Multi.rows (e : List (κ × Row ι ℝ)) (k : κ) : List (Row ι ℝ) :=
  (e.filter (fun kr => kr.1 = k)).map Prod.snd

/-- Out- and in-strengths by label. -/
def Multi.outS (g : MultiObj ι γ κ ℝ) (i l : ℕ) : ℝ≥0 :=
  (rowSums g.num_vertices (g.adj l) i).toNNReal
def Multi.inS (g : MultiObj ι γ κ ℝ) (i l : ℕ) : ℝ≥0 :=
  (colSums g.num_vertices (g.adj l) i).toNNReal

variable {v : List (ι × γ)} {e : List (κ × Row ι ℝ)} {g : MultiObj ι γ κ ℝ}

theorem Multi.layer (h : mkMultiOf .sparse v e = .ok g) {k : κ} {l : ℕ}
    (hk : g.label_dict.lookup k = some l) :
    ∃ o : Graph.Obj ι γ ℝ, mkOf .sparse v (Multi.rows e k) = .ok o ∧ o.num_vertices = g.num_vertices ∧
      o.id_dict = g.id_dict ∧ (∀ i, Flow.outS o i = Multi.outS g i l) ∧
      (∀ i, Flow.inS o i = Multi.inS g i l) ∧ ∀ i j, ne0 o.adj i j = ne0 (g.adj l) i j := by
  obtain ⟨o, h1, h2, h3, h6⟩ := layer_of h hk
  refine ⟨o, h1, h2, h3, fun i => ?_, fun i => ?_, fun i j => by rw [h6]⟩
  · unfold Flow.outS Multi.outS; rw [h2, h6]
  · unfold Flow.inS Multi.inS; rw [h2, h6]

theorem Multi.numbering (h : mkMultiOf .sparse v e = .ok g) :
    Numbering (v.map Prod.fst) g.num_vertices (fun x => g.id_dict.lookup x) ∧
    Numbering (e.map Prod.fst) g.num_labels (fun l => g.label_dict.lookup l) := C20_labels h

theorem Multi.label (h : mkMultiOf .sparse v e = .ok g) {l : ℕ} (hl : l < g.num_labels) :
    ∃ k, g.label_dict.lookup k = some l := (Multi.numbering h).2.onto l hl

theorem Multi.label_lt (h : mkMultiOf .sparse v e = .ok g) {k : κ} {l : ℕ}
    (hk : g.label_dict.lookup k = some l) : l < g.num_labels :=
  (Multi.numbering h).2.range _ _ hk

theorem Multi.coe_outS (h : mkMultiOf .sparse v e = .ok g) (i : ℕ) {l : ℕ} (hl : l < g.num_labels) :
    (Multi.outS g i l : ℝ) = rowSums g.num_vertices (g.adj l) i := by
  obtain ⟨k, hk⟩ := Multi.label h hl
  obtain ⟨o, h1, h2, h3, h6⟩ := layer_of h hk
  have := Flow.coe_outS (mkOf_built h1) i
  rw [h2, h6] at this
  rw [← this]
  unfold Flow.outS Multi.outS
  rw [h2, h6]

theorem Multi.coe_inS (h : mkMultiOf .sparse v e = .ok g) (i : ℕ) {l : ℕ} (hl : l < g.num_labels) :
    (Multi.inS g i l : ℝ) = colSums g.num_vertices (g.adj l) i := by
  obtain ⟨k, hk⟩ := Multi.label h hl
  obtain ⟨o, h1, h2, h3, h6⟩ := layer_of h hk
  have := Flow.coe_inS (mkOf_built h1) i
  rw [h2, h6] at this
  rw [← this]
  unfold Flow.inS Multi.inS
  rw [h2, h6]

/-- Properties of the model made from the graph. -/
def Multi.propOut (g : MultiObj ι γ κ ℝ) (i : ℕ) : List (ℕ × ℝ≥0) :=
  Multi.nnRow g.num_labels (Multi.outS g i)
def Multi.propIn (g : MultiObj ι γ κ ℝ) (i : ℕ) : List (ℕ × ℝ≥0) :=
  Multi.nnRow g.num_labels (Multi.inS g i)

omit [LinearOrder ι] [LinearOrder γ] [LinearOrder κ] in
theorem Multi.ask_eq (hist : List (Q × Bool)) (q : Q) (i l : ℕ) :
    Multi.ask g hist q i l = (View.multi .sparse true g).fresh i l q := by
  unfold Multi.ask
  simp only [C70_history]

theorem Multi.row_out (h : mkMultiOf .sparse v e = .ok g) (hist : List (Q × Bool)) (i : ℕ) :
    (Multi.csrRow g.num_labels (Multi.ask g hist .out_strength_by_label i)).map
      (fun e => (e.1, fin e.2)) = Fit.rowN (Multi.propOut g i) :=
  Multi.csrRow_eq _ fun l hl => by
    rw [Multi.ask_eq, Multi.coe_outS h i hl]; rfl

theorem Multi.row_in (h : mkMultiOf .sparse v e = .ok g) (hist : List (Q × Bool)) (i : ℕ) :
    (Multi.csrRow g.num_labels (Multi.ask g hist .in_strength_by_label i)).map
      (fun e => (e.1, fin e.2)) = Fit.rowN (Multi.propIn g i) :=
  Multi.csrRow_eq _ fun l hl => by
    rw [Multi.ask_eq, Multi.coe_inS h i hl]; rfl

omit [LinearOrder ι] in
theorem Multi.rows_mem {r : κ × Row ι ℝ} (hr : r ∈ e) : r.2 ∈ Multi.rows e r.1 :=
  List.mem_map.2 ⟨r, List.mem_filter.2 ⟨hr, by simp⟩, rfl⟩

/-- Links of a layer. -/
theorem Multi.connected (h : mkMultiOf .sparse v e = .ok g) {k : κ} {l i j : ℕ} {x y : ι}
    (hk : g.label_dict.lookup k = some l) (hx : g.id_dict.lookup x = some i)
    (hy : g.id_dict.lookup y = some j) :
    ne0 (g.adj l) i j = true ↔ ∃ r ∈ Multi.rows e k, r.src = x ∧ r.dst = y := by
  obtain ⟨o, h1, h2, h3, -, -, h6⟩ := Multi.layer h hk
  rw [← h6]
  exact (C21_connected (mkOf_built h1) (by rw [h3]; exact hx) (by rw [h3]; exact hy)).1

theorem Multi.ne_nil_iff (h : mkMultiOf .sparse v e = .ok g) : g.num_labels = 0 ↔ e = [] := by
  constructor
  · intro h0
    by_contra he
    obtain ⟨r, hr⟩ := List.exists_mem_of_ne_nil e he
    obtain ⟨l, hl⟩ := Option.isSome_iff_exists.1
      (((Multi.numbering h).2.dom r.1).2 (List.mem_map.2 ⟨r, hr, rfl⟩))
    have := Multi.label_lt h hl
    omega
  · rintro rfl
    by_contra h0
    obtain ⟨k, hk⟩ := Multi.label h (Nat.pos_of_ne_zero h0)
    have : k ∈ ([] : List (κ × Row ι ℝ)).map Prod.fst := ((Multi.numbering h).2.dom k).1 (by simp [hk])
    simp at this

theorem Multi.merged (h : mkMultiOf .sparse v e = .ok g) :
    ∃ o : Graph.Obj ι γ ℝ, mkOf .sparse v (e.map Prod.snd) = .ok o ∧ o.num_vertices = g.num_vertices ∧
      o.id_dict = g.id_dict := by
  obtain ⟨h1, h2, h3, e1, e2, -⟩ := mkMulti_ok (show mkMulti Sparse.cooT v e = .ok g from h)
  obtain ⟨o, ho⟩ := sparse_accepts h1 h2 h3
  obtain ⟨-, -, -, f1, f2, -⟩ := built_ok (Or.inr ho)
  exact ⟨o, ho, by rw [e1, f1], by rw [e2, f2]⟩

theorem Multi.num_edges (h : mkMultiOf .sparse v e = .ok g) (he : e ≠ []) (i l : ℕ) :
    (View.multi .sparse true g).fresh i l .num_edges = (numPairs (e.map Prod.snd) : ℝ) := by
  obtain ⟨o, h1, h2, h3⟩ := Multi.merged h
  have hb := mkOf_built h1
  rw [show (numPairs (e.map Prod.snd) : ℝ) = fullTotal o.num_vertices (ne0 o.adj) from
    (C24_directed hb).2.2.1.symm, h2]
  show fullTotal g.num_vertices (ne0 (Sparse.project g.num_labels g.adj)) = _
  have hpos : 0 < g.num_labels := Nat.pos_of_ne_zero fun h0 => he ((Multi.ne_nil_iff h).1 h0)
  have hpt : ∀ i < g.num_vertices, ∀ j < g.num_vertices,
      ne0 (Sparse.project g.num_labels g.adj) i j = ne0 o.adj i j := by
    intro i hi j hj
    obtain ⟨x, hx⟩ := (Multi.numbering h).1.onto i hi
    obtain ⟨y, hy⟩ := (Multi.numbering h).1.onto j hj
    rw [Bool.eq_iff_iff, (C27_connected_sparse_real (Or.inr h) hpos i j).1,
      (C21_connected hb (by rw [h3]; exact hx) (by rw [h3]; exact hy)).1]
    constructor
    · rintro ⟨l, hl, hc⟩
      obtain ⟨k, hk⟩ := Multi.label h hl
      obtain ⟨r, hr, h4⟩ := (Multi.connected h hk hx hy).1 hc
      obtain ⟨kr, hkr, rfl⟩ := List.mem_map.1 hr
      exact ⟨kr.2, List.mem_map.2 ⟨kr, (List.mem_filter.1 hkr).1, rfl⟩, h4⟩
    · rintro ⟨r, hr, h4⟩
      obtain ⟨kr, hkr, rfl⟩ := List.mem_map.1 hr
      obtain ⟨l, hl⟩ := Option.isSome_iff_exists.1
        (((Multi.numbering h).2.dom kr.1).2 (List.mem_map.2 ⟨kr, hkr, rfl⟩))
      exact ⟨l, Multi.label_lt h hl, (Multi.connected h hl hx hy).2 ⟨kr.2, Multi.rows_mem hkr, h4⟩⟩
  unfold fullTotal Graph.total
  refine Finset.sum_congr rfl fun i hi => ?_
  refine Finset.sum_congr rfl fun j hj => ?_
  rw [hpt i (Finset.mem_range.1 hi) j (Finset.mem_range.1 hj)]

theorem Multi.num_edges_label (h : mkMultiOf .sparse v e = .ok g) {k : κ} {l : ℕ}
    (hk : g.label_dict.lookup k = some l) (i : ℕ) :
    (View.multi .sparse true g).fresh i l .num_edges_label = (numPairs (Multi.rows e k) : ℝ) := by
  obtain ⟨o, h1, h2, h3, -, -, h6⟩ := Multi.layer h hk
  rw [show (numPairs (Multi.rows e k) : ℝ) = fullTotal o.num_vertices (ne0 o.adj) from
    (C24_directed (mkOf_built h1)).2.2.1.symm, h2,
    show ne0 o.adj = ne0 (g.adj l) from funext fun i => funext fun j => h6 i j]
  rfl

/-- Number of distinct pairs with the label numbered `l`. -/
def Multi.labelPairs (g : MultiObj ι γ κ ℝ) (l : ℕ) : ℕ :=
  ⌊(View.multi .sparse true g).fresh 0 l .num_edges_label⌋₊

theorem Multi.labelPairs_eq (h : mkMultiOf .sparse v e = .ok g) {k : κ} {l : ℕ}
    (hk : g.label_dict.lookup k = some l) : Multi.labelPairs g l = numPairs (Multi.rows e k) := by
  unfold Multi.labelPairs
  rw [Multi.num_edges_label h hk, Nat.floor_natCast]

/-- The keyword arguments considered: `selfloops` and `per_label`, each given or not. -/
def Multi.options (sl pl : Option Bool) : List (Validate.Key × Validate.Val) :=
  (sl.map (fun b => (Validate.Key.selfloops, Validate.Val.bool b))).toList ++
    (pl.map (fun b => (Validate.Key.per_label, Validate.Val.bool b))).toList

theorem Multi.init_eq (sl pl : Option Bool) {n L : ℕ} (hn : n ≠ 0) (hL : L ≠ 0) (m : ℕ)
    (tw : Option ℝ) (so si : ℕ → ℝ) (gr : Option (ℕ → ℕ)) (ml : ℕ → ℕ) {a b : List ℝ}
    (ha : ∀ x ∈ a, 0 ≤ x) (hb : ∀ x ∈ b, 0 ≤ x) :
    Validate.MultiFitnessModel.init [.graph .multidigraph n m tw so si gr L ml (a, b)]
      (Multi.options sl pl) =
    .ok ⟨n, L, a.map fin, b.map fin, some (.num (fin m)),
      some (.arr .int [L] (fun l => fin (ml l))), none, .bool (sl.getD false),
      some (.bool (pl.getD true))⟩ := by
  have hc : ∀ {n : ℕ}, n ≠ 0 → Validate.count (.num (fin n)) = .ok (n : ℤ) := by
    intro n hn
    have hn0 : (0 : ℝ) < n := by exact_mod_cast Nat.pos_of_ne_zero hn
    have ht : Validate.trunc (n : ℝ) = n := by
      unfold Validate.trunc; rw [if_pos hn0.le]; simp
    simp only [Validate.count, Validate.intOf, ht, Int.natCast_eq_zero, hn, if_false]
    have : (n : ℝ) / ((n : ℤ) : ℝ) = 1 := by
      rw [Int.cast_natCast]; exact div_self hn0.ne'
    rw [if_pos this]
    simp only [bind, Except.bind]
    rw [if_neg (by omega)]
  have ht : ∀ {a : List ℝ}, (∀ x ∈ a, 0 ≤ x) → Validate.MultiFitnessModel.table n L
      (.sparse [n, L] (a.map fin)) = .ok (a.map fin) := by
    intro a ha
    have : (a.map fin).any (fun x => ltb x 0) = false := by
      rw [List.any_eq_false]
      intro x hx
      obtain ⟨r, hr, rfl⟩ := List.mem_map.1 hx
      simpa [zero_def] using ha r hr
    simp [Validate.MultiFitnessModel.table, this]
  have hl : Validate.MultiFitnessModel.labelCounts L (.arr .int [L] (fun l => fin (ml l))) =
      .ok () := by
    have : (Validate.entries [L] (fun l => fin ((ml l : ℕ) : ℝ))).any (fun x => ltb x 0) = false := by
      rw [List.any_eq_false]
      intro x hx
      obtain ⟨r, -, rfl⟩ := List.mem_map.1 hx
      simp [zero_def]
    simp [Validate.MultiFitnessModel.labelCounts, this, Validate.Dt.isNumber]
  have key : ∀ (kw : List (Validate.Key × Validate.Val)) (f h : Option Validate.Val),
      Validate.MultiFitnessModel.check kw
      { num_vertices := some (.num (fin n)), num_labels := some (.num (fin L)),
        num_edges := some (.num (fin m)),
        num_edges_label := some (.arr .int [L] (fun l => fin (ml l))),
        prop_out := some (.sparse [n, L] (a.map fin)),
        prop_in := some (.sparse [n, L] (b.map fin)),
        selfloops := f, per_label := h } =
      .ok ⟨n, L, a.map fin, b.map fin, some (.num (fin m)),
        some (.arr .int [L] (fun l => fin (ml l))), none, f.getD (.bool false),
        if kw.any (fun k => k.1 = .per_label) then h else some (.bool true)⟩ := by
    intro kw f h
    have hr : ∀ z, Validate.required (some (.sparse [n, L] z)) = .ok (.sparse [n, L] z) :=
      fun z => rfl
    simp [Validate.MultiFitnessModel.check, hc hn, hc hL, hr, ht ha, ht hb, hl,
      Validate.MultiFitnessModel.edgeArray, Validate.MultiFitnessModel.edges,
      Validate.MultiFitnessModel.paramsIfSet, bind, Except.bind]
  cases sl with
  | none =>
    cases pl with
    | none => exact key [] none (some (.bool true))
    | some p => exact (key [(.per_label, .bool p)] none (some (.bool p))).trans (by simp)
  | some s =>
    cases pl with
    | none => exact (key [(.selfloops, .bool s)] (some (.bool s)) (some (.bool true))).trans (by simp)
    | some p =>
      exact (key [(.selfloops, .bool s), (.per_label, .bool p)] (some (.bool s))
        (some (.bool p))).trans (by simp)

theorem Multi.init_unlabelled (kw : List (Validate.Key × Validate.Val)) (sl pl : Option Bool)
    (hkw : kw = Multi.options sl pl) (n m : ℕ)
    (tw : Option ℝ) (so si : ℕ → ℝ) (gr : Option (ℕ → ℕ)) (ml : ℕ → ℕ) (a b : List ℝ) :
    Validate.MultiFitnessModel.init [.graph .multidigraph n m tw so si gr 0 ml (a, b)] kw =
      .error .notInteger := by
  have hc0 : Validate.count (.num (fin ((0 : ℕ) : ℝ))) = .error .notInteger := by
    simp [Validate.count, Validate.intOf, Validate.trunc, bind, Except.bind]
  have hc : ∀ n : ℕ, Validate.count (.num (fin n)) = .ok (n : ℤ) ∨
      Validate.count (.num (fin n)) = .error .notInteger := by
    intro n
    by_cases hn : n = 0
    · subst hn; exact Or.inr hc0
    · left
      have hn0 : (0 : ℝ) < n := by exact_mod_cast Nat.pos_of_ne_zero hn
      have ht : Validate.trunc (n : ℝ) = n := by
        unfold Validate.trunc; rw [if_pos hn0.le]; simp
      simp only [Validate.count, Validate.intOf, ht, Int.natCast_eq_zero, hn, if_false]
      have : (n : ℝ) / ((n : ℤ) : ℝ) = 1 := by
        rw [Int.cast_natCast]; exact div_self hn0.ne'
      rw [if_pos this]
      simp only [bind, Except.bind]
      rw [if_neg (by omega)]
  have key : ∀ (f : Validate.Fields), f.num_vertices = some (.num (fin n)) →
      f.num_labels = some (.num (fin ((0 : ℕ) : ℝ))) →
      Validate.MultiFitnessModel.check kw f = .error .notInteger := by
    intro f h1 h2
    unfold Validate.MultiFitnessModel.check
    rw [h1]
    rcases hc n with h | h
    · simp only [h, bind, Except.bind, h2, hc0]
    · simp only [h, bind, Except.bind]
  subst hkw
  have key' := fun fs fp => key
      { num_vertices := some (.num (fin n)), num_labels := some (.num (fin ((0 : ℕ) : ℝ))),
        num_edges := some (.num (fin m)),
        num_edges_label := some (.arr .int [0] (fun l => fin (ml l))),
        prop_out := some (.sparse [n, 0] (a.map fin)),
        prop_in := some (.sparse [n, 0] (b.map fin)),
        selfloops := fs, per_label := fp } rfl rfl
  rcases sl with _ | s <;> rcases pl with _ | p
  · exact key' none (some (.bool true))
  · exact key' none (some (.bool p))
  · exact key' (some (.bool s)) (some (.bool true))
  · exact key' (some (.bool s)) (some (.bool p))

/-- The model object made from a graph. -/
def Multi.modelOf (g : MultiObj ι γ κ ℝ) (e : List (κ × Row ι ℝ)) (s p : Bool) : Multi.Obj where
  attrs := ⟨g.num_vertices, g.num_labels,
    ((List.range g.num_vertices).flatMap (fun i => (Multi.propOut g i).map
      (fun e => (e.2 : ℝ)))).map fin,
    ((List.range g.num_vertices).flatMap (fun i => (Multi.propIn g i).map
      (fun e => (e.2 : ℝ)))).map fin,
    some (.num (fin (numPairs (e.map Prod.snd)))),
    some (.arr .int [g.num_labels] (fun l => fin (Multi.labelPairs g l))), none, .bool s,
    some (.bool p)⟩
  prop_out i := Fit.rowN (Multi.propOut g i)
  prop_in i := Fit.rowN (Multi.propIn g i)

theorem Multi.stored {f : ℕ → ℝ} {row : List (ℕ × ℝ≥0)} {L : ℕ}
    (h : (Multi.csrRow L f).map (fun e => (e.1, fin e.2)) = Fit.rowN row) :
    (Multi.csrRow L f).map Prod.snd = row.map (fun e => (e.2 : ℝ)) := by
  have h' := congrArg (List.map Prod.snd) h
  unfold Fit.rowN at h'
  rw [List.map_map, List.map_map] at h'
  apply List.map_injective_iff.2 (fun a b h => fin_inj.1 h)
  rw [List.map_map, List.map_map]
  exact h'

theorem Multi.graphVal_eq (h : mkMultiOf .sparse v e = .ok g) (he : e ≠ [])
    (hist : List (Q × Bool)) :
    ∃ tw so si gr, Multi.graphVal g hist = .graph .multidigraph g.num_vertices
      (numPairs (e.map Prod.snd)) tw so si gr g.num_labels (Multi.labelPairs g)
      ((List.range g.num_vertices).flatMap (fun i => (Multi.propOut g i).map (fun e => (e.2 : ℝ))),
       (List.range g.num_vertices).flatMap (fun i => (Multi.propIn g i).map
         (fun e => (e.2 : ℝ)))) := by
  refine ⟨some (Multi.ask g hist .total_weight 0 0), fun i => Multi.ask g hist .out_strength i 0,
    fun i => Multi.ask g hist .in_strength i 0, some (fun i => g.groups.getD i 0), ?_⟩
  unfold Multi.graphVal
  simp only [Multi.stored (Multi.row_out h hist _), Multi.stored (Multi.row_in h hist _)]
  rw [Multi.ask_eq hist .num_edges, Multi.num_edges h he, Nat.floor_natCast]
  simp only [Multi.ask_eq hist .num_edges_label]
  rfl

theorem Multi.construct_eq (h : mkMultiOf .sparse v e = .ok g) (he : e ≠ [])
    (hist : List (Q × Bool)) (sl pl : Option Bool) :
    Multi.construct g hist (Multi.options sl pl) =
      .ok (Multi.modelOf g e (sl.getD false) (pl.getD true)) := by
  obtain ⟨tw, so, si, gr, hg⟩ := Multi.graphVal_eq h he hist
  have hL : g.num_labels ≠ 0 := fun h0 => he ((Multi.ne_nil_iff h).1 h0)
  have hn : g.num_vertices ≠ 0 := by
    obtain ⟨r, hr⟩ := List.exists_mem_of_ne_nil e he
    obtain ⟨i, hi⟩ := Option.isSome_iff_exists.1 (((Multi.numbering h).1.dom r.2.src).2
      ((mkMulti_ok (show mkMulti Sparse.cooT v e = .ok g from h)).2.1 r.2
        (List.mem_map.2 ⟨r, hr, rfl⟩)).1)
    have := (Multi.numbering h).1.range _ _ hi
    omega
  unfold Multi.construct
  simp only [Multi.row_out h hist, Multi.row_in h hist]
  rw [hg, Multi.init_eq sl pl hn hL]
  · rfl
  · intro x hx
    simp only [List.mem_flatMap, List.mem_map] at hx
    obtain ⟨_, _, r, -, rfl⟩ := hx
    exact r.2.2
  · intro x hx
    simp only [List.mem_flatMap, List.mem_map] at hx
    obtain ⟨_, _, r, -, rfl⟩ := hx
    exact r.2.2

theorem Multi.construct_unlabelled (hL : g.num_labels = 0) (hist : List (Q × Bool))
    (sl pl : Option Bool) :
    Multi.construct g hist (Multi.options sl pl) = .error .notInteger := by
  unfold Multi.construct Multi.graphVal
  simp only [hL]
  rw [Multi.init_unlabelled _ sl pl rfl]
  rfl

/-- The fitter of the shared parameter. -/
def Multi.fitter (K : Kind) (x y : ℕ → List (ℕ × ℝ≥0)) : Fit.Fitter :=
  match K with
  | .fit => Fit.sparseMultiFit x y
  | .inv => Fit.sparseMultiInv x y

theorem Multi.isFitter (K : Kind) {x y : ℕ → List (ℕ × ℝ≥0)} (hx : ∀ i, RowSorted (x i))
    (hy : ∀ i, RowSorted (y i)) : Fit.IsFitter (Multi.fitter K x y) := by
  cases K
  · exact .sparseMultiFit _ _ hx hy
  · exact .sparseMultiInv _ _ hx hy

theorem Multi.fitter_linkable (K : Kind) (x y : ℕ → List (ℕ × ℝ≥0)) (i j : ℕ) :
    (Multi.fitter K x y).linkable i j ↔ ∃ k, entry (x i) k ≠ 0 ∧ entry (y j) k ≠ 0 := by
  cases K <;> rfl

theorem Multi.fitter_ens (K : Kind) (x y : ℕ → List (ℕ × ℝ≥0)) (d : ℝ≥0∞) :
    (Multi.fitter K x y).ens d = Multi.ens K (fun _ => ofENN d) (fun i => Fit.rowN (x i))
      (fun i => Fit.rowN (y i)) := by
  have hr : ∀ x : ℕ → List (ℕ × ℝ≥0), (fun i => rowX (Fit.rowENN (x i))) = fun i => Fit.rowN (x i) :=
    fun x => funext fun i => Fit.rowX_rowENN _
  cases K
  · show Ens.sparseMultiFit _ _ _ = _
    unfold Ens.sparseMultiFit Multi.ens
    simp only [hr]
    rfl
  · show Ens.sparseMultiInv _ _ _ = _
    unfold Ens.sparseMultiInv Multi.ens
    simp only [hr]
    rfl

theorem Multi.fitModel_eq (K : Kind) (s p : Bool) :
    Multi.fitModel K (Multi.modelOf g e s p) =
      { labelModel K g.num_vertices g.num_labels (Multi.propOut g) (Multi.propIn g) s
          (fun l => (Multi.labelPairs g l : ℝ))
          ((Multi.fitter K (Multi.propOut g) (Multi.propIn g)).func g.num_vertices s)
          (some (numPairs (e.map Prod.snd) : ℝ)) with per_label := p } := by
  cases K <;> rfl

theorem Multi.run_eq (K : Kind) (h : mkMultiOf .sparse v e = .ok g) (he : e ≠ [])
    (hist : List (Q × Bool)) (sl pl : Option Bool) (x0 : Fit.X0) (method : Fit.Method)
    (o : Fit.Opts) :
    Multi.run K v e hist (Multi.options sl pl) x0 method o =
      (Fit.fitMulti (Multi.fitModel K (Multi.modelOf g e (sl.getD false) (pl.getD true))) x0 method
        o).mapError .fit >>= fun r =>
      .ok ⟨g, Multi.modelOf g e (sl.getD false) (pl.getD true), r⟩ := by
  unfold Multi.run
  rw [h]
  simp only [Except.mapError, bind, Except.bind]
  rw [Multi.construct_eq h he]

theorem Multi.run_nil (K : Kind) (h : mkMultiOf .sparse v ([] : List (κ × Row ι ℝ)) = .ok g)
    (hist : List (Q × Bool)) (sl pl : Option Bool) (x0 : Fit.X0) (method : Fit.Method)
    (o : Fit.Opts) :
    Multi.run K v ([] : List (κ × Row ι ℝ)) hist (Multi.options sl pl) x0 method o =
      .error (.model .notInteger) := by
  unfold Multi.run
  rw [h]
  simp only [Except.mapError, bind, Except.bind]
  rw [Multi.construct_unlabelled ((Multi.ne_nil_iff h).2 rfl)]

end Graph

end

end Verif.Flow
