import Verif.Flow.Random
import Verif.Flow.Props
import Verif.Random.SampledProps

/-!
# C84: from the edge table to the random ensemble

Everything is stated on the tables of vertices and edges given by the user.
-/

namespace Verif.Flow.Random

open XR Spec Graph MeasureTheory

noncomputable section

variable {ι γ : Type} [LinearOrder ι] [LinearOrder γ]

/-! ## Specification -/

/-- Number of edges in the table: distinct ordered pairs, or unordered pairs for undirected
graphs. -/
def edgeCount (directed : Bool) (e : List (Row ι ℝ)) : ℕ :=
  if directed then (e.map (fun r => (r.src, r.dst))).toFinset.card
  else (e.map (fun r => s(r.src, r.dst))).toFinset.card

/-- Number of ordered pairs of `n` vertices, with or without equal ones. -/
def pairCount (n : ℕ) (s : Bool) : ℕ := if s then n * n else n * (n - 1)

/-! ## Lemmas -/

theorem card_pairs_eq (n : ℕ) (s : Bool) : (Law.pairs n s).card = pairCount n s := by
  have h := Rand.card_pairs n s
  have : ((pairCount n s : ℕ) : ℝ) = (Law.pairs n s).card := by
    rw [h]
    unfold pairCount
    cases s
    · cases n <;> simp
    · simp; ring
  exact_mod_cast this.symm

/-- The likelihood of a possible graph. -/
theorem like_eq (b : Method.Backend) (o : Rand.Obj) {p : ℝ} {q : XR} (hp : o.param = some (fin p, q))
    (h0 : 0 < p) (h1 : p < 1) (G : Finset (ℕ × ℕ))
    (hG : G ⊆ Law.pairs o.num_vertices o.selfloops) :
    Rand.log_likelihood b o (.graph o.num_vertices G) none = .ok (fin ((G.card : ℝ) * Real.log p +
      ((pairCount o.num_vertices o.selfloops : ℝ) - G.card) * Real.log (1 - p))) := by
  have hlinks : (Rand.Arg.graph o.num_vertices G).links o.num_vertices = G := by
    ext ⟨i, j⟩
    rw [Rand.mem_links]
    constructor
    · exact fun hij => hij.2
    · intro hij
      have := Law.mem_pairs.1 (hG hij)
      exact ⟨⟨this.1, this.2.1⟩, hij⟩
  have key := (Rand.C37_partial b o p q hp h0.le h1 (.graph o.num_vertices G) none nofun rfl
    (by cases b <;> trivial) (fun h => absurd h h0.ne')).2 h0 (by rw [hlinks]; exact hG)
  rw [hlinks, Option.getD_none, card_pairs_eq] at key
  exact key

section

variable {b : Backend} {directed : Bool} {v : List (ι × γ)} {e : List (Row ι ℝ)}
  {hist : List (Q × Bool)} {sl dw : Option Bool} {g : Obj ι γ ℝ}

theorem num_edges_eq (h : mkOf b v e = .ok g) :
    (View.single b directed g).fresh 0 0 .num_edges = (edgeCount directed e : ℝ) := by
  have hb := mkOf_built h
  unfold edgeCount
  cases directed
  · cases b
    · exact (C23_edges hb).2.2.1
    · exact (C23_edges hb).2.2.2
  · exact (C24_directed hb).2.2.1

/-- The total weight of the graph. -/
def totalOf (b : Backend) (directed : Bool) (g : Obj ι γ ℝ) : ℝ :=
  (View.single b directed g).fresh 0 0 .total_weight

theorem attrsOf_eq (h : mkOf b v e = .ok g) :
    attrsOf b directed g hist = ⟨v.length, edgeCount directed e, some true, totalOf b directed g⟩ := by
  unfold attrsOf
  simp only [C70_history]
  rw [num_edges_eq h, (built_ok (mkOf_built h)).2.2.2.1]
  rfl

omit [LinearOrder ι] [LinearOrder γ] in
theorem totalOf_eq : totalOf b directed g = Graph.total g.num_vertices g.adj := by
  cases directed
  · cases b
    · show halfTotal g.num_vertices (Dense.symW g.num_vertices g.adj) = _
      rw [halfTotal_congr (fun i hi j hj => dense_symW g.adj hi hj), symW_total]
    · exact symW_total _ _
  · rfl

theorem totalOf_nonneg (h : mkOf b v e = .ok g) : 0 ≤ totalOf b directed g := by
  rw [totalOf_eq]
  exact Finset.sum_nonneg fun i _ => Finset.sum_nonneg fun j _ => adj_nonneg (mkOf_built h) i j

theorem totalOf_zero (h : mkOf b v e = .ok g) : totalOf b directed g = 0 ↔ e = [] := by
  have hb := mkOf_built h
  rw [totalOf_eq]
  change ∑ i ∈ Finset.range g.num_vertices, ∑ j ∈ Finset.range g.num_vertices, g.adj i j = 0 ↔ _
  rw [Finset.sum_eq_zero_iff_of_nonneg
    (fun i _ => Finset.sum_nonneg fun j _ => adj_nonneg hb i j)]
  constructor
  · intro h0
    by_contra he
    obtain ⟨r, hr⟩ := List.exists_mem_of_ne_nil e he
    obtain ⟨i, j, hx, hy, hi, hj⟩ := lookup_row hb hr
    have h1 := h0 i (Finset.mem_range.2 hi)
    rw [Finset.sum_eq_zero_iff_of_nonneg (fun j _ => adj_nonneg hb i j)] at h1
    exact (ne0_iff i j).1 ((C21_connected hb hx hy).1.2 ⟨r, hr, rfl, rfl⟩)
      (h1 j (Finset.mem_range.2 hj))
  · rintro rfl i hi
    refine Finset.sum_eq_zero fun j hj => ?_
    obtain ⟨x, hx⟩ := onto hb (Finset.mem_range.1 hi)
    obtain ⟨y, hy⟩ := onto hb (Finset.mem_range.1 hj)
    by_contra hne
    obtain ⟨r, hr, -⟩ := (C21_connected hb hx hy).1.1 ((ne0_iff i j).2 hne)
    cases hr

theorem count_ok {n : ℕ} (hn : n ≠ 0) : Validate.count (.num (fin n)) = .ok (n : ℤ) := by
  have hn0 : (0 : ℝ) < n := by exact_mod_cast Nat.pos_of_ne_zero hn
  have ht : Validate.trunc (n : ℝ) = n := by
    unfold Validate.trunc; rw [if_pos hn0.le]; simp
  simp only [Validate.count, Validate.intOf, ht, Int.natCast_eq_zero, hn, if_false]
  have : (n : ℝ) / ((n : ℤ) : ℝ) = 1 := by
    rw [Int.cast_natCast]; exact div_self hn0.ne'
  rw [if_pos this]
  simp only [bind, Except.bind]
  rw [if_neg (by omega)]

theorem number_ok {x : ℝ} (hx : 0 ≤ x) : Validate.number (.num (fin x)) = .ok (.num (fin x)) := by
  simp [Validate.number, Validate.unwrap, Validate.timesOne, Validate.isNegative, bind,
    Except.bind, zero_def, hx]

theorem init_ok {n m : ℕ} (hn : n ≠ 0) {w : ℝ} (hw : 0 ≤ w) :
    init ⟨n, m, some true, w⟩ (options sl dw) =
      .ok ⟨n, some (.num (fin m)), none, .bool (sl.getD false), some (.num (fin w)),
        some (.bool (dw.getD false))⟩ := by
  have key : ∀ f1 f2 : Option Bool, Validate.RandomDiGraph.check
      { num_vertices := some (.num (fin n)), num_edges := some (.num (fin m)),
        total_weight := some (.num (fin w)), selfloops := f1.map .bool,
        discrete_weights := f2.map .bool } =
      .ok ⟨n, some (.num (fin m)), none, .bool (f1.getD false), some (.num (fin w)),
        some (.bool (f2.getD false))⟩ := by
    intro f1 f2
    have hm := number_ok (Nat.cast_nonneg (α := ℝ) m)
    cases f1 <;> cases f2 <;>
    simp [Validate.RandomDiGraph.check, count_ok hn, Validate.numberIfSet, hm, number_ok hw,
      Validate.paramIfSet, Validate.RandomDiGraph.discreteDefault, bind, Except.bind]
  unfold init
  simp only [Nat.floor_natCast, if_true]
  have := key sl dw
  cases sl <;> cases dw <;> exact congrArg (Except.mapError Err.model) this

theorem init_empty {m : ℕ} {w : ℝ} :
    init ⟨0, m, some true, w⟩ (options sl dw) = .error (.model .notInteger) := by
  have hc : Validate.count (.num (fin ((0 : ℕ) : ℝ))) = .error .notInteger := by
    simp [Validate.count, Validate.intOf, Validate.trunc, bind, Except.bind]
  have key : ∀ f1 f2 : Option Bool, Validate.RandomDiGraph.check
      { num_vertices := some (.num (fin ((0 : ℕ) : ℝ))), num_edges := some (.num (fin m)),
        total_weight := some (.num (fin w)), selfloops := f1.map .bool,
        discrete_weights := f2.map .bool } = .error .notInteger := by
    intro f1 f2
    simp only [Validate.RandomDiGraph.check, hc, bind, Except.bind]
  unfold init
  simp only [Nat.floor_natCast, if_true]
  have : ∀ x, x = Except.error Validate.Err.notInteger →
      Except.mapError (α := Validate.RandomDiGraph.Obj) Err.model x =
        .error (Err.model .notInteger) := by
    rintro _ rfl; rfl
  refine this _ ?_
  have := key sl dw
  cases sl <;> cases dw <;> exact this

/-- The model made from a graph, before `fit`. -/
def modelOf (b : Backend) (directed : Bool) (v : List (ι × γ)) (e : List (Row ι ℝ)) (g : Obj ι γ ℝ)
    (sl dw : Option Bool) : Rand.Obj :=
  ⟨v.length, some ⟨edgeCount directed e, true⟩, some ⟨totalOf b directed g, true⟩,
    some (dw.getD false), sl.getD false, none⟩

theorem run_eq (h : mkOf b v e = .ok g) (hv : v ≠ []) :
    run b directed v e hist sl dw =
      (Rand.fit (modelOf b directed v e g sl dw)).mapError .fit >>= fun m => .ok ⟨g, m⟩ := by
  unfold run
  rw [h]
  simp only [Except.mapError, bind, Except.bind]
  rw [attrsOf_eq h, init_ok (by simpa using hv) (totalOf_nonneg h)]
  rfl

/-- `m / k` of numpy scalars. -/
def ratio (m : ℕ) (k : ℝ) : XR := if k = 0 then signedInf m else fin (m / k)

/-- Both parameters set by `fit`. -/
def paramOf (b : Backend) (directed : Bool) (v : List (ι × γ)) (e : List (Row ι ℝ)) (g : Obj ι γ ℝ)
    (sl dw : Option Bool) : XR × XR :=
  (ratio (edgeCount directed e) (pairCount v.length (sl.getD false)),
    if dw.getD false then 1 - ratio (edgeCount directed e) (totalOf b directed g)
    else ratio (edgeCount directed e) (totalOf b directed g))

omit [LinearOrder γ] in
theorem fit_eq : Rand.fit (modelOf b directed v e g sl dw) =
    .ok ⟨v.length, some ⟨edgeCount directed e, true⟩, some ⟨totalOf b directed g, true⟩,
      some (dw.getD false), sl.getD false, some (paramOf b directed v e g sl dw)⟩ := by
  have hc := Rand.card_pairs v.length (sl.getD false)
  rw [card_pairs_eq] at hc
  have hP : (if sl.getD false then
        Rand.pyDiv true (edgeCount directed e) ((v.length : ℝ) ^ 2)
      else Rand.pyDiv true (edgeCount directed e) ((v.length : ℝ) * ((v.length : ℝ) - 1))) =
      .ok (ratio (edgeCount directed e) (pairCount v.length (sl.getD false))) := by
    have : (if sl.getD false then
        Rand.pyDiv true (edgeCount directed e) ((v.length : ℝ) ^ 2)
      else Rand.pyDiv true (edgeCount directed e) ((v.length : ℝ) * ((v.length : ℝ) - 1))) =
        Rand.pyDiv true (edgeCount directed e) (pairCount v.length (sl.getD false) : ℝ) := by
      rw [hc]; split_ifs <;> rfl
    rw [this]
    unfold Rand.pyDiv ratio
    by_cases h0 : pairCount v.length (sl.getD false) = 0 <;> simp [h0]
  unfold Rand.fit modelOf paramOf
  simp only [hP]
  unfold Rand.fitWeight Rand.pyDiv ratio
  simp only [Bool.or_self, if_true]
  cases dw.getD false <;> by_cases h0 : totalOf b directed g = 0 <;> simp [h0, Except.map]

theorem run_ok {R : Result ι γ} (h : run b directed v e hist sl dw = .ok R) :
    v ≠ [] ∧ mkOf b v e = .ok R.graph ∧
      R.model = ⟨v.length, some ⟨edgeCount directed e, true⟩, some ⟨totalOf b directed R.graph, true⟩,
        some (dw.getD false), sl.getD false, some (paramOf b directed v e R.graph sl dw)⟩ := by
  cases hg : mkOf b v e with
  | error er =>
    unfold run at h
    rw [hg] at h; cases h
  | ok g =>
    have hv : v ≠ [] := by
      rintro rfl
      unfold run at h
      rw [hg] at h
      simp only [Except.mapError, bind, Except.bind] at h
      rw [attrsOf_eq hg, List.length_nil, init_empty] at h
      cases h
    rw [run_eq hg hv] at h
    rw [fit_eq] at h
    have := Except.ok.inj h
    subst this
    exact ⟨hv, rfl, rfl⟩

omit [LinearOrder γ] in
theorem edgeCount_le (ht : Table v e) (s : Bool) (hs : ∀ r ∈ e, r.src ≠ r.dst ∨ s = true) :
    edgeCount directed e ≤ pairCount v.length s := by
  obtain ⟨h1, h2, -⟩ := ht
  have hcard : (v.map Prod.fst).toFinset.card = v.length := by
    rw [List.toFinset_card_of_nodup h1, List.length_map]
  have hord : (e.map (fun r => (r.src, r.dst))).toFinset.card ≤ pairCount v.length s := by
    cases s with
    | true =>
      have : (e.map (fun r => (r.src, r.dst))).toFinset ⊆
          (v.map Prod.fst).toFinset ×ˢ (v.map Prod.fst).toFinset := by
        rintro ⟨x, y⟩ hxy
        simp only [List.mem_toFinset, List.mem_map, Prod.mk.injEq] at hxy
        obtain ⟨r, hr, rfl, rfl⟩ := hxy
        simp only [Finset.mem_product, List.mem_toFinset]
        exact h2 r hr
      have := Finset.card_le_card this
      rw [Finset.card_product, hcard] at this
      exact this
    | false =>
      have : (e.map (fun r => (r.src, r.dst))).toFinset ⊆ (v.map Prod.fst).toFinset.offDiag := by
        rintro ⟨x, y⟩ hxy
        simp only [List.mem_toFinset, List.mem_map, Prod.mk.injEq] at hxy
        obtain ⟨r, hr, rfl, rfl⟩ := hxy
        simp only [Finset.mem_offDiag, List.mem_toFinset]
        exact ⟨(h2 r hr).1, (h2 r hr).2, (hs r hr).resolve_right (by simp)⟩
      have := Finset.card_le_card this
      rw [Finset.offDiag_card, hcard] at this
      refine this.trans (le_of_eq ?_)
      show _ = v.length * (v.length - 1)
      rw [Nat.mul_sub_one]
  unfold edgeCount
  cases directed with
  | true => exact hord
  | false =>
    refine le_trans ?_ hord
    have : (e.map (fun r => s(r.src, r.dst))).toFinset =
        ((e.map (fun r => (r.src, r.dst))).toFinset).image (fun p => s(p.1, p.2)) := by
      ext z
      simp
    simp only [Bool.false_eq_true, if_false]
    rw [this]
    exact Finset.card_image_le

/-! ## C84 -/

/-- **C84**, runs: building the graph, making the random ensemble from it and fitting succeeds
exactly for non-empty tables of vertices with distinct identifiers, known end points and positive
weights, whatever was asked of the graph before. -/
theorem C84_run :
    ((∃ R, run b directed v e hist sl dw = .ok R) ↔ v ≠ [] ∧ Table v e) ∧
    ∀ R, run b directed v e hist sl dw = .ok R →
      mkOf b v e = .ok R.graph ∧ R.model.num_vertices = v.length ∧
      R.model.selfloops = sl.getD false ∧ R.model.discrete_weights = some (dw.getD false) := by
  refine ⟨⟨?_, ?_⟩, ?_⟩
  · rintro ⟨R, h⟩
    obtain ⟨hv, hg, -⟩ := run_ok h
    exact ⟨hv, (mkOf_iff _ v e).1 ⟨_, hg⟩⟩
  · rintro ⟨hv, ht⟩
    obtain ⟨g, hg⟩ := (mkOf_iff b v e).2 ht
    exact ⟨_, by rw [run_eq hg hv, fit_eq]; rfl⟩
  · intro R h
    obtain ⟨hv, hg, hm⟩ := run_ok h
    rw [hm]
    exact ⟨hg, rfl, rfl, rfl⟩

/-- **C84**, link probability: number of edges of the table over number of admissible pairs, so that
the expected number of edges is that of the table; it is at most one if the table has no self-loop
that the ensemble excludes.  Missing: a single vertex without self-loops (`C84_vertex_violated`),
excluded self-loops (`C84_selfloops_violated`). -/
theorem C84_edges_partial (hA : 2 ≤ v.length ∨ sl = some true) {R : Result ι γ}
    (h : run b directed v e hist sl dw = .ok R) :
    ∃ p q, R.model.param = some (fin p, q) ∧
      p = (edgeCount directed e : ℝ) / pairCount v.length (sl.getD false) ∧ 0 ≤ p ∧
      Rand.expected_num_edges R.model = .ok (fin (edgeCount directed e)) ∧
      (p ≤ 1 ↔ edgeCount directed e ≤ pairCount v.length (sl.getD false)) ∧
      ((∀ r ∈ e, r.src ≠ r.dst ∨ sl = some true) → p ≤ 1) := by
  obtain ⟨hv, hg, hm⟩ := run_ok h
  have hl : 0 < v.length := List.length_pos_iff.2 hv
  have hpc : 0 < pairCount v.length (sl.getD false) := by
    unfold pairCount
    rcases hA with hA | rfl
    · split
      · positivity
      · exact Nat.mul_pos hl (by omega)
    · simpa using hv
  have hpcR : (0 : ℝ) < pairCount v.length (sl.getD false) := by exact_mod_cast hpc
  have hcp := Rand.card_pairs v.length (sl.getD false)
  rw [card_pairs_eq] at hcp
  have hle : (edgeCount directed e : ℝ) / pairCount v.length (sl.getD false) ≤ 1 ↔
      edgeCount directed e ≤ pairCount v.length (sl.getD false) := by
    rw [div_le_one hpcR]; exact Nat.cast_le
  have hp : R.model.param = some (fin ((edgeCount directed e : ℝ) / pairCount v.length (sl.getD false)),
      (paramOf b directed v e R.graph sl dw).2) := by
    rw [hm]
    simp only [paramOf, ratio, if_neg hpcR.ne']
  refine ⟨_, _, hp, rfl, by positivity, ?_, hle, fun hs => hle.2 (edgeCount_le
    ((mkOf_iff _ v e).1 ⟨_, hg⟩) _ fun r hr => (hs r hr).imp_right (by rintro rfl; rfl))⟩
  unfold Rand.expected_num_edges
  rw [hp]
  have hs : R.model.selfloops = sl.getD false := by rw [hm]
  have hn : R.model.num_vertices = v.length := by rw [hm]
  rw [hs, hn]
  have hcancel : (edgeCount directed e : ℝ) / pairCount v.length (sl.getD false) *
      pairCount v.length (sl.getD false) = edgeCount directed e := div_mul_cancel₀ _ hpcR.ne'
  cases hc : sl.getD false <;> rw [hc] at hcp hcancel <;>
    simp only [Bool.false_eq_true, if_false, if_true] at hcp ⊢ <;>
    simp only [fin_mul_fin] <;> congr 2 <;> rw [hcp] at hcancel ⊢
  · rw [mul_assoc]; exact hcancel
  · exact hcancel

/-- **C84**, weight parameter of a table with rows: edges per unit of weight, or one minus that for
discrete weights, so that the mean weight of a link is the mean weight of the edges of the table;
dense backend: for tables without repeated ordered pairs.  Missing: tables without rows
(`C84_empty_violated`), repeated rows (`C21_dense_violated`). -/
theorem C84_weights_partial (he : e ≠ [])
    (hu : b = .dense → (e.map (fun r => (r.src, r.dst))).Nodup) {R : Result ι γ}
    (h : run b directed v e hist sl dw = .ok R) :
    0 < (e.map Row.val).sum ∧ ∃ p q, R.model.param = some (p, fin q) ∧
      q = if dw = some true then 1 - (edgeCount directed e : ℝ) / (e.map Row.val).sum
        else (edgeCount directed e : ℝ) / (e.map Row.val).sum := by
  obtain ⟨hv, hg, hm⟩ := run_ok h
  have hw : totalOf b directed R.graph = (e.map Row.val).sum := by
    obtain ⟨r, hr⟩ := List.exists_mem_of_ne_nil e he
    obtain ⟨i, _, hx, -⟩ := lookup_row (mkOf_built hg) hr
    have := (C70_single_strength_partial (directed := directed) hg hu [] false hx 0).2.2.2
    simp only [C70_history] at this
    rw [← this]
    cases directed <;> rfl
  have hne : totalOf b directed R.graph ≠ 0 := fun h0 => he ((totalOf_zero hg).1 h0)
  have hpos : 0 < totalOf b directed R.graph := lt_of_le_of_ne (totalOf_nonneg hg) hne.symm
  refine ⟨by rw [← hw]; exact hpos, (paramOf b directed v e R.graph sl dw).1, _, ?_, rfl⟩
  rw [hm, ← hw]
  simp only [paramOf, ratio, if_neg hne]
  rcases dw with _ | _ | _ <;> simp [one_def]

theorem mem_linksOf (hg : mkOf b v e = .ok g) {x y : ι} {i j : ℕ}
    (hx : g.id_dict.lookup x = some i) (hy : g.id_dict.lookup y = some j) :
    (i, j) ∈ linksOf b true g ↔ ∃ r ∈ e, r.src = x ∧ r.dst = y := by
  have hb := mkOf_built hg
  rw [← (C21_connected hb hx hy).1]
  unfold linksOf
  simp only [Finset.mem_filter, Finset.mem_product, Finset.mem_range, lookup_lt hb hx,
    lookup_lt hb hy, true_and]
  rfl

theorem card_linksOf (hg : mkOf b v e = .ok g) : (linksOf b true g).card = edgeCount true e := by
  have hb := mkOf_built hg
  have h1 := (C24_directed hb).2.2.1
  have h2 : fullTotal g.num_vertices (ne0 g.adj) = ((linksOf b true g).card : ℝ) := by
    unfold fullTotal Graph.total linksOf
    rw [Finset.card_filter, Nat.cast_sum, Finset.sum_product]
    refine Finset.sum_congr rfl fun i _ => Finset.sum_congr rfl fun j _ => ?_
    show (if ne0 g.adj i j = true then (1 : ℝ) else 0) = ((if _ then 1 else 0 : ℕ) : ℝ)
    push_cast
    rfl
  rw [h2] at h1
  exact_mod_cast h1

theorem linksOf_subset (hg : mkOf b v e = .ok g) {s : Bool}
    (hs : ∀ r ∈ e, r.src ≠ r.dst ∨ s = true) : linksOf b true g ⊆ Law.pairs v.length s := by
  have hb := mkOf_built hg
  rintro ⟨i, j⟩ hij
  have h' := hij
  unfold linksOf at h'
  simp only [Finset.mem_filter, Finset.mem_product, Finset.mem_range] at h'
  obtain ⟨x, hx⟩ := onto hb h'.1.1
  obtain ⟨y, hy⟩ := onto hb h'.1.2
  obtain ⟨r, hr, rfl, rfl⟩ := (mem_linksOf hg hx hy).1 hij
  rw [Law.mem_pairs, ← (built_ok hb).2.2.2.1]
  refine ⟨h'.1.1, h'.1.2, (hs r hr).imp_left fun hne hij => hne ?_⟩
  rw [← hij] at hy
  exact lookup_inj hb hx hy

/-- **C84**, likelihood of the directed graph the ensemble was fitted to: the logarithm of
`p ^ edges * (1 - p) ^ (other pairs)` if there are edges, admissible pairs without edge and no
excluded self-loop.  Missing: no edges (`C84_empty_violated`), all pairs (`C84_complete_violated`),
excluded self-loops (`C84_selfloops_violated`), undirected graphs (`C84_undirected_violated`). -/
theorem C84_likelihood_partial (he : e ≠ []) (hs : ∀ r ∈ e, r.src ≠ r.dst ∨ sl = some true)
    (hc : edgeCount true e < pairCount v.length (sl.getD false)) {R : Result ι γ}
    (h : run b true v e hist sl dw = .ok R) :
    let m : ℝ := edgeCount true e
    let k : ℝ := pairCount v.length (sl.getD false)
    R.log_likelihood b true = .ok (fin (m * Real.log (m / k) + (k - m) * Real.log (1 - m / k))) := by
  intro m k
  obtain ⟨hv, hg, hm⟩ := run_ok h
  have hk : (0 : ℝ) < k := by
    have : 0 < pairCount v.length (sl.getD false) := by omega
    exact Nat.cast_pos.2 this
  have hm0 : (0 : ℝ) < m := by
    have : 0 < edgeCount true e := by
      have := numPairs_pos he
      simpa [edgeCount, numPairs] using this
    exact Nat.cast_pos.2 this
  have hlt : m / k < 1 := by rw [div_lt_one hk]; exact Nat.cast_lt.2 hc
  have hp : R.model.param = some (fin (m / k), (paramOf b true v e R.graph sl dw).2) := by
    rw [hm]
    simp only [paramOf, ratio, k, m] at hk ⊢
    rw [if_neg hk.ne']
  have hn : R.graph.num_vertices = v.length := (built_ok (mkOf_built hg)).2.2.2.1
  have hns : R.model.num_vertices = v.length ∧ R.model.selfloops = sl.getD false := by
    rw [hm]; exact ⟨rfl, rfl⟩
  have hsub : linksOf b true R.graph ⊆ Law.pairs v.length (sl.getD false) :=
    linksOf_subset hg fun r hr => (hs r hr).imp_right (by rintro rfl; rfl)
  unfold Result.log_likelihood
  have key := fun b' => like_eq b' R.model hp
    (by positivity) hlt (linksOf b true R.graph) (by rw [hns.1, hns.2]; exact hsub)
  rw [hn, ← hns.1, key, card_linksOf hg, hns.1, hns.2]

/-- **C84**, samples: the graphs sampled with the graph as reference have the names of its vertices,
and on average the number of edges of the table, whatever is asked of them before.  Missing: a
single vertex without self-loops (`C84_vertex_violated`), excluded self-loops
(`C84_selfloops_violated`). -/
theorem C84_sample_partial (hn : v.length < 2 ^ 64) (hA : 2 ≤ v.length ∨ sl = some true)
    (hs : ∀ r ∈ e, r.src ≠ r.dst ∨ sl = some true) {R : Result ι γ}
    (h : run b directed v e hist sl dw = .ok R)
    {Ω : Type} [MeasurableSpace Ω] (P : Measure Ω) (U : ℕ → Ω → ℝ) (hU : IsUniform P U) :
    ∃ g : Ω → Sampled.Obj ι γ Sampled.Adj,
      (∀ ω, R.sample b (fun m => U m ω) = .ok (g ω) ∧ (g ω).num_vertices = v.length ∧
        ∀ x, (g ω).id_dict.lookup (.inl x) = R.graph.id_dict.lookup x) ∧
      ∀ (l : Ω → List (Q × Bool)) (rc : Ω → Bool),
        ∫ ω, Sampled.ask (View.single b true (g ω).graph) (l ω) (rc ω) .num_edges 0 0 ∂P =
          edgeCount directed e := by
  obtain ⟨p, q, hp, -, p0, hexp, -, p1⟩ := C84_edges_partial hA h
  obtain ⟨-, hnv, -⟩ := C84_run.2 R h
  obtain ⟨g, _, _, _, hg, _, _, _, hmean⟩ := Rand.C83_mean b R.model (by rw [hnv]; exact hn) hp p0
    (p1 hs) (some (refOf R.graph)) none (fun _ _ => 0) (fun _ _ => 0) P U hU
  obtain ⟨pos, -, -, hobj⟩ := Rand.C83_object_partial b R.model (by rw [hnv]; exact hn) hp
    (some (refOf R.graph)) none
  refine ⟨g, fun ω => ⟨hg ω, ?_⟩, fun l rc => ?_⟩
  · obtain ⟨g', hg', k1, -, k2, -⟩ := hobj (fun m => U m ω) (fun _ _ => 0) (fun _ _ => 0)
    rw [hg ω] at hg'
    cases hg'
    exact ⟨k1.trans hnv, k2.1⟩
  · have := (hmean l rc).1
    rw [hexp] at this
    exact (fin_inj.1 (Except.ok.inj this)).symm

/-- **C84** fails for a single vertex and the default setting: `fit` stores an infinite or undefined
link probability. -/
theorem C84_vertex_violated (b : Backend) (directed : Bool) (x : ι) (c : γ)
    (hist : List (Q × Bool)) (dw : Option Bool) :
    (∃ R q, run b directed [(x, c)] [] hist none dw = .ok R ∧ R.model.param = some (nan, q)) ∧
    ∃ R q, run b directed [(x, c)] [⟨x, x, 1⟩] hist none dw = .ok R ∧
      R.model.param = some (pinf, q) := by
  have key : ∀ e, Table [(x, c)] e → ∃ R q, run b directed [(x, c)] e hist none dw = .ok R ∧
      R.model.param = some (signedInf (edgeCount directed e), q) := by
    intro e ht
    obtain ⟨R, hR⟩ := (C84_run (b := b) (directed := directed) (hist := hist) (sl := none)
      (dw := dw)).1.2 ⟨List.cons_ne_nil _ _, ht⟩
    obtain ⟨-, -, hm⟩ := run_ok hR
    refine ⟨R, (paramOf b directed [(x, c)] e R.graph none dw).2, hR, ?_⟩
    rw [hm]
    simp [paramOf, ratio, pairCount]
  constructor
  · obtain ⟨R, q, h1, h2⟩ := key [] ⟨by simp, by simp, by simp⟩
    refine ⟨R, q, h1, ?_⟩
    rw [h2]
    cases directed <;> simp [edgeCount, signedInf]
  · obtain ⟨R, q, h1, h2⟩ := key [⟨x, x, 1⟩] ⟨by simp, by simp, by simp⟩
    refine ⟨R, q, h1, ?_⟩
    rw [h2]
    cases directed <;> simp [edgeCount, signedInf]

/-- **C84** fails for a table without rows: the weight parameter is undefined, and the likelihood of
the empty graph, which is certain, raises. -/
theorem C84_empty_violated (b : Backend) (v : List (ι × γ)) (hv : (v.map Prod.fst).Nodup)
    (h2 : 2 ≤ v.length) (hist : List (Q × Bool)) (sl : Option Bool) :
    ∃ R, run b true v [] hist sl none = .ok R ∧ R.model.param = some (fin 0, nan) ∧
      R.log_likelihood b true = .error .domain := by
  have hne : v ≠ [] := by rintro rfl; simp at h2
  obtain ⟨R, hR⟩ := (C84_run (b := b) (directed := true) (e := []) (hist := hist) (sl := sl)
      (dw := none)).1.2 ⟨hne, hv, by simp, by simp⟩
  obtain ⟨p, q, hp, hp', -⟩ := C84_edges_partial (Or.inl h2) hR
  obtain ⟨-, hg, hm⟩ := run_ok hR
  have hp0 : p = 0 := by rw [hp']; simp [edgeCount]
  have hq : q = nan := by
    rw [hm] at hp
    simp only [paramOf, ratio, (totalOf_zero hg).2 rfl, if_true] at hp
    have := congrArg Prod.snd (Option.some.inj hp)
    dsimp only at this
    rw [← this]
    simp [edgeCount, signedInf]
  rw [hp0, hq] at hp
  refine ⟨R, hR, hp, ?_⟩
  have hl : linksOf b true R.graph = ∅ := by
    rw [← Finset.card_eq_zero, card_linksOf hg]; simp [edgeCount]
  have hn : R.graph.num_vertices = v.length := (built_ok (mkOf_built hg)).2.2.2.1
  unfold Result.log_likelihood
  rw [hl, hn]
  rw [hm] at hp ⊢
  have hp'' : paramOf b true v [] R.graph sl none = (fin 0, nan) := Option.some.inj hp
  rw [hp'']
  exact (Rand.C37_empty_violated _ _ _ _ _ _ _).1

/-- **C84** fails for the complete graph: the ensemble links every pair with certainty, but
`log_likelihood` of the graph is `-inf`. -/
theorem C84_complete_violated (b : Backend) (hist : List (Q × Bool)) (dw : Option Bool) :
    ∃ R : Result ℕ ℕ, run b true [(0, 0), (1, 0)] [⟨0, 1, 1⟩, ⟨1, 0, 1⟩] hist none dw = .ok R ∧
      (∃ q, R.model.param = some (fin 1, q)) ∧ R.log_likelihood b true = .ok ninf := by
  obtain ⟨R, hR⟩ := (C84_run (ι := ℕ) (γ := ℕ) (b := b) (directed := true) (v := [(0, 0), (1, 0)])
      (e := [⟨0, 1, 1⟩, ⟨1, 0, 1⟩]) (hist := hist) (sl := none) (dw := dw)).1.2
      ⟨by simp, by simp, by simp, by simp⟩
  obtain ⟨p, q, hp, hp', -⟩ := C84_edges_partial (Or.inl (by simp)) hR
  obtain ⟨-, hg, hm⟩ := run_ok hR
  have hec : edgeCount true [(⟨0, 1, 1⟩ : Row ℕ ℝ), ⟨1, 0, 1⟩] = 2 := by simp [edgeCount]
  have hp1 : p = 1 := by rw [hp', hec]; norm_num [pairCount]
  rw [hp1] at hp
  refine ⟨R, hR, ⟨q, hp⟩, ?_⟩
  have hn : R.graph.num_vertices = 2 := (built_ok (mkOf_built hg)).2.2.2.1
  have hl : linksOf b true R.graph = Law.pairs 2 false := by
    refine Finset.eq_of_subset_of_card_le (linksOf_subset hg (by simp)) ?_
    rw [card_linksOf hg, hec, card_pairs_eq]; decide
  unfold Result.log_likelihood
  rw [hl, hn]
  rw [hm] at hp ⊢
  have hp'' : paramOf b true [(0, 0), (1, 0)] [⟨0, 1, 1⟩, ⟨1, 0, 1⟩] R.graph none dw = (fin 1, q) :=
    Option.some.inj hp
  rw [hp'']
  exact (Rand.C37_complete_violated _ 2 le_rfl false q _ _ _).1

/-- **C84** fails for excluded self-loops: with the default setting a self-loop is counted among the
edges but not among the pairs, the link probability may exceed one, the likelihood of the graph
raises, and the samples have all pairs but fewer edges than the table. -/
theorem C84_selfloops_violated (b : Backend) (hist : List (Q × Bool)) (dw : Option Bool)
    (u : ℕ → ℝ) (hu : ∀ m, u m < 1) :
    ∃ R : Result ℕ ℕ, run b true [(0, 0), (1, 0)] [⟨0, 0, 1⟩, ⟨0, 1, 1⟩, ⟨1, 0, 1⟩] hist none dw
        = .ok R ∧ (∃ q, R.model.param = some (fin (3 / 2), q)) ∧
      Rand.expected_num_edges R.model = .ok (fin 3) ∧
      R.log_likelihood b true = .error .domain ∧
      ∃ g, R.sample b u = .ok g ∧ ∀ l rc,
        Sampled.ask (View.single b true g.graph) l rc .num_edges 0 0 = 2 := by
  obtain ⟨R, hR⟩ := (C84_run (ι := ℕ) (γ := ℕ) (b := b) (directed := true) (v := [(0, 0), (1, 0)])
      (e := [⟨0, 0, 1⟩, ⟨0, 1, 1⟩, ⟨1, 0, 1⟩]) (hist := hist) (sl := none) (dw := dw)).1.2
      ⟨by simp, by simp, by simp, by simp⟩
  obtain ⟨p, q, hp, hp', -, hexp, -⟩ := C84_edges_partial (Or.inl (by simp)) hR
  obtain ⟨hg, hnv, hsl, -⟩ := C84_run.2 R hR
  have hnv : R.model.num_vertices = 2 := hnv
  have hsl : R.model.selfloops = false := hsl
  have hec : edgeCount true [(⟨0, 0, 1⟩ : Row ℕ ℝ), ⟨0, 1, 1⟩, ⟨1, 0, 1⟩] = 3 := by
    simp [edgeCount]
  have hp1 : p = 3 / 2 := by rw [hp', hec]; norm_num [pairCount]
  rw [hec] at hexp
  rw [hp1] at hp
  have hn : R.graph.num_vertices = 2 := (built_ok (mkOf_built hg)).2.2.2.1
  refine ⟨R, hR, ⟨q, hp⟩, by exact_mod_cast hexp, ?_, ?_⟩
  · unfold Result.log_likelihood
    have key : ∀ b' : Method.Backend, Rand.log_likelihood b' R.model
        (.graph 2 (linksOf b true R.graph)) none = .error .domain := by
      intro b'
      obtain ⟨adj, ha, hsh, -⟩ := Rand.adjOf_spec b' 2 (.graph 2 (linksOf b true R.graph)) nofun rfl
        (by cases b' <;> trivial)
      rw [Rand.log_likelihood_of hp ha (by rw [hnv]; exact hsh), if_neg (by norm_num),
        if_neg (by norm_num)]
      norm_num [Rand.log, Rand.log1p]
    rw [hn]
    exact key _
  · obtain ⟨pos, -, -, hobj⟩ := Rand.C83_object_partial b R.model (by rw [hnv]; norm_num) hp
      (some (refOf R.graph)) none
    obtain ⟨g, hg', hgn, -, -, -, -, hL⟩ := hobj u (fun _ _ => 0) (fun _ _ => 0)
    refine ⟨g, hg', fun l rc => ?_⟩
    have hL' : g.adj.Links (Law.pairs 2 false : Set (ℕ × ℕ)) := by
      convert hL using 1
      ext e
      have := hu (pos e)
      simp only [hnv, hsl, Finset.mem_coe, Set.mem_ofPred_eq, ltb_fin_fin, decide_eq_true_eq]
      exact ⟨fun he => ⟨he, by linarith⟩, fun he => he.1⟩
    have := (Sampled.single_counts (b := b) (s := false) (hgn.trans hnv) (Finset.Subset.refl _) hL' l
      rc).1
    rw [card_pairs_eq] at this
    exact_mod_cast this

/-- **C84** fails for undirected graphs, which the constructor accepts: the expected number of links
is the number of edges, but the graph is read with two links for each. -/
theorem C84_undirected_violated (b : Backend) (hist : List (Q × Bool)) (dw : Option Bool) :
    ∃ R : Result ℕ ℕ, run b false [(0, 0), (1, 0)] [⟨0, 1, 1⟩] hist none dw = .ok R ∧
      Rand.expected_num_edges R.model = .ok (fin 1) ∧
      (linksOf b false R.graph).card = 2 ∧
      R.log_likelihood b false = .ok (fin (2 * Real.log (1 / 2))) := by
  obtain ⟨R, hR⟩ := (C84_run (ι := ℕ) (γ := ℕ) (b := b) (directed := false) (v := [(0, 0), (1, 0)])
      (e := [⟨0, 1, 1⟩]) (hist := hist) (sl := none) (dw := dw)).1.2
      ⟨by simp, by simp, by simp, by simp⟩
  obtain ⟨p, q, hp, hp', -, hexp, -⟩ := C84_edges_partial (Or.inl (by simp)) hR
  obtain ⟨hg, hnv, hsl, -⟩ := C84_run.2 R hR
  have hnv : R.model.num_vertices = 2 := hnv
  have hsl : R.model.selfloops = false := hsl
  have hec : edgeCount false [(⟨0, 1, 1⟩ : Row ℕ ℝ)] = 1 := by
    simp [edgeCount]
  have hp1 : p = 1 / 2 := by rw [hp', hec]; norm_num [pairCount]
  rw [hec] at hexp
  rw [hp1] at hp
  have hb := mkOf_built hg
  have hn : R.graph.num_vertices = 2 := (built_ok hb).2.2.2.1
  have hl : linksOf b false R.graph = Law.pairs 2 false := by
    have hmem : ∀ i j, (i, j) ∈ linksOf b false R.graph ↔
        (i, j) ∈ linksOf b true R.graph ∨ (j, i) ∈ linksOf b true R.graph := by
      intro i j
      have hsym : (View.single b false R.graph).adjB false i j =
          (ne0 R.graph.adj i j || ne0 R.graph.adj j i) := by
        cases b <;> rfl
      have ht : ∀ i j, (View.single b true R.graph).adjB true i j = ne0 R.graph.adj i j :=
        fun _ _ => rfl
      unfold linksOf
      simp only [Finset.mem_filter, Finset.mem_product, Finset.mem_range, hsym, ht, Bool.or_eq_true]
      tauto
    have hsub := linksOf_subset hg (s := false) (by simp)
    symm
    refine Finset.eq_of_subset_of_card_le ?_ ?_
    · obtain ⟨i, j, hx, hy, hi, hj⟩ := lookup_row hb (r := ⟨0, 1, 1⟩) (by simp)
      have hij : (i, j) ∈ linksOf b true R.graph :=
        (mem_linksOf hg hx hy).2 ⟨_, List.mem_singleton.2 rfl, rfl, rfl⟩
      have hne := (Law.mem_pairs.1 (hsub hij)).2.2
      rw [hn] at hi hj
      rintro ⟨k, l⟩ hkl
      rw [Law.mem_pairs] at hkl
      rw [hmem]
      simp only [ne_eq, Bool.false_eq_true, or_false] at hne hkl
      have : (k = i ∧ l = j) ∨ (k = j ∧ l = i) := by omega
      rcases this with ⟨rfl, rfl⟩ | ⟨rfl, rfl⟩
      · exact Or.inl hij
      · exact Or.inr hij
    · refine Finset.card_le_card ?_
      rintro ⟨k, l⟩ hkl
      rcases (hmem k l).1 hkl with h | h
      · exact hsub h
      · have := Law.mem_pairs.1 (hsub h)
        exact Law.mem_pairs.2 ⟨this.2.1, this.1, this.2.2.imp_left Ne.symm⟩
  refine ⟨R, hR, by exact_mod_cast hexp, by rw [hl, card_pairs_eq]; rfl, ?_⟩
  unfold Result.log_likelihood
  have key := fun b' => like_eq b' R.model hp
    (by norm_num) (by norm_num) (Law.pairs 2 false) (by rw [hnv, hsl])
  have hc2 : (Law.pairs 2 false).card = 2 := by decide
  rw [hnv, hsl, hc2] at key
  rw [hn, hl, key]
  norm_num [pairCount]

omit [LinearOrder ι] [LinearOrder γ] in
/-- **C84** fails for sampled graphs: a random ensemble cannot be made from any of them, since they
have no attribute `weighted`. -/
theorem C84_resample_violated [DecidableEq ι] (b : Backend) (g : Sampled.Obj ι γ Sampled.Adj)
    (hist : List (Q × Bool)) (kw : List (Validate.Key × Validate.Val)) :
    init (attrsOfSample b g hist) kw = .error .attribute := rfl

/-- A table that meets all hypotheses: three vertices, two edges. -/
example : let v : List (ℕ × ℕ) := [(0, 0), (1, 0), (2, 1)]
    let e : List (Row ℕ ℝ) := [⟨0, 1, 1⟩, ⟨1, 2, 3⟩]
    v ≠ [] ∧ Table v e ∧ 2 ≤ v.length ∧ e ≠ [] ∧
    (e.map (fun r => (r.src, r.dst))).Nodup ∧ (∀ r ∈ e, r.src ≠ r.dst) ∧
    edgeCount true e < pairCount v.length false := by
  refine ⟨by simp, ⟨by simp, by simp, by simp⟩, by simp, by simp, by simp, by simp, ?_⟩
  simp [edgeCount, pairCount]

end

end

end Verif.Flow.Random
