import Verif.Random.Sampled
import Verif.Random.Props
import Verif.Random.ListProps
import Verif.Sampled.MeanProps

/-!
# C83: the objects returned by `RandomDiGraph.sample`
-/

namespace Verif

noncomputable section

open XR Spec DiGraphEnsemble MeasureTheory
open scoped ENNReal

namespace Rand

open Graph (coo assign get_num_bytes validDtype View Q)
open Sampled (Ref Names ids boolRows floatRows)

/-! ## Lemmas -/

theorem stream_eq (p : XR) (n : ℕ) (s : Bool) (u : ℕ → ℝ) :
    (binary_sample_stream p n s u).2
      = (order n s).filter (fun e => ltb (fin (u ((order n s).idxOf e))) p) := by
  unfold binary_sample_stream
  rw [foldl_order (fun (st : ℕ × List (ℕ × ℕ)) i j => (st.1 + 1, if ltb (fin (u st.1)) p
      then st.2 ++ [(i, j)] else st.2))]
  have := stream_fold (fun k _ => ltb (fin (u k)) p) (order n s) (nodup_order n s) 0 []
  simp only [zero_add, List.nil_append] at this
  rw [this]

theorem mem_stream {p : XR} {n : ℕ} {s : Bool} {u : ℕ → ℝ} {e : ℕ × ℕ} :
    e ∈ (binary_sample_stream p n s u).2
      ↔ e ∈ Law.pairs n s ∧ ltb (fin (u ((order n s).idxOf e))) p = true := by
  rw [stream_eq, List.mem_filter, mem_order]

section

variable {ι γ κ : Type} [DecidableEq ι]

/-! ## C83 -/

/-- **C83**, the object, whatever the random numbers and whatever the fitted parameter: number of
vertices, an identifier type that can hold it, names and groups of the reference graph (or the
numbers `0, …, n-1` and no groups), and a boolean adjacency matrix in which an admissible pair is a
link iff the random number drawn for that pair, different numbers for different pairs, is below the
link probability.  Missing: weights (`C83_weights_violated`) and the argument `selfloops`, which is
not used (`C83_selfloops_violated`). -/
theorem C83_object_partial (b : Graph.Backend) (o : Obj) (hn : o.num_vertices < 2 ^ 64) {p q : XR}
    (hp : o.param = some (p, q)) (ref : Option (Ref ι γ κ)) (sl : Option Bool) :
    ∃ pos : ℕ × ℕ → ℕ, Set.InjOn pos (Law.pairs o.num_vertices o.selfloops) ∧
      (∀ e ∈ Law.pairs o.num_vertices o.selfloops,
        pos e < (Law.pairs o.num_vertices o.selfloops).card) ∧
      ∀ (u : ℕ → ℝ) (v w : ℕ → ℕ → ℝ), ∃ g, sampleGraph b o ref .none sl u v w = .ok g ∧
        g.num_vertices = o.num_vertices ∧ o.num_vertices < 256 ^ g.id_bytes.toNat ∧
        Names o.num_vertices (ref.map Ref.id_dict) g.id_dict ∧ g.group = ref.bind Ref.group ∧
        (∃ A, g.adj = .bool A) ∧
        g.adj.Links {e | e ∈ Law.pairs o.num_vertices o.selfloops ∧
          ltb (fin (u (pos e))) p = true} := by
  have hd : validDtype (get_num_bytes o.num_vertices) := (Graph.C26_valid _).2 hn
  have hnames : Names o.num_vertices (ref.map Ref.id_dict) (ids o.num_vertices ref) := by
    cases ref with
    | none => exact Sampled.names_range _
    | some r => exact Sampled.names_ref _ r.id_dict
  refine ⟨fun e => (order o.num_vertices o.selfloops).idxOf e, ?_, ?_, fun u v w => ?_⟩
  · intro e he e' _ h
    exact (List.idxOf_inj (mem_order.2 he)).1 h
  · intro e he
    have h1 : Law.pairs o.num_vertices o.selfloops = (order o.num_vertices o.selfloops).toFinset := by
      ext e; rw [List.mem_toFinset, mem_order]
    have h2 := List.toFinset_card_of_nodup (nodup_order o.num_vertices o.selfloops)
    rw [h1, h2]
    exact List.idxOf_lt_length_of_mem (mem_order.2 he)
  · unfold sampleGraph adjacency
    simp only [hp, if_pos hd]
    cases b with
    | sparse =>
      exact ⟨_, rfl, rfl, Sampled.bytes_ok _, hnames, rfl, ⟨_, rfl⟩,
        fun i j => (Sampled.coo_bool _ i j).trans mem_stream⟩
    | dense =>
      exact ⟨_, rfl, rfl, Sampled.bytes_ok _, hnames, rfl, ⟨_, rfl⟩,
        fun i j => (Sampled.assign_bool _ i j).trans mem_stream⟩

/-- **C83**, any statistic of the sample: its average over the random numbers is its mean over
random graphs with the link probability of the ensemble. -/
theorem C83_statistic (b : Graph.Backend) (o : Obj) (hn : o.num_vertices < 2 ^ 64) {p : ℝ} {q : XR}
    (hp : o.param = some (fin p, q)) (h0 : 0 ≤ p) (h1 : p ≤ 1) (ref : Option (Ref ι γ κ))
    (sl : Option Bool) (v w : ℕ → ℕ → ℝ)
    {Ω : Type} [MeasurableSpace Ω] (P : Measure Ω) (U : ℕ → Ω → ℝ) (hU : IsUniform P U) :
    ∃ (g : Ω → Sampled.Obj ι γ Sampled.Adj) (X : Ω → Finset (ℕ × ℕ)),
      (∀ ω, sampleGraph b o ref .none sl (fun m => U m ω) v w = .ok (g ω) ∧
        (g ω).num_vertices = o.num_vertices ∧ X ω ⊆ Law.pairs o.num_vertices o.selfloops ∧
        (g ω).adj.Links (X ω : Set (ℕ × ℕ))) ∧
      ∀ f : Finset (ℕ × ℕ) → ℝ, Integrable (fun ω => f (X ω)) P ∧
        ∫ ω, f (X ω) ∂P = mean o.num_vertices o.selfloops p f := by
  obtain ⟨pos, hpos, -, h⟩ := C83_object_partial b o hn hp ref sl
  choose g k1 k2 _ _ _ _ k7 using fun ω => h (fun m => U m ω) v w
  classical
  refine ⟨g, fun ω => (Law.pairs o.num_vertices o.selfloops).filter (fun e => U (pos e) ω < p),
    fun ω => ⟨k1 ω, k2 ω, Finset.filter_subset _ _, ?_⟩, fun f => ?_⟩
  · have := k7 ω
    convert this using 1
    ext e
    simp
  · exact integral_of_draws hU (fun _ _ => ⟨h0, h1⟩)
      (fun e he e' he' h => hpos he he' h) (fun ω e => by rw [Finset.mem_filter]) f

/-- **C83**, law: over independent uniform numbers the adjacency matrix of the sample is that of the
graph `G` with probability `p ^ links * (1 - p) ^ (other admissible pairs)`. -/
theorem C83_law (b : Graph.Backend) (o : Obj) (hn : o.num_vertices < 2 ^ 64) {p : ℝ} {q : XR}
    (hp : o.param = some (fin p, q)) (h0 : 0 ≤ p) (h1 : p ≤ 1) (ref : Option (Ref ι γ κ))
    (sl : Option Bool) (v w : ℕ → ℕ → ℝ)
    {Ω : Type} [MeasurableSpace Ω] (P : Measure Ω) (U : ℕ → Ω → ℝ) (hU : IsUniform P U)
    (G : Finset (ℕ × ℕ)) (hG : G ⊆ Law.pairs o.num_vertices o.selfloops) :
    P {ω | ∃ g, sampleGraph b o ref .none sl (fun m => U m ω) v w = .ok g ∧
        g.adj.Links (G : Set (ℕ × ℕ))}
      = ENNReal.ofReal (p ^ G.card * (1 - p) ^ (Law.pairs o.num_vertices o.selfloops \ G).card) := by
  obtain ⟨pos, hpos, -, h⟩ := C83_object_partial b o hn hp ref sl
  choose g k1 _ _ _ _ k6 k7 using fun ω => h (fun m => U m ω) v w
  have hset : {ω | ∃ g, sampleGraph b o ref .none sl (fun m => U m ω) v w = .ok g ∧
        g.adj.Links (G : Set (ℕ × ℕ))}
      = {ω | ∀ e : {e // e ∈ Law.pairs o.num_vertices o.selfloops},
          U (pos e.1) ω < p ↔ e.1 ∈ G} := by
    ext ω
    obtain ⟨A, hA⟩ := k6 ω
    have hL := k7 ω
    rw [hA] at hL
    simp only [Set.mem_ofPred_eq]
    constructor
    · rintro ⟨g', hg', hL'⟩ ⟨⟨i, j⟩, he⟩
      rw [k1 ω] at hg'
      cases hg'
      rw [hA] at hL'
      have := (hL i j).symm.trans (hL' i j)
      simpa [he] using this
    · intro hall
      refine ⟨_, k1 ω, ?_⟩
      rw [hA]
      intro i j
      refine (hL i j).trans ?_
      show _ ∧ _ ↔ (i, j) ∈ G
      constructor
      · rintro ⟨he, hlt⟩
        exact (hall ⟨_, he⟩).1 (by simpa using hlt)
      · intro hij
        exact ⟨hG hij, by simpa using (hall ⟨_, hG hij⟩).2 hij⟩
  rw [hset]
  let k : {e // e ∈ Law.pairs o.num_vertices o.selfloops} → ℕ := fun e => pos e.1
  have hk : Function.Injective k := fun a b hab => Subtype.ext (hpos a.2 b.2 hab)
  have hbox := (hU.precomp hk).measure_box Finset.univ (fun _ => p) (fun _ _ => ⟨h0, h1⟩)
    (fun e => e.1 ∈ G)
  simp only [Finset.mem_univ, true_imp_iff] at hbox
  refine hbox.trans ?_
  congr 1
  rw [Finset.univ_eq_attach, Finset.prod_attach (Law.pairs o.num_vertices o.selfloops)
    (fun e => if e ∈ G then p else 1 - p)]
  have := prob_const (Law.pairs o.num_vertices o.selfloops) p G hG
  unfold Law.prob at this
  rw [this, Finset.card_sdiff_of_subset hG]

/-- **C83**: the averages over the random numbers of `num_edges`, `out_degree`, `in_degree` and
`degree` of the sampled graph, asked after any other queries, are what `expected_num_edges`,
`expected_out_degree`, `expected_in_degree` and `expected_degree` return. -/
theorem C83_mean (b : Graph.Backend) (o : Obj) (hn : o.num_vertices < 2 ^ 64) {p : ℝ} {q : XR}
    (hp : o.param = some (fin p, q)) (h0 : 0 ≤ p) (h1 : p ≤ 1) (ref : Option (Ref ι γ κ))
    (sl : Option Bool) (v w : ℕ → ℕ → ℝ)
    {Ω : Type} [MeasurableSpace Ω] (P : Measure Ω) (U : ℕ → Ω → ℝ) (hU : IsUniform P U) :
    ∃ (g : Ω → Sampled.Obj ι γ Sampled.Adj) (dOut dIn d : ℕ → XR),
      (∀ ω, sampleGraph b o ref .none sl (fun m => U m ω) v w = .ok (g ω)) ∧
      expected_out_degree o = .ok dOut ∧ expected_in_degree o = .ok dIn ∧
      expected_degree o = .ok d ∧
      ∀ (h : Ω → List (Q × Bool)) (rc : Ω → Bool),
        let a := fun q i ω => Sampled.ask (View.single b true (g ω).graph) (h ω) (rc ω) q i 0
        expected_num_edges o = .ok (fin (∫ ω, a .num_edges 0 ω ∂P)) ∧
        ∀ i < o.num_vertices, dOut i = fin (∫ ω, a .out_degree i ω ∂P) ∧
          dIn i = fin (∫ ω, a .in_degree i ω ∂P) ∧ d i = fin (∫ ω, a .degree i ω ∂P) := by
  obtain ⟨g, X, hg, hX⟩ := C83_statistic b o hn hp h0 h1 ref sl v w P U hU
  obtain ⟨he, d, dOut, dIn, k1, k2, k3, k4⟩ := C36_expectations o p q hp
  refine ⟨g, dOut, dIn, d, fun ω => (hg ω).1, k2, k3, k1, fun h rc => ?_⟩
  intro a
  have hc := fun ω => Sampled.single_counts (b := b) (hg ω).2.1 (hg ω).2.2.1 (hg ω).2.2.2 (h ω)
    (rc ω)
  refine ⟨?_, fun i hi => ?_⟩
  · rw [he, ← (hX _).2]
    exact congrArg (fun x => Except.ok (fin x))
      (integral_congr_ae (.of_forall fun ω => (hc ω).1.symm))
  · obtain ⟨c1, c2, c3⟩ := k4 i hi
    refine ⟨c2.trans ?_, c3.trans ?_, c1.trans ?_⟩
    · rw [← (hX _).2]
      exact congrArg fin (integral_congr_ae (.of_forall fun ω => ((hc ω).2 i hi).1.symm))
    · rw [← (hX _).2]
      exact congrArg fin (integral_congr_ae (.of_forall fun ω => ((hc ω).2 i hi).2.1.symm))
    · rw [← (hX _).2]
      exact congrArg fin (integral_congr_ae (.of_forall fun ω => ((hc ω).2 i hi).2.2.symm))

/-- **C83**, fit: when the number of edges given does not exceed the number of admissible pairs,
`fit` succeeds and the sampled graphs have that number of edges on average.  Missing: more edges
than pairs (`C83_overfull_violated`), no pair or a zero total weight (`C36_violated`,
`C36_weight_violated`). -/
theorem C83_fit_partial (b : Graph.Backend) (o : Obj) (hn : o.num_vertices < 2 ^ 64) (m : Number)
    (hm : o.num_edges = some m) (hA : Law.pairs o.num_vertices o.selfloops ≠ ∅)
    (hw : ∀ w, o.total_weight = some w → w.val ≠ 0 ∧ o.discrete_weights ≠ none)
    (h0 : 0 ≤ m.val) (h1 : m.val ≤ (Law.pairs o.num_vertices o.selfloops).card)
    (ref : Option (Ref ι γ κ)) (sl : Option Bool) (v w : ℕ → ℕ → ℝ)
    {Ω : Type} [MeasurableSpace Ω] (P : Measure Ω) (U : ℕ → Ω → ℝ) (hU : IsUniform P U) :
    ∃ o', fit o = .ok o' ∧ ∃ g : Ω → Sampled.Obj ι γ Sampled.Adj,
      (∀ ω, sampleGraph b o' ref .none sl (fun m => U m ω) v w = .ok (g ω)) ∧
      ∀ (h : Ω → List (Q × Bool)) (rc : Ω → Bool),
        ∫ ω, Sampled.ask (View.single b true (g ω).graph) (h ω) (rc ω) .num_edges 0 0 ∂P = m.val := by
  obtain ⟨o', p, q, k1, k2, k3, -, k5, k6, k7, -⟩ := C36_fit_partial o m hm hA hw
  obtain ⟨p0, p1⟩ := (k5 h0).2 h1
  obtain ⟨g, _, _, _, hg, _, _, _, hmean⟩ :=
    C83_mean b o' (by rw [k6]; exact hn) k2 p0 p1 ref sl v w P U hU
  refine ⟨o', k1, g, hg, fun h rc => ?_⟩
  have := (hmean h rc).1
  rw [k3] at this
  exact (fin_inj.1 (Except.ok.inj this)).symm

omit [DecidableEq ι] in
/-- **C83**, errors: which exception is raised, in all cases. -/
theorem C83_errors (b : Graph.Backend) (o : Obj) (ref : Option (Ref ι γ κ)) (wt : Weights)
    (sl : Option Bool) (u : ℕ → ℝ) (v w : ℕ → ℕ → ℝ) :
    let r := sampleGraph b o ref wt sl u v w
    (o.param = none → r = .error (.other .notFitted)) ∧
    (o.param ≠ none → 2 ^ 64 ≤ o.num_vertices → r = .error .dtype) ∧
    (o.param ≠ none → o.num_vertices < 2 ^ 64 →
      (wt = .none → ∃ g, r = .ok g) ∧
      (wt = .other → r = .error (.other .badWeights)) ∧
      (wt = .random → o.discrete_weights = none → r = .error (.other .attribute)) ∧
      (wt = .random → o.discrete_weights ≠ none → (∃ e, r = .error (.other e)) ∧
        ((∃ p q, o.param = some (p, fin q) ∧ (o.discrete_weights = some false → q ≠ 0) ∧
          (o.discrete_weights = some true → 0 ≤ q ∧ q < 1)) → r = .error (.other .unpack))) ∧
      (∀ so si, wt = .cremb so si →
        (so = none ∨ si = none → r = .error (.other .typing)) ∧
        (∀ x y, so = some x → si = some y →
          (((∑ i ∈ Finset.range o.num_vertices, x i) ≠ 0 ∧
              |(∑ i ∈ Finset.range o.num_vertices, x i) - ∑ i ∈ Finset.range o.num_vertices, y i|
                < 1e-6 * |∑ i ∈ Finset.range o.num_vertices, x i|) →
            r = .error (.other .unpack)) ∧
          (¬ ((∑ i ∈ Finset.range o.num_vertices, x i) ≠ 0 ∧
              |(∑ i ∈ Finset.range o.num_vertices, x i) - ∑ i ∈ Finset.range o.num_vertices, y i|
                < 1e-6 * |∑ i ∈ Finset.range o.num_vertices, x i|) →
            r = .error (.other .strengthsDiffer))))) := by
  intro r
  refine ⟨?_, ?_, ?_⟩
  · intro hf
    simp only [r]
    unfold sampleGraph
    rw [hf]
  · intro hf hn
    obtain ⟨⟨p, q⟩, hp⟩ := Option.ne_none_iff_exists'.1 hf
    have : ¬ validDtype (get_num_bytes o.num_vertices) :=
      fun h => absurd ((Graph.C26_valid _).1 h) (by omega)
    simp only [r]
    unfold sampleGraph
    simp only [hp, if_neg this]
  · intro hf hn
    obtain ⟨⟨p, q⟩, hp⟩ := Option.ne_none_iff_exists'.1 hf
    have hd := (Graph.C26_valid _).2 hn
    have hr : r = (adjacency b o p q wt u v w).map (fun A =>
        (⟨o.num_vertices, get_num_bytes o.num_vertices, ids o.num_vertices ref,
          ref.bind Ref.group, A⟩ : Sampled.Obj ι γ Sampled.Adj)) := by
      simp only [r]
      unfold sampleGraph
      simp only [hp, if_pos hd]
    rw [hr]
    refine ⟨?_, ?_, ?_, ?_, ?_⟩
    · rintro rfl
      cases b <;> exact ⟨_, rfl⟩
    · rintro rfl; rfl
    · rintro rfl h
      unfold adjacency
      simp only [h]
      rfl
    · rintro rfl h
      obtain ⟨d, hd⟩ := Option.ne_none_iff_exists'.1 h
      unfold adjacency
      simp only [hd]
      constructor
      · obtain ⟨e, he⟩ := weighted_call_fails p.toReal q d o.num_vertices o.selfloops v w
        exact ⟨e, by rw [he]; rfl⟩
      · rintro ⟨p', q', hq, hf, ht⟩
        rw [hp] at hq
        cases hq
        have hdr : drawable d (fin q') = .ok () := by
          unfold drawable
          cases d with
          | false => simp [hf rfl]
          | true =>
            obtain ⟨h1, h2⟩ := ht rfl
            simp only [if_true, one_def, fin_sub_fin, zero_def]
            rw [if_neg]
            simp only [Bool.or_eq_true, leb_fin, ltb_fin_fin, decide_eq_true_eq, not_or]
            constructor <;> linarith
        have hcall : weighted_call p.toReal (fin q') d o.num_vertices o.selfloops v w
            = .ok (weighted_sample p.toReal o.num_vertices o.selfloops v w) := by
          unfold weighted_call
          rw [hdr]
          split <;> rfl
        rw [hcall]
        rfl
    · rintro so si rfl
      constructor
      · rintro (rfl | rfl)
        · rfl
        · cases so <;> rfl
      · rintro x y rfl rfl
        have key : |1 - npSum o.num_vertices y / npSum o.num_vertices x| < 1e-6 ↔
            (∑ i ∈ Finset.range o.num_vertices, x i) ≠ 0 ∧
              |(∑ i ∈ Finset.range o.num_vertices, x i) - ∑ i ∈ Finset.range o.num_vertices, y i|
                < 1e-6 * |∑ i ∈ Finset.range o.num_vertices, x i| := by
          rw [npSum_eq, npSum_eq]
          by_cases hx : (∑ i ∈ Finset.range o.num_vertices, x i) = 0
          · rw [hx]; norm_num
          · have : 1 - (∑ i ∈ Finset.range o.num_vertices, y i) /
                (∑ i ∈ Finset.range o.num_vertices, x i)
                = ((∑ i ∈ Finset.range o.num_vertices, x i) -
                  ∑ i ∈ Finset.range o.num_vertices, y i) /
                  (∑ i ∈ Finset.range o.num_vertices, x i) := by
              field_simp
            rw [this, abs_div, div_lt_iff₀ (abs_pos.2 hx)]
            exact ⟨fun h => ⟨hx, h⟩, fun h => h.2⟩
        constructor
        · intro h
          unfold adjacency cremb_sample
          simp only [if_pos (key.2 h)]
          rfl
        · intro h
          unfold adjacency cremb_sample
          simp only [if_neg (fun hc => h (key.1 hc))]
          rfl

omit [DecidableEq ι] in
/-- **C83**, errors of random weights: if a link is drawn, exponential weights with a zero second
parameter divide by zero and geometric weights with a second parameter outside `[0, 1)` are refused
by the generator; in all other cases the weights are lost. -/
theorem C83_draws (b : Graph.Backend) (o : Obj) (ref : Option (Ref ι γ κ)) (sl : Option Bool)
    (u : ℕ → ℝ) (v w : ℕ → ℕ → ℝ) {p q : ℝ} {d : Bool} (hp : o.param = some (fin p, fin q))
    (hd : o.discrete_weights = some d) (hn : o.num_vertices < 2 ^ 64) :
    let r := sampleGraph b o ref .random sl u v w
    let linked := ∃ e ∈ Law.pairs o.num_vertices o.selfloops, v e.1 e.2 < p
    (linked → d = false → q = 0 → r = .error (.other .zeroDivision)) ∧
    (linked → d = true → (q < 0 ∨ 1 ≤ q) → r = .error (.other .domain)) ∧
    (linked → d = false → q ≠ 0 → r = .error (.other .unpack)) ∧
    (linked → d = true → 0 ≤ q → q < 1 → r = .error (.other .unpack)) ∧
    (¬ linked → r = .error (.other .unpack)) := by
  intro r linked
  have hr : r = (adjacency b o (fin p) (fin q) .random u v w).map (fun A =>
      (⟨o.num_vertices, get_num_bytes o.num_vertices, ids o.num_vertices ref,
        ref.bind Ref.group, A⟩ : Sampled.Obj ι γ Sampled.Adj)) := by
    simp only [r]
    unfold sampleGraph
    simp only [hp, if_pos ((Graph.C26_valid _).2 hn)]
  have hadj : ∃ f : List ((ℕ × ℕ) × ℝ) → Sampled.Adj, adjacency b o (fin p) (fin q) .random u v w =
      ((weighted_call p (fin q) d o.num_vertices o.selfloops v w >>= unpack3).mapError
        SampleErr.other).map f := by
    unfold adjacency
    simp only [hd]
    exact ⟨_, rfl⟩
  obtain ⟨f, hadj⟩ := hadj
  have hemp : (weighted_lists p o.num_vertices o.selfloops v w).isEmpty = true ↔ ¬ linked := by
    rw [List.isEmpty_iff, List.eq_nil_iff_forall_not_mem]
    constructor
    · rintro h ⟨e, he, hlt⟩
      exact h (e, w e.1 e.2) (((C38_lists _ _ _ _ _).2.1 _ _).2 ⟨he, hlt, rfl⟩)
    · rintro h ⟨e, x⟩ hex
      have := ((C38_lists _ _ _ _ _).2.1 _ _).1 hex
      exact h ⟨e, this.1, this.2.1⟩
  have hlk : linked → weighted_call p (fin q) d o.num_vertices o.selfloops v w =
      (drawable d (fin q)).map (fun _ => weighted_sample p o.num_vertices o.selfloops v w) := by
    intro hl
    unfold weighted_call
    rw [if_neg (fun h => hemp.1 h hl)]
  have hdt : d = true → drawable d (fin q) =
      if q < 0 ∨ 1 ≤ q then .error .domain else .ok () := by
    rintro rfl
    unfold drawable
    simp only [if_true, one_def, fin_sub_fin, zero_def, Bool.or_eq_true, leb_fin, ltb_fin_fin,
      decide_eq_true_eq]
    refine if_congr ⟨fun h => ?_, fun h => ?_⟩ rfl rfl
    · rcases h with h | h
      · exact .inr (by linarith)
      · exact .inl (by linarith)
    · rcases h with h | h
      · exact .inr (by linarith)
      · exact .inl (by linarith)
  have hdf : d = false → drawable d (fin q) = if q = 0 then .error .zeroDivision else .ok () := by
    rintro rfl
    simp [drawable]
  rw [hr, hadj]
  refine ⟨fun hl h1 h2 => ?_, fun hl h1 h2 => ?_, fun hl h1 h2 => ?_, fun hl h1 h2 h3 => ?_,
    fun hl => ?_⟩
  · rw [hlk hl, hdf h1, if_pos h2]; rfl
  · rw [hlk hl, hdt h1, if_pos h2]; rfl
  · rw [hlk hl, hdf h1, if_neg h2]; rfl
  · rw [hlk hl, hdt h1, if_neg (by rintro (h | h) <;> linarith)]; rfl
  · unfold weighted_call
    rw [if_pos (hemp.2 hl)]; rfl

omit [DecidableEq ι] in
/-- **C83** fails for weights: no call returns a weighted graph. -/
theorem C83_weights_violated (b : Graph.Backend) (o : Obj) (ref : Option (Ref ι γ κ))
    (wt : Weights) (hw : wt ≠ .none) (sl : Option Bool) (u : ℕ → ℝ) (v w : ℕ → ℕ → ℝ) :
    ∃ e, sampleGraph b o ref wt sl u v w = .error e := by
  obtain ⟨e1, e2, e3⟩ := C83_errors b o ref wt sl u v w
  by_cases hp : o.param = none
  · exact ⟨_, e1 hp⟩
  by_cases hn : 2 ^ 64 ≤ o.num_vertices
  · exact ⟨_, e2 hp hn⟩
  obtain ⟨-, c1, c2, c3, c4⟩ := e3 hp (by omega)
  cases wt with
  | none => exact absurd rfl hw
  | other => exact ⟨_, c1 rfl⟩
  | random =>
    by_cases hd : o.discrete_weights = none
    · exact ⟨_, c2 rfl hd⟩
    · obtain ⟨e, he⟩ := (c3 rfl hd).1; exact ⟨_, he⟩
  | cremb so si =>
    obtain ⟨k1, k2⟩ := c4 so si rfl
    cases so with
    | none => exact ⟨_, k1 (.inl rfl)⟩
    | some x =>
      cases si with
      | none => exact ⟨_, k1 (.inr rfl)⟩
      | some y =>
        by_cases hc : (∑ i ∈ Finset.range o.num_vertices, x i) ≠ 0 ∧
              |(∑ i ∈ Finset.range o.num_vertices, x i) - ∑ i ∈ Finset.range o.num_vertices, y i|
                < 1e-6 * |∑ i ∈ Finset.range o.num_vertices, x i|
        · exact ⟨_, (k2 x y rfl rfl).1 hc⟩
        · exact ⟨_, (k2 x y rfl rfl).2 hc⟩

omit [DecidableEq ι] in
/-- **C83** fails for the argument `selfloops`: it is not used. -/
theorem C83_selfloops_unused (b : Graph.Backend) (o : Obj) (ref : Option (Ref ι γ κ))
    (wt : Weights) (sl sl' : Option Bool) (u : ℕ → ℝ) (v w : ℕ → ℕ → ℝ) :
    sampleGraph b o ref wt sl u v w = sampleGraph b o ref wt sl' u v w := rfl

/-- **C83** fails for the argument `selfloops`: with link probability one every admissible pair is
linked, but a call that asks for self loops returns a graph without any. -/
theorem C83_selfloops_violated (b : Graph.Backend) (ref : Option (Ref ι γ κ)) (u : ℕ → ℝ)
    (hu : ∀ m, u m < 1) (v w : ℕ → ℕ → ℝ) :
    ∃ (o : Obj) (g : Sampled.Obj ι γ Sampled.Adj), o.param = some (fin 1, fin 0) ∧
      sampleGraph b o ref .none (some true) u v w = .ok g ∧
      g.adj.Links {e | e ∈ Law.pairs 2 false} ∧ ((0, 0) : ℕ × ℕ) ∈ Law.pairs 2 true := by
  let o : Obj := ⟨2, none, none, none, false, some (fin 1, fin 0)⟩
  obtain ⟨pos, -, -, h⟩ := C83_object_partial b o (by norm_num [o]) (p := fin 1) (q := fin 0) rfl ref
    (some true)
  obtain ⟨g, hg, -, -, -, -, -, hL⟩ := h u v w
  refine ⟨o, g, rfl, hg, ?_, by decide⟩
  convert hL using 1
  ext e
  simp [hu, o]

/-- **C83** fails for more edges than admissible pairs: `fit` accepts them, the link probability
exceeds one and `expected_num_edges` is the number given, but every sample has all admissible pairs
as links and no more. -/
theorem C83_overfull_violated (b : Graph.Backend) (ref : Option (Ref ι γ κ)) (u : ℕ → ℝ)
    (hu : ∀ m, u m < 1) (sl : Option Bool) (v w : ℕ → ℕ → ℝ) :
    ∃ (o o' : Obj) (g : Sampled.Obj ι γ Sampled.Adj), o.num_edges = some ⟨3, true⟩ ∧
      fit o = .ok o' ∧ expected_num_edges o' = .ok (fin 3) ∧
      sampleGraph b o' ref .none sl u v w = .ok g ∧
      ∀ (h : List (Q × Bool)) (rc : Bool),
        Sampled.ask (View.single b true g.graph) h rc .num_edges 0 0 = 2 := by
  let o : Obj := ⟨2, some ⟨3, true⟩, none, none, false, none⟩
  have hc : (Law.pairs 2 false).card = 2 := by decide
  obtain ⟨o', p, q, k1, k2, k3, k4, -, k6, k7, -⟩ := C36_fit_partial o ⟨3, true⟩ rfl
    (by show Law.pairs 2 false ≠ ∅; decide) (fun w hw => by cases hw)
  have hp : p = 3 / 2 := by rw [k4]; show (3 : ℝ) / ((Law.pairs 2 false).card : ℝ) = _; rw [hc]; norm_num
  have hn : o'.num_vertices = 2 := k6
  have hs : o'.selfloops = false := k7
  obtain ⟨pos, -, -, h⟩ := C83_object_partial b o' (by rw [hn]; norm_num) k2 ref sl
  obtain ⟨g, hg, hgn, -, -, -, -, hL⟩ := h u v w
  refine ⟨o, o', g, rfl, k1, k3, hg, fun h rc => ?_⟩
  have hL' : g.adj.Links (Law.pairs 2 false : Set (ℕ × ℕ)) := by
    convert hL using 1
    ext e
    have := hu (pos e)
    simp only [hn, hs, Finset.mem_coe, Set.mem_ofPred_eq, ltb_fin_fin, decide_eq_true_eq]
    exact ⟨fun he => ⟨he, by rw [hp]; linarith⟩, fun he => he.1⟩
  have := (Sampled.single_counts (b := b) (s := false) (hgn.trans hn) (Finset.Subset.refl _) hL' h
    rc).1
  rw [hc] at this
  exact_mod_cast this

/-- A fitted ensemble with two vertices, link probability one half. -/
example : ∃ o : Obj, o.param = some (fin (1 / 2), fin 0) ∧ o.num_vertices < 2 ^ 64 ∧
    Law.pairs o.num_vertices o.selfloops ≠ ∅ :=
  ⟨⟨2, none, none, none, false, some (fin (1 / 2), fin 0)⟩, rfl, by norm_num, by decide⟩

/-- Uniform numbers exist. -/
example : ∃ (Ω : Type) (_ : MeasurableSpace Ω) (P : Measure Ω) (U : ℕ → Ω → ℝ), IsUniform P U := by
  obtain ⟨Ω, m, P, -, U, hU⟩ := exists_isUniform ℕ
  exact ⟨Ω, m, P, U, hU⟩

end

end Rand

end

end Verif
