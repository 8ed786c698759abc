import Verif.Spark.QueryLemmas
import Verif.Ensemble.ModelProps

/-!
# C81: queries of the Spark ensembles after any history of calls

A history is a list of fits and queries; calls that raise are part of it and the caller goes on.
`Run c E n p ops s rs s'` says that `rs` and `s'` are possible results and final attributes: every
job may combine its partial results in any way.  `Good s` says that the parameter in `s`, if any,
makes the ensemble one of the models of the backend (`IsSpark`).
-/

namespace Verif

noncomputable section

open XR DiGraphEnsemble

namespace Spark.Query

open _root_.Verif.Query (St Err Op Ret M at_ newly init linkProb DyadConst Op.Valid Op.Recomputes
  Op.override Linked)

variable {E : Ens} {n p : ℕ}

/-- **C81**: every history has exactly one outcome, whatever the number of blocks and the order of
combination: the one of the sequential ensemble with the same probabilities (for which see C17, C18
and C19), where `expected_num_edges` of the multi-layer class always recomputes. -/
theorem C81_history (c : Cls) (jUndef : ℕ) (hp : 0 < p) (ops : List (Op E.δ)) (s : St E.δ)
    (hs : Good s) (hops : ∀ θ, Op.fit θ ∈ ops → IsSpark (at_ E θ)) (rs : List (Except Err Ret))
    (s' : St E.δ) :
    Run c E n p ops s rs s' ↔
      _root_.Verif.Query.run jUndef E n (ops.map (plainOp c)) s = (rs, s') := by
  induction ops generalizing s rs s' with
  | nil =>
    constructor
    · rintro ⟨⟩; rfl
    · intro h
      obtain ⟨rfl, rfl⟩ := Prod.mk.inj h
      exact .nil s
  | cons op ops ih =>
    have hdet := det_call c jUndef (n := n) hp op hs
    have hs2 : Good (_root_.Verif.Query.call jUndef E n (plainOp c op) s).2 := by
      rcases call_param (n := n) jUndef (plainOp c op) s with h | ⟨θ, h1, h2⟩
      · intro θ hθ; exact hs θ (h ▸ hθ)
      · intro θ' hθ'
        rw [h2] at hθ'
        cases hθ'
        refine hops θ ?_
        have : op = .fit θ := by
          cases op <;> simp [plainOp] at h1
          rw [h1]
        rw [this]; exact List.mem_cons_self
    have ih' := ih (_root_.Verif.Query.call jUndef E n (plainOp c op) s).2 hs2
      (fun θ h => hops θ (List.mem_cons_of_mem _ h))
    rw [List.map_cons]
    unfold _root_.Verif.Query.run
    dsimp only
    constructor
    · intro h
      cases h with
      | cons hc hr =>
        rename_i r t rs'
        have h1 := (hdet _ _).1 hc
        rw [h1]
        rw [h1] at ih'
        rw [(ih' rs' s').1 hr]
    · intro h
      obtain ⟨rfl, rfl⟩ := Prod.mk.inj h
      exact .cons ((hdet _ _).2 rfl) ((ih' _ _).2 rfl)

/-- Mean degree in the given direction. -/
def meanDegree (n : ℕ) (q : ℕ × ℕ → ℝ) (b : Bool) : Dir → ℕ → ℝ
  | .out, i => Law.mean (Law.pairs n b) q fun G => (Law.outDegree G i : ℝ)
  | .inn, i => Law.mean (Law.pairs n b) q fun G => (Law.inDegree G i : ℝ)
  | .outIn, i => Law.mean (Law.pairs n b) q fun G => (Law.degree n G i : ℝ)
  | .underscored, _ => 0
  | .other, _ => 0

/-- What a query should return for link probabilities `q` and self-loop setting `b`. -/
def Answer {δ : Type} (n : ℕ) (q : ℕ × ℕ → ℝ) (b : Bool) : Op δ → Ret → Prop
  | .fit _, r => r = .none
  | .numEdges _, r => r = .num (fin (Law.mean (Law.pairs n b) q fun G => (G.card : ℝ)))
  | .degree _, r => ∃ v, r = .arr v ∧ ∀ i < n, v i = fin (meanDegree n q b .outIn i)
  | .outDegree _, r => ∃ v, r = .arr v ∧ ∀ i < n, v i = fin (meanDegree n q b .out i)
  | .inDegree _, r => ∃ v, r = .arr v ∧ ∀ i < n, v i = fin (meanDegree n q b .inn i)
  | .avNnProp _ prop ndir sl _, r => ∃ v, r = .arr v ∧ ∀ x : ℕ → ℝ, prop = (fun i => fin (x i)) →
      ∀ i < n, v i = fin ((∑ j ∈ Finset.range n, linkProb n (sl.getD b) q ndir i j * x j) /
        ∑ j ∈ Finset.range n, linkProb n (sl.getD b) q ndir i j)
  | .avNnDegree ddir ndir sl _ _, r => ∃ v, r = .arr v ∧ ∀ i < n,
      v i = fin ((∑ j ∈ Finset.range n, linkProb n (sl.getD b) q ndir i j
          * meanDegree n q (sl.getD b) ddir j) /
        ∑ j ∈ Finset.range n, linkProb n (sl.getD b) q ndir i j)

theorem pick_mean {E : Ens} (hE : E.Coherent) (n : ℕ) (b : Bool) (dir : Dir) (hdir : dir.Known)
    (i : ℕ) (hi : i < n) :
    _root_.Verif.Query.pick dir (E.exp_degrees n b) i = fin (meanDegree n E.prob b dir i) := by
  have h := C10_expected_degrees hE n b i hi
  cases dir with
  | out => exact h.1
  | inn => exact h.2.1
  | outIn => exact h.2.2
  | underscored | other => exact False.elim hdir

theorem freshAv_mean {θ : E.δ} (hE : (at_ E θ).Coherent) (hd : DyadConst E) (jUndef : ℕ)
    (x : ℕ → ℝ) (ndir : Dir) (hdir : ndir.Known) (b : Bool) (i : ℕ) (hi : i < n) :
    _root_.Verif.Query.freshAv jUndef E n θ b (fun i => fin (x i)) ndir i
      = fin ((∑ j ∈ Finset.range n, linkProb n b (at_ E θ).prob ndir i j * x j) /
        ∑ j ∈ Finset.range n, linkProb n b (at_ E θ).prob ndir i j) := by
  rw [_root_.Verif.Query.freshAv_at jUndef n θ hE hd x ndir hdir b i hi]
  have e : ∀ j ∈ Finset.range n, _root_.Verif.Query.weight (fun i j => (at_ E θ).prob (i, j))
      b ndir i j = linkProb n b (at_ E θ).prob ndir i j :=
    fun j hj => (_root_.Verif.Query.linkProb_eq _ ndir hi (Finset.mem_range.1 hj)).symm
  rw [Finset.sum_congr rfl e, Finset.sum_congr rfl (fun j hj => by rw [e j hj])]

/-- The values computed by a new ensemble are the means. -/
theorem ans_answer {θ : E.δ} (hE : (at_ E θ).Coherent) (hd : DyadConst E) (jUndef : ℕ) (b c : Bool)
    (op : Op E.δ) (hop : op.Valid n b c) :
    Answer n (at_ E θ).prob b op (_root_.Verif.Query.ans jUndef E n θ b op) := by
  cases op with
  | fit θ => exact absurd hop id
  | numEdges r => exact congrArg Ret.num (C09_expected_num_edges hE n b)
  | degree r => exact ⟨_, rfl, fun i hi => pick_mean hE n b .outIn (by simp) i hi⟩
  | outDegree r => exact ⟨_, rfl, fun i hi => pick_mean hE n b .out (by simp) i hi⟩
  | inDegree r => exact ⟨_, rfl, fun i hi => pick_mean hE n b .inn (by simp) i hi⟩
  | avNnProp len prop ndir sl dr =>
    obtain ⟨rfl, hdir, x, rfl⟩ := hop
    refine ⟨_, rfl, fun x' hx' i hi => ?_⟩
    have : x = x' := by
      funext k
      exact fin_inj.1 (congrFun hx' k)
    rw [← this]
    exact freshAv_mean hE hd jUndef x ndir hdir _ i hi
  | avNnDegree ddir ndir sl dr r =>
    obtain ⟨hddir, hdir, -⟩ := hop
    refine ⟨_, rfl, fun i hi => ?_⟩
    obtain ⟨x, hx⟩ := _root_.Verif.Query.pick_fin hE n (sl.getD b) ddir
    rw [hx, freshAv_mean hE hd jUndef x ndir hdir _ i hi]
    congr 2
    refine Finset.sum_congr rfl (fun j hj => ?_)
    have := pick_mean hE n (sl.getD b) ddir hddir j (Finset.mem_range.1 hj)
    rw [hx] at this
    rw [fin_inj.1 this]

theorem dyadConst_of {θ : E.δ} (h : IsSpark (at_ E θ)) : DyadConst E := h.dyadConst

/-- The self-loop setting in force during a call. -/
def inForce {δ : Type} (b : Bool) (op : Op δ) : Bool := op.override.getD b

/-- **C81**, recomputation: after any history whatever, a query asked to recompute everything it
reads returns the mean for the current parameters and the setting asked for.
`expected_num_edges` of the multi-layer class always does.  Missing: queries not asked to recompute
(`C81_violated`); `C81_queries_partial` treats histories without refits. -/
theorem C81_recompute_partial (c : Cls) (hp : 0 < p) (ops : List (Op E.δ)) (s₀ : St E.δ)
    (h₀ : Good s₀) (hops : ∀ θ, Op.fit θ ∈ ops → IsSpark (at_ E θ)) {rs : List (Except Err Ret)}
    {s : St E.δ} (hrun : Run c E n p ops s₀ rs s) {θ : E.δ} (hθ : s.param = some θ) (op : Op E.δ)
    (hop : (plainOp c op).Recomputes n) :
    IsSpark (at_ E θ) ∧ ∃ a, Answer n (at_ E θ).prob s.selfloops op a ∧
      ∀ r s', Call c E n p op s r s' → r = .ok a := by
  have hs : Good s := by
    clear hθ hop
    induction hrun with
    | nil s => exact h₀
    | @cons op ops s r s' rs s'' hc hr ih =>
      refine ih ?_ (fun θ h => hops θ (List.mem_cons_of_mem _ h))
      have h1 := (det_call c 0 (n := n) hp op h₀ _ _).1 hc
      rcases call_param (n := n) 0 (plainOp c op) s with h | ⟨θ, h2, h3⟩
      · rw [h1] at h
        intro θ hθ; exact h₀ θ (h ▸ hθ)
      · rw [h1] at h3
        intro θ' hθ'
        rw [show s'.param = some θ from h3] at hθ'
        cases hθ'
        refine hops θ ?_
        have : op = .fit θ := by
          cases op <;> simp [plainOp] at h2
          rw [h2]
        rw [this]; exact List.mem_cons_self
  have hE := (hs θ hθ).coherent
  have hd := dyadConst_of (hs θ hθ)
  have hval : (plainOp c op).Valid n s.selfloops (inForce s.selfloops (plainOp c op)) := by
    cases op with
    | fit θ => exact absurd hop id
    | numEdges r => trivial
    | degree r => trivial
    | outDegree r => trivial
    | inDegree r => trivial
    | avNnProp len prop ndir sl dr => exact ⟨hop.1, hop.2.1, hop.2.2.1⟩
    | avNnDegree ddir ndir sl dr r => exact ⟨hop.1, hop.2.1, rfl⟩
  refine ⟨hs θ hθ, _root_.Verif.Query.ans 0 E n θ s.selfloops (plainOp c op), ?_, ?_⟩
  · have := ans_answer hE hd 0 s.selfloops _ (plainOp c op) hval
    cases op <;> exact this
  · intro r s' hc
    have h1 := (det_call c 0 (n := n) hp op hs _ _).1 hc
    have h2 := _root_.Verif.Query.C19_recompute_partial (jUndef := 0) hE hd s hθ (plainOp c op) hop
    rw [(_root_.Verif.Query.inv_call hE hd (_root_.Verif.Query.newly_inv 0 E n θ s.selfloops _)
      hval).1, h1] at h2
    exact h2

/-- **C81**, histories without refits: on a newly fitted ensemble every query with documented
arguments returns the mean, in any order, provided all `expected_av_nn_degree` calls use the same
self-loop setting `l`.  Missing: refits and calls with different settings (`C81_violated`). -/
theorem C81_queries_partial (c : Cls) (hp : 0 < p) {θ : E.δ} (hE : IsSpark (at_ E θ)) (b l : Bool)
    (ops : List (Op E.δ)) (hops : ∀ op ∈ ops, op.Valid n b l) {rs : List (Except Err Ret)}
    {s : St E.δ} (hrun : Run c E n p ops (newly θ b) rs s) :
    List.Forall₂ (fun op r => ∃ a, r = .ok a ∧ Answer n (at_ E θ).prob b op a) ops rs := by
  have hg : Good (newly θ b) := by
    intro t ht
    cases ht
    exact hE
  have h1 := (C81_history c 0 hp ops (newly θ b) hg (fun t ht => absurd (hops _ ht) id) rs s).1 hrun
  have hval : ∀ op ∈ ops.map (plainOp c), op.Valid n b l := by
    intro op hop
    obtain ⟨o, ho, rfl⟩ := List.mem_map.1 hop
    have := hops o ho
    cases o <;> exact this
  have h2 := _root_.Verif.Query.inv_run hE.coherent (dyadConst_of hE) _
    (_root_.Verif.Query.newly_inv 0 E n θ b l) hval
  rw [h1] at h2
  obtain rfl : rs = _ := h2
  rw [List.map_map, List.forall₂_map_right_iff, List.forall₂_same]
  intro op hop
  refine ⟨_, rfl, ?_⟩
  have h3 := ans_answer hE.coherent (dyadConst_of hE) 0 b l (plainOp c op)
    (hval _ (List.mem_map_of_mem hop))
  cases op <;> exact h3

/-- **C81**, the setting: a query that returns leaves the self-loop setting as it was, one that
raises leaves it as it was or at the value requested (`C81_violated`). -/
theorem C81_setting_partial (c : Cls) (hp : 0 < p) (op : Op E.δ) (s : St E.δ) (hs : Good s)
    {r : Except Err Ret} {s' : St E.δ} (h : Call c E n p op s r s') :
    ((∃ v, r = .ok v) → s'.selfloops = s.selfloops) ∧
    (s'.selfloops = s.selfloops ∨ some s'.selfloops = op.override) := by
  have h1 := (det_call c 0 (n := n) hp op hs _ _).1 h
  have h2 := _root_.Verif.Query.C18_call_partial 0 E n (plainOp c op) s
  rw [h1] at h2
  have : (plainOp c op).override = op.override := by cases op <;> rfl
  rw [this] at h2
  exact h2

/-- **C81**, exceptions: the calls with undocumented arguments or before fitting raise the intended
exception, provided that nothing is cached under the name of the directions or recomputation is
requested (`C81_key_violated`); no job is run. -/
theorem C81_errors (c : Cls) (s : St E.δ) :
    (s.param = none → s.exp_out_degree = none → s.exp_in_degree = none → ∀ op,
      (∀ θ, op ≠ .fit θ) → ∀ r s', Call c E n p op s r s' ↔ r = .error .notFitted ∧ s' = s) ∧
    (∀ θ, s.param = some θ → ∀ len prop ndir sl dr r s', len ≠ n →
      (Call c E n p (.avNnProp len prop ndir sl dr) s r s' ↔ r = .error .badShape ∧ s' = s)) ∧
    (∀ θ, s.param = some θ → ∀ prop ndir sl dr r s', ¬ ndir.Known →
      (Call c E n p (.avNnProp n prop ndir sl dr) s r s' ↔
        r = .error .badNdir ∧ s' = { s with selfloops := sl.getD s.selfloops })) ∧
    (∀ θ, s.param = some θ → ∀ ddir ndir sl dr rec r s', ¬ ddir.Known →
      s.exp_av ndir.key ddir.key = none ∨ dr = true ∨ rec = true →
      (Call c E n p (.avNnDegree ddir ndir sl dr rec) s r s' ↔
        r = .error .badDdir ∧ s' = { s with selfloops := sl.getD s.selfloops })) := by
  have hmap : ∀ {α : Type} (f : α → Ret) (m : R E.δ α) (e : Err) (t : St E.δ),
      (∀ r s', m s r s' ↔ r = .error e ∧ s' = t) →
      ∀ r s', R.map f m s r s' ↔ r = .error e ∧ s' = t := by
    intro α f m e t hm r s'
    unfold R.map R.bind
    constructor
    · rintro (⟨e', h1, rfl⟩ | ⟨a, u, h1, _⟩)
      · obtain ⟨h2, rfl⟩ := (hm _ _).1 h1
        rw [Except.error.inj h2]; exact ⟨rfl, rfl⟩
      · exact absurd ((hm _ _).1 h1).1 (by simp)
    · rintro ⟨rfl, rfl⟩
      exact Or.inl ⟨e, (hm _ _).2 ⟨rfl, rfl⟩, rfl⟩
  have hbind : ∀ {α β : Type} (m : R E.δ α) (f : α → R E.δ β) (u : St E.δ) (e : Err) (t : St E.δ),
      (∀ r s', m u r s' ↔ r = .error e ∧ s' = t) →
      ∀ r s', m.bind f u r s' ↔ r = .error e ∧ s' = t := by
    intro α β m f u e t hm r s'
    unfold R.bind
    constructor
    · rintro (⟨e', h1, rfl⟩ | ⟨a, u, h1, _⟩)
      · obtain ⟨h2, rfl⟩ := (hm _ _).1 h1
        rw [Except.error.inj h2]; exact ⟨rfl, rfl⟩
      · exact absurd ((hm _ _).1 h1).1 (by simp)
    · rintro ⟨rfl, rfl⟩
      exact Or.inl ⟨e, (hm _ _).2 ⟨rfl, rfl⟩, rfl⟩
  have hbad : ∀ (e : Err) (d : Dir) (rec : Bool) (t : St E.δ), ¬ d.Known →
      ∀ r s', DegreeByDir E n p e d rec t r s' ↔ r = .error e ∧ s' = t := by
    intro e d rec t hd r s'
    cases d with
    | out | inn | outIn => exact absurd trivial hd
    | underscored | other => exact Iff.rfl
  refine ⟨fun hn ho hi op hop => ?_, fun θ hθ len prop ndir sl dr r s' hl => ?_,
    fun θ hθ prop ndir sl dr r s' hd => ?_,
    fun θ hθ ddir ndir sl dr rec r s' hd hav => ?_⟩
  · have hdeg : ∀ rec r s', ExpectedDegree E n p rec s r s' ↔ r = .error .notFitted ∧ s' = s := by
      intro rec r s'
      unfold ExpectedDegree; rw [hn]
    cases op with
    | fit θ => exact absurd rfl (hop θ)
    | numEdges rec =>
      refine hmap _ _ _ _ (fun r s' => ?_)
      unfold ExpectedNumEdges; rw [hn]
    | degree rec => exact hmap _ _ _ _ (hdeg rec)
    | outDegree rec =>
      refine hmap _ _ _ _ ?_
      unfold ExpectedOutDegree
      rw [if_pos (by simp [ho])]
      exact hbind _ _ _ _ _ (hdeg rec)
    | inDegree rec =>
      refine hmap _ _ _ _ ?_
      unfold ExpectedInDegree
      rw [if_pos (by simp [hi])]
      exact hbind _ _ _ _ _ (hdeg rec)
    | avNnProp len prop ndir sl dr =>
      refine hmap _ _ _ _ (fun r s' => ?_)
      unfold ExpectedAvNnProperty; rw [hn]
    | avNnDegree ddir ndir sl dr rec =>
      refine hmap _ _ _ _ (fun r s' => ?_)
      unfold ExpectedAvNnDegree; rw [hn]
  · refine hmap _ _ _ _ (fun r s' => ?_) r s'
    unfold ExpectedAvNnProperty; rw [hθ]
    dsimp only
    rw [if_pos hl]
  · have ht : ({ s with selfloops := sl.getD s.selfloops } : St E.δ)
        = _root_.Verif.Query.setSelfloops (sl.getD s.selfloops) s := rfl
    rw [ht]
    refine hmap _ _ _ _ (fun r s' => ?_) r s'
    unfold ExpectedAvNnProperty; rw [hθ]
    dsimp only
    rw [if_neg (by simp)]
    exact hbind _ _ _ _ _ (hbad _ _ _ _ hd) r s'
  · have ht : ({ s with selfloops := sl.getD s.selfloops } : St E.δ)
        = _root_.Verif.Query.setSelfloops (sl.getD s.selfloops) s := rfl
    rw [ht]
    refine hmap _ _ _ _ (fun r s' => ?_) r s'
    unfold ExpectedAvNnDegree; rw [hθ]
    dsimp only
    rw [if_pos (by rcases hav with h | h | h <;> simp [h])]
    exact hbind _ _ _ _ _ (hbad _ _ _ _ hd) r s'

/-! ## Examples and failures -/

/-- Single-layer fitness model whose link probabilities are all `d / (1 + d)`. -/
def wit : Ens := Ens.denseFit 1 (fun _ => 1) (fun _ => 1) fun _ _ => nan

theorem wit_spark (d : ENNReal) : IsSpark (at_ wit (ofENN d)) :=
  IsSpark.fit d (fun _ => 1) (fun _ => 1)

theorem good_init (b : Bool) : Good (init wit.δ b) := by
  intro θ h; cases h

example : ∃ rs s, Run .single wit 2 3
    [.fit (ofENN 1), .avNnDegree .out .inn none false false, .numEdges true] (init wit.δ false)
    rs s :=
  ⟨_, _, (C81_history .single 0 (by norm_num) _ _ (good_init false) (by
    intro θ h
    simp only [List.mem_cons, List.not_mem_nil, or_false, reduceCtorEq] at h
    rw [Op.fit.inj h]; exact wit_spark 1) _ _).2 rfl⟩

theorem wit_prob (d : ENNReal) (i j : ℕ) : (at_ wit (ofENN d)).prob (i, j) = Spec.fitProb d := by
  have := congrFun (Ens.Is.denseFit d (fun _ => 1) (fun _ => 1) (fun _ _ => nan)).prob_eq (i, j)
  exact this.trans (by simp)

theorem wit_exp_edges (d : ENNReal) (n : ℕ) (b : Bool) :
    (at_ wit (ofENN d)).exp_edges n b
      = fin (∑ i ∈ Finset.range n, ∑ j ∈ Finset.range n,
          if admissible i j b = true then Spec.fitProb d else 0) := by
  refine (exp_edges_eq (q := fun i j => (at_ wit (ofENN d)).prob (i, j))
    (fun i _ j _ _ => (wit_spark d).coherent.p_eq i j)).trans ?_
  simp only [wit_prob]

/-- Failures shared with the sequential classes, for every number of blocks and every order of
combination: a query after a refit returns the old mean (0 instead of 1); an unknown direction
together with `selfloops=True` leaves self loops on, after which `expected_num_edges` returns 2
instead of 1; nearest-neighbour averages raise `AssertionError` when the cached degrees are 0 and
the new ones are not. -/
theorem C81_violated (hp : 0 < p) :
    (∀ rs s, Run .single wit 2 p [.fit (ofENN 0), .numEdges false, .fit (ofENN 1), .numEdges false]
      (init wit.δ false) rs s → rs[3]? = some (.ok (.num (fin 0)))) ∧
    (∀ rs s, Run .single wit 2 p [.fit (ofENN 1), .numEdges false] (init wit.δ false) rs s →
      rs[1]? = some (.ok (.num (fin 1)))) ∧
    (∀ rs s, Run .single wit 2 p [.fit (ofENN 1),
        .avNnProp 2 (fun _ => fin 1) .other (some true) false, .numEdges false]
        (init wit.δ false) rs s →
      s.selfloops = true ∧ rs[2]? = some (.ok (.num (fin 2)))) ∧
    (∀ rs s, Run .single wit 2 p [.fit (ofENN 0), .outDegree false, .fit (ofENN 1),
        .avNnProp 2 (fun _ => fin 1) .out none false] (init wit.δ false) rs s →
      rs[3]? = some (.error .emptyNeighbourhood)) := by
  have hf : Spec.fitProb 1 = 1 / 2 := by simp [Spec.fitProb]; norm_num
  have h1 : (at_ wit (ofENN 1)).exp_edges 2 false = fin 1 := by
    rw [wit_exp_edges]; simp [Finset.sum_range_succ, admissible, hf]; norm_num
  have h2 : (at_ wit (ofENN 1)).exp_edges 2 true = fin 2 := by
    rw [wit_exp_edges]; simp [admissible, hf]
  have h0 : (at_ wit (ofENN 0)).exp_edges 2 false = fin 0 := by
    rw [wit_exp_edges]; simp [Spec.fitProb]
  refine ⟨fun rs s h => ?_, fun rs s h => ?_, fun rs s h => ?_, fun rs s h => ?_⟩
  · have := (C81_history .single 0 hp _ _ (good_init false) (by
      intro θ h
      simp only [List.mem_cons, List.not_mem_nil, or_false, false_or, reduceCtorEq]
        at h
      rcases h with h | h
      · rw [Op.fit.inj h]; exact wit_spark 0
      · rw [Op.fit.inj h]; exact wit_spark 1) rs s).1 h
    obtain rfl := congrArg Prod.fst this
    rw [← h0]; rfl
  · have := (C81_history .single 0 hp _ _ (good_init false) (by
      intro θ h
      simp only [List.mem_cons, List.not_mem_nil, or_false, reduceCtorEq] at h
      rw [Op.fit.inj h]; exact wit_spark 1) rs s).1 h
    obtain rfl := congrArg Prod.fst this
    rw [← h1]; rfl
  · have := (C81_history .single 0 hp _ _ (good_init false) (by
      intro θ h
      simp only [List.mem_cons, List.not_mem_nil, or_false, reduceCtorEq] at h
      rw [Op.fit.inj h]; exact wit_spark 1) rs s).1 h
    obtain rfl := congrArg Prod.fst this
    obtain rfl := congrArg Prod.snd this
    rw [← h2]
    exact ⟨rfl, rfl⟩
  · have := (C81_history .single 0 hp _ _ (good_init false) (by
      intro θ h
      simp only [List.mem_cons, List.not_mem_nil, or_false, false_or, reduceCtorEq] at h
      rcases h with h | h
      · rw [Op.fit.inj h]; exact wit_spark 0
      · rw [Op.fit.inj h]; exact wit_spark 1) rs s).1 h
    obtain rfl := congrArg Prod.fst this
    have h := _root_.Verif.Query.refit_assertion (E := wit) 0 2 (ofENN 0) (ofENN 1)
      (wit_spark 0).coherent (wit_spark 1).coherent (dyadConst_of (wit_spark 1)) false (fun _ => 1)
      0 (by norm_num)
      (by
        simp only [_root_.Verif.Query.weight, masked, admissible, wit_prob,
          Finset.sum_range_succ, Finset.sum_range_zero]
        simp [Spec.fitProb])
      (by
        simp only [_root_.Verif.Query.weight, masked, admissible, wit_prob,
          Finset.sum_range_succ, Finset.sum_range_zero]
        simp [Spec.fitProb])
    beta_reduce at h
    exact h

/-- The name of the cached attribute does not distinguish `"out_in"` from `"out-in"`: the
undocumented direction raises on a newly fitted ensemble, but returns the value for `"out-in"` once
that has been asked for. -/
theorem C81_key_violated (hp : 0 < p) :
    (∀ rs s, Run .single wit 2 p [.fit (ofENN 1), .avNnDegree .out .underscored none false false]
      (init wit.δ false) rs s → rs = [.ok .none, .error .badNdir]) ∧
    (∀ rs s, Run .single wit 2 p [.fit (ofENN 1), .avNnDegree .out .outIn none false false,
        .avNnDegree .out .underscored none false false] (init wit.δ false) rs s →
      ∃ v, rs = [.ok .none, .ok v, .ok v]) := by
  have key := _root_.Verif.Query.key_twice (E := wit) 0 2 (ofENN 1) (wit_spark 1).coherent
    (dyadConst_of (wit_spark 1)) false
  beta_reduce at key
  refine ⟨fun rs s h => ?_, fun rs s h => ?_⟩
  · have := (C81_history .single 0 hp _ _ (good_init false) (by
      intro θ h
      simp only [List.mem_cons, List.not_mem_nil, or_false, reduceCtorEq] at h
      rw [Op.fit.inj h]; exact wit_spark 1) rs s).1 h
    obtain rfl := congrArg Prod.fst this
    exact congrArg (fun l => Except.ok Ret.none :: l) key.1
  · have := (C81_history .single 0 hp _ _ (good_init false) (by
      intro θ h
      simp only [List.mem_cons, List.not_mem_nil, or_false, reduceCtorEq] at h
      rw [Op.fit.inj h]; exact wit_spark 1) rs s).1 h
    obtain rfl := congrArg Prod.fst this
    obtain ⟨v, hv⟩ := key.2
    exact ⟨v, congrArg (fun l => Except.ok Ret.none :: l) hv⟩

end Spark.Query

end

end Verif
