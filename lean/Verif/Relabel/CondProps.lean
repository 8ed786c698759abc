import Verif.Relabel.Cond
import Verif.Cond.Query
import Verif.Cond.Props

/-!
# C90: histories, likelihood and sampling of the conditional model
-/

namespace Verif

open XR DiGraphEnsemble MeasureTheory ProbabilityTheory
open scoped ENNReal NNReal

namespace Relabel

open Verif.Cond (Obj Mat condP)
open Verif.Query (St Op Ret)

variable {σ : Equiv.Perm ℕ} {n : ℕ} {o : Obj}

/-! ## Histories of calls -/

section

open Verif.Cond.Calls

/-- Related results. -/
def CRes {α : Type} (R : α → α → Prop) : Except Cond.Calls.Err α → Except Cond.Calls.Err α → Prop
  | .error e, .error e' => e = e'
  | .ok a, .ok a' => R a a'
  | _, _ => False

/-- Related methods of the conditional model. -/
def CRel (σ : Equiv.Perm ℕ) (n : ℕ) {α : Type} (R : α → α → Prop) (m m' : Cond.Calls.M α) : Prop :=
  ∀ s s', Sim σ n s s' →
    CRes R (m s).1 (m' s').1 ∧ Sim σ n (m s).2 (m' s').2

theorem CRel.bind {α β : Type} {R : α → α → Prop} {S : β → β → Prop} {m m' : Cond.Calls.M α}
    {f f' : α → Cond.Calls.M β} (hm : CRel σ n R m m')
    (hf : ∀ a a', R a a' → CRel σ n S (f a) (f' a')) :
    CRel σ n S (Cond.Calls.M.bind m f) (Cond.Calls.M.bind m' f') := by
  intro s s' h
  obtain ⟨h1, h2⟩ := hm s s' h
  unfold Cond.Calls.M.bind
  generalize m s = r at h1 h2
  generalize m' s' = r' at h1 h2
  obtain ⟨a, t⟩ := r
  obtain ⟨a', t'⟩ := r'
  cases a with
  | error e =>
    cases a' with
    | error e' => exact ⟨h1, h2⟩
    | ok a' => exact h1.elim
  | ok a =>
    cases a' with
    | error e' => exact h1.elim
    | ok a' => exact hf _ _ h1 t t' h2

/-- `return self.name` -/
def cattr (o : Option (ℕ → XR)) (s : State) : Except Err (ℕ → XR) × State :=
  match o with
  | some v => (.ok v, s)
  | none => (.error (.query .attribute), s)

theorem cattr_rel {f : State → Option (ℕ → XR)}
    (hf : ∀ s s', Sim σ n s s' → OptSame σ n (f s) (f s')) :
    CRel σ n (Arr σ n) (fun s => cattr (f s) s) (fun s => cattr (f s) s) := by
  intro s s' h
  have h1 := hf s s' h
  dsimp only
  generalize f s = a at h1
  generalize f s' = a' at h1
  cases h1 with
  | none => exact ⟨rfl, h⟩
  | some hv => exact ⟨hv, h⟩

theorem c_num_edges_rel (hσ : Renum o.n σ) (r : Bool) :
    CRel σ o.n Eq (expected_num_edges o r) (expected_num_edges (obj σ o) r) := by
  intro s s' h
  unfold expected_num_edges
  rw [h.param]
  cases s.param with
  | none => exact ⟨rfl, h⟩
  | some θ =>
    dsimp only
    rw [h.edges, h.selfloops]
    have he : Cond.exp_edges (at_ (obj σ o) θ s.selfloops) θ
        = Cond.exp_edges (at_ o θ s.selfloops) θ :=
      C90_cond_edges (o := at_ o θ s.selfloops) hσ θ
    rw [he]
    by_cases hc : (s.exp_num_edges.isNone || r) = true
    · rw [if_pos hc, if_pos hc]
      cases Cond.exp_edges (at_ o θ s.selfloops) θ with
      | error e => exact ⟨rfl, h⟩
      | ok v => exact ⟨rfl, ⟨rfl, rfl, rfl, h.deg, h.out, h.inn, h.av⟩⟩
    · rw [if_neg hc, if_neg hc]
      cases hx : s.exp_num_edges with
      | none => exact ⟨rfl, h⟩
      | some v => exact ⟨rfl, h⟩

theorem c_degree_rel (hσ : Renum o.n σ) (hs : CoarseSymm o) (r : Bool) :
    CRel σ o.n (Arr σ o.n) (expected_degree o r) (expected_degree (obj σ o) r) := by
  intro s s' h
  unfold expected_degree
  rw [h.param]
  cases s.param with
  | none => exact ⟨rfl, h⟩
  | some θ =>
    dsimp only
    rw [h.deg.isNone, h.selfloops]
    have hd : Both (SameD σ) (Cond.exp_degrees (at_ o θ s.selfloops) θ)
        (Cond.exp_degrees (at_ (obj σ o) θ s.selfloops) θ) :=
      C90_cond_degrees_partial (o := at_ o θ s.selfloops) hσ hs θ
    by_cases hc : (s.exp_degree.isNone || r) = true
    · rw [if_pos hc, if_pos hc]
      generalize Cond.exp_degrees (at_ o θ s.selfloops) θ = D at hd
      generalize Cond.exp_degrees (at_ (obj σ o) θ s.selfloops) θ = D' at hd
      cases hd with
      | error e => exact ⟨rfl, h⟩
      | ok hD =>
        exact ⟨fun i _ => hD.1 i, ⟨rfl, rfl, h.edges, .some (fun i _ => hD.1 i),
          .some (fun i _ => hD.2.1 i), .some (fun i _ => hD.2.2 i), h.av⟩⟩
    · rw [if_neg hc, if_neg hc]
      exact cattr_rel (f := fun s => s.exp_degree) (fun _ _ h => h.deg) s s' h

theorem c_getOut_rel : CRel σ n (Arr σ n) getOut getOut :=
  cattr_rel (f := fun s => s.exp_out_degree) (fun _ _ h => h.out)

theorem c_getIn_rel : CRel σ n (Arr σ n) getIn getIn :=
  cattr_rel (f := fun s => s.exp_in_degree) (fun _ _ h => h.inn)

theorem c_out_degree_rel (hσ : Renum o.n σ) (hs : CoarseSymm o) (r : Bool) :
    CRel σ o.n (Arr σ o.n) (expected_out_degree o r) (expected_out_degree (obj σ o) r) := by
  intro s s' h
  unfold expected_out_degree
  rw [h.out.isNone]
  split
  · exact (c_degree_rel hσ hs r).bind (fun _ _ _ => c_getOut_rel) s s' h
  · exact c_getOut_rel s s' h

theorem c_in_degree_rel (hσ : Renum o.n σ) (hs : CoarseSymm o) (r : Bool) :
    CRel σ o.n (Arr σ o.n) (expected_in_degree o r) (expected_in_degree (obj σ o) r) := by
  intro s s' h
  unfold expected_in_degree
  rw [h.inn.isNone]
  split
  · exact (c_degree_rel hσ hs r).bind (fun _ _ _ => c_getIn_rel) s s' h
  · exact c_getIn_rel s s' h

theorem c_byDir_rel (hσ : Renum o.n σ) (hs : CoarseSymm o) (e : Verif.Query.Err) (d : Dir)
    (r : Bool) :
    CRel σ o.n (Arr σ o.n) (degreeByDir o e d r) (degreeByDir (obj σ o) e d r) := by
  cases d with
  | out => exact c_out_degree_rel hσ hs r
  | inn => exact c_in_degree_rel hσ hs r
  | outIn => exact c_degree_rel hσ hs r
  | underscored | other => exact fun _ _ h => ⟨rfl, h⟩

/-- The unconditioned ensemble read by the neighbour averages. -/
noncomputable def plain (o : Obj) (θ : XR) : Ens :=
  ⟨XR, XR, XR, XR, Sparse.ScaleInvariantModel.p_ij, fun _ _ _ _ => 0, fun _ _ _ _ => 0, θ,
    o.prop_out, o.prop_in, fun _ _ => 1⟩

theorem c_property_rel (hσ : Renum o.n σ) (hs : CoarseSymm o) (jUndef len : ℕ)
    {x x' : ℕ → XR} (hx : Arr σ o.n x x') (ndir : Dir) (sl : Option Bool) (dr : Bool) :
    CRel σ o.n (Arr σ o.n) (expected_av_nn_property jUndef o len x ndir sl dr)
      (expected_av_nn_property jUndef (obj σ o) len x' ndir sl dr) := by
  intro s s' h
  unfold expected_av_nn_property
  rw [h.param]
  cases s.param with
  | none => exact ⟨rfl, h⟩
  | some θ =>
    dsimp only
    split
    · exact ⟨rfl, h⟩
    · rw [h.selfloops]
      by_cases hk : ndir.Known
      swap
      · cases ndir with
        | out | inn | outIn => exact absurd trivial hk
        | underscored | other => exact ⟨rfl, setSelfloops_sim _ h⟩
      refine (c_byDir_rel hσ hs .badNdir ndir _).bind (fun deg deg' hdeg => ?_) _ _
        (setSelfloops_sim _ h)
      intro t t' ht
      dsimp only
      rw [ht.selfloops]
      obtain ⟨v, v', hv, hv', hvv⟩ := av_nn_renum hσ (plain o θ) (fun _ _ _ _ => rfl) jUndef x x' hx
        ndir hk t.selfloops
      have hv1 : neighbourSum jUndef o θ x ndir t.selfloops = .ok v := hv
      have hv2 : neighbourSum jUndef (obj σ o) θ x' ndir t.selfloops = .ok v' := hv'
      rw [hv1, hv2]
      dsimp only
      rw [all_renum hσ (f := fun i => !(deg i).isZero || (v i).isZero)
        (g := fun i => !(deg' i).isZero || (v' i).isZero)
        (fun i hi => by rw [hdeg i hi, hvv i hi])]
      split
      · exact ⟨average_rel hvv hdeg, restore_sim _ ht⟩
      · exact ⟨rfl, ht⟩

theorem c_getAv_rel (a c : Dir) : CRel σ n (Arr σ n) (getAv a c) (getAv a c) :=
  cattr_rel (f := fun s => s.exp_av a c) (fun _ _ h => h.av a c)

theorem c_avDegree_rel (hσ : Renum o.n σ) (hs : CoarseSymm o) (jUndef : ℕ) (ddir ndir : Dir)
    (sl : Option Bool) (dr r : Bool) :
    CRel σ o.n (Arr σ o.n) (expected_av_nn_degree jUndef o ddir ndir sl dr r)
      (expected_av_nn_degree jUndef (obj σ o) ddir ndir sl dr r) := by
  intro s s' h
  unfold expected_av_nn_degree
  rw [h.param]
  cases s.param with
  | none => exact ⟨rfl, h⟩
  | some θ =>
    dsimp only
    rw [(h.av ndir.key ddir.key).isNone, h.selfloops]
    split
    · refine (c_byDir_rel hσ hs .badDdir ddir _).bind (fun deg deg' hdeg => ?_) _ _
        (setSelfloops_sim _ h)
      refine (c_property_rel hσ hs jUndef o.n hdeg ndir _ _).bind (fun v v' hv => ?_)
      intro t t' ht
      exact c_getAv_rel _ _ _ _ (restore_sim _ (setAv_sim _ _ hv ht))
    · exact c_getAv_rel _ _ _ _ h

/-- The same result. -/
def CSame (σ : Equiv.Perm ℕ) (n : ℕ) :
    Except Cond.Calls.Err Ret → Except Cond.Calls.Err Ret → Prop
  | .error e, .error e' => e = e'
  | .ok .none, .ok .none => True
  | .ok (.num v), .ok (.num v') => v = v'
  | .ok (.arr v), .ok (.arr v') => ∀ i < n, v' i = v (σ i)
  | _, _ => False

theorem CRel.map {α : Type} {R : α → α → Prop} {m m' : Cond.Calls.M α} {f : α → Ret}
    (hm : CRel σ n R m m') (hf : ∀ a a', R a a' → CSame σ n (.ok (f a)) (.ok (f a')))
    (s s' : State) (h : Sim σ n s s') :
    CSame σ n (Cond.Calls.M.map f m s).1 (Cond.Calls.M.map f m' s').1 ∧
    Sim σ n (Cond.Calls.M.map f m s).2 (Cond.Calls.M.map f m' s').2 := by
  obtain ⟨h1, h2⟩ := hm s s' h
  unfold Cond.Calls.M.map Cond.Calls.M.bind
  generalize m s = r at h1 h2
  generalize m' s' = r' at h1 h2
  obtain ⟨a, t⟩ := r
  obtain ⟨a', t'⟩ := r'
  cases a with
  | error e =>
    cases a' with
    | error e' => exact ⟨h1, h2⟩
    | ok a' => exact h1.elim
  | ok a =>
    cases a' with
    | error e' => exact h1.elim
    | ok a' => exact ⟨hf _ _ h1, h2⟩

theorem c_call_rel (hσ : Renum o.n σ) (hs : CoarseSymm o) (jUndef : ℕ) (c : Op XR)
    (s s' : State) (h : Sim σ o.n s s') :
    CSame σ o.n (call jUndef o c s).1 (call jUndef (obj σ o) (op σ c) s').1 ∧
    Sim σ o.n (call jUndef o c s).2 (call jUndef (obj σ o) (op σ c) s').2 := by
  cases c with
  | fit θ => exact ⟨trivial, ⟨rfl, h.selfloops, h.edges, h.deg, h.out, h.inn, h.av⟩⟩
  | numEdges r => exact (c_num_edges_rel hσ r).map (f := .num) (fun _ _ h => h) s s' h
  | degree r => exact (c_degree_rel hσ hs r).map (f := .arr) (fun _ _ h => h) s s' h
  | outDegree r => exact (c_out_degree_rel hσ hs r).map (f := .arr) (fun _ _ h => h) s s' h
  | inDegree r => exact (c_in_degree_rel hσ hs r).map (f := .arr) (fun _ _ h => h) s s' h
  | avNnProp len x ndir sl dr =>
    exact (c_property_rel hσ hs jUndef len (fun i _ => rfl) ndir sl dr).map
      (f := .arr) (fun _ _ h => h) s s' h
  | avNnDegree ddir ndir sl dr r =>
    exact (c_avDegree_rel hσ hs jUndef ddir ndir sl dr r).map (f := .arr) (fun _ _ h => h) s s' h

/-- Any sequence of calls of two conditional models built from the same vertices in different
orders, when the coarse graph is symmetric.  Missing: other coarse graphs, see
`C90_cond_degrees_violated`. -/
theorem C90_cond_history_partial (hσ : Renum o.n σ) (hs : CoarseSymm o) (jUndef : ℕ) (b : Bool)
    (ops : List (Op XR)) :
    List.Forall₂ (CSame σ o.n) (run jUndef o ops (Verif.Query.init XR b)).1
      (run jUndef (obj σ o) (ops.map (op σ)) (Verif.Query.init XR b)).1 := by
  have key : ∀ (ops : List (Op XR)) (s s' : State), Sim σ o.n s s' →
      List.Forall₂ (CSame σ o.n) (run jUndef o ops s).1
        (run jUndef (obj σ o) (ops.map (op σ)) s').1 := by
    intro ops
    induction ops with
    | nil => intro _ _ _; exact .nil
    | cons c ops ih =>
      intro s s' h
      obtain ⟨h1, h2⟩ := c_call_rel hσ hs jUndef c s s' h
      exact .cons h1 (ih _ _ h2)
  exact key ops _ _ (init_sim _ b)

end

/-! ## The law -/

theorem merge_renum (σ : Equiv.Perm ℕ) (groups : ℕ → ℕ) (G : Finset (ℕ × ℕ)) :
    Law.merge (fun i => groups (σ i)) (G.image (link σ)) = Law.merge groups G := by
  unfold Law.merge
  rw [Finset.image_image]
  congr 1
  funext e
  simp [link]

theorem prob_pr (hσ : Renum n σ) (b : Bool) (d : ℝ≥0∞) (x y : ℕ → ℝ≥0) (G : Finset (ℕ × ℕ)) :
    Law.prob (Law.pairs n b) (Cond.pr d (fun i => x (σ i)) (fun i => y (σ i))) (G.image (link σ))
      = Law.prob (Law.pairs n b) (Cond.pr d x y) G :=
  C90_law hσ (Cond.fine d x y) b G

theorem coarse_renum (hσ : Renum n σ) (b : Bool) (d : ℝ≥0∞) (x y : ℕ → ℝ≥0) (groups : ℕ → ℕ)
    (A : Finset (ℕ × ℕ)) :
    Law.coarseProb (Law.pairs n b) (Cond.pr d (fun i => x (σ i)) (fun i => y (σ i)))
        (fun i => groups (σ i)) A
      = Law.coarseProb (Law.pairs n b) (Cond.pr d x y) groups A := by
  unfold Law.coarseProb Law.mean
  symm
  refine Finset.sum_nbij (fun G => G.image (link σ)) ?_ ?_ ?_ ?_
  · intro G hG
    rw [Finset.mem_powerset] at hG ⊢
    intro e he
    obtain ⟨a, ha, rfl⟩ := Finset.mem_image.1 he
    exact (link_mem_pairs hσ b a).2 (hG ha)
  · intro G _ G' _ h
    exact Finset.image_injective (link_injective σ) h
  · intro G hG
    have hG' : G ⊆ Law.pairs n b := by simpa using hG
    refine ⟨G.image (fun e => (σ e.1, σ e.2)), ?_, ?_⟩
    · simp only [Finset.coe_powerset, Set.mem_preimage, Set.mem_powerset_iff, Finset.coe_subset]
      intro e he
      obtain ⟨a, ha, rfl⟩ := Finset.mem_image.1 he
      refine (link_mem_pairs hσ b _).1 ?_
      have : link σ (σ a.1, σ a.2) = a := by simp [link]
      rw [this]
      exact hG' ha
    · dsimp only
      rw [Finset.image_image]
      have : (link σ ∘ fun e : ℕ × ℕ => (σ e.1, σ e.2)) = id := by
        funext e; simp [link]
      rw [this, Finset.image_id]
  · intro G _
    dsimp only
    rw [prob_pr hσ, merge_renum]

/-- The conditional law of the graph given the coarse graph. -/
theorem C90_cond_law (hσ : Renum n σ) (b : Bool) (d : ℝ≥0∞) (x y : ℕ → ℝ≥0) (groups : ℕ → ℕ)
    (A G : Finset (ℕ × ℕ)) :
    Law.condProb (Law.pairs n b) (Cond.pr d (fun i => x (σ i)) (fun i => y (σ i)))
        (fun i => groups (σ i)) A (G.image (link σ))
      = Law.condProb (Law.pairs n b) (Cond.pr d x y) groups A G := by
  unfold Law.condProb
  rw [merge_renum, prob_pr hσ, coarse_renum hσ]

/-- The samplers of the two models return every graph with the same probability. -/
theorem C90_cond_sampling {M : ℕ} {adj : Cond.Mat} {A : Finset (ℕ × ℕ)} {d : ℝ≥0∞} {x y : ℕ → ℝ≥0}
    {groups : ℕ → ℕ} {b : Bool} (hσ : Renum n σ) (hA : Cond.Stores M adj A)
    (hg : ∀ i < n, groups i < M)
    (hc : Law.coarseProb (Law.pairs n b) (Cond.pr d x y) groups A ≠ 0)
    (so si so' si' : Option (ℕ → ℝ)) (e e' : ℕ → ℕ → ℝ)
    {Ω Ω' : Type} [MeasurableSpace Ω] [MeasurableSpace Ω'] (P : Measure Ω) (P' : Measure Ω')
    (U : ℕ × ℕ → Ω → ℝ) (U' : ℕ × ℕ → Ω' → ℝ) (hU : IsUniform P U) (hU' : IsUniform P' U')
    (G : Finset (ℕ × ℕ)) (hG : G ⊆ Law.pairs n b) :
    P' {ω | ∃ rows, Cond.sample (obj σ (Cond.mk n M d x y groups adj b)) .none so' si'
          (fun i j => U' (i, j) ω) e' = .ok rows ∧
        (rows.map Prod.fst).toFinset = G.image (link σ)}
      = P {ω | ∃ rows, Cond.sample (Cond.mk n M d x y groups adj b) .none so si
          (fun i j => U (i, j) ω) e = .ok rows ∧ (rows.map Prod.fst).toFinset = G} := by
  rw [Cond.C40_sample_law hA hg hc so si e P U hU G hG]
  have h := Cond.C40_sample_law (n := n) (d := d) (x := fun i => x (σ i)) (y := fun i => y (σ i))
    (groups := fun i => groups (σ i)) (s := b) hA (fun i hi => hg _ ((hσ i).2 hi))
    (by rw [coarse_renum hσ]; exact hc) so' si' e' P' U' hU' (G.image (link σ)) (by
      intro e he
      obtain ⟨a, ha, rfl⟩ := Finset.mem_image.1 he
      exact (link_mem_pairs hσ b a).2 (hG ha))
  rw [C90_cond_law hσ] at h
  exact h

/-! ## Likelihood -/

theorem members_renum (hσ : Renum o.n σ) (a : ℕ) :
    ((obj σ o).members a).Perm ((o.members a).map σ.symm) := by
  unfold Obj.members
  refine ((range_renum hσ).filter _).trans (List.Perm.of_eq ?_)
  rw [List.filter_map]
  congr 2
  funext i
  simp

theorem aggAt_renum (hσ : Renum o.n σ) {g g' : Cond.Mat}
    (hg : ∀ i < o.n, ∀ j < o.n, g'.at i j = g.at (σ i) (σ j)) (a b : ℕ) :
    Cond.aggAt (obj σ o) g' a b = Cond.aggAt o g a b := by
  have hm : ∀ a i, i ∈ o.members a → i < o.n := by
    intro a i h
    unfold Obj.members at h
    simpa using (List.mem_filter.1 h).1
  have hs : ∀ i, i < o.n → σ.symm i < o.n := fun i hi => (hσ _).1 (by simpa using hi)
  unfold Cond.aggAt
  rw [((members_renum hσ a).map _).sum_eq, List.map_map]
  refine congrArg List.sum (List.map_congr_left (fun i hi => ?_))
  rw [Function.comp, ((members_renum hσ b).map _).sum_eq, List.map_map]
  refine congrArg List.sum (List.map_congr_left (fun j hj => ?_))
  rw [Function.comp, hg _ (hs i (hm a i hi)) _ (hs j (hm b j hj))]
  simp

theorem agg_likelihood_renum (hσ : Renum o.n σ) (d : XR) (l : ℕ → ℕ → Bool) :
    Cond.agg_likelihood (obj σ o) d l = Cond.agg_likelihood o d l := by
  unfold Cond.agg_likelihood
  rw [zAgg_renum hσ, aggOut_renum hσ, aggIn_renum hσ]

/-- The log-likelihood of the same graph, or the exception raised, whether or not the graph merges
to the coarse graph.  `g'` stores the entries of `g` in the other order. -/
theorem C90_cond_likelihood {M : ℕ} {adj : Cond.Mat} {d : ℝ≥0∞} {x y : ℕ → ℝ≥0}
    {groups : ℕ → ℕ} {b : Bool} (hσ : Renum n σ) (size : ℕ × ℕ) (g g' : Cond.Mat)
    (hrow : ∀ i < n, ∀ j < n, j ∈ g'.row i ↔ σ j ∈ g.row (σ i))
    (hat : ∀ i < n, ∀ j < n, g'.at i j = g.at (σ i) (σ j)) :
    Cond.log_likelihood (obj σ (Cond.mk n M d x y groups adj b)) size g'
      = Cond.log_likelihood (Cond.mk n M d x y groups adj b) size g := by
  have hl : DiGraphEnsemble.likelihood Sparse.ScaleInvariantModel.logp
        Sparse.ScaleInvariantModel.log1mp (ofENN d) n (fun i => fin (x (σ i) : ℝ))
        (fun i => fin (y (σ i) : ℝ)) (fun _ _ => (1 : XR)) (csrLink g'.indptr g'.indices) b
      = DiGraphEnsemble.likelihood Sparse.ScaleInvariantModel.logp
        Sparse.ScaleInvariantModel.log1mp (ofENN d) n (fun i => fin (x i : ℝ))
        (fun i => fin (y i : ℝ)) (fun _ _ => (1 : XR)) (csrLink g.indptr g.indices) b := by
    have e1 : (1 : XR) = ofENN 1 := by rw [ofENN_of_ne_top ENNReal.one_ne_top]; rfl
    have h2 := likelihood_eq (Cond.fine_coherent d x y) n (csrLink g.indptr g.indices) b
    have h1 := likelihood_eq (Cond.fine_coherent d (fun i => x (σ i)) (fun i => y (σ i))) n
      (csrLink g'.indptr g'.indices) b
    simp only [Cond.fin_coe, e1]
    refine h1.trans (Eq.trans ?_ h2.symm)
    congr 1
    have h3 : ∏ e ∈ Law.pairs n b, (if csrLink g'.indptr g'.indices e.1 e.2 then
          (Cond.fine d (fun i => x (σ i)) (fun i => y (σ i))).prob e
          else 1 - (Cond.fine d (fun i => x (σ i)) (fun i => y (σ i))).prob e)
        = ∏ e ∈ Law.pairs n b, (if csrLink g.indptr g.indices (σ e.1) (σ e.2) then
          (Cond.fine d (fun i => x (σ i)) (fun i => y (σ i))).prob e
          else 1 - (Cond.fine d (fun i => x (σ i)) (fun i => y (σ i))).prob e) := by
      refine Finset.prod_congr rfl (fun e he => ?_)
      obtain ⟨i, j⟩ := e
      rw [Law.mem_pairs] at he
      have hc : csrLink g'.indptr g'.indices i j = csrLink g.indptr g.indices (σ i) (σ j) := by
        rw [Bool.eq_iff_iff]
        unfold csrLink
        rw [List.contains_iff_mem, List.contains_iff_mem]
        exact hrow i he.1 j he.2.1
      rw [hc]
    refine h3.trans (prod_pairs hσ b _ _ (fun e => ?_)).symm
    have h4 := prob_link (σ := σ) (Cond.fine d x y) e
    have h5 : (Cond.fine d (fun i => x (σ i)) (fun i => y (σ i))).prob (link σ e)
        = (Cond.fine d x y).prob e := h4
    rw [h5]
    simp [link]
  unfold Cond.log_likelihood
  simp only [agg_likelihood_renum (o := Cond.mk n M d x y groups adj b) hσ,
    aggAt_renum (o := Cond.mk n M d x y groups adj b) hσ hat]
  have hl' : DiGraphEnsemble.likelihood Sparse.ScaleInvariantModel.logp
        Sparse.ScaleInvariantModel.log1mp (ofENN d) (Cond.mk n M d x y groups adj b).n
        (fun i => (Cond.mk n M d x y groups adj b).prop_out (σ i))
        (fun i => (Cond.mk n M d x y groups adj b).prop_in (σ i)) (fun _ _ => (1 : XR))
        (csrLink g'.indptr g'.indices) (Cond.mk n M d x y groups adj b).selfloops
      = DiGraphEnsemble.likelihood Sparse.ScaleInvariantModel.logp
        Sparse.ScaleInvariantModel.log1mp (ofENN d) (Cond.mk n M d x y groups adj b).n
        (Cond.mk n M d x y groups adj b).prop_out (Cond.mk n M d x y groups adj b).prop_in
        (fun _ _ => (1 : XR)) (csrLink g.indptr g.indices)
        (Cond.mk n M d x y groups adj b).selfloops := hl
  have hp : (Cond.mk n M d x y groups adj b).param = some (ofENN d) := rfl
  simp only [hp, hl']

/-! ## The violation -/

/-- Two groups of one vertex each; the coarse graph has the link `0 → 1`. -/
noncomputable def oneWay : Obj :=
  Cond.mk 2 2 1 (fun _ => 1) (fun _ => 1) (fun i => i) Cond.exAdj true

theorem oneWay_row0 : oneWay.adj.row 0 = [1] := by
  simp [oneWay, Cond.mk, Cond.exAdj, Cond.Mat.row]

theorem oneWay_row1 : oneWay.adj.row 1 = [] := by
  simp [oneWay, Cond.mk, Cond.exAdj, Cond.Mat.row]

theorem oneWay_condP (i j : ℕ) (hi : i < 2) (hj : j < 2) :
    condP oneWay (ofENN 1) i j = .ok (fin 1) := by
  have ha : ∀ (a : ℕ), a < 2 → Cond.agg 2 (fun i => i) (fun _ => fin ((1 : ℝ≥0) : ℝ)) a = fin 1 := by
    intro a ha
    rw [Cond.agg_eq]
    congr 1
    unfold Cond.groupSum
    rw [Finset.sum_const]
    have : (Finset.range 2).filter (fun i => i = a) = {a} := by
      ext k
      simp only [Finset.mem_filter, Finset.mem_range, Finset.mem_singleton]
      omega
    rw [this]; simp
  have h1 : oneWay.aggOut (oneWay.groups i) = fin 1 := ha i hi
  have h2 : oneWay.aggIn (oneWay.groups j) = fin 1 := ha j hj
  have h3 : oneWay.zAgg (oneWay.groups i) (oneWay.groups j) = .ok 1 := by
    unfold Obj.zAgg
    rw [if_neg (by simp [oneWay, Cond.mk])]
  unfold Cond.condP
  rw [h1, h2, h3]
  show Except.ok (Cond.cond_p_ij (ofENN 1) (fin ((1 : ℝ≥0) : ℝ)) (fin ((1 : ℝ≥0) : ℝ)) 1 (fin 1) (fin 1) 1)
    = _
  have h := Cond.C41_pair (d := 1) (x := 1) (y := 1) (z := 1) (X := 1) (Y := 1) (Z := 1)
    one_ne_zero (le_refl _)
  have e1 : (1 : XR) = ofENN 1 := by rw [ofENN_of_ne_top ENNReal.one_ne_top]; rfl
  have e2 : fin (1 : ℝ) = ofENN 1 := e1
  simp only [NNReal.coe_one, e2]
  rw [e1, h]
  congr 2
  refine div_self ?_
  exact (invProb_pos (by simp)).ne'

/-- With a coarse link in one direction only the expected degrees of a vertex depend on its number:
out-degree `0` for the vertex of group `0` listed first, `1` for the same vertex listed second. -/
theorem C90_cond_degrees_violated : ∃ (o : Obj) (σ : Equiv.Perm ℕ) (d : XR) (D D' : Degrees),
    Renum o.n σ ∧ Cond.exp_degrees o d = .ok D ∧ Cond.exp_degrees (obj σ o) d = .ok D' ∧
    D.exp_d_out 0 = fin 0 ∧ D'.exp_d_out (σ.symm 0) = fin 1 := by
  have hsw : Renum oneWay.n (Equiv.swap 0 1) := swap_renum
  have hc : ∀ i j, i < 2 → j < 2 →
      condP (obj (Equiv.swap 0 1) oneWay) (ofENN 1) i j = .ok (fin 1) := by
    intro i j hi hj
    rw [condP_renum hsw, oneWay_condP _ _ ((swap_renum i).2 hi) ((swap_renum j).2 hj)]
  have skip : ∀ (o : Obj) (d : XR) (i j : ℕ) (s : Degrees),
      o.groups j ∉ o.adj.row (o.groups i) → Cond.exp_degrees_step o d i s j = .ok s := by
    intro o d i j s h
    unfold Cond.exp_degrees_step
    rw [if_neg (by rw [List.contains_iff_mem]; exact h)]
  have loop : ∀ (o : Obj) (d : XR) (D : Degrees), o.n = 2 →
      Cond.exp_degrees_step o d 0 ⟨zeros, zeros, zeros⟩ 0 = .ok ⟨zeros, zeros, zeros⟩ →
      Cond.exp_degrees_step o d 1 ⟨zeros, zeros, zeros⟩ 0 = .ok D →
      Cond.exp_degrees_step o d 1 D 1 = .ok D → Cond.exp_degrees o d = .ok D := by
    intro o d D hn h1 h2 h3
    have hr : List.range 2 = [0, 1] := rfl
    have hr1 : List.range (0 + 1) = [0] := rfl
    unfold Cond.exp_degrees
    rw [hn]
    simp only [hr, List.foldlM, hr1, h1, h2, h3, bind, Except.bind, pure, Except.pure]
  refine ⟨oneWay, Equiv.swap 0 1, ofENN 1, ⟨zeros, zeros, zeros⟩,
    Cond.addPair ⟨zeros, zeros, zeros⟩ 1 0 (fin 1) (fin 1), hsw, ?_, ?_, rfl, ?_⟩
  · refine loop _ _ _ rfl (skip _ _ _ _ _ ?_) (skip _ _ _ _ _ ?_) (skip _ _ _ _ _ ?_)
    · show 0 ∉ oneWay.adj.row 0
      rw [oneWay_row0]; simp
    · show 0 ∉ oneWay.adj.row 1
      rw [oneWay_row1]; simp
    · show 1 ∉ oneWay.adj.row 1
      rw [oneWay_row1]; simp
  · have g0 : (obj (Equiv.swap 0 1) oneWay).groups 0 = 1 := by simp [oneWay, Cond.mk]
    have g1 : (obj (Equiv.swap 0 1) oneWay).groups 1 = 0 := by simp [oneWay, Cond.mk]
    refine loop _ _ _ rfl (skip _ _ _ _ _ ?_) ?_ (skip _ _ _ _ _ ?_)
    · rw [g0]
      show 1 ∉ oneWay.adj.row 1
      rw [oneWay_row1]; simp
    · unfold Cond.exp_degrees_step
      rw [if_pos, if_pos (by norm_num), hc 1 0 (by norm_num) (by norm_num),
        hc 0 1 (by norm_num) (by norm_num)]
      · rfl
      · rw [g0, g1, List.contains_iff_mem]
        show 1 ∈ oneWay.adj.row 0
        rw [oneWay_row0]; simp
    · rw [g1]
      show 0 ∉ oneWay.adj.row 0
      rw [oneWay_row0]; simp
  · simp [Cond.addPair, addAt, zeros]

/-- The hypotheses are met: two groups of two vertices, the vertices `1` and `2` listed in the other
order. -/
example : Renum 4 (Equiv.swap 1 2) ∧ Cond.Stores 2 Cond.exAdj {(0, 1)} ∧
    (∀ i < 4, Cond.exGroups i < 2) ∧
    Law.coarseProb (Law.pairs 4 false) (Cond.pr 1 (fun _ => 1) (fun _ => 1)) Cond.exGroups
      {(0, 1)} ≠ 0 ∧ ({(1, 2)} : Finset (ℕ × ℕ)) ⊆ Law.pairs 4 false ∧
    Cond.exGroups (Equiv.swap 1 2 1) ≠ Cond.exGroups 1 := by
  refine ⟨fun i => ?_, Cond.exAdj_stores, by decide, Cond.exCoarse, by decide, ?_⟩
  · by_cases h1 : i = 1
    · subst h1; simp
    · by_cases h2 : i = 2
      · subst h2; simp
      · rw [Equiv.swap_apply_of_ne_of_ne h1 h2]
  · simp [Cond.exGroups]

/-- A coarse graph with links both ways. -/
example : CoarseSymm (Cond.mk 2 1 1 (fun _ => 1) (fun _ => 1) (fun _ => 0) Cond.exAdjLoop false) ∧
    (Cond.mk 2 1 1 (fun _ => 1) (fun _ => 1) (fun _ => 0) Cond.exAdjLoop false).adj.row 0 = [0] := by
  refine ⟨fun _ _ _ _ h => h, ?_⟩
  simp [Cond.mk, Cond.exAdjLoop, Cond.Mat.row]

end Relabel

end Verif
