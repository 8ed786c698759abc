import Verif.Cond.QueryLemmas
import Verif.Cond.MeanProps
import Verif.Ensemble.QueryProps

/-! # C86: queries of the conditional model after any history of calls -/

namespace Verif.Cond.Calls

open scoped ENNReal NNReal
open XR Spec Verif.Query DiGraphEnsemble

section
variable {n M : ℕ} {d : ℝ≥0∞} {x y : ℕ → ℝ≥0} {groups : ℕ → ℕ} {adj : Mat} {s : Bool}
  {A : Finset (ℕ × ℕ)}

/-- The number of neighbours of `i` in `G` in the given direction. -/
def neighbours (n : ℕ) (dir : Dir) (G : Finset (ℕ × ℕ)) (i : ℕ) : ℕ :=
  match dir with
  | .out => Law.outDegree G i
  | .inn => Law.inDegree G i
  | _ => Law.degree n G i

/-- A history that leaves parameter and setting alone: it starts with a model fitted to `θ` and
made with the setting `b`, does not fit again, and every call in it returns or does not ask for
another setting (a call that asks for another setting and raises is the case of
`C86_setting_violated`). -/
structure History (jUndef : ℕ) (o : Obj) (θ : XR) (b : Bool) (ops : List (Op XR)) : Prop where
  query : ∀ op ∈ ops, ∀ θ', op ≠ .fit θ'
  calm : ∀ p ∈ ops.zip (run jUndef o ops (newly θ b)).1, (∃ r, p.2 = .ok r) ∨
    match p.1 with
    | .avNnProp _ _ _ sl _ => sl = none ∨ sl = some b
    | .avNnDegree _ _ sl _ _ => sl = none ∨ sl = some b
    | _ => True

theorem History.inv {jUndef : ℕ} {o : Obj} {θ : XR} {b : Bool} {ops : List (Op XR)}
    (h : History jUndef o θ b ops) : Inv o θ b (run jUndef o ops (newly θ b)).2 := by
  refine run_inv jUndef o ops _ (inv_newly o θ b) (fun op hop => ?_) (fun p hp => ?_)
  · cases op with
    | fit θ' => exact absurd rfl (h.query _ hop θ')
    | _ => trivial
  · rcases h.calm p hp with ⟨r, hr⟩ | hr
    · left; rw [hr]; rfl
    · right
      rcases p with ⟨op, res⟩
      cases op <;> first
        | trivial
        | (rcases hr with h | h <;> (subst h; rfl))

/-- The query reads no cached nearest-neighbour degree. -/
def Uncached : Op XR → Prop
  | .avNnDegree _ _ _ dr r => dr = true ∨ r = true
  | _ => True

/-- **C86**: after any such history every query (nearest-neighbour degrees: when recomputed)
returns what it returns on a newly fitted model, or raises the same exception. -/
theorem C86_history {jUndef : ℕ} {o : Obj} {θ : XR} {b : Bool} {ops : List (Op XR)}
    (h : History jUndef o θ b ops) (op : Op XR) (hop : Uncached op) :
    (call jUndef o op (run jUndef o ops (newly θ b)).2).1
      = (call jUndef o op (newly θ b)).1 := by
  cases op with
  | fit θ' => rfl
  | avNnDegree ddir ndir sl dr r => exact call_fst jUndef o h.inv (inv_newly o θ b) _ hop
  | _ => exact call_fst jUndef o h.inv (inv_newly o θ b) _ trivial

/-- Recomputing queries do not depend on the history at all, only on the current parameter and
setting. -/
theorem C86_recompute (jUndef : ℕ) (o : Obj) (θ : XR) (σ : State) (hθ : σ.param = some θ) :
    (call jUndef o (.numEdges true) σ).1 = (call jUndef o (.numEdges true) (newly θ σ.selfloops)).1 ∧
    (call jUndef o (.degree true) σ).1 = (call jUndef o (.degree true) (newly θ σ.selfloops)).1 ∧
    (call jUndef o (.outDegree true) σ).1
      = (call jUndef o (.outDegree true) (newly θ σ.selfloops)).1 ∧
    (call jUndef o (.inDegree true) σ).1
      = (call jUndef o (.inDegree true) (newly θ σ.selfloops)).1 := by
  have hdeg : ∀ (dir : Dir), dir.Known → (degreeByDir o .badDdir dir true σ).1
      = (degreeByDir o .badDdir dir true (newly θ σ.selfloops)).1 := by
    intro dir hdir
    rw [degreeByDir_spec o θ σ _ dir hdir true hθ (Or.inr rfl),
      degreeByDir_spec o θ (newly θ σ.selfloops) _ dir hdir true rfl (Or.inr rfl)]
    have : (newly θ σ.selfloops).selfloops = σ.selfloops := rfl
    rw [this]
    cases exp_degrees (at_ o θ σ.selfloops) θ <;> rfl
  refine ⟨?_, ?_, ?_, ?_⟩
  · unfold call
    rw [map_fst, map_fst, expected_num_edges_spec o θ σ true hθ (Or.inr rfl),
      expected_num_edges_spec o θ (newly θ σ.selfloops) true rfl (Or.inr rfl)]
    have : (newly θ σ.selfloops).selfloops = σ.selfloops := rfl
    rw [this]
    cases exp_edges (at_ o θ σ.selfloops) θ <;> rfl
  · unfold call; rw [map_fst, map_fst]; exact congrArg _ (hdeg .outIn trivial)
  · unfold call; rw [map_fst, map_fst]; exact congrArg _ (hdeg .out trivial)
  · unfold call; rw [map_fst, map_fst]; exact congrArg _ (hdeg .inn trivial)

/-- After a new fit, whatever happened before, recomputing queries are those of a model newly fitted
to the new parameter. -/
theorem C86_refit (jUndef : ℕ) (o : Obj) (θ : XR) (σ : State) :
    let τ := (call jUndef o (.fit θ) σ).2
    (call jUndef o (.numEdges true) τ).1
      = (call jUndef o (.numEdges true) (newly θ σ.selfloops)).1 ∧
    (call jUndef o (.degree true) τ).1 = (call jUndef o (.degree true) (newly θ σ.selfloops)).1 ∧
    (call jUndef o (.outDegree true) τ).1
      = (call jUndef o (.outDegree true) (newly θ σ.selfloops)).1 ∧
    (call jUndef o (.inDegree true) τ).1
      = (call jUndef o (.inDegree true) (newly θ σ.selfloops)).1 :=
  C86_recompute jUndef o θ (call jUndef o (.fit θ) σ).2 rfl

/-! ## Values -/

theorem newly_edges (jUndef : ℕ) (o : Obj) (θ : XR) (b r : Bool) {v : XR}
    (h : exp_edges (at_ o θ b) θ = .ok v) :
    (call jUndef o (.numEdges r) (newly θ b)).1 = .ok (.num v) := by
  unfold call
  rw [map_fst, expected_num_edges_spec o θ (newly θ b) r rfl
    (Or.inl (fun v h => by simp [newly, Verif.Query.init] at h))]
  have : (newly θ b).selfloops = b := rfl
  rw [this, h]; rfl

theorem newly_deg (o : Obj) (θ : XR) (b r : Bool) (bad : Verif.Query.Err) (dir : Dir)
    (hdir : dir.Known) {D : Degrees} (h : exp_degrees (at_ o θ b) θ = .ok D) :
    (degreeByDir o bad dir r (newly θ b)).1 = .ok (pick dir D) := by
  rw [degreeByDir_spec o θ (newly θ b) bad dir hdir r rfl (Or.inl (Or.inl ⟨rfl, rfl, rfl⟩))]
  have : (newly θ b).selfloops = b := rfl
  rw [this, h]

/-- **C86**, expected number of edges: after any history the query returns the mean number of
links of the conditional law. -/
theorem C86_edges (hA : Stores M adj A) (hg : ∀ i < n, groups i < M)
    (hc : Law.coarseProb (Law.pairs n s) (pr d x y) groups A ≠ 0) (jUndef : ℕ)
    {ops : List (Op XR)} (h : History jUndef (mk n M d x y groups adj s) (ofENN d) s ops)
    (r : Bool) :
    (call jUndef (mk n M d x y groups adj s) (.numEdges r)
        (run jUndef (mk n M d x y groups adj s) ops (newly (ofENN d) s)).2).1
      = .ok (.num (fin (Law.condMean (Law.pairs n s) (pr d x y) groups A
          (fun G => (G.card : ℝ))))) := by
  rw [C86_history h (.numEdges r) trivial]
  exact newly_edges jUndef _ _ s r (C41_edges hA hg hc)

/-- **C86**, expected degrees, for a symmetric coarse graph (undirected degrees: without coarse
self loops); see `C41_asymmetric_violated` and `C41_within_group_violated` for the other ones. -/
theorem C86_degrees_partial (hA : Stores M adj A) (hg : ∀ i < n, groups i < M)
    (hc : Law.coarseProb (Law.pairs n s) (pr d x y) groups A ≠ 0)
    (hsym : ∀ a b, (a, b) ∈ A → (b, a) ∈ A) (jUndef : ℕ)
    {ops : List (Op XR)} (h : History jUndef (mk n M d x y groups adj s) (ofENN d) s ops)
    (r : Bool) :
    let σ := (run jUndef (mk n M d x y groups adj s) ops (newly (ofENN d) s)).2
    let m := fun (dir : Dir) (i : ℕ) => Law.condMean (Law.pairs n s) (pr d x y) groups A
      (fun G => (neighbours n dir G i : ℝ))
    (∃ v, (call jUndef (mk n M d x y groups adj s) (.outDegree r) σ).1 = .ok (.arr v) ∧
      ∀ i < n, v i = fin (m .out i)) ∧
    (∃ v, (call jUndef (mk n M d x y groups adj s) (.inDegree r) σ).1 = .ok (.arr v) ∧
      ∀ i < n, v i = fin (m .inn i)) ∧
    ((∀ a, (a, a) ∉ A) →
      ∃ v, (call jUndef (mk n M d x y groups adj s) (.degree r) σ).1 = .ok (.arr v) ∧
        ∀ i < n, v i = fin (m .outIn i)) := by
  dsimp only
  rw [C86_history h (.outDegree r) trivial, C86_history h (.inDegree r) trivial,
    C86_history h (.degree r) trivial]
  obtain ⟨D, hD, hv⟩ := C41_out_in_degree_partial hA hg hc hsym
  have key : ∀ dir : Dir, dir.Known →
      (degreeByDir (mk n M d x y groups adj s) .badDdir dir r (newly (ofENN d) s)).1
        = .ok (pick dir D) := fun dir hdir =>
    newly_deg _ _ s r _ dir hdir (show exp_degrees (mk n M d x y groups adj s) (ofENN d) = _ from hD)
  refine ⟨⟨_, ?_, fun i hi => (hv i hi).1⟩, ⟨_, ?_, fun i hi => (hv i hi).2⟩, fun hloop => ?_⟩
  · unfold call; rw [map_fst]; exact congrArg _ (key .out trivial)
  · unfold call; rw [map_fst]; exact congrArg _ (key .inn trivial)
  · obtain ⟨D', hD', hv'⟩ := C41_degree_partial hA hg hc hsym hloop
    obtain rfl : D = D' := Except.ok.inj (hD.symm.trans hD')
    refine ⟨_, ?_, hv'⟩
    unfold call; rw [map_fst]; exact congrArg _ (key .outIn trivial)

/-- A history with a call that raises. -/
example : History 0 (mk 4 2 1 (fun _ => 1) (fun _ => 1) exGroups exAdjSym false) (ofENN 1) false
    [.numEdges false, .avNnProp 3 (fun _ => 1) .other none true, .degree false] := by
  refine ⟨by simp, fun p hp => Or.inr ?_⟩
  simp only [run, List.zip_cons_cons, List.zip_nil_left, List.mem_cons, List.not_mem_nil,
    or_false] at hp
  rcases hp with rfl | rfl | rfl <;> simp

/-! ## Averages over neighbours -/

/-- The mean number of neighbours under the conditional law. -/
noncomputable def condDegree (n : ℕ) (s : Bool) (p : ℕ × ℕ → ℝ) (groups : ℕ → ℕ)
    (A : Finset (ℕ × ℕ)) (dir : Dir) (i : ℕ) : ℝ :=
  Law.condMean (Law.pairs n s) p groups A (fun G => (neighbours n dir G i : ℝ))

/-- The sum of the property over the neighbours, averaged with the **unconditional** law. -/
noncomputable def fineSum (n : ℕ) (s : Bool) (p : ℕ × ℕ → ℝ) (v : ℕ → ℝ) (dir : Dir) (i : ℕ) : ℝ :=
  ∑ j ∈ Finset.range n, linkProb n s p dir i j * v j

theorem pick_condDegree (hA : Stores M adj A) (hg : ∀ i < n, groups i < M)
    (hc : Law.coarseProb (Law.pairs n s) (pr d x y) groups A ≠ 0)
    (hsym : ∀ a b, (a, b) ∈ A → (b, a) ∈ A) (dir : Dir) (hdir : dir.Known)
    (hloop : dir = .outIn → ∀ a, (a, a) ∉ A) :
    ∃ D, exp_degrees (mk n M d x y groups adj s) (ofENN d) = .ok D ∧
      ∀ i < n, pick dir D i = fin (condDegree n s (pr d x y) groups A dir i) := by
  obtain ⟨D, hD, hv⟩ := C41_out_in_degree_partial hA hg hc hsym
  refine ⟨D, hD, fun i hi => ?_⟩
  cases dir with
  | underscored | other => exact False.elim hdir
  | out => exact (hv i hi).1
  | inn => exact (hv i hi).2
  | outIn =>
    obtain ⟨D', hD', hv'⟩ := C41_degree_partial hA hg hc hsym (hloop rfl)
    obtain rfl : D = D' := Except.ok.inj (hD.symm.trans hD')
    exact hv' i hi

theorem neighbourSum_eq (jUndef : ℕ) (v : ℕ → ℝ) (dir : Dir) (hdir : dir.Known) :
    ∃ av, neighbourSum jUndef (mk n M d x y groups adj s) (ofENN d) (fun i => fin (v i)) dir s
        = .ok av ∧ ∀ i < n, av i = fin (fineSum n s (pr d x y) v dir i) := by
  have h := exp_av_nn_prop_eq (fine_coherent d x y) (fun _ _ _ _ => rfl) jUndef n v dir hdir s
  refine ⟨_, h, fun i hi => ?_⟩
  rw [exp_av_at n v dir s i hi, fin_inj]
  exact Finset.sum_congr rfl (fun j hj => by
    rw [linkProb_eq _ dir hi (Finset.mem_range.1 hj)]; rfl)

theorem newly_prop (hA : Stores M adj A) (hg : ∀ i < n, groups i < M)
    (hc : Law.coarseProb (Law.pairs n s) (pr d x y) groups A ≠ 0)
    (hsym : ∀ a b, (a, b) ∈ A → (b, a) ∈ A) (dir : Dir) (hdir : dir.Known)
    (hloop : dir = .outIn → ∀ a, (a, a) ∉ A) (jUndef : ℕ) (v : ℕ → ℝ) (sl : Option Bool)
    (dr : Bool) (b : Bool) (hb : sl.getD b = s) :
    ∃ (D : Degrees) (av : ℕ → XR),
      (∀ i < n, pick dir D i = fin (condDegree n s (pr d x y) groups A dir i)) ∧
      (∀ i < n, av i = fin (fineSum n s (pr d x y) v dir i)) ∧
      call jUndef (mk n M d x y groups adj b) (.avNnProp n (fun i => fin (v i)) dir sl dr)
          (newly (ofENN d) b)
        = if (List.range n).all (fun i => !(pick dir D i).isZero || (av i).isZero) then
            (.ok (.arr (average av (pick dir D))), restore b (fill D (newly (ofENN d) s)))
          else (.error (.query .emptyNeighbourhood), fill D (newly (ofENN d) s)) := by
  obtain ⟨D, hD, hv⟩ := pick_condDegree (x := x) (y := y) (d := d) hA hg hc hsym dir hdir hloop
  obtain ⟨av, hav, hav'⟩ := neighbourSum_eq (n := n) (M := M) (d := d) (x := x) (y := y)
    (groups := groups) (adj := adj) (s := s) jUndef v dir hdir
  refine ⟨D, av, hv, hav', ?_⟩
  unfold call Calls.M.map Calls.M.bind
  dsimp only
  rw [expected_av_nn_property_spec jUndef _ (ofENN d) n _ dir sl dr (newly (ofENN d) b) rfl
    (Or.inl (Or.inl ⟨rfl, rfl, rfl⟩))]
  have e1 : sl.getD (newly (ofENN d) b).selfloops = s := hb
  rw [e1]
  have e2 : freshProp jUndef (mk n M d x y groups adj b) (ofENN d) s n (fun i => fin (v i)) dir
      (newly (ofENN d) b) = if (List.range n).all (fun i => !(pick dir D i).isZero || (av i).isZero)
        then (.ok (average av (pick dir D)), restore b (fill D (newly (ofENN d) s)))
        else (.error (.query .emptyNeighbourhood), fill D (newly (ofENN d) s)) := by
    unfold freshProp
    have hn : ¬ n ≠ (mk n M d x y groups adj b).n := by simp [mk]
    rw [if_neg hn]
    have hD' : exp_degrees (at_ (mk n M d x y groups adj b) (ofENN d) s) (ofENN d) = .ok D := hD
    have hav2 : neighbourSum jUndef (mk n M d x y groups adj b) (ofENN d) (fun i => fin (v i)) dir s
        = .ok av := hav
    cases dir with
    | underscored | other => exact False.elim hdir
    | _ => dsimp only; rw [hD', hav2]; rfl
  rw [e2]
  by_cases ha : (List.range n).all (fun i => !(pick dir D i).isZero || (av i).isZero) = true
  · rw [if_pos ha, if_pos ha]
  · rw [if_neg ha, if_neg ha]

/-- **C86**, averages over neighbours: what a call that returns computes is the ratio of the sum
over the neighbours under the *unconditional* law to the number of neighbours under the conditional
law, after any history, whatever the setting asked for. -/
theorem C86_average_partial (hA : Stores M adj A) (hg : ∀ i < n, groups i < M)
    {b : Bool} {sl : Option Bool} (hb : sl.getD b = s)
    (hc : Law.coarseProb (Law.pairs n s) (pr d x y) groups A ≠ 0)
    (hsym : ∀ a b, (a, b) ∈ A → (b, a) ∈ A) (dir : Dir) (hdir : dir.Known)
    (hloop : dir = .outIn → ∀ a, (a, a) ∉ A) (jUndef : ℕ)
    {ops : List (Op XR)} (h : History jUndef (mk n M d x y groups adj b) (ofENN d) b ops)
    (v : ℕ → ℝ) (dr : Bool)
    (hne : ∀ i < n, condDegree n s (pr d x y) groups A dir i = 0 →
      fineSum n s (pr d x y) v dir i = 0) :
    ∃ w, (call jUndef (mk n M d x y groups adj b) (.avNnProp n (fun i => fin (v i)) dir sl dr)
        (run jUndef (mk n M d x y groups adj b) ops (newly (ofENN d) b)).2).1 = .ok (.arr w) ∧
      ∀ i < n, w i = fin (fineSum n s (pr d x y) v dir i
        / condDegree n s (pr d x y) groups A dir i) := by
  rw [C86_history h (.avNnProp n (fun i => fin (v i)) dir sl dr) trivial]
  obtain ⟨D, av, hD, hav, hcall⟩ := newly_prop (x := x) (y := y) (d := d) hA hg hc hsym dir hdir
    hloop jUndef v sl dr b hb
  rw [hcall, if_pos]
  · refine ⟨_, rfl, fun i hi => ?_⟩
    unfold average
    rw [hD i hi, hav i hi, isZero_fin]
    by_cases h0 : condDegree n s (pr d x y) groups A dir i = 0
    · rw [if_pos (by simpa using h0), h0, div_zero, hne i hi h0]
    · rw [if_neg (by simpa using h0), fin_div_fin _ _ h0]
  · rw [List.all_eq_true]
    intro i hi
    rw [List.mem_range] at hi
    rw [hD i hi, hav i hi]
    simp only [isZero_fin, Bool.or_eq_true, Bool.not_eq_true', decide_eq_false_iff_not,
      decide_eq_true_eq]
    by_cases h0 : condDegree n s (pr d x y) groups A dir i = 0
    · exact Or.inr (hne i hi h0)
    · exact Or.inl h0

/-- Otherwise the call raises the assertion. -/
theorem C86_assertion (hA : Stores M adj A) (hg : ∀ i < n, groups i < M)
    {b : Bool} {sl : Option Bool} (hb : sl.getD b = s)
    (hc : Law.coarseProb (Law.pairs n s) (pr d x y) groups A ≠ 0)
    (hsym : ∀ a b, (a, b) ∈ A → (b, a) ∈ A) (dir : Dir) (hdir : dir.Known)
    (hloop : dir = .outIn → ∀ a, (a, a) ∉ A) (jUndef : ℕ)
    {ops : List (Op XR)} (h : History jUndef (mk n M d x y groups adj b) (ofENN d) b ops)
    (v : ℕ → ℝ) (dr : Bool) {i : ℕ} (hi : i < n)
    (h0 : condDegree n s (pr d x y) groups A dir i = 0)
    (h1 : fineSum n s (pr d x y) v dir i ≠ 0) :
    (call jUndef (mk n M d x y groups adj b) (.avNnProp n (fun i => fin (v i)) dir sl dr)
        (run jUndef (mk n M d x y groups adj b) ops (newly (ofENN d) b)).2).1
      = .error (.query .emptyNeighbourhood) := by
  rw [C86_history h (.avNnProp n (fun i => fin (v i)) dir sl dr) trivial]
  obtain ⟨D, av, hD, hav, hcall⟩ := newly_prop (x := x) (y := y) (d := d) hA hg hc hsym dir hdir
    hloop jUndef v sl dr b hb
  rw [hcall, if_neg]
  rw [List.all_eq_true]
  intro hall
  have := hall i (List.mem_range.2 hi)
  rw [hD i hi, hav i hi] at this
  simp only [isZero_fin, Bool.or_eq_true, Bool.not_eq_true', decide_eq_false_iff_not,
    decide_eq_true_eq] at this
  rcases this with h | h
  · exact h h0
  · exact h1 h

/-- **C86**, nearest-neighbour degrees: what a recomputing call returns is the same ratio for the
conditional degrees in the direction `ddir`. -/
theorem C86_nn_degree_partial (hA : Stores M adj A) (hg : ∀ i < n, groups i < M)
    {b : Bool} {sl : Option Bool} (hb : sl.getD b = s)
    (hc : Law.coarseProb (Law.pairs n s) (pr d x y) groups A ≠ 0)
    (hsym : ∀ a b, (a, b) ∈ A → (b, a) ∈ A) (ddir dir : Dir) (hddir : ddir.Known)
    (hdir : dir.Known) (hloop : ddir = .outIn ∨ dir = .outIn → ∀ a, (a, a) ∉ A) (jUndef : ℕ)
    {ops : List (Op XR)} (h : History jUndef (mk n M d x y groups adj b) (ofENN d) b ops)
    (dr r : Bool) (hr : dr = true ∨ r = true)
    (hne : ∀ i < n, condDegree n s (pr d x y) groups A dir i = 0 →
      fineSum n s (pr d x y) (condDegree n s (pr d x y) groups A ddir) dir i = 0) :
    ∃ w, (call jUndef (mk n M d x y groups adj b) (.avNnDegree ddir dir sl dr r)
        (run jUndef (mk n M d x y groups adj b) ops (newly (ofENN d) b)).2).1 = .ok (.arr w) ∧
      ∀ i < n, w i = fin (fineSum n s (pr d x y) (condDegree n s (pr d x y) groups A ddir) dir i
        / condDegree n s (pr d x y) groups A dir i) := by
  rw [C86_history h (.avNnDegree ddir dir sl dr r) hr]
  obtain ⟨D, hD, hv⟩ := pick_condDegree (x := x) (y := y) (d := d) hA hg hc hsym dir hdir
    (fun h => hloop (Or.inr h))
  obtain ⟨D', hD', hv'⟩ := pick_condDegree (x := x) (y := y) (d := d) hA hg hc hsym ddir hddir
    (fun h => hloop (Or.inl h))
  obtain rfl : D = D' := Except.ok.inj (hD.symm.trans hD')
  have hrep : ∃ g : ℕ → ℝ, pick ddir D = fun i => fin (g i) := by
    have e := Except.ok.inj (hD.symm.trans
      (exp_degrees_eq hA hg (feasible_of_coarseProb (pr_mem d x y) hc) hsym))
    rw [e]
    cases ddir with
    | underscored | other => exact False.elim hddir
    | _ => exact ⟨_, rfl⟩
  obtain ⟨g, hgD⟩ := hrep
  have hgv : ∀ i < n, g i = condDegree n s (pr d x y) groups A ddir i := fun i hi => by
    have := hv' i hi
    rw [hgD] at this
    exact fin_inj.1 this
  obtain ⟨av, hav, hav'⟩ := neighbourSum_eq (n := n) (M := M) (d := d) (x := x) (y := y)
    (groups := groups) (adj := adj) (s := s) jUndef g dir hdir
  have hsum : ∀ i, fineSum n s (pr d x y) g dir i
      = fineSum n s (pr d x y) (condDegree n s (pr d x y) groups A ddir) dir i := fun i =>
    Finset.sum_congr rfl (fun j hj => by rw [hgv j (Finset.mem_range.1 hj)])
  have hall : (List.range n).all (fun i => !(pick dir D i).isZero || (av i).isZero) = true := by
    rw [List.all_eq_true]
    intro i hi
    rw [List.mem_range] at hi
    rw [hv i hi, hav' i hi, hsum]
    simp only [isZero_fin, Bool.or_eq_true, Bool.not_eq_true', decide_eq_false_iff_not,
      decide_eq_true_eq]
    by_cases h0 : condDegree n s (pr d x y) groups A dir i = 0
    · exact Or.inr (hne i hi h0)
    · exact Or.inl h0
  refine ⟨average av (pick dir D), ?_, fun i hi => ?_⟩
  · unfold call
    rw [map_fst, expected_av_nn_degree_spec jUndef _ (ofENN d) ddir dir sl dr r
      (newly (ofENN d) b) rfl (Or.inl rfl) (Or.inl (Or.inl ⟨rfl, rfl, rfl⟩))]
    have e1 : sl.getD (newly (ofENN d) b).selfloops = s := hb
    rw [e1]
    have hD' : exp_degrees (at_ (mk n M d x y groups adj b) (ofENN d) s) (ofENN d) = .ok D := hD
    have hav2 : neighbourSum jUndef (mk n M d x y groups adj b) (ofENN d) (pick ddir D) dir s
        = .ok av := by rw [hgD]; exact hav
    have hn : ¬ n ≠ (mk n M d x y groups adj b).n := by simp [mk]
    have e2 : (freshProp jUndef (mk n M d x y groups adj b) (ofENN d) s n (pick ddir D) dir
        (fill D (setSelfloops s (newly (ofENN d) b)))).1 = .ok (average av (pick dir D)) := by
      unfold freshProp
      rw [if_neg hn, hD']
      have hall' : (List.range (mk n M d x y groups adj b).n).all
          (fun i => !(pick dir D i).isZero || (av i).isZero) = true := hall
      cases dir with
      | underscored | other => exact False.elim hdir
      | _ => dsimp only; rw [hav2]; dsimp only; rw [if_pos hall']
    have e3 : (freshDeg jUndef (mk n M d x y groups adj b) (ofENN d) s ddir dir
        (newly (ofENN d) b)).1 = (freshProp jUndef (mk n M d x y groups adj b) (ofENN d) s n
          (pick ddir D) dir (fill D (setSelfloops s (newly (ofENN d) b)))).1 := by
      unfold freshDeg
      rw [hD']
      cases ddir with
      | underscored | other => exact False.elim hddir
      | _ => exact match_fst (fun res s1 => restore _ (setAv _ _ res s1)) _
    rw [e3, e2]
    rfl
  · unfold average
    rw [hv i hi, hav' i hi, isZero_fin, hsum]
    by_cases h0 : condDegree n s (pr d x y) groups A dir i = 0
    · rw [if_pos (by simpa using h0), h0, div_zero, hne i hi h0]
    · rw [if_neg (by simpa using h0), fin_div_fin _ _ h0]

/-! ## Setting and exceptions -/

theorem degreeByDir_frame (o : Obj) (bad : Verif.Query.Err) (dir : Dir) (r : Bool) (σ : State) :
    (degreeByDir o bad dir r σ).2.param = σ.param ∧
      (degreeByDir o bad dir r σ).2.selfloops = σ.selfloops := by
  have hd : ∀ σ : State, (expected_degree o r σ).2.param = σ.param ∧
      (expected_degree o r σ).2.selfloops = σ.selfloops := by
    intro σ
    unfold expected_degree
    split
    · exact ⟨rfl, rfl⟩
    · split
      · split <;> exact ⟨rfl, rfl⟩
      · split <;> exact ⟨rfl, rfl⟩
  have hout : ∀ σ : State, (getOut σ).2 = σ := fun σ => by unfold getOut; split <;> rfl
  have hin : ∀ σ : State, (getIn σ).2 = σ := fun σ => by unfold getIn; split <;> rfl
  cases dir with
  | underscored | other => exact ⟨rfl, rfl⟩
  | outIn => exact hd σ
  | out =>
    unfold degreeByDir expected_out_degree Calls.M.bind
    dsimp only
    split
    · have := hd σ
      rcases hr : expected_degree o r σ with ⟨_ | _, σ'⟩ <;> rw [hr] at this
      · exact this
      · dsimp only; rw [hout]; exact this
    · rw [hout]; exact ⟨rfl, rfl⟩
  | inn =>
    unfold degreeByDir expected_in_degree Calls.M.bind
    dsimp only
    split
    · have := hd σ
      rcases hr : expected_degree o r σ with ⟨_ | _, σ'⟩ <;> rw [hr] at this
      · exact this
      · dsimp only; rw [hin]; exact this
    · rw [hin]; exact ⟨rfl, rfl⟩

theorem restore_frame (t : Bool) (σ : State) :
    (restore t σ).param = σ.param ∧ (restore t σ).selfloops = t := by
  unfold restore
  split
  · exact ⟨rfl, rfl⟩
  · next h => exact ⟨rfl, (not_not.1 h).symm⟩

theorem prop_frame (jUndef : ℕ) (o : Obj) (len : ℕ) (prop : ℕ → XR) (ndir : Dir)
    (sl : Option Bool) (dr : Bool) (σ : State) {w : ℕ → XR}
    (h : (expected_av_nn_property jUndef o len prop ndir sl dr σ).1 = .ok w) :
    (expected_av_nn_property jUndef o len prop ndir sl dr σ).2.param = σ.param ∧
      (expected_av_nn_property jUndef o len prop ndir sl dr σ).2.selfloops = σ.selfloops := by
  unfold expected_av_nn_property Calls.M.bind at h ⊢
  split at h
  · cases h
  · next θ hθ =>
    simp only at h ⊢
    split at h
    · cases h
    · next hl =>
      rw [if_neg hl]
      have hf := degreeByDir_frame o .badNdir ndir (dr || (sl.getD σ.selfloops != σ.selfloops))
        (setSelfloops (sl.getD σ.selfloops) σ)
      rcases hr : degreeByDir o .badNdir ndir (dr || (sl.getD σ.selfloops != σ.selfloops))
        (setSelfloops (sl.getD σ.selfloops) σ) with ⟨e | deg, σ'⟩
      · rw [hr] at h; cases h
      · rw [hr] at h hf
        dsimp only at h hf ⊢
        split at h
        · cases h
        · next av hav =>
          split at h
          · next ha =>
            rw [if_pos ha]
            exact ⟨(restore_frame _ _).1.trans hf.1, (restore_frame _ _).2⟩
          · cases h

/-- **C86**, setting: a query that returns leaves parameter and self-loop setting as they were, in
every state. -/
theorem C86_setting (jUndef : ℕ) (o : Obj) (op : Op XR) (hq : ∀ θ, op ≠ .fit θ) (σ : State)
    {r : Ret} (h : (call jUndef o op σ).1 = .ok r) :
    (call jUndef o op σ).2.param = σ.param ∧ (call jUndef o op σ).2.selfloops = σ.selfloops := by
  cases op with
  | fit θ => exact absurd rfl (hq θ)
  | numEdges rec =>
    unfold call; rw [map_snd]
    unfold expected_num_edges
    split
    · exact ⟨rfl, rfl⟩
    · split
      · split <;> exact ⟨rfl, rfl⟩
      · split <;> exact ⟨rfl, rfl⟩
  | degree rec => unfold call; rw [map_snd]; exact degreeByDir_frame o .badDdir .outIn rec σ
  | outDegree rec => unfold call; rw [map_snd]; exact degreeByDir_frame o .badDdir .out rec σ
  | inDegree rec => unfold call; rw [map_snd]; exact degreeByDir_frame o .badDdir .inn rec σ
  | avNnProp len prop ndir sl dr =>
    unfold call at h ⊢
    rw [map_fst] at h
    rw [map_snd]
    cases hr : (expected_av_nn_property jUndef o len prop ndir sl dr σ).1 with
    | error e => rw [hr] at h; cases h
    | ok w => exact prop_frame jUndef o len prop ndir sl dr σ hr
  | avNnDegree ddir ndir sl dr rec =>
    unfold call at h ⊢
    rw [map_fst] at h
    rw [map_snd]
    unfold expected_av_nn_degree at h ⊢
    have hget : ∀ (nd dd : Dir) (σ : State), (getAv nd dd σ).2 = σ := getAv_snd
    split at h
    · cases h
    · next θ hθ =>
      simp only at h ⊢
      split at h
      · next hc =>
        rw [if_pos hc]
        unfold Calls.M.bind at h ⊢
        have hf := degreeByDir_frame o .badDdir ddir (dr || (sl.getD σ.selfloops != σ.selfloops))
          (setSelfloops (sl.getD σ.selfloops) σ)
        rcases hr : degreeByDir o .badDdir ddir (dr || (sl.getD σ.selfloops != σ.selfloops))
          (setSelfloops (sl.getD σ.selfloops) σ) with ⟨e | deg, σ'⟩
        · rw [hr] at h; cases h
        · rw [hr] at h hf
          dsimp only at h hf ⊢
          rcases hp : expected_av_nn_property jUndef o o.n deg ndir (some (sl.getD σ.selfloops))
            false σ' with ⟨e | w, σ''⟩
          · rw [hp] at h; cases h
          · have := prop_frame jUndef o o.n deg ndir (some (sl.getD σ.selfloops)) false σ'
              (w := w) (by rw [hp])
            rw [hp] at this
            dsimp only at this ⊢
            rw [hget]
            exact ⟨(restore_frame _ _).1.trans (this.1.trans hf.1), (restore_frame _ _).2⟩
      · next hc =>
        rw [if_neg hc, hget]
        exact ⟨rfl, rfl⟩

/-- **C86**, exceptions: which one a query raises on a newly made model.  Without parameter all
queries raise; the length of the property is tested before the direction; an unknown direction
raises `ValueError`; an exception of the compiled loops is passed on. -/
theorem C86_errors (jUndef : ℕ) (o : Obj) (θ : XR) (b : Bool) :
    (∀ op, (∀ θ', op ≠ .fit θ') →
      (call jUndef o op (Verif.Query.init XR b)).1 = .error (.query .notFitted)) ∧
    (∀ len prop dir sl dr, len ≠ o.n →
      (call jUndef o (.avNnProp len prop dir sl dr) (newly θ b)).1 = .error (.query .badShape)) ∧
    (∀ prop dir sl dr, ¬ dir.Known →
      (call jUndef o (.avNnProp o.n prop dir sl dr) (newly θ b)).1 = .error (.query .badNdir)) ∧
    (∀ dir ndir sl dr r, ¬ dir.Known →
      (call jUndef o (.avNnDegree dir ndir sl dr r) (newly θ b)).1 = .error (.query .badDdir)) ∧
    (∀ e, exp_edges (at_ o θ b) θ = .error e →
      ∀ r, (call jUndef o (.numEdges r) (newly θ b)).1 = .error (.loop e)) ∧
    (∀ e, exp_degrees (at_ o θ b) θ = .error e → ∀ r,
      (call jUndef o (.degree r) (newly θ b)).1 = .error (.loop e) ∧
      (call jUndef o (.outDegree r) (newly θ b)).1 = .error (.loop e) ∧
      (call jUndef o (.inDegree r) (newly θ b)).1 = .error (.loop e)) := by
  have hfr : DegFresh o θ (newly θ b).selfloops (newly θ b) := Or.inl ⟨rfl, rfl, rfl⟩
  refine ⟨fun op hop => ?_, fun len prop dir sl dr hl => ?_, fun prop dir sl dr hdir => ?_,
    fun dir ndir sl dr r hdir => ?_, fun e he r => ?_, fun e he r => ?_⟩
  · cases op with
    | fit θ' => exact absurd rfl (hop θ')
    | _ => rfl
  · unfold call
    rw [map_fst, expected_av_nn_property_spec jUndef o θ len prop dir sl dr _ rfl (Or.inl hfr)]
    unfold freshProp
    rw [if_pos hl]; rfl
  · unfold call
    rw [map_fst, expected_av_nn_property_spec jUndef o θ o.n prop dir sl dr _ rfl (Or.inl hfr)]
    unfold freshProp
    rw [if_neg (by simp)]
    cases dir <;> first | rfl | exact absurd trivial hdir
  · unfold call
    rw [map_fst, expected_av_nn_degree_spec jUndef o θ dir ndir sl dr r _ rfl (Or.inl rfl)
      (Or.inl hfr)]
    unfold freshDeg
    cases dir <;> first | rfl | exact absurd trivial hdir
  · unfold call
    rw [map_fst, expected_num_edges_spec o θ (newly θ b) r rfl
      (Or.inl (fun v h => by simp [newly, Verif.Query.init] at h))]
    have : (newly θ b).selfloops = b := rfl
    rw [this, he]; rfl
  · have key : ∀ dir : Dir, dir.Known →
        (degreeByDir o .badDdir dir r (newly θ b)).1 = .error (.loop e) := by
      intro dir hdir
      rw [degreeByDir_spec o θ (newly θ b) _ dir hdir r rfl (Or.inl hfr)]
      have : (newly θ b).selfloops = b := rfl
      rw [this, he]
    refine ⟨?_, ?_, ?_⟩
    · unfold call; rw [map_fst]; exact congrArg _ (key .outIn trivial)
    · unfold call; rw [map_fst]; exact congrArg _ (key .out trivial)
    · unfold call; rw [map_fst]; exact congrArg _ (key .inn trivial)

end

/-! ## Violations -/

/-- One group without coarse links. -/
noncomputable def exAdjNone : Mat := ⟨fun _ => 0, [], []⟩

theorem exAdjNone_stores : Stores 1 exAdjNone ∅ := by
  refine ⟨fun a b => ?_, fun a b h => ?_, fun a ha => ?_⟩
  · simp [exAdjNone, Mat.row]
  · simp at h
  · simp [exAdjNone, Mat.row]

theorem pr_log (k : ℝ) (hk : 1 < k) (e : ℕ × ℕ) :
    pr (ENNReal.ofReal (Real.log k)) (fun _ => 1) (fun _ => 1) e = 1 - 1 / k := by
  have hlog : 0 < Real.log k := Real.log_pos hk
  rw [pr_eq]
  simp only [ENNReal.coe_one, mul_one]
  rw [invProb_of_ne_top ENNReal.ofReal_ne_top, ENNReal.toReal_ofReal hlog.le, Real.exp_neg,
    Real.exp_log (by linarith), one_div]

theorem loop_coarse (k : ℝ) (hk : 1 < k) :
    Law.coarseProb (Law.pairs 2 false) (pr (ENNReal.ofReal (Real.log k)) (fun _ => 1) (fun _ => 1))
      (fun _ => 0) {(0, 0)} ≠ 0 :=
  coarseProb_unit_ne_zero (T := {(0, 0)}) (by decide) (by decide) (by decide)
    (by simpa using Real.log_pos hk) ENNReal.ofReal_ne_top

theorem loop_condLink (k : ℝ) (hk : 1 < k) (e : ℕ × ℕ) :
    Law.condLink (Law.pairs 2 false) (pr (ENNReal.ofReal (Real.log k)) (fun _ => 1) (fun _ => 1))
      (fun _ => 0) {(0, 0)} e = (1 - 1 / k) / (1 - (1 / k) ^ 2) := by
  unfold Law.condLink
  rw [if_pos (by simp)]
  simp only [pr_log k hk, Finset.prod_const, sub_sub_cancel]
  have : (Law.block (Law.pairs 2 false) (fun _ => 0) (0, 0)).card = 2 := by decide
  rw [this]

theorem loop_edges (k : ℝ) (hk : 1 < k) :
    Law.condMean (Law.pairs 2 false) (pr (ENNReal.ofReal (Real.log k)) (fun _ => 1) (fun _ => 1))
      (fun _ => 0) {(0, 0)} (fun G => (G.card : ℝ)) = 2 * ((1 - 1 / k) / (1 - (1 / k) ^ 2)) := by
  rw [Law.condMean_card (key_in (M := 1) (by decide)) (coarse_in exAdjLoop_stores)
    (loop_coarse k hk)]
  simp only [loop_condLink k hk]
  have : Law.pairs 2 false = {(0, 1), (1, 0)} := by decide
  rw [this]
  simp

theorem loop_out (k : ℝ) (hk : 1 < k) (i : ℕ) (hi : i < 2) :
    condDegree 2 false (pr (ENNReal.ofReal (Real.log k)) (fun _ => 1) (fun _ => 1))
      (fun _ => 0) {(0, 0)} .out i = (1 - 1 / k) / (1 - (1 / k) ^ 2) := by
  unfold condDegree neighbours Law.outDegree
  dsimp only
  rw [Law.condMean_card_filter (key_in (M := 1) (by decide)) (coarse_in exAdjLoop_stores)
    (loop_coarse k hk)]
  simp only [loop_condLink k hk, Finset.sum_const]
  have hp : Law.pairs 2 false = {(0, 1), (1, 0)} := by decide
  have : ((Law.pairs 2 false).filter (fun e => e.1 = i)).card = 1 := by
    rw [hp]
    rcases i with _ | _ | i
    · decide
    · decide
    · omega
  rw [this, one_smul]

/-- The hypotheses of `C86_nn_degree_partial` hold for one group of two vertices. -/
example (jUndef : ℕ) : ∃ w, (call jUndef (mk 2 1 (ENNReal.ofReal (Real.log 2)) (fun _ => 1)
    (fun _ => 1) (fun _ => 0) exAdjLoop false) (.avNnDegree .out .out none false true)
    (newly (ofENN (ENNReal.ofReal (Real.log 2))) false)).1 = .ok (.arr w) :=
  have hd : ∀ i < 2, condDegree 2 false (pr (ENNReal.ofReal (Real.log 2)) (fun _ => 1)
      (fun _ => 1)) (fun _ => 0) {(0, 0)} .out i = 2 / 3 := fun i hi => by
    rw [loop_out 2 (by norm_num) i hi]; norm_num
  (C86_nn_degree_partial (b := false) (sl := none) (s := false)
    (x := fun _ => 1) (y := fun _ => 1) (d := ENNReal.ofReal (Real.log 2)) exAdjLoop_stores
    (n := 2) (groups := fun _ => 0) (by decide) rfl (loop_coarse 2 (by norm_num)) (by simp) .out
    .out trivial trivial (by simp) jUndef (ops := []) ⟨by simp, by simp⟩ false true (Or.inr rfl)
    (fun i hi h => absurd (h.symm.trans (hd i hi)) (by norm_num))).imp (fun _ h => h.1)

/-- A new fit leaves the cached expectation as it was: the mean number of links is `8/5` for the
second parameter, the call returns `4/3`. -/
theorem C86_stale_violated (jUndef : ℕ) :
    ∃ (θ θ' : ℝ≥0∞),
      (run jUndef (mk 2 1 θ (fun _ => 1) (fun _ => 1) (fun _ => 0) exAdjLoop false)
        [.numEdges false, .fit (ofENN θ'), .numEdges false] (newly (ofENN θ) false)).1
        = [.ok (.num (fin (4 / 3))), .ok .none, .ok (.num (fin (4 / 3)))] ∧
      Law.condMean (Law.pairs 2 false) (pr θ' (fun _ => 1) (fun _ => 1)) (fun _ => 0) {(0, 0)}
        (fun G => (G.card : ℝ)) = 8 / 5 := by
  refine ⟨ENNReal.ofReal (Real.log 2), ENNReal.ofReal (Real.log 4), ?_, ?_⟩
  · have h1 := C41_edges exAdjLoop_stores (n := 2) (groups := fun _ => 0) (by decide)
      (loop_coarse 2 (by norm_num))
    rw [loop_edges 2 (by norm_num)] at h1
    have h2 : exp_edges (mk 2 1 (ENNReal.ofReal (Real.log 2)) (fun _ => 1) (fun _ => 1)
        (fun _ => 0) exAdjLoop false) (ofENN (ENNReal.ofReal (Real.log 2))) = .ok (fin (4 / 3)) := by
      refine Eq.trans h1 ?_
      norm_num
    simp only [run, call, Calls.M.map, Calls.M.bind]
    rw [expected_num_edges_spec _ (ofENN (ENNReal.ofReal (Real.log 2))) (newly _ false) false rfl
      (Or.inl (fun v h => by simp [newly, Verif.Query.init] at h))]
    have h3 : exp_edges (at_ (mk 2 1 (ENNReal.ofReal (Real.log 2)) (fun _ => 1) (fun _ => 1)
        (fun _ => 0) exAdjLoop false) (ofENN (ENNReal.ofReal (Real.log 2)))
        (newly (ofENN (ENNReal.ofReal (Real.log 2))) false).selfloops)
        (ofENN (ENNReal.ofReal (Real.log 2))) = .ok (fin (4 / 3)) := h2
    rw [h3]
    rfl
  · rw [loop_edges 4 (by norm_num)]
    norm_num

/-- The average of a property that is `1` at every vertex comes out as `3/4`: the sum is taken
with the unconditional probability `1/2`, the degree with the conditional one `2/3`. -/
theorem C86_average_violated (jUndef : ℕ) :
    ∃ (θ : ℝ≥0∞) (w : ℕ → XR),
      (call jUndef (mk 2 1 θ (fun _ => 1) (fun _ => 1) (fun _ => 0) exAdjLoop false)
        (.avNnProp 2 (fun _ => fin 1) .out none false) (newly (ofENN θ) false)).1 = .ok (.arr w) ∧
      w 0 = fin (3 / 4) ∧
      condDegree 2 false (pr θ (fun _ => 1) (fun _ => 1)) (fun _ => 0) {(0, 0)} .out 0 = 2 / 3 ∧
      Law.condMean (Law.pairs 2 false) (pr θ (fun _ => 1) (fun _ => 1)) (fun _ => 0) {(0, 0)}
        (fun G => ∑ j ∈ Finset.range 2, if (0, j) ∈ G then (1 : ℝ) else 0) = 2 / 3 := by
  have hd : ∀ i < 2, condDegree 2 false (pr (ENNReal.ofReal (Real.log 2)) (fun _ => 1)
      (fun _ => 1)) (fun _ => 0) {(0, 0)} .out i = 2 / 3 := fun i hi => by
    rw [loop_out 2 (by norm_num) i hi]; norm_num
  have hs : fineSum 2 false (pr (ENNReal.ofReal (Real.log 2)) (fun _ => 1) (fun _ => 1))
      (fun _ => 1) .out 0 = 1 / 2 := by
    unfold fineSum
    rw [Finset.sum_range_succ, Finset.sum_range_one,
      linkProb_eq _ .out (by norm_num) (by norm_num), linkProb_eq _ .out (by norm_num)
      (by norm_num)]
    simp only [weight, masked, admissible, pr_log 2 (by norm_num)]
    norm_num
  obtain ⟨w, hw, hv⟩ := C86_average_partial (b := false) (sl := none) (s := false)
    (x := fun _ => 1) (y := fun _ => 1) (d := ENNReal.ofReal (Real.log 2)) exAdjLoop_stores
    (n := 2) (groups := fun _ => 0) (by decide) rfl (loop_coarse 2 (by norm_num)) (by simp) .out
    trivial (by simp) jUndef (ops := []) ⟨by simp, by simp⟩ (fun _ => 1) false
    (fun i hi h => absurd (h.symm.trans (hd i hi)) (by norm_num))
  refine ⟨ENNReal.ofReal (Real.log 2), w, hw, ?_, hd 0 (by norm_num), ?_⟩
  · rw [hv 0 (by norm_num), hd 0 (by norm_num), hs]
    norm_num
  · rw [← hd 0 (by norm_num)]
    unfold condDegree
    refine Law.condMean_congr (fun G hG _ => ?_)
    have hp : Law.pairs 2 false = {(0, 1), (1, 0)} := by decide
    rw [hp] at hG
    have : ∀ G ∈ ({(0, 1), (1, 0)} : Finset (ℕ × ℕ)).powerset,
        (Finset.range 2).sum (fun j => if (0, j) ∈ G then 1 else 0) = Law.outDegree G 0 := by
      decide
    have h := this G (Finset.mem_powerset.2 hG)
    show _ = ((Law.outDegree G 0 : ℕ) : ℝ)
    rw [← h]
    push_cast
    rfl

/-- With a coarse graph without links all degrees are zero and the average over neighbours is an
average over nothing; the call raises `AssertionError` because the unconditional sum is positive.
The model was made with self loops; it is left without. -/
theorem C86_setting_violated (jUndef : ℕ) :
    ∃ θ : ℝ≥0∞, (call jUndef (mk 2 1 θ (fun _ => 1) (fun _ => 1) (fun _ => 0) exAdjNone true)
        (.avNnProp 2 (fun _ => fin 1) .out (some false) false) (newly (ofENN θ) true)).1
        = .error (.query .emptyNeighbourhood) ∧
      (call jUndef (mk 2 1 θ (fun _ => 1) (fun _ => 1) (fun _ => 0) exAdjNone true)
        (.avNnProp 2 (fun _ => fin 1) .out (some false) false) (newly (ofENN θ) true)).2.selfloops
        = false ∧
      Law.coarseProb (Law.pairs 2 false) (pr θ (fun _ => 1) (fun _ => 1)) (fun _ => 0) ∅ ≠ 0 ∧
      Law.coarseProb (Law.pairs 2 true) (pr θ (fun _ => 1) (fun _ => 1)) (fun _ => 0) ∅ ≠ 0 := by
  have hlog : (0 : ℝ) < Real.log 2 := Real.log_pos (by norm_num)
  have hc : ∀ s, Law.coarseProb (Law.pairs 2 s) (pr (ENNReal.ofReal (Real.log 2)) (fun _ => 1)
      (fun _ => 1)) (fun _ => 0) ∅ ≠ 0 := fun s =>
    coarseProb_unit_ne_zero (T := {(0, 0)}) (by simp) (by simp) (by simp) (by simpa using hlog)
      ENNReal.ofReal_ne_top
  have h0 : condDegree 2 false (pr (ENNReal.ofReal (Real.log 2)) (fun _ => 1) (fun _ => 1))
      (fun _ => 0) ∅ .out 0 = 0 := by
    unfold condDegree
    have : Law.condMean (Law.pairs 2 false) (pr (ENNReal.ofReal (Real.log 2)) (fun _ => 1)
        (fun _ => 1)) (fun _ => 0) ∅ (fun G => (neighbours 2 .out G 0 : ℝ))
        = Law.condMean (Law.pairs 2 false) (pr (ENNReal.ofReal (Real.log 2)) (fun _ => 1)
        (fun _ => 1)) (fun _ => 0) ∅ (fun _ => 0) :=
      Law.condMean_congr (fun G _ hm => by
        have hG : G = ∅ := by
          rw [Finset.eq_empty_iff_forall_notMem]
          intro e he
          have : (0, 0) ∈ Law.merge (fun _ => 0) G := Law.mem_merge.2 ⟨e, he, rfl⟩
          rw [hm] at this
          simp at this
        rw [hG]; simp [neighbours, Law.outDegree])
    rw [this]
    simp [Law.condMean]
  have h1 : fineSum 2 false (pr (ENNReal.ofReal (Real.log 2)) (fun _ => 1) (fun _ => 1))
      (fun _ => 1) .out 0 ≠ 0 := by
    unfold fineSum
    rw [Finset.sum_range_succ, Finset.sum_range_one,
      linkProb_eq _ .out (by norm_num) (by norm_num), linkProb_eq _ .out (by norm_num)
      (by norm_num)]
    simp only [weight, masked, admissible, pr_log 2 (by norm_num)]
    norm_num
  have herr := C86_assertion (b := true) (sl := some false) (s := false)
    (x := fun _ => 1) (y := fun _ => 1) (d := ENNReal.ofReal (Real.log 2)) exAdjNone_stores
    (n := 2) (groups := fun _ => 0) (by decide) rfl (hc false) (by simp) .out
    trivial (by simp) jUndef (ops := []) ⟨by simp, by simp⟩ (fun _ => 1) false
    (i := 0) (by norm_num) h0 h1
  refine ⟨ENNReal.ofReal (Real.log 2), herr, ?_, hc false, hc true⟩
  obtain ⟨D, av, _, _, hcall⟩ := newly_prop (b := true) (sl := some false) (s := false)
    (x := fun _ => 1) (y := fun _ => 1) (d := ENNReal.ofReal (Real.log 2)) exAdjNone_stores
    (n := 2) (groups := fun _ => 0) (by decide) (hc false) (by simp) .out
    trivial (by simp) jUndef (fun _ => 1) false rfl
  have herr' : (call jUndef (mk 2 1 (ENNReal.ofReal (Real.log 2)) (fun _ => 1) (fun _ => 1)
      (fun _ => 0) exAdjNone true) (.avNnProp 2 (fun _ => fin 1) .out (some false) false)
      (newly (ofENN (ENNReal.ofReal (Real.log 2))) true)).1
      = .error (.query .emptyNeighbourhood) := herr
  by_cases ha : (List.range 2).all (fun i => !(pick .out D i).isZero || (av i).isZero) = true
  · rw [hcall, if_pos ha] at herr'
    cases herr'
  · rw [hcall, if_neg ha]
    rfl

end Verif.Cond.Calls
