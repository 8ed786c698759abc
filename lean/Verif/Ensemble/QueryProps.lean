import Verif.Ensemble.QueryLemmas

/-!
# C17–C19: nearest-neighbour averages and the query state machine

A query is a call on an ensemble in an arbitrary state of its attributes
(`Verif/Ensemble/Query.lean`).  `newly θ b` is the state of an ensemble that has just been built
with self-loop setting `b` and fitted to the parameter `θ`.
-/

namespace Verif

open XR DiGraphEnsemble

namespace Query

/-- `j` is a neighbour of `i` in the graph `G`, in the given direction. -/
def Linked : Dir → Finset (ℕ × ℕ) → ℕ → ℕ → Prop
  | .out, G, i, j => (i, j) ∈ G
  | .inn, G, i, j => (j, i) ∈ G
  | .outIn, G, i, j => (i, j) ∈ G ∨ (j, i) ∈ G
  | .underscored, _, _, _ => False
  | .other, _, _, _ => False

instance : (d : Dir) → (G : Finset (ℕ × ℕ)) → (i j : ℕ) → Decidable (Linked d G i j)
  | .out, G, i, j => inferInstanceAs (Decidable ((i, j) ∈ G))
  | .inn, G, i, j => inferInstanceAs (Decidable ((j, i) ∈ G))
  | .outIn, G, i, j => inferInstanceAs (Decidable ((i, j) ∈ G ∨ (j, i) ∈ G))
  | .underscored, _, _, _ => inferInstanceAs (Decidable False)
  | .other, _, _, _ => inferInstanceAs (Decidable False)

/-- Probability that `j` is a neighbour of `i` in a graph drawn from the ensemble. -/
noncomputable def linkProb (n : ℕ) (b : Bool) (p : ℕ × ℕ → ℝ) (d : Dir) (i j : ℕ) : ℝ :=
  Law.mean (Law.pairs n b) p (fun G => if Linked d G i j then 1 else 0)

theorem mean_not_mem {n : ℕ} {b : Bool} (p : ℕ × ℕ → ℝ) {e : ℕ × ℕ}
    (he : e ∉ Law.pairs n b) :
    Law.mean (Law.pairs n b) p (fun G => if e ∈ G then 1 else 0) = 0 := by
  have : Law.mean (Law.pairs n b) p (fun G => if e ∈ G then 1 else 0)
      = Law.mean (Law.pairs n b) p (fun _ => 0 * 1) :=
    Law.mean_congr (fun G hG => by
      rw [if_neg, zero_mul]
      exact fun hm => he (hG hm))
  rw [this, Law.mean_smul, zero_mul]

theorem mean_mem_masked {n : ℕ} {b : Bool} (p : ℕ × ℕ → ℝ) {i j : ℕ} (hi : i < n) (hj : j < n) :
    Law.mean (Law.pairs n b) p (fun G => if (i, j) ∈ G then 1 else 0)
      = masked b (fun i j => p (i, j)) i j := by
  unfold masked
  by_cases h : admissible i j b = true
  · rw [if_pos h]
    exact Law.mean_mem p (Law.mem_pairs.2 ⟨hi, hj, admissible_iff.1 h⟩)
  · rw [if_neg h]
    exact mean_not_mem p (fun hm => h (admissible_iff.2 (Law.mem_pairs.1 hm).2.2))

theorem linkProb_eq {n : ℕ} {b : Bool} (p : ℕ × ℕ → ℝ) (d : Dir) {i j : ℕ} (hi : i < n)
    (hj : j < n) : linkProb n b p d i j = weight (fun i j => p (i, j)) b d i j := by
  cases d with
  | out => exact mean_mem_masked p hi hj
  | inn => exact mean_mem_masked p hj hi
  | underscored =>
    have : linkProb n b p .underscored i j = Law.mean (Law.pairs n b) p (fun _ => 0 * 1) := by
      unfold linkProb Linked; simp
    rw [this, Law.mean_smul, zero_mul]; rfl
  | other =>
    have : linkProb n b p .other i j = Law.mean (Law.pairs n b) p (fun _ => 0 * 1) := by
      unfold linkProb Linked; simp
    rw [this, Law.mean_smul, zero_mul]; rfl
  | outIn =>
    show Law.mean (Law.pairs n b) p (fun G => if (i, j) ∈ G ∨ (j, i) ∈ G then 1 else 0)
      = undir b (fun i j => p (i, j)) i j
    unfold undir
    by_cases hij : i = j
    · subst hij
      simp only [or_self]
      rw [mean_mem_masked p hi hi]
      by_cases hb : b = true
      · simp [masked, admissible, hb]
      · simp [masked, admissible, hb]
    · rw [if_pos hij]
      exact Law.mean_mem_or p (Law.mem_pairs.2 ⟨hi, hj, Or.inl hij⟩)
        (Law.mem_pairs.2 ⟨hj, hi, Or.inl (Ne.symm hij)⟩) (by simp [hij])

theorem freshAv_at {E : Ens} (jUndef n : ℕ) (θ : E.δ) (hE : (at_ E θ).Coherent)
    (hd : DyadConst E) (x : ℕ → ℝ) (ndir : Dir) (hdir : ndir.Known) (b : Bool) (i : ℕ)
    (hi : i < n) :
    let W := weight (fun i j => (at_ E θ).prob (i, j)) b ndir i
    freshAv jUndef E n θ b (fun i => fin (x i)) ndir i
      = fin ((∑ j ∈ Finset.range n, W j * x j) / ∑ j ∈ Finset.range n, W j) := by
  dsimp only
  unfold freshAv
  have hav := exp_av_nn_prop_eq hE (E := at_ E θ) hd jUndef n x ndir hdir b
  have hav2 : exp_av_nn_prop jUndef E.p_ij θ n E.prop_out E.prop_in E.prop_dyad
      (fun i => fin (x i)) ndir b = _ := hav
  rw [hav2]
  dsimp only
  unfold average
  rw [pick_at hE n b ndir hdir i hi]
  dsimp only
  rw [exp_av_at n x ndir b i hi]
  by_cases h : (∑ j ∈ Finset.range n, weight (fun i j => (at_ E θ).prob (i, j)) b ndir i j) = 0
  · simp only [isZero_fin, h, decide_true, if_true, div_zero]
    rw [Finset.sum_eq_zero_iff_of_nonneg (fun j _ => weight_nonneg hE b ndir i j)] at h
    rw [Finset.sum_eq_zero (fun j hj => by rw [h j hj, zero_mul])]
  · simp only [isZero_fin, h, decide_false, Bool.false_eq_true, if_false]
    exact fin_div_fin _ _ h

/-! ## C17 -/

/-- `expected_av_nn_property` returns the average of the property weighted by the probability of
being a neighbour.  The call is made in any state whose degree caches are not stale, or with
`deg_recompute` or with an overridden self-loop setting. -/
theorem C17_weighted_mean {E : Ens} (jUndef n : ℕ) (θ : E.δ) (hE : (at_ E θ).Coherent)
    (hd : DyadConst E) (x : ℕ → ℝ) (ndir : Dir) (hdir : ndir.Known) (sl : Option Bool)
    (dr : Bool) (s : St E.δ) (hθ : s.param = some θ)
    (h : DegFresh E n θ s ∨ dr = true ∨ sl.getD s.selfloops ≠ s.selfloops) :
    let P := linkProb n (sl.getD s.selfloops) (at_ E θ).prob ndir
    ∃ v, (expected_av_nn_property jUndef E n n (fun i => fin (x i)) ndir sl dr s).1 = .ok v ∧
      ∀ i < n,
        v i = fin ((∑ j ∈ Finset.range n, P i j * x j) / ∑ j ∈ Finset.range n, P i j) := by
  dsimp only
  refine ⟨_, by rw [expected_av_nn_property_spec jUndef n θ hE hd x ndir hdir sl dr s hθ h],
    fun i hi => ?_⟩
  rw [freshAv_at jUndef n θ hE hd x ndir hdir _ i hi]
  have e : ∀ j ∈ Finset.range n, weight (fun i j => (at_ E θ).prob (i, j))
      (sl.getD s.selfloops) ndir i j = linkProb n (sl.getD s.selfloops) (at_ E θ).prob ndir i j :=
    fun j hj => (linkProb_eq _ ndir hi (Finset.mem_range.1 hj)).symm
  rw [Finset.sum_congr rfl e, Finset.sum_congr rfl (fun j hj => by rw [e j hj])]

/-- The average lies between bounds of the property when the expected degree is positive, and is
`0` when it is `0`. -/
theorem C17_bounds {E : Ens} (jUndef n : ℕ) (θ : E.δ) (hE : (at_ E θ).Coherent)
    (hd : DyadConst E) (x : ℕ → ℝ) (ndir : Dir) (hdir : ndir.Known) (sl : Option Bool)
    (dr : Bool) (s : St E.δ) (hθ : s.param = some θ)
    (h : DegFresh E n θ s ∨ dr = true ∨ sl.getD s.selfloops ≠ s.selfloops)
    (lo hi : ℝ) (hlo : ∀ j < n, lo ≤ x j) (hhi : ∀ j < n, x j ≤ hi) (i : ℕ) (hin : i < n) :
    let P := linkProb n (sl.getD s.selfloops) (at_ E θ).prob ndir
    ∃ v r, (expected_av_nn_property jUndef E n n (fun i => fin (x i)) ndir sl dr s).1 = .ok v ∧
      v i = fin r ∧
      (∑ j ∈ Finset.range n, P i j = 0 → r = 0) ∧
      (∑ j ∈ Finset.range n, P i j ≠ 0 → lo ≤ r ∧ r ≤ hi) := by
  dsimp only
  obtain ⟨v, hv, hvi⟩ := C17_weighted_mean jUndef n θ hE hd x ndir hdir sl dr s hθ h
  refine ⟨v, _, hv, hvi i hin, fun h0 => by rw [h0, div_zero], fun h0 => ?_⟩
  have hP : ∀ j ∈ Finset.range n, 0 ≤ linkProb n (sl.getD s.selfloops) (at_ E θ).prob ndir i j :=
    fun j hj => by
      rw [linkProb_eq _ ndir hin (Finset.mem_range.1 hj)]
      exact weight_nonneg hE _ ndir i j
  have hpos : 0 < ∑ j ∈ Finset.range n, linkProb n (sl.getD s.selfloops) (at_ E θ).prob ndir i j :=
    lt_of_le_of_ne (Finset.sum_nonneg hP) (Ne.symm h0)
  constructor
  · rw [le_div_iff₀ hpos, Finset.mul_sum]
    refine Finset.sum_le_sum (fun j hj => ?_)
    rw [mul_comm]
    exact mul_le_mul_of_nonneg_left (hlo j (Finset.mem_range.1 hj)) (hP j hj)
  · rw [div_le_iff₀ hpos, Finset.mul_sum]
    refine Finset.sum_le_sum (fun j hj => ?_)
    rw [mul_comm hi]
    exact mul_le_mul_of_nonneg_left (hhi j (Finset.mem_range.1 hj)) (hP j hj)

/-- Witness ensemble: sparse fitness model, all fitnesses 1, so that all link probabilities are
`d / (1 + d)`. -/
noncomputable def wit : Ens := Ens.sparseFit 1 (fun _ => 1) (fun _ => 1) (fun _ _ => 1)

/-- The state just after construction with setting `b` and a fit to `θ`. -/
def newly {δ : Type} (θ : δ) (b : Bool) : St δ := { init δ b with param := some θ }

theorem newly_degFresh (E : Ens) (n : ℕ) (θ : E.δ) (b : Bool) : DegFresh E n θ (newly θ b) :=
  Or.inl ⟨rfl, rfl, rfl⟩

theorem wit_coherent (d : ENNReal) : (at_ wit (ofENN d)).Coherent :=
  Ens.isModel_coherent (E := Ens.sparseFit d (fun _ => 1) (fun _ => 1) (fun _ _ => 1))
    (.sparseFit d _ _ _)

theorem wit_dyad : DyadConst wit := fun _ _ _ _ => rfl

theorem wit_prob (d : ENNReal) (i j : ℕ) : (at_ wit (ofENN d)).prob (i, j) = Spec.fitProb d := by
  have h : (at_ wit (ofENN d)).p i j = fin (Spec.fitProb (d * 1 * 1 * 1)) := by
    exact sparse_fit_p_ij d 1 1 1
  rw [Ens.prob, h]; simp

/-- The hypotheses of C17 are met: a single vertex, an override of the setting. -/
example : (at_ wit (ofENN 1)).Coherent ∧ DyadConst wit ∧
    (newly (δ := wit.δ) (ofENN 1) false).param = some (ofENN 1) ∧
    DegFresh wit 1 (ofENN 1) (newly (ofENN 1) false) :=
  ⟨wit_coherent 1, wit_dyad, rfl, newly_degFresh _ _ _ _⟩

/-- The call on a new ensemble, for arbitrary dyadic property. -/
theorem newly_av (E : Ens) (jUndef n : ℕ) (θ : E.δ) (b : Bool) (prop : ℕ → XR) (ndir : Dir)
    (hdir : ndir.Known) (av : ℕ → XR)
    (hav : exp_av_nn_prop jUndef E.p_ij θ n E.prop_out E.prop_in E.prop_dyad prop ndir b
      = .ok av)
    (hass : (List.range n).all (fun i =>
      !(pick ndir ((at_ E θ).exp_degrees n b) i).isZero || (av i).isZero) = true) :
    (expected_av_nn_property jUndef E n n prop ndir none false (newly θ b)).1
      = .ok (average av (pick ndir ((at_ E θ).exp_degrees n b))) := by
  have hspec := degreeByDir_spec E n θ (newly θ b) .badNdir ndir hdir
    false rfl (Or.inl (newly_degFresh _ _ _ _))
  unfold expected_av_nn_property
  have e1 : (newly θ b).param = some θ := rfl
  rw [e1]
  dsimp only
  rw [if_neg (by simp)]
  unfold M.bind
  have e2 : setSelfloops ((none : Option Bool).getD (newly θ b).selfloops) (newly θ b)
      = newly θ b := rfl
  have e3 : (false || ((none : Option Bool).getD (newly θ b).selfloops
      != (newly θ b).selfloops)) = false := by simp
  rw [e2, e3, hspec]
  dsimp only
  have e4 : (filled E n θ (newly θ b)).selfloops = b := rfl
  have e5 : (newly θ b).selfloops = b := rfl
  rw [e4, e5, hav]
  dsimp only
  rw [if_pos hass]

/-- With a dyadic property that is not the same for all pairs the self-loop pass reads
`prop_dyad(i, j)` with a left-over `j`, and the claim fails: here the property is 1 everywhere
and the returned average is 2. -/
noncomputable def dyadWit : Ens :=
  Ens.sparseFit 1 (fun _ => 1) (fun _ => 1) (fun i j => if i = 1 ∧ j = 1 then 0 else 1)

theorem C17_dyad_violated (jUndef : ℕ) :
    ∃ v, (expected_av_nn_property jUndef dyadWit 2 2 (fun _ => fin 1) .out none false
      (newly (ofENN 1) true)).1 = .ok v ∧ v 1 = fin 2 := by
  have hp : ∀ i j, dyadWit.p_ij (ofENN 1) (dyadWit.prop_out i) (dyadWit.prop_in j)
      (dyadWit.prop_dyad i j) = fin (if i = 1 ∧ j = 1 then 0 else 1 / 2) := by
    intro i j
    refine (sparse_fit_p_ij 1 1 1 (if i = 1 ∧ j = 1 then 0 else 1)).trans ?_
    by_cases h : i = 1 ∧ j = 1
    · simp [h, Spec.fitProb]
    · simp [h, Spec.fitProb]; norm_num
  have hp' : ∀ i j, dyadWit.p_ij (ofENN 1) (dyadWit.prop_out i) (dyadWit.prop_in i)
      (dyadWit.prop_dyad i j) = fin (if i = 1 ∧ j = 1 then 0 else 1 / 2) := hp
  have hr : List.range 2 = [0, 1] := rfl
  have hr1 : List.range 1 = [0] := rfl
  have hav : exp_av_nn_prop jUndef dyadWit.p_ij (ofENN 1) 2 dyadWit.prop_out dyadWit.prop_in
      dyadWit.prop_dyad (fun _ => fin 1) .out true
      = .ok (fun k => if k = 0 then fin 1 else if k = 1 then fin 1 else fin 0) := by
    unfold exp_av_nn_prop
    simp only [hr, List.foldlM, hr1, List.range_zero, exp_av_nn_step, exp_av_nn_self, hp, hp']
    simp only [bind, Except.bind, pure, Except.pure]
    rw [if_pos trivial]
    congr 1
    funext k
    unfold addAt zeros
    simp only [zero_def]
    by_cases h0 : k = 0
    · subst h0; simp; norm_num
    · by_cases h1 : k = 1
      · subst h1; simp; norm_num
      · simp [h0, h1]
  have hco : (at_ dyadWit (ofENN 1)).Coherent := Ens.isModel_coherent (E := dyadWit)
    (.sparseFit _ _ _ _)
  have hprob : ∀ i j, (at_ dyadWit (ofENN 1)).prob (i, j)
      = if i = 1 ∧ j = 1 then 0 else 1 / 2 := fun i j => by
    unfold Ens.prob
    exact congrArg XR.toReal (hp i j)
  have h0 := pick_at hco 2 true .out (by simp) 0 (by norm_num)
  have h1 := pick_at hco 2 true .out (by simp) 1 (by norm_num)
  simp only [weight, masked, admissible, hprob, Finset.sum_range_succ, Finset.sum_range_zero] at h0 h1
  norm_num at h0 h1
  refine ⟨average (fun k => if k = 0 then fin 1 else if k = 1 then fin 1 else fin 0)
    (pick .out ((at_ dyadWit (ofENN 1)).exp_degrees 2 true)), ?_, ?_⟩
  · rw [newly_av dyadWit jUndef 2 (ofENN 1) true (fun _ => fin 1) .out (by simp) _ hav]
    simp [hr, h0, h1]
  · unfold average
    rw [h1]
    simp
    rw [fin_div_fin _ _ (by norm_num)]
    norm_num

/-! ## C18 -/

theorem expected_num_edges_self (E : Ens) (n : ℕ) (r : Bool) (s : St E.δ) :
    (expected_num_edges E n r s).2.selfloops = s.selfloops := by
  unfold expected_num_edges
  cases s.param with
  | none => rfl
  | some θ =>
    dsimp only
    split <;> split <;> rfl

theorem expected_degree_self (E : Ens) (n : ℕ) (r : Bool) (s : St E.δ) :
    (expected_degree E n r s).2.selfloops = s.selfloops := by
  unfold expected_degree
  cases s.param with
  | none => rfl
  | some θ =>
    dsimp only
    split <;> split <;> rfl

theorem getOut_state {δ : Type} (s : St δ) : (getOut s).2 = s := by
  unfold getOut; split <;> rfl

theorem getIn_state {δ : Type} (s : St δ) : (getIn s).2 = s := by
  unfold getIn; split <;> rfl

theorem bind_self {δ α β : Type} {m : M δ α} {f : α → M δ β} {s : St δ} {b : Bool}
    (hm : (m s).2.selfloops = b) (hf : ∀ a s', s'.selfloops = b → (f a s').2.selfloops = b) :
    (m.bind f s).2.selfloops = b := by
  unfold M.bind
  generalize m s = r at hm
  obtain ⟨(e | a), s'⟩ := r
  · exact hm
  · exact hf a s' hm

theorem degreeByDir_self (E : Ens) (n : ℕ) (e : Err) (d : Dir) (r : Bool) (s : St E.δ) :
    (degreeByDir E n e d r s).2.selfloops = s.selfloops := by
  cases d with
  | underscored | other => rfl
  | outIn => exact expected_degree_self E n r s
  | out =>
    show (expected_out_degree E n r s).2.selfloops = _
    unfold expected_out_degree
    split
    · exact bind_self (expected_degree_self E n r s) (fun _ s' h => by rw [getOut_state]; exact h)
    · rw [getOut_state]
  | inn =>
    show (expected_in_degree E n r s).2.selfloops = _
    unfold expected_in_degree
    split
    · exact bind_self (expected_degree_self E n r s) (fun _ s' h => by rw [getIn_state]; exact h)
    · rw [getIn_state]

theorem restore_self {δ : Type} (b : Bool) (s : St δ) : (restore b s).selfloops = b := by
  unfold restore
  split
  · rfl
  · rename_i h; exact (not_not.1 h).symm

/-- Postcondition of the two nearest-neighbour queries on the self-loop setting. -/
def SelfPost {δ α : Type} (b c : Bool) (r : Except Err α × St δ) : Prop :=
  ((∃ v, r.1 = .ok v) → r.2.selfloops = b) ∧ (r.2.selfloops = b ∨ r.2.selfloops = c)

theorem expected_av_nn_property_self (E : Ens) (jUndef n len : ℕ) (prop : ℕ → XR) (ndir : Dir)
    (sl : Option Bool) (dr : Bool) (s : St E.δ) :
    SelfPost s.selfloops (sl.getD s.selfloops)
      (expected_av_nn_property jUndef E n len prop ndir sl dr s) := by
  unfold expected_av_nn_property
  cases s.param with
  | none => exact ⟨fun _ => rfl, Or.inl rfl⟩
  | some θ =>
    dsimp only
    by_cases hlen : len ≠ n
    · rw [if_pos hlen]; exact ⟨fun _ => rfl, Or.inl rfl⟩
    · rw [if_neg hlen]
      have hd := degreeByDir_self E n .badNdir ndir
        (dr || (sl.getD s.selfloops != s.selfloops)) (setSelfloops (sl.getD s.selfloops) s)
      unfold M.bind
      generalize degreeByDir E n .badNdir ndir (dr || (sl.getD s.selfloops != s.selfloops))
        (setSelfloops (sl.getD s.selfloops) s) = r at hd
      obtain ⟨(e | deg), s'⟩ := r
      · exact ⟨fun ⟨v, hv⟩ => (by cases hv), Or.inr hd⟩
      · dsimp only
        split
        · exact ⟨fun ⟨v, hv⟩ => (by cases hv), Or.inr hd⟩
        · split
          · exact ⟨fun _ => restore_self _ _, Or.inl (restore_self _ _)⟩
          · exact ⟨fun ⟨v, hv⟩ => (by cases hv), Or.inr hd⟩

theorem expected_av_nn_degree_self (E : Ens) (jUndef n : ℕ) (ddir ndir : Dir)
    (sl : Option Bool) (dr r : Bool) (s : St E.δ) :
    SelfPost s.selfloops (sl.getD s.selfloops)
      (expected_av_nn_degree jUndef E n ddir ndir sl dr r s) := by
  have hget : ∀ (s : St E.δ), (getAv ndir.key ddir.key s).2 = s := by
    intro s; unfold getAv; split <;> rfl
  unfold expected_av_nn_degree
  cases s.param with
  | none => exact ⟨fun _ => rfl, Or.inl rfl⟩
  | some θ =>
    dsimp only
    split
    · have hd := degreeByDir_self E n .badDdir ddir
        (dr || (sl.getD s.selfloops != s.selfloops)) (setSelfloops (sl.getD s.selfloops) s)
      unfold M.bind
      generalize degreeByDir E n .badDdir ddir (dr || (sl.getD s.selfloops != s.selfloops))
        (setSelfloops (sl.getD s.selfloops) s) = r at hd
      obtain ⟨(e | deg), s'⟩ := r
      · exact ⟨fun ⟨v, hv⟩ => (by cases hv), Or.inr hd⟩
      · dsimp only at hd ⊢
        have hp := expected_av_nn_property_self E jUndef n n deg ndir (some (sl.getD s.selfloops))
          false s'
        generalize expected_av_nn_property jUndef E n n deg ndir (some (sl.getD s.selfloops))
          false s' = q at hp
        obtain ⟨(e | av), s''⟩ := q
        · refine ⟨fun ⟨v, hv⟩ => (by cases hv), Or.inr ?_⟩
          have h2 := hp.2
          dsimp only at h2 ⊢
          rw [hd] at h2
          simpa [setSelfloops] using h2
        · dsimp only
          have := hget (restore s.selfloops (setAv ndir.key ddir.key av s''))
          refine ⟨fun _ => ?_, Or.inl ?_⟩ <;> rw [this, restore_self]
    · refine ⟨fun _ => ?_, Or.inl ?_⟩ <;> rw [hget]

theorem map_state {δ α β : Type} (f : α → β) (m : M δ α) (s : St δ) :
    (M.map f m s).2 = (m s).2 := by
  unfold M.map M.bind
  generalize m s = r
  obtain ⟨(e | a), s'⟩ := r <;> rfl

theorem map_result {δ α β : Type} (f : α → β) (m : M δ α) (s : St δ) :
    (M.map f m s).1 = (m s).1.map f := by
  unfold M.map M.bind
  generalize m s = r
  obtain ⟨(e | a), s'⟩ := r <;> rfl

theorem map_ok {δ α β : Type} {f : α → β} {m : M δ α} {s : St δ} {v : β}
    (h : (M.map f m s).1 = .ok v) : ∃ a, (m s).1 = .ok a := by
  rw [map_result] at h
  generalize (m s).1 = r at h
  obtain (e | a) := r
  · cases h
  · exact ⟨a, rfl⟩

/-- The override of the self-loop setting requested by a call, if any. -/
def Op.override {δ : Type} : Op δ → Option Bool
  | .avNnProp _ _ _ sl _ => sl
  | .avNnDegree _ _ sl _ _ => sl
  | _ => none

/-- Every call that returns leaves the self-loop setting as it was, in every state; a call that
raises leaves it either as it was or at the value requested by the call.  What fails: restoration
when the call raises (`C18_violated`). -/
theorem C18_call_partial (jUndef : ℕ) (E : Ens) (n : ℕ) (op : Op E.δ) (s : St E.δ) :
    ((∃ v, (call jUndef E n op s).1 = .ok v) →
      (call jUndef E n op s).2.selfloops = s.selfloops) ∧
    ((call jUndef E n op s).2.selfloops = s.selfloops ∨
      some (call jUndef E n op s).2.selfloops = op.override) := by
  cases op with
  | fit θ => exact ⟨fun _ => rfl, Or.inl rfl⟩
  | numEdges r =>
    have h := expected_num_edges_self E n r s
    unfold call; rw [map_state]; exact ⟨fun _ => h, Or.inl h⟩
  | degree r =>
    have h := expected_degree_self E n r s
    unfold call; rw [map_state]; exact ⟨fun _ => h, Or.inl h⟩
  | outDegree r =>
    have h := degreeByDir_self E n .badDdir .out r s
    unfold call; rw [map_state]; exact ⟨fun _ => h, Or.inl h⟩
  | inDegree r =>
    have h := degreeByDir_self E n .badDdir .inn r s
    unfold call; rw [map_state]; exact ⟨fun _ => h, Or.inl h⟩
  | avNnProp len prop ndir sl dr =>
    have h := expected_av_nn_property_self E jUndef n len prop ndir sl dr s
    unfold call; rw [map_state]
    refine ⟨fun ⟨v, hv⟩ => h.1 (map_ok hv), ?_⟩
    rcases h.2 with h | h
    · exact Or.inl h
    · cases sl with
      | none => exact Or.inl h
      | some c => exact Or.inr (congrArg some h)
  | avNnDegree ddir ndir sl dr r =>
    have h := expected_av_nn_degree_self E jUndef n ddir ndir sl dr r s
    unfold call; rw [map_state]
    refine ⟨fun ⟨v, hv⟩ => h.1 (map_ok hv), ?_⟩
    rcases h.2 with h | h
    · exact Or.inl h
    · cases sl with
      | none => exact Or.inl h
      | some c => exact Or.inr (congrArg some h)

/-- In every history in which each call either returns or does not override the setting, the
setting is unchanged at the end. -/
theorem C18_history_partial (jUndef : ℕ) (E : Ens) (n : ℕ) (ops : List (Op E.δ)) (s : St E.δ)
    (h : ∀ e ∈ ops.zip (run jUndef E n ops s).1,
      (∃ v, e.2 = .ok v) ∨ e.1.override = none ∨ e.1.override = some s.selfloops) :
    (run jUndef E n ops s).2.selfloops = s.selfloops := by
  induction ops generalizing s with
  | nil => rfl
  | cons op ops ih =>
    have h0 := h (op, (call jUndef E n op s).1) (by simp [run])
    have hc := C18_call_partial jUndef E n op s
    have h1 : (call jUndef E n op s).2.selfloops = s.selfloops := by
      rcases h0 with h0 | h0 | h0
      · exact hc.1 h0
      · rcases hc.2 with h2 | h2
        · exact h2
        · rw [h0] at h2; cases h2
      · rcases hc.2 with h2 | h2
        · exact h2
        · rw [h0] at h2; exact Option.some.inj h2
    have := ih (call jUndef E n op s).2 (fun e he => by
      rw [h1]
      exact h e (by simp only [run, List.zip_cons_cons, List.mem_cons]; exact Or.inr he))
    rw [h1] at this
    exact this

/-- The hypotheses can be met by a history that overrides the setting and mixes in an invalid
direction. -/
example (jUndef : ℕ) : ∀ e ∈ ([.avNnProp 1 (fun _ => fin 3) .out (some true) false,
      .avNnProp 1 (fun _ => fin 3) .other none false] : List (Op wit.δ)).zip
      (run jUndef wit 1 [.avNnProp 1 (fun _ => fin 3) .out (some true) false,
        .avNnProp 1 (fun _ => fin 3) .other none false] (newly (ofENN 1) false)).1,
      (∃ v, e.2 = .ok v) ∨ e.1.override = none ∨
        e.1.override = some (newly (δ := wit.δ) (ofENN 1) false).selfloops := by
  have h := expected_av_nn_property_spec jUndef 1 (ofENN 1) (wit_coherent 1) wit_dyad
    (fun _ => 3) .out (by simp) (some true) false (newly (ofENN 1) false) rfl
    (Or.inr (Or.inr (by simp [newly, init])))
  simp only [run, List.zip_cons_cons, List.zip_nil_right, List.mem_cons, List.not_mem_nil, or_false]
  rintro e (rfl | rfl)
  · left
    unfold call; rw [map_result, h]; exact ⟨_, rfl⟩
  · exact Or.inr (Or.inl rfl)

theorem wit_exp_edges (d : ENNReal) (n : ℕ) (b : Bool) :
    (at_ wit (ofENN d)).exp_edges n b
      = fin (∑ i ∈ Finset.range n, ∑ j ∈ Finset.range n,
          if admissible i j b = true then Spec.fitProb d else 0) := by
  refine (exp_edges_eq (q := fun i j => (at_ wit (ofENN d)).prob (i, j))
    (fun i _ j _ _ => (wit_coherent d).p_eq i j)).trans ?_
  simp only [wit_prob]

/-- The setting is not restored when the call raises: an unknown direction together with
`selfloops=True` on an ensemble without self loops raises `ValueError` and leaves the ensemble
with self loops, after which `expected_num_edges` returns 2 instead of 1 (2 vertices, all
probabilities 1/2). -/
theorem C18_violated (jUndef : ℕ) :
    let s0 : St wit.δ := newly (ofENN 1) false
    let bad : Op wit.δ := .avNnProp 2 (fun _ => fin 1) .other (some true) false
    (run jUndef wit 2 [bad] s0).2.selfloops ≠ s0.selfloops ∧
    (run jUndef wit 2 [.numEdges false] s0).1 = [.ok (.num (fin 1))] ∧
    (run jUndef wit 2 [bad, .numEdges false] s0).1
      = [.error .badNdir, .ok (.num (fin 2))] := by
  have hf : Spec.fitProb 1 = 1 / 2 := by simp [Spec.fitProb]; norm_num
  have h1 : (at_ wit (ofENN 1)).exp_edges 2 false = fin 1 := by
    rw [wit_exp_edges]; simp [Finset.sum_range_succ, admissible, hf]; norm_num
  have h2 : (at_ wit (ofENN 1)).exp_edges 2 true = fin 2 := by
    rw [wit_exp_edges]; simp [admissible, hf]
  refine ⟨fun (h : true = false) => Bool.noConfusion h, ?_, ?_⟩
  · rw [← h1]; rfl
  · rw [← h2]; rfl

/-! ## C19 -/

/-- Call with arguments in the documented range: property array of the right length with finite
entries, known directions.  `c` is the self-loop setting in force during the
`expected_av_nn_degree` calls. -/
def Op.Valid {δ : Type} (n : ℕ) (b c : Bool) : Op δ → Prop
  | .fit _ => False
  | .avNnProp len prop ndir _ _ => len = n ∧ ndir.Known ∧ ∃ x : ℕ → ℝ, prop = fun i => fin (x i)
  | .avNnDegree ddir ndir sl _ _ => ddir.Known ∧ ndir.Known ∧ sl.getD b = c
  | _ => True

/-- What a call returns when nothing is cached. -/
noncomputable def ans (jUndef : ℕ) (E : Ens) (n : ℕ) (θ : E.δ) (b : Bool) : Op E.δ → Ret
  | .fit _ => .none
  | .numEdges _ => .num ((at_ E θ).exp_edges n b)
  | .degree _ => .arr (pick .outIn ((at_ E θ).exp_degrees n b))
  | .outDegree _ => .arr (pick .out ((at_ E θ).exp_degrees n b))
  | .inDegree _ => .arr (pick .inn ((at_ E θ).exp_degrees n b))
  | .avNnProp _ prop ndir sl _ => .arr (freshAv jUndef E n θ (sl.getD b) prop ndir)
  | .avNnDegree ddir ndir sl _ _ => .arr (freshAv jUndef E n θ (sl.getD b)
      (pick ddir ((at_ E θ).exp_degrees n (sl.getD b))) ndir)

/-- Every cache is empty or holds the value for the current parameter. -/
structure Inv (jUndef : ℕ) (E : Ens) (n : ℕ) (θ : E.δ) (b c : Bool) (s : St E.δ) : Prop where
  param : s.param = some θ
  self : s.selfloops = b
  deg : DegFresh E n θ s
  edges : s.exp_num_edges = none ∨ s.exp_num_edges = some ((at_ E θ).exp_edges n b)
  av : ∀ nd dd, nd.Known → dd.Known → s.exp_av nd dd = none ∨
    s.exp_av nd dd = some (freshAv jUndef E n θ c (pick dd ((at_ E θ).exp_degrees n c)) nd)

theorem Inv.filled {jUndef : ℕ} {E : Ens} {n : ℕ} {θ : E.δ} {b c : Bool} {s : St E.δ}
    (h : Inv jUndef E n θ b c s) : Inv jUndef E n θ b c (filled E n θ s) :=
  ⟨h.param, h.self, filled_degFresh _ _ _ _, h.edges, h.av⟩

theorem Inv.cleared {jUndef : ℕ} {E : Ens} {n : ℕ} {θ : E.δ} {b c : Bool} {s : St E.δ}
    (h : Inv jUndef E n θ b c s) : Inv jUndef E n θ b c (cleared s) :=
  ⟨h.param, h.self, degFresh_cleared _ _ _ _, h.edges, h.av⟩

theorem setAv_degFresh {E : Ens} {n : ℕ} {θ : E.δ} {s : St E.δ} {nd dd : Dir} {v : ℕ → XR}
    (h : DegFresh E n θ s) : DegFresh E n θ (setAv nd dd v s) := by
  rcases h with h | h
  · exact Or.inl h
  · refine Or.inr ?_
    conv_lhs => rw [h]
    rfl

theorem inv_call {jUndef : ℕ} {E : Ens} {n : ℕ} {θ : E.δ} (hE : (at_ E θ).Coherent)
    (hd : DyadConst E) {b c : Bool} {s : St E.δ} (h : Inv jUndef E n θ b c s) {op : Op E.δ}
    (hop : op.Valid n b c) :
    (call jUndef E n op s).1 = .ok (ans jUndef E n θ b op) ∧
    Inv jUndef E n θ b c (call jUndef E n op s).2 := by
  cases op with
  | fit θ => exact absurd hop id
  | numEdges r =>
    unfold call
    rw [map_result, map_state]
    obtain ⟨hp, hself, hdeg, hne, hav⟩ := h
    obtain ⟨par, slf, ne, d, do_, di, av⟩ := s
    obtain rfl : par = some θ := hp
    obtain rfl : slf = b := hself
    unfold expected_num_edges
    dsimp only at hne ⊢
    by_cases hc : (ne.isNone || r) = true
    · rw [if_pos hc]
      refine ⟨rfl, rfl, rfl, ?_, Or.inr rfl, hav⟩
      rcases hdeg with hdeg | hdeg
      · exact Or.inl hdeg
      · refine Or.inr ?_
        injection hdeg with _ _ _ h1 h2 h3
        dsimp only at h1 h2 h3 ⊢
        rw [h1, h2, h3]; rfl
    · rw [if_neg hc]
      rcases hne with hne | hne
      · rw [hne] at hc; simp at hc
      · subst hne
        exact ⟨rfl, rfl, rfl, hdeg, Or.inr rfl, hav⟩
  | degree r =>
    unfold call
    rw [map_result, map_state]
    have := degreeByDir_spec E n θ s .badDdir .outIn (by simp) r h.param (Or.inl h.deg)
    have e : expected_degree E n r s = _ := this
    rw [e, h.self]
    exact ⟨rfl, h.filled⟩
  | outDegree r =>
    unfold call
    rw [map_result, map_state]
    have := degreeByDir_spec E n θ s .badDdir .out (by simp) r h.param (Or.inl h.deg)
    have e : expected_out_degree E n r s = _ := this
    rw [e, h.self]
    exact ⟨rfl, h.filled⟩
  | inDegree r =>
    unfold call
    rw [map_result, map_state]
    have := degreeByDir_spec E n θ s .badDdir .inn (by simp) r h.param (Or.inl h.deg)
    have e : expected_in_degree E n r s = _ := this
    rw [e, h.self]
    exact ⟨rfl, h.filled⟩
  | avNnProp len prop ndir sl dr =>
    obtain ⟨rfl, hdir, x, rfl⟩ := hop
    unfold call
    rw [map_result, map_state,
      expected_av_nn_property_spec jUndef len θ hE hd x ndir hdir sl dr s h.param (Or.inl h.deg),
      h.self]
    refine ⟨rfl, ?_⟩
    dsimp only
    split
    · exact h.filled
    · exact h.cleared
  | avNnDegree ddir ndir sl dr r =>
    obtain ⟨hddir, hndir, hc⟩ := hop
    unfold call
    rw [map_result, map_state]
    by_cases hrec : (s.exp_av ndir ddir).isNone = true ∨ r = true ∨ dr = true
    · have := expected_av_nn_degree_spec jUndef n θ hE hd ddir ndir hddir hndir sl dr r s h.param
        hrec (Or.inl h.deg)
      dsimp only at this
      rw [this, h.self]
      refine ⟨rfl, ?_⟩
      dsimp only
      have key : ∀ s' : St E.δ, Inv jUndef E n θ b c s' → Inv jUndef E n θ b c
          (setAv ndir ddir (freshAv jUndef E n θ (sl.getD b)
            (pick ddir ((at_ E θ).exp_degrees n (sl.getD b))) ndir) s') := by
        intro s' h'
        refine ⟨h'.param, h'.self, setAv_degFresh h'.deg, h'.edges, fun nd dd hnd hdd => ?_⟩
        unfold setAv
        dsimp only
        split
        · rename_i he
          obtain ⟨rfl, rfl⟩ := he
          rw [hc]; exact Or.inr rfl
        · exact h'.av nd dd hnd hdd
      split
      · exact key _ h.filled
      · exact key _ h.cleared
    · have h1 : s.exp_av ndir ddir = some (freshAv jUndef E n θ c
          (pick ddir ((at_ E θ).exp_degrees n c)) ndir) := by
        rcases h.av ndir ddir hndir hddir with h0 | h0
        · exact absurd (Or.inl (by rw [h0]; rfl)) hrec
        · exact h0
      have h2 : ((s.exp_av ndir ddir).isNone || r || dr) = false := by
        rw [h1] at hrec ⊢; simpa using hrec
      have h3 : expected_av_nn_degree jUndef E n ddir ndir sl dr r s
          = (.ok (freshAv jUndef E n θ c (pick ddir ((at_ E θ).exp_degrees n c)) ndir), s) := by
        unfold expected_av_nn_degree
        rw [h.param, hndir.key, hddir.key]
        dsimp only
        rw [h2, if_neg (by simp)]
        unfold getAv
        rw [h1]
      rw [h3]
      refine ⟨?_, h⟩
      subst hc
      rfl

theorem newly_inv (jUndef : ℕ) (E : Ens) (n : ℕ) (θ : E.δ) (b c : Bool) :
    Inv jUndef E n θ b c (newly θ b) :=
  ⟨rfl, rfl, newly_degFresh _ _ _ _, Or.inl rfl, fun _ _ _ _ => Or.inl rfl⟩

theorem inv_run {jUndef : ℕ} {E : Ens} {n : ℕ} {θ : E.δ} (hE : (at_ E θ).Coherent)
    (hd : DyadConst E) {b c : Bool} (ops : List (Op E.δ)) {s : St E.δ}
    (h : Inv jUndef E n θ b c s) (hops : ∀ op ∈ ops, op.Valid n b c) :
    (run jUndef E n ops s).1 = ops.map (fun op => .ok (ans jUndef E n θ b op)) := by
  induction ops generalizing s with
  | nil => rfl
  | cons op ops ih =>
    have h1 := inv_call hE hd h (hops op (by simp))
    simp only [run, List.map_cons]
    rw [h1.1, ih h1.2 (fun o ho => hops o (by simp [ho]))]

/-- After a fit, in every history of queries with documented arguments and no further fit, each
query returns what it would return on a newly fitted ensemble — provided all
`expected_av_nn_degree` calls use the same self-loop setting.  What fails is shown by
`C19_refit_violated` and `C19_selfloops_violated`. -/
theorem C19_history_partial {jUndef : ℕ} {E : Ens} {n : ℕ} {θ : E.δ} (hE : (at_ E θ).Coherent)
    (hd : DyadConst E) (b c : Bool) (ops : List (Op E.δ)) (hops : ∀ op ∈ ops, op.Valid n b c) :
    (run jUndef E n ops (newly θ b)).1
      = ops.map (fun op => (call jUndef E n op (newly θ b)).1) := by
  rw [inv_run hE hd ops (newly_inv jUndef E n θ b c) hops]
  refine List.map_congr_left (fun op hop => ?_)
  rw [(inv_call hE hd (newly_inv jUndef E n θ b c) (hops op hop)).1]

example : ∀ op ∈ ([.numEdges false, .avNnDegree .out .inn none false false,
    .avNnProp 2 (fun i => fin i) .outIn (some true) false, .degree true] : List (Op wit.δ)),
    op.Valid 2 false false := by
  intro op hop
  simp only [List.mem_cons, List.not_mem_nil, or_false] at hop
  rcases hop with rfl | rfl | rfl | rfl
  · trivial
  · exact ⟨by simp, by simp, rfl⟩
  · exact ⟨rfl, by simp, fun i => i, rfl⟩
  · trivial

/-- The queries that recompute everything they read. -/
def Op.Recomputes {δ : Type} (n : ℕ) : Op δ → Prop
  | .fit _ => False
  | .numEdges r => r = true
  | .degree r => r = true
  | .outDegree r => r = true
  | .inDegree r => r = true
  | .avNnProp len prop ndir _ dr =>
    len = n ∧ ndir.Known ∧ (∃ x : ℕ → ℝ, prop = fun i => fin (x i)) ∧ dr = true
  | .avNnDegree ddir ndir _ dr _ => ddir.Known ∧ ndir.Known ∧ dr = true

/-- In every state whatever (hence after every history, refits and exceptions included), a query
asked to recompute returns what a newly fitted ensemble returns. -/
theorem C19_recompute_partial {jUndef : ℕ} {E : Ens} {n : ℕ} {θ : E.δ}
    (hE : (at_ E θ).Coherent) (hd : DyadConst E) (s : St E.δ) (hθ : s.param = some θ)
    (op : Op E.δ) (hop : op.Recomputes n) :
    (call jUndef E n op s).1 = (call jUndef E n op (newly θ s.selfloops)).1 := by
  have hfr : ∀ b, DegFresh E n θ (newly θ b) := newly_degFresh E n θ
  cases op with
  | fit θ => exact absurd hop id
  | numEdges r =>
    obtain rfl : r = true := hop
    unfold call
    rw [map_result, map_result]
    unfold expected_num_edges
    rw [hθ]
    simp [newly, init]
  | degree r =>
    obtain rfl : r = true := hop
    unfold call
    rw [map_result, map_result, expected_degree_spec E n θ s true hθ (Or.inr rfl),
      expected_degree_spec E n θ (newly θ s.selfloops) true rfl (Or.inr rfl)]
    rfl
  | outDegree r =>
    obtain rfl : r = true := hop
    have h1 : expected_out_degree E n true s = _ :=
      degreeByDir_spec E n θ s .badDdir .out (by simp) true hθ (Or.inr rfl)
    have h2 : expected_out_degree E n true (newly θ s.selfloops) = _ :=
      degreeByDir_spec E n θ (newly θ s.selfloops) .badDdir .out (by simp) true rfl (Or.inr rfl)
    unfold call
    rw [map_result, map_result, h1, h2]; rfl
  | inDegree r =>
    obtain rfl : r = true := hop
    have h1 : expected_in_degree E n true s = _ :=
      degreeByDir_spec E n θ s .badDdir .inn (by simp) true hθ (Or.inr rfl)
    have h2 : expected_in_degree E n true (newly θ s.selfloops) = _ :=
      degreeByDir_spec E n θ (newly θ s.selfloops) .badDdir .inn (by simp) true rfl (Or.inr rfl)
    unfold call
    rw [map_result, map_result, h1, h2]; rfl
  | avNnProp len prop ndir sl dr =>
    obtain ⟨rfl, hdir, ⟨x, rfl⟩, rfl⟩ := hop
    unfold call
    rw [map_result, map_result,
      expected_av_nn_property_spec jUndef len θ hE hd x ndir hdir sl true s hθ (Or.inr (Or.inl rfl)),
      expected_av_nn_property_spec jUndef len θ hE hd x ndir hdir sl true (newly θ s.selfloops) rfl
        (Or.inr (Or.inl rfl))]
    rfl
  | avNnDegree ddir ndir sl dr r =>
    obtain ⟨hddir, hndir, rfl⟩ := hop
    unfold call
    have h1 := expected_av_nn_degree_spec jUndef n θ hE hd ddir ndir hddir hndir sl true r s hθ
      (Or.inr (Or.inr rfl)) (Or.inr (Or.inl rfl))
    have h2 := expected_av_nn_degree_spec jUndef n θ hE hd ddir ndir hddir hndir sl true r
      (newly θ s.selfloops) rfl (Or.inr (Or.inr rfl)) (Or.inr (Or.inl rfl))
    dsimp only at h1 h2
    rw [map_result, map_result, h1, h2]
    rfl

example : (Op.avNnDegree .out .inn (some true) true false : Op wit.δ).Recomputes 2 :=
  ⟨by simp, by simp, rfl⟩

/-- `self.param = θ` -/
def setParam {δ : Type} (θ : δ) (s : St δ) : St δ := { s with param := some θ }

/-- `expected_av_nn_property(ndir="out")` with a cached out degree. -/
theorem cached_av (E : Ens) (jUndef n : ℕ) (θ : E.δ) (s : St E.δ) (hθ : s.param = some θ)
    (prop D : ℕ → XR) (hD : s.exp_out_degree = some D) (av : ℕ → XR)
    (hav : exp_av_nn_prop jUndef E.p_ij θ n E.prop_out E.prop_in E.prop_dyad prop .out s.selfloops
      = .ok av)
    (hass : (List.range n).all (fun i => !(D i).isZero || (av i).isZero) = true) :
    (expected_av_nn_property jUndef E n n prop .out none false s).1 = .ok (average av D) := by
  unfold expected_av_nn_property
  rw [hθ]
  dsimp only
  rw [if_neg (by simp)]
  unfold M.bind
  have e2 : setSelfloops ((none : Option Bool).getD s.selfloops) s = s := rfl
  have e3 : (false || ((none : Option Bool).getD s.selfloops != s.selfloops)) = false := by simp
  have e4 : degreeByDir E n .badNdir .out false s = (.ok D, s) := by
    show expected_out_degree E n false s = _
    unfold expected_out_degree getOut
    rw [hD]; rfl
  rw [e2, e3, e4]
  dsimp only
  rw [hav]
  dsimp only
  rw [if_pos hass]

/-- After a refit the default queries return the values of the old parameter: fit to 0, query,
fit to 1, query returns 0 instead of 1. -/
theorem C19_refit_violated (jUndef : ℕ) :
    (run jUndef wit 2 [.fit (ofENN 0), .numEdges false, .fit (ofENN 1), .numEdges false]
      (init wit.δ false)).1 = [.ok .none, .ok (.num (fin 0)), .ok .none, .ok (.num (fin 0))] ∧
    (run jUndef wit 2 [.fit (ofENN 1), .numEdges false] (init wit.δ false)).1
      = [.ok .none, .ok (.num (fin 1))] := by
  have hf : Spec.fitProb 1 = 1 / 2 := by simp [Spec.fitProb]; norm_num
  have h1 : (at_ wit (ofENN 1)).exp_edges 2 false = fin 1 := by
    rw [wit_exp_edges]; simp [Finset.sum_range_succ, admissible, hf]; norm_num
  have h0 : (at_ wit (ofENN 0)).exp_edges 2 false = fin 0 := by
    rw [wit_exp_edges]; simp [Spec.fitProb]
  constructor
  · rw [← h0]; rfl
  · rw [← h1]; rfl

theorem refit_run (jUndef : ℕ) (E : Ens) (n : ℕ) (θ θ' : E.δ) (b : Bool) (op : Op E.δ) :
    (run jUndef E n [.fit θ, .outDegree false, .fit θ', op] (init E.δ b)).1
      = [.ok .none, .ok (.arr (pick .out ((at_ E θ).exp_degrees n b))), .ok .none,
        (call jUndef E n op (setParam θ' (filled E n θ (newly θ b)))).1] := rfl

/-- The nearest-neighbour average mixes old and new parameters after a refit: the property is 1
for both vertices and the returned average is 2 (new link probabilities 1 divided by the cached
expected degrees for probabilities 1/2). -/
theorem C19_mixed_violated (jUndef : ℕ) :
    ∃ v r1, (run jUndef wit 2 [.fit (ofENN 1), .outDegree false, .fit (ofENN ⊤),
        .avNnProp 2 (fun _ => fin 1) .out none false] (init wit.δ false)).1
      = [.ok .none, r1, .ok .none, .ok (.arr v)] ∧ v 0 = fin 2 := by
  obtain ⟨av, hav, hav0⟩ : ∃ av, exp_av_nn_prop jUndef wit.p_ij (ofENN ⊤) 2 wit.prop_out
      wit.prop_in wit.prop_dyad (fun _ => fin 1) .out false = .ok av ∧ av 0 = fin 1 := by
    refine ⟨_, exp_av_nn_prop_eq (E := at_ wit (ofENN ⊤)) (wit_coherent ⊤) wit_dyad jUndef 2
      (fun _ => 1) .out (by simp) false, ?_⟩
    rw [exp_av_at (E := at_ wit (ofENN ⊤)) 2 (fun _ => 1) .out false 0 (by norm_num)]
    simp only [weight, masked, admissible, wit_prob, Finset.sum_range_succ, Finset.sum_range_zero]
    simp [Spec.fitProb]
  have hdeg : ∀ i < 2, pick .out ((at_ wit (ofENN 1)).exp_degrees 2 false) i = fin (1 / 2) := by
    intro i hi
    rw [pick_at (wit_coherent 1) 2 false .out (by simp) i hi]
    simp only [weight, masked, admissible, wit_prob, Finset.sum_range_succ, Finset.sum_range_zero]
    have hf : Spec.fitProb 1 = 1 / 2 := by simp [Spec.fitProb]; norm_num
    rw [hf]
    rcases (by omega : i = 0 ∨ i = 1) with rfl | rfl <;> simp
  have hcall := cached_av wit jUndef 2 (ofENN ⊤)
    (setParam (ofENN ⊤) (filled wit 2 (ofENN 1) (newly (ofENN 1) false))) rfl (fun _ => fin 1)
    (pick .out ((at_ wit (ofENN 1)).exp_degrees 2 false)) rfl av hav
    (by
      rw [List.all_eq_true]
      intro i hi
      rw [hdeg i (List.mem_range.1 hi)]; simp)
  refine ⟨average av (pick .out ((at_ wit (ofENN 1)).exp_degrees 2 false)),
    .ok (.arr (pick .out ((at_ wit (ofENN 1)).exp_degrees 2 false))), ?_, ?_⟩
  · have e : (call jUndef wit 2 (.avNnProp 2 (fun _ => fin 1) .out none false)
        (setParam (ofENN ⊤) (filled wit 2 (ofENN 1) (newly (ofENN 1) false)))).1
        = .ok (.arr (average av (pick .out ((at_ wit (ofENN 1)).exp_degrees 2 false)))) := by
      unfold call
      rw [map_result, hcall]
      rfl
    rw [← e]
    rfl
  · unfold average
    rw [hdeg 0 (by norm_num), hav0]
    simp
    rw [fin_div_fin _ _ (by norm_num)]
    norm_num

/-- `expected_av_nn_property(ndir="out")` with a cached out degree that is 0 where the neighbour sum
is not. -/
theorem cached_av_assert (E : Ens) (jUndef n : ℕ) (θ : E.δ) (s : St E.δ) (hθ : s.param = some θ)
    (prop D : ℕ → XR) (hD : s.exp_out_degree = some D) (av : ℕ → XR)
    (hav : exp_av_nn_prop jUndef E.p_ij θ n E.prop_out E.prop_in E.prop_dyad prop .out s.selfloops
      = .ok av) (i : ℕ) (hi : i < n) (h0 : D i = fin 0) (h1 : (av i).isZero = false) :
    (expected_av_nn_property jUndef E n n prop .out none false s).1
      = .error .emptyNeighbourhood := by
  unfold expected_av_nn_property
  rw [hθ]
  dsimp only
  rw [if_neg (by simp)]
  unfold M.bind
  have e2 : setSelfloops ((none : Option Bool).getD s.selfloops) s = s := rfl
  have e3 : (false || ((none : Option Bool).getD s.selfloops != s.selfloops)) = false := by simp
  have e4 : degreeByDir E n .badNdir .out false s = (.ok D, s) := by
    show expected_out_degree E n false s = _
    unfold expected_out_degree getOut
    rw [hD]; rfl
  rw [e2, e3, e4]
  dsimp only
  rw [hav]
  dsimp only
  rw [if_neg]
  rw [List.all_eq_true]
  intro h
  have := h i (List.mem_range.2 hi)
  rw [h0, h1] at this
  simp at this

/-- After a refit `expected_av_nn_property` can raise `AssertionError` on valid arguments: fit to a
parameter without links, ask for the degrees, fit to a parameter with links, ask for averages. -/
theorem refit_assertion {E : Ens} (jUndef n : ℕ) (θ θ' : E.δ) (hE : (at_ E θ).Coherent)
    (hE' : (at_ E θ').Coherent) (hd : DyadConst E) (b : Bool) (x : ℕ → ℝ) (i : ℕ) (hi : i < n)
    (h0 : ∑ j ∈ Finset.range n, weight (fun i j => (at_ E θ).prob (i, j)) b .out i j = 0)
    (h1 : ∑ j ∈ Finset.range n, weight (fun i j => (at_ E θ').prob (i, j)) b .out i j * x j ≠ 0) :
    (run jUndef E n [.fit θ, .outDegree false, .fit θ',
        .avNnProp n (fun i => fin (x i)) .out none false] (init E.δ b)).1[3]?
      = some (.error .emptyNeighbourhood) := by
  rw [refit_run]
  have hav := exp_av_nn_prop_eq (E := at_ E θ') hE' hd jUndef n x .out (by simp) b
  have hcall := cached_av_assert E jUndef n θ' (setParam θ' (filled E n θ (newly θ b))) rfl
    (fun i => fin (x i)) (pick .out ((at_ E θ).exp_degrees n b)) rfl _ hav i hi
    (by rw [pick_at hE n b .out (by simp) i hi, h0])
    (by
      rw [exp_av_at (E := at_ E θ') n x .out b i hi]
      simp [h1])
  have e : (call jUndef E n (.avNnProp n (fun i => fin (x i)) .out none false)
      (setParam θ' (filled E n θ (newly θ b)))).1 = .error .emptyNeighbourhood := by
    unfold call
    rw [map_result, hcall]
    rfl
  rw [e]
  rfl

/-- Two vertices, property 1: no links at first, probabilities 1/2 after the refit. -/
theorem C19_assertion_violated (jUndef : ℕ) :
    (run jUndef wit 2 [.fit (ofENN 0), .outDegree false, .fit (ofENN 1),
        .avNnProp 2 (fun _ => fin 1) .out none false] (init wit.δ false)).1[3]?
      = some (.error .emptyNeighbourhood) := by
  have h := refit_assertion (E := wit) jUndef 2 (ofENN 0) (ofENN 1) (wit_coherent 0)
    (wit_coherent 1) wit_dyad false (fun _ => 1) 0 (by norm_num)
    (by
      simp only [weight, masked, admissible, wit_prob, Finset.sum_range_succ,
        Finset.sum_range_zero]
      simp [Spec.fitProb])
    (by
      simp only [weight, masked, admissible, wit_prob, Finset.sum_range_succ,
        Finset.sum_range_zero]
      simp [Spec.fitProb])
  beta_reduce at h
  exact h

theorem getAv_setAv {δ : Type} (nd dd : Dir) (v : ℕ → XR) (s : St δ) :
    getAv nd dd (setAv nd dd v s) = (.ok v, setAv nd dd v s) := by
  simp [getAv, setAv]

theorem avNnDegree_twice {E : Ens} (jUndef n : ℕ) (θ : E.δ) (hE : (at_ E θ).Coherent)
    (hd : DyadConst E) :
    (run jUndef E n [.avNnDegree .out .out (some true) false false,
        .avNnDegree .out .out (some false) false false] (newly θ false)).1
      = [.ok (.arr (freshAv jUndef E n θ true (pick .out ((at_ E θ).exp_degrees n true)) .out)),
         .ok (.arr (freshAv jUndef E n θ true (pick .out ((at_ E θ).exp_degrees n true)) .out))] ∧
    (run jUndef E n [.avNnDegree .out .out (some false) false false] (newly θ false)).1
      = [.ok (.arr (freshAv jUndef E n θ false
          (pick .out ((at_ E θ).exp_degrees n false)) .out))] := by
  have h1 := expected_av_nn_degree_spec jUndef n θ hE hd .out .out
    (by simp) (by simp) (some true) false false (newly θ false) rfl (Or.inl rfl)
    (Or.inl (newly_degFresh E n θ false))
  have h2 := expected_av_nn_degree_spec jUndef n θ hE hd .out .out
    (by simp) (by simp) (some false) false false (newly θ false) rfl (Or.inl rfl)
    (Or.inl (newly_degFresh E n θ false))
  dsimp only at h1 h2
  constructor
  · simp only [run]
    unfold call
    rw [map_result, map_state, h1, map_result]
    rfl
  · simp only [run]
    unfold call
    rw [map_result, h2]
    rfl

/-- The cache of `expected_av_nn_degree` ignores the self-loop setting: asking with self loops and
then without returns the value with self loops (1/2) instead of 0. -/
theorem C19_selfloops_violated (jUndef : ℕ) :
    ∃ v w, (run jUndef wit 1 [.avNnDegree .out .out (some true) false false,
        .avNnDegree .out .out (some false) false false] (newly (ofENN 1) false)).1
      = [.ok (.arr v), .ok (.arr v)] ∧ v 0 = fin (1 / 2) ∧
      (run jUndef wit 1 [.avNnDegree .out .out (some false) false false]
        (newly (ofENN 1) false)).1 = [.ok (.arr w)] ∧ w 0 = fin 0 := by
  have hf : Spec.fitProb 1 = 1 / 2 := by simp [Spec.fitProb]; norm_num
  have hdeg : ∀ b, pick .out ((at_ wit (ofENN 1)).exp_degrees 1 b) 0
      = fin (if b = true then 1 / 2 else 0) := by
    intro b
    rw [pick_at (wit_coherent 1) 1 b .out (by simp) 0 (by norm_num)]
    simp only [weight, masked, admissible, wit_prob, Finset.sum_range_one, hf]
    cases b <;> simp
  have hfresh : ∀ b, freshAv jUndef wit 1 (ofENN 1) b
      (pick .out ((at_ wit (ofENN 1)).exp_degrees 1 b)) .out 0
      = fin (if b = true then 1 / 2 else 0) := by
    intro b
    obtain ⟨x, hx⟩ := pick_fin (wit_coherent 1) 1 b .out
    have hx0 := hdeg b
    rw [hx] at hx0
    rw [hx, freshAv_at jUndef 1 (ofENN 1) (wit_coherent 1) wit_dyad x .out (by simp) b 0
      (by norm_num)]
    simp only [fin_inj] at hx0
    simp only [weight, masked, admissible, wit_prob, Finset.sum_range_one, hf, hx0]
    cases b <;> norm_num
  obtain ⟨h1, h2⟩ := avNnDegree_twice jUndef 1 (ofENN 1) (wit_coherent 1) wit_dyad
  exact ⟨_, _, h1, (hfresh true).trans rfl, h2, (hfresh false).trans rfl⟩

/-! ## Cached averages and exceptions -/

theorem degree_param {E : Ens} {n : ℕ} (rec : Bool) (s : St E.δ) :
    (expected_degree E n rec s).2.param = s.param := by
  unfold expected_degree
  cases hθ : s.param with
  | none => simp [hθ]
  | some θ =>
    dsimp only
    by_cases hc : (s.exp_degree.isNone || rec) = true
    · rw [if_pos hc]
    · rw [if_neg hc]
      cases s.exp_degree <;> exact hθ

theorem bind_param {δ α β : Type} {m : M δ α} {f : α → M δ β} {s : St δ}
    (h : (m s).2.param = s.param) (hf : ∀ a s', m s = (.ok a, s') → (f a s').2.param = s'.param) :
    (m.bind f s).2.param = s.param := by
  unfold M.bind
  cases hm : m s with
  | mk x t =>
    rw [hm] at h
    cases x with
    | error e => exact h
    | ok a => exact (hf a t hm).trans h

theorem getOut_param {δ : Type} (s : St δ) : (getOut s).2.param = s.param := by
  rw [getOut_state]

theorem getIn_param {δ : Type} (s : St δ) : (getIn s).2.param = s.param := by
  rw [getIn_state]

theorem degreeByDir_param {E : Ens} {n : ℕ} (bad : Err) (dir : Dir) (rec : Bool) (s : St E.δ) :
    (degreeByDir E n bad dir rec s).2.param = s.param := by
  cases dir with
  | out =>
    show (expected_out_degree E n rec s).2.param = _
    unfold expected_out_degree
    by_cases hc : (s.exp_out_degree.isNone || rec) = true
    · rw [if_pos hc]; exact bind_param (degree_param rec s) (fun _ _ _ => getOut_param _)
    · rw [if_neg hc]; exact getOut_param s
  | inn =>
    show (expected_in_degree E n rec s).2.param = _
    unfold expected_in_degree
    by_cases hc : (s.exp_in_degree.isNone || rec) = true
    · rw [if_pos hc]; exact bind_param (degree_param rec s) (fun _ _ _ => getIn_param _)
    · rw [if_neg hc]; exact getIn_param s
  | outIn => exact degree_param rec s
  | underscored | other => rfl

theorem restore_param {δ : Type} (b : Bool) (s : St δ) : (restore b s).param = s.param := by
  unfold restore; split <;> rfl

theorem getAv_param {δ : Type} (a b : Dir) (s : St δ) : (getAv a b s).2.param = s.param := by
  unfold getAv; split <;> rfl

theorem av_param {E : Ens} {n : ℕ} (jUndef len : ℕ) (prop : ℕ → XR) (ndir : Dir) (sl : Option Bool) (dr : Bool)
    (s : St E.δ) :
    (expected_av_nn_property jUndef E n len prop ndir sl dr s).2.param
      = s.param := by
  unfold expected_av_nn_property
  cases hθ : s.param with
  | none => exact hθ
  | some θ =>
    dsimp only
    by_cases hl : len ≠ n
    · rw [if_pos hl]; exact hθ
    · rw [if_neg hl]
      refine (bind_param (degreeByDir_param _ _ _ _) (fun a t _ => ?_)).trans hθ
      split
      · rfl
      · split
        · exact restore_param _ _
        · rfl

theorem map_error {δ α β : Type} {f : α → β} {m : M δ α} {s t : St δ} {e : Err}
    (h : m s = (.error e, t)) : M.map f m s = (.error e, t) := by
  unfold M.map M.bind; rw [h]

theorem map_eq_ok {δ α β : Type} {f : α → β} {m : M δ α} {s t : St δ} {a : α}
    (h : m s = (.ok a, t)) : M.map f m s = (.ok (f a), t) := by
  unfold M.map M.bind; rw [h]

theorem of_map_ok {δ α β : Type} {f : α → β} {m : M δ α} {s t : St δ} {v : β}
    (h : M.map f m s = (.ok v, t)) : ∃ a, m s = (.ok a, t) ∧ v = f a := by
  unfold M.map M.bind at h
  cases hm : m s with
  | mk res u =>
    rw [hm] at h
    cases res with
    | error e => simp at h
    | ok a =>
      simp only [Prod.mk.injEq, Except.ok.injEq] at h
      exact ⟨a, by rw [h.2], h.1.symm⟩

/-- The result of `expected_av_nn_degree` is cached under a name in which hyphens are replaced by
underscores; any later call without recomputation whose directions have the same name returns it. -/
theorem C19_cached (jUndef : ℕ) (E : Ens) (n : ℕ) (ddir ndir : Dir) (sl : Option Bool)
    (dr r : Bool) (s s' : St E.δ) (v : Ret)
    (h : call jUndef E n (.avNnDegree ddir ndir sl dr r) s = (.ok v, s'))
    (ddir' ndir' : Dir) (hdd : ddir'.key = ddir.key) (hnd : ndir'.key = ndir.key)
    (sl' : Option Bool) :
    call jUndef E n (.avNnDegree ddir' ndir' sl' false false) s' = (.ok v, s') := by
  have key : ∀ a : ℕ → XR, s'.exp_av ndir.key ddir.key = some a → s'.param.isSome → v = .arr a →
      call jUndef E n (.avNnDegree ddir' ndir' sl' false false) s' = (.ok v, s') := by
    intro a ha hp hv
    obtain ⟨θ, hθ⟩ := Option.isSome_iff_exists.1 hp
    rw [hv]
    refine map_eq_ok ?_
    unfold expected_av_nn_degree
    simp only [hθ, hdd, hnd, ha]
    rw [if_neg (by simp)]
    simp [getAv, ha]
  have hget : ∀ (u : St E.δ) (a : ℕ → XR) (t : St E.δ),
      getAv ndir.key ddir.key u = (.ok a, t) → t = u ∧ u.exp_av ndir.key ddir.key = some a := by
    intro u a t hg
    unfold getAv at hg
    cases hu : u.exp_av ndir.key ddir.key with
    | none => rw [hu] at hg; simp at hg
    | some w =>
      rw [hu] at hg
      simp only [Prod.mk.injEq, Except.ok.injEq] at hg
      exact ⟨hg.2.symm, by rw [hg.1]⟩
  obtain ⟨a, hm, rfl⟩ := of_map_ok h
  unfold expected_av_nn_degree at hm
  cases hθ : s.param with
  | none => rw [hθ] at hm; simp at hm
  | some θ =>
    rw [hθ] at hm
    dsimp only at hm
    split at hm
    · unfold M.bind at hm
      have hp1 := degreeByDir_param (n := n) (E := E) .badDdir ddir
        (dr || (sl.getD s.selfloops != s.selfloops)) (setSelfloops (sl.getD s.selfloops) s)
      cases h1 : degreeByDir E n .badDdir ddir (dr || (sl.getD s.selfloops != s.selfloops))
          (setSelfloops (sl.getD s.selfloops) s) with
      | mk d u =>
        rw [h1] at hm hp1
        cases d with
        | error e => simp at hm
        | ok deg =>
          dsimp only at hm hp1
          have hp2 := av_param (n := n) (E := E) jUndef n deg ndir
            (some (sl.getD s.selfloops)) false u
          cases h2 : expected_av_nn_property jUndef E n n deg ndir
              (some (sl.getD s.selfloops)) false u with
          | mk d2 u2 =>
            rw [h2] at hm hp2
            cases d2 with
            | error e => simp at hm
            | ok av =>
              dsimp only at hm hp2
              obtain ⟨ht, ha⟩ := hget _ _ _ hm
              refine key a (by rw [ht]; exact ha) ?_ rfl
              rw [ht, restore_param]
              show u2.param.isSome = true
              rw [hp2, hp1]
              show s.param.isSome = true
              rw [hθ]; rfl
    · obtain ⟨ht, ha⟩ := hget _ _ _ hm
      exact key a (by rw [ht]; exact ha) (by rw [ht, hθ]; rfl) rfl

/-- **C19**, exceptions: the calls before fitting, with an array of another length or with an
undocumented direction raise the intended exception, provided that nothing is cached under the
name of the directions or recomputation is requested (otherwise see `C19_key_violated`). -/
theorem C19_errors (jUndef : ℕ) (E : Ens) (n : ℕ) (s : St E.δ) :
    (s.param = none → s.exp_out_degree = none → s.exp_in_degree = none → ∀ op,
      (∀ θ, op ≠ .fit θ) → call jUndef E n op s = (.error .notFitted, s)) ∧
    (∀ θ, s.param = some θ → ∀ len prop ndir sl dr, len ≠ n →
      call jUndef E n (.avNnProp len prop ndir sl dr) s = (.error .badShape, s)) ∧
    (∀ θ, s.param = some θ → ∀ prop ndir sl dr, ¬ ndir.Known →
      call jUndef E n (.avNnProp n prop ndir sl dr) s
        = (.error .badNdir, { s with selfloops := sl.getD s.selfloops })) ∧
    (∀ θ, s.param = some θ → ∀ ddir ndir sl dr r, ¬ ddir.Known →
      s.exp_av ndir.key ddir.key = none ∨ dr = true ∨ r = true →
      call jUndef E n (.avNnDegree ddir ndir sl dr r) s
        = (.error .badDdir, { s with selfloops := sl.getD s.selfloops })) ∧
    (∀ θ, s.param = some θ → ∀ ddir ndir sl dr r, ddir.Known → ¬ ndir.Known →
      s.exp_av ndir.key ddir.key = none ∨ dr = true ∨ r = true →
      DegFresh E n θ s ∨ dr = true ∨ sl.getD s.selfloops ≠ s.selfloops →
      ∃ s', call jUndef E n (.avNnDegree ddir ndir sl dr r) s = (.error .badNdir, s')) := by
  have hbad : ∀ (e : Err) (d : Dir) (r : Bool) (t : St E.δ), ¬ d.Known →
      degreeByDir E n e d r t = (.error e, t) := by
    intro e d r t hd
    cases d with
    | out | inn | outIn => exact absurd trivial hd
    | underscored | other => rfl
  refine ⟨fun hn ho hi op hop => ?_, fun θ hθ len prop ndir sl dr hl => ?_,
    fun θ hθ prop ndir sl dr hd => ?_, fun θ hθ ddir ndir sl dr r hd hav => ?_,
    fun θ hθ ddir ndir sl dr r hdd hd hav hf => ?_⟩
  · cases op with
    | fit θ => exact absurd rfl (hop θ)
    | numEdges r => refine map_error ?_; unfold expected_num_edges; rw [hn]
    | degree r => refine map_error ?_; unfold expected_degree; rw [hn]
    | outDegree r =>
      refine map_error ?_
      unfold expected_out_degree
      rw [if_pos (by simp [ho])]
      unfold M.bind expected_degree; rw [hn]
    | inDegree r =>
      refine map_error ?_
      unfold expected_in_degree
      rw [if_pos (by simp [hi])]
      unfold M.bind expected_degree; rw [hn]
    | avNnProp len prop ndir sl dr => refine map_error ?_; unfold expected_av_nn_property; rw [hn]
    | avNnDegree ddir ndir sl dr r => refine map_error ?_; unfold expected_av_nn_degree; rw [hn]
  · refine map_error ?_
    unfold expected_av_nn_property
    rw [hθ]
    dsimp only
    rw [if_pos hl]
  · have ht : ({ s with selfloops := sl.getD s.selfloops } : St E.δ)
        = setSelfloops (sl.getD s.selfloops) s := rfl
    rw [ht]
    refine map_error ?_
    unfold expected_av_nn_property
    rw [hθ]
    dsimp only
    rw [if_neg (by simp)]
    unfold M.bind
    rw [hbad _ _ _ _ hd]
  · have ht : ({ s with selfloops := sl.getD s.selfloops } : St E.δ)
        = setSelfloops (sl.getD s.selfloops) s := rfl
    rw [ht]
    refine map_error ?_
    unfold expected_av_nn_degree
    rw [hθ]
    dsimp only
    rw [if_pos (by rcases hav with h | h | h <;> simp [h])]
    unfold M.bind
    rw [hbad _ _ _ _ hd]
  · refine (?_ : ∃ t, _).imp fun t h => map_error h
    unfold expected_av_nn_degree
    rw [hθ]
    dsimp only
    rw [if_pos (by rcases hav with h | h | h <;> simp [h])]
    generalize hb : sl.getD s.selfloops = b
    rw [hb] at hf
    have hspec := degreeByDir_spec E n θ (setSelfloops b s) .badDdir ddir hdd
      (dr || (b != s.selfloops)) hθ (by
        rcases hf with h | h | h
        · by_cases hbs : b = s.selfloops
          · left; rw [hbs]; exact h
          · right; simp [hbs]
        · right; simp [h]
        · right; simp [h])
    unfold M.bind
    rw [hspec]
    dsimp only
    unfold expected_av_nn_property
    have hθ' : (filled E n θ (setSelfloops b s)).param = some θ := hθ
    rw [hθ']
    dsimp only
    rw [if_neg (by simp)]
    unfold M.bind
    rw [hbad _ _ _ _ hd]
    exact ⟨_, rfl⟩

theorem key_twice {E : Ens} (jUndef n : ℕ) (θ : E.δ) (hE : (at_ E θ).Coherent)
    (hd : DyadConst E) (b : Bool) :
    (run jUndef E n [.avNnDegree .out .underscored none false false] (newly θ b)).1
      = [.error .badNdir] ∧
    ∃ v, (run jUndef E n [.avNnDegree .out .outIn none false false,
        .avNnDegree .out .underscored none false false] (newly θ b)).1 = [.ok v, .ok v] := by
  constructor
  · obtain ⟨s', h⟩ := (C19_errors jUndef E n (newly θ b)).2.2.2.2 _ rfl .out
      .underscored none false false (by simp) (by simp) (Or.inl rfl)
      (Or.inl (newly_degFresh E n _ b))
    simp only [run]
    rw [h]
  · have h := expected_av_nn_degree_spec jUndef n θ hE hd .out .outIn
      (by simp) (by simp) none false false (newly θ b) rfl (Or.inl rfl)
      (Or.inl (newly_degFresh E n θ b))
    dsimp only at h
    obtain ⟨v, t, h1⟩ : ∃ v t, call jUndef E n (.avNnDegree .out .outIn none false false)
        (newly θ b) = (.ok v, t) := ⟨_, _, map_eq_ok h⟩
    have h2 := C19_cached jUndef E n .out .outIn none false false _ _ _ h1 .out .underscored rfl
      rfl none
    refine ⟨v, ?_⟩
    simp only [run]
    rw [h1]
    dsimp only
    rw [h2]

/-- The undocumented direction `"out_in"` raises on a newly fitted ensemble, but not once the value
for `"out-in"` has been cached: then it is taken for `"out-in"`. -/
theorem C19_key_violated (jUndef : ℕ) :
    (run jUndef wit 2 [.avNnDegree .out .underscored none false false]
      (newly (ofENN 1) false)).1 = [.error .badNdir] ∧
    ∃ v, (run jUndef wit 2 [.avNnDegree .out .outIn none false false,
        .avNnDegree .out .underscored none false false] (newly (ofENN 1) false)).1
      = [.ok v, .ok v] :=
  key_twice (E := wit) jUndef 2 (ofENN 1) (wit_coherent 1) wit_dyad false

end Query

end Verif
