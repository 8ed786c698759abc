import Verif.Ensemble.Query
import Verif.Ensemble.Props

/-! # Lemmas on the query state machine -/

namespace Verif

open XR DiGraphEnsemble

namespace Query

/-! ## The neighbour sums -/

/-- Weight with which vertex `j` enters the neighbourhood of vertex `i`. -/
noncomputable def weight (q : ℕ → ℕ → ℝ) (s : Bool) : Dir → ℕ → ℕ → ℝ
  | .out, i, j => masked s q i j
  | .inn, i, j => masked s q j i
  | .outIn, i, j => undir s q i j
  | .underscored, _, _ => 0
  | .other, _, _ => 0

/-- The default dyadic property: the same for all pairs. -/
def DyadConst (E : Ens) : Prop := ∀ i j i' j', E.prop_dyad i j = E.prop_dyad i' j'

theorem masked_ne {q : ℕ → ℕ → ℝ} {s : Bool} {i j : ℕ} (h : i ≠ j) : masked s q i j = q i j := by
  simp [masked, admissible, h]

theorem exp_av_nn_prop_eq {E : Ens} (hE : E.Coherent) (hd : DyadConst E) (jUndef n : ℕ)
    (x : ℕ → ℝ) (ndir : Dir) (hdir : ndir.Known) (s : Bool) :
    exp_av_nn_prop jUndef E.p_ij E.param n E.prop_out E.prop_in E.prop_dyad (fun i => fin (x i))
        ndir s
      = .ok (fun k => fin ((∑ i ∈ Finset.range n, ∑ j ∈ Finset.range n,
          (Pi.single i (weight (fun i j => E.prob (i, j)) s ndir i j * x j) : ℕ → ℝ)) k)) := by
  set q : ℕ → ℕ → ℝ := fun i j => E.prob (i, j) with hq
  let F : ℕ → ℕ → ℕ → ℝ := fun i j => Pi.single i (weight q s ndir i j * x j)
  let R : (ℕ → ℝ) → ℕ → XR := fun a k => fin (a k)
  have hp : ∀ i j, E.p_ij E.param (E.prop_out i) (E.prop_in j) (E.prop_dyad i j) = fin (q i j) :=
    fun i j => hE.p_eq i j
  have hself : ∀ i j, E.p_ij E.param (E.prop_out i) (E.prop_in i) (E.prop_dyad i j)
      = fin (q i i) := fun i j => by rw [hd i j i i]; exact hp i i
  have hpairs : (List.range n).foldlM (fun av_nn i =>
      (List.range i).foldlM
        (exp_av_nn_step E.p_ij E.param E.prop_out E.prop_in E.prop_dyad (fun i => fin (x i)) ndir i)
        av_nn) zeros
      = .ok (R (0 + ∑ i ∈ Finset.range n, ∑ j ∈ Finset.range i, (F i j + F j i))) := by
    have h0 : (zeros : ℕ → XR) = R 0 := rfl
    rw [h0]
    refine foldlM_rep R _ _ n (fun i _ a => ?_) 0
    refine foldlM_rep R _ _ i (fun j hj a => ?_) a
    have hij : i ≠ j := by omega
    unfold exp_av_nn_step
    simp only [hp, fin_mul_fin]
    cases ndir with
    | underscored | other => exact False.elim hdir
    | out =>
      simp only [R, addAt_fin, F, weight, masked_ne hij, masked_ne hij.symm, add_assoc]
    | inn =>
      simp only [R, addAt_fin, F, weight, masked_ne hij, masked_ne hij.symm, add_assoc]
    | outIn =>
      have e : ∀ a b : ℝ, ((1 : XR) - (1 - fin a) * (1 - fin b)) = fin (a + b - a * b) := by
        intro a b
        rw [one_def, fin_sub_fin, fin_sub_fin, fin_mul_fin, fin_sub_fin]; congr 1; ring
      simp only [e, fin_mul_fin, R, addAt_fin, F, weight, undir, if_pos hij, if_pos hij.symm,
        add_assoc]
      rw [add_comm (q j i) , mul_comm (q j i)]
  unfold exp_av_nn_prop
  dsimp only
  rw [hpairs]
  show (if s = true then _ else _) = _
  rw [zero_add]
  by_cases hs : s = true
  · rw [if_pos hs]
    refine (foldlM_rep R _ (fun i => F i i) n (fun i _ a => ?_) _).trans ?_
    · unfold exp_av_nn_self
      simp only [hself, fin_mul_fin]
      cases ndir with
      | underscored | other => exact False.elim hdir
      | out => simp [R, addAt_fin, F, weight, masked, admissible, hs]
      | inn => simp [R, addAt_fin, F, weight, masked, admissible, hs]
      | outIn => simp [R, addAt_fin, F, weight, undir, hs]
    · rw [sum_strict_triangle]
  · rw [if_neg hs]
    have hz : ∀ i, F i i = 0 := by
      intro i
      have : weight q s ndir i i = 0 := by
        cases ndir <;> simp [weight, masked, undir, admissible, hs]
      simp [F, this]
    have h2 := sum_strict_triangle F n
    simp only [hz, Finset.sum_const_zero, add_zero] at h2
    rw [h2]

theorem exp_av_at {E : Ens} (n : ℕ) (x : ℕ → ℝ) (ndir : Dir) (s : Bool) (k : ℕ) (hk : k < n) :
    (∑ i ∈ Finset.range n, ∑ j ∈ Finset.range n,
          (Pi.single i (weight (fun i j => E.prob (i, j)) s ndir i j * x j) : ℕ → ℝ)) k
      = ∑ j ∈ Finset.range n, weight (fun i j => E.prob (i, j)) s ndir k j * x j :=
  sum_single_row _ k hk

/-- The degree array selected by a direction. -/
def pick (dir : Dir) (D : Degrees) : ℕ → XR :=
  match dir with
  | .out => D.exp_d_out
  | .inn => D.exp_d_in
  | .outIn => D.exp_d
  | .underscored | .other => zeros

theorem pick_at {E : Ens} (hE : E.Coherent) (n : ℕ) (s : Bool) (dir : Dir) (hdir : dir.Known)
    (k : ℕ) (hk : k < n) :
    pick dir (E.exp_degrees n s) k
      = fin (∑ j ∈ Finset.range n, weight (fun i j => E.prob (i, j)) s dir k j) := by
  have h := exp_degrees_at (q := fun i j => E.prob (i, j)) (selfloops := s)
    (p_ij := E.p_ij) (param := E.param) (prop_out := E.prop_out) (prop_in := E.prop_in)
    (prop_dyad := E.prop_dyad) (n := n) (fun i _ j _ _ => hE.p_eq i j) k hk
  dsimp only at h
  cases dir with
  | underscored | other => exact False.elim hdir
  | out => exact h.2.1
  | inn => exact h.2.2
  | outIn => exact h.1

/-- All expected degrees are finite numbers (also beyond the last vertex, where they are 0). -/
theorem pick_fin {E : Ens} (hE : E.Coherent) (n : ℕ) (s : Bool) (dir : Dir) :
    ∃ x : ℕ → ℝ, pick dir (E.exp_degrees n s) = fun i => fin (x i) := by
  unfold Ens.exp_degrees
  rw [exp_degrees_eq (q := fun i j => E.prob (i, j)) (fun i _ j _ _ => hE.p_eq i j)]
  cases dir with
  | out => exact ⟨_, rfl⟩
  | inn => exact ⟨_, rfl⟩
  | outIn => exact ⟨_, rfl⟩
  | underscored | other => exact ⟨fun _ => 0, rfl⟩

theorem weight_nonneg {E : Ens} (hE : E.Coherent) (s : Bool) (dir : Dir) (i j : ℕ) :
    0 ≤ weight (fun i j => E.prob (i, j)) s dir i j := by
  have h1 := hE.prob_mem (i, j); have h2 := hE.prob_mem (j, i)
  cases dir <;> simp only [weight, masked, undir]
  · split
    · exact h1.1
    · exact le_rfl
  · split
    · exact h2.1
    · exact le_rfl
  · split
    · nlinarith
    · split
      · exact (hE.prob_mem (i, i)).1
      · exact le_rfl
  · exact le_rfl
  · exact le_rfl

/-! ## State lemmas -/

/-- The state with all degree caches filled with the values for parameter `θ`. -/
noncomputable def filled (E : Ens) (n : ℕ) (θ : E.δ) (s : St E.δ) : St E.δ :=
  let D := (at_ E θ).exp_degrees n s.selfloops
  { s with exp_degree := some D.exp_d, exp_out_degree := some D.exp_d_out,
           exp_in_degree := some D.exp_d_in }

/-- The degree caches are empty, or hold the values for the current parameter and setting. -/
def DegFresh (E : Ens) (n : ℕ) (θ : E.δ) (s : St E.δ) : Prop :=
  (s.exp_degree = none ∧ s.exp_out_degree = none ∧ s.exp_in_degree = none) ∨ s = filled E n θ s

theorem filled_degFresh (E : Ens) (n : ℕ) (θ : E.δ) (s : St E.δ) :
    DegFresh E n θ (filled E n θ s) := Or.inr rfl

theorem expected_degree_spec (E : Ens) (n : ℕ) (θ : E.δ) (s : St E.δ) (rec : Bool)
    (hθ : s.param = some θ) (h : DegFresh E n θ s ∨ rec = true) :
    expected_degree E n rec s
      = (.ok ((at_ E θ).exp_degrees n s.selfloops).exp_d, filled E n θ s) := by
  obtain ⟨par, slf, ne, d, do_, di, av⟩ := s
  obtain rfl : par = some θ := hθ
  unfold expected_degree
  dsimp only
  by_cases hc : (d.isNone || rec) = true
  · rw [if_pos hc]; rfl
  · rw [if_neg hc]
    simp only [Bool.or_eq_true, not_or] at hc
    rcases h with (h | h) | h
    · obtain rfl : d = none := h.1
      simp at hc
    · rw [h]; rfl
    · exact absurd h hc.2

theorem degreeByDir_spec (E : Ens) (n : ℕ) (θ : E.δ) (s : St E.δ) (bad : Err) (dir : Dir)
    (hdir : dir.Known) (rec : Bool) (hθ : s.param = some θ)
    (h : DegFresh E n θ s ∨ rec = true) :
    degreeByDir E n bad dir rec s
      = (.ok (pick dir ((at_ E θ).exp_degrees n s.selfloops)), filled E n θ s) := by
  cases dir with
  | underscored | other => exact False.elim hdir
  | outIn => exact expected_degree_spec E n θ s rec hθ h
  | out =>
    unfold degreeByDir expected_out_degree
    dsimp only
    by_cases hc : (s.exp_out_degree.isNone || rec) = true
    · rw [if_pos hc]
      unfold M.bind
      rw [expected_degree_spec E n θ s rec hθ h]; rfl
    · rw [if_neg hc]
      simp only [Bool.or_eq_true, not_or] at hc
      rcases h with (h | h) | h
      · simp [h.2.1] at hc
      · rw [h]; rfl
      · exact absurd h hc.2
  | inn =>
    unfold degreeByDir expected_in_degree
    dsimp only
    by_cases hc : (s.exp_in_degree.isNone || rec) = true
    · rw [if_pos hc]
      unfold M.bind
      rw [expected_degree_spec E n θ s rec hθ h]; rfl
    · rw [if_neg hc]
      simp only [Bool.or_eq_true, not_or] at hc
      rcases h with (h | h) | h
      · simp [h.2.2] at hc
      · rw [h]; rfl
      · exact absurd h hc.2

/-- The nearest-neighbour average for given parameter and self-loop setting, without caches. -/
noncomputable def freshAv (jUndef : ℕ) (E : Ens) (n : ℕ) (θ : E.δ) (b : Bool) (prop : ℕ → XR)
    (ndir : Dir) : ℕ → XR :=
  match DiGraphEnsemble.exp_av_nn_prop jUndef E.p_ij θ n E.prop_out E.prop_in E.prop_dyad prop
      ndir b with
  | .ok av => average av (pick ndir ((at_ E θ).exp_degrees n b))
  | .error _ => zeros

/-- The state with the degree caches deleted. -/
def cleared {δ : Type} (s : St δ) : St δ :=
  { s with exp_degree := none, exp_out_degree := none, exp_in_degree := none }

theorem degFresh_cleared (E : Ens) (n : ℕ) (θ : E.δ) (s : St E.δ) :
    DegFresh E n θ (cleared s) := Or.inl ⟨rfl, rfl, rfl⟩

/-- The assertion of `expected_av_nn_property` holds for finite properties. -/
theorem assertion_holds {E : Ens} (hE : E.Coherent) (n : ℕ) (x : ℕ → ℝ) (ndir : Dir)
    (hdir : ndir.Known) (b : Bool) :
    (List.range n).all (fun i => !(pick ndir (E.exp_degrees n b) i).isZero ||
      (fin ((∑ i ∈ Finset.range n, ∑ j ∈ Finset.range n,
          (Pi.single i (weight (fun i j => E.prob (i, j)) b ndir i j * x j) : ℕ → ℝ)) i)).isZero)
      = true := by
  rw [List.all_eq_true]
  intro i hi
  rw [List.mem_range] at hi
  rw [pick_at hE n b ndir hdir i hi, exp_av_at n x ndir b i hi]
  simp only [isZero_fin, Bool.or_eq_true, Bool.not_eq_true', decide_eq_false_iff_not,
    decide_eq_true_eq]
  by_cases h : (∑ j ∈ Finset.range n, weight (fun i j => E.prob (i, j)) b ndir i j) = 0
  · right
    rw [Finset.sum_eq_zero_iff_of_nonneg (fun j _ => weight_nonneg hE b ndir i j)] at h
    exact Finset.sum_eq_zero (fun j hj => by rw [h j hj, zero_mul])
  · exact Or.inl h

theorem expected_av_nn_property_spec {E : Ens} (jUndef n : ℕ) (θ : E.δ)
    (hE : (at_ E θ).Coherent) (hd : DyadConst E) (x : ℕ → ℝ) (ndir : Dir) (hdir : ndir.Known)
    (sl : Option Bool) (dr : Bool) (s : St E.δ) (hθ : s.param = some θ)
    (h : DegFresh E n θ s ∨ dr = true ∨ sl.getD s.selfloops ≠ s.selfloops) :
    expected_av_nn_property jUndef E n n (fun i => fin (x i)) ndir sl dr s
      = (.ok (freshAv jUndef E n θ (sl.getD s.selfloops) (fun i => fin (x i)) ndir),
          if sl.getD s.selfloops = s.selfloops then filled E n θ s else cleared s) := by
  unfold expected_av_nn_property
  simp only [hθ, ne_eq, not_true_eq_false, if_false]
  generalize hb : sl.getD s.selfloops = b
  rw [hb] at h
  unfold M.bind
  have hspec := degreeByDir_spec E n θ (setSelfloops b s) .badNdir ndir hdir
    (dr || (b != s.selfloops)) hθ (by
      rcases h with h | h | h
      · by_cases hbs : b = s.selfloops
        · left; rw [hbs]; exact h
        · right; simp [hbs]
      · right; simp [h]
      · right; simp [h])
  have eself : (setSelfloops b s).selfloops = b := rfl
  rw [hspec, eself]
  dsimp only
  have hav := exp_av_nn_prop_eq hE (E := at_ E θ) hd jUndef n x ndir hdir b
  have hav' : exp_av_nn_prop jUndef E.p_ij θ n E.prop_out E.prop_in E.prop_dyad
      (fun i => fin (x i)) ndir (filled E n θ (setSelfloops b s)).selfloops = _ := hav
  rw [hav']
  dsimp only
  have hass := assertion_holds hE n x ndir hdir b
  rw [if_pos hass]
  refine Prod.ext ?_ ?_
  · dsimp only
    unfold freshAv
    have hav2 : exp_av_nn_prop jUndef E.p_ij θ n E.prop_out E.prop_in E.prop_dyad
      (fun i => fin (x i)) ndir b = _ := hav
    rw [hav2]
  · dsimp only
    unfold restore
    by_cases hbs : b = s.selfloops
    · subst hbs
      rw [if_neg (by simp [filled, setSelfloops]), if_pos rfl]
      rfl
    · rw [if_neg hbs, if_pos (by simpa [filled, setSelfloops] using fun h => hbs h.symm)]
      rfl

theorem expected_av_nn_degree_spec {E : Ens} (jUndef n : ℕ) (θ : E.δ)
    (hE : (at_ E θ).Coherent) (hd : DyadConst E) (ddir ndir : Dir) (hddir : ddir.Known)
    (hdir : ndir.Known) (sl : Option Bool) (dr rec : Bool) (s : St E.δ)
    (hθ : s.param = some θ)
    (hrec : (s.exp_av ndir ddir).isNone = true ∨ rec = true ∨ dr = true)
    (h : DegFresh E n θ s ∨ dr = true ∨ sl.getD s.selfloops ≠ s.selfloops) :
    let b := sl.getD s.selfloops
    let v := freshAv jUndef E n θ b (pick ddir ((at_ E θ).exp_degrees n b)) ndir
    expected_av_nn_degree jUndef E n ddir ndir sl dr rec s
      = (.ok v, setAv ndir ddir v (if b = s.selfloops then filled E n θ s else cleared s)) := by
  dsimp only
  unfold expected_av_nn_degree
  simp only [hθ, hddir.key, hdir.key]
  rw [if_pos (by rcases hrec with h | h | h <;> simp [h])]
  generalize hb : sl.getD s.selfloops = b
  rw [hb] at h
  have hspec := degreeByDir_spec E n θ (setSelfloops b s) .badDdir ddir hddir
    (dr || (b != s.selfloops)) hθ (by
      rcases h with h | h | h
      · by_cases hbs : b = s.selfloops
        · left; rw [hbs]; exact h
        · right; simp [hbs]
      · right; simp [h]
      · right; simp [h])
  unfold M.bind
  have eself : (setSelfloops b s).selfloops = b := rfl
  rw [hspec, eself]
  dsimp only
  obtain ⟨x, hx⟩ := pick_fin hE n b ddir
  have hin := expected_av_nn_property_spec jUndef n θ hE hd x ndir hdir (some b) false
    (filled E n θ (setSelfloops b s)) hθ (Or.inl (filled_degFresh _ _ _ _))
  rw [hx, hin]
  dsimp only
  have e1 : (some b).getD (filled E n θ (setSelfloops b s)).selfloops = b := rfl
  have e2 : (filled E n θ (setSelfloops b s)).selfloops = b := rfl
  rw [e1, e2, if_pos rfl]
  have e3 : filled E n θ (filled E n θ (setSelfloops b s))
      = filled E n θ (setSelfloops b s) := rfl
  rw [e3]
  unfold restore
  by_cases hbs : b = s.selfloops
  · subst hbs
    rw [if_neg (by simp [filled, setAv, setSelfloops]), if_pos rfl]
    simp [setAv, getAv]
    exact ⟨rfl, rfl, rfl, rfl, rfl, rfl, rfl⟩
  · rw [if_pos (by simpa [filled, setAv, setSelfloops] using fun h => hbs h.symm), if_neg hbs]
    simp [setAv, getAv]
    exact ⟨rfl, rfl, rfl, rfl, rfl, rfl, rfl⟩

end Query

end Verif
