import Verif.Columns.Lemmas

/-!
# C89: nearest-neighbour averages of property arrays with several columns

The documented result for an array of shape `(n, k)` is, for every vertex and every column, the
average of that column over the neighbours of the vertex.
-/

namespace Verif

noncomputable section

open XR DiGraphEnsemble

namespace Columns

open Classical in
/-- The vertices with neighbours, in increasing order, for given (expected) degrees. -/
def linked (n : ℕ) (D : ℕ → ℝ) : List ℕ := (List.range n).filter (fun i => decide (D i ≠ 0))

/-- The numbers of linked vertices and columns for which the call returns. -/
def Accepted (z : Bool) (m k : ℕ) : Prop := m = 1 ∨ m = k ∨ (m = 0 ∧ k = 1 ∧ z = true)

theorem filter_linked {n : ℕ} {ind : ℕ → Bool} {D : ℕ → ℝ}
    (h : ∀ i < n, (ind i = true ↔ D i ≠ 0)) : (List.range n).filter ind = linked n D := by
  unfold linked
  refine List.filter_congr fun i hi => ?_
  by_cases hd : D i ≠ 0
  · rw [(h i (List.mem_range.1 hi)).2 hd]; simp [hd]
  · have : ind i = false := by
      rw [← Bool.not_eq_true]; exact fun h' => hd ((h i (List.mem_range.1 hi)).1 h')
    rw [this]; simp [hd]

theorem getD_linked {n : ℕ} {D : ℕ → ℝ} {c : ℕ} (h : c < (linked n D).length) :
    (linked n D).getD c 0 < n ∧ D ((linked n D).getD c 0) ≠ 0 := by
  rw [List.getD_eq_getElem?_getD, List.getElem?_eq_getElem h, Option.getD_some]
  have := List.mem_filter.1 (show (linked n D)[c] ∈ (List.range n).filter _ from
    List.getElem_mem h)
  exact ⟨List.mem_range.1 this.1, of_decide_eq_true this.2⟩

/-! ## Fitted ensembles -/

open _root_.Verif.Query

theorem sum_linkProb {n : ℕ} {b : Bool} (p : ℕ × ℕ → ℝ) (d : Dir) (f : ℕ → ℝ) {i : ℕ}
    (hi : i < n) :
    ∑ j ∈ Finset.range n, weight (fun i j => p (i, j)) b d i j * f j
      = ∑ j ∈ Finset.range n, linkProb n b p d i j * f j :=
  Finset.sum_congr rfl fun j hj => by rw [linkProb_eq p d hi (Finset.mem_range.1 hj)]

/-- What a call with a documented direction does, on any ensemble whose degree caches are not
stale.  With `m` the number of vertices of non-zero expected degree, the call raises `ValueError`
unless `m = 1` or `m = k` (or `m = 0`, `k = 1`), and then leaves an overridden self-loop setting
in place.  Otherwise it restores the setting and returns the weighted sums of column `c` divided
by the expected degree of the vertex itself if `m = 1`, and of the `c`-th linked vertex if
`m = k`. -/
theorem C89_outcome {E : Ens} (z : Bool) (jUndef n k : ℕ) (θ : E.δ) (hE : (at_ E θ).Coherent)
    (hd : DyadConst E) (x : ℕ → ℕ → ℝ) (ndir : Dir) (hdir : ndir.Known) (sl : Option Bool)
    (dr : Bool) (s : St E.δ) (hθ : s.param = some θ)
    (h : DegFresh E n θ s ∨ dr = true ∨ sl.getD s.selfloops ≠ s.selfloops) :
    let P := linkProb n (sl.getD s.selfloops) (at_ E θ).prob ndir
    let D := fun i => ∑ j ∈ Finset.range n, P i j
    let L := linked n D
    let r := expected_av_nn_property z jUndef E n n k (fun i c => fin (x i c)) ndir sl dr s
    (Accepted z L.length k → r.2.selfloops = s.selfloops ∧ ∃ v, r.1 = .ok v ∧
      ∀ i < n, ∀ c < k, v i c = fin ((∑ j ∈ Finset.range n, P i j * x j c)
        / D (if L.length = 1 then i else L.getD c 0))) ∧
    (¬Accepted z L.length k → r.1 = .error .broadcast ∧ r.2.selfloops = sl.getD s.selfloops) := by
  dsimp only
  unfold expected_av_nn_property
  simp only [hθ, ne_eq, not_true_eq_false, if_false]
  generalize hb : sl.getD s.selfloops = b
  rw [hb] at h
  have hspec := degreeByDir_spec E n θ (setSelfloops b s) .badNdir ndir hdir
    (dr || (b != s.selfloops)) hθ (by
      rcases h with h | h | h
      · by_cases hbs : b = s.selfloops
        · left; rw [hbs]; exact h
        · right; simp [hbs]
      · right; simp [h]
      · right; simp [h])
  have eself : (setSelfloops b s).selfloops = b := rfl
  rw [hspec, eself]
  dsimp only
  set P := linkProb n b (at_ E θ).prob ndir with hP
  set D := fun i => ∑ j ∈ Finset.range n, P i j with hD
  have hav : exp_av_nn_prop jUndef E.p_ij θ n E.prop_out E.prop_in E.prop_dyad
      (fun i c => fin (x i c)) ndir (filled E n θ (setSelfloops b s)).selfloops = _ :=
    exp_av_nn_prop_eq hE (E := at_ E θ) hd jUndef n x ndir hdir b
  rw [hav]
  dsimp only
  set av : ℕ → ℕ → XR := fun k c => fin ((∑ i ∈ Finset.range n, ∑ j ∈ Finset.range n,
    (Pi.single i (weight (fun i j => (at_ E θ).prob (i, j)) b ndir i j * x j c) : ℕ → ℝ)) k)
    with havd
  set deg := pick ndir ((at_ E θ).exp_degrees n b) with hdeg
  have hdegv : ∀ i < n, deg i = fin (D i) := fun i hi => by
    rw [hdeg, pick_at hE n b ndir hdir i hi, hD]
    have := sum_linkProb (b := b) (at_ E θ).prob ndir (fun _ => 1) hi
    simp only [mul_one] at this
    rw [this]
  have havv : ∀ i < n, ∀ c, av i c = fin (∑ j ∈ Finset.range n, P i j * x j c) :=
    fun i hi c => by
      rw [havd]
      dsimp only
      rw [exp_av_at n (fun j => x j c) ndir b i hi, sum_linkProb _ _ _ hi]
  have hzero : ∀ i < n, D i = 0 → ∀ c, ∑ j ∈ Finset.range n, P i j * x j c = 0 := by
    intro i hi h0 c
    have hn : ∀ j ∈ Finset.range n, 0 ≤ P i j := fun j hj => by
      rw [hP, linkProb_eq _ _ hi (Finset.mem_range.1 hj)]; exact weight_nonneg hE b ndir i j
    have h0' := (Finset.sum_eq_zero_iff_of_nonneg hn).1 h0
    exact Finset.sum_eq_zero fun j hj => by rw [h0' j hj, zero_mul]
  have hmask : maskOk n k deg av = true := by
    unfold maskOk
    rw [List.all_eq_true]
    intro i hi
    have hi := List.mem_range.1 hi
    rw [hdegv i hi]
    by_cases h0 : D i = 0
    · simp only [isZero_fin, h0, decide_true, Bool.not_true, Bool.false_or, List.all_eq_true]
      intro c _
      rw [havv i hi c, hzero i hi h0 c]; simp
    · simp [h0]
  rw [if_pos hmask]
  have hL : (List.range n).filter (fun i => !(deg i).isZero) = linked n D :=
    filter_linked fun i hi => by rw [hdegv i hi]; simp
  constructor
  · intro hacc
    have hacc' := hacc
    unfold Accepted at hacc
    rw [← hL] at hacc
    obtain ⟨v, hv, hvv⟩ := average_some z (· / ·) n k (fun i => !(deg i).isZero) av deg hacc
    rw [hv]
    dsimp only
    refine ⟨?_, v, rfl, fun i hi c hc => ?_⟩
    · unfold restore
      by_cases hbs : s.selfloops = b
      · subst hbs
        rw [if_neg (by simp [filled, setSelfloops])]; rfl
      · rw [if_pos (by simpa [filled, setSelfloops] using hbs)]
    · rw [hvv i hi c hc, hL]
      by_cases h0 : D i = 0
      · rw [if_neg (by rw [hdegv i hi]; simp [h0]), havv i hi c, hzero i hi h0 c, zero_div]
      · rw [if_pos (by rw [hdegv i hi]; simp [h0])]
        have hidx : (if (linked n D).length = 1 then i else (linked n D).getD c 0) < n ∧
            D (if (linked n D).length = 1 then i else (linked n D).getD c 0) ≠ 0 := by
          by_cases h1 : (linked n D).length = 1
          · rw [if_pos h1]; exact ⟨hi, h0⟩
          · rw [if_neg h1]
            refine getD_linked ?_
            rcases hacc' with h | h | h
            · exact absurd h h1
            · rw [h]; exact hc
            · have : i ∈ linked n D := by unfold linked; simp [hi, h0]
              rw [List.length_eq_zero_iff.1 h.1] at this
              simp at this
        rw [hdegv _ hidx.1, havv i hi c]
        exact fin_div_fin _ _ hidx.2
  · intro hacc
    unfold Accepted at hacc
    simp only [not_or] at hacc
    rw [← hL] at hacc
    rw [average_none z (· / ·) n k (fun i => !(deg i).isZero) av deg hacc.1 hacc.2.1 hacc.2.2]
    exact ⟨rfl, rfl⟩

/-- **C89**: the averages of all columns over the neighbours.  Missing: every other combination of
the numbers of linked vertices and columns, where the call raises (`C89_raises_violated`) or
returns other numbers (`C89_values_violated`). -/
theorem C89_partial {E : Ens} (z : Bool) (jUndef n k : ℕ) (θ : E.δ) (hE : (at_ E θ).Coherent)
    (hd : DyadConst E) (x : ℕ → ℕ → ℝ) (ndir : Dir) (hdir : ndir.Known) (sl : Option Bool)
    (dr : Bool) (s : St E.δ) (hθ : s.param = some θ)
    (h : DegFresh E n θ s ∨ dr = true ∨ sl.getD s.selfloops ≠ s.selfloops)
    (hlim : let D := fun i => ∑ j ∈ Finset.range n,
        linkProb n (sl.getD s.selfloops) (at_ E θ).prob ndir i j
      (linked n D).length = 1 ∨ ((linked n D).length = k ∧
        ∀ i < n, ∀ j < n, D i ≠ 0 → D j ≠ 0 → D i = D j)) :
    let P := linkProb n (sl.getD s.selfloops) (at_ E θ).prob ndir
    let r := expected_av_nn_property z jUndef E n n k (fun i c => fin (x i c)) ndir sl dr s
    r.2.selfloops = s.selfloops ∧ ∃ v, r.1 = .ok v ∧ ∀ i < n, ∀ c < k,
      v i c = fin ((∑ j ∈ Finset.range n, P i j * x j c) / ∑ j ∈ Finset.range n, P i j) := by
  dsimp only at hlim ⊢
  have hout := (C89_outcome z jUndef n k θ hE hd x ndir hdir sl dr s hθ h).1
  dsimp only at hout
  set P := linkProb n (sl.getD s.selfloops) (at_ E θ).prob ndir with hP
  set D := fun i => ∑ j ∈ Finset.range n, P i j with hD
  obtain ⟨hs, v, hv, hvv⟩ := hout (by
    rcases hlim with h | h
    · exact Or.inl h
    · exact Or.inr (Or.inl h.1))
  refine ⟨hs, v, hv, fun i hi c hc => ?_⟩
  rw [hvv i hi c hc]
  by_cases h1 : (linked n D).length = 1
  · rw [if_pos h1]
  · rw [if_neg h1]
    obtain ⟨hk, heq⟩ := hlim.resolve_left h1
    have hc' := getD_linked (D := D) (n := n) (c := c) (by rw [hk]; exact hc)
    by_cases h0 : D i = 0
    · have hn : ∀ j ∈ Finset.range n, 0 ≤ P i j := fun j hj => by
        rw [hP, linkProb_eq _ _ hi (Finset.mem_range.1 hj)]; exact weight_nonneg hE _ ndir i j
      have h0' := (Finset.sum_eq_zero_iff_of_nonneg hn).1 h0
      rw [Finset.sum_eq_zero (s := Finset.range n) (f := fun j => P i j * x j c)
        (fun j hj => by rw [h0' j hj, zero_mul]), zero_div, zero_div]
    · rw [heq _ hc'.1 i hi hc'.2 h0]

/-- An array with one column is refused as soon as two vertices have neighbours. -/
theorem C89_one_column {E : Ens} (z : Bool) (jUndef n : ℕ) (θ : E.δ) (hE : (at_ E θ).Coherent)
    (hd : DyadConst E) (x : ℕ → ℕ → ℝ) (ndir : Dir) (hdir : ndir.Known) (sl : Option Bool)
    (dr : Bool) (s : St E.δ) (hθ : s.param = some θ)
    (h : DegFresh E n θ s ∨ dr = true ∨ sl.getD s.selfloops ≠ s.selfloops)
    {i j : ℕ} (hi : i < n) (hj : j < n) (hij : i ≠ j)
    (hdi : ∑ l ∈ Finset.range n, linkProb n (sl.getD s.selfloops) (at_ E θ).prob ndir i l ≠ 0)
    (hdj : ∑ l ∈ Finset.range n, linkProb n (sl.getD s.selfloops) (at_ E θ).prob ndir j l ≠ 0) :
    (expected_av_nn_property z jUndef E n n 1 (fun i c => fin (x i c)) ndir sl dr s).1
      = .error .broadcast := by
  refine ((C89_outcome z jUndef n 1 θ hE hd x ndir hdir sl dr s hθ h).2 ?_).1
  have hmi : i ∈ linked n (fun i => ∑ l ∈ Finset.range n,
      linkProb n (sl.getD s.selfloops) (at_ E θ).prob ndir i l) := by
    unfold linked; simpa [hi] using hdi
  have hmj : j ∈ linked n (fun i => ∑ l ∈ Finset.range n,
      linkProb n (sl.getD s.selfloops) (at_ E θ).prob ndir i l) := by
    unfold linked; simpa [hj] using hdj
  rintro (h1 | h1 | h1)
  · obtain ⟨a, ha⟩ := List.length_eq_one_iff.1 h1
    rw [ha] at hmi hmj
    exact hij ((List.mem_singleton.1 hmi).trans (List.mem_singleton.1 hmj).symm)
  · obtain ⟨a, ha⟩ := List.length_eq_one_iff.1 h1
    rw [ha] at hmi hmj
    exact hij ((List.mem_singleton.1 hmi).trans (List.mem_singleton.1 hmj).symm)
  · rw [List.length_eq_zero_iff.1 h1.1] at hmi
    simp at hmi

/-- Fitness ensemble with out-fitness 1, 2, 2, … and all other properties one. -/
def wit2 : Ens := Ens.sparseFit 1 (fun i => if i = 0 then 1 else 2) (fun _ => 1) (fun _ _ => 1)

theorem wit2_coherent : (at_ wit2 (ofENN 1)).Coherent :=
  Ens.isModel_coherent
    (E := Ens.sparseFit 1 (fun i => if i = 0 then 1 else 2) (fun _ => 1) (fun _ _ => 1))
    (.sparseFit 1 _ _ _)

theorem wit2_dyad : DyadConst wit2 := fun _ _ _ _ => rfl

theorem fitProb_one : Spec.fitProb 1 = 1 / 2 := by simp [Spec.fitProb]; norm_num

theorem fitProb_two : Spec.fitProb 2 = 2 / 3 := by
  simp [Spec.fitProb]; norm_num

theorem wit2_prob (i j : ℕ) : (at_ wit2 (ofENN 1)).prob (i, j) = if i = 0 then 1 / 2 else 2 / 3 := by
  have h : (at_ wit2 (ofENN 1)).p i j
      = fin (Spec.fitProb (1 * (if i = 0 then 1 else 2) * 1 * 1)) := sparse_fit_p_ij 1 _ 1 1
  rw [Ens.prob, h]
  by_cases h0 : i = 0
  · simp [h0, fitProb_one]
  · simp [h0, fitProb_two]

/-- Neighbour probabilities of two vertices without self loops. -/
theorem wit2_link {i j : ℕ} (hi : i < 2) (hj : j < 2) :
    linkProb 2 false (at_ wit2 (ofENN 1)).prob .out i j
      = if i = j then 0 else if i = 0 then 1 / 2 else 2 / 3 := by
  rw [linkProb_eq _ _ hi hj]
  show masked false (fun i j => (at_ wit2 (ofENN 1)).prob (i, j)) i j = _
  unfold masked admissible
  simp only [wit2_prob]
  by_cases h : i = j <;> simp [h]

theorem linked_all {n : ℕ} {D : ℕ → ℝ} (h : ∀ i < n, D i ≠ 0) : linked n D = List.range n := by
  unfold linked
  rw [List.filter_eq_self]
  intro i hi
  simpa using h i (List.mem_range.1 hi)

theorem wit_degree (n : ℕ) (hn : 2 ≤ n) {i : ℕ} (hi : i < n) (b : Bool) :
    ∑ j ∈ Finset.range n, linkProb n b (at_ wit (ofENN 1)).prob .out i j ≠ 0 := by
  have hw : ∀ j ∈ Finset.range n, linkProb n b (at_ wit (ofENN 1)).prob .out i j
      = if i ≠ j ∨ b = true then 1 / 2 else 0 := fun j hj => by
    rw [linkProb_eq _ _ hi (Finset.mem_range.1 hj)]
    show masked b (fun i j => (at_ wit (ofENN 1)).prob (i, j)) i j = _
    unfold masked admissible
    simp only [wit_prob, fitProb_one]
    by_cases h : i = j <;> cases b <;> simp [h]
  rw [Finset.sum_congr rfl hw]
  have hpos : 0 < ∑ j ∈ Finset.range n, (if i ≠ j ∨ b = true then (1 / 2 : ℝ) else 0) := by
    refine Finset.sum_pos' (fun j _ => by split <;> norm_num)
      ⟨if i = 0 then 1 else 0, Finset.mem_range.2 (by split <;> omega), ?_⟩
    rw [if_pos]
    · norm_num
    · left; split <;> omega
  exact hpos.ne'

/-- Three vertices, all probabilities one half, an array with two columns: `ValueError`, and the
ensemble is left with the self loops of the call. -/
theorem C89_raises_violated (z : Bool) (jUndef : ℕ) (x : ℕ → ℕ → ℝ) :
    let r := expected_av_nn_property z jUndef wit 3 3 2 (fun i c => fin (x i c)) .out (some true)
      false (newly (δ := wit.δ) (ofENN 1) false)
    r.1 = .error .broadcast ∧ r.2.selfloops = true := by
  have h := (C89_outcome (E := wit) z jUndef 3 2 (ofENN 1) (wit_coherent 1) wit_dyad x .out (by simp)
    (some true) false (newly (δ := wit.δ) (ofENN 1) false) rfl
    (Or.inl (newly_degFresh wit 3 (ofENN 1) false))).2
  refine h ?_
  rw [linked_all (fun i hi => wit_degree 3 (by omega) hi _)]
  simp [Accepted]

/-- The numbers returned can be other numbers: two vertices with the link probabilities 1/2 (from
the first to the second) and 2/3 (back), an array with two columns.  Vertex 0 has the only
neighbour 1, whose value in column 1 is one, but the value returned is 3/4. -/
theorem C89_values_violated (z : Bool) (jUndef : ℕ) :
    let x : ℕ → ℕ → ℝ := fun i c => if i = c then 1 else 0
    let P := linkProb 2 false (at_ wit2 (ofENN 1)).prob .out
    (∃ v, (expected_av_nn_property z jUndef wit2 2 2 2 (fun i c => fin (x i c)) .out none false
      (newly (δ := wit2.δ) (ofENN 1) false)).1 = .ok v ∧ v 0 1 = fin (3 / 4)) ∧
    (∑ j ∈ Finset.range 2, P 0 j * x j 1) / ∑ j ∈ Finset.range 2, P 0 j = 1 := by
  dsimp only
  have h := (C89_outcome (E := wit2) z jUndef 2 2 (ofENN 1) wit2_coherent wit2_dyad
    (fun i c => if i = c then 1 else 0) .out (by simp)
    none false (newly (δ := wit2.δ) (ofENN 1) false) rfl
    (Or.inl (newly_degFresh wit2 2 (ofENN 1) false))).1
  dsimp only at h
  have e : (none : Option Bool).getD (newly (δ := wit2.δ) (ofENN 1) false).selfloops = false := rfl
  rw [e] at h
  have hD : ∀ i < 2, ∑ j ∈ Finset.range 2, linkProb 2 false (at_ wit2 (ofENN 1)).prob .out i j
      = if i = 0 then 1 / 2 else 2 / 3 := by
    intro i hi
    rw [Finset.sum_congr rfl (fun j hj => wit2_link hi (Finset.mem_range.1 hj))]
    have : i = 0 ∨ i = 1 := by omega
    rcases this with rfl | rfl <;> simp [Finset.sum_range_succ]
  have hL : linked 2 (fun i => ∑ j ∈ Finset.range 2,
      linkProb 2 false (at_ wit2 (ofENN 1)).prob .out i j) = [0, 1] := by
    rw [linked_all]
    · rfl
    · intro i hi
      rw [hD i hi]; split <;> norm_num
  have hS : ∑ j ∈ Finset.range 2, linkProb 2 false (at_ wit2 (ofENN 1)).prob .out 0 j
      * (if j = 1 then 1 else 0) = 1 / 2 := by
    rw [Finset.sum_congr rfl (fun j hj => by rw [wit2_link (by omega) (Finset.mem_range.1 hj)])]
    simp [Finset.sum_range_succ]
  rw [hL] at h
  obtain ⟨_, v, hv, hvv⟩ := h (by simp [Accepted])
  refine ⟨⟨v, hv, ?_⟩, ?_⟩
  · rw [hvv 0 (by omega) 1 (by omega)]
    simp only [List.length_cons, List.length_nil, List.getD_cons_succ, List.getD_cons_zero]
    rw [if_neg (by norm_num), hD 1 (by omega), hS]
    norm_num
  · rw [hS, hD 0 (by omega)]
    norm_num

/-- The restriction of `C89_partial` is met by two vertices with equal degrees and two columns. -/
example (x : ℕ → ℕ → ℝ) (z : Bool) (jUndef : ℕ) :
    ∃ v, (expected_av_nn_property z jUndef wit 2 2 2 (fun i c => fin (x i c)) .out none false
      (newly (δ := wit.δ) (ofENN 1) false)).1 = .ok v := by
  refine (C89_partial (E := wit) z jUndef 2 2 (ofENN 1) (wit_coherent 1) wit_dyad x .out (by simp) none false
    (newly (δ := wit.δ) (ofENN 1) false) rfl
    (Or.inl (newly_degFresh wit 2 (ofENN 1) false)) ?_).2.imp fun v h => h.1
  dsimp only
  right
  refine ⟨by rw [linked_all (fun i hi => wit_degree 2 (by omega) hi _)]; rfl, ?_⟩
  intro i hi j hj _ _
  have hw : ∀ i < 2, ∑ j ∈ Finset.range 2, linkProb 2 false (at_ wit (ofENN 1)).prob .out i j
      = 1 / 2 := fun i hi => by
    have : ∀ j ∈ Finset.range 2, linkProb 2 false (at_ wit (ofENN 1)).prob .out i j
        = if i ≠ j then 1 / 2 else 0 := fun j hj => by
      rw [linkProb_eq _ _ hi (Finset.mem_range.1 hj)]
      show masked false (fun i j => (at_ wit (ofENN 1)).prob (i, j)) i j = _
      unfold masked admissible
      simp only [wit_prob, fitProb_one]
      by_cases h : i = j <;> simp [h]
    rw [Finset.sum_congr rfl this]
    have : i = 0 ∨ i = 1 := by omega
    rcases this with rfl | rfl <;> simp [Finset.sum_range_succ]
  exact (hw i hi).trans (hw j hj).symm

/-! ## Exceptions of the arguments -/

/-- Any array is refused before the fit, and one of the wrong length after it; nothing changes. -/
theorem C89_refused {E : Ens} (z : Bool) (jUndef n len k : ℕ) (prop : ℕ → ℕ → XR) (ndir : Dir)
    (sl : Option Bool) (dr : Bool) (s : St E.δ) :
    (s.param = none → expected_av_nn_property z jUndef E n len k prop ndir sl dr s
      = (.error (.other .notFitted), s)) ∧
    (∀ θ, s.param = some θ → len ≠ n →
      expected_av_nn_property z jUndef E n len k prop ndir sl dr s
        = (.error (.other .badShape), s)) := by
  refine ⟨fun h => ?_, fun θ h hl => ?_⟩
  · unfold expected_av_nn_property; rw [h]
  · unfold expected_av_nn_property; rw [h]; simp [hl]

example : (init wit.δ false).param = none ∧
    (newly (δ := wit.δ) (ofENN 1) false).param = some (ofENN 1) := ⟨rfl, rfl⟩

/-! ## Spark -/

/-- The Spark method has exactly the outcome of the other one, whichever way the partial results
are combined. -/
theorem C89_spark {E : Ens} (z : Bool) (jUndef n p len k : ℕ) (hp : 0 < p) (prop : ℕ → ℕ → XR)
    (ndir : Dir) (sl : Option Bool) (dr : Bool) {s : St E.δ} (hs : Spark.Query.Good s)
    (r : Except (Fail Err) (ℕ → ℕ → XR)) (s' : St E.δ) :
    ExpectedAvNnProperty z E n p len k prop ndir sl dr s r s' ↔
      expected_av_nn_property z jUndef E n len k prop ndir sl dr s = (r, s') := by
  unfold ExpectedAvNnProperty expected_av_nn_property
  cases hθ : s.param with
  | none =>
    dsimp only
    rw [Prod.mk.injEq, eq_comm (a := r), eq_comm (a := s')]
  | some θ =>
    dsimp only
    by_cases hl : len ≠ n
    · rw [if_pos hl, if_pos hl, Prod.mk.injEq, eq_comm (a := r), eq_comm (a := s')]
    · rw [if_neg hl, if_neg hl]
      have hs' : Spark.Query.Good (setSelfloops (sl.getD s.selfloops) s) := fun t ht => hs t ht
      have hdet := Spark.Query.det_degreeByDir (E := E) (n := n) hp .badNdir ndir
        (dr || (sl.getD s.selfloops != s.selfloops)) hs'
      unfold Spark.Query.Det at hdet
      simp only [hdet]
      cases hd : degreeByDir E n .badNdir ndir (dr || (sl.getD s.selfloops != s.selfloops))
        (setSelfloops (sl.getD s.selfloops) s) with
      | mk d t =>
        have hex : ∀ Q : Except Err (ℕ → XR) → St E.δ → Prop,
            (∃ d' t', (d, t) = (d', t') ∧ Q d' t') ↔ Q d t := by
          intro Q
          constructor
          · rintro ⟨d', t', he, hQ⟩
            cases he; exact hQ
          · exact fun hQ => ⟨d, t, rfl, hQ⟩
        rw [hex]
        cases d with
        | error e =>
          dsimp only
          rw [Prod.mk.injEq, eq_comm (a := r), eq_comm (a := s')]
        | ok deg =>
          dsimp only
          have hdir : ndir.Known := by
            cases ndir with
            | out | inn | outIn => simp
            | underscored | other =>
              exact absurd (congrArg Prod.fst hd) (by simp [degreeByDir])
          have hself : t.selfloops = sl.getD s.selfloops := by
            have h := degreeByDir_self E n .badNdir ndir
              (dr || (sl.getD s.selfloops != s.selfloops)) (setSelfloops (sl.getD s.selfloops) s)
            rw [hd] at h
            exact h
          have key : ∀ P, _ := Spark.Query.exists_unique_job (fun v hv =>
            av_job (hs θ hθ).coherent (hs θ hθ).dyadFree hp prop ndir hdir (sl.getD s.selfloops)
              jUndef (N := n) hv)
          rw [key, hself]
          show (match exp_av_nn_prop jUndef E.p_ij θ n E.prop_out E.prop_in E.prop_dyad
            prop ndir (sl.getD s.selfloops) with
            | .error _ => _
            | .ok av_nn => _) ↔ _
          cases exp_av_nn_prop jUndef E.p_ij θ n E.prop_out E.prop_in E.prop_dyad
            prop ndir (sl.getD s.selfloops) with
          | error e =>
            dsimp only
            rw [Prod.mk.injEq, eq_comm (a := r), eq_comm (a := s')]
          | ok av =>
            dsimp only
            split
            · cases average z (· / ·) n k (fun i => !(deg i).isZero) av deg with
              | none => dsimp only; rw [Prod.mk.injEq, eq_comm (a := r), eq_comm (a := s')]
              | some v => dsimp only; rw [Prod.mk.injEq, eq_comm (a := r), eq_comm (a := s')]
            · rw [Prod.mk.injEq, eq_comm (a := r), eq_comm (a := s')]

end Columns

end

end Verif
