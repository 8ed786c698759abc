import Verif.Spark.LoopLemmas
import Mathlib.Tactic.FinCases

/-!
# C43: parallel blocks

`Folds op zero tasks v` says that `v` is a possible result of combining the results of the tasks,
in any order and grouping.  The theorems compare every such `v` with the sequential
implementation; `Verif/Ensemble/Props.lean` relates the latter to the law of the ensemble.
-/

namespace Verif

open XR Spec DiGraphEnsemble

namespace Spark

/-- The ordered pairs of vertices visited when every task loops over its two ranges. -/
def visited (blocks : List ((ℕ × ℕ) × (ℕ × ℕ))) : List (ℕ × ℕ) :=
  blocks.flatMap fun b => (List.range (b.1.2 - b.1.1)).flatMap fun i =>
    (List.range (b.2.2 - b.2.1)).map fun j => (b.1.1 + i, b.2.1 + j)

/-- The pairs visited in the triangular layout: on the diagonal only `j ≤ i`. -/
def visitedSym (blocks : List ((ℕ × ℕ) × (ℕ × ℕ))) : List (ℕ × ℕ) :=
  blocks.flatMap fun b => (List.range (b.1.2 - b.1.1)).flatMap fun i =>
    (List.range (if b.1 = b.2 then i + 1 else b.2.2 - b.2.1)).map fun j => (b.1.1 + i, b.2.1 + j)

theorem count_flatMap_map (n : ℕ) (m : ℕ → ℕ) (c : ℕ → ℕ → ℕ × ℕ) (e : ℕ × ℕ) :
    ((List.range n).flatMap fun i => (List.range (m i)).map fun j => c i j).count e
      = ∑ i ∈ Finset.range n, ∑ j ∈ Finset.range (m i), if c i j = e then 1 else 0 := by
  have h : ∀ l : List (ℕ × ℕ), l.count e = (l.map fun x => if x = e then 1 else 0).sum := by
    intro l
    induction l with
    | nil => simp
    | cons x l ih =>
      rw [List.count_cons, ih, List.map_cons, List.sum_cons, add_comm]
      by_cases hx : x = e <;> simp [hx]
  rw [h, sum_flatMap_range]

theorem count_flatMap_sum {B : Type} (l : List B) (f : B → List (ℕ × ℕ)) (e : ℕ × ℕ) :
    (l.flatMap f).count e = (l.map fun b => (f b).count e).sum := by
  induction l with
  | nil => simp
  | cons x l ih => simp [List.flatMap_cons, List.count_append, ih]

theorem sum_pair_indicator (n : ℕ) (m : ℕ → ℕ) (e : ℕ × ℕ) :
    (∑ i ∈ Finset.range n, ∑ j ∈ Finset.range (m i), if (i, j) = e then 1 else 0)
      = if e.1 < n ∧ e.2 < m e.1 then 1 else 0 := by
  obtain ⟨a, b⟩ := e
  simp only [Prod.mk.injEq]
  by_cases ha : a < n
  · rw [Finset.sum_eq_single a]
    · by_cases hb : b < m a
      · rw [Finset.sum_eq_single b] <;> simp [ha, hb]
      · rw [Finset.sum_eq_zero]
        · simp [hb]
        · intro j hj; rw [Finset.mem_range] at hj; rw [if_neg]; omega
    · intro i _ hi; simp [hi]
    · simp [ha]
  · rw [Finset.sum_eq_zero]
    · simp [ha]
    · intro i hi
      rw [Finset.mem_range] at hi
      exact Finset.sum_eq_zero (fun j _ => if_neg (by omega))

/-- Every ordered pair of vertices is visited exactly once, and nothing else is. -/
theorem C43_ordered_pairs (N : ℕ) {p : ℕ} (hp : 0 < p) (e : ℕ × ℕ) :
    (visited (iterBlocks N p)).count e = if e.1 < N ∧ e.2 < N then 1 else 0 := by
  unfold visited
  rw [count_flatMap_sum]
  simp only [count_flatMap_map _ (fun _ => _)]
  rw [sum_iterBlocks (fun i j => if (i, j) = e then 1 else 0) N hp,
    sum_pair_indicator N (fun _ => N)]

/-- Every unordered pair is visited exactly once in the triangular layout: as `(i, j)` with
`j ≤ i`. -/
theorem C43_unordered_pairs (N : ℕ) {p : ℕ} (hp : 0 < p) (e : ℕ × ℕ) :
    (visitedSym (symBlocks N p)).count e = if e.1 < N ∧ e.2 ≤ e.1 then 1 else 0 := by
  unfold visitedSym
  rw [count_flatMap_sum]
  have h1 : ∀ b : (ℕ × ℕ) × (ℕ × ℕ), (((List.range (b.1.2 - b.1.1)).flatMap fun i =>
      (List.range (if b.1 = b.2 then i + 1 else b.2.2 - b.2.1)).map fun j =>
        (b.1.1 + i, b.2.1 + j)).count e)
      = ∑ i ∈ Finset.range (b.1.2 - b.1.1),
        ∑ j ∈ Finset.range (inRange i b.2 (decide (b.1 = b.2))),
          if (b.1.1 + i, b.2.1 + j) = e then 1 else 0 := by
    intro b
    rw [count_flatMap_map _ (fun i => if b.1 = b.2 then i + 1 else b.2.2 - b.2.1)]
    refine Finset.sum_congr rfl (fun i _ => ?_)
    unfold inRange
    by_cases h : b.1 = b.2 <;> simp [h]
  simp only [h1]
  rw [sum_symBlocks (fun i j => if (i, j) = e then 1 else 0) N hp,
    sum_pair_indicator N (fun i => i + 1)]
  simp only [Nat.lt_succ_iff]

/-- The blocks are non-empty intervals in order that tile `0, …, N - 1`. -/
theorem C43_tiling (N : ℕ) {p : ℕ} (hp : 0 < p) (k : ℕ) (hk : k < N) :
    ∃! i, i < p ∧ (bounds N p i).1 ≤ k ∧ k < (bounds N p i).2 := by
  have hex : ∃ i, i < p ∧ (bounds N p i).1 ≤ k ∧ k < (bounds N p i).2 := by
    by_contra hno
    push Not at hno
    have h := sum_bounds (fun x => if x = k then 1 else 0) N hp
    rw [Finset.sum_ite_eq' (Finset.range N) k (fun _ => 1), if_pos (Finset.mem_range.2 hk)] at h
    rw [Finset.sum_eq_zero] at h
    · exact absurd h (by norm_num)
    · intro i hi
      rw [Finset.mem_range] at hi
      refine Finset.sum_eq_zero (fun x hx => if_neg ?_)
      rw [Finset.mem_range] at hx
      intro he
      have := hno i hi (by omega)
      omega
  obtain ⟨i, hi, h1, h2⟩ := hex
  refine ⟨i, ⟨hi, h1, h2⟩, ?_⟩
  rintro j ⟨hj, h3, h4⟩
  rcases lt_trichotomy j i with h | h | h
  · have := bounds_lt (N := N) h hi; omega
  · exact h
  · have := bounds_lt (N := N) h hj; omega

/-- The option is accepted exactly when it is a positive integer. -/
theorem C43_accepted (v : XR) (p : ℕ) :
    validBlocks (some v) = .ok p ↔ 0 < p ∧ v = fin p := by
  cases v with
  | fin r =>
    simp only [validBlocks]
    constructor
    · intro h
      by_cases h0 : pyInt r = 0
      · rw [if_pos h0] at h; cases h
      rw [if_neg h0] at h
      by_cases h1 : r / pyInt r = 1
      · rw [if_pos h1] at h
        by_cases h2 : pyInt r ≤ 0
        · rw [if_pos h2] at h; cases h
        rw [if_neg h2] at h
        have hp : (pyInt r).toNat = p := Except.ok.inj h
        have hz : (pyInt r : ℝ) ≠ 0 := by exact_mod_cast h0
        have hr : r = pyInt r := by field_simp at h1; exact h1
        refine ⟨by omega, ?_⟩
        rw [fin_inj, hr]
        have : pyInt r = (p : ℤ) := by omega
        rw [this]; simp
      · rw [if_neg h1] at h; cases h
    · rintro ⟨hp, h⟩
      rw [fin_inj] at h
      have hi : pyInt r = (p : ℤ) := by
        unfold pyInt; rw [h, if_pos (by positivity)]; simp
      have hp' : (p : ℝ) ≠ 0 := by positivity
      rw [if_neg (by omega), hi, h]
      rw [if_pos (by push_cast; field_simp), if_neg (by omega)]
      simp
  | pinf => simp [validBlocks]
  | ninf => simp [validBlocks]
  | nan => simp [validBlocks]

/-- The number of blocks actually used is positive for every option that is accepted and every
number of vertices. -/
theorem C43_positive (o : Option XR) (N p : ℕ) (h : validBlocks o = .ok p) :
    0 < clampBlocks N p := by
  have hp : 0 < p := by
    cases o with
    | none => cases h; norm_num
    | some v => exact ((C43_accepted v p).1 h).1
  unfold clampBlocks
  split
  · split <;> omega
  · exact hp

example : validBlocks (some (fin 7)) = .ok 7 :=
  (C43_accepted _ _).2 ⟨by norm_num, by norm_num⟩

/-! ## Jobs -/

/-- `expected_num_edges` -/
theorem C43_expected_num_edges {E : Ens} (hd : DyadFree E) {N p : ℕ} (hp : 0 < p) (s : Bool)
    {v : XR} (h : Folds (· + ·) 0 (edgesTasks E N p s) v) : v = E.exp_edges N s := by
  rw [exp_edges_seq]
  exact folds_iter (fun a : XR => a) rfl (fun _ _ => rfl) hp
    (fun i j => if admissible i j s then E.p i j else 0) h (fun b => exp_edges_block hd b s)

/-- `expected_degree` and its out and in versions -/
theorem C43_expected_degrees {E : Ens} (hd : DyadFree E) {N p : ℕ} (hp : 0 < p) (s : Bool)
    {v : Degrees} (h : Folds addDegrees ⟨zeros, zeros, zeros⟩ (degreeTasks E N p s) v) :
    v = E.exp_degrees N s := by
  rw [exp_degrees_seq]
  exact folds_sym repX rfl (fun _ _ => rfl) hp (degTerm E s) h (fun b => exp_degrees_block hd b s)

/-- The sums of `expected_av_nn_property` -/
theorem C43_av_nn {E : Ens} (hE : E.Coherent) (hd : DyadFree E) (hc : Query.DyadConst E)
    {N p : ℕ} (hp : 0 < p) (x : ℕ → ℝ) (ndir : Dir) (hdir : ndir.Known) (s : Bool) (jUndef : ℕ)
    {v : Except NNErr (ℕ → XR)}
    (h : Folds addArrays (.ok zeros) (avTasks E N p (fun i => fin (x i)) ndir s) v) :
    v = DiGraphEnsemble.exp_av_nn_prop jUndef E.p_ij E.param N E.prop_out E.prop_in E.prop_dyad
      (fun i => fin (x i)) ndir s := by
  rw [Query.exp_av_nn_prop_eq hE hc jUndef N x ndir hdir s, ← sum_triangle]
  exact folds_sym (fun a : ℕ → ℝ => (Except.ok fun k => fin (a k) : Except NNErr (ℕ → XR))) rfl
    (fun _ _ => rfl) hp (avTerm (fun i j => E.prob (i, j)) x s ndir) h
    (fun b => exp_av_block hE hd b x ndir hdir s)

theorem elog_mul {a b : ℝ} (ha : 0 ≤ a) (hb : 0 ≤ b) : elog a + elog b = elog (a * b) := by
  unfold elog
  rcases ha.lt_or_eq with h1 | h1
  · rcases hb.lt_or_eq with h2 | h2
    · rw [if_pos h1, if_pos h2, if_pos (mul_pos h1 h2), Real.log_mul h1.ne' h2.ne', fin_add_fin]
    · subst h2; simp only [h1, if_true, lt_irrefl, if_false, mul_zero]; rfl
  · subst h1
    rcases hb.lt_or_eq with h2 | h2
    · simp only [h2, if_true, lt_irrefl, if_false, zero_mul]; rfl
    · subst h2; simp only [lt_irrefl, if_false, zero_mul]; rfl

/-- `log_likelihood` -/
theorem C43_log_likelihood {E : Ens} (hE : E.Coherent) (hd : DyadFree E) {N p : ℕ} (hp : 0 < p)
    (link : ℕ → ℕ → Bool) (s : Bool) {v : XR}
    (h : Folds (· + ·) 0 (likelihoodTasks E N p link s) v) : v = E.likelihood N link s := by
  rw [likelihood_eq hE, prod_pairs]
  let T : ℕ → ℕ → NNReal := fun i j => ⟨likeTerm E link s i j, likeTerm_nonneg hE link s i j⟩
  let R : Additive NNReal → XR := fun a => elog (Additive.toMul a : NNReal)
  have key := folds_iter R (by simp [R, elog]; rfl) (fun a b => by
      simp only [R, toMul_add, NNReal.coe_mul]
      exact elog_mul (NNReal.coe_nonneg _) (NNReal.coe_nonneg _)) hp
    (fun i j => Additive.ofMul (T i j)) h (fun b => by
      rw [likelihood_block hE hd b link s]
      simp only [R]
      congr 1
      simp [toMul_sum, T]; rfl)
  rw [key]
  simp only [R]
  congr 1
  simp only [toMul_sum, NNReal.coe_prod, T]
  rfl

/-- Binary samples: the same links, whatever the order of the blocks. -/
theorem C43_sample {E : Ens} (hd : DyadFree E) {N p : ℕ} (hp : 0 < p) (s : Bool)
    (u : ℕ → ℕ → ℝ) {v : List (ℕ × ℕ)} (h : Folds (· ++ ·) [] (sampleTasks E N p s u) v) :
    v.Perm (E.binary_sample N s u) := by
  rw [← Multiset.coe_eq_coe]
  let F : ℕ → ℕ → Multiset (ℕ × ℕ) := fun i j =>
    if admissible i j s && ltb (fin (u i j)) (E.p i j) then {(i, j)} else 0
  have hseq : (↑(E.binary_sample N s u) : Multiset (ℕ × ℕ))
      = ∑ i ∈ Finset.range N, ∑ j ∈ Finset.range N, F i j := by
    rw [← foldl_rows]
    unfold Ens.binary_sample DiGraphEnsemble.binary_sample
    congr 2
    funext rows i
    congr 1
    funext rows j
    cases h1 : admissible i j s
    · simp
    · simp only [if_true, Bool.true_and]; rfl
  rw [hseq, folds_append h, ← sum_iterBlocks F N hp]
  unfold sampleTasks p_iter_rdd
  rw [List.map_map, List.map_map]
  congr 1
  refine List.map_congr_left (fun b _ => ?_)
  show (↑(binary_sample E.p_ij E.param b.1 b.2 (slice E.prop_out b.1) (slice E.prop_in b.2)
    E.prop_dyad s u) : Multiset (ℕ × ℕ)) = _
  have := foldl_rows (γ := ℕ × ℕ)
    (fun i j => admissible (b.1.1 + i) (b.2.1 + j) s
      && ltb (fin (u (b.1.1 + i) (b.2.1 + j))) (E.p (b.1.1 + i) (b.2.1 + j)))
    (fun i j => (b.1.1 + i, b.2.1 + j)) (b.1.2 - b.1.1) (b.2.2 - b.2.1)
  refine Eq.trans ?_ this
  unfold binary_sample
  congr 2
  funext rows i
  congr 1
  funext rows j
  simp only [slice, (hd _ _ _ _).1]
  cases h1 : admissible (b.1.1 + i) (b.2.1 + j) s <;> simp

/-- Weighted samples: refused together, and otherwise the same weighted links. -/
theorem C43_cremb {E : Ens} (hd : DyadFree E) {N p : ℕ} (hp : 0 < p) (s_out s_in : ℕ → ℝ)
    (s : Bool) (u e : ℕ → ℕ → ℝ) {v : Except CrembErr (List ((ℕ × ℕ) × XR))}
    (h : Folds appendRows (.ok []) (crembTasks E N p s_out s_in s u e) v) :
    (∀ r, E.cremb_sample N s_out s_in s u e = .ok r → ∃ r', v = .ok r' ∧ r'.Perm r) ∧
    (∀ err, E.cremb_sample N s_out s_in s u e = .error err → v = .error err) := by
  let W : ℕ → ℕ → (ℕ × ℕ) × XR := fun i j =>
    ((i, j), fin (s_out i * s_in j) / (fin (npSum N s_out) * E.p i j) * fin (e i j))
  let c : ℕ → ℕ → Bool := fun i j => admissible i j s && ltb (fin (u i j)) (E.p i j)
  let F : ℕ → ℕ → Multiset ((ℕ × ℕ) × XR) := fun i j => if c i j then {W i j} else 0
  let rows : (ℕ × ℕ) × (ℕ × ℕ) → List ((ℕ × ℕ) × XR) := fun b =>
    (List.range (b.1.2 - b.1.1)).foldl (fun rows i => (List.range (b.2.2 - b.2.1)).foldl
      (fun rows j => if c (b.1.1 + i) (b.2.1 + j) then rows ++ [W (b.1.1 + i) (b.2.1 + j)]
        else rows) rows) []
  by_cases hs : |1 - npSum N s_in / npSum N s_out| < 1e-6
  · have hseq : ∃ r, E.cremb_sample N s_out s_in s u e = .ok r ∧
        (↑r : Multiset ((ℕ × ℕ) × XR)) = ∑ i ∈ Finset.range N, ∑ j ∈ Finset.range N, F i j := by
      refine ⟨_, ?_, foldl_rows c W N N⟩
      unfold Ens.cremb_sample DiGraphEnsemble.cremb_sample
      dsimp only
      rw [if_pos hs]
      congr 2
      funext rows i
      congr 1
      funext rows j
      show _ = if (admissible i j s && ltb (fin (u i j)) (E.p i j)) = true then _ else _
      cases h1 : admissible i j s
      · simp
      · simp only [if_true, Bool.true_and]; rfl
    have htasks : crembTasks E N p s_out s_in s u e = ((iterBlocks N p).map rows).map .ok := by
      unfold crembTasks p_iter_rdd
      rw [List.map_map, List.map_map]
      refine List.map_congr_left (fun b _ => ?_)
      show cremb_sample E.p_ij E.param N b.1 b.2 (slice E.prop_out b.1) (slice E.prop_in b.2)
        E.prop_dyad s_out s_in s u e = _
      unfold cremb_sample
      dsimp only
      rw [if_pos hs]
      show _ = Except.ok (rows b)
      congr 2
      funext rows i
      congr 1
      funext rows j
      simp only [slice, (hd _ _ _ _).1]
      show _ = if (admissible (b.1.1 + i) (b.2.1 + j) s
        && ltb (fin (u (b.1.1 + i) (b.2.1 + j))) (E.p (b.1.1 + i) (b.2.1 + j))) = true then _ else _
      cases h1 : admissible (b.1.1 + i) (b.2.1 + j) s
      · simp
      · simp only [if_true, Bool.true_and]; rfl
    rw [htasks] at h
    obtain ⟨r', hv, he⟩ := (folds_appendRows h).1 _ rfl
    obtain ⟨r, hr, hre⟩ := hseq
    refine ⟨fun r₀ hr₀ => ⟨r', hv, ?_⟩, fun err herr => ?_⟩
    · rw [hr] at hr₀
      obtain rfl := Except.ok.inj hr₀
      rw [← Multiset.coe_eq_coe, he, hre, ← sum_iterBlocks F N hp, List.map_map]
      congr 1
      refine List.map_congr_left (fun b _ => ?_)
      exact foldl_rows (fun i j => c (b.1.1 + i) (b.2.1 + j))
        (fun i j => W (b.1.1 + i) (b.2.1 + j)) _ _
    · rw [hr] at herr; cases herr
  · have hseq : E.cremb_sample N s_out s_in s u e = .error .strengthsDiffer := by
      unfold Ens.cremb_sample DiGraphEnsemble.cremb_sample
      dsimp only
      rw [if_neg hs]
    have herr : ∃ x ∈ crembTasks E N p s_out s_in s u e, x = .error .strengthsDiffer := by
      unfold crembTasks p_iter_rdd
      rw [List.map_map]
      refine ⟨_, List.mem_map.2 ⟨(bounds N p 0, bounds N p 0),
        mem_iterBlocks.2 ⟨0, hp, 0, hp, rfl⟩, rfl⟩, ?_⟩
      show cremb_sample _ _ _ _ _ _ _ _ _ _ _ _ _ = _
      unfold cremb_sample
      dsimp only
      rw [if_neg hs]
    have hv := (folds_appendRows h).2 herr
    refine ⟨fun r hr => ?_, fun err he => ?_⟩
    · rw [hseq] at hr; cases hr
    · rw [hseq] at he; rw [hv, Except.error.inj he]

/-- The objective of the density solver and its derivative. -/
theorem C43_objective {α β : Type} (p_jac_ij : XR → α → β → XR × XR) {N p : ℕ} (hp : 0 < p)
    (prop_out : ℕ → α) (prop_in : ℕ → β) (s : Bool) (param : XR) {v : XR × XR}
    (h : Folds addPair (0, 0) (jacTasks p_jac_ij N p prop_out prop_in s param) v) :
    v = Fit.exp_edges_f_jac (fun d i j => p_jac_ij d (prop_out i) (prop_in j)) N s param := by
  let F : ℕ → ℕ → XR × XR := fun i j =>
    if admissible i j s then p_jac_ij param (prop_out i) (prop_in j) else 0
  have hseq : Fit.exp_edges_f_jac (fun d i j => p_jac_ij d (prop_out i) (prop_in j)) N s param
      = ∑ i ∈ Finset.range N, ∑ j ∈ Finset.range N, F i j := by
    unfold Fit.exp_edges_f_jac
    have h0 : ((0, 0) : XR × XR) = (fun a : XR × XR => a) 0 := rfl
    rw [h0, foldl_rep (fun a : XR × XR => a) _ (fun i => ∑ j ∈ Finset.range N, F i j) N ?_ 0,
      zero_add]
    intro i _ a
    refine foldl_rep (fun a : XR × XR => a) _ _ N (fun j _ a => ?_) a
    by_cases hh : admissible i j s = true
    · simp only [hh, if_true, F]; rfl
    · simp only [hh, Bool.false_eq_true, if_false, F, add_zero]
  rw [hseq]
  refine folds_iter (fun a : XR × XR => a) rfl (fun _ _ => rfl) hp F h (fun b => ?_)
  unfold exp_edges_f_jac
  have h0 : ((0, 0) : XR × XR) = (fun a : XR × XR => a) 0 := rfl
  rw [h0, foldl_rep (fun a : XR × XR => a) _ (fun i => ∑ j ∈ Finset.range (b.2.2 - b.2.1),
    F (b.1.1 + i) (b.2.1 + j)) _ ?_ 0, zero_add]
  intro i _ a
  refine foldl_rep (fun a : XR × XR => a) _ _ _ (fun j _ a => ?_) a
  by_cases hh : admissible (b.1.1 + i) (b.2.1 + j) s = true
  · simp only [hh, if_true, F]; rfl
  · simp only [hh, Bool.false_eq_true, if_false, F, add_zero]

/-! ## The models of the backend -/

/-- The ensembles of the spark backend: single-layer models read numbers (their probabilities are
the functions of the dense backend), multi-layer models read rows of label lists (the functions of
the sparse backend). -/
inductive IsSpark : Ens → Prop
  | fit (d x y) : IsSpark (Ens.denseFit d x y fun _ _ => nan)
  | inv (d x y) : IsSpark (Ens.sparkInv d x y fun _ _ => nan)
  | multiFit (d x y) (hx : ∀ i, RowSorted (x i)) (hy : ∀ i, RowSorted (y i)) :
      IsSpark (Ens.sparseMultiFit d x y)
  | multiInv (d x y) (hx : ∀ i, RowSorted (x i)) (hy : ∀ i, RowSorted (y i)) :
      IsSpark (Ens.sparseMultiInv d x y)

theorem IsSpark.coherent {E : Ens} (h : IsSpark E) : E.Coherent := by
  refine Ens.isModel_coherent ?_
  cases h with
  | fit d x y => exact .denseFit _ _ _ _
  | inv d x y => exact .sparkInv _ _ _ _
  | multiFit d x y hx hy => exact .sparseMultiFit _ _ _ hx hy
  | multiInv d x y hx hy => exact .sparseMultiInv _ _ _ hx hy

theorem IsSpark.dyadFree {E : Ens} (h : IsSpark E) : DyadFree E := by
  intro i j a b
  cases h <;> exact ⟨rfl, rfl, rfl⟩

theorem IsSpark.dyadConst {E : Ens} (h : IsSpark E) : Query.DyadConst E := by
  intro i j a b
  cases h <;> rfl

/-- All jobs of the models of the backend at once, for the number of blocks chosen by the
constructor, in terms of the law of the ensemble. -/
theorem C43_models {E : Ens} (hE : IsSpark E) (N : ℕ) (o : Option XR) (k : ℕ)
    (ho : validBlocks o = .ok k) (s : Bool) :
    let p := clampBlocks N k
    let M := Law.mean (Law.pairs N s) E.prob
    (∀ v, Folds (· + ·) 0 (edgesTasks E N p s) v → v = fin (M fun G => (G.card : ℝ))) ∧
    (∀ v, Folds addDegrees ⟨zeros, zeros, zeros⟩ (degreeTasks E N p s) v → ∀ i < N,
      v.exp_d_out i = fin (M fun G => (Law.outDegree G i : ℝ)) ∧
      v.exp_d_in i = fin (M fun G => (Law.inDegree G i : ℝ)) ∧
      v.exp_d i = fin (M fun G => (Law.degree N G i : ℝ))) ∧
    (∀ G v, Folds (· + ·) 0 (likelihoodTasks E N p (linkOf G) s) v →
      v = elog (Law.prob (Law.pairs N s) E.prob G)) ∧
    (∀ u v, Folds (· ++ ·) [] (sampleTasks E N p s u) v →
      v.Nodup ∧ ∀ e, e ∈ v ↔ e ∈ Law.pairs N s ∧ u e.1 e.2 < E.prob e) := by
  have hp := C43_positive o N k ho
  refine ⟨fun v hv => ?_, fun v hv i hi => ?_, fun G v hv => ?_, fun u v hv => ?_⟩
  · rw [C43_expected_num_edges hE.dyadFree hp s hv, C09_expected_num_edges hE.coherent]
  · rw [C43_expected_degrees hE.dyadFree hp s hv]
    exact C10_expected_degrees hE.coherent N s i hi
  · rw [C43_log_likelihood hE.coherent hE.dyadFree hp _ s hv]
    exact (C12_log_likelihood hE.coherent N s G).1
  · have hperm := C43_sample hE.dyadFree hp s u hv
    refine ⟨hperm.nodup_iff.2 ?_, fun e => ?_⟩
    · rw [binary_sample_eq]; exact (nodup_order N s).filter _
    · rw [hperm.mem_iff, mem_binary_sample hE.coherent]

example : IsSpark (Ens.denseFit 1 (fun _ => 1) (fun _ => ⊤) fun _ _ => nan) := .fit _ _ _

/-- The loops read the dyadic property at positions within the blocks, so for an ensemble that
does use it the block results differ from the sequential ones.  No model of the backend does. -/
theorem C43_dyad_violated : ∃ (E : Ens) (v : XR), E.IsModel ∧
    Folds (· + ·) 0 (edgesTasks E 2 2 false) v ∧ v ≠ E.exp_edges 2 false := by
  let z : ℕ → ℕ → ENNReal := fun i j => if i = 0 ∧ j = 0 then 1 else 0
  refine ⟨Ens.sparseFit 1 (fun _ => 1) (fun _ => 1) z, _, .sparseFit _ _ _ _, folds_fold _ _ _, ?_⟩
  have h1 : Sparse.FitnessModel.p_ij (fin 1) (fin 1) (fin 1) (fin 1) = fin (1 / 2) := by
    simp [Sparse.FitnessModel.p_ij]
    rw [one_def, fin_add_fin, fin_div_fin _ _ (by norm_num)]; norm_num
  have h0 : Sparse.FitnessModel.p_ij (fin 1) (fin 1) (fin 1) (fin 0) = fin 0 := by
    simp [Sparse.FitnessModel.p_ij]; rfl
  have e1 : ofENN 1 = fin 1 := by simp [ofENN]
  have e0 : ofENN 0 = fin 0 := by simp [ofENN]
  simp [edgesTasks, p_iter_rdd, iterBlocks, bounds, slice, exp_edges, List.range_succ, admissible,
    Ens.sparseFit, Ens.exp_edges, DiGraphEnsemble.exp_edges, Ens.arr, z, e1, e0, h1, h0]

end Spark

end Verif
