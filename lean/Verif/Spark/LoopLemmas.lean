import Verif.Spark.Lemmas
import Mathlib.Algebra.Order.BigOperators.Group.Multiset
import Mathlib.Algebra.Group.Pi.Basic

/-! # The loops over one pair of blocks as sums -/

namespace Verif

open XR Spec DiGraphEnsemble

namespace Spark

variable {α β δ ζ : Type}

/-- The model does not look at the dyadic property: the same value whatever pair it is read at. -/
def DyadFree (E : Ens) : Prop := ∀ i j a b,
  E.p_ij E.param (E.prop_out i) (E.prop_in j) (E.prop_dyad a b) = E.p i j ∧
  E.logp E.param (E.prop_out i) (E.prop_in j) (E.prop_dyad a b) = E.lp i j ∧
  E.log1mp E.param (E.prop_out i) (E.prop_in j) (E.prop_dyad a b) = E.l1p i j

/-- A job over all pairs of blocks whose tasks sum `F` over their pairs. -/
theorem folds_iter {σ A : Type} [AddCommMonoid A] (R : A → σ) {op : σ → σ → σ} {zero : σ}
    (h0 : zero = R 0) (hop : ∀ a b, op (R a) (R b) = R (a + b)) {N p : ℕ} (hp : 0 < p)
    (F : ℕ → ℕ → A) {x : ℕ → α} {y : ℕ → β}
    {f : ((ℕ × ℕ) × (ℕ × ℕ)) × (ℕ → α) × (ℕ → β) → σ} {v : σ}
    (h : Folds op zero ((p_iter_rdd N p x y).map f) v)
    (hf : ∀ b, f (b, slice x b.1, slice y b.2)
      = R (∑ i ∈ Finset.range (b.1.2 - b.1.1), ∑ j ∈ Finset.range (b.2.2 - b.2.1),
          F (b.1.1 + i) (b.2.1 + j))) :
    v = R (∑ i ∈ Finset.range N, ∑ j ∈ Finset.range N, F i j) := by
  unfold p_iter_rdd at h
  rw [List.map_map] at h
  rw [folds_rep R h0 hop h (forall₂_map R _ _ _ (fun b _ => hf b)), sum_iterBlocks F N hp]

/-- A job over the triangle of pairs of blocks. -/
theorem folds_sym {σ A : Type} [AddCommMonoid A] (R : A → σ) {op : σ → σ → σ} {zero : σ}
    (h0 : zero = R 0) (hop : ∀ a b, op (R a) (R b) = R (a + b)) {N p : ℕ} (hp : 0 < p)
    (F : ℕ → ℕ → A) {x : ℕ → α} {y : ℕ → β}
    {f : ((ℕ × ℕ) × (ℕ × ℕ)) × ((ℕ → α) × (ℕ → α)) × ((ℕ → β) × (ℕ → β)) → σ} {v : σ}
    (h : Folds op zero ((p_sym_rdd N p x y).map f) v)
    (hf : ∀ b, f (fit_map b x y)
      = R (∑ i ∈ Finset.range (b.1.2 - b.1.1),
          ∑ j ∈ Finset.range (inRange i b.2 (decide (b.1 = b.2))), F (b.1.1 + i) (b.2.1 + j))) :
    v = R (∑ i ∈ Finset.range N, ∑ j ∈ Finset.range (i + 1), F i j) := by
  unfold p_sym_rdd at h
  rw [List.map_map] at h
  rw [folds_rep R h0 hop h (forall₂_map R _ _ _ (fun b _ => hf b)), sum_symBlocks F N hp]

/-! ## Expected edges -/

theorem exp_edges_seq (E : Ens) (n : ℕ) (s : Bool) :
    E.exp_edges n s
      = ∑ i ∈ Finset.range n, ∑ j ∈ Finset.range n, if admissible i j s then E.p i j else 0 := by
  unfold Ens.exp_edges DiGraphEnsemble.exp_edges
  rw [foldl_rep (fun a : XR => a) _ (fun i => ∑ j ∈ Finset.range n,
    if admissible i j s then E.p i j else 0) n ?_ 0, zero_add]
  intro i _ a
  refine foldl_rep (fun a : XR => a) _ _ n (fun j _ a => ?_) a
  by_cases h : admissible i j s = true
  · simp only [h, if_true]; rfl
  · simp only [h, Bool.false_eq_true, if_false, add_zero]

theorem exp_edges_block {E : Ens} (hd : DyadFree E) (b : (ℕ × ℕ) × (ℕ × ℕ)) (s : Bool) :
    exp_edges E.p_ij E.param b.1 b.2 (slice E.prop_out b.1) (slice E.prop_in b.2) E.prop_dyad s
      = ∑ i ∈ Finset.range (b.1.2 - b.1.1), ∑ j ∈ Finset.range (b.2.2 - b.2.1),
          if admissible (b.1.1 + i) (b.2.1 + j) s then E.p (b.1.1 + i) (b.2.1 + j) else 0 := by
  unfold exp_edges
  rw [foldl_rep (fun a : XR => a) _ (fun i => ∑ j ∈ Finset.range (b.2.2 - b.2.1),
    if admissible (b.1.1 + i) (b.2.1 + j) s then E.p (b.1.1 + i) (b.2.1 + j) else 0) _ ?_ 0,
    zero_add]
  intro i _ a
  refine foldl_rep (fun a : XR => a) _ _ _ (fun j _ a => ?_) a
  by_cases h : admissible (b.1.1 + i) (b.2.1 + j) s = true
  · simp only [h, if_true, slice, (hd _ _ _ _).1]
  · simp only [h, Bool.false_eq_true, if_false, add_zero]

/-! ## Degrees -/

/-- Degree arrays as an additive object. -/
def repX (a : (ℕ → XR) × (ℕ → XR) × (ℕ → XR)) : Degrees := ⟨a.1, a.2.1, a.2.2⟩

theorem addAt_eq (a : ℕ → XR) (i : ℕ) (v : XR) : addAt a i v = a + Pi.single i v := by
  funext k
  by_cases h : k = i
  · subst h; simp [addAt]
  · simp [addAt, h]

/-- Contribution of the unordered pair to the three degree arrays. -/
noncomputable def degTerm (E : Ens) (s : Bool) (i j : ℕ) : (ℕ → XR) × (ℕ → XR) × (ℕ → XR) :=
  if i ≠ j then
    (Pi.single i (E.p i j + E.p j i - E.p i j * E.p j i)
        + Pi.single j (E.p i j + E.p j i - E.p i j * E.p j i),
      Pi.single i (E.p i j) + Pi.single j (E.p j i), Pi.single j (E.p i j) + Pi.single i (E.p j i))
  else if s then (Pi.single i (E.p i j), Pi.single i (E.p i j), Pi.single j (E.p i j)) else 0

theorem exp_degrees_seq (E : Ens) (n : ℕ) (s : Bool) :
    E.exp_degrees n s
      = repX (∑ i ∈ Finset.range n, ∑ j ∈ Finset.range (i + 1), degTerm E s i j) := by
  unfold Ens.exp_degrees DiGraphEnsemble.exp_degrees
  have h0 : (⟨zeros, zeros, zeros⟩ : Degrees) = repX 0 := rfl
  rw [h0, foldl_rep repX _ (fun i => ∑ j ∈ Finset.range (i + 1), degTerm E s i j) n ?_ 0, zero_add]
  intro i _ a
  refine foldl_rep repX _ _ _ (fun j _ a => ?_) a
  unfold DiGraphEnsemble.exp_degrees_step degTerm
  by_cases h : i ≠ j
  · rw [if_pos h, if_pos h]
    simp only [addAt_eq, repX, add_assoc]; rfl
  · rw [if_neg h, if_neg h]
    by_cases hs : s = true
    · rw [if_pos hs, if_pos hs]; simp only [addAt_eq, repX]; rfl
    · rw [if_neg hs, if_neg hs, add_zero]

theorem exp_degrees_block {E : Ens} (hd : DyadFree E) (b : (ℕ × ℕ) × (ℕ × ℕ)) (s : Bool) :
    exp_degrees E.p_ij E.param b.1 b.2 (slice E.prop_out b.1, slice E.prop_out b.2)
        (slice E.prop_in b.2, slice E.prop_in b.1) E.prop_dyad s
      = repX (∑ i ∈ Finset.range (b.1.2 - b.1.1),
          ∑ j ∈ Finset.range (inRange i b.2 (decide (b.1 = b.2))),
            degTerm E s (b.1.1 + i) (b.2.1 + j)) := by
  unfold exp_degrees
  have h0 : (⟨zeros, zeros, zeros⟩ : Degrees) = repX 0 := rfl
  dsimp only
  rw [h0, foldl_rep repX _ (fun i => ∑ j ∈ Finset.range (inRange i b.2 (decide (b.1 = b.2))),
    degTerm E s (b.1.1 + i) (b.2.1 + j)) _ ?_ 0, zero_add]
  intro i _ a
  refine foldl_rep repX _ _ _ (fun j _ a => ?_) a
  unfold exp_degrees_step degTerm
  simp only [slice, (hd _ _ _ _).1]
  by_cases h : b.1.1 + i ≠ b.2.1 + j
  · rw [if_pos h, if_pos h]
    simp only [addAt_eq, repX, add_assoc]; rfl
  · rw [if_neg h, if_neg h]
    by_cases hs : s = true
    · rw [if_pos hs, if_pos hs]; simp only [addAt_eq, repX]; rfl
    · rw [if_neg hs, if_neg hs, add_zero]

/-! ## Neighbour sums -/

/-- Contribution of the unordered pair to the neighbour sums. -/
noncomputable def avTerm (q : ℕ → ℕ → ℝ) (x : ℕ → ℝ) (s : Bool) (d : Dir) (i j : ℕ) : ℕ → ℝ :=
  if i ≠ j then
    Pi.single i (Query.weight q s d i j * x j) + Pi.single j (Query.weight q s d j i * x i)
  else Pi.single i (Query.weight q s d i i * x i)

theorem exp_av_block {E : Ens} (hE : E.Coherent) (hd : DyadFree E) (b : (ℕ × ℕ) × (ℕ × ℕ))
    (x : ℕ → ℝ) (ndir : Dir) (hdir : ndir.Known) (s : Bool) :
    exp_av_nn_prop E.p_ij E.param b.1 b.2 (slice E.prop_out b.1, slice E.prop_out b.2)
        (slice E.prop_in b.2, slice E.prop_in b.1) E.prop_dyad (fun i => fin (x i)) ndir s
      = .ok (fun k => fin ((∑ i ∈ Finset.range (b.1.2 - b.1.1),
          ∑ j ∈ Finset.range (inRange i b.2 (decide (b.1 = b.2))),
            avTerm (fun i j => E.prob (i, j)) x s ndir (b.1.1 + i) (b.2.1 + j)) k)) := by
  set q : ℕ → ℕ → ℝ := fun i j => E.prob (i, j) with hq
  let R : (ℕ → ℝ) → ℕ → XR := fun a k => fin (a k)
  have hp : ∀ i j, E.p i j = fin (q i j) := fun i j => hE.p_eq i j
  have h0 : (zeros : ℕ → XR) = R 0 := rfl
  unfold exp_av_nn_prop
  dsimp only
  rw [h0, foldlM_rep R _ (fun i => ∑ j ∈ Finset.range (inRange i b.2 (decide (b.1 = b.2))),
    avTerm q x s ndir (b.1.1 + i) (b.2.1 + j)) _ ?_ 0, zero_add]
  intro i _ a
  refine foldlM_rep R _ _ _ (fun j _ a => ?_) a
  unfold exp_av_nn_step avTerm
  simp only [slice, (hd _ _ _ _).1, hp, fin_mul_fin]
  by_cases h : b.1.1 + i ≠ b.2.1 + j
  · rw [if_pos h, if_pos h]
    cases ndir with
    | underscored | other => exact False.elim hdir
    | out =>
      simp only [R, addAt_fin, Query.weight, Query.masked_ne h, Query.masked_ne h.symm, add_assoc]
    | inn =>
      simp only [R, addAt_fin, Query.weight, Query.masked_ne h, Query.masked_ne h.symm, add_assoc]
    | outIn =>
      simp only [fin_add_fin, fin_sub_fin, fin_mul_fin, R, addAt_fin, Query.weight, undir,
        if_pos h, if_pos h.symm, add_assoc]
      rw [add_comm (q (b.2.1 + j) _), mul_comm (q (b.2.1 + j) _)]
  · have h' : b.2.1 + j = b.1.1 + i := (not_not.1 h).symm
    rw [if_neg h, if_neg h, h']
    by_cases hs : s = true
    · rw [if_pos hs]
      cases ndir with
      | underscored | other => exact False.elim hdir
      | out => simp [R, addAt_fin, Query.weight, masked, admissible, hs]
      | inn => simp [R, addAt_fin, Query.weight, masked, admissible, hs]
      | outIn => simp [R, addAt_fin, Query.weight, undir, hs]
    · have : Query.weight q s ndir (b.1.1 + i) (b.1.1 + i) = 0 := by
        cases ndir <;> simp [Query.weight, masked, undir, admissible, hs]
      rw [if_neg hs, this]; simp

/-! ## Likelihood -/

/-- The factor of the probability of a graph that belongs to one pair. -/
noncomputable def likeTerm (E : Ens) (link : ℕ → ℕ → Bool) (s : Bool) (i j : ℕ) : ℝ :=
  if admissible i j s then (if link i j then E.prob (i, j) else 1 - E.prob (i, j)) else 1

theorem likeTerm_nonneg {E : Ens} (hE : E.Coherent) (link : ℕ → ℕ → Bool) (s : Bool) (i j : ℕ) :
    0 ≤ likeTerm E link s i j := by
  have := hE.prob_mem (i, j)
  unfold likeTerm
  split
  · split
    · exact this.1
    · linarith [this.2]
  · norm_num

theorem likelihood_block {E : Ens} (hE : E.Coherent) (hd : DyadFree E)
    (b : (ℕ × ℕ) × (ℕ × ℕ)) (link : ℕ → ℕ → Bool) (s : Bool) :
    likelihood E.logp E.log1mp E.param b.1 b.2 (slice E.prop_out b.1) (slice E.prop_in b.2)
        E.prop_dyad link s
      = elog (∏ i ∈ Finset.range (b.1.2 - b.1.1), ∏ j ∈ Finset.range (b.2.2 - b.2.1),
          likeTerm E link s (b.1.1 + i) (b.2.1 + j)) := by
  have loop : likelihoodLoop E.logp E.log1mp E.param b.1 b.2 (slice E.prop_out b.1)
      (slice E.prop_in b.2) E.prop_dyad link s
      = if 0 < ∏ i ∈ Finset.range (b.1.2 - b.1.1), ∏ j ∈ Finset.range (b.2.2 - b.2.1),
          likeTerm E link s (b.1.1 + i) (b.2.1 + j) then
        .ok (fin (Real.log (∏ i ∈ Finset.range (b.1.2 - b.1.1),
          ∏ j ∈ Finset.range (b.2.2 - b.2.1), likeTerm E link s (b.1.1 + i) (b.2.1 + j))))
        else .error ninf := by
    unfold likelihoodLoop
    have h0 : (0 : XR) = fin 0 := rfl
    rw [h0, foldlM_log _ (fun i => ∏ j ∈ Finset.range (b.2.2 - b.2.1),
        likeTerm E link s (b.1.1 + i) (b.2.1 + j)) _
      (fun i _ => Finset.prod_nonneg (fun j _ => likeTerm_nonneg hE link s _ _)), zero_add]
    intro i _ a
    refine foldlM_log _ _ _ (fun j _ => likeTerm_nonneg hE link s _ _) (fun j _ a => ?_) a
    have key : ∀ r : ℝ, 0 ≤ r → (if (elog r).isInf = true then Except.error (elog r)
        else Except.ok (fin a + elog r) : Except XR XR)
        = if 0 < r then .ok (fin (a + Real.log r)) else .error ninf := by
      intro r hr
      unfold elog
      by_cases h : 0 < r
      · simp [h]
      · simp [h]
    have hpr := hE.prob_mem (b.1.1 + i, b.2.1 + j)
    unfold likeTerm
    by_cases hadm : admissible (b.1.1 + i) (b.2.1 + j) s = true
    · simp only [hadm, if_true, slice, (hd _ _ _ _).2.1, (hd _ _ _ _).2.2]
      by_cases hl : link (b.1.1 + i) (b.2.1 + j) = true
      · simp only [hl, if_true]
        rw [hE.lp_eq]; exact key _ hpr.1
      · simp only [hl, if_false, Bool.false_eq_true]
        rw [hE.l1p_eq]; exact key _ (by linarith [hpr.2])
    · simp [hadm]
  unfold likelihood
  rw [loop]
  unfold elog
  split <;> rename_i heq <;> split at heq <;> simp_all

/-! ## Samples -/

theorem foldl_multiset {γ : Type} (f : List γ → ℕ → List γ) (n : ℕ) (g : ℕ → Multiset γ)
    (h : ∀ i < n, ∀ a, (↑(f a i) : Multiset γ) = ↑a + g i) (a : List γ) :
    (↑((List.range n).foldl f a) : Multiset γ) = ↑a + ∑ i ∈ Finset.range n, g i := by
  induction n with
  | zero => simp
  | succ n ih =>
    rw [List.range_succ, List.foldl_append, List.foldl_cons, List.foldl_nil, h n (by omega),
      ih (fun i hi => h i (by omega)), Finset.sum_range_succ, add_assoc]

/-- A nested loop that appends at most one element per pair. -/
theorem foldl_rows {γ : Type} (c : ℕ → ℕ → Bool) (w : ℕ → ℕ → γ) (n m : ℕ) :
    (↑((List.range n).foldl (fun rows i => (List.range m).foldl (fun rows j =>
        if c i j then rows ++ [w i j] else rows) rows) ([] : List γ)) : Multiset γ)
      = ∑ i ∈ Finset.range n, ∑ j ∈ Finset.range m,
          if c i j then ({w i j} : Multiset γ) else 0 := by
  rw [foldl_multiset _ n (fun i => ∑ j ∈ Finset.range m,
    if c i j then ({w i j} : Multiset γ) else 0)]
  · simp
  · intro i _ a
    refine foldl_multiset _ m _ (fun j _ a => ?_) a
    by_cases h : c i j = true
    · simp only [h, if_true, ← Multiset.coe_add, Multiset.coe_singleton]
    · simp only [h, Bool.false_eq_true, if_false, add_zero]

theorem folds_append {γ : Type} {ls : List (List γ)} {v : List γ}
    (h : Folds (· ++ ·) [] ls v) : (↑v : Multiset γ) = (ls.map Multiset.ofList).sum := by
  induction h with
  | nil => simp
  | single x => simp
  | @node l r a b _ _ iha ihb =>
    rw [← Multiset.coe_add, iha, ihb, List.map_append, List.sum_append]
  | perm hp _ ih => rw [ih, (hp.map _).sum_eq]

theorem folds_appendRows {γ : Type} {ls : List (Except CrembErr (List γ))}
    {v : Except CrembErr (List γ)} (h : Folds appendRows (.ok []) ls v) :
    (∀ l : List (List γ), ls = l.map .ok →
      ∃ r, v = .ok r ∧ (↑r : Multiset γ) = (l.map Multiset.ofList).sum) ∧
    ((∃ x ∈ ls, x = .error .strengthsDiffer) → v = .error .strengthsDiffer) := by
  induction h with
  | nil =>
    refine ⟨fun l hl => ⟨[], rfl, ?_⟩, ?_⟩
    · rw [(List.map_eq_nil_iff.1 hl.symm)]; simp
    · rintro ⟨x, hx, _⟩; simp at hx
  | single x =>
    refine ⟨fun l hl => ?_, ?_⟩
    · obtain ⟨a, rfl, rfl⟩ := List.map_eq_singleton_iff.1 hl.symm
      exact ⟨a, rfl, by simp⟩
    · rintro ⟨y, hy, rfl⟩; rw [List.mem_singleton] at hy; exact hy.symm
  | @node l r a b _ _ iha ihb =>
    refine ⟨fun m hm => ?_, ?_⟩
    · obtain ⟨m₁, m₂, rfl, h1, h2⟩ := List.map_eq_append_iff.1 hm.symm
      obtain ⟨ra, rfl, ea⟩ := iha.1 m₁ h1.symm
      obtain ⟨rb, rfl, eb⟩ := ihb.1 m₂ h2.symm
      exact ⟨ra ++ rb, rfl, by rw [← Multiset.coe_add, ea, eb, List.map_append, List.sum_append]⟩
    · rintro ⟨x, hx, rfl⟩
      rcases List.mem_append.1 hx with h | h
      · rw [iha.2 ⟨_, h, rfl⟩]; rfl
      · rw [ihb.2 ⟨_, h, rfl⟩]
        cases a with
        | ok a => rfl
        | error e => cases e; rfl
  | @perm l l' a hp hF ih =>
    refine ⟨fun m hm => ?_, ?_⟩
    · subst hm
      obtain ⟨u, hu, rfl⟩ : ∃ u : List (List γ), u.Perm m ∧ l = u.map .ok := by
        have : ∀ x ∈ l, ∃ y, x = Except.ok y := by
          intro x hx
          obtain ⟨y, _, rfl⟩ := List.mem_map.1 (hp.mem_iff.1 hx)
          exact ⟨y, rfl⟩
        have hex : ∃ u : List (List γ), l = u.map .ok := by
          clear hp hF ih
          induction l with
          | nil => exact ⟨[], rfl⟩
          | cons x l ih =>
            obtain ⟨y, rfl⟩ := this x List.mem_cons_self
            obtain ⟨u, rfl⟩ := ih (fun z hz => this z (List.mem_cons_of_mem _ hz))
            exact ⟨y :: u, rfl⟩
        obtain ⟨u, rfl⟩ := hex
        refine ⟨u, ?_, rfl⟩
        exact (List.map_perm_map_iff (fun a b h => Except.ok.inj h)).1 hp
      obtain ⟨r, hr, e⟩ := ih.1 u rfl
      exact ⟨r, hr, by rw [e, (hu.map _).sum_eq]⟩
    · rintro ⟨x, hx, rfl⟩
      exact ih.2 ⟨_, hp.mem_iff.2 hx, rfl⟩

/-! ## Confusion counts -/

/-- Count arrays as an additive object. -/
def repC (a : (ℕ → ℕ) × (ℕ → ℕ) × (ℕ → ℕ) × (ℕ → ℕ)) : Conf := ⟨a.1, a.2.1, a.2.2.1, a.2.2.2⟩

theorem incr_eq (a : ℕ → ℕ) (k : ℕ) : incr a k = a + Pi.single k 1 := by
  funext i
  by_cases h : i = k
  · subst h; simp [incr]
  · simp [incr, h]

/-- Contribution of one pair and one threshold. -/
noncomputable def confTerm (th : ℕ → XR) (p : XR) (linked : Bool) (k : ℕ) :
    (ℕ → ℕ) × (ℕ → ℕ) × (ℕ → ℕ) × (ℕ → ℕ) :=
  (Pi.single k (if linked && leb (th k) p then 1 else 0),
    Pi.single k (if !linked && leb (th k) p then 1 else 0),
    Pi.single k (if !linked && !leb (th k) p then 1 else 0),
    Pi.single k (if linked && !leb (th k) p then 1 else 0))

theorem confStep_eq (th : ℕ → XR) (p : XR) (linked : Bool) (k : ℕ)
    (a : (ℕ → ℕ) × (ℕ → ℕ) × (ℕ → ℕ) × (ℕ → ℕ)) :
    confStep th p linked (repC a) k = repC (a + confTerm th p linked k) := by
  unfold confStep confTerm repC
  cases linked <;> cases h : leb (th k) p <;> simp [incr_eq]

theorem confusion_block {E : Ens} (hd : DyadFree E) (K : ℕ) (th : ℕ → XR)
    (b : (ℕ × ℕ) × (ℕ × ℕ)) (link : ℕ → ℕ → Bool) (s : Bool) :
    confusion K th E.p_ij E.param b.1 b.2 (slice E.prop_out b.1) (slice E.prop_in b.2)
        E.prop_dyad link s
      = repC (∑ i ∈ Finset.range (b.1.2 - b.1.1), ∑ j ∈ Finset.range (b.2.2 - b.2.1),
          if admissible (b.1.1 + i) (b.2.1 + j) s then
            ∑ k ∈ Finset.range K, confTerm th (E.p (b.1.1 + i) (b.2.1 + j))
              (link (b.1.1 + i) (b.2.1 + j)) k
          else 0) := by
  unfold confusion
  have h0 : Conf.zero = repC 0 := rfl
  rw [h0, foldl_rep repC _ (fun i => ∑ j ∈ Finset.range (b.2.2 - b.2.1),
    if admissible (b.1.1 + i) (b.2.1 + j) s then
      ∑ k ∈ Finset.range K, confTerm th (E.p (b.1.1 + i) (b.2.1 + j))
        (link (b.1.1 + i) (b.2.1 + j)) k
    else 0) _ ?_ 0, zero_add]
  intro i _ a
  refine foldl_rep repC _ _ _ (fun j _ a => ?_) a
  by_cases h : admissible (b.1.1 + i) (b.2.1 + j) s = true
  · simp only [h, if_true, slice, (hd _ _ _ _).1]
    exact foldl_rep repC _ _ K (fun k _ a => confStep_eq _ _ _ _ _) a
  · simp only [h, Bool.false_eq_true, if_false, add_zero]

end Spark

end Verif
