import Verif.Cond.Lemmas
import Verif.Uniform

/-! # Law of the links picked by the conditional sampler -/

namespace Verif.Cond

open scoped ENNReal NNReal
open XR Spec MeasureTheory

section
variable {n M : ℕ} {d : ℝ≥0∞} {x y : ℕ → ℝ≥0} {groups : ℕ → ℕ} {adj : Mat} {s : Bool}
  {A : Finset (ℕ × ℕ)} {p : ℕ × ℕ → ℝ} {u : ℕ → ℕ → ℝ}

/-- The coarse link to which a pair belongs. -/
def key (groups : ℕ → ℕ) (e : ℕ × ℕ) : ℕ × ℕ := (groups e.1, groups e.2)

theorem mem_bl {k e : ℕ × ℕ} : e ∈ blockList (mk n M d x y groups adj s) k.1 k.2
    ↔ e ∈ Law.pairs n s ∧ key groups e = k := by
  rw [mem_blockList]
  simp [Law.block, key, mk]

theorem mem_pickedAll (hA : Stores M adj A) {e : ℕ × ℕ} :
    e ∈ pickedAll (mk n M d x y groups adj s) p u ↔
      key groups e ∈ A ∧ e ∈ picked p (fun e => u e.1 e.2) false
        (blockList (mk n M d x y groups adj s) (key groups e).1 (key groups e).2) := by
  unfold pickedAll
  rw [List.mem_flatMap]
  constructor
  · rintro ⟨k, hk, he⟩
    have h1 := (mem_bl.1 ((picked_sublist _ _ _ _).subset he)).2
    subst h1
    exact ⟨(mem_coarseList hA).1 hk, he⟩
  · rintro ⟨hk, he⟩
    exact ⟨_, (mem_coarseList hA).2 hk, he⟩

theorem nodup_pickedAll (hA : Stores M adj A) :
    (pickedAll (mk n M d x y groups adj s) p u).Nodup := by
  unfold pickedAll
  rw [List.nodup_flatMap]
  refine ⟨fun k _ => (picked_sublist _ _ _ _).nodup (nodup_blockList _ _ _), ?_⟩
  refine (nodup_coarseList hA).imp (fun {a b} hab => ?_)
  intro e h1 h2
  have e1 := (mem_bl.1 ((picked_sublist _ _ _ _).subset h1)).2
  have e2 := (mem_bl.1 ((picked_sublist _ _ _ _).subset h2)).2
  exact hab (e1.symm.trans e2)

theorem pickedAll_pairs (hA : Stores M adj A) {e : ℕ × ℕ}
    (he : e ∈ pickedAll (mk n M d x y groups adj s) p u) : e ∈ Law.pairs n s :=
  (mem_bl.1 ((picked_sublist _ _ _ _).subset ((mem_pickedAll hA).1 he).2)).1

theorem noneOf_bl (k : ℕ × ℕ) : noneOf p (blockList (mk n M d x y groups adj s) k.1 k.2)
    = ∏ e ∈ Law.block (Law.pairs n s) groups k, (1 - p e) := by
  rw [noneOf_eq_prod _ (nodup_blockList _ _ _), toFinset_blockList]; rfl

/-- The picked links merge to the coarse graph. -/
theorem merge_pickedAll (hA : Stores M adj A) (hp : ∀ e, 0 ≤ p e ∧ p e ≤ 1)
    (hF : Feasible n s p groups A) (hu : ∀ i j, 0 ≤ u i j ∧ u i j < 1) :
    Law.merge groups (pickedAll (mk n M d x y groups adj s) p u).toFinset = A := by
  ext k
  rw [Law.mem_merge]
  constructor
  · rintro ⟨e, he, rfl⟩
    exact ((mem_pickedAll hA).1 (List.mem_toFinset.1 he)).1
  · intro hk
    obtain ⟨e, he, hek, hpe⟩ := hF k hk
    have hlt : noneOf p (blockList (mk n M d x y groups adj s) k.1 k.2) < 1 := by
      rw [noneOf_lt_one hp]
      exact ⟨e, mem_bl.2 ⟨he, hek⟩, hpe⟩
    have hne := (picked_spec hp (fun e : ℕ × ℕ => hu e.1 e.2) false
      (blockList (mk n M d x y groups adj s) k.1 k.2)).2 rfl hlt
    obtain ⟨f, hf⟩ := List.exists_mem_of_ne_nil _ hne
    have hfk := (mem_bl.1 ((picked_sublist _ _ _ _).subset hf)).2
    refine ⟨f, ?_, hfk⟩
    rw [List.mem_toFinset, mem_pickedAll hA, hfk]
    exact ⟨hk, hf⟩

/-- A coarse graph of positive probability is feasible. -/
theorem feasible_of_coarseProb (hp : ∀ e, 0 ≤ p e ∧ p e ≤ 1)
    (h : Law.coarseProb (Law.pairs n s) p groups A ≠ 0) : Feasible n s p groups A := by
  unfold Law.coarseProb Law.mean at h
  obtain ⟨G, hG, hne⟩ := Finset.exists_ne_zero_of_sum_ne_zero h
  have hm : Law.merge groups G = A := by
    by_contra hc
    exact hne (by simp [hc])
  have hpr : Law.prob (Law.pairs n s) p G ≠ 0 := left_ne_zero_of_mul hne
  intro k hk
  rw [← hm, Law.mem_merge] at hk
  obtain ⟨e, he, hek⟩ := hk
  have heS := Finset.mem_powerset.1 hG he
  refine ⟨e, heS, hek, ?_⟩
  have := Finset.prod_ne_zero_iff.1 hpr e heS
  rw [if_pos he] at this
  exact lt_of_le_of_ne (hp e).1 (Ne.symm this)

/-- Threshold of each pair when the graph to be returned is `G`. -/
noncomputable def thrG (o : Obj) (p : ℕ × ℕ → ℝ) (G : Finset (ℕ × ℕ)) (e : ℕ × ℕ) : ℝ :=
  thrOf p (fun e => decide (e ∈ G)) false (blockList o (o.groups e.1) (o.groups e.2)) e

/-- Pairs lying on a coarse link. -/
def onLinks (n : ℕ) (s : Bool) (groups : ℕ → ℕ) (A : Finset (ℕ × ℕ)) : Finset (ℕ × ℕ) :=
  (Law.pairs n s).filter (fun e => key groups e ∈ A)

theorem pickedAll_iff (hA : Stores M adj A) {G : Finset (ℕ × ℕ)} (hG : G ⊆ Law.pairs n s)
    (hm : Law.merge groups G = A) :
    (pickedAll (mk n M d x y groups adj s) p u).toFinset = G
      ↔ ∀ e ∈ onLinks n s groups A,
          u e.1 e.2 < thrG (mk n M d x y groups adj s) p G e ↔ e ∈ G := by
  have hGA : ∀ e ∈ G, key groups e ∈ A := fun e he => by
    rw [← hm]; exact Law.mem_merge.2 ⟨e, he, rfl⟩
  have h1 : (pickedAll (mk n M d x y groups adj s) p u).toFinset = G
      ↔ ∀ k ∈ A, ∀ e ∈ blockList (mk n M d x y groups adj s) k.1 k.2,
        e ∈ picked p (fun e => u e.1 e.2) false (blockList (mk n M d x y groups adj s) k.1 k.2)
          ↔ decide (e ∈ G) = true := by
    rw [Finset.ext_iff]
    simp only [List.mem_toFinset, decide_eq_true_eq]
    constructor
    · intro h k hk e he
      have hek := (mem_bl.1 he).2
      rw [← h e, mem_pickedAll hA]
      subst hek
      exact ⟨fun h => ⟨hk, h⟩, fun h => h.2⟩
    · intro h e
      rw [mem_pickedAll hA]
      constructor
      · rintro ⟨hk, he⟩
        exact (h _ hk e ((picked_sublist _ _ _ _).subset he)).1 he
      · intro he
        have hk := hGA e he
        exact ⟨hk, (h _ hk e (mem_bl.2 ⟨hG he, rfl⟩)).2 he⟩
  rw [h1]
  have h2 : ∀ k ∈ A, ((∀ e ∈ blockList (mk n M d x y groups adj s) k.1 k.2,
        e ∈ picked p (fun e => u e.1 e.2) false (blockList (mk n M d x y groups adj s) k.1 k.2)
          ↔ decide (e ∈ G) = true)
      ↔ ∀ e ∈ blockList (mk n M d x y groups adj s) k.1 k.2,
          u e.1 e.2 < thrG (mk n M d x y groups adj s) p G e ↔ e ∈ G) := by
    intro k _
    rw [picked_iff p (fun e => u e.1 e.2) (fun e => decide (e ∈ G)) false (nodup_blockList _ _ _)]
    refine forall₂_congr (fun e he => ?_)
    have hek := (mem_bl.1 he).2
    unfold thrG
    have e1 : (mk n M d x y groups adj s).groups e.1 = k.1 := congrArg Prod.fst hek
    have e2 : (mk n M d x y groups adj s).groups e.2 = k.2 := congrArg Prod.snd hek
    rw [e1, e2, decide_eq_true_eq]
  rw [forall₂_congr h2]
  constructor
  · intro h e he
    obtain ⟨he1, he2⟩ := Finset.mem_filter.1 he
    exact h _ he2 e (mem_bl.2 ⟨he1, rfl⟩)
  · intro h k hk e he
    obtain ⟨he1, he2⟩ := mem_bl.1 he
    exact h e (Finset.mem_filter.2 ⟨he1, by rw [he2]; exact hk⟩)

theorem key_mem (hg : ∀ i < n, groups i < M) {e : ℕ × ℕ} (he : e ∈ Law.pairs n s) :
    key groups e ∈ Finset.range M ×ˢ Finset.range M := by
  have := Law.mem_pairs.1 (show (e.1, e.2) ∈ _ from he)
  simp [key, hg _ this.1, hg _ this.2.1]

theorem stores_sub (hA : Stores M adj A) : A ⊆ Finset.range M ×ˢ Finset.range M := by
  rintro ⟨a, b⟩ h
  simp [((hA.mem a b).1 h).1, hA.lt a b h]

/-- Product of the branch probabilities over one coarse link. -/
noncomputable def blockQ (o : Obj) (p : ℕ × ℕ → ℝ) (G : Finset (ℕ × ℕ)) (n : ℕ) (s : Bool)
    (k : ℕ × ℕ) : ℝ :=
  ∏ e ∈ Law.block (Law.pairs n s) o.groups k,
    if e ∈ G then thrG o p G e else 1 - thrG o p G e

theorem blockQ_mul (hp : ∀ e, 0 ≤ p e ∧ p e ≤ 1) {G : Finset (ℕ × ℕ)} (hG : G ⊆ Law.pairs n s)
    {k : ℕ × ℕ} (hk : k ∈ Law.merge groups G) :
    blockQ (mk n M d x y groups adj s) p G n s k
        * (1 - ∏ e ∈ Law.block (Law.pairs n s) groups k, (1 - p e))
      = ∏ e ∈ Law.block (Law.pairs n s) groups k, if e ∈ G then p e else 1 - p e := by
  have hnd := nodup_blockList (mk n M d x y groups adj s) k.1 k.2
  have hfin : (blockList (mk n M d x y groups adj s) k.1 k.2).toFinset
      = Law.block (Law.pairs n s) groups k := toFinset_blockList _ _ _
  have h := (prod_thrOf hp (fun e => decide (e ∈ G)) hnd).2 (by
    obtain ⟨e, he, hek⟩ := Law.mem_merge.1 hk
    exact ⟨e, mem_bl.2 ⟨hG he, hek⟩, by simpa using he⟩)
  rw [← List.prod_toFinset _ hnd, ← List.prod_toFinset _ hnd, hfin, noneOf_bl] at h
  simp only [decide_eq_true_eq] at h
  rw [← h]
  congr 1
  unfold blockQ
  refine Finset.prod_congr rfl (fun e he => ?_)
  have hek := (Finset.mem_filter.1 he).2
  unfold thrG
  have e1 : (mk n M d x y groups adj s).groups e.1 = k.1 := congrArg Prod.fst hek
  have e2 : (mk n M d x y groups adj s).groups e.2 = k.2 := congrArg Prod.snd hek
  rw [e1, e2]

theorem prod_by_key {T : Finset (ℕ × ℕ)} {S : Finset (ℕ × ℕ)} (h : ∀ e ∈ S, key groups e ∈ T)
    (f : ℕ × ℕ → ℝ) : ∏ e ∈ S, f e = ∏ k ∈ T, ∏ e ∈ Law.block S groups k, f e :=
  (Finset.prod_fiberwise_of_maps_to (s := S) (t := T) (g := key groups) h f).symm

theorem prob_eq_mul (hA : Stores M adj A) (hg : ∀ i < n, groups i < M)
    (hp : ∀ e, 0 ≤ p e ∧ p e ≤ 1) {G : Finset (ℕ × ℕ)} (hG : G ⊆ Law.pairs n s)
    (hm : Law.merge groups G = A) :
    Law.prob (Law.pairs n s) p G
      = (∏ e ∈ onLinks n s groups A,
          if e ∈ G then thrG (mk n M d x y groups adj s) p G e
          else 1 - thrG (mk n M d x y groups adj s) p G e)
        * Law.coarseProb (Law.pairs n s) p groups A := by
  have hT : ∀ e ∈ Law.pairs n s, key groups e ∈ Finset.range M ×ˢ Finset.range M :=
    fun e he => key_mem hg he
  rw [Law.coarseProb_eq p hT (stores_sub hA)]
  unfold Law.prob
  rw [prod_by_key hT]
  have h1 : ∏ e ∈ onLinks n s groups A,
          (if e ∈ G then thrG (mk n M d x y groups adj s) p G e
          else 1 - thrG (mk n M d x y groups adj s) p G e)
      = ∏ k ∈ Finset.range M ×ˢ Finset.range M,
          if k ∈ A then blockQ (mk n M d x y groups adj s) p G n s k else 1 := by
    rw [prod_by_key (T := Finset.range M ×ˢ Finset.range M) (S := onLinks n s groups A) (groups := groups)
      (fun e he => hT e (Finset.mem_filter.1 he).1)]
    refine Finset.prod_congr rfl (fun k _ => ?_)
    split
    · next hk =>
      unfold blockQ
      refine Finset.prod_congr ?_ (fun _ _ => rfl)
      ext e
      simp only [Law.block, onLinks, Finset.mem_filter]
      constructor
      · rintro ⟨⟨h1, _⟩, h2⟩; exact ⟨h1, h2⟩
      · rintro ⟨h1, h2⟩
        exact ⟨⟨h1, by unfold key; rw [show (groups e.1, groups e.2) = k from h2]; exact hk⟩, h2⟩
    · next hk =>
      refine Finset.prod_eq_one (fun e he => ?_)
      exfalso
      simp only [Law.block, onLinks, Finset.mem_filter] at he
      have := he.1.2
      unfold key at this
      rw [he.2] at this
      exact hk this
  rw [h1, ← Finset.prod_mul_distrib]
  refine Finset.prod_congr rfl (fun k _ => ?_)
  unfold Law.linkFactor
  split
  · next hk => rw [blockQ_mul hp hG (by rw [hm]; exact hk)]
  · next hk =>
    rw [one_mul]
    refine Finset.prod_congr rfl (fun e he => ?_)
    rw [if_neg]
    intro heG
    apply hk
    rw [← hm]
    exact Law.mem_merge.2 ⟨e, heG, (Finset.mem_filter.1 he).2⟩

/-- The sampler's law, for a generator giving one independent uniform number per pair. -/
theorem picked_law (hA : Stores M adj A) (hg : ∀ i < n, groups i < M)
    (hp : ∀ e, 0 ≤ p e ∧ p e ≤ 1) (hc : Law.coarseProb (Law.pairs n s) p groups A ≠ 0)
    {Ω : Type} [MeasurableSpace Ω] (P : Measure Ω) (U : ℕ × ℕ → Ω → ℝ) (hU : IsUniform P U)
    (G : Finset (ℕ × ℕ)) (hG : G ⊆ Law.pairs n s) :
    P {ω | (pickedAll (mk n M d x y groups adj s) p (fun i j => U (i, j) ω)).toFinset = G}
      = ENNReal.ofReal (Law.condProb (Law.pairs n s) p groups A G) := by
  unfold Law.condProb
  by_cases hm : Law.merge groups G = A
  · rw [if_pos hm]
    simp only [pickedAll_iff hA hG hm]
    have := hU.measure_box (onLinks n s groups A) (thrG (mk n M d x y groups adj s) p G)
      (fun e _ => thrOf_mem hp _ _ _ _) (fun e => e ∈ G)
    refine this.trans ?_
    rw [prob_eq_mul hA hg hp hG hm, mul_div_assoc, div_self hc, mul_one]
  · rw [if_neg hm, ENNReal.ofReal_zero]
    have hae := hU.ae_mem
    rw [← nonpos_iff_eq_zero]
    have hF := feasible_of_coarseProb hp hc
    refine le_trans (measure_mono_ae (t := ∅) ?_) (by simp)
    filter_upwards [hae] with ω hω hmem
    exact hm (hmem ▸ merge_pickedAll hA hp hF (fun i j => hω (i, j)))

end

end Verif.Cond
