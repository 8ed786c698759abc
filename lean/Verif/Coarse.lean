import Verif.Law
import Mathlib.Data.Finset.Powerset
import Mathlib.Algebra.BigOperators.Group.Finset.Powerset
import Mathlib.Algebra.BigOperators.Field

/-!
# Specification: an ensemble conditioned on a coarse graph

Merging the vertices of a graph by group gives a coarse graph: its links are the pairs of groups
between which there is at least one link.  The conditional law is the ensemble law restricted to
the graphs with a given coarse graph, divided by the probability of that coarse graph.  Nothing
here mentions the code.
-/

namespace Verif.Law

/-- Links of the graph obtained by merging the vertices of each group. -/
def merge (groups : ℕ → ℕ) (G : Finset (ℕ × ℕ)) : Finset (ℕ × ℕ) :=
  G.image (fun e => (groups e.1, groups e.2))

/-- Probability that merging the vertices gives the coarse graph `A`. -/
def coarseProb (S : Finset (ℕ × ℕ)) (p : ℕ × ℕ → ℝ) (groups : ℕ → ℕ) (A : Finset (ℕ × ℕ)) : ℝ :=
  mean S p (fun G => if merge groups G = A then 1 else 0)

/-- Conditional probability of the graph `G` given that the coarse graph is `A`. -/
noncomputable def condProb (S : Finset (ℕ × ℕ)) (p : ℕ × ℕ → ℝ) (groups : ℕ → ℕ)
    (A G : Finset (ℕ × ℕ)) : ℝ :=
  if merge groups G = A then prob S p G / coarseProb S p groups A else 0

/-- Conditional mean of a graph quantity. -/
noncomputable def condMean (S : Finset (ℕ × ℕ)) (p : ℕ × ℕ → ℝ) (groups : ℕ → ℕ)
    (A : Finset (ℕ × ℕ)) (f : Finset (ℕ × ℕ) → ℝ) : ℝ :=
  ∑ G ∈ S.powerset, condProb S p groups A G * f G

/-! ## Independence of disjoint sets of links -/

variable {E : Type} [DecidableEq E]

theorem prob_insert {S : Finset E} {p : E → ℝ} {e : E} (he : e ∉ S) (G : Finset E) :
    prob (insert e S) p G = (if e ∈ G then p e else 1 - p e) * prob S p G := by
  unfold prob; rw [Finset.prod_insert he]

theorem mean_insert {S : Finset E} {p : E → ℝ} {e : E} (he : e ∉ S) (f : Finset E → ℝ) :
    mean (insert e S) p f
      = (1 - p e) * mean S p f + p e * mean S p (fun G => f (insert e G)) := by
  unfold mean
  rw [Finset.sum_powerset_insert he, Finset.mul_sum, Finset.mul_sum]
  congr 1
  · refine Finset.sum_congr rfl (fun G hG => ?_)
    have h : e ∉ G := fun h => he (Finset.mem_powerset.1 hG h)
    rw [prob_insert he, if_neg h]; ring
  · refine Finset.sum_congr rfl (fun G hG => ?_)
    have h : e ∉ G := fun h => he (Finset.mem_powerset.1 hG h)
    rw [prob_insert he, if_pos (Finset.mem_insert_self _ _)]
    have h2 : prob S p (insert e G) = prob S p G := by
      unfold prob
      refine Finset.prod_congr rfl (fun x hx => ?_)
      have : x ≠ e := fun h => he (h ▸ hx)
      simp [this]
    rw [h2]; ring

theorem mean_const_mul {S : Finset E} {p : E → ℝ} (c : ℝ) : mean S p (fun _ => c) = c := by
  have := mean_smul S p c (fun _ => 1)
  rw [mean_one] at this
  simpa using this

/-- The mean over a disjoint union factorises. -/
theorem mean_disjUnion (B S : Finset E) (hd : Disjoint B S) (p : E → ℝ) (f g : Finset E → ℝ) :
    mean (B ∪ S) p (fun G => f (G ∩ B) * g (G ∩ S)) = mean B p f * mean S p g := by
  induction B using Finset.induction_on generalizing f with
  | empty =>
    simp only [Finset.empty_union, Finset.inter_empty]
    rw [mean_smul]
    congr 1
    · unfold mean prob; simp
    · exact mean_congr (fun G hG => by rw [Finset.inter_eq_left.2 hG])
  | insert e B he ih =>
    have hd' : Disjoint B S := Finset.disjoint_of_subset_left (Finset.subset_insert e B) hd
    have heS : e ∉ S := Finset.disjoint_left.1 hd (Finset.mem_insert_self e B)
    have heu : e ∉ B ∪ S := by simp [he, heS]
    rw [Finset.insert_union, mean_insert heu, mean_insert he]
    have h1 : mean (B ∪ S) p (fun G => f (G ∩ insert e B) * g (G ∩ S))
        = mean (B ∪ S) p (fun G => f (G ∩ B) * g (G ∩ S)) :=
      mean_congr (fun G hG => by
        have : e ∉ G := fun h => heu (hG h)
        rw [Finset.inter_insert_of_notMem this])
    have h2 : mean (B ∪ S) p (fun G => f (insert e G ∩ insert e B) * g (insert e G ∩ S))
        = mean (B ∪ S) p (fun G => (fun H => f (insert e H)) (G ∩ B) * g (G ∩ S)) :=
      mean_congr (fun G hG => by
        rw [Finset.insert_inter_of_notMem heS, ← Finset.insert_inter_distrib])
    rw [h1, h2, ih hd', ih hd' (fun H => f (insert e H))]
    ring

/-- Links with different keys are independent: the mean of a product of quantities, each
depending on the links with one key only, is the product of the means. -/
theorem mean_blocks {K : Type} [DecidableEq K] (κ : E → K) (T : Finset K) (S : Finset E)
    (hS : ∀ e ∈ S, κ e ∈ T) (p : E → ℝ) (f : K → Finset E → ℝ) :
    mean S p (fun G => ∏ k ∈ T, f k (G.filter (fun e => κ e = k)))
      = ∏ k ∈ T, mean (S.filter (fun e => κ e = k)) p (f k) := by
  induction T using Finset.induction_on generalizing S with
  | empty =>
    simp only [Finset.prod_empty]; exact mean_one S p
  | insert k T hk ih =>
    have hu : S = S.filter (fun e => κ e = k) ∪ S.filter (fun e => κ e ≠ k) :=
      (Finset.filter_union_filter_not_eq _ S).symm
    have hd : Disjoint (S.filter (fun e => κ e = k)) (S.filter (fun e => κ e ≠ k)) :=
      Finset.disjoint_filter_filter_not _ _ _
    rw [Finset.prod_insert hk]
    have h2 : ∏ j ∈ T, mean (S.filter (fun e => κ e = j)) p (f j)
        = ∏ j ∈ T, mean ((S.filter (fun e => κ e ≠ k)).filter (fun e => κ e = j)) p (f j) := by
      refine Finset.prod_congr rfl (fun j hj => ?_)
      congr 1
      have hjk : j ≠ k := fun h => hk (h ▸ hj)
      ext e
      simp only [Finset.mem_filter]
      constructor
      · rintro ⟨h1, h3⟩; exact ⟨⟨h1, by rw [h3]; exact hjk⟩, h3⟩
      · rintro ⟨⟨h1, _⟩, h3⟩; exact ⟨h1, h3⟩
    rw [h2, ← ih (S.filter (fun e => κ e ≠ k)), ← mean_disjUnion _ _ hd, ← hu]
    · refine mean_congr (fun G hG => ?_)
      rw [Finset.prod_insert hk]
      congr 1
      · congr 1
        ext e; simp only [Finset.mem_filter, Finset.mem_inter]
        exact ⟨fun h => ⟨h.1, hG h.1, h.2⟩, fun h => ⟨h.1, h.2.2⟩⟩
      · refine Finset.prod_congr rfl (fun j hj => ?_)
        have hjk : j ≠ k := fun h => hk (h ▸ hj)
        congr 1
        ext e; simp only [Finset.mem_filter, Finset.mem_inter]
        constructor
        · rintro ⟨h1, h3⟩; exact ⟨⟨h1, hG h1, by rw [h3]; exact hjk⟩, h3⟩
        · rintro ⟨⟨h1, _⟩, h3⟩; exact ⟨h1, h3⟩
    · intro e he
      rw [Finset.mem_filter] at he
      exact (Finset.mem_insert.1 (hS e he.1)).resolve_left he.2

/-! ## The probability of the coarse graph -/

theorem mem_merge {groups : ℕ → ℕ} {G : Finset (ℕ × ℕ)} {k : ℕ × ℕ} :
    k ∈ merge groups G ↔ ∃ e ∈ G, (groups e.1, groups e.2) = k := by simp [merge]

/-- Indicator of one coarse link being as prescribed. -/
noncomputable def blockInd (present : Prop) [Decidable present] (H : Finset E) : ℝ :=
  if H.Nonempty ↔ present then 1 else 0

theorem merge_indicator {groups : ℕ → ℕ} {A T : Finset (ℕ × ℕ)} {G : Finset (ℕ × ℕ)}
    (hG : ∀ e ∈ G, (groups e.1, groups e.2) ∈ T) (hA : A ⊆ T) :
    (if merge groups G = A then (1 : ℝ) else 0)
      = ∏ k ∈ T, blockInd (k ∈ A) (G.filter (fun e => (groups e.1, groups e.2) = k)) := by
  have hne : ∀ k, (G.filter (fun e => (groups e.1, groups e.2) = k)).Nonempty
      ↔ k ∈ merge groups G := by
    intro k; rw [mem_merge]
    simp [Finset.Nonempty]
  by_cases h : merge groups G = A
  · rw [if_pos h]
    symm
    refine Finset.prod_eq_one (fun k _ => ?_)
    unfold blockInd
    rw [if_pos]
    rw [hne, h]
  · rw [if_neg h]
    symm
    have : ∃ k, ¬ (k ∈ merge groups G ↔ k ∈ A) := by
      by_contra hc; push Not at hc; exact h (Finset.ext hc)
    obtain ⟨k, hk⟩ := this
    have hkT : k ∈ T := by
      by_cases hm : k ∈ merge groups G
      · obtain ⟨e, he, rfl⟩ := mem_merge.1 hm; exact hG e he
      · by_cases hA' : k ∈ A
        · exact hA hA'
        · exact absurd ⟨fun h => absurd h hm, fun h => absurd h hA'⟩ hk
    refine Finset.prod_eq_zero hkT ?_
    unfold blockInd
    rw [if_neg]
    rw [hne]; exact hk

theorem mean_blockInd (B : Finset E) (p : E → ℝ) (present : Prop) [Decidable present] :
    mean B p (blockInd present)
      = if present then 1 - ∏ e ∈ B, (1 - p e) else ∏ e ∈ B, (1 - p e) := by
  have h0 := mean_absent B p B (Finset.Subset.refl B)
  have h1 : ∀ G, G ⊆ B → (Disjoint B G ↔ ¬ G.Nonempty) := by
    intro G hG
    rw [Finset.not_nonempty_iff_eq_empty]
    constructor
    · intro h; exact Finset.eq_empty_of_forall_notMem (fun x hx => Finset.disjoint_left.1 h (hG hx) hx)
    · rintro rfl; simp
  by_cases h : present
  · rw [if_pos h, ← h0]
    have := mean_sub B p (fun _ => 1) (fun G => if Disjoint B G then 1 else 0)
    rw [mean_one] at this
    rw [← this]
    refine mean_congr (fun G hG => ?_)
    unfold blockInd
    simp only [h1 G hG, h, iff_true]
    by_cases hn : G.Nonempty <;> simp [hn]
  · rw [if_neg h, ← h0]
    refine mean_congr (fun G hG => ?_)
    unfold blockInd
    simp only [h1 G hG, h, iff_false]

/-- The possible links between two groups. -/
def block (S : Finset (ℕ × ℕ)) (groups : ℕ → ℕ) (k : ℕ × ℕ) : Finset (ℕ × ℕ) :=
  S.filter (fun e => (groups e.1, groups e.2) = k)

/-- Probability of one coarse link being as prescribed. -/
noncomputable def linkFactor (S : Finset (ℕ × ℕ)) (p : ℕ × ℕ → ℝ) (groups : ℕ → ℕ)
    (A : Finset (ℕ × ℕ)) (k : ℕ × ℕ) : ℝ :=
  if k ∈ A then 1 - ∏ e ∈ block S groups k, (1 - p e) else ∏ e ∈ block S groups k, (1 - p e)

theorem coarseProb_eq {S : Finset (ℕ × ℕ)} (p : ℕ × ℕ → ℝ) {groups : ℕ → ℕ}
    {A T : Finset (ℕ × ℕ)} (hS : ∀ e ∈ S, (groups e.1, groups e.2) ∈ T) (hA : A ⊆ T) :
    coarseProb S p groups A = ∏ k ∈ T, linkFactor S p groups A k := by
  unfold coarseProb
  rw [mean_congr (fun G hG => merge_indicator (fun e he => hS e (hG he)) hA),
    mean_blocks (fun e : ℕ × ℕ => (groups e.1, groups e.2)) T S hS p
      (fun k => blockInd (k ∈ A))]
  refine Finset.prod_congr rfl (fun k _ => ?_)
  rw [mean_blockInd]; rfl

/-- Conditional means as quotients. -/
theorem condMean_eq (S : Finset (ℕ × ℕ)) (p : ℕ × ℕ → ℝ) (groups : ℕ → ℕ)
    (A : Finset (ℕ × ℕ)) (f : Finset (ℕ × ℕ) → ℝ) :
    condMean S p groups A f
      = mean S p (fun G => (if merge groups G = A then 1 else 0) * f G)
        / coarseProb S p groups A := by
  unfold condMean mean condProb
  rw [Finset.sum_div]
  refine Finset.sum_congr rfl (fun G _ => ?_)
  by_cases h : merge groups G = A
  · simp only [if_pos h]; ring
  · simp only [if_neg h]; ring

theorem condMean_sum {ι : Type} (S : Finset (ℕ × ℕ)) (p : ℕ × ℕ → ℝ) (groups : ℕ → ℕ)
    (A : Finset (ℕ × ℕ)) (s : Finset ι) (f : ι → Finset (ℕ × ℕ) → ℝ) :
    condMean S p groups A (fun G => ∑ i ∈ s, f i G)
      = ∑ i ∈ s, condMean S p groups A (f i) := by
  simp only [condMean, Finset.mul_sum]
  rw [Finset.sum_comm]

theorem condMean_congr {S : Finset (ℕ × ℕ)} {p : ℕ × ℕ → ℝ} {groups : ℕ → ℕ}
    {A : Finset (ℕ × ℕ)} {f g : Finset (ℕ × ℕ) → ℝ}
    (h : ∀ G, G ⊆ S → merge groups G = A → f G = g G) :
    condMean S p groups A f = condMean S p groups A g := by
  unfold condMean condProb
  refine Finset.sum_congr rfl (fun G hG => ?_)
  split
  · next hm => rw [h G (Finset.mem_powerset.1 hG) hm]
  · ring

/-- The conditional law is a probability law. -/
theorem condMean_one {S : Finset (ℕ × ℕ)} {p : ℕ × ℕ → ℝ} {groups : ℕ → ℕ}
    {A : Finset (ℕ × ℕ)} (h : coarseProb S p groups A ≠ 0) :
    condMean S p groups A (fun _ => 1) = 1 := by
  rw [condMean_eq]
  simp only [mul_one]
  exact div_self h

/-! ## Conditional means of quantities of single coarse links -/

/-- Conditional mean of a product of quantities, each depending on the links of one coarse link. -/
theorem condMean_prod {S : Finset (ℕ × ℕ)} (p : ℕ × ℕ → ℝ) {groups : ℕ → ℕ}
    {A T : Finset (ℕ × ℕ)} (hS : ∀ e ∈ S, (groups e.1, groups e.2) ∈ T) (hA : A ⊆ T)
    (f : ℕ × ℕ → Finset (ℕ × ℕ) → ℝ) :
    condMean S p groups A
        (fun G => ∏ k ∈ T, f k (G.filter (fun e => (groups e.1, groups e.2) = k)))
      = ∏ k ∈ T, mean (block S groups k) p (fun H => blockInd (k ∈ A) H * f k H)
          / linkFactor S p groups A k := by
  rw [condMean_eq, coarseProb_eq p hS hA, Finset.prod_div_distrib]
  congr 1
  refine Eq.trans (mean_congr (fun G hG => ?_))
    (mean_blocks (fun e : ℕ × ℕ => (groups e.1, groups e.2)) T S hS p
      (fun k H => blockInd (k ∈ A) H * f k H))
  rw [merge_indicator (fun e he => hS e (hG he)) hA, ← Finset.prod_mul_distrib]

theorem linkFactor_ne_zero {S : Finset (ℕ × ℕ)} {p : ℕ × ℕ → ℝ} {groups : ℕ → ℕ}
    {A T : Finset (ℕ × ℕ)} (hS : ∀ e ∈ S, (groups e.1, groups e.2) ∈ T) (hA : A ⊆ T)
    (hc : coarseProb S p groups A ≠ 0) {k : ℕ × ℕ} (hk : k ∈ T) :
    linkFactor S p groups A k ≠ 0 := by
  rw [coarseProb_eq p hS hA] at hc
  exact Finset.prod_ne_zero_iff.1 hc k hk

/-- Conditional probability of a link given its coarse link. -/
noncomputable def condLink (S : Finset (ℕ × ℕ)) (p : ℕ × ℕ → ℝ) (groups : ℕ → ℕ)
    (A : Finset (ℕ × ℕ)) (e : ℕ × ℕ) : ℝ :=
  if (groups e.1, groups e.2) ∈ A then
    p e / (1 - ∏ f ∈ block S groups (groups e.1, groups e.2), (1 - p f)) else 0

theorem mean_blockInd_mem {S : Finset (ℕ × ℕ)} (p : ℕ × ℕ → ℝ) {groups : ℕ → ℕ}
    {A : Finset (ℕ × ℕ)} {e : ℕ × ℕ} (he : e ∈ S) :
    mean (block S groups (groups e.1, groups e.2)) p
        (fun H => blockInd ((groups e.1, groups e.2) ∈ A) H * (if e ∈ H then 1 else 0))
      / linkFactor S p groups A (groups e.1, groups e.2) = condLink S p groups A e := by
  unfold condLink linkFactor
  have heb : e ∈ block S groups (groups e.1, groups e.2) := Finset.mem_filter.2 ⟨he, rfl⟩
  by_cases hk : (groups e.1, groups e.2) ∈ A
  · rw [if_pos hk, if_pos hk]
    congr 1
    rw [← mean_mem p heb]
    refine mean_congr (fun H _ => ?_)
    by_cases h : e ∈ H
    · simp [blockInd, h, hk, show H.Nonempty from ⟨e, h⟩]
    · simp [h]
  · rw [if_neg hk, if_neg hk]
    have : mean (block S groups (groups e.1, groups e.2)) p
        (fun H => blockInd ((groups e.1, groups e.2) ∈ A) H * (if e ∈ H then 1 else 0))
        = mean (block S groups (groups e.1, groups e.2)) p (fun _ => 0) :=
      mean_congr (fun H _ => by
        by_cases h : e ∈ H
        · simp [blockInd, h, hk, show H.Nonempty from ⟨e, h⟩]
        · simp [h])
    rw [this, mean_const_mul, zero_div]

theorem mean_blockInd_one {S : Finset (ℕ × ℕ)} {p : ℕ × ℕ → ℝ} {groups : ℕ → ℕ}
    {A : Finset (ℕ × ℕ)} {k : ℕ × ℕ} (h : linkFactor S p groups A k ≠ 0) :
    mean (block S groups k) p (fun H => blockInd (k ∈ A) H * 1) / linkFactor S p groups A k
      = 1 := by
  have h2 := mean_blockInd (block S groups k) p (k ∈ A)
  simp only [mul_one]
  have h3 : mean (block S groups k) p (fun H => blockInd (k ∈ A) H) = linkFactor S p groups A k :=
    h2
  rw [h3, div_self h]

section
variable {S : Finset (ℕ × ℕ)} {p : ℕ × ℕ → ℝ} {groups : ℕ → ℕ} {A T : Finset (ℕ × ℕ)}

/-- Conditional probability that a link is present. -/
theorem condMean_mem (hS : ∀ e ∈ S, (groups e.1, groups e.2) ∈ T) (hA : A ⊆ T)
    (hc : coarseProb S p groups A ≠ 0) {e : ℕ × ℕ} (he : e ∈ S) :
    condMean S p groups A (fun G => if e ∈ G then 1 else 0) = condLink S p groups A e := by
  have h := condMean_prod p hS hA (fun k H => if k = (groups e.1, groups e.2) then
    (if e ∈ H then 1 else 0) else 1)
  have h1 : condMean S p groups A (fun G => if e ∈ G then 1 else 0)
      = condMean S p groups A (fun G => ∏ k ∈ T, (fun k H => if k = (groups e.1, groups e.2) then
    (if e ∈ H then (1 : ℝ) else 0) else 1) k
        (G.filter (fun e => (groups e.1, groups e.2) = k))) := by
    refine condMean_congr (fun G _ _ => ?_)
    rw [Finset.prod_eq_single (groups e.1, groups e.2)]
    · simp
    · intro k _ hk; simp [hk]
    · intro hn; exact absurd (hS e he) hn
  rw [h1, h, Finset.prod_eq_single (groups e.1, groups e.2)]
  · simp only [if_true]
    exact mean_blockInd_mem p he
  · intro k hk hne
    simp only [hne, if_false]
    exact mean_blockInd_one (linkFactor_ne_zero hS hA hc hk)
  · intro hn; exact absurd (hS e he) hn

/-- Links on different coarse links are conditionally independent. -/
theorem condMean_mem_mem (hS : ∀ e ∈ S, (groups e.1, groups e.2) ∈ T) (hA : A ⊆ T)
    (hc : coarseProb S p groups A ≠ 0) {e f : ℕ × ℕ} (he : e ∈ S) (hf : f ∈ S)
    (hne : (groups e.1, groups e.2) ≠ (groups f.1, groups f.2)) :
    condMean S p groups A (fun G => (if e ∈ G then 1 else 0) * (if f ∈ G then 1 else 0))
      = condLink S p groups A e * condLink S p groups A f := by
  set F : ℕ × ℕ → Finset (ℕ × ℕ) → ℝ := fun k H =>
    if k = (groups e.1, groups e.2) then (if e ∈ H then 1 else 0)
    else if k = (groups f.1, groups f.2) then (if f ∈ H then 1 else 0) else 1 with hF
  have h := condMean_prod p hS hA F
  have hFe : F (groups e.1, groups e.2) = fun H => if e ∈ H then 1 else 0 := by
    funext H; simp [hF]
  have hFf : F (groups f.1, groups f.2) = fun H => if f ∈ H then 1 else 0 := by
    funext H; simp only [hF]; rw [if_neg hne.symm, if_pos trivial]
  have hFo : ∀ k, k ≠ (groups e.1, groups e.2) → k ≠ (groups f.1, groups f.2) →
      F k = fun _ => 1 := by
    intro k h1 h2; funext H; simp only [hF]; rw [if_neg h1, if_neg h2]
  have h1 : condMean S p groups A (fun G => (if e ∈ G then 1 else 0) * (if f ∈ G then 1 else 0))
      = condMean S p groups A (fun G => ∏ k ∈ T, F k
        (G.filter (fun e => (groups e.1, groups e.2) = k))) := by
    refine condMean_congr (fun G _ _ => ?_)
    rw [Finset.prod_eq_mul (groups e.1, groups e.2) (groups f.1, groups f.2) hne]
    · rw [hFe, hFf]; simp
    · rintro k _ ⟨hk1, hk2⟩
      rw [hFo k hk1 hk2]
    · intro hn; exact absurd (hS e he) hn
    · intro hn; exact absurd (hS f hf) hn
  rw [h1, h, Finset.prod_eq_mul (groups e.1, groups e.2) (groups f.1, groups f.2) hne]
  · rw [hFe, hFf, mean_blockInd_mem p he, mean_blockInd_mem p hf]
  · rintro k hk ⟨hk1, hk2⟩
    rw [hFo k hk1 hk2]
    exact mean_blockInd_one (linkFactor_ne_zero hS hA hc hk)
  · intro hn; exact absurd (hS e he) hn
  · intro hn; exact absurd (hS f hf) hn

theorem condMean_card_filter (hS : ∀ e ∈ S, (groups e.1, groups e.2) ∈ T) (hA : A ⊆ T)
    (hc : coarseProb S p groups A ≠ 0) (P : ℕ × ℕ → Prop) [DecidablePred P] :
    condMean S p groups A (fun G => ((G.filter P).card : ℝ))
      = ∑ e ∈ S.filter P, condLink S p groups A e := by
  have : condMean S p groups A (fun G => ((G.filter P).card : ℝ))
      = condMean S p groups A (fun G => ∑ e ∈ S.filter P, if e ∈ G then 1 else 0) :=
    condMean_congr (fun G hG _ => by
      rw [Finset.sum_ite_mem]
      simp only [Finset.sum_const, nsmul_eq_mul, mul_one]
      congr 2
      ext e; simp only [Finset.mem_filter, Finset.mem_inter]
      exact ⟨fun h => ⟨⟨hG h.1, h.2⟩, h.1⟩, fun h => ⟨h.2, h.1.2⟩⟩)
  rw [this, condMean_sum]
  exact Finset.sum_congr rfl (fun e he => condMean_mem hS hA hc (Finset.mem_filter.1 he).1)

theorem condMean_card (hS : ∀ e ∈ S, (groups e.1, groups e.2) ∈ T) (hA : A ⊆ T)
    (hc : coarseProb S p groups A ≠ 0) :
    condMean S p groups A (fun G => (G.card : ℝ)) = ∑ e ∈ S, condLink S p groups A e := by
  have := condMean_card_filter hS hA hc (fun _ => True)
  simpa using this

theorem condMean_add_sub (f g h : Finset (ℕ × ℕ) → ℝ) :
    condMean S p groups A (fun G => f G + g G - h G)
      = condMean S p groups A f + condMean S p groups A g - condMean S p groups A h := by
  simp only [condMean, mul_add, mul_sub, Finset.sum_add_distrib, Finset.sum_sub_distrib]

end

end Verif.Law
