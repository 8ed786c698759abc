import Verif.Cond.LikeProps
import Verif.Cond.MeanProps
import Verif.Ensemble.ModelProps

/-! # Lemmas for C88: the law of the merged graph -/

namespace Verif

open XR Spec
open scoped ENNReal NNReal

namespace Law

/-- The mean of a quantity that depends on the links of a subset only. -/
theorem mean_inter {E : Type} [DecidableEq E] {S B : Finset E} (hB : B ⊆ S) (p : E → ℝ)
    (f : Finset E → ℝ) : mean S p (fun G => f (G ∩ B)) = mean B p f := by
  have h := mean_disjUnion B (S \ B) Finset.disjoint_sdiff p f (fun _ => 1)
  rw [mean_one, mul_one, Finset.union_sdiff_of_subset hB] at h
  rw [← h]
  exact mean_congr (fun G _ => by rw [mul_one])

/-- The mean of a quantity as a sum over the values of another one. -/
theorem mean_fiber {S : Finset (ℕ × ℕ)} (p : ℕ × ℕ → ℝ) (T : Finset (Finset (ℕ × ℕ)))
    (κ : Finset (ℕ × ℕ) → Finset (ℕ × ℕ)) (hκ : ∀ G ⊆ S, κ G ∈ T) (f : Finset (ℕ × ℕ) → ℝ) :
    mean S p f = ∑ A ∈ T, mean S p (fun G => (if κ G = A then 1 else 0) * f G) := by
  rw [← mean_sum]
  refine mean_congr (fun G hG => ?_)
  rw [← Finset.sum_mul, Finset.sum_ite_eq, if_pos (hκ G hG), one_mul]

variable {n M : ℕ} {groups : ℕ → ℕ} {s s' : Bool} {p q : ℕ × ℕ → ℝ}

/-- Merging and keeping some of the pairs of groups only. -/
theorem merge_inter (T G : Finset (ℕ × ℕ)) :
    merge groups G ∩ T = merge groups (G.filter (fun e => (groups e.1, groups e.2) ∈ T)) := by
  ext k
  simp only [Finset.mem_inter, mem_merge, Finset.mem_filter]
  constructor
  · rintro ⟨⟨e, he, rfl⟩, hk⟩; exact ⟨e, ⟨he, hk⟩, rfl⟩
  · rintro ⟨e, ⟨he, hk⟩, rfl⟩; exact ⟨⟨e, he, rfl⟩, hk⟩

/-- The law of the merged graph when the links between two groups are absent with the product of
the probabilities of the absences. -/
theorem merge_prob (T : Finset (ℕ × ℕ)) (S : Finset (ℕ × ℕ))
    (h : ∀ k ∈ T, 1 - q k = ∏ e ∈ block S groups k, (1 - p e)) {A : Finset (ℕ × ℕ)} (hA : A ⊆ T) :
    mean S p (fun G => if merge groups G ∩ T = A then 1 else 0) = prob T q A := by
  have hB : S.filter (fun e => (groups e.1, groups e.2) ∈ T) ⊆ S := Finset.filter_subset _ _
  have h1 : mean S p (fun G => if merge groups G ∩ T = A then (1 : ℝ) else 0)
      = mean S p (fun G => (fun H => if merge groups H = A then (1 : ℝ) else 0)
        (G ∩ S.filter (fun e => (groups e.1, groups e.2) ∈ T))) := by
    refine mean_congr (fun G hG => ?_)
    have : G ∩ S.filter (fun e => (groups e.1, groups e.2) ∈ T)
        = G.filter (fun e => (groups e.1, groups e.2) ∈ T) := by
      ext e; simp only [Finset.mem_inter, Finset.mem_filter]
      exact ⟨fun h => ⟨h.1, h.2.2⟩, fun h => ⟨h.1, hG h.1, h.2⟩⟩
    dsimp only
    rw [this, merge_inter]
  rw [h1]
  rw [show _ = _ from mean_inter hB p (fun H => if merge groups H = A then (1 : ℝ) else 0)]
  have h2 := coarseProb_eq (S := S.filter (fun e => (groups e.1, groups e.2) ∈ T)) p
    (groups := groups) (A := A) (T := T) (fun e he => (Finset.mem_filter.1 he).2) hA
  unfold coarseProb at h2
  rw [h2]
  unfold prob
  refine Finset.prod_congr rfl (fun k hk => ?_)
  have hb : block (S.filter (fun e => (groups e.1, groups e.2) ∈ T)) groups k = block S groups k := by
    unfold block
    ext e; simp only [Finset.mem_filter]
    exact ⟨fun h => ⟨h.1.1, h.2⟩, fun h => ⟨⟨h.1, h.2 ▸ hk⟩, h.2⟩⟩
  unfold linkFactor
  rw [hb, ← h k hk, sub_sub_cancel]

/-- The same for means. -/
theorem merge_mean (T : Finset (ℕ × ℕ)) (S : Finset (ℕ × ℕ))
    (h : ∀ k ∈ T, 1 - q k = ∏ e ∈ block S groups k, (1 - p e)) (f : Finset (ℕ × ℕ) → ℝ) :
    mean S p (fun G => f (merge groups G ∩ T)) = mean T q f := by
  rw [mean_fiber p T.powerset (fun G => merge groups G ∩ T)
    (fun G _ => Finset.mem_powerset.2 Finset.inter_subset_right)]
  unfold mean
  refine Finset.sum_congr rfl (fun A hA => ?_)
  have h1 := merge_prob T S h (Finset.mem_powerset.1 hA)
  rw [← h1]
  unfold mean
  rw [Finset.sum_mul]
  refine Finset.sum_congr rfl (fun G _ => ?_)
  dsimp only
  split
  · next hm => rw [hm]; ring
  · ring

/-- The possible links between two groups that may be linked. -/
theorem block_pairs (hs : s' = true → s = true) {k : ℕ × ℕ} (hk : k ∈ pairs M s') :
    block (pairs n s) groups k
      = (Finset.range n).filter (fun i => groups i = k.1) ×ˢ
        (Finset.range n).filter (fun i => groups i = k.2) := by
  have hk' := (mem_pairs.1 (show (k.1, k.2) ∈ _ from hk)).2.2
  ext ⟨i, j⟩
  simp only [block, Finset.mem_filter, mem_pairs, Finset.mem_product, Finset.mem_range]
  constructor
  · rintro ⟨⟨hi, hj, _⟩, rfl⟩; exact ⟨⟨hi, rfl⟩, hj, rfl⟩
  · rintro ⟨⟨hi, h1⟩, hj, h2⟩
    refine ⟨⟨hi, hj, ?_⟩, Prod.ext h1 h2⟩
    rcases hk' with h | h
    · left; rintro rfl; exact h (h1.symm.trans h2)
    · right; exact hs h

theorem merge_subset (hg : ∀ i < n, groups i < M) {G : Finset (ℕ × ℕ)} (hG : G ⊆ pairs n s) :
    merge groups G ⊆ pairs M true := by
  intro k hk
  obtain ⟨e, he, rfl⟩ := mem_merge.1 hk
  have := mem_pairs.1 (show (e.1, e.2) ∈ _ from hG he)
  exact mem_pairs.2 ⟨hg _ this.1, hg _ this.2.1, Or.inr rfl⟩

end Law

open MeasureTheory in
/-- The probability of an event of a random graph as a mean. -/
theorem event_of_law {Ω : Type} [MeasurableSpace Ω] {P : Measure Ω} {S : Finset (ℕ × ℕ)}
    {p : ℕ × ℕ → ℝ} (hp : ∀ e ∈ S, 0 ≤ p e ∧ p e ≤ 1) {X : Ω → Finset (ℕ × ℕ)}
    (hX : ∀ ω, X ω ⊆ S) (hm : ∀ G ⊆ S, MeasurableSet {ω | X ω = G})
    (hl : ∀ G ⊆ S, P {ω | X ω = G} = ENNReal.ofReal (Law.prob S p G))
    (Q : Finset (ℕ × ℕ) → Prop) [DecidablePred Q] :
    P {ω | Q (X ω)} = ENNReal.ofReal (Law.mean S p (fun G => if Q G then 1 else 0)) := by
  have h1 : {ω | Q (X ω)} = ⋃ G ∈ S.powerset.filter Q, {ω | X ω = G} := by
    ext ω
    simp only [Set.mem_ofPred_eq, Finset.mem_filter, Finset.mem_powerset, Set.mem_iUnion]
    exact ⟨fun h => ⟨X ω, ⟨hX ω, h⟩, rfl⟩, fun ⟨G, h, e⟩ => by rw [e]; exact h.2⟩
  rw [h1, measure_biUnion_finset]
  · unfold Law.mean
    simp only [mul_ite, mul_one, mul_zero]
    rw [← Finset.sum_filter, ENNReal.ofReal_sum_of_nonneg (fun G _ => Law.prob_nonneg hp G)]
    exact Finset.sum_congr rfl (fun G hG =>
      hl G (Finset.mem_powerset.1 (Finset.mem_filter.1 hG).1))
  · intro G _ G' _ hne
    refine Set.disjoint_left.2 (fun ω h h' => hne ?_)
    have h1 : X ω = G := h
    have h2 : X ω = G' := h'
    exact h1.symm.trans h2
  · intro G hG
    exact hm G (Finset.mem_powerset.1 (Finset.mem_filter.1 hG).1)

open MeasureTheory in
/-- The probability of an event of the sampled graph. -/
theorem sample_event {E : Ens} (hE : E.Coherent) (n : ℕ) (s : Bool)
    {Ω : Type} [MeasurableSpace Ω] (P : Measure Ω) (U : ℕ → Ω → ℝ) (hU : IsUniform P U)
    (Q : Finset (ℕ × ℕ) → Prop) [DecidablePred Q] :
    P {ω | Q (E.binary_sample_stream n s (fun k => U k ω)).toFinset}
      = ENNReal.ofReal (Law.mean (Law.pairs n s) E.prob (fun G => if Q G then 1 else 0)) := by
  refine event_of_law (fun e _ => hE.prob_mem e) (fun ω e he => ?_) (fun G hG => ?_)
    (fun G hG => (C14_sample_law hE n s P U hU G hG).1) Q
  · rw [List.mem_toFinset, binary_sample_stream_eq, mem_binary_sample hE] at he
    exact he.1
  · simp only [binary_sample_stream_eq, toFinset_eq_iff hE n s _ hG]
    have : {ω | ∀ e ∈ Law.pairs n s, U ((order n s).idxOf (e.1, e.2)) ω < E.prob e ↔ e ∈ G}
        = ⋂ e ∈ Law.pairs n s,
          {ω | U ((order n s).idxOf (e.1, e.2)) ω < E.prob e ↔ e ∈ G} := by
      ext ω; simp
    rw [this]
    refine Finset.measurableSet_biInter _ (fun e _ => ?_)
    by_cases he : e ∈ G
    · simp only [he, iff_true]
      exact measurableSet_lt (hU.meas _) measurable_const
    · simp only [he, iff_false, not_lt]
      exact measurableSet_le measurable_const (hU.meas _)

theorem elog_mul {a b : ℝ} (ha : 0 < a) (hb : 0 ≤ b) : elog (a * b) = elog a + elog b := by
  unfold elog
  rcases hb.eq_or_lt with h | h
  · rw [← h, mul_zero, if_neg (lt_irrefl _), if_pos ha]; rfl
  · rw [if_pos (mul_pos ha h), if_pos ha, if_pos h, Real.log_mul ha.ne' h.ne']; rfl

theorem elog_eq_ninf {a : ℝ} : elog a = ninf ↔ a ≤ 0 := by
  unfold elog
  split
  · next h => exact ⟨fun h' => (by cases h'), fun h' => absurd h (not_lt.2 h')⟩
  · next h => exact ⟨fun _ => not_lt.1 h, fun _ => rfl⟩

end Verif
