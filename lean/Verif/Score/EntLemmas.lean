import Verif.Score.Lemmas
import Verif.Prob.Spec

/-!
# Laws with product odds maximise the entropy

Helper lemmas for C103.  Nothing here mentions the code.
-/

namespace Verif

open scoped ENNReal

namespace Law

open Spec

/-- Mean of a graph quantity under an arbitrary distribution on the graphs on `S`. -/
def over (S : Finset (ℕ × ℕ)) (R f : Finset (ℕ × ℕ) → ℝ) : ℝ := ∑ G ∈ S.powerset, R G * f G

theorem over_prob (S : Finset (ℕ × ℕ)) (q : ℕ × ℕ → ℝ) (f : Finset (ℕ × ℕ) → ℝ) :
    over S (prob S q) f = mean S q f := rfl

theorem sum_outDegree {n : ℕ} {sl : Bool} {G : Finset (ℕ × ℕ)} (hG : G ⊆ pairs n sl) (a : ℕ → ℝ) :
    ∑ e ∈ G, a e.1 = ∑ i ∈ Finset.range n, a i * outDegree G i := by
  have h : ∀ e ∈ G, e.1 ∈ Finset.range n := fun e he =>
    Finset.mem_range.2 (mem_pairs.1 (show (e.1, e.2) ∈ _ from hG he)).1
  rw [← Finset.sum_fiberwise_of_maps_to h]
  refine Finset.sum_congr rfl fun i _ => ?_
  rw [outDegree, Finset.sum_congr rfl (g := fun _ => a i), Finset.sum_const, nsmul_eq_mul, mul_comm]
  intro e he
  rw [(Finset.mem_filter.1 he).2]

theorem sum_inDegree {n : ℕ} {sl : Bool} {G : Finset (ℕ × ℕ)} (hG : G ⊆ pairs n sl) (a : ℕ → ℝ) :
    ∑ e ∈ G, a e.2 = ∑ i ∈ Finset.range n, a i * inDegree G i := by
  have h : ∀ e ∈ G, e.2 ∈ Finset.range n := fun e he =>
    Finset.mem_range.2 (mem_pairs.1 (show (e.1, e.2) ∈ _ from hG he)).2.1
  rw [← Finset.sum_fiberwise_of_maps_to h]
  refine Finset.sum_congr rfl fun i _ => ?_
  rw [inDegree, Finset.sum_congr rfl (g := fun _ => a i), Finset.sum_const, nsmul_eq_mul, mul_comm]
  intro e he
  rw [(Finset.mem_filter.1 he).2]

/-- A distribution with mean out-degree zero has no links from the vertex. -/
theorem over_out_zero {S : Finset (ℕ × ℕ)} {R : Finset (ℕ × ℕ) → ℝ} (hR : ∀ G ⊆ S, 0 ≤ R G)
    {f : Finset (ℕ × ℕ) → ℝ} (hf : ∀ G, 0 ≤ f G) (h : over S R f = 0) {G : Finset (ℕ × ℕ)}
    (hG : G ⊆ S) (hp : 0 < R G) : f G = 0 := by
  have := (Finset.sum_eq_zero_iff_of_nonneg fun H hH =>
    mul_nonneg (hR H (Finset.mem_powerset.1 hH)) (hf H)).1 h G (Finset.mem_powerset.2 hG)
  rcases mul_eq_zero.1 this with h1 | h1
  · exact absurd h1 hp.ne'
  · exact h1

variable {n : ℕ} {sl : Bool} {d : ℝ≥0∞} {x y : ℕ → ℝ≥0∞}

/-- The probabilities of the links. -/
noncomputable def fitq (d : ℝ≥0∞) (x y : ℕ → ℝ≥0∞) (e : ℕ × ℕ) : ℝ := fitProb (d * x e.1 * y e.2)

theorem fitq_eq (hd : d ≠ ⊤) (hx : ∀ i, x i ≠ ⊤) (hy : ∀ i, y i ≠ ⊤) (e : ℕ × ℕ) :
    fitq d x y e = (d.toReal * (x e.1).toReal * (y e.2).toReal) /
      (1 + d.toReal * (x e.1).toReal * (y e.2).toReal) := by
  have h : d * x e.1 * y e.2 ≠ ⊤ := ENNReal.mul_ne_top (ENNReal.mul_ne_top hd (hx _)) (hy _)
  rw [fitq, fitProb, if_neg h, ENNReal.toReal_mul, ENNReal.toReal_mul]

theorem fitq_mem (hd : d ≠ ⊤) (hx : ∀ i, x i ≠ ⊤) (hy : ∀ i, y i ≠ ⊤) (e : ℕ × ℕ) :
    0 ≤ fitq d x y e ∧ fitq d x y e < 1 := by
  rw [fitq_eq hd hx hy]
  have h : 0 ≤ d.toReal * (x e.1).toReal * (y e.2).toReal := by positivity
  refine ⟨by positivity, ?_⟩
  rw [div_lt_one (by linarith)]
  linarith

theorem fitq_pos_iff (hd : d ≠ ⊤) (hx : ∀ i, x i ≠ ⊤) (hy : ∀ i, y i ≠ ⊤) (e : ℕ × ℕ) :
    0 < fitq d x y e ↔ 0 < d.toReal ∧ 0 < (x e.1).toReal ∧ 0 < (y e.2).toReal := by
  rw [fitq_eq hd hx hy]
  have h1 := ENNReal.toReal_nonneg (a := d)
  have h2 := ENNReal.toReal_nonneg (a := x e.1)
  have h3 := ENNReal.toReal_nonneg (a := y e.2)
  have h : 0 ≤ d.toReal * (x e.1).toReal * (y e.2).toReal := by positivity
  constructor
  · intro hp
    refine ⟨lt_of_le_of_ne h1 fun h0 => ?_, lt_of_le_of_ne h2 fun h0 => ?_,
      lt_of_le_of_ne h3 fun h0 => ?_⟩ <;> rw [← h0] at hp <;> simp at hp
  · rintro ⟨a, b, c⟩
    positivity

/-- Logarithm of the probability of a possible graph. -/
theorem log_fitq (hd : d ≠ ⊤) (hx : ∀ i, x i ≠ ⊤) (hy : ∀ i, y i ≠ ⊤) {G : Finset (ℕ × ℕ)}
    (hG : G ⊆ pairs n sl) (hp : 0 < prob (pairs n sl) (fitq d x y) G) :
    Real.log (prob (pairs n sl) (fitq d x y) G) =
      ∑ i ∈ Finset.range n, (Real.log d.toReal + Real.log (x i).toReal) * outDegree G i +
      ∑ i ∈ Finset.range n, Real.log (y i).toReal * inDegree G i +
      ∑ e ∈ pairs n sl, Real.log (1 - fitq d x y e) := by
  have hpos := (prob_pos_iff (fun e _ => ⟨(fitq_mem hd hx hy e).1, (fitq_mem hd hx hy e).2.le⟩) G).1 hp
  rw [log_prob hp, ← sum_outDegree hG, ← sum_inDegree hG, ← Finset.sum_add_distrib]
  have h1 : ∀ e ∈ pairs n sl, (if e ∈ G then Real.log (fitq d x y e)
      else Real.log (1 - fitq d x y e)) = (if e ∈ G then
        (Real.log d.toReal + Real.log (x e.1).toReal) + Real.log (y e.2).toReal else 0) +
        Real.log (1 - fitq d x y e) := by
    intro e he
    by_cases h : e ∈ G
    · rw [if_pos h, if_pos h]
      obtain ⟨a, b, c⟩ := (fitq_pos_iff hd hx hy e).1 ((hpos e he).1 h)
      have ht : 0 < 1 + d.toReal * (x e.1).toReal * (y e.2).toReal := by positivity
      have e1 : 1 - fitq d x y e = 1 / (1 + d.toReal * (x e.1).toReal * (y e.2).toReal) := by
        rw [fitq_eq hd hx hy]
        field_simp
        ring
      rw [e1, fitq_eq hd hx hy, Real.log_div (by positivity) ht.ne', Real.log_div one_ne_zero ht.ne',
        Real.log_mul (by positivity) c.ne', Real.log_mul a.ne' b.ne', Real.log_one]
      ring
    · rw [if_neg h, if_neg h, zero_add]
  rw [Finset.sum_congr rfl h1, Finset.sum_add_distrib, Finset.sum_ite_mem,
    Finset.inter_eq_right.2 hG]

/-- A distribution with the mean degrees of the law lives on graphs that the law makes possible. -/
theorem support (hd : d ≠ ⊤) (hx : ∀ i, x i ≠ ⊤) (hy : ∀ i, y i ≠ ⊤)
    {R : Finset (ℕ × ℕ) → ℝ} (hR : ∀ G ⊆ pairs n sl, 0 ≤ R G)
    (hout : ∀ i < n, over (pairs n sl) R (fun G => (outDegree G i : ℝ))
      = mean (pairs n sl) (fitq d x y) (fun G => (outDegree G i : ℝ)))
    (hin : ∀ i < n, over (pairs n sl) R (fun G => (inDegree G i : ℝ))
      = mean (pairs n sl) (fitq d x y) (fun G => (inDegree G i : ℝ)))
    {G : Finset (ℕ × ℕ)} (hG : G ⊆ pairs n sl) (hp : 0 < R G) :
    0 < prob (pairs n sl) (fitq d x y) G := by
  have hm := fun e => fitq_mem hd hx hy (e := e)
  rw [prob_pos_iff fun e _ => ⟨(hm e).1, (hm e).2.le⟩]
  intro e he
  refine ⟨fun hmem => lt_of_le_of_ne (hm e).1 fun h0 => ?_, fun _ => (hm e).2⟩
  have hnp : ¬ 0 < fitq d x y e := h0 ▸ lt_irrefl _
  rw [fitq_pos_iff hd hx hy] at hnp
  obtain ⟨hi, hj, _⟩ := mem_pairs.1 (show (e.1, e.2) ∈ _ from he)
  have hz : ∀ f : ℕ × ℕ, ¬ (0 < d.toReal ∧ 0 < (x f.1).toReal ∧ 0 < (y f.2).toReal) →
      fitq d x y f = 0 := fun f hf =>
    le_antisymm (not_lt.1 fun h => hf ((fitq_pos_iff hd hx hy f).1 h)) (hm f).1
  by_cases hdx : 0 < d.toReal ∧ 0 < (x e.1).toReal
  · have hy0 : ¬ 0 < (y e.2).toReal := fun h => hnp ⟨hdx.1, hdx.2, h⟩
    have h := over_out_zero hR (f := fun G => (inDegree G e.2 : ℝ)) (fun _ => Nat.cast_nonneg _)
      (by
        rw [hin _ hj]
        unfold inDegree
        rw [mean_card_filter]
        refine Finset.sum_eq_zero fun f hf => hz f fun h => hy0 ?_
        rw [← (Finset.mem_filter.1 hf).2]
        exact h.2.2) hG hp
    have h' : inDegree G e.2 = 0 := by exact_mod_cast h
    rw [inDegree, Finset.card_eq_zero, Finset.filter_eq_empty_iff] at h'
    exact h' hmem rfl
  · have h := over_out_zero hR (f := fun G => (outDegree G e.1 : ℝ)) (fun _ => Nat.cast_nonneg _)
      (by
        rw [hout _ hi]
        unfold outDegree
        rw [mean_card_filter]
        refine Finset.sum_eq_zero fun f hf => hz f fun h => hdx ?_
        rw [← (Finset.mem_filter.1 hf).2]
        exact ⟨h.1, h.2.1⟩) hG hp
    have h' : outDegree G e.1 = 0 := by exact_mod_cast h
    rw [outDegree, Finset.card_eq_zero, Finset.filter_eq_empty_iff] at h'
    exact h' hmem rfl

/-- Mean logarithm of the law under a distribution that lives on its possible graphs. -/
theorem over_log (hd : d ≠ ⊤) (hx : ∀ i, x i ≠ ⊤) (hy : ∀ i, y i ≠ ⊤)
    {R : Finset (ℕ × ℕ) → ℝ} (hR : ∀ G ⊆ pairs n sl, 0 ≤ R G)
    (hR1 : ∑ G ∈ (pairs n sl).powerset, R G = 1)
    (hs : ∀ G ⊆ pairs n sl, 0 < R G → 0 < prob (pairs n sl) (fitq d x y) G) :
    over (pairs n sl) R (fun G => Real.log (prob (pairs n sl) (fitq d x y) G)) =
      ∑ i ∈ Finset.range n, (Real.log d.toReal + Real.log (x i).toReal) *
        over (pairs n sl) R (fun G => (outDegree G i : ℝ)) +
      ∑ i ∈ Finset.range n, Real.log (y i).toReal *
        over (pairs n sl) R (fun G => (inDegree G i : ℝ)) +
      ∑ e ∈ pairs n sl, Real.log (1 - fitq d x y e) := by
  have h1 : over (pairs n sl) R (fun G => Real.log (prob (pairs n sl) (fitq d x y) G))
      = ∑ G ∈ (pairs n sl).powerset, R G *
        (∑ i ∈ Finset.range n, (Real.log d.toReal + Real.log (x i).toReal) * outDegree G i +
        ∑ i ∈ Finset.range n, Real.log (y i).toReal * inDegree G i +
        ∑ e ∈ pairs n sl, Real.log (1 - fitq d x y e)) := by
    refine Finset.sum_congr rfl fun G hG => ?_
    have hG' := Finset.mem_powerset.1 hG
    rcases (hR G hG').eq_or_lt with h0 | h0
    · rw [← h0, zero_mul, zero_mul]
    · beta_reduce
      rw [log_fitq hd hx hy hG' (hs G hG' h0)]
  rw [h1]
  simp only [mul_add, Finset.sum_add_distrib, Finset.mul_sum, over]
  congr 1
  · congr 1
    · rw [Finset.sum_comm]
      exact Finset.sum_congr rfl fun i _ => Finset.sum_congr rfl fun G _ => by ring
    · rw [Finset.sum_comm]
      exact Finset.sum_congr rfl fun i _ => Finset.sum_congr rfl fun G _ => by ring
  · rw [Finset.sum_comm]
    refine Finset.sum_congr rfl fun e _ => ?_
    rw [← Finset.sum_mul, hR1, one_mul]

/-- Maximum entropy. -/
theorem max_entropy (hd : d ≠ ⊤) (hx : ∀ i, x i ≠ ⊤) (hy : ∀ i, y i ≠ ⊤)
    {R : Finset (ℕ × ℕ) → ℝ} (hR : ∀ G ⊆ pairs n sl, 0 ≤ R G)
    (hR1 : ∑ G ∈ (pairs n sl).powerset, R G = 1)
    (hout : ∀ i < n, over (pairs n sl) R (fun G => (outDegree G i : ℝ))
      = mean (pairs n sl) (fitq d x y) (fun G => (outDegree G i : ℝ)))
    (hin : ∀ i < n, over (pairs n sl) R (fun G => (inDegree G i : ℝ))
      = mean (pairs n sl) (fitq d x y) (fun G => (inDegree G i : ℝ))) :
    over (pairs n sl) (prob (pairs n sl) (fitq d x y))
        (fun G => Real.log (prob (pairs n sl) (fitq d x y) G))
      ≤ over (pairs n sl) R (fun G => Real.log (R G)) ∧
    (over (pairs n sl) (prob (pairs n sl) (fitq d x y))
        (fun G => Real.log (prob (pairs n sl) (fitq d x y) G))
      = over (pairs n sl) R (fun G => Real.log (R G)) ↔
      ∀ G ⊆ pairs n sl, R G = prob (pairs n sl) (fitq d x y) G) := by
  have hm : ∀ e ∈ pairs n sl, 0 ≤ fitq d x y e ∧ fitq d x y e ≤ 1 := fun e _ =>
    ⟨(fitq_mem hd hx hy e).1, (fitq_mem hd hx hy e).2.le⟩
  have hs : ∀ G ⊆ pairs n sl, 0 < R G → 0 < prob (pairs n sl) (fitq d x y) G := fun G hG hp =>
    support hd hx hy hR hout hin hG hp
  have e : over (pairs n sl) (prob (pairs n sl) (fitq d x y))
        (fun G => Real.log (prob (pairs n sl) (fitq d x y) G))
      = over (pairs n sl) R (fun G => Real.log (prob (pairs n sl) (fitq d x y) G)) := by
    rw [over_log hd hx hy hR hR1 hs, over_log hd hx hy (fun G _ => prob_nonneg hm G) (sum_prob _ _)
      fun _ _ h => h]
    congr 1
    congr 1
    · exact Finset.sum_congr rfl fun i hi => by rw [hout i (Finset.mem_range.1 hi)]; rfl
    · exact Finset.sum_congr rfl fun i hi => by rw [hin i (Finset.mem_range.1 hi)]; rfl
  have hg := gibbs (A := (pairs n sl).powerset) (P := R) (Q := prob (pairs n sl) (fitq d x y))
    (fun G hG => hR G (Finset.mem_powerset.1 hG)) (fun G _ => prob_nonneg hm G) hR1 (sum_prob _ _)
    (fun G hG => hs G (Finset.mem_powerset.1 hG))
  rw [e]
  refine ⟨hg.1, fun h G hG => hg.2 h G (Finset.mem_powerset.2 hG), fun h => ?_⟩
  exact Finset.sum_congr rfl fun G hG => by beta_reduce; rw [h G (Finset.mem_powerset.1 hG)]

end Law

end Verif
