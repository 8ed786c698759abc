import Verif.Law
import Mathlib.Analysis.SpecialFunctions.Log.Basic

/-!
# Gibbs' inequality for laws of graphs

Helper lemmas for C102 and C103.  Nothing here mentions the code.
-/

namespace Verif

/-- **Gibbs' inequality**: the mean of `log Q` under `P` is at most that of `log P`, with equality
only for `Q = P`. -/
theorem gibbs {ι : Type} {A : Finset ι} {P Q : ι → ℝ} (hP : ∀ i ∈ A, 0 ≤ P i)
    (hQ : ∀ i ∈ A, 0 ≤ Q i) (hP1 : ∑ i ∈ A, P i = 1) (hQ1 : ∑ i ∈ A, Q i = 1)
    (h : ∀ i ∈ A, 0 < P i → 0 < Q i) :
    ∑ i ∈ A, P i * Real.log (Q i) ≤ ∑ i ∈ A, P i * Real.log (P i) ∧
    (∑ i ∈ A, P i * Real.log (Q i) = ∑ i ∈ A, P i * Real.log (P i) → ∀ i ∈ A, P i = Q i) := by
  have key : ∀ i ∈ A, P i * Real.log (Q i) + P i ≤ P i * Real.log (P i) + Q i ∧
      (P i * Real.log (Q i) + P i = P i * Real.log (P i) + Q i → P i = Q i) := by
    intro i hi
    rcases (hP i hi).eq_or_lt with h0 | h0
    · rw [← h0]
      simp only [zero_mul, zero_add]
      exact ⟨hQ i hi, fun h => h⟩
    · have hq := h i hi h0
      have hx : 0 < Q i / P i := div_pos hq h0
      have e1 : P i * Real.log (Q i) - P i * Real.log (P i) = P i * Real.log (Q i / P i) := by
        rw [Real.log_div hq.ne' h0.ne']; ring
      have e2 : P i * (Q i / P i - 1) = Q i - P i := by
        rw [mul_sub, mul_div_cancel₀ _ h0.ne', mul_one]
      constructor
      · have := mul_le_mul_of_nonneg_left (Real.log_le_sub_one_of_pos hx) h0.le
        linarith
      · intro he
        by_contra hne
        have hne1 : Q i / P i ≠ 1 := by
          rw [ne_eq, div_eq_one_iff_eq h0.ne']
          exact fun h => hne h.symm
        have := mul_lt_mul_of_pos_left (Real.log_lt_sub_one_of_pos hx hne1) h0
        linarith
  have hs : ∑ i ∈ A, (P i * Real.log (Q i) + P i) ≤ ∑ i ∈ A, (P i * Real.log (P i) + Q i) :=
    Finset.sum_le_sum fun i hi => (key i hi).1
  constructor
  · rw [Finset.sum_add_distrib, Finset.sum_add_distrib, hP1, hQ1] at hs
    linarith
  · intro he i hi
    have hsum : ∑ i ∈ A, (P i * Real.log (Q i) + P i) = ∑ i ∈ A, (P i * Real.log (P i) + Q i) := by
      rw [Finset.sum_add_distrib, Finset.sum_add_distrib, hP1, hQ1, he]
    exact (key i hi).2 ((Finset.sum_eq_sum_iff_of_le fun i hi => (key i hi).1).1 hsum i hi)

namespace Law

variable {E : Type} [DecidableEq E] {S : Finset E} {p q : E → ℝ}

theorem prob_pos_iff (hp : ∀ e ∈ S, 0 ≤ p e ∧ p e ≤ 1) (G : Finset E) :
    0 < prob S p G ↔ ∀ e ∈ S, (e ∈ G → 0 < p e) ∧ (e ∉ G → p e < 1) := by
  rw [lt_iff_le_and_ne, and_iff_right (prob_nonneg hp G), ne_comm, ne_eq, prob,
    Finset.prod_eq_zero_iff]
  push Not
  refine forall₂_congr fun e he => ?_
  obtain ⟨h0, h1⟩ := hp e he
  by_cases h : e ∈ G
  · simp only [h, if_true, true_implies, not_true_eq_false, false_implies, and_true]
    exact ⟨fun h2 => lt_of_le_of_ne h0 (Ne.symm h2), fun h2 => h2.ne'⟩
  · simp only [h, if_false, false_implies, not_false_eq_true, true_implies, true_and]
    constructor
    · intro h2
      refine lt_of_le_of_ne h1 fun h3 => h2 ?_
      rw [h3, sub_self]
    · intro h2 h3
      linarith

theorem log_prob {G : Finset E} (h : 0 < prob S p G) :
    Real.log (prob S p G) =
      ∑ e ∈ S, if e ∈ G then Real.log (p e) else Real.log (1 - p e) := by
  rw [prob, Real.log_prod]
  · exact Finset.sum_congr rfl fun e _ => by split <;> rfl
  · intro e he
    exact (Finset.prod_ne_zero_iff.1 h.ne') e he

theorem mean_mem' {e : E} (he : e ∈ S) (a b : ℝ) :
    mean S p (fun G => if e ∈ G then a else b) = p e * a + (1 - p e) * b := by
  have h1 : ∀ G : Finset E, (if e ∈ G then a else b) = (a - b) * (if e ∈ G then 1 else 0) + b := by
    intro G; split <;> ring
  have h2 : mean S p (fun _ => b) = b := by
    have := mean_smul S p b (fun _ => 1)
    rw [mean_one] at this
    simpa using this
  simp only [h1]
  rw [mean_add, mean_smul, mean_mem p he, h2]
  ring

/-- Cross entropy of two laws. -/
theorem mean_log (hp : ∀ e ∈ S, 0 ≤ p e ∧ p e ≤ 1)
    (h : ∀ G ⊆ S, 0 < prob S p G → 0 < prob S q G) :
    mean S p (fun G => Real.log (prob S q G)) =
      ∑ e ∈ S, (p e * Real.log (q e) + (1 - p e) * Real.log (1 - q e)) := by
  have h1 : mean S p (fun G => Real.log (prob S q G)) = mean S p (fun G =>
      ∑ e ∈ S, if e ∈ G then Real.log (q e) else Real.log (1 - q e)) := by
    refine Finset.sum_congr rfl fun G hG => ?_
    rcases (prob_nonneg hp G).eq_or_lt with h0 | h0
    · rw [← h0, zero_mul, zero_mul]
    · beta_reduce
      rw [log_prob (h G (Finset.mem_powerset.1 hG) h0)]
  rw [h1, mean_sum]
  exact Finset.sum_congr rfl fun e he => mean_mem' he _ _

/-- A law of independent links determines the probabilities of the links. -/
theorem prob_inj (h : ∀ G ⊆ S, prob S p G = prob S q G) {e : E} (he : e ∈ S) : p e = q e := by
  rw [← mean_mem p he, ← mean_mem q he]
  exact Finset.sum_congr rfl fun G hG => by rw [h G (Finset.mem_powerset.1 hG)]

theorem prob_congr (h : ∀ e ∈ S, p e = q e) (G : Finset E) : prob S p G = prob S q G :=
  Finset.prod_congr rfl fun e he => by rw [h e he]

theorem mean_log_le (hp : ∀ e ∈ S, 0 ≤ p e ∧ p e ≤ 1) (hq : ∀ e ∈ S, 0 ≤ q e ∧ q e ≤ 1)
    (h : ∀ G ⊆ S, 0 < prob S p G → 0 < prob S q G) :
    mean S p (fun G => Real.log (prob S q G)) ≤ mean S p (fun G => Real.log (prob S p G)) ∧
    (mean S p (fun G => Real.log (prob S q G)) = mean S p (fun G => Real.log (prob S p G)) ↔
      ∀ e ∈ S, p e = q e) := by
  have hg := gibbs (A := S.powerset) (P := prob S p) (Q := prob S q)
    (fun G _ => prob_nonneg hp G) (fun G _ => prob_nonneg hq G) (sum_prob S p) (sum_prob S q)
    (fun G hG => h G (Finset.mem_powerset.1 hG))
  refine ⟨hg.1, fun he e hes => ?_, fun he => ?_⟩
  · exact prob_inj (fun G hG => hg.2 he G (Finset.mem_powerset.2 hG)) hes
  · exact Finset.sum_congr rfl fun G _ => by beta_reduce; rw [prob_congr he]

end Law

end Verif
