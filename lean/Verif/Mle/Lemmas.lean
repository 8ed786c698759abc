import Verif.Law
import Verif.Prob.Lemmas
import Mathlib.Analysis.Convex.SpecificFunctions.Basic

/-! # Likelihood of independent links with odds proportional to one parameter -/

namespace Verif.Mle

open Spec
open scoped ENNReal NNReal

noncomputable section

variable {E : Type}

/-- Link probabilities of the fitness model: odds `z * c e`. -/
def odds (c : E → ℝ≥0) (z : ℝ≥0∞) (e : E) : ℝ := fitProb (z * c e)

theorem odds_mem (c : E → ℝ≥0) (z : ℝ≥0∞) (e : E) : 0 ≤ odds c z e ∧ odds c z e ≤ 1 :=
  ⟨fitProb_nonneg _, fitProb_le_one _⟩

theorem odds_fin (c : E → ℝ≥0) (z : ℝ≥0) (e : E) :
    odds c z e = (z : ℝ) * c e / (1 + z * c e) := by
  unfold odds
  rw [fitProb_of_ne_top (by rw [← ENNReal.coe_mul]; exact ENNReal.coe_ne_top)]
  simp

theorem odds_lt_one (c : E → ℝ≥0) (z : ℝ≥0) (e : E) : odds c z e < 1 := by
  unfold odds
  exact fitProb_lt_one (by rw [← ENNReal.coe_mul]; exact ENNReal.coe_ne_top)

theorem odds_zero (c : E → ℝ≥0) (z : ℝ≥0∞) (e : E) : odds c z e = 0 ↔ z = 0 ∨ c e = 0 := by
  unfold odds
  rw [fitProb_eq_zero_iff]; simp

theorem odds_top (c : E → ℝ≥0) (e : E) : odds c ⊤ e = if c e = 0 then 0 else 1 := by
  unfold odds
  split
  · next h => simp [h, fitProb_zero]
  · next h => rw [ENNReal.top_mul (by simpa using h), fitProb_top]

variable [DecidableEq E] (S : Finset E) (c : E → ℝ≥0) (G : Finset E)

theorem prod_ite_card (r : ℝ) : ∏ e ∈ S, (if e ∈ G then r else 1) = r ^ (S ∩ G).card := by
  rw [Finset.prod_ite]
  simp only [Finset.prod_const, one_pow, mul_one]
  rw [Finset.filter_mem_eq_inter]

theorem prob_shift {z z' : ℝ≥0} (hz : z ≠ 0) :
    Law.prob S (odds c z') G * ∏ e ∈ S, (1 + ((z' : ℝ) / z - 1) * odds c z e) =
      ((z' : ℝ) / z) ^ (S ∩ G).card * Law.prob S (odds c z) G := by
  rw [← prod_ite_card S G]
  unfold Law.prob
  rw [← Finset.prod_mul_distrib, ← Finset.prod_mul_distrib]
  refine Finset.prod_congr rfl fun e _ => ?_
  rw [odds_fin, odds_fin]
  have h0 : (0 : ℝ) < z := lt_of_le_of_ne z.2 (by exact_mod_cast hz.symm)
  have h1 : (0 : ℝ) < 1 + z * c e := by positivity
  have h2 : (0 : ℝ) < 1 + z' * c e := by positivity
  split
  · field_simp; ring
  · field_simp; ring

/-- The likelihood at another parameter. -/
theorem prob_le {z z' : ℝ≥0} (hz : z ≠ 0) (hz' : z' ≠ 0) :
    Law.prob S (odds c z') G ≤
      ((z' : ℝ) / z) ^ (((S ∩ G).card : ℝ) - ∑ e ∈ S, odds c z e) * Law.prob S (odds c z) G := by
  have h0 : (0 : ℝ) < z := lt_of_le_of_ne z.2 (by exact_mod_cast hz.symm)
  have h0' : (0 : ℝ) < z' := lt_of_le_of_ne z'.2 (by exact_mod_cast hz'.symm)
  have hr : (0 : ℝ) < z' / z := div_pos h0' h0
  set r : ℝ := z' / z with hrdef
  have hle : r ^ (∑ e ∈ S, odds c z e) ≤ ∏ e ∈ S, (1 + (r - 1) * odds c z e) := by
    rw [Real.rpow_sum_of_pos hr]
    refine Finset.prod_le_prod (fun e _ => (Real.rpow_pos_of_pos hr _).le) fun e _ => ?_
    have := rpow_one_add_le_one_add_mul_self (s := r - 1) (by linarith)
      (odds_mem c z e).1 (odds_mem c z e).2
    rw [add_sub_cancel] at this
    linarith
  have hP := Law.prob_nonneg (S := S) (fun e _ => odds_mem c (z' : ℝ≥0∞) e) G
  have key := prob_shift S c G (z' := z') hz
  rw [Real.rpow_sub hr, Real.rpow_natCast, div_mul_eq_mul_div,
    le_div_iff₀ (Real.rpow_pos_of_pos hr _), ← key]
  exact mul_le_mul_of_nonneg_left hle hP

theorem prob_lt {z z' : ℝ≥0} (hz : z ≠ 0) (hz' : z' ≠ 0) (hne : z' ≠ z)
    (hc : ∃ e ∈ S, c e ≠ 0) (hpos : 0 < Law.prob S (odds c z) G) :
    Law.prob S (odds c z') G <
      ((z' : ℝ) / z) ^ (((S ∩ G).card : ℝ) - ∑ e ∈ S, odds c z e) * Law.prob S (odds c z) G := by
  have h0 : (0 : ℝ) < z := lt_of_le_of_ne z.2 (by exact_mod_cast hz.symm)
  have h0' : (0 : ℝ) < z' := lt_of_le_of_ne z'.2 (by exact_mod_cast hz'.symm)
  have hr : (0 : ℝ) < z' / z := div_pos h0' h0
  set r : ℝ := z' / z with hrdef
  have hr1 : r - 1 ≠ 0 := by
    intro h
    have : (z' : ℝ) = z := by
      have : r = 1 := by linarith
      rw [hrdef, div_eq_one_iff_eq h0.ne'] at this
      exact this
    exact hne (by exact_mod_cast this)
  have hlt : r ^ (∑ e ∈ S, odds c z e) < ∏ e ∈ S, (1 + (r - 1) * odds c z e) := by
    rw [Real.rpow_sum_of_pos hr]
    refine Finset.prod_lt_prod (fun e _ => Real.rpow_pos_of_pos hr _) (fun e _ => ?_) ?_
    · have := rpow_one_add_le_one_add_mul_self (s := r - 1) (by linarith)
        (odds_mem c z e).1 (odds_mem c z e).2
      rw [add_sub_cancel] at this
      linarith
    · obtain ⟨e, he, hce⟩ := hc
      refine ⟨e, he, ?_⟩
      have h1 : 0 < odds c z e := lt_of_le_of_ne (odds_mem c z e).1 (fun h => by
        rcases (odds_zero c z e).1 h.symm with h | h
        · exact hz (by exact_mod_cast h)
        · exact hce h)
      have := rpow_one_add_lt_one_add_mul_self (s := r - 1) (by linarith) hr1 h1
        (odds_lt_one c z e)
      rw [add_sub_cancel] at this
      linarith
  have key := prob_shift S c G (z' := z') hz
  rw [Real.rpow_sub hr, Real.rpow_natCast, div_mul_eq_mul_div,
    lt_div_iff₀ (Real.rpow_pos_of_pos hr _), ← key]
  have hP := Law.prob_nonneg (S := S) (fun e _ => odds_mem c (z' : ℝ≥0∞) e) G
  have hP0 : Law.prob S (odds c z') G ≠ 0 := by
    intro h
    rw [h, zero_mul] at key
    have := mul_pos (pow_pos hr (S ∩ G).card) hpos
    linarith
  exact mul_lt_mul_of_pos_left hlt (lt_of_le_of_ne hP (Ne.symm hP0))

theorem prob_le_one (q : E → ℝ) (hq : ∀ e ∈ S, 0 ≤ q e ∧ q e ≤ 1) : Law.prob S q G ≤ 1 := by
  refine Finset.prod_le_one (fun e he => ?_) fun e he => ?_
  · split
    · exact (hq e he).1
    · linarith [(hq e he).2]
  · split
    · exact (hq e he).2
    · linarith [(hq e he).1]

/-- No expected and no observed links: the graph is certain. -/
theorem prob_certain {q : E → ℝ} (h : ∀ e ∈ S, q e = 0) (hG : S ∩ G = ∅) : Law.prob S q G = 1 := by
  refine Finset.prod_eq_one fun e he => ?_
  have : e ∉ G := fun hg => by
    have : e ∈ S ∩ G := Finset.mem_inter.2 ⟨he, hg⟩
    rw [hG] at this; simp at this
  rw [if_neg this, h e he, sub_zero]

/-- A parameter whose expected number of links is the number of links of a graph maximises the
likelihood of that graph. -/
theorem prob_max {z : ℝ≥0} (h : ∑ e ∈ S, odds c z e = (S ∩ G).card) (z' : ℝ≥0∞) :
    Law.prob S (odds c z') G ≤ Law.prob S (odds c z) G := by
  have one : (S ∩ G).card = 0 → Law.prob S (odds c z) G = 1 := by
    intro h0
    rw [h0, Nat.cast_zero, Finset.sum_eq_zero_iff_of_nonneg fun e _ => (odds_mem c z e).1] at h
    exact prob_certain S G h (Finset.card_eq_zero.1 h0)
  by_cases hm : (S ∩ G).card = 0
  · rw [one hm]; exact prob_le_one S G _ fun e _ => odds_mem c z' e
  have hz : z ≠ 0 := by
    rintro rfl
    apply hm
    have : (((S ∩ G).card : ℕ) : ℝ) = 0 := by
      rw [← h]; exact Finset.sum_eq_zero fun e _ => (odds_zero c _ e).2 (Or.inl (by simp))
    exact_mod_cast this
  have hnn := Law.prob_nonneg (S := S) (fun e _ => odds_mem c (z : ℝ≥0∞) e) G
  induction z' with
  | top =>
    by_cases hz' : Law.prob S (odds c ⊤) G = 0
    · rw [hz']; exact hnn
    exfalso
    have hall : ∀ e ∈ S, odds c ⊤ e = if e ∈ G then 1 else 0 := by
      intro e he
      have := Finset.prod_ne_zero_iff.1 hz' e he
      rw [odds_top] at this ⊢
      by_cases hg : e ∈ G <;> by_cases hc : c e = 0 <;> simp [hg, hc] at this ⊢
    have hlt : ∑ e ∈ S, odds c z e < ∑ e ∈ S, if e ∈ G then (1 : ℝ) else 0 := by
      refine Finset.sum_lt_sum (fun e he => ?_) ?_
      · rw [← hall e he]
        unfold odds
        exact (fitProb_strictMono.monotone (by gcongr; exact le_top))
      · obtain ⟨e, he⟩ := Finset.card_pos.1 (Nat.pos_of_ne_zero hm)
        rw [Finset.mem_inter] at he
        exact ⟨e, he.1, by rw [if_pos he.2]; exact odds_lt_one c z e⟩
    rw [h, Finset.sum_ite_mem, Finset.sum_const, nsmul_eq_mul, mul_one] at hlt
    exact lt_irrefl _ hlt
  | coe z' =>
    by_cases hz' : z' = 0
    · have : Law.prob S (odds c z') G = 0 := by
        obtain ⟨e, he⟩ := Finset.card_pos.1 (Nat.pos_of_ne_zero hm)
        rw [Finset.mem_inter] at he
        exact Finset.prod_eq_zero he.1 (by
          rw [if_pos he.2]; exact (odds_zero c _ e).2 (Or.inl (by simp [hz'])))
      rw [this]; exact hnn
    · have := prob_le S c G (z' := z') hz hz'
      rwa [h, sub_self, Real.rpow_zero, one_mul] at this

/-- Such a parameter is the only maximum, for a possible graph with a link. -/
theorem prob_unique {z : ℝ≥0} (h : ∑ e ∈ S, odds c z e = (S ∩ G).card) (hm : (S ∩ G).card ≠ 0)
    (hpos : 0 < Law.prob S (odds c z) G) {z' : ℝ≥0∞} (hne : z' ≠ z) :
    Law.prob S (odds c z') G < Law.prob S (odds c z) G := by
  refine lt_of_le_of_ne (prob_max S c G h z') fun heq => ?_
  have hz : z ≠ 0 := by
    rintro rfl
    apply hm
    have : (((S ∩ G).card : ℕ) : ℝ) = 0 := by
      rw [← h]; exact Finset.sum_eq_zero fun e _ => (odds_zero c _ e).2 (Or.inl (by simp))
    exact_mod_cast this
  obtain ⟨e, he⟩ := Finset.card_pos.1 (Nat.pos_of_ne_zero hm)
  rw [Finset.mem_inter] at he
  have hce : c e ≠ 0 := by
    intro hce
    have : Law.prob S (odds c z) G = 0 := Finset.prod_eq_zero he.1 (by
      rw [if_pos he.2]; exact (odds_zero c _ e).2 (Or.inr hce))
    linarith
  induction z' with
  | top =>
    rw [← heq] at hpos
    have hall : ∀ e ∈ S, odds c ⊤ e = if e ∈ G then 1 else 0 := by
      intro e he
      have := Finset.prod_ne_zero_iff.1 hpos.ne' e he
      rw [odds_top] at this ⊢
      by_cases hg : e ∈ G <;> by_cases hc : c e = 0 <;> simp [hg, hc] at this ⊢
    have h1 : Law.prob S (odds c ⊤) G = 1 := Finset.prod_eq_one fun e he => by
      rw [hall e he]; split <;> simp
    have h2 : Law.prob S (odds c z) G < 1 := by
      have h3 : odds c z e < 1 := odds_lt_one c z e
      unfold Law.prob
      rw [← Finset.mul_prod_erase S _ he.1, if_pos he.2]
      have h4 : ∏ x ∈ S.erase e, (if x ∈ G then odds c z x else 1 - odds c z x) ≤ 1 :=
        prob_le_one (S.erase e) G _ fun e _ => odds_mem c z e
      have h5 : 0 ≤ ∏ x ∈ S.erase e, (if x ∈ G then odds c z x else 1 - odds c z x) :=
        Law.prob_nonneg (S := S.erase e) (fun e _ => odds_mem c (z : ℝ≥0∞) e) G
      nlinarith [(odds_mem c z e).1]
    linarith
  | coe z' =>
    by_cases hz' : z' = 0
    · have : Law.prob S (odds c z') G = 0 := by
        exact Finset.prod_eq_zero he.1 (by
          rw [if_pos he.2]; exact (odds_zero c _ e).2 (Or.inl (by simp [hz'])))
      linarith
    · have := prob_lt S c G hz hz' (by exact_mod_cast hne) ⟨e, he.1, hce⟩ hpos
      rw [h, sub_self, Real.rpow_zero, one_mul] at this
      linarith

/-- Possible graphs. -/
theorem prob_pos {z : ℝ≥0} (hz : z ≠ 0) :
    0 < Law.prob S (odds c z) G ↔ ∀ e ∈ S ∩ G, c e ≠ 0 := by
  constructor
  · intro h e he hc
    rw [Finset.mem_inter] at he
    have : Law.prob S (odds c z) G = 0 := Finset.prod_eq_zero he.1 (by
      rw [if_pos he.2]; exact (odds_zero c _ e).2 (Or.inr hc))
    linarith
  · intro h
    refine Finset.prod_pos fun e he => ?_
    split
    · next hg =>
      refine lt_of_le_of_ne (odds_mem c z e).1 fun h0 => ?_
      rcases (odds_zero c z e).1 h0.symm with h1 | h1
      · exact hz (by exact_mod_cast h1)
      · exact h e (Finset.mem_inter.2 ⟨he, hg⟩) h1
    · exact sub_pos.2 (odds_lt_one c z e)

end

end Verif.Mle
