import Mathlib.Data.Real.Basic
import Mathlib.Algebra.BigOperators.Ring.Finset
import Mathlib.Algebra.Order.BigOperators.Ring.Finset
import Mathlib.Tactic.Linarith

/-!
# Specification: ensembles of independent links

A graph is the finite set of its links.  Under the ensemble law every link of a finite set `S`
of possible links is present independently, link `e` with probability `p e`.  Nothing here
mentions the code.
-/

namespace Verif.Law

variable {E : Type} [DecidableEq E]

/-- Probability of the graph with link set `G`: a product over all possible links. -/
def prob (S : Finset E) (p : E → ℝ) (G : Finset E) : ℝ :=
  ∏ e ∈ S, if e ∈ G then p e else 1 - p e

/-- Mean of a graph quantity `f`: sum over all graphs. -/
def mean (S : Finset E) (p : E → ℝ) (f : Finset E → ℝ) : ℝ :=
  ∑ G ∈ S.powerset, prob S p G * f G

/-- The ordered pairs of vertices `0..n-1` that can be linked. -/
def pairs (n : ℕ) (selfloops : Bool) : Finset (ℕ × ℕ) :=
  (Finset.range n ×ˢ Finset.range n).filter (fun e => e.1 ≠ e.2 ∨ selfloops = true)

/-- Number of out-neighbours of `i`. -/
def outDegree (G : Finset (ℕ × ℕ)) (i : ℕ) : ℕ := (G.filter (fun e => e.1 = i)).card
/-- Number of in-neighbours of `i`. -/
def inDegree (G : Finset (ℕ × ℕ)) (i : ℕ) : ℕ := (G.filter (fun e => e.2 = i)).card
/-- Number of distinct vertices linked with `i` in either direction. -/
def degree (n : ℕ) (G : Finset (ℕ × ℕ)) (i : ℕ) : ℕ :=
  ((Finset.range n).filter (fun j => (i, j) ∈ G ∨ (j, i) ∈ G)).card

/-! ## Basic facts about the law -/

theorem mem_pairs {n : ℕ} {selfloops : Bool} {i j : ℕ} :
    (i, j) ∈ pairs n selfloops ↔ i < n ∧ j < n ∧ (i ≠ j ∨ selfloops = true) := by
  simp [pairs, and_assoc]

/-- Independence: the mean of a product of per-link factors is the product of the means. -/
theorem mean_prod (S : Finset E) (p : E → ℝ) (a b : E → ℝ) :
    mean S p (fun G => ∏ e ∈ S, if e ∈ G then a e else b e)
      = ∏ e ∈ S, (p e * a e + (1 - p e) * b e) := by
  unfold mean prob
  rw [Finset.prod_add]
  refine Finset.sum_congr rfl (fun G hG => ?_)
  rw [Finset.mem_powerset] at hG
  rw [← Finset.prod_mul_distrib]
  have h1 : ∀ e ∈ S, ((if e ∈ G then p e else 1 - p e) * if e ∈ G then a e else b e)
      = if e ∈ G then p e * a e else (1 - p e) * b e := fun e _ => by split <;> rfl
  rw [Finset.prod_congr rfl h1, Finset.prod_ite]
  congr 1
  · exact Finset.prod_congr (by ext e; simp; exact fun h => hG h) (fun _ _ => rfl)
  · exact Finset.prod_congr (by ext e; simp) (fun _ _ => rfl)

theorem mean_one (S : Finset E) (p : E → ℝ) : mean S p (fun _ => 1) = 1 := by
  have := mean_prod S p (fun _ => 1) (fun _ => 1)
  simpa using this

/-- The probabilities of all graphs sum to one. -/
theorem sum_prob (S : Finset E) (p : E → ℝ) : ∑ G ∈ S.powerset, prob S p G = 1 := by
  simpa [mean] using mean_one S p

theorem prob_nonneg {S : Finset E} {p : E → ℝ} (h : ∀ e ∈ S, 0 ≤ p e ∧ p e ≤ 1)
    (G : Finset E) : 0 ≤ prob S p G :=
  Finset.prod_nonneg (fun e he => by
    have := h e he; split
    · exact this.1
    · linarith [this.2])

theorem mean_add (S : Finset E) (p : E → ℝ) (f g : Finset E → ℝ) :
    mean S p (fun G => f G + g G) = mean S p f + mean S p g := by
  simp [mean, mul_add, Finset.sum_add_distrib]

theorem mean_sub (S : Finset E) (p : E → ℝ) (f g : Finset E → ℝ) :
    mean S p (fun G => f G - g G) = mean S p f - mean S p g := by
  simp [mean, mul_sub, Finset.sum_sub_distrib]

theorem mean_smul (S : Finset E) (p : E → ℝ) (c : ℝ) (f : Finset E → ℝ) :
    mean S p (fun G => c * f G) = c * mean S p f := by
  simp only [mean, Finset.mul_sum]
  exact Finset.sum_congr rfl (fun G _ => by ring)

theorem mean_sum {ι : Type} (S : Finset E) (p : E → ℝ) (s : Finset ι) (f : ι → Finset E → ℝ) :
    mean S p (fun G => ∑ i ∈ s, f i G) = ∑ i ∈ s, mean S p (f i) := by
  simp only [mean, Finset.mul_sum]
  rw [Finset.sum_comm]

theorem mean_congr {S : Finset E} {p : E → ℝ} {f g : Finset E → ℝ}
    (h : ∀ G, G ⊆ S → f G = g G) : mean S p f = mean S p g :=
  Finset.sum_congr rfl (fun G hG => by rw [h G (Finset.mem_powerset.1 hG)])

theorem mean_mono {S : Finset E} {p : E → ℝ} (hp : ∀ e ∈ S, 0 ≤ p e ∧ p e ≤ 1)
    {f g : Finset E → ℝ} (h : ∀ G, G ⊆ S → f G ≤ g G) : mean S p f ≤ mean S p g :=
  Finset.sum_le_sum (fun G hG =>
    mul_le_mul_of_nonneg_left (h G (Finset.mem_powerset.1 hG)) (prob_nonneg hp G))

theorem mean_absent (S : Finset E) (p : E → ℝ) (T : Finset E) (hT : T ⊆ S) :
    mean S p (fun G => if Disjoint T G then 1 else 0) = ∏ e ∈ T, (1 - p e) := by
  have := mean_prod S p (fun e => if e ∈ T then 0 else 1) (fun _ => 1)
  have h1 : ∏ e ∈ S, (p e * (if e ∈ T then 0 else 1) + (1 - p e) * 1) = ∏ e ∈ T, (1 - p e) := by
    rw [← Finset.prod_subset hT]
    · exact Finset.prod_congr rfl (fun e he => by simp [he])
    · intro e _ he; simp [he]
  rw [← h1, ← this]
  refine mean_congr (fun G hG => ?_)
  split
  · next hd =>
    symm
    apply Finset.prod_eq_one
    intro e _
    split
    · next h => rw [if_neg]; exact fun hT' => (Finset.disjoint_left.1 hd) hT' h
    · rfl
  · next hd =>
    rw [Finset.not_disjoint_iff] at hd
    obtain ⟨e, heT, heG⟩ := hd
    symm
    exact Finset.prod_eq_zero (hT heT) (by simp [heT, heG])

/-- A link is present with its probability. -/
theorem mean_mem {S : Finset E} (p : E → ℝ) {e : E} (he : e ∈ S) :
    mean S p (fun G => if e ∈ G then 1 else 0) = p e := by
  have h := mean_absent S p {e} (by simpa using he)
  have h2 : mean S p (fun G => if e ∈ G then 1 else 0)
      = mean S p (fun G => (fun _ => (1 : ℝ)) G - (if Disjoint {e} G then 1 else 0)) :=
    mean_congr (fun G _ => by by_cases hG : e ∈ G <;> simp [hG])
  rw [h2, mean_sub, mean_one, h]; simp

/-- At least one of two different links is present. -/
theorem mean_mem_or {S : Finset E} (p : E → ℝ) {e f : E} (he : e ∈ S) (hf : f ∈ S) (hne : e ≠ f) :
    mean S p (fun G => if e ∈ G ∨ f ∈ G then 1 else 0) = p e + p f - p e * p f := by
  have h := mean_absent S p {e, f} (by intro x; simp; rintro (rfl | rfl) <;> assumption)
  have h2 : mean S p (fun G => if e ∈ G ∨ f ∈ G then 1 else 0)
      = mean S p (fun G => (fun _ => (1 : ℝ)) G - (if Disjoint {e, f} G then 1 else 0)) :=
    mean_congr (fun G _ => by
      by_cases hG : e ∈ G <;> by_cases hG' : f ∈ G <;> simp [hG, hG'])
  rw [h2, mean_sub, mean_one, h, Finset.prod_pair hne]; ring

theorem mean_card {S : Finset E} (p : E → ℝ) :
    mean S p (fun G => (G.card : ℝ)) = ∑ e ∈ S, p e := by
  have : mean S p (fun G => (G.card : ℝ))
      = mean S p (fun G => ∑ e ∈ S, if e ∈ G then 1 else 0) :=
    mean_congr (fun G hG => by
      rw [Finset.sum_ite_mem, Finset.inter_eq_right.2 hG]; simp)
  rw [this, mean_sum]
  exact Finset.sum_congr rfl (fun e he => mean_mem p he)

theorem mean_card_filter {S : Finset E} (p : E → ℝ) (P : E → Prop) [DecidablePred P] :
    mean S p (fun G => ((G.filter P).card : ℝ)) = ∑ e ∈ S.filter P, p e := by
  have : mean S p (fun G => ((G.filter P).card : ℝ))
      = mean S p (fun G => ∑ e ∈ S.filter P, if e ∈ G then 1 else 0) :=
    mean_congr (fun G hG => by
      rw [Finset.sum_ite_mem]
      simp only [Finset.sum_const, nsmul_eq_mul, mul_one]
      congr 2
      ext e; simp only [Finset.mem_filter, Finset.mem_inter]
      exact ⟨fun h => ⟨⟨hG h.1, h.2⟩, h.1⟩, fun h => ⟨h.2, h.1.2⟩⟩)
  rw [this, mean_sum]
  exact Finset.sum_congr rfl (fun e he => mean_mem p (Finset.mem_filter.1 he).1)

end Verif.Law
