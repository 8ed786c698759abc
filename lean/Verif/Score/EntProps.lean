import Verif.Score.EntLemmas
import Verif.Score.Props

/-!
# C103: the fitness model has the largest entropy for its expected degrees

`Law.over S R f` (`Verif/Score/EntLemmas.lean`) is the mean `∑ R G * f G` of `f` under an arbitrary
distribution `R` on the graphs on the pairs `S`.
-/

namespace Verif

open XR Spec
open scoped ENNReal

/-- Shannon entropy of a distribution on the graphs on the pairs `S`. -/
noncomputable def entropy (S : Finset (ℕ × ℕ)) (R : Finset (ℕ × ℕ) → ℝ) : ℝ :=
  -∑ G ∈ S.powerset, R G * Real.log (R G)

/-- The fitness models of the dense and of the sparse module with the given parameters, the sparse one
with all dyadic properties one. -/
def IsFitness (E : Ens) (d : ℝ≥0∞) (x y : ℕ → ℝ≥0∞) : Prop :=
  (∃ w, E = Ens.denseFit d x y w) ∨ E = Ens.sparseFit d x y (fun _ _ => 1)

private theorem IsFitness.is {E : Ens} {d : ℝ≥0∞} {x y : ℕ → ℝ≥0∞} (h : IsFitness E d x y) :
    E.Is (Law.fitq d x y) := by
  rcases h with ⟨w, rfl⟩ | rfl
  · exact .denseFit _ _ _ _
  · have := Ens.Is.sparseFit d x y (fun _ _ => 1)
    simp only [mul_one] at this
    exact this

/-- **C103**, maximum entropy.  Take a fitness model with finite parameter and properties, and any
distribution `R` on the graphs whose mean out- and in-degrees are those returned by
`expected_degree`.  The entropy of `R` is at most that of the model (the distribution given by
`log_likelihood`), and equal only if `R` is the model. -/
theorem C103_maximum {E : Ens} {d : ℝ≥0∞} {x y : ℕ → ℝ≥0∞} (hE : IsFitness E d x y) (hd : d ≠ ⊤)
    (hx : ∀ i, x i ≠ ⊤) (hy : ∀ i, y i ≠ ⊤) (n : ℕ) (sl : Bool) (R : Finset (ℕ × ℕ) → ℝ)
    (hR : ∀ G ⊆ Law.pairs n sl, 0 ≤ R G) (hR1 : ∑ G ∈ (Law.pairs n sl).powerset, R G = 1)
    (hout : ∀ i < n, (E.exp_degrees n sl).exp_d_out i
      = fin (Law.over (Law.pairs n sl) R fun G => (Law.outDegree G i : ℝ)))
    (hin : ∀ i < n, (E.exp_degrees n sl).exp_d_in i
      = fin (Law.over (Law.pairs n sl) R fun G => (Law.inDegree G i : ℝ))) :
    entropy (Law.pairs n sl) R
      ≤ entropy (Law.pairs n sl) (fun G => expLike (E.likelihood n (linkOf G) sl)) ∧
    (entropy (Law.pairs n sl) R
        = entropy (Law.pairs n sl) (fun G => expLike (E.likelihood n (linkOf G) sl)) ↔
      ∀ G ⊆ Law.pairs n sl, R G = expLike (E.likelihood n (linkOf G) sl)) := by
  have hI := hE.is
  simp only [fun G => (C12_formula hI n sl G).2]
  have h := Law.max_entropy hd hx hy hR hR1
    (fun i hi => by
      have := (C10_formula hI n sl i hi).1
      rw [hout i hi, fin_inj] at this
      exact this)
    (fun i hi => by
      have := (C10_formula hI n sl i hi).2.1
      rw [hin i hi, fin_inj] at this
      exact this)
  refine ⟨neg_le_neg h.1, ?_⟩
  rw [← h.2, entropy, entropy, neg_inj]
  exact eq_comm

/-- **C103**, against the other ensembles.  Any ensemble of the library with the expected out- and
in-degrees of a fitness model has the larger mean `log_likelihood` over its own graphs, that is the
smaller entropy, and the same only if all link probabilities are the same. -/
theorem C103_ensembles {E E' : Ens} {d : ℝ≥0∞} {x y : ℕ → ℝ≥0∞} {q' : ℕ × ℕ → ℝ}
    (hE : IsFitness E d x y) (hd : d ≠ ⊤) (hx : ∀ i, x i ≠ ⊤) (hy : ∀ i, y i ≠ ⊤)
    (hE' : E'.Is q') (n : ℕ) (sl : Bool)
    (hout : ∀ i < n, (E'.exp_degrees n sl).exp_d_out i = (E.exp_degrees n sl).exp_d_out i)
    (hin : ∀ i < n, (E'.exp_degrees n sl).exp_d_in i = (E.exp_degrees n sl).exp_d_in i) :
    Law.mean (Law.pairs n sl) (fun e => fitProb (d * x e.1 * y e.2))
        (fun G => (E.likelihood n (linkOf G) sl).toReal)
      ≤ Law.mean (Law.pairs n sl) q' (fun G => (E'.likelihood n (linkOf G) sl).toReal) ∧
    (Law.mean (Law.pairs n sl) (fun e => fitProb (d * x e.1 * y e.2))
        (fun G => (E.likelihood n (linkOf G) sl).toReal)
      = Law.mean (Law.pairs n sl) q' (fun G => (E'.likelihood n (linkOf G) sl).toReal) ↔
      ∀ i < n, ∀ j < n, (i ≠ j ∨ sl = true) → E'.p i j = E.p i j) := by
  have hI := hE.is
  have h := Law.max_entropy (n := n) (sl := sl) hd hx hy
    (R := Law.prob (Law.pairs n sl) q')
    (fun G _ => Law.prob_nonneg (fun e _ => by
      rw [← hE'.prob_eq]; exact hE'.coherent.prob_mem e) G) (Law.sum_prob _ _)
    (fun i hi => by
      have h1 := (C10_formula hI n sl i hi).1
      have h2 := (C10_formula hE' n sl i hi).1
      rw [hout i hi, h1, fin_inj] at h2
      exact h2.symm)
    (fun i hi => by
      have h1 := (C10_formula hI n sl i hi).2.1
      have h2 := (C10_formula hE' n sl i hi).2.1
      rw [hin i hi, h1, fin_inj] at h2
      exact h2.symm)
  have e1 : ∀ G, (E.likelihood n (linkOf G) sl).toReal
      = Real.log (Law.prob (Law.pairs n sl) (Law.fitq d x y) G) := like_toReal hI n sl
  have e2 : ∀ G, (E'.likelihood n (linkOf G) sl).toReal
      = Real.log (Law.prob (Law.pairs n sl) q' G) := like_toReal hE' n sl
  simp only [e1, e2]
  refine ⟨h.1, h.2.trans ⟨fun h i hi j hj hij => ?_, fun h G _ => ?_⟩⟩
  · rw [hI.p_eq, hE'.p_eq, Law.prob_inj h (Law.mem_pairs.2 ⟨hi, hj, hij⟩)]
  · refine Law.prob_congr (fun e he => ?_) G
    obtain ⟨hi, hj, hij⟩ := Law.mem_pairs.1 (show (e.1, e.2) ∈ _ from he)
    have := h e.1 hi e.2 hj hij
    rw [hI.p_eq, hE'.p_eq, fin_inj] at this
    exact this

/-- **C103**, uniqueness.  Two fitness models, whatever their parameters and properties and of either
module, with the same expected out- and in-degrees have the same link probabilities. -/
theorem C103_unique {E E' : Ens} {d d' : ℝ≥0∞} {x y x' y' : ℕ → ℝ≥0∞}
    (hE : IsFitness E d x y) (hd : d ≠ ⊤) (hx : ∀ i, x i ≠ ⊤) (hy : ∀ i, y i ≠ ⊤)
    (hE' : IsFitness E' d' x' y') (hd' : d' ≠ ⊤) (hx' : ∀ i, x' i ≠ ⊤) (hy' : ∀ i, y' i ≠ ⊤)
    (n : ℕ) (sl : Bool)
    (hout : ∀ i < n, (E'.exp_degrees n sl).exp_d_out i = (E.exp_degrees n sl).exp_d_out i)
    (hin : ∀ i < n, (E'.exp_degrees n sl).exp_d_in i = (E.exp_degrees n sl).exp_d_in i) :
    ∀ i < n, ∀ j < n, (i ≠ j ∨ sl = true) → E'.p i j = E.p i j := by
  have h1 := C103_ensembles hE hd hx hy hE'.is n sl hout hin
  have h2 := C103_ensembles hE' hd' hx' hy' hE.is n sl (fun i hi => (hout i hi).symm)
    (fun i hi => (hin i hi).symm)
  exact h1.2.1 (le_antisymm h1.1 h2.1)

/-- The distribution that takes no link or all links with probability 1/2 each has the expected degrees
of the fitness model with all links of probability 1/2, and is not that model. -/
example (n : ℕ) (sl : Bool) :
    let E := Ens.denseFit 1 (fun _ => 1) (fun _ => 1) 1
    let S := Law.pairs n sl
    let R : Finset (ℕ × ℕ) → ℝ := fun G => (if G = ∅ then 1 / 2 else 0) + (if G = S then 1 / 2 else 0)
    IsFitness E 1 (fun _ => 1) (fun _ => 1) ∧ (∀ G ⊆ S, 0 ≤ R G) ∧ ∑ G ∈ S.powerset, R G = 1 ∧
    (∀ i < n, (E.exp_degrees n sl).exp_d_out i
      = fin (Law.over S R fun G => (Law.outDegree G i : ℝ))) ∧
    (∀ i < n, (E.exp_degrees n sl).exp_d_in i
      = fin (Law.over S R fun G => (Law.inDegree G i : ℝ))) := by
  intro E S R
  have hI : IsFitness E 1 (fun _ => 1) (fun _ => 1) := .inl ⟨_, rfl⟩
  have hov : ∀ f : Finset (ℕ × ℕ) → ℝ, Law.over S R f = 1 / 2 * f ∅ + 1 / 2 * f S := by
    intro f
    simp only [Law.over, R, add_mul, ite_mul, zero_mul, Finset.sum_add_distrib, Finset.sum_ite_eq']
    rw [if_pos (Finset.mem_powerset.2 (Finset.empty_subset _)),
      if_pos (Finset.mem_powerset.2 Finset.Subset.rfl)]
  have hq : ∀ e, Law.fitq 1 (fun _ => 1) (fun _ => 1) e = 1 / 2 := by
    intro e
    norm_num [Law.fitq, fitProb]
  refine ⟨hI, fun G _ => ?_, ?_, fun i hi => ?_, fun i hi => ?_⟩
  · simp only [R]
    positivity
  · have := hov (fun _ => 1)
    simp only [Law.over, mul_one] at this
    rw [this]
    norm_num
  · rw [(C10_formula hI.is n sl i hi).1, hov]
    unfold Law.outDegree
    rw [Law.mean_card_filter]
    simp only [hq, Finset.sum_const, nsmul_eq_mul]
    simp [S, mul_comm]
  · rw [(C10_formula hI.is n sl i hi).2.1, hov]
    unfold Law.inDegree
    rw [Law.mean_card_filter]
    simp only [hq, Finset.sum_const, nsmul_eq_mul]
    simp [S, mul_comm]

/-- A scale-invariant model and fitness models with other parameters that have the expected degrees of
a fitness model. -/
example (n : ℕ) (sl : Bool) :
    let E := Ens.denseFit 1 (fun _ => 1) (fun _ => 1) 1
    let E' := Ens.sparseInv (ENNReal.ofReal (Real.log 2)) (fun _ => 1) (fun _ => 1) (fun _ _ => 1)
    let E'' := Ens.sparseFit 2 (fun _ => 1) (fun _ => 2⁻¹) (fun _ _ => 1)
    IsFitness E 1 (fun _ => 1) (fun _ => 1) ∧ (∃ q, E'.Is q) ∧
    IsFitness E'' 2 (fun _ => 1) (fun _ => 2⁻¹) ∧
    ∀ F ∈ [E', E''], ∀ i < n, (F.exp_degrees n sl).exp_d_out i = (E.exp_degrees n sl).exp_d_out i ∧
      (F.exp_degrees n sl).exp_d_in i = (E.exp_degrees n sl).exp_d_in i := by
  intro E E' E''
  have hI : IsFitness E 1 (fun _ => 1) (fun _ => 1) := .inl ⟨_, rfl⟩
  have hI'' : IsFitness E'' 2 (fun _ => 1) (fun _ => 2⁻¹) := .inr rfl
  have hI' : E'.Is (fun _ => invProb (ENNReal.ofReal (Real.log 2) * 1 * 1 * 1)) := .sparseInv ..
  have h1 : Law.fitq 1 (fun _ => 1) (fun _ => 1) = fun _ => 1 / 2 := by
    funext e
    norm_num [Law.fitq, fitProb]
  have h2 : Law.fitq 2 (fun _ => 1) (fun _ => 2⁻¹) = fun _ => 1 / 2 := by
    funext e
    rw [Law.fitq, mul_one, ENNReal.mul_inv_cancel (by norm_num) (by norm_num)]
    norm_num [fitProb]
  have h3 : invProb (ENNReal.ofReal (Real.log 2) * 1 * 1 * 1) = 1 / 2 := by
    rw [mul_one, mul_one, mul_one, invProb, if_neg ENNReal.ofReal_ne_top,
      ENNReal.toReal_ofReal (Real.log_nonneg (by norm_num)), Real.exp_neg, Real.exp_log (by norm_num)]
    norm_num
  have g := hI.is
  have g'' := hI''.is
  rw [h1] at g
  rw [h2] at g''
  rw [h3] at hI'
  refine ⟨hI, ⟨_, hI'⟩, hI'', fun F hF i hi => ?_⟩
  have hF' : F.Is (fun _ => 1 / 2) := by
    simp only [List.mem_cons, List.not_mem_nil, or_false] at hF
    rcases hF with rfl | rfl
    · exact hI'
    · exact g''
  rw [(C10_formula hF' n sl i hi).1, (C10_formula g n sl i hi).1,
    (C10_formula hF' n sl i hi).2.1, (C10_formula g n sl i hi).2.1]
  exact ⟨rfl, rfl⟩

end Verif
