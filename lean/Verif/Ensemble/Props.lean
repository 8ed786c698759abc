import Verif.Ensemble.LikeLemmas
import Mathlib.Tactic.NormNum

/-!
# C09–C13: expectations and likelihoods of the ensembles

`Law.mean (Law.pairs n s) E.prob` is the mean over all graphs on the admissible pairs when link
`e` is present independently with probability `E.prob e` (`Verif/Law.lean`).  The hypothesis
`E.Coherent` holds for every ensemble of the library: `Ens.isModel_coherent`.
-/

namespace Verif

open XR Spec

/-- A concrete ensemble used in the examples: two vertices, scale-invariant, one infinite
fitness. -/
noncomputable def exEns : Ens :=
  Ens.sparseInv 1 (fun i => if i = 0 then ⊤ else 2) (fun j => if j = 0 then 0 else 3) (fun _ _ => 1)

theorem exEns_coherent : exEns.Coherent := Ens.isModel_coherent (.sparseInv _ _ _ _)

/-! ## C09 -/

/-- `expected_num_edges` is the mean number of links. -/
theorem C09_expected_num_edges {E : Ens} (hE : E.Coherent) (n : ℕ) (selfloops : Bool) :
    E.exp_edges n selfloops
      = fin (Law.mean (Law.pairs n selfloops) E.prob (fun G => (G.card : ℝ))) := by
  rw [Law.mean_card, sum_pairs]
  exact DiGraphEnsemble.exp_edges_eq (q := fun i j => E.prob (i, j))
    (fun i _ j _ _ => hE.p_eq i j)

/-- For the ensembles of the library no hypothesis is left. -/
theorem C09_models {E : Ens} (hE : E.IsModel) (n : ℕ) (selfloops : Bool) :
    E.exp_edges n selfloops
      = fin (Law.mean (Law.pairs n selfloops) E.prob (fun G => (G.card : ℝ))) :=
  C09_expected_num_edges (Ens.isModel_coherent hE) n selfloops

example : exEns.Coherent := exEns_coherent

/-! ## C10 -/

theorem mean_outDegree (n : ℕ) (s : Bool) (p : ℕ × ℕ → ℝ) (k : ℕ) (hk : k < n) :
    Law.mean (Law.pairs n s) p (fun G => (Law.outDegree G k : ℝ))
      = ∑ j ∈ Finset.range n, DiGraphEnsemble.masked s (fun i j => p (i, j)) k j := by
  unfold Law.outDegree
  rw [Law.mean_card_filter, Finset.sum_filter, sum_pairs]
  rw [Finset.sum_eq_single k]
  · simp [DiGraphEnsemble.masked]
  · intro i _ hi; simp [hi]
  · simp [hk]

theorem mean_inDegree (n : ℕ) (s : Bool) (p : ℕ × ℕ → ℝ) (k : ℕ) (hk : k < n) :
    Law.mean (Law.pairs n s) p (fun G => (Law.inDegree G k : ℝ))
      = ∑ i ∈ Finset.range n, DiGraphEnsemble.masked s (fun i j => p (i, j)) i k := by
  unfold Law.inDegree
  rw [Law.mean_card_filter, Finset.sum_filter, sum_pairs]
  refine Finset.sum_congr rfl (fun i _ => ?_)
  rw [Finset.sum_eq_single k]
  · simp [DiGraphEnsemble.masked]
  · intro j _ hj; simp [hj]
  · simp [hk]

theorem mean_degree (n : ℕ) (s : Bool) (p : ℕ × ℕ → ℝ) (k : ℕ) (hk : k < n) :
    Law.mean (Law.pairs n s) p (fun G => (Law.degree n G k : ℝ))
      = ∑ j ∈ Finset.range n, DiGraphEnsemble.undir s (fun i j => p (i, j)) k j := by
  have h1 : ∀ G, (Law.degree n G k : ℝ)
      = ∑ j ∈ Finset.range n, if (k, j) ∈ G ∨ (j, k) ∈ G then (1 : ℝ) else 0 := by
    intro G; unfold Law.degree; rw [Finset.card_filter]; push_cast; rfl
  simp only [h1]
  rw [Law.mean_sum]
  refine Finset.sum_congr rfl (fun j hj => ?_)
  rw [Finset.mem_range] at hj
  unfold DiGraphEnsemble.undir
  by_cases hkj : k = j
  · subst hkj
    simp only [ne_eq, not_true_eq_false, if_false, or_self]
    by_cases hs : s = true
    · rw [if_pos hs]
      exact Law.mean_mem p (Law.mem_pairs.2 ⟨hk, hk, Or.inr hs⟩)
    · rw [if_neg hs]
      have : Law.mean (Law.pairs n s) p (fun G => if (k, k) ∈ G then 1 else 0)
          = Law.mean (Law.pairs n s) p (fun _ => 0 * 1) :=
        Law.mean_congr (fun G hG => by
          rw [if_neg, zero_mul]
          intro hm
          have := Law.mem_pairs.1 (hG hm)
          simp [hs] at this)
      rw [this, Law.mean_smul, zero_mul]
  · rw [if_pos hkj]
    exact Law.mean_mem_or p (Law.mem_pairs.2 ⟨hk, hj, Or.inl hkj⟩)
      (Law.mem_pairs.2 ⟨hj, hk, Or.inl (Ne.symm hkj)⟩) (by simp [hkj])

/-- The expected degrees are the means of the degrees of the graph. -/
theorem C10_expected_degrees {E : Ens} (hE : E.Coherent) (n : ℕ) (selfloops : Bool)
    (i : ℕ) (hi : i < n) :
    let D := E.exp_degrees n selfloops
    let M := Law.mean (Law.pairs n selfloops) E.prob
    D.exp_d_out i = fin (M (fun G => (Law.outDegree G i : ℝ))) ∧
    D.exp_d_in i = fin (M (fun G => (Law.inDegree G i : ℝ))) ∧
    D.exp_d i = fin (M (fun G => (Law.degree n G i : ℝ))) := by
  have h := DiGraphEnsemble.exp_degrees_at (q := fun i j => E.prob (i, j)) (selfloops := selfloops)
    (p_ij := E.p_ij) (param := E.param) (prop_out := E.prop_out) (prop_in := E.prop_in)
    (prop_dyad := E.prop_dyad) (n := n) (fun i _ j _ _ => hE.p_eq i j) i hi
  dsimp only at h ⊢
  rw [mean_outDegree n selfloops _ i hi, mean_inDegree n selfloops _ i hi,
    mean_degree n selfloops _ i hi]
  exact ⟨h.2.1, h.2.2, h.1⟩

theorem C10_models {E : Ens} (hE : E.IsModel) (n : ℕ) (selfloops : Bool) (i : ℕ) (hi : i < n) :
    let D := E.exp_degrees n selfloops
    let M := Law.mean (Law.pairs n selfloops) E.prob
    D.exp_d_out i = fin (M (fun G => (Law.outDegree G i : ℝ))) ∧
    D.exp_d_in i = fin (M (fun G => (Law.inDegree G i : ℝ))) ∧
    D.exp_d i = fin (M (fun G => (Law.degree n G i : ℝ))) :=
  C10_expected_degrees (Ens.isModel_coherent hE) n selfloops i hi

example : exEns.IsModel ∧ 1 < 2 := ⟨.sparseInv _ _ _ _, by norm_num⟩

/-! ## C11 -/

/-- Out- and in-degrees sum to the expected number of edges; the undirected degree lies between
the larger of the two and their sum. -/
theorem C11_handshake {E : Ens} (hE : E.Coherent) (n : ℕ) (selfloops : Bool) :
    ∃ (dOut dIn d : ℕ → ℝ) (L : ℝ),
      (∀ i < n, (E.exp_degrees n selfloops).exp_d_out i = fin (dOut i)) ∧
      (∀ i < n, (E.exp_degrees n selfloops).exp_d_in i = fin (dIn i)) ∧
      (∀ i < n, (E.exp_degrees n selfloops).exp_d i = fin (d i)) ∧
      E.exp_edges n selfloops = fin L ∧
      ∑ i ∈ Finset.range n, dOut i = L ∧ ∑ i ∈ Finset.range n, dIn i = L ∧
      (∀ i < n, max (dOut i) (dIn i) ≤ d i ∧ d i ≤ dOut i + dIn i) := by
  have hd := DiGraphEnsemble.exp_degrees_at (q := fun i j => E.prob (i, j))
    (selfloops := selfloops)
    (p_ij := E.p_ij) (param := E.param) (prop_out := E.prop_out) (prop_in := E.prop_in)
    (prop_dyad := E.prop_dyad) (n := n) (fun i _ j _ _ => hE.p_eq i j)
  refine ⟨_, _, _, _, fun i hi => (hd i hi).2.1, fun i hi => (hd i hi).2.2,
    fun i hi => (hd i hi).1,
    DiGraphEnsemble.exp_edges_eq (q := fun i j => E.prob (i, j)) (fun i _ j _ _ => hE.p_eq i j),
    rfl, Finset.sum_comm, fun i hi => ⟨max_le ?_ ?_, ?_⟩⟩
  · refine Finset.sum_le_sum (fun j _ => ?_)
    have h1 := hE.prob_mem (i, j); have h2 := hE.prob_mem (j, i)
    unfold DiGraphEnsemble.masked DiGraphEnsemble.undir
    by_cases hij : i = j
    · subst hij; simp [admissible]
    · have : admissible i j selfloops = true := admissible_iff.2 (Or.inl hij)
      simp only [this, if_true, if_pos (show i ≠ j from hij)]
      nlinarith
  · refine Finset.sum_le_sum (fun j _ => ?_)
    have h1 := hE.prob_mem (i, j); have h2 := hE.prob_mem (j, i)
    unfold DiGraphEnsemble.masked DiGraphEnsemble.undir
    by_cases hij : i = j
    · subst hij; simp [admissible]
    · have : admissible j i selfloops = true := admissible_iff.2 (Or.inl (Ne.symm hij))
      simp only [this, if_true, if_pos (show i ≠ j from hij)]
      nlinarith
  · rw [← Finset.sum_add_distrib]
    refine Finset.sum_le_sum (fun j _ => ?_)
    have h1 := hE.prob_mem (i, j); have h2 := hE.prob_mem (j, i)
    unfold DiGraphEnsemble.masked DiGraphEnsemble.undir
    by_cases hij : i = j
    · subst hij
      have := h1.1
      by_cases hs : selfloops = true <;> simp [admissible, hs, this]
    · have e1 : admissible i j selfloops = true := admissible_iff.2 (Or.inl hij)
      have e2 : admissible j i selfloops = true := admissible_iff.2 (Or.inl (Ne.symm hij))
      simp only [e1, e2, if_true, if_pos (show i ≠ j from hij)]
      nlinarith [mul_nonneg h1.1 h2.1]

example : exEns.Coherent := exEns_coherent

/-! ## C12 -/

/-- Exponential of a log-likelihood value: `exp (-inf) = 0`. -/
noncomputable def expLike : XR → ℝ
  | fin r => Real.exp r
  | _ => 0

theorem expLike_elog {p : ℝ} (h : 0 ≤ p) : expLike (elog p) = p := by
  unfold elog
  split
  · next hp => exact Real.exp_log hp
  · next hp => simp only [expLike]; linarith

/-- The link test of the dense backend on a graph given by its set of links. -/
def linkOf (G : Finset (ℕ × ℕ)) (i j : ℕ) : Bool := decide ((i, j) ∈ G)

/-- The log-likelihood is the logarithm of the probability of the graph under the law
(links on pairs that are not admissible are ignored). -/
theorem C12_log_likelihood {E : Ens} (hE : E.Coherent) (n : ℕ) (selfloops : Bool)
    (G : Finset (ℕ × ℕ)) :
    E.likelihood n (linkOf G) selfloops
        = elog (Law.prob (Law.pairs n selfloops) E.prob G) ∧
    expLike (E.likelihood n (linkOf G) selfloops)
        = Law.prob (Law.pairs n selfloops) E.prob G := by
  have h : E.likelihood n (linkOf G) selfloops
      = elog (Law.prob (Law.pairs n selfloops) E.prob G) := by
    rw [likelihood_eq hE]; simp [Law.prob, linkOf]
  exact ⟨h, by rw [h, expLike_elog (Law.prob_nonneg (fun e _ => hE.prob_mem e) G)]⟩

/-- The likelihoods of all graphs on the admissible pairs sum to one. -/
theorem C12_normalised {E : Ens} (hE : E.Coherent) (n : ℕ) (selfloops : Bool) :
    ∑ G ∈ (Law.pairs n selfloops).powerset, expLike (E.likelihood n (linkOf G) selfloops) = 1 := by
  rw [Finset.sum_congr rfl (fun G _ => (C12_log_likelihood hE n selfloops G).2)]
  exact Law.sum_prob _ _

/-- Sparse backend: the link test `j in indices[indptr[i]:indptr[i+1]]` on a compressed matrix
whose row `i` stores exactly the columns `j` with `(i, j) ∈ G`. -/
theorem C12_sparse {E : Ens} (hE : E.Coherent) (n : ℕ) (selfloops : Bool)
    (G : Finset (ℕ × ℕ)) (indptr : ℕ → ℕ) (indices : List ℕ)
    (hG : ∀ i < n, ∀ j < n,
      j ∈ (indices.drop (indptr i)).take (indptr (i + 1) - indptr i) ↔ (i, j) ∈ G) :
    E.likelihood n (DiGraphEnsemble.csrLink indptr indices) selfloops
      = elog (Law.prob (Law.pairs n selfloops) E.prob G) := by
  rw [likelihood_eq hE]
  congr 1
  refine Finset.prod_congr rfl (fun e he => ?_)
  have hm := Law.mem_pairs.1 (show (e.1, e.2) ∈ _ from he)
  have : DiGraphEnsemble.csrLink indptr indices e.1 e.2 = true ↔ e ∈ G := by
    unfold DiGraphEnsemble.csrLink
    rw [List.contains_iff_mem]
    exact hG e.1 hm.1 e.2 hm.2.1
  simp only [this]

example : ∀ i < 2, ∀ j < 2, j ∈ ([1].drop ([0, 1, 1].getD i 0)).take
    ([0, 1, 1].getD (i + 1) 0 - [0, 1, 1].getD i 0) ↔ (i, j) ∈ ({(0, 1)} : Finset (ℕ × ℕ)) := by
  decide

/-! ## C13 -/

/-- `-inf` exactly for impossible graphs, never `+inf` or `nan`. -/
theorem C13_impossible {E : Ens} (hE : E.Coherent) (n : ℕ) (selfloops : Bool)
    (G : Finset (ℕ × ℕ)) :
    E.likelihood n (linkOf G) selfloops ≠ pinf ∧
    E.likelihood n (linkOf G) selfloops ≠ nan ∧
    (E.likelihood n (linkOf G) selfloops = ninf ↔
      ∃ i < n, ∃ j < n, (i ≠ j ∨ selfloops = true) ∧
        (((i, j) ∈ G ∧ E.p i j = 0) ∨ ((i, j) ∉ G ∧ E.p i j = 1))) := by
  have h := (C12_log_likelihood hE n selfloops G).1
  have hnn := Law.prob_nonneg (S := Law.pairs n selfloops) (fun e _ => hE.prob_mem e) G
  have h0 : ∀ i j, E.p i j = 0 ↔ E.prob (i, j) = 0 := fun i j => by
    rw [hE.p_eq, zero_def, fin_inj]
  have h1 : ∀ i j, E.p i j = 1 ↔ E.prob (i, j) = 1 := fun i j => by
    rw [hE.p_eq, one_def, fin_inj]
  have key : E.likelihood n (linkOf G) selfloops = ninf
      ↔ Law.prob (Law.pairs n selfloops) E.prob G = 0 := by
    rw [h]; unfold elog
    split
    · next hp => simp [hp.ne']
    · next hp => simp only [true_iff]; linarith
  refine ⟨?_, ?_, ?_⟩
  · rw [h]; unfold elog; split <;> simp
  · rw [h]; unfold elog; split <;> simp
  · rw [key, Law.prob, Finset.prod_eq_zero_iff]
    constructor
    · rintro ⟨⟨i, j⟩, he, h2⟩
      obtain ⟨hi, hj, hadm⟩ := Law.mem_pairs.1 he
      refine ⟨i, hi, j, hj, hadm, ?_⟩
      rw [h0, h1]
      by_cases hm : (i, j) ∈ G
      · rw [if_pos hm] at h2; exact Or.inl ⟨hm, h2⟩
      · rw [if_neg hm] at h2; exact Or.inr ⟨hm, by linarith⟩
    · rintro ⟨i, hi, j, hj, hadm, h2⟩
      refine ⟨(i, j), Law.mem_pairs.2 ⟨hi, hj, hadm⟩, ?_⟩
      rw [h0, h1] at h2
      rcases h2 with ⟨hm, h3⟩ | ⟨hm, h3⟩
      · rw [if_pos hm]; exact h3
      · rw [if_neg hm]; linarith

example : exEns.Coherent := exEns_coherent

end Verif
