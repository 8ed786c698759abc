import Verif.Mle.Lemmas
import Verif.Solver.FitProps
import Verif.Ensemble.ModelProps

/-!
# C85: the density fit of the fitness models is the maximum likelihood fit
-/

namespace Verif.Mle

open XR Spec Query
open scoped ENNReal NNReal

noncomputable section

/-! ## Lemmas -/

theorem leb_elog {p q : ℝ} (hp : 0 ≤ p) (hq : 0 ≤ q) : leb (elog p) (elog q) = true ↔ p ≤ q := by
  rcases hp.lt_or_eq with h1 | h1 <;> rcases hq.lt_or_eq with h2 | h2
  · rw [elog_pos h1, elog_pos h2, leb_fin, decide_eq_true_eq, Real.log_le_log_iff h1 h2]
  · rw [elog_pos h1, ← h2, elog_zero]
    simpa [leb] using h1
  · rw [elog_pos h2, ← h1, elog_zero]
    simpa [leb] using h2.le
  · rw [← h1, ← h2, elog_zero]; simp [leb]

theorem ltb_elog {p q : ℝ} (hp : 0 ≤ p) (hq : 0 ≤ q) : ltb (elog p) (elog q) = true ↔ p < q := by
  rcases hp.lt_or_eq with h1 | h1 <;> rcases hq.lt_or_eq with h2 | h2
  · rw [elog_pos h1, elog_pos h2, ltb_fin', decide_eq_true_eq, Real.log_lt_log_iff h1 h2]
  · rw [elog_pos h1, ← h2, elog_zero]
    simpa [ltb] using h1.le
  · rw [elog_pos h2, ← h1, elog_zero]
    simpa [ltb] using h2
  · rw [← h1, ← h2, elog_zero]; simp [ltb]

/-- The fitness models of the three packages (`FitnessModel`), with finite properties and, for the
sparse class, finite dyadic properties. -/
inductive IsFitness : Fit.Fitter → Prop
  | sparse (x y w) : IsFitness (Fit.sparseFit x y w)
  | dense (x y w) : IsFitness (Fit.denseFit x y w)

theorem IsFitness.isFitter {F : Fit.Fitter} (h : IsFitness F) : Fit.IsFitter F := by
  cases h
  · exact .sparseFit _ _ _
  · exact .denseFit _ _ _

/-- The probabilities of a fitness model are those of one-parameter odds. -/
theorem IsFitness.law {F : Fit.Fitter} (h : IsFitness F) : ∃ c : ℕ × ℕ → ℝ≥0,
    (∀ d : ℝ≥0∞, (F.ens d).Is (odds c d)) ∧ ∀ i j, F.linkable i j ↔ c (i, j) ≠ 0 := by
  cases h with
  | sparse x y w =>
    refine ⟨fun e => x e.1 * y e.2 * w e.1 e.2, fun d => ?_, fun i j => ?_⟩
    · have := Ens.Is.sparseFit d (Fit.toENN x) (Fit.toENN y) (fun i => Fit.toENN (w i))
      refine cast ?_ this
      congr 1
      funext e
      unfold odds Fit.toENN
      push_cast
      rw [mul_assoc, mul_assoc, mul_assoc]
    · simp [Fit.sparseFit, and_assoc]
  | dense x y w =>
    refine ⟨fun e => x e.1 * y e.2, fun d => ?_, fun i j => ?_⟩
    · have := Ens.Is.denseFit d (Fit.toENN x) (Fit.toENN y) w
      refine cast ?_ this
      congr 1
      funext e
      unfold odds Fit.toENN
      push_cast
      rw [mul_assoc]
    · simp [Fit.denseFit]

section

variable {F : Fit.Fitter} {n : ℕ} {s : Bool} {G : Finset (ℕ × ℕ)}

theorem like_law {c : ℕ × ℕ → ℝ≥0} (hc : ∀ d : ℝ≥0∞, (F.ens d).Is (odds c d)) (d : ℝ≥0∞) :
    (F.ens d).likelihood n (linkOf G) s = elog (Law.prob (Law.pairs n s) (odds c d) G) ∧
    0 ≤ Law.prob (Law.pairs n s) (odds c d) G ∧
    (F.ens d).exp_edges n s = fin (∑ e ∈ Law.pairs n s, odds c d e) := by
  refine ⟨(C12_formula (hc d) n s G).1, Law.prob_nonneg (fun e _ => odds_mem c d e) G, ?_⟩
  rw [C09_formula (hc d), Law.mean_card]

/-! ## C85 -/

/-- **C85**, maximum: a parameter for which the expected number of edges is the number of admissible
links of a graph maximises `log_likelihood` of this graph among all parameters in `[0, ∞]`. -/
theorem C85_maximum (hF : IsFitness F) {d : ℝ≥0}
    (h : (F.ens d).exp_edges n s = fin ((Law.pairs n s ∩ G).card : ℝ)) (d' : ℝ≥0∞) :
    leb ((F.ens d').likelihood n (linkOf G) s) ((F.ens d).likelihood n (linkOf G) s) = true := by
  obtain ⟨c, hc, -⟩ := hF.law
  obtain ⟨l1, p1, u1⟩ := like_law (n := n) (s := s) (G := G) hc d
  obtain ⟨l2, p2, -⟩ := like_law (n := n) (s := s) (G := G) hc d'
  rw [u1, fin_inj] at h
  rw [l1, l2, leb_elog p2 p1]
  exact prob_max _ _ _ h d'

/-- **C85**, uniqueness: for a graph with an admissible link, and no link between vertices that
cannot be linked, the log-likelihood of every other parameter is smaller. -/
theorem C85_unique (hF : IsFitness F) (hm : (Law.pairs n s ∩ G).Nonempty)
    (hG : ∀ e ∈ Law.pairs n s ∩ G, F.linkable e.1 e.2) {d : ℝ≥0}
    (h : (F.ens d).exp_edges n s = fin ((Law.pairs n s ∩ G).card : ℝ)) {d' : ℝ≥0∞} (hne : d' ≠ d) :
    ltb ((F.ens d').likelihood n (linkOf G) s) ((F.ens d).likelihood n (linkOf G) s) = true := by
  obtain ⟨c, hc, hl⟩ := hF.law
  obtain ⟨l1, p1, u1⟩ := like_law (n := n) (s := s) (G := G) hc d
  obtain ⟨l2, p2, -⟩ := like_law (n := n) (s := s) (G := G) hc d'
  rw [u1, fin_inj] at h
  have hm' : (Law.pairs n s ∩ G).card ≠ 0 := (Finset.card_pos.2 hm).ne'
  have hd : d ≠ 0 := by
    rintro rfl
    apply hm'
    have : (((Law.pairs n s ∩ G).card : ℕ) : ℝ) = 0 := by
      rw [← h]; exact Finset.sum_eq_zero fun e _ => (odds_zero c _ e).2 (Or.inl (by simp))
    exact_mod_cast this
  rw [l1, l2, ltb_elog p2 p1]
  exact prob_unique _ _ _ h hm' ((prob_pos _ _ _ hd).2 fun e he => (hl e.1 e.2).1 (hG e he)) hne

/-- **C85**, characterisation: for such a graph, a finite parameter maximises the log-likelihood iff
the expected number of edges is the number of admissible links of the graph. -/
theorem C85_iff (hF : IsFitness F) (hm : (Law.pairs n s ∩ G).Nonempty)
    (hG : ∀ e ∈ Law.pairs n s ∩ G, F.linkable e.1 e.2) (d : ℝ≥0) :
    (∀ d' : ℝ≥0∞, leb ((F.ens d').likelihood n (linkOf G) s)
        ((F.ens d).likelihood n (linkOf G) s) = true) ↔
      (F.ens d).exp_edges n s = fin ((Law.pairs n s ∩ G).card : ℝ) := by
  classical
  refine ⟨fun hmax => ?_, fun h => C85_maximum hF h⟩
  have h0 : 0 < (Law.pairs n s ∩ G).card := Finset.card_pos.2 hm
  have hsub : Law.pairs n s ∩ G ⊆ (Law.pairs n s).filter (fun e => F.linkable e.1 e.2) := by
    intro e he
    exact Finset.mem_filter.2 ⟨(Finset.mem_inter.1 he).1, hG e he⟩
  have hle : (Law.pairs n s ∩ G).card ≤ F.numLinkable n s := by
    unfold Fit.Fitter.numLinkable
    convert Finset.card_le_card hsub
  obtain ⟨c, hc, hl⟩ := hF.law
  obtain ⟨l1, p1, u1⟩ := like_law (n := n) (s := s) (G := G) hc d
  rcases hle.lt_or_eq with hlt | heq
  · obtain ⟨t, ⟨-, ht⟩, -⟩ := Fit.C34_unique hF.isFitter (n := n) (selfloops := s)
      (m := ((Law.pairs n s ∩ G).card : ℝ)) (by exact_mod_cast h0) (by exact_mod_cast hlt)
    by_cases hdt : d = t
    · rw [hdt]; exact ht
    · have := C85_unique hF hm hG ht (d' := d) (by exact_mod_cast hdt)
      obtain ⟨l2, p2, -⟩ := like_law (n := n) (s := s) (G := G) hc t
      have h2 := hmax t
      rw [l1, l2, leb_elog p2 p1] at h2
      rw [l1, l2, ltb_elog p1 p2] at this
      exact absurd h2 (not_le.2 this)
  · exfalso
    have hall : Law.pairs n s ∩ G = (Law.pairs n s).filter (fun e => F.linkable e.1 e.2) := by
      refine Finset.eq_of_subset_of_card_le hsub (le_of_eq ?_)
      rw [heq]
      unfold Fit.Fitter.numLinkable
      congr
    obtain ⟨l2, p2, -⟩ := like_law (n := n) (s := s) (G := G) hc ⊤
    have h2 := hmax ⊤
    rw [l1, l2, leb_elog p2 p1] at h2
    have hone : Law.prob (Law.pairs n s) (odds c ⊤) G = 1 := by
      refine Finset.prod_eq_one fun e he => ?_
      have hiff : e ∈ G ↔ c e ≠ 0 := by
        have : e ∈ Law.pairs n s ∩ G ↔
            e ∈ (Law.pairs n s).filter (fun e => F.linkable e.1 e.2) := by rw [hall]
        rw [Finset.mem_inter, Finset.mem_filter] at this
        have h3 := hl e.1 e.2
        simp only [he, true_and] at this
        exact this.trans h3
      rw [odds_top]
      by_cases hce : c e = 0 <;> simp [hiff, hce]
    obtain ⟨e, he⟩ := hm
    have hlt : Law.prob (Law.pairs n s) (odds c d) G < 1 := by
      have h3 : odds c d e < 1 := odds_lt_one c d e
      unfold Law.prob
      have he' := Finset.mem_inter.1 he
      rw [← Finset.mul_prod_erase _ _ he'.1, if_pos he'.2]
      have h4 : ∏ x ∈ (Law.pairs n s).erase e, (if x ∈ G then odds c d x else 1 - odds c d x) ≤ 1 :=
        prob_le_one _ G _ fun e _ => odds_mem c d e
      have h5 : 0 ≤ ∏ x ∈ (Law.pairs n s).erase e,
          (if x ∈ G then odds c d x else 1 - odds c d x) :=
        Law.prob_nonneg (fun e _ => odds_mem c (d : ℝ≥0∞) e) G
      nlinarith [(odds_mem c d e).1]
    linarith

/-- **C85**, approximate fits: if the expected number of edges at `d` is `u`, no other parameter has
a log-likelihood larger by more than `(k - u) * log (d' / d)`, where `k` is the number of admissible
links. -/
theorem C85_gap (hF : IsFitness F) (hG : ∀ e ∈ Law.pairs n s ∩ G, F.linkable e.1 e.2)
    {d d' : ℝ≥0} (hd : d ≠ 0) (hd' : d' ≠ 0) {u : ℝ} (hu : (F.ens d).exp_edges n s = fin u) :
    ∃ l l' : ℝ, (F.ens d).likelihood n (linkOf G) s = fin l ∧
      (F.ens d').likelihood n (linkOf G) s = fin l' ∧
      l' ≤ l + (((Law.pairs n s ∩ G).card : ℝ) - u) * Real.log (d' / d) := by
  obtain ⟨c, hc, hl⟩ := hF.law
  obtain ⟨l1, p1, u1⟩ := like_law (n := n) (s := s) (G := G) hc d
  obtain ⟨l2, p2, -⟩ := like_law (n := n) (s := s) (G := G) hc d'
  have q1 := (prob_pos _ _ _ hd).2 fun e he => (hl e.1 e.2).1 (hG e he)
  have q2 := (prob_pos _ _ _ hd').2 fun e he => (hl e.1 e.2).1 (hG e he)
  refine ⟨_, _, l1.trans (elog_pos q1), l2.trans (elog_pos q2), ?_⟩
  rw [u1, fin_inj] at hu
  have hr : (0 : ℝ) < d' / d := by
    have h0 : (0 : ℝ) < d := lt_of_le_of_ne d.2 (by exact_mod_cast hd.symm)
    have h0' : (0 : ℝ) < d' := lt_of_le_of_ne d'.2 (by exact_mod_cast hd'.symm)
    exact div_pos h0' h0
  have key := Real.log_le_log q2 (prob_le (Law.pairs n s) c G hd hd')
  rw [Real.log_mul (Real.rpow_pos_of_pos hr _).ne' q1.ne', Real.log_rpow hr, hu] at key
  linarith

end

/-- Two vertices with unit properties and one link: the parameter `1` reproduces the number of
edges. -/
theorem exPairs : Law.pairs 2 false = {(0, 1), (1, 0)} := by decide

example : ((Fit.denseFit (fun _ => 1) (fun _ => 1) (fun _ _ => 0)).ens (1 : ℝ≥0)).exp_edges 2 false =
    fin ((Law.pairs 2 false ∩ {(0, 1)}).card : ℝ) ∧
    (∀ e ∈ Law.pairs 2 false ∩ {(0, 1)},
      (Fit.denseFit (fun _ => 1) (fun _ => 1) (fun _ _ => 0)).linkable e.1 e.2) ∧
    (Law.pairs 2 false ∩ {(0, 1)}).Nonempty := by
  refine ⟨?_, fun e _ => by simp [Fit.denseFit], ⟨(0, 1), by decide⟩⟩
  have h := C09_formula (Ens.Is.denseFit (1 : ℝ≥0) (Fit.toENN (fun _ => 1))
    (Fit.toENN (fun _ => 1)) (fun _ _ => 0)) 2 false
  refine h.trans ?_
  rw [Law.mean_card, exPairs]
  have hc : (({(0, 1), (1, 0)} : Finset (ℕ × ℕ)) ∩ {(0, 1)}).card = 1 := by decide
  rw [hc]
  simp [fitProb, Fit.toENN]
  norm_num

/-- The scale-invariant model: two vertices with out-properties `1, 2` and unit in-properties, and
the link `0 → 1`.  The parameter that reproduces the number of edges is not the maximum. -/
theorem C85_invariant_differs {F : Fit.Fitter}
    (hF : F = Fit.sparseInv (fun i => i + 1) (fun _ => 1) (fun _ _ => 1) ∨
      F = Fit.denseInv (fun i => i + 1) (fun _ => 1) (fun _ _ => 1)) :
    ∃ d d' : ℝ≥0, (F.ens d).exp_edges 2 false = fin ((Law.pairs 2 false ∩ {(0, 1)}).card : ℝ) ∧
      ltb ((F.ens d).likelihood 2 (linkOf {(0, 1)}) false)
        ((F.ens d').likelihood 2 (linkOf {(0, 1)}) false) = true := by
  have hlaw : ∀ d : ℝ≥0∞, ∃ q : ℕ × ℕ → ℝ, (F.ens d).Is q ∧ q (0, 1) = invProb d ∧
      q (1, 0) = invProb (d * 2) := by
    intro d
    rcases hF with rfl | rfl
    · refine ⟨_, Ens.Is.sparseInv d _ _ _, ?_, ?_⟩
      · simp [Fit.toENN]
      · simp only [Fit.toENN, Nat.cast_one, mul_one, ENNReal.coe_one]
        norm_num
    · refine ⟨_, Ens.Is.denseInv d _ _ _, ?_, ?_⟩
      · simp [Fit.toENN]
      · simp only [Fit.toENN, Nat.cast_one, mul_one, ENNReal.coe_one]
        norm_num
  have hinv : ∀ t : ℝ, 0 < t → t < 1 → invProb ((Real.toNNReal (-Real.log t) : ℝ≥0) : ℝ≥0∞) = 1 - t ∧
      invProb ((Real.toNNReal (-Real.log t) : ℝ≥0) * 2 : ℝ≥0∞) = 1 - t ^ 2 := by
    intro t h0 h1
    have hn : 0 ≤ -Real.log t := by have := Real.log_neg h0 h1; linarith
    constructor
    · rw [invProb, if_neg ENNReal.coe_ne_top, ENNReal.coe_toReal, Real.coe_toNNReal _ hn, neg_neg,
        Real.exp_log h0]
    · have e2 : ((Real.toNNReal (-Real.log t) : ℝ≥0) * 2 : ℝ≥0∞) =
          ((Real.toNNReal (-Real.log t) * 2 : ℝ≥0) : ℝ≥0∞) := by push_cast; rfl
      rw [e2, invProb, if_neg ENNReal.coe_ne_top, ENNReal.coe_toReal, NNReal.coe_mul,
        Real.coe_toNNReal _ hn]
      have : -(-Real.log t * ((2 : ℝ≥0) : ℝ)) = Real.log (t ^ 2) := by
        rw [Real.log_pow]; push_cast; ring
      rw [this, Real.exp_log (by positivity)]
  have hlike : ∀ t : ℝ, 0 < t → t < 1 →
      (F.ens (Real.toNNReal (-Real.log t) : ℝ≥0)).likelihood 2 (linkOf {(0, 1)}) false =
        elog ((1 - t) * t ^ 2) ∧
      (F.ens (Real.toNNReal (-Real.log t) : ℝ≥0)).exp_edges 2 false =
        fin ((1 - t) + (1 - t ^ 2)) := by
    intro t h0 h1
    obtain ⟨q, hq, q1, q2⟩ := hlaw (Real.toNNReal (-Real.log t) : ℝ≥0)
    rw [(hinv t h0 h1).1] at q1
    rw [(hinv t h0 h1).2] at q2
    rw [(C12_formula hq 2 false _).1, C09_formula hq, Law.mean_card, Law.prob, exPairs,
      Finset.prod_pair (by decide), Finset.sum_pair (by decide), if_pos (by decide),
      if_neg (by decide), q1, q2]
    exact ⟨by congr 1; ring, rfl⟩
  have h5 : Real.sqrt 5 ^ 2 = 5 := Real.sq_sqrt (by norm_num)
  have hlo : 2.236 < Real.sqrt 5 := by
    rw [Real.lt_sqrt (by norm_num)]; norm_num
  have hhi : Real.sqrt 5 < 2.2361 := by
    rw [Real.sqrt_lt' (by norm_num)]; norm_num
  set t := (Real.sqrt 5 - 1) / 2 with ht
  have ht2 : t ^ 2 = 1 - t := by rw [ht]; nlinarith
  have t0 : 0 < t := by rw [ht]; linarith
  have t1 : t < 1 := by rw [ht]; linarith
  refine ⟨Real.toNNReal (-Real.log t), Real.toNNReal (-Real.log (2 / 3)), ?_, ?_⟩
  · rw [(hlike t t0 t1).2, ht2, exPairs]
    have hc : (({(0, 1), (1, 0)} : Finset (ℕ × ℕ)) ∩ {(0, 1)}).card = 1 := by decide
    rw [hc]
    congr 1
    push_cast; ring
  · rw [(hlike t t0 t1).1, (hlike (2 / 3) (by norm_num) (by norm_num)).1,
      ltb_elog (mul_nonneg (by linarith) (by positivity)) (by norm_num), ht2]
    have : (1 - t) * (1 - t) < 4 / 27 := by rw [ht]; nlinarith
    refine lt_of_lt_of_le this (by norm_num)

end

end Verif.Mle
