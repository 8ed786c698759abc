import Verif.Round.Grid
import Verif.Round.FitProps
import Verif.Sampled.MeanLemmas

/-!
# C94: sampling on the machine

The probabilities are computed in double precision (`Round.models`: the functions `p_ij` of the
single-layer models, each with the one without rounding) and compared with random numbers of 53 bits
(`IsGrid`).  The sampler itself (`DiGraphEnsemble.binary_sample_stream`) does no arithmetic.
-/

namespace Verif

open XR Round MeasureTheory
open scoped NNReal ENNReal

/-- The links drawn by `_binary_sample` with the probability function `f` for the properties `x`,
`y`, `z` and the parameter `d`. -/
noncomputable def Round.sample (f : XR → XR → XR → XR → XR) (d : ℝ) (n : ℕ) (x y : ℕ → ℝ)
    (z : ℕ → ℕ → ℝ) (sl : Bool) (u : ℕ → ℝ) : Finset (ℕ × ℕ) :=
  (DiGraphEnsemble.binary_sample_stream f (fin d) n (fun i => fin (x i)) (fun j => fin (y j))
    (fun i j => fin (z i j)) sl u).2.toFinset

private theorem comp_prob {f : (XR → XR → XR → XR → XR) × (XR → XR → XR → XR → XR)}
    (hf : f ∈ Round.models) {n : ℕ} {d : ℝ} {x y : ℕ → ℝ} {z : ℕ → ℕ → ℝ} (hd : 0 ≤ d)
    (hx : ∀ i < n, 0 ≤ x i) (hy : ∀ j < n, 0 ≤ y j) (hz : ∀ i < n, ∀ j < n, 0 ≤ z i j) :
    ∃ p : ℕ × ℕ → ℝ, ∀ i < n, ∀ j < n,
      f.1 (fin d) (fin (x i)) (fin (y j)) (fin (z i j)) = fin (p (i, j)) ∧ 0 ≤ p (i, j) ∧
        p (i, j) ≤ 1 := by
  have : ∀ e : ℕ × ℕ, ∃ r : ℝ, e.1 < n → e.2 < n →
      f.1 (fin d) (fin (x e.1)) (fin (y e.2)) (fin (z e.1 e.2)) = fin r ∧ 0 ≤ r ∧ r ≤ 1 := by
    intro e
    by_cases h : e.1 < n ∧ e.2 < n
    · obtain ⟨h1, h2, h3, h4⟩ := C91_probability_partial Faithful.binary64 d (x e.1) (y e.2)
        (z e.1 e.2) hd (hx _ h.1) (hy _ h.2) (hz _ h.1 _ h.2)
      have hr : ∃ r : ℝ, f.1 (fin d) (fin (x e.1)) (fin (y e.2)) (fin (z e.1 e.2)) = fin r ∧
          0 ≤ r ∧ r ≤ 1 := by
        simp only [Round.models, List.mem_cons, List.not_mem_nil, or_false] at hf
        rcases hf with rfl | rfl | rfl | rfl <;> assumption
      obtain ⟨r, hr⟩ := hr
      exact ⟨r, fun _ _ => hr⟩
    · exact ⟨0, fun h1 h2 => absurd ⟨h1, h2⟩ h⟩
  choose p hp using this
  exact ⟨p, fun i hi j hj => hp (i, j) hi hj⟩

private theorem exact_prob {f : (XR → XR → XR → XR → XR) × (XR → XR → XR → XR → XR)}
    (hf : f ∈ Round.models) {d x y z : ℝ} (hd : 0 ≤ d) (hx : 0 ≤ x) (hy : 0 ≤ y) (hz : 0 ≤ z) :
    ∃ q : ℝ, f.2 (fin d) (fin x) (fin y) (fin z) = fin q ∧ 0 ≤ q ∧ q ≤ 1 := by
  obtain ⟨h1, h2, h3, h4⟩ := C91_probability_partial Faithful.exact d x y z hd hx hy hz
  simp only [Round.models, List.mem_cons, List.not_mem_nil, or_false] at hf
  rcases hf with rfl | rfl | rfl | rfl
  · exact h1
  · exact h2
  · exact h3
  · exact h4

section

variable {Ω : Type} [MeasurableSpace Ω] {P : Measure Ω} [IsProbabilityMeasure P] {U : ℕ → Ω → ℝ}
  {f : XR → XR → XR → XR → XR} {d : ℝ} {n : ℕ} {x y : ℕ → ℝ} {z : ℕ → ℕ → ℝ} {sl : Bool}
  {p : ℕ × ℕ → ℝ}

private theorem law_of (hU : IsGrid P U)
    (hp : ∀ i < n, ∀ j < n, f (fin d) (fin (x i)) (fin (y j)) (fin (z i j)) = fin (p (i, j)))
    (hp1 : ∀ i < n, ∀ j < n, p (i, j) ≤ 1) (G : Finset (ℕ × ℕ)) (hG : G ⊆ Law.pairs n sl) :
    P {ω | Round.sample f d n x y z sl (fun k => U k ω) = G}
      = ENNReal.ofReal (Law.prob (Law.pairs n sl) (fun e => roundUp (p e)) G) := by
  let g : {e // e ∈ Law.pairs n sl} → ℕ := fun e => (order n sl).idxOf e.1
  have hg : Function.Injective g := fun a b hab =>
    Subtype.ext ((List.idxOf_inj (mem_order.2 a.2)).1 hab)
  have hbox := (hU.precomp hg).measure_box Finset.univ (fun e => p e.1)
    (fun e _ => by
      obtain ⟨h1, h2, _⟩ := Law.mem_pairs.1 (show (e.1.1, e.1.2) ∈ Law.pairs n sl from e.2)
      exact hp1 _ h1 _ h2) (fun e => e.1 ∈ G)
  have hset : {ω | Round.sample f d n x y z sl (fun k => U k ω) = G}
      = {ω | ∀ e ∈ (Finset.univ : Finset {e // e ∈ Law.pairs n sl}),
          U (g e) ω < p e.1 ↔ e.1 ∈ G} := by
    ext ω
    have hm := mem_sample f (fin d) n (fun i => fin (x i)) (fun j => fin (y j))
      (fun i j => fin (z i j)) sl (fun k => U k ω) hp
    constructor
    · intro h e _
      have h1 := hm e.1
      change e.1 ∈ Round.sample f d n x y z sl (fun k => U k ω) ↔ _ at h1
      rw [show Round.sample f d n x y z sl (fun k => U k ω) = G from h] at h1
      rw [h1]
      exact ⟨fun h => ⟨e.2, h⟩, fun h => h.2⟩
    · intro h
      show Round.sample f d n x y z sl (fun k => U k ω) = G
      ext e
      refine (hm e).trans ⟨fun he => (h ⟨e, he.1⟩ (Finset.mem_univ _)).1 he.2, fun he => ?_⟩
      exact ⟨hG he, (h ⟨e, hG he⟩ (Finset.mem_univ _)).2 he⟩
  rw [hset, hbox]
  congr 1
  unfold Law.prob
  exact Finset.prod_attach (Law.pairs n sl)
    (fun e => if e ∈ G then roundUp (p e) else 1 - roundUp (p e))

private theorem mean_of (hU : IsGrid P U)
    (hp : ∀ i < n, ∀ j < n, f (fin d) (fin (x i)) (fin (y j)) (fin (z i j)) = fin (p (i, j)))
    (hp1 : ∀ i < n, ∀ j < n, p (i, j) ≤ 1) (F : Finset (ℕ × ℕ) → ℝ) :
    Integrable (fun ω => F (Round.sample f d n x y z sl (fun k => U k ω))) P ∧
    ∫ ω, F (Round.sample f d n x y z sl (fun k => U k ω)) ∂P
      = Law.mean (Law.pairs n sl) (fun e => roundUp (p e)) F := by
  have hm : ∀ ω e, e ∈ Round.sample f d n x y z sl (fun k => U k ω) ↔ _ := fun ω =>
    mem_sample f (fin d) n (fun i => fin (x i)) (fun j => fin (y j))
      (fun i j => fin (z i j)) sl (fun k => U k ω) hp
  refine integral_of_law (fun e he => ?_) (fun ω e he => ((hm ω e).1 he).1) (fun e he => ?_)
    (fun G hG => law_of hU hp hp1 G hG) F
  · obtain ⟨h1, h2, _⟩ := Law.mem_pairs.1 (show (e.1, e.2) ∈ Law.pairs n sl from he)
    exact roundUp_mem (hp1 _ h1 _ h2)
  · have : {ω | e ∈ Round.sample f d n x y z sl (fun k => U k ω)}
        = U ((order n sl).idxOf e) ⁻¹' Set.Iio (p e) := by
      ext ω
      exact (hm ω e).trans ⟨fun h => h.2, fun h => ⟨he, h⟩⟩
    rw [this]
    exact hU.meas _ measurableSet_Iio

end

/-- **C94**, law of the samples.  For all finite parameters and properties: the links are drawn
independently, each with its computed probability rounded up to a multiple of `2 ^ (-53)`; links with
computed probability zero are never drawn, those with computed probability one always. -/
theorem C94_law (f : (XR → XR → XR → XR → XR) × (XR → XR → XR → XR → XR)) (hf : f ∈ Round.models)
    (n : ℕ) (sl : Bool) (d : ℝ) (x y : ℕ → ℝ) (z : ℕ → ℕ → ℝ) (hd : 0 ≤ d) (hx : ∀ i < n, 0 ≤ x i)
    (hy : ∀ j < n, 0 ≤ y j) (hz : ∀ i < n, ∀ j < n, 0 ≤ z i j) :
    ∃ p : ℕ × ℕ → ℝ,
      (∀ i < n, ∀ j < n, f.1 (fin d) (fin (x i)) (fin (y j)) (fin (z i j)) = fin (p (i, j)) ∧
        0 ≤ p (i, j) ∧ p (i, j) ≤ 1) ∧
      (∀ {Ω : Type} [MeasurableSpace Ω] (P : Measure Ω) [IsProbabilityMeasure P] (U : ℕ → Ω → ℝ),
        IsGrid P U → ∀ G ⊆ Law.pairs n sl,
          P {ω | Round.sample f.1 d n x y z sl (fun k => U k ω) = G} = ENNReal.ofReal
            (Law.prob (Law.pairs n sl) (fun e => (⌈p e * 2 ^ 53⌉₊ : ℝ) / 2 ^ 53) G)) ∧
      ∀ u : ℕ → ℝ, (∀ k, 0 ≤ u k ∧ u k < 1) → ∀ e ∈ Law.pairs n sl,
        (p e = 0 → e ∉ Round.sample f.1 d n x y z sl u) ∧
        (p e = 1 → e ∈ Round.sample f.1 d n x y z sl u) := by
  obtain ⟨p, hp⟩ := comp_prob hf hd hx hy hz
  refine ⟨p, hp, fun P _ U hU G hG => ?_, fun u hu e he => ?_⟩
  · exact law_of hU (fun i hi j hj => (hp i hi j hj).1) (fun i hi j hj => (hp i hi j hj).2.2) G hG
  · have hm := mem_sample f.1 (fin d) n (fun i => fin (x i)) (fun j => fin (y j))
      (fun i j => fin (z i j)) sl u (fun i hi j hj => (hp i hi j hj).1) e
    change e ∈ Round.sample f.1 d n x y z sl u ↔ _ at hm
    rw [hm]
    refine ⟨fun h0 h => ?_, fun h1 => ⟨he, ?_⟩⟩
    · rw [h0] at h
      exact absurd h.2 (not_lt.2 (hu _).1)
    · rw [h1]
      exact (hu _).2

/-- Distance of the probability with which the machine draws a link from the exact one. -/
private theorem link_dist {p q : ℝ} (p0 : 0 ≤ p) (q0 : 0 ≤ q) (h : Within (5.3 * ulp2) q p) :
    |roundUp p - q| ≤ (2 : ℝ) ^ (-53 : ℤ) + 6 * (2 : ℝ) ^ (-53 : ℤ) * q := by
  have h1 := le_roundUp p
  have h2 := roundUp_lt p0
  have hu : ulp2 = (2 : ℝ) ^ (-53 : ℤ) := rfl
  have hu' : (1 : ℝ) / 2 ^ 53 = (2 : ℝ) ^ (-53 : ℤ) := by norm_num
  have hpos := ulp2_pos
  rw [hu'] at h2
  rw [← hu] at h2 ⊢
  obtain ⟨w1, w2⟩ := h
  have : 0 ≤ ulp2 * q := by positivity
  rw [abs_le]
  constructor <;> nlinarith

section

variable {f : (XR → XR → XR → XR → XR) × (XR → XR → XR → XR → XR)} {n : ℕ} {sl : Bool} {d : ℝ}
  {x y : ℕ → ℝ} {z : ℕ → ℕ → ℝ}

private theorem both_prob (hf : f ∈ Round.models) (hd : 0 ≤ d) (hx : ∀ i < n, 0 ≤ x i)
    (hy : ∀ j < n, 0 ≤ y j) (hz : ∀ i < n, ∀ j < n, 0 ≤ z i j)
    (h : ∀ i < n, ∀ j < n, Round.InRange d (x i) (y j) (z i j)) :
    ∃ p q : ℕ × ℕ → ℝ, ∀ i < n, ∀ j < n,
      (f.1 (fin d) (fin (x i)) (fin (y j)) (fin (z i j)) = fin (p (i, j)) ∧ p (i, j) ≤ 1) ∧
      f.2 (fin d) (fin (x i)) (fin (y j)) (fin (z i j)) = fin (q (i, j)) ∧ 0 ≤ q (i, j) ∧
      q (i, j) ≤ 1 ∧ |roundUp (p (i, j)) - q (i, j)| ≤
        (2 : ℝ) ^ (-53 : ℤ) + 6 * (2 : ℝ) ^ (-53 : ℤ) * q (i, j) := by
  have : ∀ e : ℕ × ℕ, ∃ r : ℝ × ℝ, e.1 < n → e.2 < n →
      (f.1 (fin d) (fin (x e.1)) (fin (y e.2)) (fin (z e.1 e.2)) = fin r.1 ∧ r.1 ≤ 1) ∧
      f.2 (fin d) (fin (x e.1)) (fin (y e.2)) (fin (z e.1 e.2)) = fin r.2 ∧ 0 ≤ r.2 ∧ r.2 ≤ 1 ∧
      |roundUp r.1 - r.2| ≤ (2 : ℝ) ^ (-53 : ℤ) + 6 * (2 : ℝ) ^ (-53 : ℤ) * r.2 := by
    intro e
    by_cases he : e.1 < n ∧ e.2 < n
    · obtain ⟨p, _, q, q0, p0, p1, ep, eq, hw⟩ := Round.pair_acc hf (h _ he.1 _ he.2)
      obtain ⟨q', eq', _, q1⟩ := exact_prob hf hd (hx _ he.1) (hy _ he.2) (hz _ he.1 _ he.2)
      obtain rfl : q = q' := by rw [eq] at eq'; exact XR.fin.inj eq'
      exact ⟨(p, q), fun _ _ => ⟨⟨ep, p1⟩, eq, q0, q1, link_dist p0 q0 hw⟩⟩
    · exact ⟨0, fun h1 h2 => absurd ⟨h1, h2⟩ he⟩
  choose r hr using this
  exact ⟨fun e => (r e).1, fun e => (r e).2, fun i hi j hj => hr (i, j) hi hj⟩

end

/-- **C94**, distance from the exact ensemble.  If the partial products of the parameter and the
properties are in the range of C92 (or a factor is zero), the mean over the samples of every quantity
with values between 0 and `B`, in particular the probability of every set of graphs (`B = 1`),
differs from its mean over the exact ensemble by at most `7 * 2 ^ (-53)` per admissible pair, times
`B`; the mean number of links differs from `expected_num_edges` computed without rounding by at most
`2 ^ (-53)` per admissible pair and a relative error of `6 * 2 ^ (-53)`.

Missing: factors whose partial products leave the range (C92 fails there), and a bound relative to
the probability of each graph (`C94_rare`, `C94_rare_violated`). -/
theorem C94_distance_partial (f : (XR → XR → XR → XR → XR) × (XR → XR → XR → XR → XR))
    (hf : f ∈ Round.models) (n : ℕ) (sl : Bool) (d : ℝ) (x y : ℕ → ℝ) (z : ℕ → ℕ → ℝ) (hd : 0 ≤ d)
    (hx : ∀ i < n, 0 ≤ x i) (hy : ∀ j < n, 0 ≤ y j) (hz : ∀ i < n, ∀ j < n, 0 ≤ z i j)
    (h : ∀ i < n, ∀ j < n, Round.InRange d (x i) (y j) (z i j))
    {Ω : Type} [MeasurableSpace Ω] (P : Measure Ω) [IsProbabilityMeasure P] (U : ℕ → Ω → ℝ)
    (hU : IsGrid P U) :
    ∃ (q : ℕ × ℕ → ℝ) (e : ℝ),
      (∀ i < n, ∀ j < n, f.2 (fin d) (fin (x i)) (fin (y j)) (fin (z i j)) = fin (q (i, j)) ∧
        0 ≤ q (i, j) ∧ q (i, j) ≤ 1) ∧
      (∀ (B : ℝ) (F : Finset (ℕ × ℕ) → ℝ), (∀ G, 0 ≤ F G ∧ F G ≤ B) →
        |∫ ω, F (Round.sample f.1 d n x y z sl (fun k => U k ω)) ∂P
          - Law.mean (Law.pairs n sl) q F| ≤ 7 * (2 : ℝ) ^ (-53 : ℤ) * (Law.pairs n sl).card * B) ∧
      DiGraphEnsemble.exp_edges f.2 (fin d) n (fun i => fin (x i)) (fun j => fin (y j))
        (fun i j => fin (z i j)) sl = fin e ∧ 0 ≤ e ∧ e ≤ (Law.pairs n sl).card ∧
      |∫ ω, ((Round.sample f.1 d n x y z sl (fun k => U k ω)).card : ℝ) ∂P - e|
        ≤ (2 : ℝ) ^ (-53 : ℤ) * (Law.pairs n sl).card + 6 * (2 : ℝ) ^ (-53 : ℤ) * e := by
  obtain ⟨p, q, hpq⟩ := both_prob hf hd hx hy hz h
  have hm := fun F => mean_of (sl := sl) hU (fun i hi j hj => (hpq i hi j hj).1.1)
    (fun i hi j hj => (hpq i hi j hj).1.2) F
  have hpair : ∀ e ∈ Law.pairs n sl, (0 ≤ roundUp (p e) ∧ roundUp (p e) ≤ 1) ∧
      (0 ≤ q e ∧ q e ≤ 1) ∧ |roundUp (p e) - q e| ≤
        (2 : ℝ) ^ (-53 : ℤ) + 6 * (2 : ℝ) ^ (-53 : ℤ) * q e := by
    intro e he
    obtain ⟨h1, h2, _⟩ := Law.mem_pairs.1 (show (e.1, e.2) ∈ Law.pairs n sl from he)
    have := hpq _ h1 _ h2
    exact ⟨roundUp_mem this.1.2, ⟨this.2.2.1, this.2.2.2.1⟩, this.2.2.2.2⟩
  have hu := ulp2_pos
  have hsum : ∑ e ∈ Law.pairs n sl, |roundUp (p e) - q e|
      ≤ (2 : ℝ) ^ (-53 : ℤ) * (Law.pairs n sl).card
        + 6 * (2 : ℝ) ^ (-53 : ℤ) * ∑ e ∈ Law.pairs n sl, q e := by
    refine (Finset.sum_le_sum fun e he => (hpair e he).2.2).trans (le_of_eq ?_)
    rw [Finset.sum_add_distrib, ← Finset.mul_sum, Finset.sum_const, nsmul_eq_mul]
    ring
  have hq0 : 0 ≤ ∑ e ∈ Law.pairs n sl, q e := Finset.sum_nonneg fun e he => (hpair e he).2.1.1
  have hq1 : ∑ e ∈ Law.pairs n sl, q e ≤ (Law.pairs n sl).card := by
    refine (Finset.sum_le_sum fun e he => (hpair e he).2.1.2).trans (le_of_eq ?_)
    simp
  refine ⟨q, ∑ e ∈ Law.pairs n sl, q e, fun i hi j hj => ?_, fun B F hF => ?_, ?_, hq0, hq1, ?_⟩
  · exact ⟨(hpq i hi j hj).2.1, (hpq i hi j hj).2.2.1, (hpq i hi j hj).2.2.2.1⟩
  · rw [(hm F).2]
    refine (Law.mean_dist _ (fun e he => (hpair e he).1) (fun e he => (hpair e he).2.1) F hF).trans
      (mul_le_mul_of_nonneg_right (hsum.trans ?_) ((hF ∅).1.trans (hF ∅).2))
    have := mul_le_mul_of_nonneg_left hq1 (show 0 ≤ 6 * (2 : ℝ) ^ (-53 : ℤ) by positivity)
    linarith
  · rw [DiGraphEnsemble.exp_edges_eq (fun i hi j hj _ => (hpq i hi j hj).2.1), sum_pairs]
  · rw [(hm fun G => (G.card : ℝ)).2, Law.mean_card, ← Finset.sum_sub_distrib]
    exact (Finset.abs_sum_le_sum_abs _ _).trans hsum

/-- Hypotheses of `C94_law` and `C94_distance_partial`: three vertices, and a generator. -/
example : (∀ i < 3, ∀ j < 3, Round.InRange 1 1 1 1) ∧
    (Round.Sparse.FitnessModel.p_ij binary64, Verif.Sparse.FitnessModel.p_ij) ∈ Round.models ∧
    ∃ (Ω : Type) (_ : MeasurableSpace Ω) (P : Measure Ω) (_ : IsProbabilityMeasure P)
      (U : ℕ → Ω → ℝ), IsGrid P U := by
  refine ⟨fun i _ j _ => ?_, by simp [Round.models], exists_isGrid ℕ⟩
  have h1 : (2 : ℝ) ^ (-1000 : ℤ) ≤ 1 := zpow_le_one_of_nonpos₀ (by norm_num) (by norm_num)
  have h2 : (1 : ℝ) ≤ (2 : ℝ) ^ (1000 : ℤ) := one_le_zpow₀ (by norm_num) (by norm_num)
  right
  simp only [mul_one]
  exact ⟨one_pos, one_pos, one_pos, ⟨h1, h2⟩, ⟨h1, h2⟩, Or.inr ⟨one_pos, h1, h2⟩⟩

/-! ## Fitted ensembles -/

/-- What `C94` says about fitting in double precision and sampling with the result: `f` is the
probability function, `func` the function whose root is sought.  The fit returns, and the mean number
of links of the samples drawn with the fitted parameter is within `1.2` times the requested tolerance,
plus `7 * 2 ^ (-53)` per admissible pair, of the target, unless the iteration limit was reached. -/
def Round.FitSample (func : XR → XR × XR) (f : XR → XR → XR → XR → XR) (n : ℕ) (sl : Bool)
    (x y : ℕ → ℝ≥0) (z : ℕ → ℕ → ℝ≥0) (t atol rtol : ℝ) (maxiter : ℕ) : Prop :=
  ∃ (r : Verif.Solver.Solution) (d : ℝ≥0),
    Round.fitSingle binary64 func (some t) .none .density ⟨atol, rtol, maxiter⟩ = .ok r ∧
    r.x = fin d ∧
    (r.max_iter_reached = true ∨
      ∀ {Ω : Type} [MeasurableSpace Ω] (P : Measure Ω) [IsProbabilityMeasure P] (U : ℕ → Ω → ℝ),
        IsGrid P U →
        |∫ ω, ((Round.sample f d n (fun i => x i) (fun j => y j) (fun i j => z i j) sl
            (fun k => U k ω)).card : ℝ) ∂P - t|
          ≤ 1.2 * (atol + rtol * t) + 7 * (2 : ℝ) ^ (-53 : ℤ) * (Law.pairs n sl).card)

/-- The parameters of a fit are in the range of C92. -/
private theorem inRange_of_inSize {d x y z : ℝ≥0} (hd : d = 0 ∨ (2 : ℝ) ^ (-195 : ℤ) ≤ d)
    (hD : (d : ℝ) ≤ (2 : ℝ) ^ (45 : ℤ)) (hx : Round.InSize x) (hy : Round.InSize y)
    (hz : Round.InSize z) : Round.InRange d x y z := by
  rcases hd with rfl | hd
  · exact Or.inl (by simp)
  rcases hx with rfl | ⟨x1, x2⟩
  · exact Or.inl (by simp)
  rcases hy with rfl | ⟨y1, y2⟩
  · exact Or.inl (by simp)
  have two : ∀ k : ℤ, (0 : ℝ) < (2 : ℝ) ^ k := fun k => pow_pos' k
  have d0 : (0 : ℝ) < d := lt_of_lt_of_le (two _) hd
  have x0 : (0 : ℝ) < x := lt_of_lt_of_le (two _) x1
  have y0 : (0 : ℝ) < y := lt_of_lt_of_le (two _) y1
  have mul_ge : ∀ {a b : ℝ} {k l : ℤ}, (2 : ℝ) ^ k ≤ a → (2 : ℝ) ^ l ≤ b →
      (2 : ℝ) ^ (k + l) ≤ a * b := fun h1 h2 => by
    rw [zpow_add₀ two_ne_zero]
    exact mul_le_mul h1 h2 (two _).le ((two _).le.trans h1)
  have mul_le : ∀ {a b : ℝ} {k l : ℤ}, 0 ≤ b → a ≤ (2 : ℝ) ^ k → b ≤ (2 : ℝ) ^ l →
      a * b ≤ (2 : ℝ) ^ (k + l) := fun h0 h1 h2 => by
    rw [zpow_add₀ two_ne_zero]
    exact mul_le_mul h1 h2 h0 (two _).le
  have up : ∀ {a : ℝ} {k : ℤ}, k ≤ 1000 → a ≤ (2 : ℝ) ^ k → a ≤ (2 : ℝ) ^ (1000 : ℤ) :=
    fun hk h => h.trans (zpow_le_zpow_right₀ (by norm_num) hk)
  have lo : ∀ {a : ℝ} {k : ℤ}, -1000 ≤ k → (2 : ℝ) ^ k ≤ a → (2 : ℝ) ^ (-1000 : ℤ) ≤ a :=
    fun hk h => (zpow_le_zpow_right₀ (by norm_num) hk).trans h
  have a1 := mul_ge hd x1
  have a2 := mul_ge a1 y1
  have b1 := mul_le x0.le hD x2
  have b2 := mul_le y0.le b1 y2
  refine Or.inr ⟨d0, x0, y0, ⟨lo (by norm_num) a1, up (by norm_num) b1⟩,
    ⟨lo (by norm_num) a2, up (by norm_num) b2⟩, ?_⟩
  rcases hz with rfl | ⟨z1, z2⟩
  · exact Or.inl (by simp)
  have z0 : (0 : ℝ) < z := lt_of_lt_of_le (two _) z1
  exact Or.inr ⟨z0, lo (by norm_num) (mul_ge a2 z1), up (by norm_num) (mul_le z0.le b2 z2)⟩

private theorem fit_sample {f : (XR → XR → XR → XR → XR) × (XR → XR → XR → XR → XR)}
    (hf : f ∈ Round.models) {func : XR → XR × XR} {F : Fit.Fitter} {n : ℕ} {sl : Bool}
    {x y : ℕ → ℝ≥0} {z : ℕ → ℕ → ℝ≥0} (hx : ∀ i < n, Round.InSize (x i))
    (hy : ∀ j < n, Round.InSize (y j)) (hz : ∀ i < n, ∀ j < n, Round.InSize (z i j))
    {t atol rtol : ℝ} {maxiter : ℕ} {D : ℝ≥0} (hD : (D : ℝ) ≤ (2 : ℝ) ^ (45 : ℤ))
    (hF : ∀ (d : ℝ≥0), ∀ i < n, ∀ j < n,
      (F.ens d).p i j = f.2 (fin d) (fin (x i)) (fin (y j)) (fin (z i j)))
    (h : Round.FitResult func F n sl t atol rtol maxiter D) :
    Round.FitSample func f.1 n sl x y z t atol rtol maxiter := by
  obtain ⟨r, d, e, h1, h2, _, h4, h5, h6, _, h8, _⟩ := h
  refine ⟨r, d, h1, h2, h8.imp_right fun h8 => ?_⟩
  intro Ω _ P _ U hU
  have hdD : (d : ℝ) ≤ D := by exact_mod_cast h4
  obtain ⟨q, e', hq, _, he, e0, e1, hc⟩ := C94_distance_partial f hf n sl d (fun i => x i)
    (fun j => y j) (fun i j => z i j) d.2 (fun i _ => (x i).2) (fun j _ => (y j).2)
    (fun i _ j _ => (z i j).2)
    (fun i hi j hj => inRange_of_inSize h5 (hdD.trans hD) (hx i hi) (hy j hj) (hz i hi j hj)) P U hU
  have hee : e = e' := by
    rw [DiGraphEnsemble.exp_edges_eq (q := fun i j => q (i, j)) (fun i hi j hj _ => (hq i hi j hj).1)]
      at he
    unfold Ens.exp_edges at h6
    rw [DiGraphEnsemble.exp_edges_eq (q := fun i j => q (i, j))
      (fun i hi j hj _ => (hF d i hi j hj).trans (hq i hi j hj).1)] at h6
    exact (XR.fin.inj h6).symm.trans (XR.fin.inj he)
  subst hee
  have hu : (0 : ℝ) ≤ 6 * (2 : ℝ) ^ (-53 : ℤ) := by positivity
  have h9 := mul_le_mul_of_nonneg_left e1 hu
  have h10 := abs_add_le (∫ ω, ((Round.sample f.1 d n (fun i => x i) (fun j => y j)
    (fun i j => z i j) sl (fun k => U k ω)).card : ℝ) ∂P - e) (e - t)
  rw [sub_add_sub_cancel] at h10
  generalize (2 : ℝ) ^ (-53 : ℤ) = u at *
  linarith

/-- **C94**, fit and samples of the sparse `FitnessModel`.  The hypotheses are those of
`C93_sparse_fitness_partial`, and so is what is missing; the example there meets them. -/
theorem C94_sparse_fitness_partial (n : ℕ) (sl : Bool) (x y : ℕ → ℝ≥0) (z : ℕ → ℕ → ℝ≥0)
    (hx : ∀ i < n, Round.InSize (x i)) (hy : ∀ j < n, Round.InSize (y j))
    (hz : ∀ i < n, ∀ j < n, Round.InSize (z i j)) (t atol rtol : ℝ) (maxiter : ℕ)
    (ho : Round.FitRange n t atol rtol) (D : ℝ≥0) (eD : ℝ) (hD : (D : ℝ) ≤ (2 : ℝ) ^ (45 : ℤ))
    (heD : ((Fit.sparseFit x y z).ens D).exp_edges n sl = fin eD) (hle : t * (1 + rtol) ≤ eD) :
    Round.FitSample
      (Round.exp_edges_f_jac binary64 (fun d i j => Round.Sparse.FitnessModel.p_jac_ij binary64 d
        (fin (x i)) (fin (y j)) (fin (z i j))) n sl)
      (Round.Sparse.FitnessModel.p_ij binary64) n sl x y z t atol rtol maxiter :=
  fit_sample (f := (Round.Sparse.FitnessModel.p_ij binary64, Verif.Sparse.FitnessModel.p_ij))
    (by simp [Round.models]) hx hy hz hD
    (fun d i _ j _ => by
      have ex : ∀ i, Ens.arr (Fit.toENN x) i = fin (x i) := fun i => Fit.ofENN_coe (x i)
      have ey : ∀ i, Ens.arr (Fit.toENN y) i = fin (y i) := fun i => Fit.ofENN_coe (y i)
      have ez : ∀ i j, Ens.arr (Fit.toENN (z i)) j = fin (z i j) := fun i j => Fit.ofENN_coe (z i j)
      simp only [Fit.sparseFit, Ens.p, Ens.sparseFit, ex, ey, ez, Fit.ofENN_coe])
    (C93_sparse_fitness_partial n sl x y z hx hy hz t atol rtol maxiter ho D eD hD heD hle)

/-- **C94**, fit and samples of the sparse `ScaleInvariantModel`. -/
theorem C94_sparse_invariant_partial (n : ℕ) (sl : Bool) (x y : ℕ → ℝ≥0) (z : ℕ → ℕ → ℝ≥0)
    (hx : ∀ i < n, Round.InSize (x i)) (hy : ∀ j < n, Round.InSize (y j))
    (hz : ∀ i < n, ∀ j < n, Round.InSize (z i j)) (t atol rtol : ℝ) (maxiter : ℕ)
    (ho : Round.FitRange n t atol rtol) (D : ℝ≥0) (eD : ℝ) (hD : (D : ℝ) ≤ (2 : ℝ) ^ (45 : ℤ))
    (h64 : ∀ i < n, ∀ j < n, D * (x i * y j * z i j) ≤ 64)
    (heD : ((Fit.sparseInv x y z).ens D).exp_edges n sl = fin eD) (hle : t * (1 + rtol) ≤ eD) :
    Round.FitSample
      (Round.exp_edges_f_jac binary64 (fun d i j => Round.Sparse.ScaleInvariantModel.p_jac_ij
        binary64 d (fin (x i)) (fin (y j)) (fin (z i j))) n sl)
      (Round.Sparse.ScaleInvariantModel.p_ij binary64) n sl x y z t atol rtol maxiter :=
  fit_sample (f := (Round.Sparse.ScaleInvariantModel.p_ij binary64,
      Verif.Sparse.ScaleInvariantModel.p_ij))
    (by simp [Round.models]) hx hy hz hD
    (fun d i _ j _ => by
      have ex : ∀ i, Ens.arr (Fit.toENN x) i = fin (x i) := fun i => Fit.ofENN_coe (x i)
      have ey : ∀ i, Ens.arr (Fit.toENN y) i = fin (y i) := fun i => Fit.ofENN_coe (y i)
      have ez : ∀ i j, Ens.arr (Fit.toENN (z i)) j = fin (z i j) := fun i j => Fit.ofENN_coe (z i j)
      simp only [Fit.sparseInv, Ens.p, Ens.sparseInv, ex, ey, ez, Fit.ofENN_coe])
    (C93_sparse_invariant_partial n sl x y z hx hy hz t atol rtol maxiter ho D eD hD h64 heD hle)

/-- **C94**, fit and samples of the dense (and spark) `FitnessModel`, which ignores the dyadic
property `z`. -/
theorem C94_dense_fitness_partial (n : ℕ) (sl : Bool) (x y : ℕ → ℝ≥0) (w : ℕ → ℕ → XR)
    (hx : ∀ i < n, Round.InSize (x i)) (hy : ∀ j < n, Round.InSize (y j)) (t atol rtol : ℝ)
    (maxiter : ℕ) (ho : Round.FitRange n t atol rtol) (D : ℝ≥0) (eD : ℝ)
    (hD : (D : ℝ) ≤ (2 : ℝ) ^ (45 : ℤ))
    (heD : ((Fit.denseFit x y w).ens D).exp_edges n sl = fin eD) (hle : t * (1 + rtol) ≤ eD) :
    Round.FitSample
      (Round.exp_edges_f_jac binary64 (fun d i j => Round.Dense.FitnessModel.p_jac_ij binary64 d
        (fin (x i)) (fin (y j))) n sl)
      (Round.Dense.FitnessModel.p_ij binary64) n sl x y (fun _ _ => 0) t atol rtol maxiter :=
  fit_sample (f := (Round.Dense.FitnessModel.p_ij binary64, Verif.Dense.FitnessModel.p_ij))
    (by simp [Round.models]) hx hy (fun _ _ _ _ => Or.inl rfl) hD
    (fun d i _ j _ => by
      have ex : ∀ i, Ens.arr (Fit.toENN x) i = fin (x i) := fun i => Fit.ofENN_coe (x i)
      have ey : ∀ i, Ens.arr (Fit.toENN y) i = fin (y i) := fun i => Fit.ofENN_coe (y i)
      simp only [Fit.denseFit, Ens.p, Ens.denseFit, ex, ey, Fit.ofENN_coe]
      rfl)
    (C93_dense_fitness_partial n sl x y w hx hy t atol rtol maxiter ho D eD hD heD hle)

/-- **C94**, fit and samples of the dense `ScaleInvariantModel`. -/
theorem C94_dense_invariant_partial (n : ℕ) (sl : Bool) (x y : ℕ → ℝ≥0) (w : ℕ → ℕ → XR)
    (hx : ∀ i < n, Round.InSize (x i)) (hy : ∀ j < n, Round.InSize (y j)) (t atol rtol : ℝ)
    (maxiter : ℕ) (ho : Round.FitRange n t atol rtol) (D : ℝ≥0) (eD : ℝ)
    (hD : (D : ℝ) ≤ (2 : ℝ) ^ (45 : ℤ)) (h64 : ∀ i < n, ∀ j < n, D * (x i * y j) ≤ 64)
    (heD : ((Fit.denseInv x y w).ens D).exp_edges n sl = fin eD) (hle : t * (1 + rtol) ≤ eD) :
    Round.FitSample
      (Round.exp_edges_f_jac binary64 (fun d i j => Round.Dense.ScaleInvariantModel.p_jac_ij
        binary64 d (fin (x i)) (fin (y j))) n sl)
      (Round.Dense.ScaleInvariantModel.p_ij binary64) n sl x y (fun _ _ => 0) t atol rtol maxiter :=
  fit_sample (f := (Round.Dense.ScaleInvariantModel.p_ij binary64,
      Verif.Dense.ScaleInvariantModel.p_ij))
    (by simp [Round.models]) hx hy (fun _ _ _ _ => Or.inl rfl) hD
    (fun d i _ j _ => by
      have ex : ∀ i, Ens.arr (Fit.toENN x) i = fin (x i) := fun i => Fit.ofENN_coe (x i)
      have ey : ∀ i, Ens.arr (Fit.toENN y) i = fin (y i) := fun i => Fit.ofENN_coe (y i)
      simp only [Fit.denseInv, Ens.p, Ens.denseInv, ex, ey, Fit.ofENN_coe]
      rfl)
    (C93_dense_invariant_partial n sl x y w hx hy t atol rtol maxiter ho D eD hD h64 heD hle)

/-! ## Rare links -/

/-- A link whose computed probability is positive and at most `2 ^ (-53)` is drawn with probability
`2 ^ (-53)`, however small the computed probability is. -/
theorem C94_rare (f : (XR → XR → XR → XR → XR) × (XR → XR → XR → XR → XR)) (hf : f ∈ Round.models)
    (n : ℕ) (sl : Bool) (d : ℝ) (x y : ℕ → ℝ) (z : ℕ → ℕ → ℝ) (hd : 0 ≤ d) (hx : ∀ i < n, 0 ≤ x i)
    (hy : ∀ j < n, 0 ≤ y j) (hz : ∀ i < n, ∀ j < n, 0 ≤ z i j)
    {Ω : Type} [MeasurableSpace Ω] (P : Measure Ω) [IsProbabilityMeasure P] (U : ℕ → Ω → ℝ)
    (hU : IsGrid P U) (i j : ℕ) (he : (i, j) ∈ Law.pairs n sl) (r : ℝ) (r0 : 0 < r)
    (r1 : r ≤ (2 : ℝ) ^ (-53 : ℤ))
    (hr : f.1 (fin d) (fin (x i)) (fin (y j)) (fin (z i j)) = fin r) :
    P.real {ω | (i, j) ∈ Round.sample f.1 d n x y z sl (fun k => U k ω)} = (2 : ℝ) ^ (-53 : ℤ) := by
  obtain ⟨p, hp⟩ := comp_prob hf hd hx hy hz
  obtain ⟨hi, hj, _⟩ := Law.mem_pairs.1 he
  have hpr : p (i, j) = r := by
    have := (hp i hi j hj).1
    rw [hr] at this
    exact (XR.fin.inj this).symm
  have hset : {ω | (i, j) ∈ Round.sample f.1 d n x y z sl (fun k => U k ω)}
      = U ((order n sl).idxOf (i, j)) ⁻¹' Set.Iio r := by
    ext ω
    have hm := mem_sample f.1 (fin d) n (fun i => fin (x i)) (fun j => fin (y j))
      (fun i j => fin (z i j)) sl (fun k => U k ω) (fun i hi j hj => (hp i hi j hj).1) (i, j)
    rw [hpr] at hm
    exact hm.trans ⟨fun h => h.2, fun h => ⟨he, h⟩⟩
  have hle : (2 : ℝ) ^ (-53 : ℤ) ≤ 1 := zpow_le_one_of_nonpos₀ (by norm_num) (by norm_num)
  rw [hset, (hU.measure_lt _ (r1.trans hle)).1]
  have : ⌈r * 2 ^ 53⌉₊ = 1 := by
    have h2 : r * 2 ^ 53 ≤ 1 := by
      have := mul_le_mul_of_nonneg_right r1 (show (0 : ℝ) ≤ 2 ^ 53 by positivity)
      have e : (2 : ℝ) ^ (-53 : ℤ) * 2 ^ 53 = 1 := by norm_num
      linarith
    refine le_antisymm (Nat.ceil_le.2 (by exact_mod_cast h2)) (Nat.one_le_iff_ne_zero.2 ?_)
    exact (Nat.ceil_pos.2 (by positivity)).ne'
  unfold roundUp
  rw [this]
  norm_num

/-- **C94 fails for rare links**: two vertices, the sparse fitness model with parameter `2 ^ (-300)`
and unit properties.  The link from the first to the second has a probability below `2 ^ (-299)`;
sampling draws it with probability `2 ^ (-53)`. -/
theorem C94_rare_violated {Ω : Type} [MeasurableSpace Ω] (P : Measure Ω) [IsProbabilityMeasure P]
    (U : ℕ → Ω → ℝ) (hU : IsGrid P U) :
    ∃ q : ℝ, Verif.Sparse.FitnessModel.p_ij (fin ((2 : ℝ) ^ (-300 : ℤ))) (fin 1) (fin 1) (fin 1)
        = fin q ∧ q ≤ (2 : ℝ) ^ (-299 : ℤ) ∧
      P.real {ω | (0, 1) ∈ Round.sample (Round.Sparse.FitnessModel.p_ij binary64)
        ((2 : ℝ) ^ (-300 : ℤ)) 2 (fun _ => 1) (fun _ => 1) (fun _ _ => 1) false (fun k => U k ω)}
        = (2 : ℝ) ^ (-53 : ℤ) := by
  have hf : (Round.Sparse.FitnessModel.p_ij binary64, Verif.Sparse.FitnessModel.p_ij) ∈
      Round.models := by simp [Round.models]
  set t : ℝ := (2 : ℝ) ^ (-300 : ℤ) with ht
  have t0 : 0 < t := pow_pos' _
  have t1 : t ≤ (2 : ℝ) ^ (-60 : ℤ) := zpow_le_zpow_right₀ (by norm_num) (by norm_num)
  have rng : (2 : ℝ) ^ (-1000 : ℤ) ≤ t ∧ t ≤ (2 : ℝ) ^ (1000 : ℤ) :=
    ⟨zpow_le_zpow_right₀ (by norm_num) (by norm_num), zpow_le_zpow_right₀ (by norm_num) (by norm_num)⟩
  obtain ⟨p, q, ep, eq, hpq⟩ := C92_probability_partial _ hf t 1 1 1 t0 one_pos one_pos one_pos
    (by simpa using rng) (by simpa using rng) (by simpa using rng)
  have hq : q = t / (1 + t) := by
    have h1 : Verif.Sparse.FitnessModel.p_ij (fin t) (fin 1) (fin 1) (fin 1) = fin (t / (1 + t)) := by
      have g : ((fin (1 : ℝ)).isZero || (fin (1 : ℝ)).isZero || (fin (1 : ℝ)).isZero ||
          (fin t).isZero) = false := by
        simp [isZero, t0.ne']
      have e : fin t * fin 1 * fin 1 * fin 1 = (fin t : XR) := by
        show fin (t * 1 * 1 * 1) = _
        simp
      simp only [Verif.Sparse.FitnessModel.p_ij, g, e]
      show fin t / fin (1 + t) = _
      rw [fin_div_fin _ _ (by positivity)]
    have h2 : Verif.Sparse.FitnessModel.p_ij (fin t) (fin 1) (fin 1) (fin 1) = fin q := eq
    rw [h1] at h2
    exact (XR.fin.inj h2).symm
  have q0 : 0 < q := by rw [hq]; positivity
  have q1 : q ≤ t := by
    rw [hq]
    exact div_le_self t0.le (by linarith)
  have hu : (2 : ℝ) ^ (-53 : ℤ) ≤ 1 / 1000000 := ulp2_small
  obtain ⟨a1, a2⟩ := abs_le.1 hpq
  have hs : 6 * (2 : ℝ) ^ (-53 : ℤ) * q ≤ 1 / 2 * q :=
    mul_le_mul_of_nonneg_right (by linarith) q0.le
  have b1 := (neg_le_neg hs).trans a1
  have b2 := a2.trans hs
  clear a1 a2 hs
  have p0 : 0 < p := by linarith only [b1, q0]
  have p1 : p ≤ (2 : ℝ) ^ (-53 : ℤ) := by
    have h2 : (2 : ℝ) ^ (-60 : ℤ) * 2 ≤ (2 : ℝ) ^ (-53 : ℤ) := by norm_num
    have h3 : p ≤ (2 : ℝ) ^ (-60 : ℤ) * 2 := by
      have h4 := q1.trans t1
      linarith only [b2, h4, q0]
    exact h3.trans h2
  refine ⟨q, eq, ?_, ?_⟩
  · exact q1.trans (zpow_le_zpow_right₀ (by norm_num) (by norm_num))
  · exact C94_rare _ hf 2 false t (fun _ => 1) (fun _ => 1) (fun _ _ => 1) t0.le (fun _ _ => by simp)
      (fun _ _ => by simp) (fun _ _ _ _ => by simp) P U hU 0 1 (by simp [Law.mem_pairs]) p p0 p1 ep

end Verif
