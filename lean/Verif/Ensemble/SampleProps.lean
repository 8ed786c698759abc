import Verif.Ensemble.SampleLemmas
import Verif.Ensemble.Props
import Verif.Uniform
import Mathlib.Probability.Independence.Integration
import Mathlib.Analysis.SpecialFunctions.Integrals.Basic

/-!
# C14–C16: sampling

`IsUniform P U` (`Verif/Uniform.lean`): the generator delivers independent numbers, uniform on
`[0, 1)`; `Law.prob` is the ensemble law.
-/

namespace Verif

open XR Spec MeasureTheory ProbabilityTheory

/-! ## C14 -/

theorem toFinset_eq_iff {E : Ens} (hE : E.Coherent) (n : ℕ) (s : Bool) (u : ℕ → ℕ → ℝ)
    {G : Finset (ℕ × ℕ)} (hG : G ⊆ Law.pairs n s) :
    (E.binary_sample n s u).toFinset = G
      ↔ ∀ e ∈ Law.pairs n s, u e.1 e.2 < E.prob e ↔ e ∈ G := by
  rw [Finset.ext_iff]
  simp only [List.mem_toFinset, mem_binary_sample hE]
  constructor
  · intro h e he
    rw [← h e]
    exact ⟨fun hlt => ⟨he, hlt⟩, fun hlt => hlt.2⟩
  · intro h e
    constructor
    · rintro ⟨he, hlt⟩; exact (h e he).1 hlt
    · intro he; exact ⟨hG he, (h e (hG he)).2 he⟩

/-- The sampled graph has the ensemble law: it is `G` with probability
`exp (log_likelihood G)`, the generator being read as a stream. -/
theorem C14_sample_law {E : Ens} (hE : E.Coherent) (n : ℕ) (selfloops : Bool)
    {Ω : Type} [MeasurableSpace Ω] (P : Measure Ω) (U : ℕ → Ω → ℝ) (hU : IsUniform P U)
    (G : Finset (ℕ × ℕ)) (hG : G ⊆ Law.pairs n selfloops) :
    P {ω | (E.binary_sample_stream n selfloops (fun k => U k ω)).toFinset = G}
        = ENNReal.ofReal (Law.prob (Law.pairs n selfloops) E.prob G) ∧
    P {ω | (E.binary_sample_stream n selfloops (fun k => U k ω)).toFinset = G}
        = ENNReal.ofReal (expLike (E.likelihood n (linkOf G) selfloops)) := by
  have key : P {ω | (E.binary_sample_stream n selfloops (fun k => U k ω)).toFinset = G}
        = ENNReal.ofReal (Law.prob (Law.pairs n selfloops) E.prob G) := by
    simp only [binary_sample_stream_eq, toFinset_eq_iff hE n selfloops _ hG]
    let f : {e // e ∈ Law.pairs n selfloops} → ℕ := fun e => (order n selfloops).idxOf e.1
    have hf : Function.Injective f := by
      intro a b hab
      exact Subtype.ext ((List.idxOf_inj (mem_order.2 a.2)).1 hab)
    have hbox := (hU.precomp hf).measure_box Finset.univ (fun e => E.prob e.1)
      (fun e _ => hE.prob_mem e.1) (fun e => e.1 ∈ G)
    have hset : {ω | ∀ e ∈ Law.pairs n selfloops,
          U ((order n selfloops).idxOf (e.1, e.2)) ω < E.prob e ↔ e ∈ G}
        = {ω | ∀ e ∈ (Finset.univ : Finset {e // e ∈ Law.pairs n selfloops}),
          U (f e) ω < E.prob e.1 ↔ e.1 ∈ G} := by
      ext ω
      exact ⟨fun h e _ => h e.1 e.2, fun h e he => h ⟨e, he⟩ (Finset.mem_univ _)⟩
    rw [hset, hbox]
    congr 1
    unfold Law.prob
    exact Finset.prod_attach (Law.pairs n selfloops) (fun e => if e ∈ G then E.prob e else 1 - E.prob e)
  exact ⟨key, by rw [key, (C12_log_likelihood hE n selfloops G).2]⟩

example : exEns.Coherent ∧ ({(0, 1)} : Finset (ℕ × ℕ)) ⊆ Law.pairs 2 false ∧
    ∃ (Ω : Type) (_ : MeasurableSpace Ω) (P : Measure Ω) (_ : IsProbabilityMeasure P)
      (U : ℕ → Ω → ℝ), IsUniform P U :=
  ⟨exEns_coherent, by decide, exists_isUniform ℕ⟩

/-! ## C15 -/

/-- Whatever the random numbers, the sample is a valid graph of the ensemble. -/
theorem C15_valid_samples {E : Ens} (hE : E.Coherent) (n : ℕ) (selfloops : Bool) (u : ℕ → ℝ)
    (hu : ∀ k, 0 ≤ u k ∧ u k < 1) :
    let L := E.binary_sample_stream n selfloops u
    L.Nodup ∧
    (∀ e ∈ L, e.1 < n ∧ e.2 < n ∧ (e.1 ≠ e.2 ∨ selfloops = true) ∧ E.p e.1 e.2 ≠ 0) ∧
    (∀ i < n, ∀ j < n, (i ≠ j ∨ selfloops = true) → E.p i j = 1 → (i, j) ∈ L) := by
  dsimp only
  rw [binary_sample_stream_eq]
  refine ⟨?_, ?_, ?_⟩
  · rw [binary_sample_eq]; exact (nodup_order n selfloops).filter _
  · intro e he
    rw [mem_binary_sample hE] at he
    obtain ⟨h1, h2, h3⟩ := Law.mem_pairs.1 (show (e.1, e.2) ∈ _ from he.1)
    refine ⟨h1, h2, h3, fun h0 => ?_⟩
    rw [hE.p_eq, zero_def, fin_inj] at h0
    have h4 := he.2
    rw [show E.prob e = 0 from h0] at h4
    have := (hu ((order n selfloops).idxOf (e.1, e.2))).1
    linarith
  · intro i hi j hj hadm h1
    rw [mem_binary_sample hE]
    refine ⟨Law.mem_pairs.2 ⟨hi, hj, hadm⟩, ?_⟩
    rw [hE.p_eq, one_def, fin_inj] at h1
    rw [h1]
    exact (hu _).2

example : ∃ u : ℕ → ℝ, ∀ k, 0 ≤ u k ∧ u k < 1 := ⟨fun _ => 1 / 2, fun _ => by norm_num⟩

/-! ## C16 -/

/-- Refusal: exactly when the totals of the strengths differ by a relative `1e-6` or more
(or cannot be compared because the out-strengths sum to zero). -/
theorem C16_refused (E : Ens) (n : ℕ) (selfloops : Bool) (s_out s_in : ℕ → ℝ)
    (u e : ℕ → ℕ → ℝ) :
    E.cremb_sample n s_out s_in selfloops u e = .error .strengthsDiffer ↔
      ((∑ i ∈ Finset.range n, s_out i) = 0 ∨
        1e-6 * |∑ i ∈ Finset.range n, s_out i|
          ≤ |(∑ i ∈ Finset.range n, s_out i) - ∑ i ∈ Finset.range n, s_in i|) := by
  rw [cremb_sample_eq]
  generalize (∑ i ∈ Finset.range n, s_out i) = a
  generalize (∑ i ∈ Finset.range n, s_in i) = b
  by_cases ha : a = 0
  · subst ha
    simp only [div_zero, sub_zero, abs_one, true_or, iff_true]
    rw [if_neg (by norm_num)]
  · have h1 : |1 - b / a| = |a - b| / |a| := by
      rw [← abs_div]; congr 1; field_simp
    have hpos : 0 < |a| := abs_pos.2 ha
    simp only [h1, div_lt_iff₀ hpos, ha, false_or]
    constructor
    · intro h
      by_contra hc
      rw [if_pos (not_le.1 hc)] at h
      exact absurd h (by simp)
    · intro h
      rw [if_neg (not_lt.2 h)]

/-- Otherwise the links are those of the binary sampler (same uniform draws) and every link gets
exactly one weight: the exponential variate scaled to mean `s_out i * s_in j / (s_tot * p)`. -/
theorem C16_links_and_weights {E : Ens} (hE : E.Coherent) (n : ℕ) (selfloops : Bool)
    (s_out s_in : ℕ → ℝ) (u e : ℕ → ℕ → ℝ) (hu : ∀ i j, 0 ≤ u i j) (L : List ((ℕ × ℕ) × XR))
    (h : E.cremb_sample n s_out s_in selfloops u e = .ok L) :
    L.map Prod.fst = E.binary_sample n selfloops u ∧
    ∀ l ∈ L, 0 < E.prob l.1 ∧ l.2 = fin (s_out l.1.1 * s_in l.1.2 /
      ((∑ i ∈ Finset.range n, s_out i) * E.prob l.1) * e l.1.1 l.1.2) := by
  have hne : (∑ i ∈ Finset.range n, s_out i) ≠ 0 := by
    intro h0
    have := (C16_refused E n selfloops s_out s_in u e).2 (Or.inl h0)
    rw [h] at this; cases this
  rw [cremb_sample_eq] at h
  split at h
  · injection h with h
    subst h
    refine ⟨by rw [List.map_map]; exact List.map_id _, ?_⟩
    intro l hl
    rw [List.mem_map] at hl
    obtain ⟨a, ha, rfl⟩ := hl
    rw [mem_binary_sample hE] at ha
    have hp : 0 < E.prob a := lt_of_le_of_lt (hu _ _) ha.2
    refine ⟨hp, ?_⟩
    dsimp only
    rw [hE.p_eq, fin_mul_fin, fin_div_fin _ _ (mul_ne_zero hne hp.ne'), fin_mul_fin]
  · cases h

/-- Sum of the weights of the sampled links leaving vertex `i`. -/
noncomputable def sampledOut (L : List ((ℕ × ℕ) × XR)) (i : ℕ) : ℝ :=
  ((L.filter (fun l => l.1.1 == i)).map (fun l => l.2.toReal)).sum
/-- Sum of the weights of the sampled links entering vertex `j`. -/
noncomputable def sampledIn (L : List ((ℕ × ℕ) × XR)) (j : ℕ) : ℝ :=
  ((L.filter (fun l => l.1.2 == j)).map (fun l => l.2.toReal)).sum

/-- The random numbers used by the weighted sampler: uniform draws independent of exponential
variates of mean one, for each call site. -/
structure IsCrembNoise {Ω : Type} [MeasurableSpace Ω] (P : Measure Ω)
    (U X : ℕ → ℕ → Ω → ℝ) : Prop where
  measU : ∀ i j, Measurable (U i j)
  lawU : ∀ i j, P.map (U i j) = unif
  intX : ∀ i j, Integrable (X i j) P
  meanX : ∀ i j, ∫ ω, X i j ω ∂P = 1
  indep : ∀ i j, IndepFun (U i j) (X i j) P

theorem integral_link {Ω : Type} [MeasurableSpace Ω] {P : Measure Ω}
    {U X : ℕ → ℕ → Ω → ℝ} (h : IsCrembNoise P U X) (i j : ℕ) {p : ℝ} (h0 : 0 ≤ p) (h1 : p ≤ 1) :
    Integrable (fun ω => (if U i j ω < p then (1 : ℝ) else 0) * X i j ω) P ∧
    ∫ ω, (if U i j ω < p then (1 : ℝ) else 0) * X i j ω ∂P = p := by
  have hm : Measurable (fun x : ℝ => if x < p then (1 : ℝ) else 0) :=
    Measurable.ite measurableSet_Iio measurable_const measurable_const
  have hmU : Measurable (fun ω => if U i j ω < p then (1 : ℝ) else 0) := hm.comp (h.measU i j)
  have hind : IndepFun (fun ω => if U i j ω < p then (1 : ℝ) else 0) (X i j) P :=
    (h.indep i j).comp (φ := fun x : ℝ => if x < p then (1 : ℝ) else 0) (ψ := id) hm measurable_id
  have : IsProbabilityMeasure P := by
    refine ⟨?_⟩
    have := h.lawU i j
    have h2 : (P.map (U i j)) Set.univ = 1 := by rw [this]; exact measure_univ
    rwa [Measure.map_apply (h.measU i j) MeasurableSet.univ, Set.preimage_univ] at h2
  have hintU : Integrable (fun ω => if U i j ω < p then (1 : ℝ) else 0) P := by
    refine Integrable.mono' (integrable_const (1 : ℝ)) hmU.aestronglyMeasurable ?_
    exact Filter.Eventually.of_forall (fun ω => by split <;> simp)
  have hU : ∫ ω, (if U i j ω < p then (1 : ℝ) else 0) ∂P = p := by
    have e1 : (fun ω => if U i j ω < p then (1 : ℝ) else 0)
        = Set.indicator (U i j ⁻¹' Set.Iio p) (fun _ => (1 : ℝ)) := by
      funext ω; simp [Set.indicator]
    rw [e1, integral_indicator (h.measU i j measurableSet_Iio)]
    simp only [integral_const, smul_eq_mul, mul_one, measureReal_restrict_apply_univ]
    rw [measureReal_def, ← Measure.map_apply (h.measU i j) measurableSet_Iio, h.lawU,
      unif_Iio h1, ENNReal.toReal_ofReal h0]
  refine ⟨hind.integrable_mul hintU (h.intX i j), ?_⟩
  rw [hind.integral_fun_mul_eq_mul_integral hmU.aestronglyMeasurable
    (h.intX i j).aestronglyMeasurable, hU, h.meanX, mul_one]

theorem sum_filter_order (n : ℕ) (s : Bool) (c : ℕ × ℕ → Bool) (f : ℕ × ℕ → ℝ) :
    (((order n s).filter c).map f).sum
      = ∑ e ∈ Law.pairs n s, if c e = true then f e else 0 := by
  have h1 : Law.pairs n s = (order n s).toFinset := by
    ext e; rw [List.mem_toFinset, mem_order]
  rw [h1, List.sum_toFinset _ (nodup_order n s)]
  induction order n s with
  | nil => rfl
  | cons a l ih =>
    rw [List.filter_cons]
    split <;> simp_all

/-- With self loops allowed and all probabilities positive, the mean out strength of a sampled
graph is the given one times the ratio of the totals (so exactly the given one when the totals
agree), and the mean in strength is exactly the given one. -/
theorem C16_mean_strengths {E : Ens} (hE : E.Coherent) (n : ℕ) (s_out s_in : ℕ → ℝ)
    (hpos : ∀ i < n, ∀ j < n, E.p i j ≠ 0)
    (hadm : (∑ i ∈ Finset.range n, s_out i) ≠ 0 ∧
      |(∑ i ∈ Finset.range n, s_out i) - ∑ i ∈ Finset.range n, s_in i|
        < 1e-6 * |∑ i ∈ Finset.range n, s_out i|)
    {Ω : Type} [MeasurableSpace Ω] (P : Measure Ω) (U X : ℕ → ℕ → Ω → ℝ)
    (hN : IsCrembNoise P U X) :
    ∃ L : Ω → List ((ℕ × ℕ) × XR),
      (∀ ω, E.cremb_sample n s_out s_in true (fun i j => U i j ω) (fun i j => X i j ω)
        = .ok (L ω)) ∧
      (∀ i < n, ∫ ω, sampledOut (L ω) i ∂P
        = s_out i * ((∑ j ∈ Finset.range n, s_in j) / ∑ j ∈ Finset.range n, s_out j)) ∧
      (∀ j < n, ∫ ω, sampledIn (L ω) j ∂P = s_in j) := by
  set S := ∑ i ∈ Finset.range n, s_out i with hS
  set T := ∑ i ∈ Finset.range n, s_in i with hT
  have hp : ∀ i < n, ∀ j < n, E.prob (i, j) ≠ 0 := by
    intro i hi j hj h0
    exact hpos i hi j hj (by rw [hE.p_eq, h0]; rfl)
  let L : Ω → List ((ℕ × ℕ) × XR) := fun ω =>
    (E.binary_sample n true (fun i j => U i j ω)).map (fun l => (l,
            fin (s_out l.1 * s_in l.2) / (fin S * E.p l.1 l.2) * fin (X l.1 l.2 ω)))
  -- sums over the sample as sums over all pairs
  have hsum : ∀ (c : ℕ × ℕ → Bool) ω,
      (((L ω).filter (fun l => c l.1)).map (fun l => l.2.toReal)).sum
        = ∑ e ∈ Law.pairs n true, (if c e = true then s_out e.1 * s_in e.2 / (S * E.prob e) else 0)
            * ((if U e.1 e.2 ω < E.prob e then (1 : ℝ) else 0) * X e.1 e.2 ω) := by
    intro c ω
    simp only [L, List.filter_map, List.map_map, binary_sample_eq, List.filter_filter]
    refine (sum_filter_order n true _ _).trans (Finset.sum_congr rfl (fun e he => ?_))
    obtain ⟨h1, h2, -⟩ := Law.mem_pairs.1 (show (e.1, e.2) ∈ _ from he)
    have h3 : S * E.prob e ≠ 0 := mul_ne_zero hadm.1 (hp _ h1 _ h2)
    simp only [Function.comp, hE.p_eq, ltb_fin_fin, fin_mul_fin, fin_div_fin _ _ h3, toReal_fin,
      Bool.and_eq_true, decide_eq_true_eq]
    by_cases hc : c e = true <;> by_cases hu : U e.1 e.2 ω < E.prob e <;> simp [hc, hu]
  have hint : ∀ (c : ℕ × ℕ → Bool),
      ∫ ω, (((L ω).filter (fun l => c l.1)).map (fun l => l.2.toReal)).sum ∂P
        = ∑ e ∈ Law.pairs n true, if c e = true then s_out e.1 * s_in e.2 / S else 0 := by
    intro c
    simp only [hsum]
    rw [integral_finsetSum]
    · refine Finset.sum_congr rfl (fun e he => ?_)
      obtain ⟨h1, h2, -⟩ := Law.mem_pairs.1 (show (e.1, e.2) ∈ _ from he)
      have hmem := hE.prob_mem e
      rw [integral_const_mul, (integral_link hN e.1 e.2 hmem.1 hmem.2).2]
      split
      · have h3 := hp _ h1 _ h2
        have h4 := hadm.1
        field_simp
      · simp
    · intro e _
      have hmem := hE.prob_mem e
      exact (integral_link hN e.1 e.2 hmem.1 hmem.2).1.const_mul _
  refine ⟨L, fun ω => ?_, fun i hi => ?_, fun j hj => ?_⟩
  · rw [cremb_sample_eq]
    rw [if_pos]
    have h2 := C16_refused E n true s_out s_in (fun i j => U i j ω) (fun i j => X i j ω)
    rw [cremb_sample_eq] at h2
    by_contra hc
    rw [if_neg hc] at h2
    rcases h2.1 rfl with h3 | h3
    · exact hadm.1 h3
    · exact absurd hadm.2 (not_lt.2 h3)
  · have := hint (fun e => e.1 == i)
    unfold sampledOut
    rw [this, sum_pairs, Finset.sum_eq_single i]
    · simp only [admissible, Bool.or_true, if_true, beq_self_eq_true]
      rw [← Finset.sum_div, ← Finset.mul_sum, mul_div_assoc]
    · intro k _ hk; simp [hk]
    · simp [hi]
  · have := hint (fun e => e.2 == j)
    unfold sampledIn
    rw [this, sum_pairs]
    have : ∀ i ∈ Finset.range n, (∑ k ∈ Finset.range n, if admissible i k true = true then
        (if ((i, k).2 == j) = true then s_out (i, k).1 * s_in (i, k).2 / S else 0) else 0)
        = s_out i * (s_in j / S) := by
      intro i _
      rw [Finset.sum_eq_single j]
      · simp [admissible, mul_div_assoc]
      · intro k _ hk; simp [hk]
      · simp [hj]
    rw [Finset.sum_congr rfl this, ← Finset.sum_mul, ← hS]
    have := hadm.1
    field_simp

/-- The mean of a uniform number. -/
theorem integral_unif : ∫ x, x ∂unif = 1 / 2 := by
  unfold unif
  rw [integral_Ico_eq_integral_Ioc, ← intervalIntegral.integral_of_le zero_le_one, integral_id]
  norm_num

/-- Such noise exists (weights uniform on `[0, 2)` instead of exponential, mean one as well). -/
theorem exists_crembNoise : ∃ (Ω : Type) (_ : MeasurableSpace Ω) (P : Measure Ω)
    (U X : ℕ → ℕ → Ω → ℝ), IsCrembNoise P U X := by
  obtain ⟨Ω, mΩ, P, hP, V, hV⟩ := exists_isUniform (ℕ × ℕ × Bool)
  have hint : ∀ k, Integrable (V k) P := by
    intro k
    have hid : Integrable (fun x : ℝ => x) unif := by
      unfold unif
      refine Integrable.mono' (g := fun _ => (1 : ℝ)) (integrable_const 1)
        measurable_id.aestronglyMeasurable ?_
      refine (ae_restrict_iff' measurableSet_Ico).2 (Filter.Eventually.of_forall (fun x hx => ?_))
      rw [Real.norm_eq_abs, abs_of_nonneg hx.1]; exact hx.2.le
    rw [← hV.law k] at hid
    exact hid.comp_measurable (hV.meas k)
  refine ⟨Ω, mΩ, P, fun i j => V (i, j, false), fun i j ω => 2 * V (i, j, true) ω,
    fun i j => hV.meas _, fun i j => hV.law _, fun i j => (hint _).const_mul 2, fun i j => ?_,
    fun i j => ?_⟩
  · rw [integral_const_mul]
    have : ∫ ω, V (i, j, true) ω ∂P = ∫ x, x ∂unif := by
      rw [← hV.law (i, j, true)]
      exact (integral_map (hV.meas _).aemeasurable
        measurable_id.aestronglyMeasurable).symm
    rw [this, integral_unif]; norm_num
  · have h1 : IndepFun (V (i, j, false)) (V (i, j, true)) P := hV.indep.indepFun (by simp)
    exact h1.comp (φ := id) (ψ := fun x => 2 * x) measurable_id (measurable_const_mul 2)

/-- Three vertices of fitness `1`, strengths adding up to `6` on both sides. -/
example : ∃ (E : Ens) (s_out s_in : ℕ → ℝ), E.Coherent ∧ (∀ i < 3, ∀ j < 3, E.p i j ≠ 0) ∧
    (∑ i ∈ Finset.range 3, s_out i) ≠ 0 ∧
      |(∑ i ∈ Finset.range 3, s_out i) - ∑ i ∈ Finset.range 3, s_in i|
        < 1e-6 * |∑ i ∈ Finset.range 3, s_out i| := by
  refine ⟨Ens.sparseFit 1 (fun _ => 1) (fun _ => 1) (fun _ _ => 1), fun i => i + 1, fun _ => 2,
    Ens.isModel_coherent (.sparseFit _ _ _ _), ?_, ?_, ?_⟩
  · intro i _ j _
    have h := sparse_fit_p_ij 1 1 1 1
    have h2 : (Ens.sparseFit 1 (fun _ => 1) (fun _ => 1) (fun _ _ => 1)).p i j
        = fin (fitProb (1 * 1 * 1 * 1)) := h
    rw [h2]
    simp [zero_def, fitProb]
  · norm_num [Finset.sum_range_succ]
  · norm_num [Finset.sum_range_succ]

end Verif
