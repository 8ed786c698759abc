import Verif.Uniform
import Verif.Law
import Verif.Ensemble.SampleLemmas
import Mathlib.Algebra.Order.Floor.Semiring
import Mathlib.MeasureTheory.Function.Floor

/-!
# Specification: random numbers with 53 bits

`numpy.random.random`, as compiled by numba, returns a multiple of `2 ^ -53`: 53 of the bits
delivered by the Mersenne twister.  `IsGrid P U` says that the numbers `U i` are independent and that each takes every
multiple of `2 ^ -53` in `[0, 1)` with the same probability.
-/

namespace Verif

open MeasureTheory ProbabilityTheory Set

/-- Independent random numbers with 53 bits. -/
structure IsGrid {Ω ι : Type} [MeasurableSpace Ω] (P : Measure Ω) (U : ι → Ω → ℝ) : Prop where
  meas : ∀ i, Measurable (U i)
  indep : iIndepFun U P
  law : ∀ i, ∀ k < 2 ^ 53, P {ω | U i ω = ((k : ℕ) : ℝ) / 2 ^ 53} = ENNReal.ofReal (1 / 2 ^ 53)

/-- The probability that a random number with 53 bits is below `p`: `p` rounded up to a multiple of
`2 ^ -53`. -/
noncomputable def roundUp (p : ℝ) : ℝ := (⌈p * 2 ^ 53⌉₊ : ℝ) / 2 ^ 53

theorem roundUp_mem {p : ℝ} (h1 : p ≤ 1) : 0 ≤ roundUp p ∧ roundUp p ≤ 1 := by
  unfold roundUp
  refine ⟨by positivity, ?_⟩
  rw [div_le_one (by positivity)]
  have : ⌈p * 2 ^ 53⌉₊ ≤ 2 ^ 53 := Nat.ceil_le.2 (by push_cast; nlinarith)
  exact_mod_cast this

theorem le_roundUp (p : ℝ) : p ≤ roundUp p := by
  unfold roundUp
  rw [le_div_iff₀ (by positivity)]
  exact Nat.le_ceil _

theorem roundUp_lt {p : ℝ} (h0 : 0 ≤ p) : roundUp p < p + 1 / 2 ^ 53 := by
  unfold roundUp
  rw [div_lt_iff₀ (by positivity), add_mul, one_div_mul_cancel (by positivity)]
  exact Nat.ceil_lt_add_one (by positivity)

theorem roundUp_zero : roundUp 0 = 0 := by simp [roundUp]

theorem roundUp_one : roundUp 1 = 1 := by
  unfold roundUp
  have : ⌈(1 : ℝ) * 2 ^ 53⌉₊ = 2 ^ 53 := by
    rw [one_mul]
    exact_mod_cast Nat.ceil_natCast (R := ℝ) (2 ^ 53)
  rw [this]
  norm_num

namespace IsGrid

variable {Ω ι : Type} [MeasurableSpace Ω] {P : Measure Ω} [IsProbabilityMeasure P] {U : ι → Ω → ℝ}

omit [IsProbabilityMeasure P] in
theorem precomp {κ : Type} (h : IsGrid P U) {f : κ → ι} (hf : Function.Injective f) :
    IsGrid P (fun k => U (f k)) :=
  ⟨fun _ => h.meas _, h.indep.precomp hf, fun _ => h.law _⟩

private theorem atoms (h : IsGrid P U) (i : ι) (T : Finset ℕ) (hT : ∀ k ∈ T, k < 2 ^ 53) :
    P.real {ω | ∃ k ∈ T, U i ω = ((k : ℕ) : ℝ) / 2 ^ 53} = T.card / 2 ^ 53 := by
  have e : {ω | ∃ k ∈ T, U i ω = ((k : ℕ) : ℝ) / 2 ^ 53}
      = ⋃ k ∈ T, {ω | U i ω = ((k : ℕ) : ℝ) / 2 ^ 53} := by
    ext ω; simp
  rw [e, measureReal_biUnion_finset]
  · have : ∀ k ∈ T, P.real {ω | U i ω = ((k : ℕ) : ℝ) / 2 ^ 53} = 1 / 2 ^ 53 := by
      intro k hk
      rw [Measure.real, h.law i k (hT k hk), ENNReal.toReal_ofReal (by positivity)]
    rw [Finset.sum_congr rfl this, Finset.sum_const, nsmul_eq_mul]
    ring
  · intro a _ b _ hab
    refine Set.disjoint_left.2 fun ω h1 h2 => hab ?_
    have h1 : U i ω = (a : ℝ) / 2 ^ 53 := h1
    have h2 : U i ω = (b : ℝ) / 2 ^ 53 := h2
    rw [h1, div_left_inj' (by positivity)] at h2
    exact_mod_cast h2
  · intro k _
    exact (h.meas i) (measurableSet_singleton _)

/-- The probability of a number below and not below `p`. -/
theorem measure_lt (h : IsGrid P U) (i : ι) {p : ℝ} (h1 : p ≤ 1) :
    P.real (U i ⁻¹' Iio p) = roundUp p ∧ P.real (U i ⁻¹' Ici p) = 1 - roundUp p := by
  set K := ⌈p * 2 ^ 53⌉₊ with hK
  have hK1 : K ≤ 2 ^ 53 := Nat.ceil_le.2 (by push_cast; nlinarith)
  have a1 := h.atoms i (Finset.range K) (fun k hk => (Finset.mem_range.1 hk).trans_le hK1)
  have a2 := h.atoms i (Finset.Ico K (2 ^ 53)) (fun k hk => (Finset.mem_Ico.1 hk).2)
  rw [Finset.card_range] at a1
  rw [Nat.card_Ico, Nat.cast_sub hK1] at a2
  have s1 : {ω | ∃ k ∈ Finset.range K, U i ω = ((k : ℕ) : ℝ) / 2 ^ 53} ⊆ U i ⁻¹' Iio p := by
    rintro ω ⟨k, hk, e⟩
    have := Nat.lt_ceil.1 (Finset.mem_range.1 hk)
    show U i ω < p
    rw [e, div_lt_iff₀ (by positivity)]
    exact this
  have s2 : {ω | ∃ k ∈ Finset.Ico K (2 ^ 53), U i ω = ((k : ℕ) : ℝ) / 2 ^ 53} ⊆
      U i ⁻¹' Ici p := by
    rintro ω ⟨k, hk, e⟩
    have := Nat.ceil_le.1 (Finset.mem_Ico.1 hk).1
    show p ≤ U i ω
    rw [e, le_div_iff₀ (by positivity)]
    exact this
  have m1 := measureReal_mono (μ := P) s1
  have m2 := measureReal_mono (μ := P) s2
  have e : U i ⁻¹' Ici p = (U i ⁻¹' Iio p)ᶜ := by rw [← preimage_compl, compl_Iio]
  have hc : P.real (U i ⁻¹' Ici p) = 1 - P.real (U i ⁻¹' Iio p) := by
    rw [e]
    exact probReal_compl_eq_one_sub ((h.meas i) measurableSet_Iio)
  have hr : roundUp p = (K : ℝ) / 2 ^ 53 := rfl
  rw [a1] at m1
  rw [a2, hc, sub_div] at m2
  have : ((2 ^ 53 : ℕ) : ℝ) / 2 ^ 53 = 1 := by norm_num
  rw [this] at m2
  have : P.real (U i ⁻¹' Iio p) = roundUp p := by
    rw [hr]
    exact le_antisymm (by linarith) m1
  exact ⟨this, by rw [hc, this]⟩

/-- The probability that every number of a finite family falls below or above its threshold as
prescribed. -/
theorem measure_box (h : IsGrid P U) (S : Finset ι) (p : ι → ℝ) (hp : ∀ i ∈ S, p i ≤ 1)
    (G : ι → Prop) [DecidablePred G] :
    P {ω | ∀ i ∈ S, U i ω < p i ↔ G i}
      = ENNReal.ofReal (∏ i ∈ S, if G i then roundUp (p i) else 1 - roundUp (p i)) := by
  have e1 : {ω | ∀ i ∈ S, U i ω < p i ↔ G i}
      = ⋂ i ∈ S, U i ⁻¹' (if G i then Iio (p i) else Ici (p i)) := by
    ext ω
    simp only [mem_ofPred_eq, mem_iInter, mem_preimage]
    refine forall₂_congr (fun i _ => ?_)
    by_cases hG : G i <;> simp [hG]
  rw [e1, h.indep.measure_inter_preimage_eq_mul S
    (fun i _ => by split; exacts [measurableSet_Iio, measurableSet_Ici]),
    ENNReal.ofReal_prod_of_nonneg]
  · refine Finset.prod_congr rfl (fun i hi => ?_)
    obtain ⟨m1, m2⟩ := h.measure_lt i (hp i hi)
    split
    · rw [← m1, ofReal_measureReal]
    · rw [← m2, ofReal_measureReal]
  · intro i hi
    have := roundUp_mem (hp i hi)
    split
    · exact this.1
    · linarith [this.2]

end IsGrid

/-- Such generators exist, for any index type. -/
theorem exists_isGrid (ι : Type) :
    ∃ (Ω : Type) (_ : MeasurableSpace Ω) (P : Measure Ω) (_ : IsProbabilityMeasure P)
      (U : ι → Ω → ℝ), IsGrid P U := by
  obtain ⟨Ω, _, P, _, U, hU⟩ := exists_isUniform ι
  let g : ℝ → ℝ := fun r => (⌊r * 2 ^ 53⌋ : ℝ) / 2 ^ 53
  have hg : Measurable g := by
    have : Measurable (fun r : ℝ => (⌊r * 2 ^ 53⌋ : ℤ)) :=
      (measurable_id.mul_const _).floor
    exact ((measurable_from_top (f := fun k : ℤ => (k : ℝ))).comp this).div_const _
  refine ⟨Ω, inferInstance, P, inferInstance, fun i => g ∘ U i, fun i => hg.comp (hU.meas i),
    hU.indep.comp (fun _ => g) (fun _ => hg), ?_⟩
  intro i k hk
  have e : {ω | (g ∘ U i) ω = ((k : ℕ) : ℝ) / 2 ^ 53}
      = U i ⁻¹' (Ico ((k : ℝ) / 2 ^ 53) (((k : ℝ) + 1) / 2 ^ 53)) := by
    ext ω
    show (⌊U i ω * 2 ^ 53⌋ : ℝ) / 2 ^ 53 = (k : ℝ) / 2 ^ 53 ↔ _ ≤ U i ω ∧ U i ω < _
    rw [div_left_inj' (by positivity), div_le_iff₀ (by positivity), lt_div_iff₀ (by positivity)]
    rw [show ((k : ℕ) : ℝ) = ((k : ℤ) : ℝ) by simp, Int.cast_inj, Int.floor_eq_iff]
  rw [e, ← Measure.map_apply (hU.meas i) measurableSet_Ico, hU.law i, unif,
    Measure.restrict_apply measurableSet_Ico, Set.inter_eq_left.2, Real.volume_Ico]
  · congr 1; ring
  · intro r hr
    refine ⟨le_trans (by positivity) hr.1, hr.2.trans_le ?_⟩
    rw [div_le_one (by positivity)]
    have : k + 1 ≤ 2 ^ 53 := hk
    exact_mod_cast this

/-! ## Distance of two laws of independent links -/

namespace Law

variable {E : Type} [DecidableEq E]

private theorem mean_insert_split {S : Finset E} {e : E} (he : e ∉ S) (p : E → ℝ) (f : Finset E → ℝ) :
    mean (insert e S) p f
      = p e * mean S p (fun G => f (insert e G)) + (1 - p e) * mean S p f := by
  unfold mean
  rw [Finset.sum_powerset_insert he, add_comm, Finset.mul_sum, Finset.mul_sum]
  congr 1
  · refine Finset.sum_congr rfl (fun G hG => ?_)
    have : prob (insert e S) p (insert e G) = p e * prob S p G := by
      unfold prob
      rw [Finset.prod_insert he, if_pos (Finset.mem_insert_self _ _)]
      congr 1
      refine Finset.prod_congr rfl (fun a ha => ?_)
      have : a ≠ e := fun h => he (h ▸ ha)
      simp [this]
    rw [this, mul_assoc]
  · refine Finset.sum_congr rfl (fun G hG => ?_)
    have heG : e ∉ G := fun h => he (Finset.mem_powerset.1 hG h)
    have : prob (insert e S) p G = (1 - p e) * prob S p G := by
      unfold prob
      rw [Finset.prod_insert he, if_neg heG]
    rw [this, mul_assoc]

/-- Changing the probabilities of the links changes the mean of a quantity with values in `[0, B]`
by at most the sum of the changes, times `B`. -/
theorem mean_dist (S : Finset E) {p q : E → ℝ} (hp : ∀ e ∈ S, 0 ≤ p e ∧ p e ≤ 1)
    (hq : ∀ e ∈ S, 0 ≤ q e ∧ q e ≤ 1) {B : ℝ} :
    ∀ f : Finset E → ℝ, (∀ G, 0 ≤ f G ∧ f G ≤ B) →
      |mean S p f - mean S q f| ≤ (∑ e ∈ S, |p e - q e|) * B := by
  induction S using Finset.induction_on with
  | empty => intro f hf; simp [mean, prob]
  | insert e S he ih =>
    intro f hf
    have hp' : ∀ a ∈ S, 0 ≤ p a ∧ p a ≤ 1 := fun a ha => hp a (Finset.mem_insert_of_mem ha)
    have hq' : ∀ a ∈ S, 0 ≤ q a ∧ q a ≤ 1 := fun a ha => hq a (Finset.mem_insert_of_mem ha)
    have ih1 := ih hp' hq' (fun G => f (insert e G)) (fun G => hf _)
    have ih0 := ih hp' hq' f hf
    obtain ⟨p0, p1⟩ := hp e (Finset.mem_insert_self _ _)
    have bound : ∀ g : Finset E → ℝ, (∀ G, 0 ≤ g G ∧ g G ≤ B) →
        0 ≤ mean S q g ∧ mean S q g ≤ B := by
      intro g hg
      constructor
      · exact Finset.sum_nonneg fun G _ => mul_nonneg (prob_nonneg hq' G) (hg G).1
      · have h1 := mean_mono hq' (f := g) (g := fun _ => B) (fun G _ => (hg G).2)
        have h2 := mean_smul S q B (fun _ => 1)
        rw [mean_one, mul_one] at h2
        exact h1.trans h2.le
    have b1 := bound (fun G => f (insert e G)) (fun G => hf _)
    have b0 := bound f hf
    rw [mean_insert_split he, mean_insert_split he, Finset.sum_insert he, add_mul]
    set a1 := mean S p (fun G => f (insert e G))
    set c1 := mean S q (fun G => f (insert e G))
    set a0 := mean S p f
    set c0 := mean S q f
    have hd : p e * a1 + (1 - p e) * a0 - (q e * c1 + (1 - q e) * c0)
        = (p e - q e) * (c1 - c0) + (p e * (a1 - c1) + (1 - p e) * (a0 - c0)) := by ring
    rw [hd]
    refine (abs_add_le _ _).trans (add_le_add ?_ ?_)
    · rw [abs_mul]
      refine mul_le_mul_of_nonneg_left ?_ (abs_nonneg _)
      rw [abs_le]; constructor <;> linarith
    · refine (abs_add_le _ _).trans ?_
      rw [abs_mul, abs_mul, abs_of_nonneg p0, abs_of_nonneg (sub_nonneg.2 p1)]
      nlinarith [mul_le_mul_of_nonneg_left ih1 p0, mul_le_mul_of_nonneg_left ih0 (sub_nonneg.2 p1)]

end Law

/-! ## The sampler -/

open XR

/-- The links drawn by the sampler, given the probabilities of the links. -/
theorem mem_sample {α β δ ζ : Type} (p_ij : δ → α → β → ζ → XR) (param : δ) (n : ℕ)
    (prop_out : ℕ → α) (prop_in : ℕ → β) (prop_dyad : ℕ → ℕ → ζ) (sl : Bool) (u : ℕ → ℝ)
    {p : ℕ × ℕ → ℝ}
    (hp : ∀ i < n, ∀ j < n, p_ij param (prop_out i) (prop_in j) (prop_dyad i j) = fin (p (i, j)))
    (e : ℕ × ℕ) :
    e ∈ (DiGraphEnsemble.binary_sample_stream p_ij param n prop_out prop_in prop_dyad sl u).2.toFinset
      ↔ e ∈ Law.pairs n sl ∧ u ((order n sl).idxOf e) < p e := by
  let F : Ens := ⟨α, β, δ, ζ, p_ij, fun _ _ _ _ => 0, fun _ _ _ _ => 0, param, prop_out, prop_in,
    prop_dyad⟩
  have h := binary_sample_stream_eq F n sl u
  have h' : (DiGraphEnsemble.binary_sample_stream p_ij param n prop_out prop_in prop_dyad sl u).2
      = F.binary_sample n sl (fun i j => u ((order n sl).idxOf (i, j))) := h
  rw [h', binary_sample_eq, List.mem_toFinset, List.mem_filter, mem_order]
  refine and_congr_right fun he => ?_
  obtain ⟨i, j⟩ := e
  obtain ⟨hi, hj, _⟩ := Law.mem_pairs.1 he
  show ltb _ (p_ij param (prop_out i) (prop_in j) (prop_dyad i j)) = true ↔ _
  rw [hp i hi j hj]
  simp

end Verif
