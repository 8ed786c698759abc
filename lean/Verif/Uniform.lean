import Mathlib.Probability.Independence.InfinitePi
import Mathlib.MeasureTheory.Measure.Lebesgue.Basic
import Mathlib.MeasureTheory.Integral.Bochner.Set

/-!
# Specification: a generator of independent uniform numbers

`IsUniform P U`: on the probability space `(Ω, P)` the random variables `U i` are independent
and each is uniformly distributed on `[0, 1)`.  Nothing here mentions the code.
-/

namespace Verif

open MeasureTheory ProbabilityTheory Set

/-- Uniform law on `[0, 1)`. -/
noncomputable def unif : Measure ℝ := volume.restrict (Ico 0 1)

instance : IsProbabilityMeasure unif := ⟨by simp [unif]⟩

/-- Independent uniform random numbers. -/
structure IsUniform {Ω ι : Type} [MeasurableSpace Ω] (P : Measure Ω) (U : ι → Ω → ℝ) : Prop where
  meas : ∀ i, Measurable (U i)
  indep : iIndepFun U P
  law : ∀ i, P.map (U i) = unif

theorem unif_Iio {p : ℝ} (h1 : p ≤ 1) : unif (Iio p) = ENNReal.ofReal p := by
  rw [unif, Measure.restrict_apply measurableSet_Iio]
  have : Iio p ∩ Ico 0 1 = Ico 0 p := by
    ext x; simp only [mem_inter_iff, mem_Iio, mem_Ico]
    constructor
    · rintro ⟨h, h0, -⟩; exact ⟨h0, h⟩
    · rintro ⟨h0, h⟩; exact ⟨h, h0, by linarith⟩
  rw [this]; simp

theorem unif_Ici {p : ℝ} (h0 : 0 ≤ p) : unif (Ici p) = ENNReal.ofReal (1 - p) := by
  rw [unif, Measure.restrict_apply measurableSet_Ici]
  have : Ici p ∩ Ico 0 1 = Ico p 1 := by
    ext x; simp only [mem_inter_iff, mem_Ici, mem_Ico]
    constructor
    · rintro ⟨h, -, h1⟩; exact ⟨h, h1⟩
    · rintro ⟨h, h1⟩; exact ⟨h, by linarith, h1⟩
  rw [this]; simp

/-- Such generators exist, for any index type. -/
theorem exists_isUniform (ι : Type) :
    ∃ (Ω : Type) (_ : MeasurableSpace Ω) (P : Measure Ω) (_ : IsProbabilityMeasure P)
      (U : ι → Ω → ℝ), IsUniform P U := by
  refine ⟨ι → ℝ, inferInstance, Measure.infinitePi (fun _ => unif), inferInstance,
    fun i ω => ω i, fun i => measurable_pi_apply i, ?_, ?_⟩
  · exact iIndepFun_infinitePi (X := fun _ x => x) (P := fun _ => unif) (fun _ => measurable_id)
  · intro i
    exact Measure.infinitePi_map_eval (fun _ => unif) i

/-- Renaming the calls injectively keeps the numbers independent and uniform. -/
theorem IsUniform.precomp {Ω ι κ : Type} [MeasurableSpace Ω] {P : Measure Ω} {U : ι → Ω → ℝ}
    (h : IsUniform P U) {f : κ → ι} (hf : Function.Injective f) :
    IsUniform P (fun k => U (f k)) :=
  ⟨fun _ => h.meas _, h.indep.precomp hf, fun _ => h.law _⟩

/-- The probability that every number of a finite family falls below or above its threshold as
prescribed. -/
theorem IsUniform.measure_box {Ω ι : Type} [MeasurableSpace Ω] {P : Measure Ω} {U : ι → Ω → ℝ}
    (h : IsUniform P U) (S : Finset ι) (p : ι → ℝ) (hp : ∀ i ∈ S, 0 ≤ p i ∧ p i ≤ 1)
    (G : ι → Prop) [DecidablePred G] :
    P {ω | ∀ i ∈ S, U i ω < p i ↔ G i}
      = ENNReal.ofReal (∏ i ∈ S, if G i then p i else 1 - p i) := by
  have e1 : {ω | ∀ i ∈ S, U i ω < p i ↔ G i}
      = ⋂ i ∈ S, U i ⁻¹' (if G i then Iio (p i) else Ici (p i)) := by
    ext ω
    simp only [mem_ofPred_eq, mem_iInter, mem_preimage]
    refine forall₂_congr (fun i _ => ?_)
    by_cases hG : G i <;> simp [hG]
  rw [e1, h.indep.measure_inter_preimage_eq_mul S
    (fun i _ => by split; exacts [measurableSet_Iio, measurableSet_Ici]),
    ENNReal.ofReal_prod_of_nonneg]
  · refine Finset.prod_congr rfl (fun i hi => ?_)
    rw [← Measure.map_apply (h.meas i) (by split; exacts [measurableSet_Iio, measurableSet_Ici]),
      h.law i]
    split
    · exact unif_Iio (hp i hi).2
    · exact unif_Ici (hp i hi).1
  · intro i hi
    have := hp i hi
    split
    · exact this.1
    · linarith [this.2]

/-- Almost surely all numbers lie in `[0, 1)`. -/
theorem IsUniform.ae_mem {Ω ι : Type} [Countable ι] [MeasurableSpace Ω] {P : Measure Ω}
    {U : ι → Ω → ℝ} (h : IsUniform P U) : ∀ᵐ ω ∂P, ∀ i, 0 ≤ U i ω ∧ U i ω < 1 := by
  rw [ae_all_iff]
  intro i
  have h1 : ∀ᵐ x ∂(P.map (U i)), x ∈ Ico (0 : ℝ) 1 := by
    rw [h.law i, unif]
    exact ae_restrict_mem measurableSet_Ico
  exact ae_of_ae_map (h.meas i).aemeasurable h1

end Verif
