import Verif.Uniform
import Mathlib.Probability.Distributions.Exponential

/-!
# Procedures that read a stream of random numbers

A procedure takes the stream `u`, and returns how many numbers it has read and a result; how many it
reads may depend on the numbers.  The next procedure starts where the previous one has stopped.
-/

namespace Verif

open MeasureTheory ProbabilityTheory Set
open scoped ENNReal

namespace RStream

/-- What is left of a stream after `k` numbers. -/
def drop (k : ℕ) (u : ℕ → ℝ) : ℕ → ℝ := fun i => u (k + i)

theorem drop_zero (u : ℕ → ℝ) : drop 0 u = u := funext fun i => by simp [drop]

theorem drop_drop (j k : ℕ) (u : ℕ → ℝ) : drop j (drop k u) = drop (k + j) u :=
  funext fun i => by simp [drop, add_assoc]

/-- Law of the stream. -/
noncomputable def law : Measure (ℕ → ℝ) := Measure.infinitePi (fun _ => unif)

instance : IsProbabilityMeasure law := by unfold law; infer_instance

theorem measurable_drop (k : ℕ) : Measurable (drop k) :=
  measurable_pi_iff.2 fun i => measurable_pi_apply (k + i)

private def cons (x : ℝ × (ℕ → ℝ)) : ℕ → ℝ
  | 0 => x.1
  | k + 1 => x.2 k

private theorem measurable_cons : Measurable cons := by
  refine measurable_pi_iff.2 fun i => ?_
  cases i with
  | zero => exact measurable_fst
  | succ i => exact (measurable_pi_apply i).comp measurable_snd

private theorem law_cons : (unif.prod law).map cons = law := by
  refine Measure.eq_infinitePi _ fun s t ht => ?_
  rw [Measure.map_apply measurable_cons (MeasurableSet.pi s.countable_toSet fun i _ => ht i)]
  set s' : Finset ℕ := (s.filter (· ≠ 0)).image Nat.pred with hs'
  have hmem : ∀ k, k ∈ s' ↔ k + 1 ∈ s := by
    intro k
    simp only [hs', Finset.mem_image, Finset.mem_filter]
    constructor
    · rintro ⟨a, ⟨ha, h0⟩, rfl⟩
      rwa [Nat.pred_eq_sub_one, Nat.sub_add_cancel (Nat.one_le_iff_ne_zero.2 h0)]
    · intro h
      exact ⟨k + 1, ⟨h, by simp⟩, rfl⟩
  have e : cons ⁻¹' (Set.pi s t)
      = (if 0 ∈ s then t 0 else univ) ×ˢ (Set.pi s' fun k => t (k + 1)) := by
    ext ⟨a, v⟩
    simp only [mem_preimage, Set.mem_pi, Set.mem_prod, Finset.mem_coe, hmem]
    constructor
    · intro h
      refine ⟨?_, fun k hk => h (k + 1) hk⟩
      split
      · next h0 => exact h 0 h0
      · trivial
    · rintro ⟨h0, h1⟩ i hi
      cases i with
      | zero => rwa [if_pos hi] at h0
      | succ i => exact h1 i hi
  rw [e, Measure.prod_prod, law, Measure.infinitePi_pi _ fun i _ => ht (i + 1)]
  have hp : ∏ i ∈ s, unif (t i) = (if 0 ∈ s then unif (t 0) else 1) * ∏ k ∈ s', unif (t (k + 1)) := by
    rw [← Finset.prod_filter_mul_prod_filter_not s (fun i => i = 0)]
    congr 1
    · rw [Finset.filter_eq' s 0]
      split <;> simp
    · rw [hs', Finset.prod_image]
      · refine Finset.prod_congr rfl fun i hi => ?_
        have : i ≠ 0 := (Finset.mem_filter.1 hi).2
        rw [Nat.pred_eq_sub_one, Nat.sub_add_cancel (Nat.one_le_iff_ne_zero.2 this)]
      · intro a ha b hb h
        have h1 : a ≠ 0 := (Finset.mem_filter.1 ha).2
        have h2 : b ≠ 0 := (Finset.mem_filter.1 hb).2
        rw [Nat.pred_eq_sub_one, Nat.pred_eq_sub_one] at h
        omega
  rw [hp]
  congr 1
  split <;> simp

/-- The first number is independent of the others. -/
theorem law_first {A : Set ℝ} {D : Set (ℕ → ℝ)} (hA : MeasurableSet A) (hD : MeasurableSet D) :
    MeasurableSet {u : ℕ → ℝ | u 0 ∈ A ∧ drop 1 u ∈ D} ∧
    law {u | u 0 ∈ A ∧ drop 1 u ∈ D} = unif A * law D := by
  have hm : MeasurableSet {u : ℕ → ℝ | u 0 ∈ A ∧ drop 1 u ∈ D} :=
    (measurable_pi_apply 0 hA).inter (measurable_drop 1 hD)
  refine ⟨hm, ?_⟩
  conv_lhs => rw [← law_cons]
  rw [Measure.map_apply measurable_cons hm]
  have : cons ⁻¹' {u : ℕ → ℝ | u 0 ∈ A ∧ drop 1 u ∈ D} = A ×ˢ D := by
    ext ⟨a, v⟩
    have h1 : drop 1 (cons (a, v)) = v := by
      funext i
      simp [drop, add_comm 1 i, cons]
    simp only [mem_preimage, Set.mem_prod, mem_ofPred_eq, h1]
    rfl
  rw [this, Measure.prod_prod]

/-- A procedure whose result has law `ν` and is independent of the numbers it leaves unread. -/
def Fresh {R : Type} [MeasurableSpace R] (S : (ℕ → ℝ) → ℕ × R) (ν : Measure R) : Prop :=
  ∀ B : Set R, MeasurableSet B → ∀ C : Set (ℕ → ℝ), MeasurableSet C →
    MeasurableSet {u | (S u).2 ∈ B ∧ drop (S u).1 u ∈ C} ∧
    law {u | (S u).2 ∈ B ∧ drop (S u).1 u ∈ C} = ν B * law C

variable {E R : Type} [DecidableEq E]

/-- How many numbers are read when the procedures of a list are run one after the other. -/
def used (S : E → (ℕ → ℝ) → ℕ × R) : List E → (ℕ → ℝ) → ℕ
  | [], _ => 0
  | a :: l, u => (S a u).1 + used S l (drop (S a u).1 u)

/-- The result of the procedure `x` when those of the list are run one after the other. -/
def val [Inhabited R] (S : E → (ℕ → ℝ) → ℕ × R) : List E → (ℕ → ℝ) → E → R
  | [], _, _ => default
  | a :: l, u, x => if x = a then (S a u).2 else val S l (drop (S a u).1 u) x

omit [DecidableEq E] in
theorem used_append (S : E → (ℕ → ℝ) → ℕ × R) (l l' : List E) (u : ℕ → ℝ) :
    used S (l ++ l') u = used S l u + used S l' (drop (used S l u) u) := by
  induction l generalizing u with
  | nil => simp [used, drop_zero]
  | cons a l ih =>
    simp only [List.cons_append, used, ih, drop_drop]
    omega

variable [Inhabited R]

theorem val_append (S : E → (ℕ → ℝ) → ℕ × R) (l l' : List E) (u : ℕ → ℝ) (x : E) :
    val S (l ++ l') u x
      = if x ∈ l then val S l u x else val S l' (drop (used S l u) u) x := by
  induction l generalizing u with
  | nil => simp [used, drop_zero]
  | cons a l ih =>
    simp only [List.cons_append, val, used, ih, drop_drop]
    by_cases h : x = a <;> simp [h]

/-- The results of successive procedures are independent. -/
theorem measure_val [MeasurableSpace R] {S : E → (ℕ → ℝ) → ℕ × R} {ν : E → Measure R} (l : List E)
    (hS : ∀ e ∈ l, Fresh (S e) (ν e)) (hl : l.Nodup) {B : E → Set R}
    (hB : ∀ e, MeasurableSet (B e)) {C : Set (ℕ → ℝ)} (hC : MeasurableSet C) :
    MeasurableSet {u | (∀ x ∈ l, val S l u x ∈ B x) ∧ drop (used S l u) u ∈ C} ∧
    law {u | (∀ x ∈ l, val S l u x ∈ B x) ∧ drop (used S l u) u ∈ C}
      = (∏ x ∈ l.toFinset, ν x (B x)) * law C := by
  induction l with
  | nil => simpa [used, drop_zero] using hC
  | cons a l ih =>
    rw [List.nodup_cons] at hl
    obtain ⟨m, e⟩ := ih (fun e he => hS e (List.mem_cons_of_mem _ he)) hl.2
    obtain ⟨m', e'⟩ := hS a List.mem_cons_self (B a) (hB a) _ m
    have hset : {u | (∀ x ∈ a :: l, val S (a :: l) u x ∈ B x) ∧ drop (used S (a :: l) u) u ∈ C}
        = {u | (S a u).2 ∈ B a ∧ drop (S a u).1 u ∈
            {u | (∀ x ∈ l, val S l u x ∈ B x) ∧ drop (used S l u) u ∈ C}} := by
      ext u
      simp only [mem_ofPred_eq, List.forall_mem_cons, val, if_true, used, drop_drop, and_assoc]
      refine and_congr_right fun _ => and_congr_left fun _ => ?_
      refine forall₂_congr fun x hx => ?_
      rw [if_neg fun h : x = a => hl.1 (h ▸ hx)]
    rw [hset]
    refine ⟨m', ?_⟩
    rw [e', e, List.toFinset_cons, Finset.prod_insert (by simpa using hl.1), mul_assoc]

end RStream

/-- The law of a generator is that of the stream. -/
theorem IsUniform.map_stream {Ω : Type} [MeasurableSpace Ω] {P : Measure Ω} {U : ℕ → Ω → ℝ}
    (h : IsUniform P U) : P.map (fun ω k => U k ω) = RStream.law := by
  rw [h.indep.map_fun_eq_infinitePi_map h.meas, RStream.law]
  congr 1
  funext k
  exact h.law k

/-! ## Exponential variates -/

/-- Law of an exponential variate of mean `m` (the constant `0` if `m = 0`). -/
noncomputable def expLaw (m : ℝ) : Measure ℝ := (expMeasure 1).map fun x => m * x

instance : IsProbabilityMeasure (expMeasure 1) := isProbabilityMeasure_expMeasure one_pos

instance (m : ℝ) : IsProbabilityMeasure (expLaw m) :=
  Measure.isProbabilityMeasure_map (measurable_const_mul m).aemeasurable

/-- Minus the logarithm of a uniform number. -/
theorem map_neg_log : unif.map (fun v => -Real.log (1 - v)) = expMeasure 1 := by
  have hm : Measurable fun v : ℝ => -Real.log (1 - v) :=
    (Real.measurable_log.comp (measurable_const.sub measurable_id)).neg
  have : IsProbabilityMeasure (unif.map fun v => -Real.log (1 - v)) :=
    Measure.isProbabilityMeasure_map hm.aemeasurable
  refine Measure.eq_of_cdf _ _ ?_
  ext x
  rw [cdf_expMeasure_eq one_pos, cdf_eq_real, measureReal_def, Measure.map_apply hm measurableSet_Iic,
    one_mul, unif, Measure.restrict_apply (hm measurableSet_Iic)]
  have e : (fun v : ℝ => -Real.log (1 - v)) ⁻¹' Iic x ∩ Ico 0 1 =
      Icc 0 (1 - Real.exp (-x)) := by
    ext v
    simp only [mem_inter_iff, mem_preimage, mem_Iic, mem_Ico, mem_Icc]
    constructor
    · rintro ⟨h, h0, h1⟩
      refine ⟨h0, ?_⟩
      have : Real.exp (-x) ≤ 1 - v := by
        rw [← Real.le_log_iff_exp_le (by linarith)]
        linarith
      linarith
    · rintro ⟨h0, h1⟩
      have hp := Real.exp_pos (-x)
      refine ⟨?_, h0, by linarith⟩
      have : -x ≤ Real.log (1 - v) := by
        rw [Real.le_log_iff_exp_le (by linarith)]
        linarith
      linarith
  rw [e, Real.volume_Icc, sub_zero]
  split
  · next h =>
    rw [ENNReal.toReal_ofReal]
    have : Real.exp (-x) ≤ 1 := Real.exp_le_one_iff.2 (by linarith)
    linarith
  · next h =>
    rw [ENNReal.ofReal_eq_zero.2, ENNReal.toReal_zero]
    have : 1 ≤ Real.exp (-x) := Real.one_le_exp (by linarith)
    linarith

/-- `expLaw m` is the exponential law of rate `1 / m`. -/
theorem expLaw_eq {m : ℝ} (hm : 0 < m) : expLaw m = expMeasure (1 / m) := by
  have hr : 0 < 1 / m := by positivity
  have := isProbabilityMeasure_expMeasure hr
  refine Measure.eq_of_cdf _ _ ?_
  ext x
  have hm' : Measurable fun x : ℝ => m * x := measurable_const_mul m
  rw [cdf_expMeasure_eq hr, cdf_eq_real, measureReal_def, expLaw,
    Measure.map_apply hm' measurableSet_Iic]
  have e : (fun x : ℝ => m * x) ⁻¹' Iic x = Iic (x / m) := by
    ext v
    simp only [mem_preimage, mem_Iic]
    rw [le_div_iff₀ hm, mul_comm]
  rw [e, ← measureReal_def, ← cdf_eq_real, cdf_expMeasure_eq one_pos]
  have h1 : 0 ≤ x / m ↔ 0 ≤ x := by
    constructor
    · intro h
      have := mul_nonneg h hm.le
      rwa [div_mul_cancel₀ _ hm.ne'] at this
    · intro h; positivity
  simp only [h1]
  congr 3
  field_simp

theorem expLaw_zero : expLaw 0 = Measure.dirac 0 := by
  unfold expLaw
  simp

end Verif
