import Verif.Prob.Model
import Verif.Prob.Spec

/-! # The code's probability functions compute the specified link functions -/

namespace Verif

open scoped ENNReal
open XR Spec

section basics

theorem fitProb_zero : fitProb 0 = 0 := by simp [fitProb]
theorem fitProb_top : fitProb ⊤ = 1 := by simp [fitProb]
theorem invProb_zero : invProb 0 = 0 := by simp [invProb]
theorem invProb_top : invProb ⊤ = 1 := by simp [invProb]
theorem fitProb_of_ne_top {t : ℝ≥0∞} (h : t ≠ ⊤) : fitProb t = t.toReal / (1 + t.toReal) := by
  simp [fitProb, h]
theorem invProb_of_ne_top {t : ℝ≥0∞} (h : t ≠ ⊤) : invProb t = 1 - Real.exp (-t.toReal) := by
  simp [invProb, h]

theorem one_add_toReal_pos (t : ℝ≥0∞) : 0 < 1 + t.toReal := by
  have := ENNReal.toReal_nonneg (a := t); linarith

/-- The complement of the fitness link function. -/
theorem one_sub_fitProb {t : ℝ≥0∞} (h : t ≠ ⊤) : 1 - fitProb t = 1 / (1 + t.toReal) := by
  rw [fitProb_of_ne_top h]
  have := one_add_toReal_pos t
  field_simp; ring

theorem one_sub_invProb {t : ℝ≥0∞} (h : t ≠ ⊤) : 1 - invProb t = Real.exp (-t.toReal) := by
  rw [invProb_of_ne_top h]; ring

theorem fitProb_nonneg (t : ℝ≥0∞) : 0 ≤ fitProb t := by
  by_cases h : t = ⊤
  · simp [fitProb, h]
  · rw [fitProb_of_ne_top h]
    exact div_nonneg ENNReal.toReal_nonneg (one_add_toReal_pos t).le

theorem fitProb_lt_one {t : ℝ≥0∞} (h : t ≠ ⊤) : fitProb t < 1 := by
  have h1 : 0 < 1 - fitProb t := by
    rw [one_sub_fitProb h]; exact div_pos one_pos (one_add_toReal_pos t)
  linarith

theorem fitProb_le_one (t : ℝ≥0∞) : fitProb t ≤ 1 := by
  by_cases h : t = ⊤
  · simp [fitProb, h]
  · exact (fitProb_lt_one h).le

theorem fitProb_pos {t : ℝ≥0∞} (h : t ≠ 0) : 0 < fitProb t := by
  by_cases h' : t = ⊤
  · simp [fitProb, h']
  · rw [fitProb_of_ne_top h']
    exact div_pos (ENNReal.toReal_pos h h') (one_add_toReal_pos t)

theorem invProb_nonneg (t : ℝ≥0∞) : 0 ≤ invProb t := by
  by_cases h : t = ⊤
  · simp [invProb, h]
  · rw [invProb_of_ne_top h]
    have : Real.exp (-t.toReal) ≤ 1 := Real.exp_le_one_iff.mpr (by simp)
    linarith

theorem invProb_lt_one {t : ℝ≥0∞} (h : t ≠ ⊤) : invProb t < 1 := by
  rw [invProb_of_ne_top h]
  have := Real.exp_pos (-t.toReal); linarith

theorem invProb_le_one (t : ℝ≥0∞) : invProb t ≤ 1 := by
  by_cases h : t = ⊤
  · simp [invProb, h]
  · exact (invProb_lt_one h).le

theorem invProb_pos {t : ℝ≥0∞} (h : t ≠ 0) : 0 < invProb t := by
  by_cases h' : t = ⊤
  · simp [invProb, h']
  · rw [invProb_of_ne_top h']
    have : Real.exp (-t.toReal) < 1 :=
      Real.exp_lt_one_iff.mpr (by simpa using ENNReal.toReal_pos h h')
    linarith

theorem fitProb_eq_zero_iff {t : ℝ≥0∞} : fitProb t = 0 ↔ t = 0 :=
  ⟨fun h => by by_contra h'; exact absurd h (fitProb_pos h').ne', fun h => by simp [h, fitProb]⟩
theorem fitProb_eq_one_iff {t : ℝ≥0∞} : fitProb t = 1 ↔ t = ⊤ :=
  ⟨fun h => by by_contra h'; exact absurd h (fitProb_lt_one h').ne, fun h => by simp [h, fitProb]⟩
theorem invProb_eq_zero_iff {t : ℝ≥0∞} : invProb t = 0 ↔ t = 0 :=
  ⟨fun h => by by_contra h'; exact absurd h (invProb_pos h').ne', fun h => by simp [h, invProb]⟩
theorem invProb_eq_one_iff {t : ℝ≥0∞} : invProb t = 1 ↔ t = ⊤ :=
  ⟨fun h => by by_contra h'; exact absurd h (invProb_lt_one h').ne, fun h => by simp [h, invProb]⟩

theorem fitProb_strictMono : StrictMono fitProb := by
  intro s t h
  have hs : s ≠ ⊤ := ne_top_of_lt h
  by_cases ht : t = ⊤
  · subst ht; rw [fitProb_top]; exact fitProb_lt_one hs
  · have h1 : s.toReal < t.toReal := (ENNReal.toReal_lt_toReal hs ht).2 h
    have e1 := one_sub_fitProb hs
    have e2 := one_sub_fitProb ht
    have : 1 / (1 + t.toReal) < 1 / (1 + s.toReal) :=
      one_div_lt_one_div_of_lt (one_add_toReal_pos s) (by linarith)
    linarith

theorem invProb_strictMono : StrictMono invProb := by
  intro s t h
  have hs : s ≠ ⊤ := ne_top_of_lt h
  by_cases ht : t = ⊤
  · subst ht; rw [invProb_top]; exact invProb_lt_one hs
  · have h1 : s.toReal < t.toReal := (ENNReal.toReal_lt_toReal hs ht).2 h
    rw [invProb_of_ne_top hs, invProb_of_ne_top ht]
    have : Real.exp (-t.toReal) < Real.exp (-s.toReal) := Real.exp_lt_exp.mpr (by linarith)
    linarith

theorem elog_zero : elog 0 = ninf := by simp [elog]
theorem elog_one : elog 1 = fin 0 := by simp [elog]
theorem elog_pos {p : ℝ} (h : 0 < p) : elog p = fin (Real.log p) := by simp [elog, h]

end basics

/-! ## Single steps -/

theorem fit_ladder (t : ℝ≥0∞) :
    (if (ofENN t).isInf = true then (1 : XR) else ofENN t / (1 + ofENN t)) = fin (fitProb t) := by
  by_cases h : t = ⊤
  · subst h; simp [fitProb_top, one_def]
  · rw [if_neg (by simp [h])]
    simp only [ofENN_of_ne_top h,
      one_def, fin_add_fin]
    rw [fin_div_fin _ _ (one_add_toReal_pos t).ne', fitProb_of_ne_top h]

theorem inv_ladder (t : ℝ≥0∞) :
    (if (ofENN t).isInf = true then (1 : XR) else -(XR.expm1 (-(ofENN t)))) = fin (invProb t) := by
  by_cases h : t = ⊤
  · subst h; simp [invProb_top, one_def]
  · rw [if_neg (by simp [h])]
    simp only [ofENN_of_ne_top h,
      neg_fin, expm1_fin, invProb_of_ne_top h]
    congr 1; ring

theorem fit_log_ladder {t : ℝ≥0∞} (h0 : t ≠ 0) :
    (if (ofENN t).isInf = true then (0 : XR) else XR.log (ofENN t / (1 + ofENN t)))
      = elog (fitProb t) := by
  by_cases h : t = ⊤
  · subst h; simp [fitProb_top, elog_one, zero_def]
  · have := fit_ladder t
    rw [if_neg (by simp [h])] at this ⊢
    rw [this, log_fin_pos (fitProb_pos h0), elog_pos (fitProb_pos h0)]

theorem inv_log_ladder {t : ℝ≥0∞} (h0 : t ≠ 0) :
    (if (ofENN t).isInf = true then (0 : XR) else XR.log (-(XR.expm1 (-(ofENN t)))))
      = elog (invProb t) := by
  by_cases h : t = ⊤
  · subst h; simp [invProb_top, elog_one, zero_def]
  · have := inv_ladder t
    rw [if_neg (by simp [h])] at this ⊢
    rw [this, log_fin_pos (invProb_pos h0), elog_pos (invProb_pos h0)]

theorem fit_log1m_ladder (t : ℝ≥0∞) :
    (if (ofENN t).isInf = true then ninf else XR.log1p (-(ofENN t) / (1 + ofENN t)))
      = elog (1 - fitProb t) := by
  by_cases h : t = ⊤
  · subst h; simp [fitProb_top, elog_zero]
  · have hp := one_add_toReal_pos t
    have hpos : 0 < 1 - fitProb t := by have := fitProb_lt_one h; linarith
    rw [if_neg (by simp [h])]
    simp only [ofENN_of_ne_top h,
      one_def, fin_add_fin, neg_fin]
    have e : 1 + -t.toReal / (1 + t.toReal) = 1 - fitProb t := by
      rw [fitProb_of_ne_top h]; ring
    rw [fin_div_fin _ _ hp.ne', log1p_fin_pos (by rw [e]; exact hpos), e, elog_pos hpos]

theorem inv_log1m_ladder (t : ℝ≥0∞) :
    (if (ofENN t).isInf = true then ninf else -(ofENN t)) = elog (1 - invProb t) := by
  by_cases h : t = ⊤
  · subst h; simp [invProb_top, elog_zero]
  · rw [if_neg (by simp [h])]
    simp only [ofENN_of_ne_top h,
      neg_fin]
    rw [one_sub_invProb h, elog_pos (Real.exp_pos _), Real.log_exp]

theorem neg_ofENN_mul {x y : ℝ≥0∞} (hx : x ≠ 0) (hy : y ≠ 0) :
    -(ofENN x) * ofENN y = -(ofENN (x * y)) := by
  by_cases h : x = ⊤
  · subst h
    by_cases h' : y = ⊤
    · subst h'; simp
    · rw [ENNReal.top_mul hy, ofENN_top, ofENN_of_ne_top h', neg_pinf]
      exact ninf_mul_fin_pos (ENNReal.toReal_pos hy h')
  · by_cases h' : y = ⊤
    · subst h'
      rw [ENNReal.mul_top hx, ofENN_top, ofENN_of_ne_top h, neg_pinf, neg_fin]
      exact fin_mul_pinf_neg (by simpa using ENNReal.toReal_pos hx h)
    · rw [ofENN_of_ne_top h, ofENN_of_ne_top h', ofENN_of_ne_top (ENNReal.mul_ne_top h h')]
      simp [ENNReal.toReal_mul]

/-! ## Single layer refinements -/

section single
variable (d x y z : ℝ≥0∞) (w : XR)

theorem mul4_ne_zero {d x y z : ℝ≥0∞} (hx : x ≠ 0) (hy : y ≠ 0) (hz : z ≠ 0) (hd : d ≠ 0) :
    ofENN d * ofENN x * ofENN y * ofENN z = ofENN (d * x * y * z) ∧ d * x * y * z ≠ 0 := by
  refine ⟨?_, by simp [hx, hy, hz, hd]⟩
  rw [ofENN_mul hd hx, ofENN_mul (mul_ne_zero hd hx) hy,
    ofENN_mul (mul_ne_zero (mul_ne_zero hd hx) hy) hz]

theorem mul3_ne_zero {d x y : ℝ≥0∞} (hx : x ≠ 0) (hy : y ≠ 0) (hd : d ≠ 0) :
    ofENN d * ofENN x * ofENN y = ofENN (d * x * y) ∧ d * x * y ≠ 0 := by
  refine ⟨?_, by simp [hx, hy, hd]⟩
  rw [ofENN_mul hd hx, ofENN_mul (mul_ne_zero hd hx) hy]

theorem zero_cases4 (d x y z : ℝ≥0∞) :
    ((x = 0 ∨ y = 0) ∨ z = 0) ∨ d = 0 ∨ (x ≠ 0 ∧ y ≠ 0 ∧ z ≠ 0 ∧ d ≠ 0) := by
  tauto

theorem sparse_fit_p_ij :
    Sparse.FitnessModel.p_ij (ofENN d) (ofENN x) (ofENN y) (ofENN z)
      = fin (fitProb (d * x * y * z)) := by
  unfold Sparse.FitnessModel.p_ij
  by_cases h : x = 0 ∨ y = 0 ∨ z = 0 ∨ d = 0
  · have h0 : d * x * y * z = 0 := by rcases h with h | h | h | h <;> simp [h]
    rw [if_pos (by simpa [or_assoc] using h), h0, fitProb_zero]; rfl
  · rw [if_neg (by simpa [or_assoc] using h)]
    push Not at h
    rw [(mul4_ne_zero h.1 h.2.1 h.2.2.1 h.2.2.2).1]
    exact fit_ladder _

theorem sparse_inv_p_ij :
    Sparse.ScaleInvariantModel.p_ij (ofENN d) (ofENN x) (ofENN y) (ofENN z)
      = fin (invProb (d * x * y * z)) := by
  unfold Sparse.ScaleInvariantModel.p_ij
  by_cases h : x = 0 ∨ y = 0 ∨ z = 0 ∨ d = 0
  · have h0 : d * x * y * z = 0 := by rcases h with h | h | h | h <;> simp [h]
    rw [if_pos (by simpa [or_assoc] using h), h0, invProb_zero]; rfl
  · rw [if_neg (by simpa [or_assoc] using h)]
    push Not at h
    rw [(mul4_ne_zero h.1 h.2.1 h.2.2.1 h.2.2.2).1]
    exact inv_ladder _

theorem sparse_fit_logp :
    Sparse.FitnessModel.logp (ofENN d) (ofENN x) (ofENN y) (ofENN z)
      = elog (fitProb (d * x * y * z)) := by
  unfold Sparse.FitnessModel.logp
  by_cases h : x = 0 ∨ y = 0 ∨ z = 0 ∨ d = 0
  · have h0 : d * x * y * z = 0 := by rcases h with h | h | h | h <;> simp [h]
    rw [if_pos (by simpa [or_assoc] using h), h0, fitProb_zero, elog_zero]
  · rw [if_neg (by simpa [or_assoc] using h)]
    push Not at h
    have hm := mul4_ne_zero h.1 h.2.1 h.2.2.1 h.2.2.2
    rw [hm.1]
    exact fit_log_ladder hm.2

theorem sparse_inv_logp :
    Sparse.ScaleInvariantModel.logp (ofENN d) (ofENN x) (ofENN y) (ofENN z)
      = elog (invProb (d * x * y * z)) := by
  unfold Sparse.ScaleInvariantModel.logp
  by_cases h : x = 0 ∨ y = 0 ∨ z = 0 ∨ d = 0
  · have h0 : d * x * y * z = 0 := by rcases h with h | h | h | h <;> simp [h]
    rw [if_pos (by simpa [or_assoc] using h), h0, invProb_zero, elog_zero]
  · rw [if_neg (by simpa [or_assoc] using h)]
    push Not at h
    have hm := mul4_ne_zero h.1 h.2.1 h.2.2.1 h.2.2.2
    rw [hm.1]
    exact inv_log_ladder hm.2

theorem sparse_fit_log1mp :
    Sparse.FitnessModel.log1mp (ofENN d) (ofENN x) (ofENN y) (ofENN z)
      = elog (1 - fitProb (d * x * y * z)) := by
  unfold Sparse.FitnessModel.log1mp
  by_cases h : x = 0 ∨ y = 0 ∨ z = 0 ∨ d = 0
  · have h0 : d * x * y * z = 0 := by rcases h with h | h | h | h <;> simp [h]
    rw [if_pos (by simpa [or_assoc] using h), h0, fitProb_zero, sub_zero, elog_one]; rfl
  · rw [if_neg (by simpa [or_assoc] using h)]
    push Not at h
    rw [(mul4_ne_zero h.1 h.2.1 h.2.2.1 h.2.2.2).1]
    exact fit_log1m_ladder _

theorem sparse_inv_log1mp :
    Sparse.ScaleInvariantModel.log1mp (ofENN d) (ofENN x) (ofENN y) (ofENN z)
      = elog (1 - invProb (d * x * y * z)) := by
  unfold Sparse.ScaleInvariantModel.log1mp
  by_cases h : x = 0 ∨ y = 0 ∨ z = 0 ∨ d = 0
  · have h0 : d * x * y * z = 0 := by rcases h with h | h | h | h <;> simp [h]
    rw [if_pos (by simpa [or_assoc] using h), h0, invProb_zero, sub_zero, elog_one]; rfl
  · rw [if_neg (by simpa [or_assoc] using h)]
    push Not at h
    rw [(mul4_ne_zero h.1 h.2.1 h.2.2.1 h.2.2.2).1]
    exact inv_log1m_ladder _

theorem dense_fit_p_ij :
    Dense.FitnessModel.p_ij (ofENN d) (ofENN x) (ofENN y) w = fin (fitProb (d * x * y)) := by
  unfold Dense.FitnessModel.p_ij
  by_cases h : x = 0 ∨ y = 0 ∨ d = 0
  · have h0 : d * x * y = 0 := by rcases h with h | h | h <;> simp [h]
    rw [if_pos (by simpa [or_assoc] using h), h0, fitProb_zero]; rfl
  · rw [if_neg (by simpa [or_assoc] using h)]
    push Not at h
    rw [(mul3_ne_zero h.1 h.2.1 h.2.2).1]
    exact fit_ladder _

theorem dense_inv_p_ij :
    Dense.ScaleInvariantModel.p_ij (ofENN d) (ofENN x) (ofENN y) w
      = fin (invProb (d * x * y)) := by
  unfold Dense.ScaleInvariantModel.p_ij
  by_cases h : x = 0 ∨ y = 0 ∨ d = 0
  · have h0 : d * x * y = 0 := by rcases h with h | h | h <;> simp [h]
    rw [if_pos (by simpa [or_assoc] using h), h0, invProb_zero]; rfl
  · rw [if_neg (by simpa [or_assoc] using h)]
    push Not at h
    rw [(mul3_ne_zero h.1 h.2.1 h.2.2).1]
    exact inv_ladder _

theorem dense_fit_logp :
    Dense.FitnessModel.logp (ofENN d) (ofENN x) (ofENN y) w = elog (fitProb (d * x * y)) := by
  unfold Dense.FitnessModel.logp
  by_cases h : x = 0 ∨ y = 0 ∨ d = 0
  · have h0 : d * x * y = 0 := by rcases h with h | h | h <;> simp [h]
    rw [if_pos (by simpa [or_assoc] using h), h0, fitProb_zero, elog_zero]
  · rw [if_neg (by simpa [or_assoc] using h)]
    push Not at h
    have hm := mul3_ne_zero h.1 h.2.1 h.2.2
    rw [hm.1]
    exact fit_log_ladder hm.2

theorem dense_inv_logp :
    Dense.ScaleInvariantModel.logp (ofENN d) (ofENN x) (ofENN y) w
      = elog (invProb (d * x * y)) := by
  unfold Dense.ScaleInvariantModel.logp
  by_cases h : x = 0 ∨ y = 0 ∨ d = 0
  · have h0 : d * x * y = 0 := by rcases h with h | h | h <;> simp [h]
    rw [if_pos (by simpa [or_assoc] using h), h0, invProb_zero, elog_zero]
  · rw [if_neg (by simpa [or_assoc] using h)]
    push Not at h
    have hm := mul3_ne_zero h.1 h.2.1 h.2.2
    rw [hm.1]
    exact inv_log_ladder hm.2

theorem dense_fit_log1mp :
    Dense.FitnessModel.log1mp (ofENN d) (ofENN x) (ofENN y) w
      = elog (1 - fitProb (d * x * y)) := by
  unfold Dense.FitnessModel.log1mp
  by_cases h : x = 0 ∨ y = 0 ∨ d = 0
  · have h0 : d * x * y = 0 := by rcases h with h | h | h <;> simp [h]
    rw [if_pos (by simpa [or_assoc] using h), h0, fitProb_zero, sub_zero, elog_one]; rfl
  · rw [if_neg (by simpa [or_assoc] using h)]
    push Not at h
    rw [(mul3_ne_zero h.1 h.2.1 h.2.2).1]
    exact fit_log1m_ladder _

theorem spark_inv_log1mp :
    Spark.ScaleInvariantModel.log1mp (ofENN d) (ofENN x) (ofENN y) w
      = elog (1 - invProb (d * x * y)) := by
  unfold Spark.ScaleInvariantModel.log1mp
  by_cases h : x = 0 ∨ y = 0 ∨ d = 0
  · have h0 : d * x * y = 0 := by rcases h with h | h | h <;> simp [h]
    rw [if_pos (by simpa [or_assoc] using h), h0, invProb_zero, sub_zero, elog_one]; rfl
  · rw [if_neg (by simpa [or_assoc] using h)]
    push Not at h
    rw [(mul3_ne_zero h.1 h.2.1 h.2.2).1]
    exact inv_log1m_ladder _

theorem dense_inv_log1mp :
    Dense.ScaleInvariantModel.log1mp (ofENN d) (ofENN x) (ofENN y) w
      = elog (1 - invProb (d * x * y)) := by
  unfold Dense.ScaleInvariantModel.log1mp
  by_cases h : x = 0 ∨ y = 0 ∨ d = 0
  · have h0 : d * x * y = 0 := by rcases h with h | h | h <;> simp [h]
    rw [if_pos (by simpa [or_assoc] using h), h0, invProb_zero, sub_zero, elog_one]; rfl
  · rw [if_neg (by simpa [or_assoc] using h)]
    push Not at h
    rw [neg_ofENN_mul h.2.2 h.1, neg_ofENN_mul (mul_ne_zero h.2.2 h.1) h.2.1,
      ← inv_log1m_ladder]
    by_cases ht : d * x * y = ⊤
    · simp [ht]
    · simp [ht]

end single

end Verif
