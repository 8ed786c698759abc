import Verif.Round.Jac

/-!
# Accuracy of the function handed to the solver: pairs and sums
-/

namespace Verif

namespace Round

open XR

/-- Properties of vertices lie between `1 / root` and `root`. -/
noncomputable def root : ℝ := (2 : ℝ) ^ (33 : ℤ)

/-- A property of a vertex is zero or of moderate size. -/
def Sized (x : ℝ) : Prop := x = 0 ∨ (1 / root ≤ x ∧ x ≤ root)

theorem root_ge : 1000 ≤ root := by unfold root; norm_num

theorem root_pos : 0 < root := by linarith [root_ge]

theorem root3_le : root ^ 3 ≤ big := by
  unfold root big
  rw [← zpow_natCast, ← zpow_mul]
  exact zpow_le_zpow_right₀ (by norm_num) (by norm_num)

theorem mid_of {v : ℝ} (h1 : 1 / root ^ 3 ≤ v) (h2 : v ≤ root ^ 3) : Mid v :=
  ⟨(one_div_le_one_div_of_le (pow_pos root_pos 3) root3_le).trans h1, h2.trans root3_le⟩

theorem pair_range {x y : ℝ} (hx : 1 / root ≤ x ∧ x ≤ root) (hy : 1 / root ≤ y ∧ y ≤ root) :
    1 / root ^ 2 ≤ x * y ∧ x * y ≤ root ^ 2 := by
  have r0 := root_pos
  have x0 : 0 < x := lt_of_lt_of_le (by positivity) hx.1
  have y0 : 0 < y := lt_of_lt_of_le (by positivity) hy.1
  constructor
  · calc 1 / root ^ 2 = 1 / root * (1 / root) := by field_simp
      _ ≤ x * y := mul_le_mul hx.1 hy.1 (by positivity) x0.le
  · calc x * y ≤ root * root := mul_le_mul hx.2 hy.2 y0.le r0.le
      _ = root ^ 2 := by ring

theorem triple_range {x y z : ℝ} (hx : 1 / root ≤ x ∧ x ≤ root) (hy : 1 / root ≤ y ∧ y ≤ root)
    (hz : 1 / root ≤ z ∧ z ≤ root) : 1 / root ^ 3 ≤ x * y * z ∧ x * y * z ≤ root ^ 3 := by
  have r0 := root_pos
  obtain ⟨h1, h2⟩ := pair_range hx hy
  have z0 : 0 < z := lt_of_lt_of_le (by positivity) hz.1
  have xy0 : 0 < x * y := lt_of_lt_of_le (by positivity) h1
  constructor
  · calc 1 / root ^ 3 = 1 / root ^ 2 * (1 / root) := by field_simp
      _ ≤ x * y * z := mul_le_mul h1 hz.1 (by positivity) xy0.le
  · calc x * y * z ≤ root ^ 2 * root := mul_le_mul h2 hz.2 z0.le (by positivity)
      _ = root ^ 3 := by ring

theorem pair_mid {x y : ℝ} (hx : 1 / root ≤ x ∧ x ≤ root) (hy : 1 / root ≤ y ∧ y ≤ root) :
    Mid (x * y) := by
  have R := root_ge
  have h23 : root ^ 2 ≤ root ^ 3 := pow_le_pow_right₀ (by linarith) (by norm_num)
  obtain ⟨h1, h2⟩ := pair_range hx hy
  exact mid_of ((one_div_le_one_div_of_le (pow_pos root_pos 2) h23).trans h1) (h2.trans h23)

theorem Mid.ok {v : ℝ} (h : Mid v) : (2 : ℝ) ^ (-1000 : ℤ) ≤ v ∧ v ≤ (2 : ℝ) ^ (1000 : ℤ) := by
  have B := big_ge
  have h2 : big ≤ big ^ 2 := le_self_pow₀ (by linarith) (by norm_num)
  exact prod_ok ⟨(one_div_le_one_div_of_le big_pos h2).trans h.1, h.2.trans h2⟩

/-- The factor of a pair computed by the sparse models. -/
theorem tmp3 {x y z : ℝ} (hx : 1 / root ≤ x ∧ x ≤ root) (hy : 1 / root ≤ y ∧ y ≤ root)
    (hz : 1 / root ≤ z ∧ z ≤ root) :
    ∃ w ∈ doubles, prod3 binary64 (fin x) (fin y) (fin z) = fin w ∧
      Within (2.1 * ulp2) (x * y * z) w := by
  have r0 := root_pos
  have pos : ∀ {v : ℝ}, 1 / root ≤ v ∧ v ≤ root → 0 < v := fun h => lt_of_lt_of_le (by positivity) h.1
  obtain ⟨h1, h2⟩ := triple_range hx hy hz
  exact prod3_within (pos hx) (pos hy) (pos hz) (pair_mid hx hy).ok (mid_of h1 h2).ok

/-- The factor of a pair computed by the dense models. -/
theorem tmp2 {x y : ℝ} (hx : 1 / root ≤ x ∧ x ≤ root) (hy : 1 / root ≤ y ∧ y ≤ root) :
    ∃ w ∈ doubles, binary64.mul (fin x) (fin y) = fin w ∧ Within (2.1 * ulp2) (x * y) w := by
  have B := big_ge
  have u0 := ulp2_pos
  have hm := pair_mid hx hy
  have b5 : big ≤ big ^ 5 := le_self_pow₀ (by linarith) (by norm_num)
  obtain ⟨w, wm, ew, hw⟩ := range_within (v := x * y)
    ((one_div_le_one_div_of_le big_pos b5).trans hm.1) (hm.2.trans b5)
  exact ⟨w, wm, ew, hw.mono hm.pos.le (by linarith)⟩

/-- Probability and derivative of a pair are computed accurately. -/
def PairAcc (r : XR × XR) (P P' : ℝ) : Prop :=
  ∃ p ∈ doubles, ∃ q ∈ doubles, r = (fin p, fin q) ∧ 0 ≤ P ∧ P ≤ 1 ∧ 0 ≤ P' ∧ P' ≤ root ^ 3 ∧
    Within (218 * ulp2) P p ∧ Within (218 * ulp2) P' q

theorem PairAcc.zero : PairAcc (0, 0) 0 0 :=
  ⟨0, Faithful.binary64.zero_mem, 0, Faithful.binary64.zero_mem, rfl, le_rfl, zero_le_one, le_rfl,
    (pow_pos root_pos 3).le, by simp [Within], by simp [Within]⟩

theorem not_zero {v : ℝ} (h : 0 < v) : (fin v).isZero = false := isZero_eq_false h.ne'

theorem pos_of_sized {v : ℝ} (h : 1 / root ≤ v ∧ v ≤ root) : 0 < v :=
  lt_of_lt_of_le (by have := root_pos; positivity) h.1

theorem fit_acc {c d tmp : ℝ} (h1 : 1 / root ^ 3 ≤ c) (h2 : c ≤ root ^ 3) (hd : d = 0 ∨ Mid d)
    (tm : tmp ∈ doubles) (ht : Within (2.1 * ulp2) c tmp) :
    PairAcc (if (fin d).isZero then (0, fin tmp)
      else
        let tmp1 := binary64.mul (fin d) (fin tmp)
        if tmp1.isInf then (1, 0)
        else (binary64.div tmp1 (binary64.add 1 tmp1),
          binary64.div (fin tmp) (binary64.mul (binary64.add 1 tmp1) (binary64.add 1 tmp1))))
      (d * c / (1 + d * c)) (c / ((1 + d * c) * (1 + d * c))) := by
  have u0 := ulp2_pos
  have hc := mid_of h1 h2
  have c0 := hc.pos
  rcases hd with rfl | hd
  · rw [if_pos (by simp)]
    refine ⟨0, Faithful.binary64.zero_mem, tmp, tm, rfl, by simp, by simp, by simpa using c0.le,
      by simpa using h2, by simp [Within], ?_⟩
    simp only [zero_mul, add_zero, one_mul, div_one]
    exact ht.mono c0.le (by linarith)
  · have d0 := hd.pos
    have hdc : 0 < d * c := mul_pos d0 c0
    rw [if_neg (by simp [d0.ne'])]
    obtain ⟨w, ew, p, pm, q, qm, ep, eq, hp, hq⟩ := core_fit hc hd ht
    simp only [ew, ep, eq]
    refine ⟨p, pm, q, qm, by rw [if_neg (by simp [isInf])], by positivity, ?_, by positivity, ?_, hp,
      hq⟩
    · rw [div_le_one (by linarith)]; linarith
    · refine le_trans (div_le_self c0.le ?_) h2
      nlinarith

theorem inv_acc {c d tmp : ℝ} (h1 : 1 / root ^ 3 ≤ c) (h2 : c ≤ root ^ 3) (hd : d = 0 ∨ Mid d)
    (h64 : d * c ≤ 64) (tm : tmp ∈ doubles) (ht : Within (2.1 * ulp2) c tmp) :
    PairAcc (if (fin d).isZero then (0, fin tmp)
      else
        let tmp1 := binary64.mul (fin d) (fin tmp)
        if tmp1.isInf then (1, 0)
        else (-(binary64.expm1 (-tmp1)), binary64.mul (fin tmp) (binary64.exp (-tmp1))))
      (1 - Real.exp (-(d * c))) (c * Real.exp (-(d * c))) := by
  have u0 := ulp2_pos
  have hc := mid_of h1 h2
  have c0 := hc.pos
  rcases hd with rfl | hd
  · rw [if_pos (by simp)]
    refine ⟨0, Faithful.binary64.zero_mem, tmp, tm, rfl, by simp, by simp, by simpa using c0.le,
      by simpa using h2, by simp [Within], ?_⟩
    simp only [zero_mul, neg_zero, Real.exp_zero, mul_one]
    exact ht.mono c0.le (by linarith)
  · have d0 := hd.pos
    have hdc : 0 < d * c := mul_pos d0 c0
    rw [if_neg (by simp [d0.ne'])]
    obtain ⟨w, ew, p, pm, q, qm, ep, eq, hp, hq⟩ := core_inv hc hd h64 ht
    simp only [ew, ep, eq]
    have x1 := Real.exp_pos (-(d * c))
    have x2 : Real.exp (-(d * c)) ≤ 1 := Real.exp_le_one_iff.2 (by linarith)
    refine ⟨p, pm, q, qm, by rw [if_neg (by simp [isInf])], by linarith, by linarith,
      mul_nonneg c0.le x1.le, ?_, hp, hq⟩
    nlinarith

theorem sparse_fit_jac {d x y z : ℝ} (hd : d = 0 ∨ Mid d) (hx : Sized x) (hy : Sized y)
    (hz : Sized z) :
    PairAcc (Sparse.FitnessModel.p_jac_ij binary64 (fin d) (fin x) (fin y) (fin z))
      (d * (x * y * z) / (1 + d * (x * y * z)))
      (x * y * z / ((1 + d * (x * y * z)) * (1 + d * (x * y * z)))) := by
  unfold Sparse.FitnessModel.p_jac_ij
  rcases hx with rfl | hx
  · rw [if_pos (by simp)]; simpa using PairAcc.zero
  rcases hy with rfl | hy
  · rw [if_pos (by simp)]; simpa using PairAcc.zero
  rcases hz with rfl | hz
  · rw [if_pos (by simp)]; simpa using PairAcc.zero
  have hg : ((fin x).isZero || (fin y).isZero || (fin z).isZero) = false := by
    rw [not_zero (pos_of_sized hx), not_zero (pos_of_sized hy), not_zero (pos_of_sized hz)]; rfl
  obtain ⟨w, wm, ew, hw⟩ := tmp3 hx hy hz
  obtain ⟨h1, h2⟩ := triple_range hx hy hz
  rw [hg]
  simp only [ew]
  exact fit_acc h1 h2 hd wm hw

theorem sparse_inv_jac {d x y z : ℝ} (hd : d = 0 ∨ Mid d) (hx : Sized x) (hy : Sized y)
    (hz : Sized z) (h64 : d * (x * y * z) ≤ 64) :
    PairAcc (Sparse.ScaleInvariantModel.p_jac_ij binary64 (fin d) (fin x) (fin y) (fin z))
      (1 - Real.exp (-(d * (x * y * z)))) (x * y * z * Real.exp (-(d * (x * y * z)))) := by
  unfold Sparse.ScaleInvariantModel.p_jac_ij
  rcases hx with rfl | hx
  · rw [if_pos (by simp)]; simpa using PairAcc.zero
  rcases hy with rfl | hy
  · rw [if_pos (by simp)]; simpa using PairAcc.zero
  rcases hz with rfl | hz
  · rw [if_pos (by simp)]; simpa using PairAcc.zero
  have hg : ((fin x).isZero || (fin y).isZero || (fin z).isZero) = false := by
    rw [not_zero (pos_of_sized hx), not_zero (pos_of_sized hy), not_zero (pos_of_sized hz)]; rfl
  obtain ⟨w, wm, ew, hw⟩ := tmp3 hx hy hz
  obtain ⟨h1, h2⟩ := triple_range hx hy hz
  rw [hg]
  simp only [ew]
  exact inv_acc h1 h2 hd h64 wm hw

theorem pair_range3 {x y : ℝ} (hx : 1 / root ≤ x ∧ x ≤ root) (hy : 1 / root ≤ y ∧ y ≤ root) :
    1 / root ^ 3 ≤ x * y ∧ x * y ≤ root ^ 3 := by
  have R := root_ge
  have r0 := root_pos
  have := triple_range hx hy (z := 1) ⟨by rw [div_le_one r0]; linarith, by linarith⟩
  simpa using this

theorem dense_fit_jac {d x y : ℝ} (hd : d = 0 ∨ Mid d) (hx : Sized x) (hy : Sized y) :
    PairAcc (Dense.FitnessModel.p_jac_ij binary64 (fin d) (fin x) (fin y))
      (d * (x * y) / (1 + d * (x * y))) (x * y / ((1 + d * (x * y)) * (1 + d * (x * y)))) := by
  unfold Dense.FitnessModel.p_jac_ij
  rcases hx with rfl | hx
  · rw [if_pos (by simp)]; simpa using PairAcc.zero
  rcases hy with rfl | hy
  · rw [if_pos (by simp)]; simpa using PairAcc.zero
  have hg : ((fin x).isZero || (fin y).isZero) = false := by
    rw [not_zero (pos_of_sized hx), not_zero (pos_of_sized hy)]; rfl
  obtain ⟨w, wm, ew, hw⟩ := tmp2 hx hy
  obtain ⟨h1, h2⟩ := pair_range3 hx hy
  rw [hg]
  simp only [ew]
  exact fit_acc h1 h2 hd wm hw

theorem dense_inv_jac {d x y : ℝ} (hd : d = 0 ∨ Mid d) (hx : Sized x) (hy : Sized y)
    (h64 : d * (x * y) ≤ 64) :
    PairAcc (Dense.ScaleInvariantModel.p_jac_ij binary64 (fin d) (fin x) (fin y))
      (1 - Real.exp (-(d * (x * y)))) (x * y * Real.exp (-(d * (x * y)))) := by
  unfold Dense.ScaleInvariantModel.p_jac_ij
  rcases hx with rfl | hx
  · rw [if_pos (by simp)]; simpa using PairAcc.zero
  rcases hy with rfl | hy
  · rw [if_pos (by simp)]; simpa using PairAcc.zero
  have hg : ((fin x).isZero || (fin y).isZero) = false := by
    rw [not_zero (pos_of_sized hx), not_zero (pos_of_sized hy)]; rfl
  obtain ⟨w, wm, ew, hw⟩ := tmp2 hx hy
  obtain ⟨h1, h2⟩ := pair_range3 hx hy
  rw [hg]
  simp only [ew]
  exact inv_acc h1 h2 hd h64 wm hw

/-! ## Sums over the pairs -/

/-- `k` terms have been added: `a` is the computed sum, `E` the exact one, `M` bounds the terms. -/
def SumAcc (M : ℝ) (k : ℕ) (a E : ℝ) : Prop :=
  a ∈ doubles ∧ 0 ≤ a ∧ 0 ≤ E ∧ E ≤ k * M ∧
    E * ((1 - 218 * ulp2) * (1 - ulp2) ^ k) ≤ a ∧ a ≤ E * ((1 + 218 * ulp2) * (1 + ulp2) ^ k)

theorem pow_small {k : ℕ} (hk : k * ulp2 ≤ 0.005) :
    (1 + ulp2) ^ k ≤ 1 + 1.01 * (k * ulp2) ∧ 1 - k * ulp2 ≤ (1 - ulp2) ^ k := by
  have u0 := ulp2_pos
  have us := ulp2_small
  constructor
  · have h1 : 1 - k * ulp2 ≤ (1 - ulp2) ^ k := by
      have := one_add_mul_le_pow (a := -ulp2) (by linarith) k
      have e : 1 + -ulp2 = 1 - ulp2 := by ring
      rw [e] at this
      linarith
    have h2 : (1 + ulp2) ^ k * (1 - ulp2) ^ k ≤ 1 := by
      rw [← mul_pow]
      exact pow_le_one₀ (by nlinarith) (by nlinarith)
    have h3 : 0 ≤ (1 + ulp2) ^ k := pow_nonneg (by linarith) k
    have h4 : (1 + ulp2) ^ k * (1 - k * ulp2) ≤ 1 := (mul_le_mul_of_nonneg_left h1 h3).trans h2
    have h5 : 0 ≤ (k : ℝ) * ulp2 := by positivity
    have h6 : 1 ≤ (1 + 1.01 * (k * ulp2)) * (1 - k * ulp2) := by nlinarith
    have h7 : 0 < 1 - k * ulp2 := by linarith
    exact le_of_mul_le_mul_right (h4.trans h6) h7
  · have := one_add_mul_le_pow (a := -ulp2) (by linarith) k
    have e : 1 + -ulp2 = 1 - ulp2 := by ring
    rw [e] at this
    linarith

theorem SumAcc.add {M : ℝ} (M0 : 0 ≤ M) (M1 : M ≤ big) {k : ℕ} (hk : ((k + 1 : ℕ) : ℝ) * ulp2 ≤ 0.005)
    {a E p q : ℝ} (h : SumAcc M k a E) (pm : p ∈ doubles) (q0 : 0 ≤ q) (qM : q ≤ M)
    (hq : Within (218 * ulp2) q p) :
    ∃ s, binary64.add (fin a) (fin p) = fin s ∧ SumAcc M (k + 1) s (E + q) := by
  have u0 := ulp2_pos
  have us := ulp2_small
  have B := big_ge
  obtain ⟨am, a0, E0, Ek, s1, s2⟩ := h
  have p0 : 0 ≤ p := hq.nonneg q0 (by linarith)
  push_cast at hk
  have hk' : (k : ℝ) * ulp2 ≤ 0.005 := by linarith
  have kb : (k : ℝ) ≤ big := by
    have h1 : (k : ℝ) * ulp2 * (2 : ℝ) ^ (53 : ℤ) ≤ 1 * (2 : ℝ) ^ (53 : ℤ) :=
      mul_le_mul_of_nonneg_right (by linarith) (by positivity)
    have h2 : ulp2 * (2 : ℝ) ^ (53 : ℤ) = 1 := by
      unfold ulp2; rw [← zpow_add₀ two_ne_zero]; norm_num
    rw [mul_assoc, h2, mul_one, one_mul] at h1
    exact h1.trans (zpow_le_zpow_right₀ (by norm_num) (by norm_num))
  obtain ⟨w1, _⟩ := pow_small hk'
  have hE2 : a ≤ 2 * big ^ 2 := by
    refine s2.trans ?_
    have h1 : (1 + 218 * ulp2) * (1 + ulp2) ^ k ≤ 2 := by
      have : (0 : ℝ) ≤ (k : ℝ) * ulp2 := by positivity
      calc (1 + 218 * ulp2) * (1 + ulp2) ^ k ≤ (1 + 218 * ulp2) * (1 + 1.01 * (k * ulp2)) :=
            mul_le_mul_of_nonneg_left w1 (by linarith)
        _ ≤ 2 := by nlinarith
    have h2 : E ≤ big ^ 2 := by
      refine Ek.trans ?_
      rw [pow_two]
      exact mul_le_mul kb M1 M0 (by linarith)
    calc E * ((1 + 218 * ulp2) * (1 + ulp2) ^ k) ≤ E * 2 := mul_le_mul_of_nonneg_left h1 E0
      _ ≤ 2 * big ^ 2 := by linarith
  have hp2 : p ≤ 2 * big := by
    refine hq.2.trans ?_
    calc q * (1 + 218 * ulp2) ≤ q * 2 := mul_le_mul_of_nonneg_left (by linarith) q0
      _ ≤ 2 * big := by linarith
  have b5 : 2 * big ^ 2 + 2 * big ≤ big ^ 5 := by
    have h1 : big ≤ big ^ 2 := le_self_pow₀ (by linarith) (by norm_num)
    have h2 : big ^ 5 = big ^ 3 * big ^ 2 := by ring
    have h3 : 4 ≤ big ^ 3 := le_trans (by linarith) (le_self_pow₀ (by linarith) (by norm_num))
    nlinarith
  obtain ⟨s, sm, es, g1, g2⟩ := add_step (a := 218 * ulp2) (by linarith) (by linarith) am pm a0 p0 q0
    ⟨s1, s2⟩ hq (big_le_top (by linarith))
  refine ⟨s, es, sm, ?_, by linarith, ?_, g1, g2⟩
  · refine le_trans ?_ g1
    exact mul_nonneg (by linarith) (mul_nonneg (by linarith) (pow_nonneg (by linarith) _))
  · push_cast
    linarith

/-- Both sums. -/
def Both (k : ℕ) (c e : XR × XR) : Prop :=
  ∃ a b E G, c = (fin a, fin b) ∧ e = (fin E, fin G) ∧ SumAcc 1 k a E ∧ SumAcc (root ^ 3) k b G

theorem fold_both {ι : Type} (l : List ι) (adm : ι → Bool) (p q : ι → XR × XR)
    (h : ∀ x ∈ l, ∃ P P', q x = (fin P, fin P') ∧ PairAcc (p x) P P') :
    ∀ (k : ℕ) (c e : XR × XR), Both k c e → ((k + l.length : ℕ) : ℝ) * ulp2 ≤ 0.005 →
      ∃ m ≤ k + l.length, Both m
        (l.foldl (fun s x => if adm x then (binary64.add s.1 (p x).1, binary64.add s.2 (p x).2)
          else s) c)
        (l.foldl (fun s x => if adm x then (s.1 + (q x).1, s.2 + (q x).2) else s) e) := by
  have u0 := ulp2_pos
  have B := big_ge
  induction l with
  | nil => intro k c e h _; exact ⟨k, by simp, by simpa using h⟩
  | cons x l ih =>
    intro k c e hs hk
    rw [List.foldl_cons, List.foldl_cons]
    rw [List.length_cons] at hk ⊢
    have mono : ∀ m : ℕ, m ≤ k + (l.length + 1) → (m : ℝ) * ulp2 ≤ 0.005 := by
      intro m hm
      have : (m : ℝ) ≤ ((k + (l.length + 1) : ℕ) : ℝ) := by exact_mod_cast hm
      nlinarith
    by_cases hx : adm x
    · rw [if_pos hx, if_pos hx]
      have : Both (k + 1) (binary64.add c.1 (p x).1, binary64.add c.2 (p x).2)
          (e.1 + (q x).1, e.2 + (q x).2) := by
        obtain ⟨a, b, E, G, rfl, rfl, h1, h2⟩ := hs
        obtain ⟨P, P', eq, r, rm, t, tm, ep, P0, P1, P'0, P'1, hp, hp'⟩ := h x (by simp)
        rw [eq, ep]
        obtain ⟨s, es, hs⟩ := h1.add zero_le_one (by linarith) (mono _ (by omega)) rm P0 P1 hp
        obtain ⟨s', es', hs'⟩ := h2.add (pow_pos root_pos 3).le root3_le (mono _ (by omega)) tm P'0 P'1
          hp'
        exact ⟨s, s', E + P, G + P', by simp only [es, es'], rfl, hs, hs'⟩
      obtain ⟨m, hm, hb⟩ := ih (fun x hx => h x (by simp [hx])) (k + 1) _ _ this (mono _ (by omega))
      exact ⟨m, by omega, hb⟩
    · rw [if_neg hx, if_neg hx]
      obtain ⟨m, hm, hb⟩ := ih (fun x hx => h x (by simp [hx])) k c e hs (mono _ (by omega))
      exact ⟨m, by omega, hb⟩

/-- The relative error of the computed expected number of edges and of its derivative. -/
noncomputable def relErr (n : ℕ) : ℝ := 1.1 * (((n * n : ℕ) : ℝ) + 300) * ulp2

/-- Expected number of edges and derivative, computed in double precision. -/
theorem exp_edges_f_jac_acc {pj qj : XR → ℕ → ℕ → XR × XR} {n : ℕ} {sl : Bool} {d : ℝ}
    (hn : 20 * (((n * n : ℕ) : ℝ) + 300) * ulp2 ≤ 1 / 10)
    (h : ∀ i < n, ∀ j < n, ∃ P P', qj (fin d) i j = (fin P, fin P') ∧
      PairAcc (pj (fin d) i j) P P') :
    ∃ a ∈ doubles, ∃ b ∈ doubles, ∃ E G,
      exp_edges_f_jac binary64 pj n sl (fin d) = (fin a, fin b) ∧
      Fit.exp_edges_f_jac qj n sl (fin d) = (fin E, fin G) ∧
      Within (relErr n) E a ∧ Within (relErr n) G b := by
  have u0 := ulp2_pos
  have us := ulp2_small
  have hnn : ((n * n : ℕ) : ℝ) * ulp2 ≤ 0.005 := by linarith
  have small : ∀ m : ℕ, m ≤ n * n → (m : ℝ) * ulp2 ≤ 0.005 := by
    intro m hm
    have : (m : ℝ) ≤ ((n * n : ℕ) : ℝ) := by exact_mod_cast hm
    nlinarith
  have key : ∀ m ≤ n, ∃ k ≤ m * n, Both k
      ((List.range m).foldl (fun s i => (List.range n).foldl (fun s j =>
        if admissible i j sl then
          (binary64.add s.1 (pj (fin d) i j).1, binary64.add s.2 (pj (fin d) i j).2)
        else s) s) (0, 0))
      ((List.range m).foldl (fun s i => (List.range n).foldl (fun s j =>
        if admissible i j sl then (s.1 + (qj (fin d) i j).1, s.2 + (qj (fin d) i j).2)
        else s) s) (0, 0)) := by
    intro m
    induction m with
    | zero =>
      intro _
      exact ⟨0, by simp, 0, 0, 0, 0, rfl, rfl,
        ⟨Faithful.binary64.zero_mem, le_rfl, le_rfl, by simp, by simp, by simp⟩,
        ⟨Faithful.binary64.zero_mem, le_rfl, le_rfl, by simp, by simp, by simp⟩⟩
    | succ m ih =>
      intro hm
      obtain ⟨k, hk, hb⟩ := ih (by omega)
      rw [List.range_succ, List.foldl_append, List.foldl_append]
      have hle : (m + 1) * n ≤ n * n := Nat.mul_le_mul_right n hm
      rw [Nat.succ_mul] at hle ⊢
      obtain ⟨k', hk', hb'⟩ := fold_both (List.range n) (fun j => admissible m j sl)
        (fun j => pj (fin d) m j) (fun j => qj (fin d) m j)
        (fun j hj => h m (by omega) j (List.mem_range.1 hj)) k _ _ hb
        (small _ (by rw [List.length_range]; omega))
      rw [List.length_range] at hk'
      exact ⟨k', by omega, hb'⟩
  obtain ⟨k, hk, a, b, E, G, e1, e2, h1, h2⟩ := key n le_rfl
  have fin_acc : ∀ {M a E : ℝ}, SumAcc M k a E → Within (relErr n) E a := by
    rintro M a E ⟨_, _, E0, _, s1, s2⟩
    have hk' : (k : ℝ) ≤ ((n * n : ℕ) : ℝ) := by exact_mod_cast hk
    have hku : (k : ℝ) * ulp2 ≤ ((n * n : ℕ) : ℝ) * ulp2 := mul_le_mul_of_nonneg_right hk' u0.le
    have hku0 : 0 ≤ (k : ℝ) * ulp2 := by positivity
    obtain ⟨w1, w2⟩ := pow_small (small k hk)
    have e : relErr n = 1.1 * (((n * n : ℕ) : ℝ) * ulp2) + 330 * ulp2 := by unfold relErr; ring
    constructor
    · refine le_trans (mul_le_mul_of_nonneg_left ?_ E0) s1
      rw [e]
      have : (1 - 218 * ulp2) * (1 - k * ulp2) ≤ (1 - 218 * ulp2) * (1 - ulp2) ^ k :=
        mul_le_mul_of_nonneg_left w2 (by linarith)
      nlinarith
    · refine s2.trans (mul_le_mul_of_nonneg_left ?_ E0)
      rw [e]
      have : (1 + 218 * ulp2) * (1 + ulp2) ^ k ≤ (1 + 218 * ulp2) * (1 + 1.01 * (k * ulp2)) :=
        mul_le_mul_of_nonneg_left w1 (by linarith)
      nlinarith
  exact ⟨a, h1.1, b, h2.1, E, G, e1, e2, fin_acc h1, fin_acc h2⟩

end Round

end Verif
