import Mathlib.Analysis.SpecialFunctions.ExpDeriv
import Mathlib.Analysis.Complex.Exponential
import Mathlib.Analysis.Convex.SpecificFunctions.Basic
import Mathlib.Analysis.Calculus.Deriv.MeanValue
import Mathlib.Analysis.Calculus.Deriv.Inv
import Mathlib.Tactic.Linarith
import Mathlib.Tactic.Positivity
import Mathlib.Tactic.FieldSimp

/-!
# The ratio `(1 - exp (-d a)) / (1 - exp (-d b))`

Probability of a link with product of properties `a` given that its block, with sum of products
`b ≥ a`, is not empty, as a function of the parameter `d`.
-/

namespace Verif.Cond

noncomputable section

open Real Filter Topology

/-- `(1 - exp (-d a)) / (1 - exp (-d b))`, extended to `d = 0`. -/
def ratio (a b d : ℝ) : ℝ := if d = 0 then a / b else (1 - exp (-(d * a))) / (1 - exp (-(d * b)))

/-- Its derivative. -/
def ratio' (a b d : ℝ) : ℝ :=
  if d = 0 then (1 / 2 - a / (2 * b)) * a
  else a * exp (-(d * a)) / (1 - exp (-(d * b)))
    - b * exp (-(d * b)) * (1 - exp (-(d * a))) / (1 - exp (-(d * b))) ^ 2

theorem one_sub_exp_pos {t : ℝ} (h : 0 < t) : 0 < 1 - exp (-t) := by
  have : exp (-t) < 1 := by rw [exp_lt_one_iff]; linarith
  linarith

theorem one_sub_exp_le (t : ℝ) : 1 - exp (-t) ≤ t := by
  have := add_one_le_exp (-t)
  linarith

theorem mul_exp_le (t : ℝ) : t * exp (-t) ≤ 1 - exp (-t) := by
  have h := add_one_le_exp t
  have h2 : exp (-t) * exp t = 1 := by rw [← exp_add]; simp
  have := mul_le_mul_of_nonneg_left h (exp_pos (-t)).le
  rw [h2] at this
  linarith

/-- Convexity of the exponential between `0` and `t`. -/
theorem exp_chord {c : ℝ} (h0 : 0 ≤ c) (h1 : c ≤ 1) (t : ℝ) :
    exp (c * t) ≤ 1 - c + c * exp t := by
  have := convexOn_exp.2 (Set.mem_univ (0 : ℝ)) (Set.mem_univ t) (sub_nonneg.2 h1) h0 (by ring)
  simpa using this

theorem exp_chord_lt {c : ℝ} (h0 : 0 < c) (h1 : c < 1) {t : ℝ} (ht : t ≠ 0) :
    exp (c * t) < 1 - c + c * exp t := by
  have := strictConvexOn_exp.2 (Set.mem_univ (0 : ℝ)) (Set.mem_univ t) (Ne.symm ht)
    (sub_pos.2 h1) h0 (by ring)
  simpa using this

section
variable {a b : ℝ}

theorem ratio_zero : ratio a b 0 = a / b := if_pos rfl

theorem ratio_of_ne {d : ℝ} (h : d ≠ 0) :
    ratio a b d = (1 - exp (-(d * a))) / (1 - exp (-(d * b))) := if_neg h

theorem ratio'_of_ne {d : ℝ} (h : d ≠ 0) :
    ratio' a b d = a * exp (-(d * a)) / (1 - exp (-(d * b)))
    - b * exp (-(d * b)) * (1 - exp (-(d * a))) / (1 - exp (-(d * b))) ^ 2 := if_neg h

theorem ratio_ge (ha : 0 < a) (hab : a ≤ b) {d : ℝ} (hd : 0 ≤ d) : a / b ≤ ratio a b d := by
  have hb : 0 < b := ha.trans_le hab
  rcases hd.eq_or_lt with rfl | hd
  · rw [ratio_zero]
  rw [ratio_of_ne hd.ne', div_le_div_iff₀ hb (one_sub_exp_pos (mul_pos hd hb))]
  have h := exp_chord (div_pos ha hb).le ((div_le_one hb).2 hab) (-(d * b))
  have e : a / b * -(d * b) = -(d * a) := by field_simp
  rw [e] at h
  have h2 := mul_le_mul_of_nonneg_right h hb.le
  have e2 : (1 - a / b + a / b * exp (-(d * b))) * b = b - a + a * exp (-(d * b)) := by
    field_simp
  rw [e2] at h2
  linarith

theorem ratio_gt (ha : 0 < a) (hab : a < b) {d : ℝ} (hd : 0 < d) : a / b < ratio a b d := by
  have hb : 0 < b := ha.trans hab
  rw [ratio_of_ne hd.ne', div_lt_div_iff₀ hb (one_sub_exp_pos (mul_pos hd hb))]
  have h := exp_chord_lt (div_pos ha hb) ((div_lt_one hb).2 hab)
    (t := -(d * b)) (by have := mul_pos hd hb; linarith)
  have e : a / b * -(d * b) = -(d * a) := by field_simp
  rw [e] at h
  have h2 := mul_lt_mul_of_pos_right h hb
  have e2 : (1 - a / b + a / b * exp (-(d * b))) * b = b - a + a * exp (-(d * b)) := by
    field_simp
  rw [e2] at h2
  linarith

theorem ratio_le_one (ha : 0 < a) (hab : a ≤ b) {d : ℝ} (hd : 0 ≤ d) : ratio a b d ≤ 1 := by
  have hb : 0 < b := ha.trans_le hab
  rcases hd.eq_or_lt with rfl | hd
  · rw [ratio_zero, div_le_one hb]; exact hab
  rw [ratio_of_ne hd.ne', div_le_one (one_sub_exp_pos (mul_pos hd hb))]
  have : exp (-(d * b)) ≤ exp (-(d * a)) := by
    rw [exp_le_exp]
    have := mul_le_mul_of_nonneg_left hab hd.le
    linarith
  linarith

theorem ratio_lt_one (ha : 0 < a) (hab : a < b) {d : ℝ} (hd : 0 ≤ d) : ratio a b d < 1 := by
  have hb : 0 < b := ha.trans hab
  rcases hd.eq_or_lt with rfl | hd
  · rw [ratio_zero, div_lt_one hb]; exact hab
  rw [ratio_of_ne hd.ne', div_lt_one (one_sub_exp_pos (mul_pos hd hb))]
  have : exp (-(d * b)) < exp (-(d * a)) := by
    rw [exp_lt_exp]
    have := mul_lt_mul_of_pos_left hab hd
    linarith
  linarith

theorem ratio_self (ha : 0 < a) {d : ℝ} (hd : 0 ≤ d) : ratio a a d = 1 := by
  rcases hd.eq_or_lt with rfl | hd
  · rw [ratio_zero, div_self ha.ne']
  · rw [ratio_of_ne hd.ne', div_self (one_sub_exp_pos (mul_pos hd ha)).ne']

theorem ratio_le_exp (ha : 0 < a) (hab : a ≤ b) {d : ℝ} (hd : 0 ≤ d) :
    ratio a b d ≤ a / b * exp (d * b) := by
  have hb : 0 < b := ha.trans_le hab
  rcases hd.eq_or_lt with rfl | hd
  · rw [ratio_zero]; simp
  rw [ratio_of_ne hd.ne', div_le_iff₀ (one_sub_exp_pos (mul_pos hd hb))]
  have h1 := one_sub_exp_le (d * a)
  have h2 := mul_exp_le (d * b)
  have h3 : exp (d * b) * exp (-(d * b)) = 1 := by rw [← exp_add]; simp
  calc 1 - exp (-(d * a)) ≤ d * a := h1
    _ = a / b * exp (d * b) * (d * b * exp (-(d * b))) := by
        rw [show a / b * exp (d * b) * (d * b * exp (-(d * b)))
          = a / b * (d * b) * (exp (d * b) * exp (-(d * b))) by ring, h3]
        field_simp
    _ ≤ a / b * exp (d * b) * (1 - exp (-(d * b))) :=
        mul_le_mul_of_nonneg_left h2 (by positivity)

theorem ratio'_nonneg (ha : 0 < a) (hab : a ≤ b) {d : ℝ} (hd : 0 ≤ d) : 0 ≤ ratio' a b d := by
  have hb : 0 < b := ha.trans_le hab
  rcases hd.eq_or_lt with rfl | hd
  · rw [ratio', if_pos rfl]
    have : a / (2 * b) ≤ 1 / 2 := by rw [div_le_div_iff₀ (by positivity) two_pos]; linarith
    exact mul_nonneg (by linarith) ha.le
  rw [ratio'_of_ne hd.ne']
  have hB := one_sub_exp_pos (mul_pos hd hb)
  have h := exp_chord (div_pos ha hb).le ((div_le_one hb).2 hab) (d * b)
  have e : a / b * (d * b) = d * a := by field_simp
  rw [e] at h
  have h2 := mul_le_mul_of_nonneg_right h hb.le
  have e2 : (1 - a / b + a / b * exp (d * b)) * b = b - a + a * exp (d * b) := by
    field_simp
  rw [e2] at h2
  have hm := mul_le_mul_of_nonneg_right h2 (mul_pos (exp_pos (-(d * a))) (exp_pos (-(d * b)))).le
  have c1 : exp (d * a) * exp (-(d * a)) = 1 := by rw [← exp_add]; simp
  have c2 : exp (d * b) * exp (-(d * b)) = 1 := by rw [← exp_add]; simp
  have hm2 : b * exp (-(d * b)) ≤ (b - a) * (exp (-(d * a)) * exp (-(d * b)))
      + a * exp (-(d * a)) := by
    calc b * exp (-(d * b)) = exp (d * a) * b * (exp (-(d * a)) * exp (-(d * b))) := by
          rw [show exp (d * a) * b * (exp (-(d * a)) * exp (-(d * b)))
            = (exp (d * a) * exp (-(d * a))) * (b * exp (-(d * b))) by ring, c1, one_mul]
      _ ≤ _ := hm
      _ = (b - a) * (exp (-(d * a)) * exp (-(d * b)))
          + a * exp (-(d * a)) * (exp (d * b) * exp (-(d * b))) := by ring
      _ = _ := by rw [c2, mul_one]
  rw [sub_nonneg, div_le_div_iff₀ (by positivity) hB]
  have : b * exp (-(d * b)) * (1 - exp (-(d * a))) ≤ a * exp (-(d * a)) * (1 - exp (-(d * b))) := by
    nlinarith
  calc _ ≤ a * exp (-(d * a)) * (1 - exp (-(d * b))) * (1 - exp (-(d * b))) :=
        mul_le_mul_of_nonneg_right this hB.le
    _ = _ := by ring

theorem ratio'_pos (ha : 0 < a) (hab : a < b) {d : ℝ} (hd : 0 ≤ d) : 0 < ratio' a b d := by
  have hb : 0 < b := ha.trans hab
  rcases hd.eq_or_lt with rfl | hd
  · rw [ratio', if_pos rfl]
    have : a / (2 * b) < 1 / 2 := by rw [div_lt_div_iff₀ (by positivity) two_pos]; linarith
    exact mul_pos (by linarith) ha
  rw [ratio'_of_ne hd.ne']
  have hB := one_sub_exp_pos (mul_pos hd hb)
  have h := exp_chord_lt (div_pos ha hb) ((div_lt_one hb).2 hab) (mul_pos hd hb).ne'
  have e : a / b * (d * b) = d * a := by field_simp
  rw [e] at h
  have h2 := mul_lt_mul_of_pos_right h hb
  have e2 : (1 - a / b + a / b * exp (d * b)) * b = b - a + a * exp (d * b) := by
    field_simp
  rw [e2] at h2
  have hm := mul_lt_mul_of_pos_right h2 (mul_pos (exp_pos (-(d * a))) (exp_pos (-(d * b))))
  have c1 : exp (d * a) * exp (-(d * a)) = 1 := by rw [← exp_add]; simp
  have c2 : exp (d * b) * exp (-(d * b)) = 1 := by rw [← exp_add]; simp
  have hm2 : b * exp (-(d * b)) < (b - a) * (exp (-(d * a)) * exp (-(d * b)))
      + a * exp (-(d * a)) := by
    calc b * exp (-(d * b)) = exp (d * a) * b * (exp (-(d * a)) * exp (-(d * b))) := by
          rw [show exp (d * a) * b * (exp (-(d * a)) * exp (-(d * b)))
            = (exp (d * a) * exp (-(d * a))) * (b * exp (-(d * b))) by ring, c1, one_mul]
      _ < _ := hm
      _ = (b - a) * (exp (-(d * a)) * exp (-(d * b)))
          + a * exp (-(d * a)) * (exp (d * b) * exp (-(d * b))) := by ring
      _ = _ := by rw [c2, mul_one]
  rw [sub_pos, div_lt_div_iff₀ (by positivity) hB]
  have : b * exp (-(d * b)) * (1 - exp (-(d * a))) < a * exp (-(d * a)) * (1 - exp (-(d * b))) := by
    nlinarith
  calc _ < a * exp (-(d * a)) * (1 - exp (-(d * b))) * (1 - exp (-(d * b))) :=
        mul_lt_mul_of_pos_right this hB
    _ = _ := by ring

theorem ratio_hasDerivAt (ha : 0 < a) (hab : a ≤ b) {d : ℝ} (hd : 0 < d) :
    HasDerivAt (ratio a b) (ratio' a b d) d := by
  have hb : 0 < b := ha.trans_le hab
  have hB := one_sub_exp_pos (mul_pos hd hb)
  have lin : ∀ c : ℝ, HasDerivAt (fun t => 1 - exp (-(t * c))) (c * exp (-(d * c))) d := by
    intro c
    have h1 : HasDerivAt (fun t : ℝ => -(t * c)) (-(1 * c)) d := ((hasDerivAt_id d).mul_const c).neg
    exact ((h1.exp).const_sub 1).congr_deriv (by ring)
  have h := (lin a).div (lin b) hB.ne'
  have he : ratio a b =ᶠ[𝓝 d] (fun t => (1 - exp (-(t * a))) / (1 - exp (-(t * b)))) := by
    filter_upwards [lt_mem_nhds hd] with t ht
    exact ratio_of_ne ht.ne'
  refine (h.congr_of_eventuallyEq he).congr_deriv ?_
  rw [ratio'_of_ne hd.ne']
  field_simp

/-- `|exp (-t) - (1 - t + t² / 2)| ≤ |t|³` near zero. -/
theorem exp_second {t : ℝ} (ht : |t| ≤ 1) : |(1 - exp (-t)) - (t - t ^ 2 / 2)| ≤ |t| ^ 3 := by
  have h := Real.exp_bound (x := -t) (by simpa using ht) (n := 3) (by norm_num)
  simp only [Finset.sum_range_succ, Finset.sum_range_zero, abs_neg] at h
  norm_num [Nat.factorial] at h
  have e : (1 - exp (-t)) - (t - t ^ 2 / 2) = -(exp (-t) - (1 + -t + t ^ 2 / 2)) := by ring
  rw [e, abs_neg]
  have h3 : 0 ≤ |t| ^ 3 := by positivity
  linarith

/-- `(1 - exp (-t)) / t`, extended to zero. -/
def phi (t : ℝ) : ℝ := if t = 0 then 1 else (1 - exp (-t)) / t

theorem phi_hasDerivAt : HasDerivAt phi (-(1 / 2)) 0 := by
  rw [hasDerivAt_iff_isLittleO]
  have : (fun t : ℝ => phi t - phi 0 - (t - 0) • (-(1 / 2) : ℝ)) =O[𝓝 0] fun t => t ^ 2 := by
    refine Asymptotics.IsBigO.of_bound 1 ?_
    have hn : ∀ᶠ t : ℝ in 𝓝 0, |t| < 1 := by
      have := Metric.ball_mem_nhds (0 : ℝ) one_pos
      filter_upwards [this] with t ht
      simpa using ht
    filter_upwards [hn] with t ht
    rcases eq_or_ne t 0 with rfl | h0
    · simp
    · rw [phi, if_neg h0, phi, if_pos rfl, sub_zero, smul_eq_mul, Real.norm_eq_abs,
        Real.norm_eq_abs, one_mul]
      have h := exp_second ht.le
      have e : (1 - exp (-t)) / t - 1 - t * -(1 / 2) = ((1 - exp (-t)) - (t - t ^ 2 / 2)) / t := by
        field_simp; ring
      rw [e, abs_div, div_le_iff₀ (abs_pos.2 h0), abs_pow]
      calc _ ≤ |t| ^ 3 := h
        _ = _ := by ring
  refine this.trans_isLittleO ?_
  simp only [sub_zero]
  exact Asymptotics.isLittleO_pow_id one_lt_two

theorem ratio_eq_phi (ha : 0 < a) (hb : 0 < b) (d : ℝ) :
    ratio a b d = a / b * (phi (d * a) / phi (d * b)) := by
  rcases eq_or_ne d 0 with rfl | hd
  · simp [ratio, phi]
  · rw [ratio_of_ne hd, phi, phi, if_neg (mul_ne_zero hd ha.ne'), if_neg (mul_ne_zero hd hb.ne')]
    rcases eq_or_ne (1 - exp (-(d * b))) 0 with h | h
    · rw [h]; simp
    · field_simp

theorem ratio_hasDerivAt_zero (ha : 0 < a) (hb : 0 < b) :
    HasDerivAt (ratio a b) (ratio' a b 0) 0 := by
  have lin : ∀ c : ℝ, HasDerivAt (fun t => phi (t * c)) (-(1 / 2) * c) 0 := by
    intro c
    have h1 : HasDerivAt (fun t : ℝ => t * c) c 0 := by
      simpa using (hasDerivAt_id (0 : ℝ)).mul_const c
    have h2 : HasDerivAt phi (-(1 / 2)) (0 * c) := by simpa using phi_hasDerivAt
    exact h2.comp 0 h1
  have e0 : phi (0 * b) = 1 := by simp [phi]
  have e1 : phi (0 * a) = 1 := by simp [phi]
  have h := ((lin a).div (lin b) (by rw [e0]; exact one_ne_zero)).const_mul (a / b)
  have he : ratio a b = fun t => a / b * (phi (t * a) / phi (t * b)) :=
    funext (ratio_eq_phi ha hb)
  rw [he]
  refine h.congr_deriv ?_
  rw [e0, e1, ratio', if_pos rfl]
  field_simp
  ring

theorem ratio_hasDeriv (ha : 0 < a) (hab : a ≤ b) {d : ℝ} (hd : 0 ≤ d) :
    HasDerivAt (ratio a b) (ratio' a b d) d := by
  rcases hd.eq_or_lt with rfl | hd
  · exact ratio_hasDerivAt_zero ha (ha.trans_le hab)
  · exact ratio_hasDerivAt ha hab hd

theorem ratio_lim (ha : 0 < a) (hab : a ≤ b) : Tendsto (ratio a b) atTop (𝓝 1) := by
  have hb : 0 < b := ha.trans_le hab
  have lin : ∀ c : ℝ, 0 < c → Tendsto (fun t : ℝ => 1 - exp (-(t * c))) atTop (𝓝 1) := by
    intro c hc
    have h1 : Tendsto (fun t : ℝ => t * c) atTop atTop := tendsto_id.atTop_mul_const hc
    have := (tendsto_exp_neg_atTop_nhds_zero.comp h1).const_sub 1
    simpa using this
  have h := (lin a ha).div (lin b hb) one_ne_zero
  rw [div_one] at h
  refine h.congr' ?_
  filter_upwards [eventually_gt_atTop (0 : ℝ)] with t ht
  exact (ratio_of_ne ht.ne').symm

theorem ratio_mono (ha : 0 < a) (hab : a ≤ b) {s t : ℝ} (hs : 0 ≤ s) (hst : s ≤ t) :
    ratio a b s ≤ ratio a b t := by
  have hm : MonotoneOn (ratio a b) (Set.Ici 0) := by
    refine monotoneOn_of_deriv_nonneg (convex_Ici 0) ?_ ?_ ?_
    · exact fun u hu => (ratio_hasDeriv ha hab hu).continuousAt.continuousWithinAt
    · intro u hu
      rw [interior_Ici] at hu
      exact (ratio_hasDeriv ha hab (le_of_lt hu)).differentiableAt.differentiableWithinAt
    · intro u hu
      rw [interior_Ici] at hu
      rw [(ratio_hasDeriv ha hab (le_of_lt hu)).deriv]
      exact ratio'_nonneg ha hab (le_of_lt hu)
  exact hm hs (hs.trans hst) hst

theorem ratio_strict (ha : 0 < a) (hab : a < b) {s t : ℝ} (hs : 0 ≤ s) (hst : s < t) :
    ratio a b s < ratio a b t := by
  have hm : StrictMonoOn (ratio a b) (Set.Ici 0) := by
    refine strictMonoOn_of_deriv_pos (convex_Ici 0) ?_ ?_
    · exact fun u hu => (ratio_hasDeriv ha hab.le hu).continuousAt.continuousWithinAt
    · intro u hu
      rw [interior_Ici] at hu
      rw [(ratio_hasDeriv ha hab.le (le_of_lt hu)).deriv]
      exact ratio'_pos ha hab (le_of_lt hu)
  exact hm hs (hs.trans hst.le) hst

end

end

end Verif.Cond
