import Verif.Prob.JacProps
import Mathlib.Analysis.Calculus.Deriv.MeanValue
import Mathlib.Analysis.SpecialFunctions.Exp
import Mathlib.Topology.Order.IntermediateValue
import Mathlib.Topology.Algebra.Order.LiminfLimsup

/-!
# Link functions and their sums

A link function sends the parameter `d ≥ 0` to the probability of one pair.  The density
objective is a finite sum of link functions.
-/

namespace Verif

open Filter Topology

/-- `P` is a differentiable, concave, non-decreasing function on `[0, ∞)` with `P 0 = 0` and
derivative `P'`; if `act` holds it is strictly increasing with limit `1`, otherwise zero. -/
structure Link (P P' : ℝ → ℝ) (act : Prop) : Prop where
  zero : P 0 = 0
  deriv : ∀ d, 0 ≤ d → HasDerivAt P (P' d) d
  anti : ∀ x y, 0 ≤ x → x ≤ y → P' y ≤ P' x
  nonneg : ∀ d, 0 ≤ d → 0 ≤ P' d
  strict : act → ∀ x y, 0 ≤ x → x < y → P x < P y
  lim : act → Tendsto P atTop (𝓝 1)
  dead : ¬ act → ∀ d, 0 ≤ d → P d = 0
  steep : ∀ d, 0 ≤ d → P' 0 * (1 - P d) ^ 2 ≤ P' d
  lip : ∀ x y, 0 ≤ x → x ≤ y → P' x - P' y ≤ 2 * P' 0 ^ 2 * (y - x)

private theorem inv_lip {c x y : ℝ} (hc : 0 ≤ c) (hx : 0 ≤ x) (hxy : x ≤ y) :
    1 / (1 + x * c) - 1 / (1 + y * c) ≤ (y - x) * c := by
  have h1 : 0 ≤ x * c := mul_nonneg hx hc
  have h2 : x * c ≤ y * c := mul_le_mul_of_nonneg_right hxy hc
  have e : 1 / (1 + x * c) - 1 / (1 + y * c) = (y - x) * c / ((1 + x * c) * (1 + y * c)) := by
    have hu : (1 + x * c) ≠ 0 := by positivity
    have hv : (1 + y * c) ≠ 0 := by
      have : 0 < 1 + y * c := by linarith
      exact this.ne'
    rw [div_sub_div _ _ hu hv]
    ring
  rw [e]
  refine div_le_self (by nlinarith) ?_
  nlinarith

private theorem inv_mem {c x : ℝ} (hc : 0 ≤ c) (hx : 0 ≤ x) :
    0 < 1 / (1 + x * c) ∧ 1 / (1 + x * c) ≤ 1 := by
  have h1 : 0 ≤ x * c := mul_nonneg hx hc
  refine ⟨by positivity, ?_⟩
  rw [div_le_one (by positivity)]
  linarith

private theorem prod_lip (s : Finset ℕ) {a b : ℕ → ℝ} (h0 : ∀ k, 0 ≤ b k) (hab : ∀ k, b k ≤ a k)
    (h1 : ∀ k, a k ≤ 1) : ∏ k ∈ s, a k - ∏ k ∈ s, b k ≤ ∑ k ∈ s, (a k - b k) := by
  induction s using Finset.induction_on with
  | empty => simp
  | insert k s hk ih =>
    rw [Finset.prod_insert hk, Finset.prod_insert hk, Finset.sum_insert hk]
    have ha : ∏ k ∈ s, a k ≤ 1 :=
      Finset.prod_le_one (fun k _ => (h0 k).trans (hab k)) (fun k _ => h1 k)
    have hle : ∏ k ∈ s, b k ≤ ∏ k ∈ s, a k :=
      Finset.prod_le_prod (fun k _ => h0 k) (fun k _ => hab k)
    have hb1 : b k ≤ 1 := (hab k).trans (h1 k)
    have hb0 := h0 k
    have hk' := hab k
    nlinarith

theorem link_fit {c : ℝ} (hc : 0 ≤ c) :
    Link (fun t => t * c / (1 + t * c)) (fun d => c / ((1 + d * c) * (1 + d * c))) (c ≠ 0) where
  zero := by simp
  deriv := fun d hd => hasDeriv_fit (by have := mul_nonneg hd hc; positivity)
  anti := fun x y hx hxy => by
    have h1 : 0 ≤ x * c := mul_nonneg hx hc
    have h2 : x * c ≤ y * c := mul_le_mul_of_nonneg_right hxy hc
    exact div_le_div_of_nonneg_left hc (by positivity)
      (mul_le_mul (by linarith) (by linarith) (by linarith) (by linarith))
  nonneg := fun d hd => by have := mul_nonneg hd hc; positivity
  strict := fun h x y hx hxy => by
    have hc' : 0 < c := lt_of_le_of_ne hc (Ne.symm h)
    have h1 : 0 ≤ x * c := mul_nonneg hx hc
    have h2 : x * c < y * c := mul_lt_mul_of_pos_right hxy hc'
    rw [div_lt_div_iff₀ (by linarith) (by linarith)]
    nlinarith
  lim := fun h => by
    have hc' : 0 < c := lt_of_le_of_ne hc (Ne.symm h)
    have h1 : Tendsto (fun t : ℝ => 1 + t * c) atTop atTop :=
      tendsto_atTop_add_const_left _ _ (tendsto_id.atTop_mul_const hc')
    have h2 := (tendsto_inv_atTop_zero.comp h1).const_sub 1
    rw [sub_zero] at h2
    refine h2.congr' ?_
    filter_upwards [eventually_ge_atTop 0] with t ht
    have : 1 + t * c ≠ 0 := by have := mul_nonneg ht hc; positivity
    simp only [Function.comp]
    field_simp
    ring
  dead := fun h d _ => by
    have : c = 0 := by simpa using h
    simp [this]
  steep := fun d hd => by
    have h1 : 0 ≤ d * c := mul_nonneg hd hc
    have hne : 1 + d * c ≠ 0 := by positivity
    refine le_of_eq ?_
    field_simp
    ring
  lip := fun x y hx hxy => by
    obtain ⟨a0, a1⟩ := inv_mem hc hx
    obtain ⟨b0, b1⟩ := inv_mem hc (hx.trans hxy)
    have h := inv_lip hc hx hxy
    set a := 1 / (1 + x * c) with ha
    set b := 1 / (1 + y * c) with hb
    have e1 : c / ((1 + x * c) * (1 + x * c)) = c * (a * a) := by
      rw [ha, one_div_mul_one_div, mul_one_div]
    have e2 : c / ((1 + y * c) * (1 + y * c)) = c * (b * b) := by
      rw [hb, one_div_mul_one_div, mul_one_div]
    have hab : b ≤ a := one_div_le_one_div_of_le (by have := mul_nonneg hx hc; positivity)
      (by have := mul_le_mul_of_nonneg_right hxy hc; linarith)
    rw [e1, e2]
    have : a * a - b * b ≤ 2 * ((y - x) * c) := by nlinarith
    have := mul_le_mul_of_nonneg_left this hc
    simp only [zero_mul, add_zero, mul_one, div_one]
    linarith

theorem link_inv {c : ℝ} (hc : 0 ≤ c) :
    Link (fun t => 1 - Real.exp (-(t * c))) (fun d => c * Real.exp (-(d * c))) (c ≠ 0) where
  zero := by simp
  deriv := fun d _ => hasDeriv_inv c d
  anti := fun x y _ hxy => by
    refine mul_le_mul_of_nonneg_left (Real.exp_le_exp.mpr ?_) hc
    have := mul_le_mul_of_nonneg_right hxy hc
    linarith
  nonneg := fun d _ => by positivity
  strict := fun h x y _ hxy => by
    have hc' : 0 < c := lt_of_le_of_ne hc (Ne.symm h)
    have := mul_lt_mul_of_pos_right hxy hc'
    have := Real.exp_lt_exp.mpr (show -(y * c) < -(x * c) by linarith)
    linarith
  lim := fun h => by
    have hc' : 0 < c := lt_of_le_of_ne hc (Ne.symm h)
    have h1 : Tendsto (fun t : ℝ => -(t * c)) atTop atBot :=
      tendsto_neg_atTop_atBot.comp (tendsto_id.atTop_mul_const hc')
    have h2 := (Real.tendsto_exp_atBot.comp h1).const_sub 1
    simpa using h2
  dead := fun h d _ => by
    have : c = 0 := by simpa using h
    simp [this]
  steep := fun d hd => by
    have h1 : 0 ≤ d * c := mul_nonneg hd hc
    have h2 : Real.exp (-(d * c)) ≤ 1 := Real.exp_le_one_iff.2 (by linarith)
    have h3 := Real.exp_pos (-(d * c))
    simp only [zero_mul, neg_zero, Real.exp_zero, mul_one, sub_sub_cancel]
    refine mul_le_mul_of_nonneg_left ?_ hc
    nlinarith
  lip := fun x y hx hxy => by
    have h1 : Real.exp (-(x * c)) ≤ 1 := Real.exp_le_one_iff.2 (by
      have := mul_nonneg hx hc; linarith)
    have h2 := Real.exp_pos (-(x * c))
    have h3 : Real.exp (-(y * c)) = Real.exp (-(x * c)) * Real.exp (-((y - x) * c)) := by
      rw [← Real.exp_add]; congr 1; ring
    have h4 := Real.add_one_le_exp (-((y - x) * c))
    have h5 : 0 ≤ (y - x) * c := mul_nonneg (by linarith) hc
    have h6 : Real.exp (-(x * c)) - Real.exp (-(y * c)) ≤ (y - x) * c := by
      rw [h3]; nlinarith
    have h7 := mul_le_mul_of_nonneg_left h6 hc
    have h8 := mul_nonneg hc h5
    simp only [zero_mul, neg_zero, Real.exp_zero, mul_one]
    nlinarith

theorem link_noneFit (s : Finset ℕ) {c : ℕ → ℝ} (hc : ∀ k, 0 ≤ c k) :
    Link (fun t => 1 - ∏ k ∈ s, (1 / (1 + t * c k)))
      (fun d => (∏ k ∈ s, (1 / (1 + d * c k))) * ∑ k ∈ s, c k / (1 + d * c k))
      (∃ k ∈ s, c k ≠ 0) where
  zero := by simp
  deriv := fun d hd => hasDeriv_noneFit s c
    (fun k _ => by have := mul_nonneg hd (hc k); positivity)
  anti := fun x y hx hxy => by
    have hx' : ∀ k, 0 ≤ x * c k := fun k => mul_nonneg hx (hc k)
    have hm : ∀ k, x * c k ≤ y * c k := fun k => mul_le_mul_of_nonneg_right hxy (hc k)
    have hp : ∀ k, 0 < 1 + x * c k := fun k => by have := hx' k; linarith
    have hq : ∀ k, 0 < 1 + y * c k := fun k => by have := hx' k; have := hm k; linarith
    refine mul_le_mul ?_ ?_ ?_ ?_
    · refine Finset.prod_le_prod (fun k _ => (one_div_pos.mpr (hq k)).le) (fun k _ => ?_)
      exact one_div_le_one_div_of_le (hp k) (by linarith [hm k])
    · refine Finset.sum_le_sum (fun k _ => ?_)
      exact div_le_div_of_nonneg_left (hc k) (hp k) (by linarith [hm k])
    · exact Finset.sum_nonneg (fun k _ => div_nonneg (hc k) (hq k).le)
    · exact Finset.prod_nonneg (fun k _ => (one_div_pos.mpr (hp k)).le)
  nonneg := fun d hd => by
    have hp : ∀ k, 0 < 1 + d * c k := fun k => by have := mul_nonneg hd (hc k); linarith
    exact mul_nonneg (Finset.prod_nonneg (fun k _ => (one_div_pos.mpr (hp k)).le))
      (Finset.sum_nonneg (fun k _ => div_nonneg (hc k) (hp k).le))
  strict := fun ⟨k0, hk0, hne⟩ x y hx hxy => by
    have hx' : ∀ k, 0 ≤ x * c k := fun k => mul_nonneg hx (hc k)
    have hm : ∀ k, x * c k ≤ y * c k := fun k => mul_le_mul_of_nonneg_right hxy.le (hc k)
    have hp : ∀ k, 0 < 1 + x * c k := fun k => by have := hx' k; linarith
    have hq : ∀ k, 0 < 1 + y * c k := fun k => by have := hx' k; have := hm k; linarith
    have := Finset.prod_lt_prod (s := s) (f := fun k => 1 / (1 + y * c k))
      (g := fun k => 1 / (1 + x * c k)) (fun k _ => one_div_pos.mpr (hq k))
      (fun k _ => one_div_le_one_div_of_le (hp k) (by linarith [hm k]))
      ⟨k0, hk0, one_div_lt_one_div_of_lt (hp k0) (by
        have := mul_lt_mul_of_pos_right hxy (lt_of_le_of_ne (hc k0) (Ne.symm hne)); linarith)⟩
    linarith
  lim := fun ⟨k0, hk0, hne⟩ => by
    have hc' : 0 < c k0 := lt_of_le_of_ne (hc k0) (Ne.symm hne)
    have h1 : Tendsto (fun t : ℝ => 1 + t * c k0) atTop atTop :=
      tendsto_atTop_add_const_left _ _ (tendsto_id.atTop_mul_const hc')
    have h2 : Tendsto (fun t : ℝ => 1 / (1 + t * c k0)) atTop (𝓝 0) := by
      simpa [one_div, Function.comp_def] using tendsto_inv_atTop_zero.comp h1
    have h3 : Tendsto (fun t : ℝ => ∏ k ∈ s, (1 / (1 + t * c k))) atTop (𝓝 0) := by
      refine tendsto_of_tendsto_of_tendsto_of_le_of_le' tendsto_const_nhds h2 ?_ ?_
      · filter_upwards [eventually_ge_atTop 0] with t ht
        exact Finset.prod_nonneg (fun k _ => by have := mul_nonneg ht (hc k); positivity)
      · filter_upwards [eventually_ge_atTop 0] with t ht
        have hp : ∀ k, 0 ≤ t * c k := fun k => mul_nonneg ht (hc k)
        rw [← Finset.mul_prod_erase s _ hk0]
        refine mul_le_of_le_one_right (by have := hp k0; positivity) ?_
        refine Finset.prod_le_one (fun k _ => by have := hp k; positivity) (fun k _ => ?_)
        rw [div_le_one (by have := hp k; positivity)]
        linarith [hp k]
    simpa using h3.const_sub 1
  dead := fun h d _ => by
    push Not at h
    have : ∏ k ∈ s, (1 / (1 + d * c k)) = 1 :=
      Finset.prod_eq_one (fun k hk => by simp [h k hk])
    show 1 - ∏ k ∈ s, (1 / (1 + d * c k)) = 0
    rw [this, sub_self]
  steep := fun d hd => by
    have hp : ∀ k, 0 ≤ d * c k := fun k => mul_nonneg hd (hc k)
    have hQ0 : 0 ≤ ∏ k ∈ s, (1 / (1 + d * c k)) :=
      Finset.prod_nonneg (fun k _ => (inv_mem (hc k) hd).1.le)
    simp only [zero_mul, add_zero, div_one, Finset.prod_const_one, one_mul, sub_sub_cancel, sq]
    rw [mul_left_comm]
    refine mul_le_mul_of_nonneg_left ?_ hQ0
    rw [Finset.sum_mul]
    refine Finset.sum_le_sum fun k hk => ?_
    rw [div_eq_mul_one_div]
    refine mul_le_mul_of_nonneg_left ?_ (hc k)
    rw [← Finset.mul_prod_erase s _ hk]
    exact mul_le_of_le_one_right (inv_mem (hc k) hd).1.le
      (Finset.prod_le_one (fun j _ => (inv_mem (hc j) hd).1.le) (fun j _ => (inv_mem (hc j) hd).2))
  lip := fun x y hx hxy => by
    have hy := hx.trans hxy
    have hba : ∀ k, 1 / (1 + y * c k) ≤ 1 / (1 + x * c k) := fun k =>
      one_div_le_one_div_of_le (by have := mul_nonneg hx (hc k); positivity)
        (by have := mul_le_mul_of_nonneg_right hxy (hc k); linarith)
    have hQ := prod_lip s (fun k => (inv_mem (hc k) hy).1.le) hba (fun k => (inv_mem (hc k) hx).2)
    have hQ' : ∑ k ∈ s, (1 / (1 + x * c k) - 1 / (1 + y * c k)) ≤ (y - x) * ∑ k ∈ s, c k := by
      rw [Finset.mul_sum]
      exact Finset.sum_le_sum fun k _ => inv_lip (hc k) hx hxy
    have hS0 : 0 ≤ ∑ k ∈ s, c k := Finset.sum_nonneg fun k _ => hc k
    have hSx : ∑ k ∈ s, c k / (1 + x * c k) ≤ ∑ k ∈ s, c k := Finset.sum_le_sum fun k _ => by
      rw [div_eq_mul_one_div]
      exact mul_le_of_le_one_right (hc k) (inv_mem (hc k) hx).2
    have hSx0 : 0 ≤ ∑ k ∈ s, c k / (1 + x * c k) := Finset.sum_nonneg fun k _ => by
      rw [div_eq_mul_one_div]
      exact mul_nonneg (hc k) (inv_mem (hc k) hx).1.le
    have hSy : ∑ k ∈ s, c k / (1 + x * c k) - ∑ k ∈ s, c k / (1 + y * c k) ≤
        (y - x) * (∑ k ∈ s, c k) ^ 2 := by
      rw [← Finset.sum_sub_distrib, sq, ← mul_assoc, Finset.mul_sum]
      refine Finset.sum_le_sum fun k hk => ?_
      rw [div_eq_mul_one_div, div_eq_mul_one_div (c k) (1 + y * c k), ← mul_sub,
        mul_comm ((y - x) * _) (c k)]
      refine mul_le_mul_of_nonneg_left ((inv_lip (hc k) hx hxy).trans ?_) (hc k)
      exact mul_le_mul_of_nonneg_left (Finset.single_le_sum (fun k _ => hc k) hk) (by linarith)
    have hQy0 : 0 ≤ ∏ k ∈ s, (1 / (1 + y * c k)) :=
      Finset.prod_nonneg fun k _ => (inv_mem (hc k) hy).1.le
    have hQy1 : ∏ k ∈ s, (1 / (1 + y * c k)) ≤ 1 :=
      Finset.prod_le_one (fun k _ => (inv_mem (hc k) hy).1.le) (fun k _ => (inv_mem (hc k) hy).2)
    simp only [zero_mul, add_zero, div_one, Finset.prod_const_one, one_mul]
    generalize (∏ k ∈ s, (1 / (1 + x * c k))) = Qx at *
    generalize (∏ k ∈ s, (1 / (1 + y * c k))) = Qy at *
    generalize (∑ k ∈ s, c k / (1 + x * c k)) = Sx at *
    generalize (∑ k ∈ s, c k / (1 + y * c k)) = Sy at *
    generalize (∑ k ∈ s, c k) = S at *
    have h1 : (Qx - Qy) * Sx ≤ (y - x) * S * S :=
      mul_le_mul (hQ.trans hQ') hSx hSx0 (mul_nonneg (by linarith) hS0)
    have h2 : Qy * (Sx - Sy) ≤ 1 * ((y - x) * S ^ 2) := by
      refine (mul_le_mul_of_nonneg_left hSy hQy0).trans
        (mul_le_mul_of_nonneg_right hQy1 (mul_nonneg (by linarith) (sq_nonneg S)))
    nlinarith

/-! ### Finite sums of link functions -/

section Sum

variable {ι : Type} {S : Finset ι} {P P' : ι → ℝ → ℝ} {act : ι → Prop}

theorem Link.concave {P P' : ℝ → ℝ} {act : Prop} (h : Link P P' act) {x y : ℝ} (hx : 0 ≤ x)
    (hy : 0 ≤ y) : P y ≤ P x + P' x * (y - x) := by
  rcases lt_trichotomy x y with hxy | rfl | hxy
  · obtain ⟨z, hz, he⟩ := exists_hasDerivAt_eq_slope P P' hxy
      (fun z hz => (h.deriv z (hx.trans hz.1)).continuousAt.continuousWithinAt)
      (fun z hz => h.deriv z (hx.trans hz.1.le))
    have h1 := h.anti x z hx hz.1.le
    rw [he, div_le_iff₀ (by linarith)] at h1
    linarith
  · simp
  · obtain ⟨z, hz, he⟩ := exists_hasDerivAt_eq_slope P P' hxy
      (fun z hz => (h.deriv z (hy.trans hz.1)).continuousAt.continuousWithinAt)
      (fun z hz => h.deriv z (hy.trans hz.1.le))
    have h1 := h.anti z x (hy.trans hz.1.le) hz.2.le
    rw [he, le_div_iff₀ (by linarith)] at h1
    linarith

theorem Link.mono {P P' : ℝ → ℝ} {act : Prop} (h : Link P P' act) {x y : ℝ} (hx : 0 ≤ x)
    (hxy : x ≤ y) : P x ≤ P y := by
  by_cases ha : act
  · rcases hxy.eq_or_lt with rfl | hlt
    · exact le_rfl
    · exact (h.strict ha x y hx hlt).le
  · rw [h.dead ha x hx, h.dead ha y (hx.trans hxy)]

theorem Link.lt_one {P P' : ℝ → ℝ} {act : Prop} (h : Link P P' act) (ha : act) {x : ℝ}
    (hx : 0 ≤ x) : P x < 1 := by
  refine lt_of_lt_of_le (h.strict ha x (x + 1) hx (by linarith)) ?_
  refine ge_of_tendsto (h.lim ha) ?_
  filter_upwards [eventually_ge_atTop (x + 1)] with t ht
  exact h.mono (by linarith) ht

/-- The objective. -/
def total (S : Finset ι) (P : ι → ℝ → ℝ) (d : ℝ) : ℝ := ∑ e ∈ S, P e d

theorem total_concave (h : ∀ e ∈ S, Link (P e) (P' e) (act e)) {x y : ℝ} (hx : 0 ≤ x)
    (hy : 0 ≤ y) : total S P y ≤ total S P x + total S P' x * (y - x) := by
  unfold total
  rw [Finset.sum_mul, ← Finset.sum_add_distrib]
  exact Finset.sum_le_sum (fun e he => (h e he).concave hx hy)

theorem total_mono (h : ∀ e ∈ S, Link (P e) (P' e) (act e)) {x y : ℝ} (hx : 0 ≤ x)
    (hxy : x ≤ y) : total S P x ≤ total S P y :=
  Finset.sum_le_sum (fun e he => (h e he).mono hx hxy)

theorem total_strict (h : ∀ e ∈ S, Link (P e) (P' e) (act e)) (ha : ∃ e ∈ S, act e) {x y : ℝ}
    (hx : 0 ≤ x) (hxy : x < y) : total S P x < total S P y := by
  obtain ⟨e, he, hae⟩ := ha
  exact Finset.sum_lt_sum (fun e he => (h e he).mono hx hxy.le)
    ⟨e, he, (h e he).strict hae x y hx hxy⟩

theorem total_zero (h : ∀ e ∈ S, Link (P e) (P' e) (act e)) : total S P 0 = 0 :=
  Finset.sum_eq_zero (fun e he => (h e he).zero)

theorem total_deriv_nonneg (h : ∀ e ∈ S, Link (P e) (P' e) (act e)) {x : ℝ} (hx : 0 ≤ x) :
    0 ≤ total S P' x :=
  Finset.sum_nonneg (fun e he => (h e he).nonneg x hx)

theorem total_deriv_anti (h : ∀ e ∈ S, Link (P e) (P' e) (act e)) {x y : ℝ} (hx : 0 ≤ x)
    (hxy : x ≤ y) : total S P' y ≤ total S P' x :=
  Finset.sum_le_sum (fun e he => (h e he).anti x y hx hxy)

open Classical in
theorem total_lim (h : ∀ e ∈ S, Link (P e) (P' e) (act e)) :
    Tendsto (total S P) atTop (𝓝 ((S.filter act).card : ℝ)) := by
  have : ((S.filter act).card : ℝ) = ∑ e ∈ S, if act e then (1 : ℝ) else 0 := by
    rw [Finset.sum_boole]
  rw [this]
  refine tendsto_finsetSum S (fun e he => ?_)
  by_cases ha : act e
  · rw [if_pos ha]; exact (h e he).lim ha
  · rw [if_neg ha]
    refine tendsto_const_nhds.congr' ?_
    filter_upwards [eventually_ge_atTop 0] with t ht
    exact ((h e he).dead ha t ht).symm

open Classical in
theorem total_lt (h : ∀ e ∈ S, Link (P e) (P' e) (act e)) (ha : ∃ e ∈ S, act e) {x : ℝ}
    (hx : 0 ≤ x) : total S P x < ((S.filter act).card : ℝ) := by
  have : ((S.filter act).card : ℝ) = ∑ e ∈ S, if act e then (1 : ℝ) else 0 := by
    rw [Finset.sum_boole]
  rw [this]
  obtain ⟨e0, he0, hae0⟩ := ha
  refine Finset.sum_lt_sum (fun e he => ?_) ⟨e0, he0, ?_⟩
  · by_cases hae : act e
    · rw [if_pos hae]; exact ((h e he).lt_one hae hx).le
    · rw [if_neg hae, (h e he).dead hae x hx]
  · rw [if_pos hae0]; exact (h e0 he0).lt_one hae0 hx

theorem total_continuousOn (h : ∀ e ∈ S, Link (P e) (P' e) (act e)) :
    ContinuousOn (total S P) (Set.Ici 0) := by
  unfold total
  exact continuousOn_finsetSum _ (fun e he d hd =>
    ((h e he).deriv d hd).continuousAt.continuousWithinAt)

open Classical in
theorem total_exists (h : ∀ e ∈ S, Link (P e) (P' e) (act e)) {m : ℝ} (h0 : 0 < m)
    (hm : m < ((S.filter act).card : ℝ)) : ∃ d, 0 < d ∧ total S P d = m := by
  obtain ⟨b, hb0, hb⟩ : ∃ b, 0 ≤ b ∧ m < total S P b := by
    have := ((total_lim h).eventually_const_lt hm).and (eventually_ge_atTop 0)
    obtain ⟨b, h1, h2⟩ := this.exists
    exact ⟨b, h2, h1⟩
  have hc : ContinuousOn (total S P) (Set.Icc 0 b) :=
    (total_continuousOn h).mono Set.Icc_subset_Ici_self
  have := intermediate_value_Icc hb0 hc
  rw [total_zero h] at this
  obtain ⟨d, hd, he⟩ := this ⟨h0.le, hb.le⟩
  refine ⟨d, lt_of_le_of_ne hd.1 ?_, he⟩
  rintro rfl
  rw [total_zero h] at he
  linarith

end Sum

end Verif
