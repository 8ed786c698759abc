import Verif.Round.Solver
import Verif.Round.Accuracy
import Verif.Solver.Newton

/-!
# The solver in double precision: lemmas

`E` is an increasing concave function with derivative `E'`; the function handed to the solver
computes both with a relative error of at most `ε`.
-/

namespace Verif

namespace Round

open XR

/-! ## Ranges -/

/-- Numbers between `1 / big` and `big`, and products of a few of them, are far from underflow and
overflow. -/
noncomputable def big : ℝ := (2 : ℝ) ^ (200 : ℤ)

theorem big_ge : 1000 ≤ big := by
  unfold big
  calc (1000 : ℝ) ≤ (2 : ℝ) ^ (10 : ℤ) := by norm_num
    _ ≤ _ := zpow_le_zpow_right₀ (by norm_num) (by norm_num)

theorem big_pos : 0 < big := by linarith [big_ge]

theorem big_pow : big ^ 5 = (2 : ℝ) ^ (1000 : ℤ) := by
  unfold big
  rw [← zpow_natCast, ← zpow_mul]
  norm_num

theorem big_inv : 1 / big ^ 5 = (2 : ℝ) ^ (-1000 : ℤ) := by
  rw [big_pow, one_div, ← zpow_neg]

theorem range_within {v : ℝ} (h1 : 1 / big ^ 5 ≤ v) (h2 : v ≤ big ^ 5) :
    ∃ w ∈ doubles, toDouble v = fin w ∧ Within ulp2 v w := by
  rw [big_inv] at h1
  rw [big_pow] at h2
  exact toDouble_within ((zpow_le_zpow_right₀ (by norm_num) (by norm_num)).trans h1)
    (h2.trans (zpow_le_zpow_right₀ (by norm_num) (by norm_num)))

theorem big_le_top {v : ℝ} (h2 : v ≤ big ^ 5) : v ≤ (2 : ℝ) ^ (1023 : ℤ) := by
  rw [big_pow] at h2
  exact h2.trans (zpow_le_zpow_right₀ (by norm_num) (by norm_num))

/-! ## Differences -/

theorem diff_mem {a b : ℝ} (ha : a ∈ doubles) (hb : b ∈ doubles) (hab : a ≤ b)
    (h : b - a < (2 : ℝ) ^ (-1022 : ℤ)) : b - a ∈ doubles := by
  have form : ∀ {q : ℝ}, q ∈ doubles → ∃ c : ℤ, q = c * (2 : ℝ) ^ (-1074 : ℤ) := by
    rintro q ⟨⟨m, e, _, he, rfl⟩, _⟩
    exact mul_zpow_eq he
  obtain ⟨c, hc⟩ := form hb
  obtain ⟨c', hc'⟩ := form ha
  have hs : b - a = ((c - c' : ℤ) : ℝ) * (2 : ℝ) ^ (-1074 : ℤ) := by
    rw [hc, hc']; push_cast; ring
  refine ⟨⟨c - c', -1074, ?_, le_rfl, hs⟩, ?_⟩
  · have h0 : 0 ≤ c - c' := by
      have : 0 ≤ ((c - c' : ℤ) : ℝ) := by
        by_contra hneg
        push Not at hneg
        have := mul_neg_of_neg_of_pos hneg (pow_pos' (-1074))
        rw [← hs] at this
        linarith
      exact_mod_cast this
    rw [abs_of_nonneg h0]
    have : ((c - c' : ℤ) : ℝ) < (2 : ℝ) ^ (52 : ℤ) := by
      have h2 : ((c - c' : ℤ) : ℝ) * (2 : ℝ) ^ (-1074 : ℤ) <
          (2 : ℝ) ^ (52 : ℤ) * (2 : ℝ) ^ (-1074 : ℤ) := by
        rw [← hs, ← zpow_add₀ (by norm_num)]
        exact h
      exact lt_of_mul_lt_mul_right h2 (pow_pos' _).le
    have h3 : ((c - c' : ℤ) : ℝ) < ((2 ^ 52 : ℤ) : ℝ) := this.trans_le (le_of_eq (by norm_num))
    have h4 : c - c' < 2 ^ 52 := by exact_mod_cast h3
    exact h4.le.trans (by norm_num)
  · rw [abs_of_nonneg (by linarith)]
    exact h.trans (zpow_lt_zpow_right₀ (by norm_num) (by norm_num))

/-- A difference of double precision numbers has a relative error of at most half a last place. -/
theorem sub_within {a b : ℝ} (ha : a ∈ doubles) (hb : b ∈ doubles) (hab : a ≤ b)
    (h : b - a ≤ (2 : ℝ) ^ (1023 : ℤ)) :
    ∃ v ∈ doubles, toDouble (b - a) = fin v ∧ Within ulp2 (b - a) v := by
  rcases le_or_gt ((2 : ℝ) ^ (-1022 : ℤ)) (b - a) with h1 | h1
  · exact toDouble_within h1 h
  · have hm := diff_mem ha hb hab h1
    have := ulp2_pos
    exact ⟨b - a, hm, toDouble_self hm, by nlinarith, by nlinarith⟩

theorem sub_neg_within {a b : ℝ} (ha : a ∈ doubles) (hb : b ∈ doubles) (hab : a ≤ b)
    (h : b - a ≤ (2 : ℝ) ^ (1023 : ℤ)) :
    ∃ v ∈ doubles, toDouble (a - b) = fin (-v) ∧ Within ulp2 (b - a) v := by
  rw [show a - b = -(b - a) by ring]
  rcases le_or_gt ((2 : ℝ) ^ (-1022 : ℤ)) (b - a) with h1 | h1
  · exact toDouble_neg_within h1 h
  · have hm := diff_mem ha hb hab h1
    have := ulp2_pos
    exact ⟨b - a, hm, toDouble_self (Faithful.binary64.neg_mem _ hm), by nlinarith, by nlinarith⟩

/-! ## One Newton step -/

/-- Real-number content of one step: `A` is the computed distance from the target, `b` the computed
derivative, `dx` the computed step and `d'` the computed new point. -/
theorem newton_real {ε p b A dx d d' e : ℝ} (hu : ulp2 ≤ ε) (hε : ε ≤ 1 / 160) (hp : 0 < p)
    (hb : Within ε p b) (hA : 0 < A) (hdx : Within ulp2 (A / b) dx) (hd' : Within ulp2 (d + dx) d')
    (hd : 0 ≤ d) (hdp : d * p ≤ e) :
    p * (d' - d) ≤ A * (1 + 3.3 * ε) + ulp2 * e ∧ 0.97 * A - ulp2 * e ≤ p * (d' - d) := by
  have u0 := ulp2_pos
  have hbpos : 0 < b := lt_of_lt_of_le (mul_pos hp (by linarith)) hb.1
  -- `r` is the ratio of the exact and the computed derivative
  obtain ⟨r, hr⟩ : ∃ r, r = p / b := ⟨_, rfl⟩
  have hrb : r * b = p := by rw [hr]; field_simp
  have hr0 : 0 < r := by rw [hr]; positivity
  have hr1 : r ≤ 1 + 1.1 * ε := by
    rw [hr, div_le_iff₀ hbpos]
    have h1 : p * (1 - ε) * (1 + 1.1 * ε) ≤ b * (1 + 1.1 * ε) :=
      mul_le_mul_of_nonneg_right hb.1 (by linarith)
    have h2 : 1 ≤ (1 - ε) * (1 + 1.1 * ε) := by nlinarith
    have h3 : p ≤ p * ((1 - ε) * (1 + 1.1 * ε)) := by nlinarith
    linarith [h1, h3, mul_comm b (1 + 1.1 * ε), mul_assoc p (1 - ε) (1 + 1.1 * ε)]
  have hr2 : 1 - ε ≤ r := by
    rw [hr, le_div_iff₀ hbpos]
    have h1 : (1 - ε) * b ≤ (1 - ε) * (p * (1 + ε)) := mul_le_mul_of_nonneg_left hb.2 (by linarith)
    have h2 : (1 - ε) * (1 + ε) ≤ 1 := by nlinarith
    have h3 : p * ((1 - ε) * (1 + ε)) ≤ p := by nlinarith
    linarith [h1, h3, (by ring : (1 - ε) * (p * (1 + ε)) = p * ((1 - ε) * (1 + ε)))]
  have hAb : p * (A / b) = A * r := by rw [hr]; ring
  obtain ⟨q, hq⟩ : ∃ q, q = p * dx := ⟨_, rfl⟩
  have hq1 : q ≤ A * r * (1 + ulp2) := by
    have := mul_le_mul_of_nonneg_left hdx.2 hp.le
    rw [← mul_assoc, hAb] at this
    linarith
  have hq2 : A * r * (1 - ulp2) ≤ q := by
    have := mul_le_mul_of_nonneg_left hdx.1 hp.le
    rw [← mul_assoc, hAb] at this
    linarith
  have hpd1 : p * d' ≤ (p * d + q) * (1 + ulp2) := by
    have := mul_le_mul_of_nonneg_left hd'.2 hp.le
    rw [hq]; linarith
  have hpd2 : (p * d + q) * (1 - ulp2) ≤ p * d' := by
    have := mul_le_mul_of_nonneg_left hd'.1 hp.le
    rw [hq]; linarith
  have hdp' : p * d ≤ e := by linarith
  have hpd0 : 0 ≤ p * d := by positivity
  have hAr : 0 < A * r := by positivity
  constructor
  · have c1 : A * r ≤ A * (1 + 1.1 * ε) := mul_le_mul_of_nonneg_left hr1 hA.le
    have c2 : q * (1 + ulp2) ≤ A * r * (1 + ulp2) * (1 + ulp2) :=
      mul_le_mul_of_nonneg_right hq1 (by linarith)
    have c3 : (1 + ulp2) * (1 + ulp2) ≤ 1 + 2.01 * ε := by nlinarith
    have c4 : A * r * ((1 + ulp2) * (1 + ulp2)) ≤ A * (1 + 1.1 * ε) * (1 + 2.01 * ε) := by
      have := mul_le_mul c1 c3 (by positivity)
        (mul_nonneg hA.le (by linarith))
      exact this
    have c5 : (1 + 1.1 * ε) * (1 + 2.01 * ε) ≤ 1 + 3.3 * ε := by nlinarith
    have c6 : A * ((1 + 1.1 * ε) * (1 + 2.01 * ε)) ≤ A * (1 + 3.3 * ε) :=
      mul_le_mul_of_nonneg_left c5 hA.le
    have c7 : p * d * ulp2 ≤ e * ulp2 := mul_le_mul_of_nonneg_right hdp' u0.le
    nlinarith [c2, c4, c6, c7, hpd1]
  · have c1 : A * (1 - ε) ≤ A * r := mul_le_mul_of_nonneg_left hr2 hA.le
    have c2 : A * r * (1 - ulp2) * (1 - ulp2) ≤ q * (1 - ulp2) :=
      mul_le_mul_of_nonneg_right hq2 (by linarith)
    have c3 : 1 - 2 * ε ≤ (1 - ulp2) * (1 - ulp2) := by nlinarith
    have c4 : A * (1 - ε) * (1 - 2 * ε) ≤ A * r * ((1 - ulp2) * (1 - ulp2)) :=
      mul_le_mul c1 c3 (by linarith) hAr.le
    have c5 : 0.97 ≤ (1 - ε) * (1 - 2 * ε) := by nlinarith
    have c6 : A * 0.97 ≤ A * ((1 - ε) * (1 - 2 * ε)) := mul_le_mul_of_nonneg_left c5 hA.le
    have c7 : p * d * ulp2 ≤ e * ulp2 := mul_le_mul_of_nonneg_right hdp' u0.le
    nlinarith [c2, c4, c6, c7, hpd2]

end Round

end Verif
