import Verif.Round.Union
import Verif.Round.Loops
import Mathlib.Analysis.Convex.SpecificFunctions.Basic

/-!
# Accuracy in double precision: lemmas
-/

namespace Verif

namespace Round

open XR

/-- Half of the distance between 1 and the next double precision number. -/
noncomputable def ulp2 : ℝ := (2 : ℝ) ^ (-53 : ℤ)

theorem ulp2_pos : 0 < ulp2 := pow_pos' _

theorem ulp2_small : ulp2 ≤ 1 / 1000000 := by unfold ulp2; norm_num

/-- `v` differs from `x` by at most the fraction `e` of `x`. -/
def Within (e x v : ℝ) : Prop := x * (1 - e) ≤ v ∧ v ≤ x * (1 + e)

theorem pow_mem {k : ℤ} (h1 : -1074 ≤ k) (h2 : k < 1024) : (2 : ℝ) ^ k ∈ doubles :=
  ⟨⟨1, k, by norm_num, h1, by simp⟩, by
    rw [abs_of_pos (pow_pos' k)]; exact zpow_lt_zpow_right₀ (by norm_num) h2⟩

/-- Rounding of a number in the normal range. -/
theorem toDouble_within {x : ℝ} (h1 : (2 : ℝ) ^ (-1022 : ℤ) ≤ x) (h2 : x ≤ (2 : ℝ) ^ (1023 : ℤ)) :
    ∃ v ∈ doubles, toDouble x = fin v ∧ Within ulp2 x v := by
  have hx : 0 < x := (pow_pos' _).trans_le h1
  have hL : -1022 ≤ Int.log 2 |x| := by
    rw [abs_of_pos hx]
    exact (Int.zpow_le_iff_le_log (by norm_num) hx).1 (by exact_mod_cast h1)
  have he : expo x = Int.log 2 |x| - 52 := max_eq_left (by omega)
  have herr := rnd_err x
  have hhalf : (2 : ℝ) ^ expo x / 2 ≤ x * ulp2 := by
    have hb := (log_bounds hx.ne').1
    rw [abs_of_pos hx] at hb he
    rw [he, ulp2, show Int.log 2 x - 52 = Int.log 2 x + (-53) + 1 by ring, zpow_add₀ (by norm_num),
      zpow_add₀ (by norm_num), zpow_one, mul_div_cancel_right₀ _ (by norm_num)]
    exact mul_le_mul_of_nonneg_right hb (pow_pos' _).le
  have h := abs_le.1 (herr.trans hhalf)
  have h0 : 0 ≤ rnd x := le_rnd (units_subset (by simp [units])) hx.le
  have ht : rnd x ≤ (2 : ℝ) ^ (1023 : ℤ) := rnd_le (pow_mem (by norm_num) (by norm_num)) h2
  have hd : toDouble x = fin (rnd x) := by
    unfold toDouble
    rw [if_neg, if_neg]
    · push Not
      exact (neg_lt_zero.2 (pow_pos' 1024)).trans_le h0
    · push Not
      exact ht.trans_lt (zpow_lt_zpow_right₀ (by norm_num) (by norm_num))
  refine ⟨rnd x, ?_, hd, ?_, ?_⟩
  · have := In.toDouble x
    rw [hd] at this
    exact this
  · linarith
  · linarith

/-- A nonnegative sum of double precision numbers, one of which may be negative, has a relative error
of at most half a last place, also when it underflows. -/
theorem sum_within {a b : ℝ} (ha : a ∈ doubles) (hb : b ∈ doubles) (s0 : 0 ≤ a + b)
    (h : a + b ≤ (2 : ℝ) ^ (1023 : ℤ)) :
    ∃ v ∈ doubles, toDouble (a + b) = fin v ∧ Within ulp2 (a + b) v := by
  rcases le_or_gt ((2 : ℝ) ^ (-1022 : ℤ)) (a + b) with h1 | h1
  · exact toDouble_within h1 h
  · have form : ∀ {q : ℝ}, q ∈ doubles → ∃ c : ℤ, q = c * (2 : ℝ) ^ (-1074 : ℤ) := by
      rintro q ⟨⟨m, e, _, he, rfl⟩, _⟩
      exact mul_zpow_eq he
    obtain ⟨c, hc⟩ := form ha
    obtain ⟨c', hc'⟩ := form hb
    have hs : a + b = ((c + c' : ℤ) : ℝ) * (2 : ℝ) ^ (-1074 : ℤ) := by
      rw [hc, hc']; push_cast; ring
    have hd : a + b ∈ doubles := by
      refine ⟨⟨c + c', -1074, ?_, le_rfl, hs⟩, ?_⟩
      · have h0 : 0 ≤ c + c' := by
          have : 0 ≤ ((c + c' : ℤ) : ℝ) := by
            by_contra hneg
            push Not at hneg
            have := mul_neg_of_neg_of_pos hneg (pow_pos' (-1074))
            rw [← hs] at this
            linarith
          exact_mod_cast this
        rw [abs_of_nonneg h0]
        have : ((c + c' : ℤ) : ℝ) < (2 : ℝ) ^ (52 : ℤ) := by
          have h2 : ((c + c' : ℤ) : ℝ) * (2 : ℝ) ^ (-1074 : ℤ) <
              (2 : ℝ) ^ (52 : ℤ) * (2 : ℝ) ^ (-1074 : ℤ) := by
            rw [← hs, ← zpow_add₀ (by norm_num)]
            exact h1
          exact lt_of_mul_lt_mul_right h2 (pow_pos' _).le
        have h3 : ((c + c' : ℤ) : ℝ) < ((2 ^ 52 : ℤ) : ℝ) := by
          refine this.trans_le (le_of_eq ?_)
          norm_num
        have h4 : c + c' < 2 ^ 52 := by exact_mod_cast h3
        refine h4.le.trans ?_
        norm_num
      · rw [abs_of_nonneg s0]
        exact h1.trans (zpow_lt_zpow_right₀ (by norm_num) (by norm_num))
    refine ⟨a + b, hd, toDouble_self hd, ?_, ?_⟩
    · nlinarith [ulp2_pos]
    · nlinarith [ulp2_pos]

/-- The same for two nonnegative numbers. -/
theorem add_within {a b : ℝ} (ha : a ∈ doubles) (hb : b ∈ doubles) (a0 : 0 ≤ a) (b0 : 0 ≤ b)
    (h : a + b ≤ (2 : ℝ) ^ (1023 : ℤ)) :
    ∃ v ∈ doubles, toDouble (a + b) = fin v ∧ Within ulp2 (a + b) v :=
  sum_within ha hb (add_nonneg a0 b0) h

/-! ## Products -/

/-- The product of a number known up to a relative error and an exact one. -/
theorem mul_within {e x y v : ℝ} (he0 : 0 ≤ e) (he : e ≤ 1 / 1000) (hx : 0 < x) (hy : 0 < y)
    (hv : Within e x v) (h1 : (2 : ℝ) ^ (-1000 : ℤ) ≤ x * y) (h2 : x * y ≤ (2 : ℝ) ^ (1000 : ℤ)) :
    ∃ w ∈ doubles, toDouble (v * y) = fin w ∧
      x * y * ((1 - e) * (1 - ulp2)) ≤ w ∧ w ≤ x * y * ((1 + e) * (1 + ulp2)) := by
  have hxy : 0 < x * y := mul_pos hx hy
  have b1 : x * y * (1 - e) ≤ v * y := by
    have := mul_le_mul_of_nonneg_right hv.1 hy.le
    linarith
  have b2 : v * y ≤ x * y * (1 + e) := by
    have := mul_le_mul_of_nonneg_right hv.2 hy.le
    linarith
  have l1 : (2 : ℝ) ^ (-1022 : ℤ) ≤ v * y := by
    refine le_trans ?_ b1
    calc (2 : ℝ) ^ (-1022 : ℤ) ≤ (2 : ℝ) ^ (-1001 : ℤ) :=
          zpow_le_zpow_right₀ (by norm_num) (by norm_num)
      _ = (2 : ℝ) ^ (-1000 : ℤ) * (1 / 2) := by
          rw [show (-1001 : ℤ) = -1000 + -1 by norm_num, zpow_add₀ (by norm_num)]; norm_num
      _ ≤ x * y * (1 - e) := mul_le_mul h1 (by linarith) (by norm_num) hxy.le
  have l2 : v * y ≤ (2 : ℝ) ^ (1023 : ℤ) := by
    refine b2.trans ?_
    calc x * y * (1 + e) ≤ (2 : ℝ) ^ (1000 : ℤ) * 2 :=
          mul_le_mul h2 (by linarith) (by linarith) (pow_pos' _).le
      _ = (2 : ℝ) ^ (1001 : ℤ) := by
          rw [show (1001 : ℤ) = 1000 + 1 by norm_num, zpow_add₀ (by norm_num), zpow_one]
      _ ≤ (2 : ℝ) ^ (1023 : ℤ) := zpow_le_zpow_right₀ (by norm_num) (by norm_num)
  obtain ⟨w, hw, hd, w1, w2⟩ := toDouble_within l1 l2
  have hu := ulp2_pos
  have hu' := ulp2_small
  refine ⟨w, hw, hd, ?_, ?_⟩
  · rw [← mul_assoc]
    exact (mul_le_mul_of_nonneg_right b1 (by linarith)).trans w1
  · rw [← mul_assoc]
    exact w2.trans (mul_le_mul_of_nonneg_right b2 (by linarith))

/-- The partial products of the four factors stay well inside the range of double precision. -/
def Moderate (d x y z : ℝ) : Prop :=
  ((2 : ℝ) ^ (-1000 : ℤ) ≤ d * x ∧ d * x ≤ (2 : ℝ) ^ (1000 : ℤ)) ∧
  ((2 : ℝ) ^ (-1000 : ℤ) ≤ d * x * y ∧ d * x * y ≤ (2 : ℝ) ^ (1000 : ℤ)) ∧
  ((2 : ℝ) ^ (-1000 : ℤ) ≤ d * x * y * z ∧ d * x * y * z ≤ (2 : ℝ) ^ (1000 : ℤ))

theorem within_of {a b c e e1 e2 : ℝ} (hx : 0 < a) (h1 : a * b ≤ e) (h2 : e ≤ a * c)
    (hb : 1 - e1 ≤ b) (hc : c ≤ 1 + e2) (h12 : e1 ≤ e2) : Within e2 a e :=
  ⟨(mul_le_mul_of_nonneg_left (by linarith) hx.le).trans h1,
    h2.trans (mul_le_mul_of_nonneg_left hc hx.le)⟩

/-- The computed product of three factors has a relative error below three half last places (plus
a little). -/
theorem prod3_within {d x y : ℝ} (hd : 0 < d) (hx : 0 < x) (hy : 0 < y)
    (h1 : (2 : ℝ) ^ (-1000 : ℤ) ≤ d * x ∧ d * x ≤ (2 : ℝ) ^ (1000 : ℤ))
    (h2 : (2 : ℝ) ^ (-1000 : ℤ) ≤ d * x * y ∧ d * x * y ≤ (2 : ℝ) ^ (1000 : ℤ)) :
    ∃ w ∈ doubles, prod3 binary64 (fin d) (fin x) (fin y) = fin w ∧
      Within (2.1 * ulp2) (d * x * y) w := by
  have hu := ulp2_pos
  have hu' := ulp2_small
  obtain ⟨v, _, ev, hv1, hv2⟩ := mul_within (e := 0) le_rfl (by norm_num) hd hx
    (v := d) ⟨by simp, by simp⟩ h1.1 h1.2
  have hv : Within ulp2 (d * x) v := ⟨by simpa using hv1, by simpa using hv2⟩
  obtain ⟨w, hw, ew, hw1, hw2⟩ := mul_within hu.le (by linarith) (mul_pos hd hx) hy hv h2.1 h2.2
  refine ⟨w, hw, ?_, ?_⟩
  · show roundXR (roundXR (fin d * fin x) * fin y) = _
    rw [show roundXR (fin d * fin x) = fin v from ev]
    exact ew
  · refine within_of (by positivity) hw1 hw2 (e1 := 2.1 * ulp2) ?_ ?_ le_rfl
    · nlinarith
    · nlinarith

/-- The same for four factors. -/
theorem prod4_within {d x y z : ℝ} (hd : 0 < d) (hx : 0 < x) (hy : 0 < y) (hz : 0 < z)
    (h : Moderate d x y z) :
    ∃ w ∈ doubles, prod4 binary64 (fin d) (fin x) (fin y) (fin z) = fin w ∧
      Within (3.2 * ulp2) (d * x * y * z) w := by
  have hu := ulp2_pos
  have hu' := ulp2_small
  obtain ⟨v, _, ev, hv⟩ := prod3_within hd hx hy h.1 h.2.1
  obtain ⟨w, hw, ew, hw1, hw2⟩ := mul_within (e := 2.1 * ulp2) (by linarith) (by linarith)
    (by positivity : 0 < d * x * y) hz hv h.2.2.1 h.2.2.2
  refine ⟨w, hw, ?_, ?_⟩
  · show roundXR (prod3 binary64 (fin d) (fin x) (fin y) * fin z) = _
    rw [ev]
    exact ew
  · refine within_of (by positivity) hw1 hw2 (e1 := 3.2 * ulp2) ?_ ?_ le_rfl
    · nlinarith
    · nlinarith

/-! ## From the product to the probability -/

/-- `t / (1 + t)`, evaluated in double precision at a number close to `t`. -/
theorem fit_within {e t w : ℝ} (he0 : 0 ≤ e) (he : e ≤ 4 * ulp2) (ht : 0 < t)
    (h1 : (2 : ℝ) ^ (-1000 : ℤ) ≤ t) (h2 : t ≤ (2 : ℝ) ^ (1000 : ℤ)) (hw : Within e t w) :
    ∃ p ∈ doubles, binary64.div (fin w) (binary64.add 1 (fin w)) = fin p ∧
      Within (e + 2.1 * ulp2) (t / (1 + t)) p := by
  have hu := ulp2_pos
  have hu' := ulp2_small
  have hwpos : 0 < w := lt_of_lt_of_le (mul_pos ht (by linarith)) hw.1
  have hw2 : w ≤ (2 : ℝ) ^ (1001 : ℤ) := by
    refine hw.2.trans ?_
    rw [show (1001 : ℤ) = 1000 + 1 by norm_num, zpow_add₀ (by norm_num), zpow_one]
    exact mul_le_mul h2 (by linarith) (by linarith) (pow_pos' _).le
  have hs2 : 1 + w ≤ (2 : ℝ) ^ (1002 : ℤ) := by
    rw [show (1002 : ℤ) = 1001 + 1 by norm_num, zpow_add₀ (by norm_num), zpow_one]
    have : (1 : ℝ) ≤ (2 : ℝ) ^ (1001 : ℤ) := one_le_zpow₀ (by norm_num) (by norm_num)
    generalize (2 : ℝ) ^ (1001 : ℤ) = m at *
    linarith
  obtain ⟨s, _, es, s1, s2⟩ := toDouble_within (x := 1 + w)
    (le_trans (zpow_le_one_of_nonpos₀ (by norm_num) (by norm_num)) (by linarith))
    (hs2.trans (zpow_le_zpow_right₀ (by norm_num) (by norm_num)))
  have hspos : 0 < s := lt_of_lt_of_le (mul_pos (by linarith) (by linarith)) s1
  have ht1 : 0 < 1 + t := by linarith
  have hp : 0 < t / (1 + t) := by positivity
  -- the quotient of the computed numbers
  have q1 : t / (1 + t) * ((1 - e) / (1 + ulp2)) ≤ w / s := by
    rw [div_mul_div_comm, div_le_div_iff₀ (by positivity) hspos]
    have a1 : s ≤ (1 + w) * (1 + ulp2) := s2
    have a2 : t * (1 - e) * (1 + w) ≤ w * (1 + t) := by nlinarith [hw.1, mul_pos ht hwpos]
    calc t * (1 - e) * s ≤ t * (1 - e) * ((1 + w) * (1 + ulp2)) :=
          mul_le_mul_of_nonneg_left a1 (mul_nonneg ht.le (by linarith))
      _ = t * (1 - e) * (1 + w) * (1 + ulp2) := by ring
      _ ≤ w * (1 + t) * (1 + ulp2) := mul_le_mul_of_nonneg_right a2 (by linarith)
      _ = w * ((1 + t) * (1 + ulp2)) := by ring
  have q2 : w / s ≤ t / (1 + t) * ((1 + e) / (1 - ulp2)) := by
    have hm : 0 < 1 - ulp2 := by linarith
    rw [div_mul_div_comm, div_le_div_iff₀ hspos (by positivity)]
    have a1 : (1 + w) * (1 - ulp2) ≤ s := s1
    have a2 : w * (1 + t) ≤ t * (1 + e) * (1 + w) := by nlinarith [hw.2, mul_pos ht hwpos]
    calc w * ((1 + t) * (1 - ulp2)) = w * (1 + t) * (1 - ulp2) := by ring
      _ ≤ t * (1 + e) * (1 + w) * (1 - ulp2) := mul_le_mul_of_nonneg_right a2 hm.le
      _ = t * (1 + e) * ((1 + w) * (1 - ulp2)) := by ring
      _ ≤ t * (1 + e) * s := mul_le_mul_of_nonneg_left a1 (by positivity)
  have l1 : (2 : ℝ) ^ (-1022 : ℤ) ≤ w / s := by
    refine le_trans ?_ q1
    have b1 : (2 : ℝ) ^ (-1001 : ℤ) ≤ t / (1 + t) := by
      rw [le_div_iff₀ ht1, show (-1001 : ℤ) = -1000 + -1 by norm_num, zpow_add₀ (by norm_num)]
      have : (2 : ℝ) ^ (-1 : ℤ) = 1 / 2 := by norm_num
      rw [this]
      have c1 : (2 : ℝ) ^ (-1000 : ℤ) ≤ 1 := zpow_le_one_of_nonpos₀ (by norm_num) (by norm_num)
      generalize (2 : ℝ) ^ (-1000 : ℤ) = m at *
      nlinarith
    have b2 : (1 / 2 : ℝ) ≤ (1 - e) / (1 + ulp2) := by
      rw [le_div_iff₀ (by linarith)]; linarith
    calc (2 : ℝ) ^ (-1022 : ℤ) ≤ (2 : ℝ) ^ (-1002 : ℤ) :=
          zpow_le_zpow_right₀ (by norm_num) (by norm_num)
      _ = (2 : ℝ) ^ (-1001 : ℤ) * (1 / 2) := by
          rw [show (-1002 : ℤ) = -1001 + -1 by norm_num, zpow_add₀ (by norm_num)]; norm_num
      _ ≤ _ := mul_le_mul b1 b2 (by norm_num) hp.le
  have l2 : w / s ≤ (2 : ℝ) ^ (1023 : ℤ) := by
    refine q2.trans ?_
    have b1 : t / (1 + t) ≤ 1 := (div_le_one ht1).2 (by linarith)
    have b2 : (1 + e) / (1 - ulp2) ≤ 2 := by rw [div_le_iff₀ (by linarith)]; linarith
    calc _ ≤ (1 : ℝ) * 2 := mul_le_mul b1 b2 (div_nonneg (by linarith) (by linarith)) zero_le_one
      _ = (2 : ℝ) ^ (1 : ℤ) := by norm_num
      _ ≤ _ := zpow_le_zpow_right₀ (by norm_num) (by norm_num)
  obtain ⟨p, hpd, ep, p1, p2⟩ := toDouble_within l1 l2
  refine ⟨p, hpd, ?_, ?_⟩
  · show roundXR (fin w / roundXR (1 + fin w)) = _
    rw [show roundXR (1 + fin w) = fin s from es, fin_div_fin w s hspos.ne']
    exact ep
  · refine within_of hp (b := (1 - e) / (1 + ulp2) * (1 - ulp2))
      (c := (1 + e) / (1 - ulp2) * (1 + ulp2)) (e1 := e + 2.1 * ulp2) ?_ ?_ ?_ ?_ le_rfl
    · rw [← mul_assoc]
      exact (mul_le_mul_of_nonneg_right q1 (by linarith)).trans p1
    · rw [← mul_assoc]
      exact p2.trans (mul_le_mul_of_nonneg_right q2 (by linarith))
    · rw [div_mul_eq_mul_div, le_div_iff₀ (by linarith)]
      nlinarith
    · rw [div_mul_eq_mul_div, div_le_iff₀ (by linarith)]
      nlinarith

/-! ## The exponential form -/

/-- Rounding of a negative number in the normal range. -/
theorem toDouble_neg_within {x : ℝ} (h1 : (2 : ℝ) ^ (-1022 : ℤ) ≤ x)
    (h2 : x ≤ (2 : ℝ) ^ (1023 : ℤ)) :
    ∃ v ∈ doubles, toDouble (-x) = fin (-v) ∧ Within ulp2 x v := by
  have hx : 0 < x := (pow_pos' _).trans_le h1
  have hL : -1022 ≤ Int.log 2 |x| := by
    rw [abs_of_pos hx]
    exact (Int.zpow_le_iff_le_log (by norm_num) hx).1 (by exact_mod_cast h1)
  have he : expo (-x) = Int.log 2 |x| - 52 := by
    rw [expo, abs_neg]; exact max_eq_left (by omega)
  have herr := rnd_err (-x)
  have hhalf : (2 : ℝ) ^ expo (-x) / 2 ≤ x * ulp2 := by
    have hb := (log_bounds hx.ne').1
    rw [abs_of_pos hx] at hb he
    rw [he, ulp2, show Int.log 2 x - 52 = Int.log 2 x + (-53) + 1 by ring, zpow_add₀ (by norm_num),
      zpow_add₀ (by norm_num), zpow_one, mul_div_cancel_right₀ _ (by norm_num)]
    exact mul_le_mul_of_nonneg_right hb (pow_pos' _).le
  have h := abs_le.1 (herr.trans hhalf)
  have h0 : rnd (-x) ≤ 0 := rnd_le (units_subset (by simp [units])) (by linarith)
  have ht : -(2 : ℝ) ^ (1023 : ℤ) ≤ rnd (-x) :=
    le_rnd (Faithful.binary64.neg_mem _ (pow_mem (by norm_num) (by norm_num)))
      (neg_le_neg h2)
  have hd : toDouble (-x) = fin (rnd (-x)) := by
    unfold toDouble
    rw [if_neg, if_neg]
    · push Not
      exact lt_of_lt_of_le (neg_lt_neg (zpow_lt_zpow_right₀ (by norm_num) (by norm_num))) ht
    · push Not
      exact h0.trans_lt (pow_pos' 1024)
  refine ⟨-rnd (-x), ?_, by rw [neg_neg]; exact hd, ?_, ?_⟩
  · have := In.toDouble (-x)
    rw [hd] at this
    exact Faithful.binary64.neg_mem _ this
  · linarith
  · linarith

/-- `1 - exp (-t)` is concave: scaling `t` down scales it down by at most as much. -/
theorem exp_scale {t c : ℝ} (hc0 : 0 ≤ c) (hc1 : c ≤ 1) :
    c * (1 - Real.exp (-t)) ≤ 1 - Real.exp (-(c * t)) := by
  have := convexOn_exp.2 (Set.mem_univ (0 : ℝ)) (Set.mem_univ (-t)) (sub_nonneg.2 hc1) hc0
    (by ring)
  simp only [smul_eq_mul, mul_zero, zero_add, Real.exp_zero, mul_one, mul_neg] at this
  linarith

/-- `1 - exp (-w)` for a number `w` close to `t`. -/
theorem exp_within {e t w : ℝ} (he0 : 0 ≤ e) (ht : 0 < t) (hw0 : 0 < w) (hw : Within e t w) :
    Within e (1 - Real.exp (-t)) (1 - Real.exp (-w)) := by
  have hpos : 0 < 1 - Real.exp (-t) := by
    have : Real.exp (-t) < 1 := Real.exp_lt_one_iff.2 (by linarith)
    linarith
  rcases le_total w t with h | h
  · have h1 := exp_scale (t := t) (c := w / t) (by positivity) ((div_le_one ht).2 h)
    rw [div_mul_cancel₀ _ ht.ne'] at h1
    have h2 : 1 - e ≤ w / t := by rw [le_div_iff₀ ht]; linarith [hw.1]
    have h3 : Real.exp (-t) ≤ Real.exp (-w) := Real.exp_le_exp.2 (by linarith)
    constructor
    · nlinarith
    · nlinarith
  · have h1 := exp_scale (t := w) (c := t / w) (by positivity) ((div_le_one hw0).2 h)
    rw [div_mul_cancel₀ _ hw0.ne'] at h1
    have h2 : w ≤ t * (1 + e) := hw.2
    have h3 : Real.exp (-w) ≤ Real.exp (-t) := Real.exp_le_exp.2 (by linarith)
    constructor
    · nlinarith
    · have h4 : 1 - Real.exp (-w) ≤ w / t * (1 - Real.exp (-t)) := by
        rw [div_mul_eq_mul_div, le_div_iff₀ ht]
        rw [div_mul_eq_mul_div, div_le_iff₀ hw0] at h1
        linarith
      have h5 : w / t ≤ 1 + e := by rw [div_le_iff₀ ht]; linarith
      nlinarith

/-- `1 - exp (-t)`, evaluated in double precision at a number close to `t`. -/
theorem inv_within' {e t w : ℝ} (he0 : 0 ≤ e) (he : e ≤ 1 / 100) (ht : 0 < t)
    (h1 : (2 : ℝ) ^ (-1000 : ℤ) ≤ t) (hw : Within e t w) :
    ∃ p ∈ doubles, -(binary64.expm1 (-fin w)) = fin p ∧
      Within (e + 1.1 * ulp2) (1 - Real.exp (-t)) p := by
  have hu := ulp2_pos
  have hu' := ulp2_small
  have hwpos : 0 < w := lt_of_lt_of_le (mul_pos ht (by linarith)) hw.1
  have hq := exp_within he0 ht hwpos hw
  have hp : 0 < 1 - Real.exp (-t) := by
    have : Real.exp (-t) < 1 := Real.exp_lt_one_iff.2 (by linarith)
    linarith
  have hp1 : 1 - Real.exp (-t) ≤ 1 := by linarith [Real.exp_pos (-t)]
  have b1 : (2 : ℝ) ^ (-1001 : ℤ) ≤ 1 - Real.exp (-t) := by
    have c0 : t / (1 + t) ≤ 1 - Real.exp (-t) := by
      have h3 : 1 + t ≤ Real.exp t := by linarith [Real.add_one_le_exp t]
      have h4 : Real.exp (-t) ≤ 1 / (1 + t) := by
        rw [Real.exp_neg, ← one_div]
        exact one_div_le_one_div_of_le (by linarith) h3
      have h5 : t / (1 + t) = 1 - 1 / (1 + t) := by field_simp; ring
      linarith
    refine le_trans ?_ c0
    rw [le_div_iff₀ (by linarith), show (-1001 : ℤ) = -1000 + -1 by norm_num,
      zpow_add₀ (by norm_num)]
    have : (2 : ℝ) ^ (-1 : ℤ) = 1 / 2 := by norm_num
    rw [this]
    have c1 : (2 : ℝ) ^ (-1000 : ℤ) ≤ 1 := zpow_le_one_of_nonpos₀ (by norm_num) (by norm_num)
    generalize (2 : ℝ) ^ (-1000 : ℤ) = m at *
    nlinarith
  have l1 : (2 : ℝ) ^ (-1022 : ℤ) ≤ 1 - Real.exp (-w) := by
    refine le_trans ?_ hq.1
    calc (2 : ℝ) ^ (-1022 : ℤ) ≤ (2 : ℝ) ^ (-1002 : ℤ) :=
          zpow_le_zpow_right₀ (by norm_num) (by norm_num)
      _ = (2 : ℝ) ^ (-1001 : ℤ) * (1 / 2) := by
          rw [show (-1002 : ℤ) = -1001 + -1 by norm_num, zpow_add₀ (by norm_num)]; norm_num
      _ ≤ _ := mul_le_mul b1 (by linarith) (by norm_num) hp.le
  have l2 : 1 - Real.exp (-w) ≤ (2 : ℝ) ^ (1023 : ℤ) := by
    refine le_trans ?_ (one_le_zpow₀ (by norm_num : (1 : ℝ) ≤ 2) (by norm_num : (0 : ℤ) ≤ 1023))
    linarith [Real.exp_pos (-w)]
  obtain ⟨p, hpd, ep, p1, p2⟩ := toDouble_neg_within l1 l2
  refine ⟨p, hpd, ?_, ?_⟩
  · show -(roundXR (fin (Real.exp (-w) - 1))) = _
    rw [show Real.exp (-w) - 1 = -(1 - Real.exp (-w)) by ring,
      show roundXR (fin (-(1 - Real.exp (-w)))) = fin (-p) from ep]
    show fin (- -p) = fin p
    rw [neg_neg]
  · refine within_of hp (b := (1 - e) * (1 - ulp2)) (c := (1 + e) * (1 + ulp2))
      (e1 := e + 1.1 * ulp2) ?_ ?_ ?_ ?_ le_rfl
    · rw [← mul_assoc]
      exact (mul_le_mul_of_nonneg_right hq.1 (by linarith)).trans p1
    · rw [← mul_assoc]
      exact p2.trans (mul_le_mul_of_nonneg_right hq.2 (by linarith))
    · nlinarith
    · nlinarith

/-- The same with a smaller error of the argument. -/
theorem inv_within {e t w : ℝ} (he0 : 0 ≤ e) (he : e ≤ 4 * ulp2) (ht : 0 < t)
    (h1 : (2 : ℝ) ^ (-1000 : ℤ) ≤ t) (hw : Within e t w) :
    ∃ p ∈ doubles, -(binary64.expm1 (-fin w)) = fin p ∧
      Within (e + 1.1 * ulp2) (1 - Real.exp (-t)) p :=
  inv_within' he0 (by linarith [ulp2_small]) ht h1 hw

/-! ## Sums -/

/-- A sum of terms known up to a relative error, the partial sums being bounded. -/
theorem add_step {a : ℝ} (ha0 : 0 ≤ a) (ha1 : a ≤ 1) {k : ℕ} {E e p q : ℝ} (he : e ∈ doubles)
    (hp : p ∈ doubles) (e0 : 0 ≤ e) (p0 : 0 ≤ p) (q0 : 0 ≤ q)
    (hE : E * ((1 - a) * (1 - ulp2) ^ k) ≤ e ∧ e ≤ E * ((1 + a) * (1 + ulp2) ^ k))
    (hq : Within a q p) (hb : e + p ≤ (2 : ℝ) ^ (1023 : ℤ)) :
    ∃ s ∈ doubles, binary64.add (fin e) (fin p) = fin s ∧
      (E + q) * ((1 - a) * (1 - ulp2) ^ (k + 1)) ≤ s ∧
      s ≤ (E + q) * ((1 + a) * (1 + ulp2) ^ (k + 1)) := by
  have hu := ulp2_pos
  have hu' := ulp2_small
  obtain ⟨s, hs, es, s1, s2⟩ := add_within he hp e0 p0 hb
  have m1 : (1 - ulp2) ^ k ≤ 1 := pow_le_one₀ (by linarith) (by linarith)
  have m2 : 1 ≤ (1 + ulp2) ^ k := one_le_pow₀ (by linarith)
  refine ⟨s, hs, es, ?_, ?_⟩
  · refine le_trans ?_ s1
    rw [pow_succ, ← mul_assoc, ← mul_assoc]
    refine mul_le_mul_of_nonneg_right ?_ (by linarith)
    have : q * ((1 - a) * (1 - ulp2) ^ k) ≤ q * (1 - a) :=
      mul_le_mul_of_nonneg_left (mul_le_of_le_one_right (by linarith) m1) q0
    linarith [hE.1, hq.1]
  · refine s2.trans ?_
    rw [pow_succ, ← mul_assoc, ← mul_assoc]
    refine mul_le_mul_of_nonneg_right ?_ (by linarith)
    have : q * (1 + a) ≤ q * ((1 + a) * (1 + ulp2) ^ k) :=
      mul_le_mul_of_nonneg_left (le_mul_of_one_le_right (by linarith) m2) q0
    linarith [hE.2, hq.2]

end Round

end Verif
