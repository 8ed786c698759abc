import Verif.Round.SolverLemmas
import Verif.Solver.FitLemmas
import Mathlib.Analysis.Complex.ExponentialBounds

/-!
# Accuracy of the function handed to the solver
-/

namespace Verif

namespace Round

open XR

/-! ## Relative errors -/

theorem Within.trans {e f x v w : ℝ} (hx : 0 ≤ x) (e0 : 0 ≤ e) (_e1 : e ≤ 1 / 1000) (f0 : 0 ≤ f)
    (f1 : f ≤ 1 / 1000) (h1 : Within e x v) (h2 : Within f v w) : Within (1.01 * (e + f)) x w := by
  have hef : e * f ≤ 0.001 * e := by nlinarith
  constructor
  · refine le_trans ?_ h2.1
    refine le_trans ?_ (mul_le_mul_of_nonneg_right h1.1 (by linarith))
    rw [mul_assoc]
    exact mul_le_mul_of_nonneg_left (by nlinarith) hx
  · refine h2.2.trans ?_
    refine (mul_le_mul_of_nonneg_right h1.2 (by linarith)).trans ?_
    rw [mul_assoc]
    exact mul_le_mul_of_nonneg_left (by nlinarith) hx

theorem Within.mul {e f x y v w : ℝ} (hx : 0 ≤ x) (hy : 0 ≤ y) (e0 : 0 ≤ e) (e1 : e ≤ 1 / 1000)
    (f0 : 0 ≤ f) (f1 : f ≤ 1 / 1000) (h1 : Within e x v) (h2 : Within f y w) :
    Within (1.01 * (e + f)) (x * y) (v * w) := by
  have hv : 0 ≤ v := le_trans (mul_nonneg hx (by linarith)) h1.1
  refine Within.trans (v := v * y) (mul_nonneg hx hy) e0 e1 f0 f1 ⟨?_, ?_⟩ ⟨?_, ?_⟩
  · have := mul_le_mul_of_nonneg_right h1.1 hy
    linarith
  · have := mul_le_mul_of_nonneg_right h1.2 hy
    linarith
  · have := mul_le_mul_of_nonneg_left h2.1 hv
    linarith
  · have := mul_le_mul_of_nonneg_left h2.2 hv
    linarith

theorem Within.div {e f x y v w : ℝ} (hx : 0 ≤ x) (hy : 0 < y) (e0 : 0 ≤ e) (e1 : e ≤ 1 / 1000)
    (f0 : 0 ≤ f) (f1 : f ≤ 1 / 1000) (h1 : Within e x v) (h2 : Within f y w) :
    Within (1.01 * (e + f)) (x / y) (v / w) := by
  have hw : 0 < w := lt_of_lt_of_le (mul_pos hy (by linarith)) h2.1
  have hef : f * (e + f) ≤ 0.002 * (e + f) := by nlinarith
  constructor
  · rw [div_mul_eq_mul_div, div_le_div_iff₀ hy hw]
    have c0 : 0 ≤ 1 - 1.01 * (e + f) := by nlinarith
    calc x * (1 - 1.01 * (e + f)) * w ≤ x * (1 - 1.01 * (e + f)) * (y * (1 + f)) :=
          mul_le_mul_of_nonneg_left h2.2 (mul_nonneg hx c0)
      _ = x * ((1 - 1.01 * (e + f)) * (1 + f)) * y := by ring
      _ ≤ x * (1 - e) * y :=
          mul_le_mul_of_nonneg_right (mul_le_mul_of_nonneg_left (by nlinarith) hx) hy.le
      _ ≤ v * y := mul_le_mul_of_nonneg_right h1.1 hy.le
  · rw [div_mul_eq_mul_div, div_le_div_iff₀ hw hy]
    calc v * y ≤ x * (1 + e) * y := mul_le_mul_of_nonneg_right h1.2 hy.le
      _ ≤ x * ((1 + 1.01 * (e + f)) * (1 - f)) * y :=
          mul_le_mul_of_nonneg_right (mul_le_mul_of_nonneg_left (by nlinarith) hx) hy.le
      _ = x * (1 + 1.01 * (e + f)) * (y * (1 - f)) := by ring
      _ ≤ x * (1 + 1.01 * (e + f)) * w :=
          mul_le_mul_of_nonneg_left h2.1 (mul_nonneg hx (by linarith))

theorem Within.mono {e e' x v : ℝ} (hx : 0 ≤ x) (h : Within e x v) (he : e ≤ e') : Within e' x v :=
  ⟨(mul_le_mul_of_nonneg_left (by linarith) hx).trans h.1,
    h.2.trans (mul_le_mul_of_nonneg_left (by linarith) hx)⟩

theorem Within.one_add {e x v : ℝ} (e0 : 0 ≤ e) (h : Within e x v) : Within e (1 + x) (1 + v) :=
  ⟨by linarith [h.1], by linarith [h.2]⟩

theorem Within.nonneg {e x v : ℝ} (hx : 0 ≤ x) (e1 : e ≤ 1) (h : Within e x v) : 0 ≤ v :=
  le_trans (mul_nonneg hx (by linarith)) h.1

/-! ## Ranges -/

theorem range_within' {v : ℝ} (h1 : 1 / (1000000 * big ^ 5) ≤ v) (h2 : v ≤ 1000000 * big ^ 5) :
    ∃ w ∈ doubles, toDouble v = fin w ∧ Within ulp2 v w := by
  have e : (1000000 : ℝ) * big ^ 5 ≤ (2 : ℝ) ^ (1020 : ℤ) := by
    have h : (2 : ℝ) ^ (1020 : ℤ) = (2 : ℝ) ^ (20 : ℤ) * (2 : ℝ) ^ (1000 : ℤ) := by
      rw [← zpow_add₀ two_ne_zero]; rfl
    rw [big_pow, h]
    have h0 : (0 : ℝ) ≤ (2 : ℝ) ^ (1000 : ℤ) := (pow_pos' 1000).le
    generalize (2 : ℝ) ^ (1000 : ℤ) = m at h0 ⊢
    have h1 : (1000000 : ℝ) ≤ (2 : ℝ) ^ (20 : ℤ) := by norm_num
    exact mul_le_mul_of_nonneg_right h1 h0
  have e' : (2 : ℝ) ^ (1020 : ℤ) ≤ (2 : ℝ) ^ (1023 : ℤ) :=
    zpow_le_zpow_right₀ (by norm_num) (by norm_num)
  refine toDouble_within (le_trans ?_ h1) ((h2.trans e).trans e')
  have hb : 0 < 1000000 * big ^ 5 := mul_pos (by norm_num) (pow_pos big_pos 5)
  rw [le_div_iff₀ hb]
  calc (2 : ℝ) ^ (-1022 : ℤ) * (1000000 * big ^ 5) ≤ (2 : ℝ) ^ (-1022 : ℤ) * (2 : ℝ) ^ (1020 : ℤ) :=
        mul_le_mul_of_nonneg_left e (pow_pos' _).le
    _ ≤ 1 := by rw [← zpow_add₀ (by norm_num)]; norm_num

/-- Between `1 / big` and `big`. -/
def Mid (v : ℝ) : Prop := 1 / big ≤ v ∧ v ≤ big

theorem Mid.pos {v : ℝ} (h : Mid v) : 0 < v := lt_of_lt_of_le (by have := big_pos; positivity) h.1

theorem Mid.mul {v w : ℝ} (h : Mid v) (h' : Mid w) :
    1 / big ^ 2 ≤ v * w ∧ v * w ≤ big ^ 2 := by
  have := big_pos
  constructor
  · calc 1 / big ^ 2 = 1 / big * (1 / big) := by field_simp
      _ ≤ v * w := mul_le_mul h.1 h'.1 (by positivity) h.pos.le
  · calc v * w ≤ big * big := mul_le_mul h.2 h'.2 h'.pos.le (by positivity)
      _ = big ^ 2 := by ring

theorem prod_ok {v : ℝ} (h : 1 / big ^ 2 ≤ v ∧ v ≤ big ^ 2) :
    (2 : ℝ) ^ (-1000 : ℤ) ≤ v ∧ v ≤ (2 : ℝ) ^ (1000 : ℤ) := by
  have B := big_ge
  have h2 : big ^ 2 ≤ big ^ 5 := pow_le_pow_right₀ (by linarith) (by norm_num)
  rw [← big_inv, ← big_pow]
  exact ⟨(one_div_le_one_div_of_le (by have := big_pos; positivity) h2).trans h.1, h.2.trans h2⟩

/-- The product of parameter and factor of the pair. -/
theorem scaled {c d tmp : ℝ} (hc : Mid c) (hd : Mid d) (ht : Within (2.1 * ulp2) c tmp) :
    ∃ w ∈ doubles, binary64.mul (fin d) (fin tmp) = fin w ∧ Within (3.2 * ulp2) (d * c) w := by
  have u0 := ulp2_pos
  have us := ulp2_small
  obtain ⟨h1, h2⟩ := prod_ok (hc.mul hd)
  obtain ⟨w, wm, ew, w1, w2⟩ := mul_within (e := 2.1 * ulp2) (by linarith) (by linarith) hc.pos hd.pos
    ht h1 h2
  refine ⟨w, wm, ?_, ?_⟩
  · show toDouble (d * tmp) = _
    rw [mul_comm]
    exact ew
  · rw [mul_comm d c]
    exact within_of (mul_pos hc.pos hd.pos) w1 w2 (e1 := 3.2 * ulp2) (by nlinarith) (by nlinarith)
      le_rfl

/-- Probability and derivative of the fitness model. -/
theorem core_fit {c d tmp : ℝ} (hc : Mid c) (hd : Mid d) (ht : Within (2.1 * ulp2) c tmp) :
    ∃ w, binary64.mul (fin d) (fin tmp) = fin w ∧
      ∃ p ∈ doubles, ∃ q ∈ doubles,
        binary64.div (fin w) (binary64.add 1 (fin w)) = fin p ∧
        binary64.div (fin tmp) (binary64.mul (binary64.add 1 (fin w)) (binary64.add 1 (fin w))) =
          fin q ∧
        Within (218 * ulp2) (d * c / (1 + d * c)) p ∧
        Within (218 * ulp2) (c / ((1 + d * c) * (1 + d * c))) q := by
  have u0 := ulp2_pos
  have us := ulp2_small
  have B := big_ge
  have B0 := big_pos
  obtain ⟨w, wm, ew, hw⟩ := scaled hc hd ht
  have hdc : 0 < d * c := mul_pos hd.pos hc.pos
  have hr := hd.mul hc
  obtain ⟨h1, h2⟩ := prod_ok hr
  obtain ⟨p, pm, ep, hp⟩ := fit_within (e := 3.2 * ulp2) (by linarith) (by linarith) hdc h1 h2 hw
  have hw0 : 0 ≤ w := hw.nonneg hdc.le (by linarith)
  have hw2 : w ≤ 2 * big ^ 2 := by
    refine hw.2.trans ?_
    calc d * c * (1 + 3.2 * ulp2) ≤ d * c * 2 := mul_le_mul_of_nonneg_left (by linarith) hdc.le
      _ ≤ 2 * big ^ 2 := by linarith [hr.2]
  have b25 : big ^ 2 ≤ big ^ 5 := pow_le_pow_right₀ (by linarith) (by norm_num)
  have b45 : big ^ 4 ≤ big ^ 5 := pow_le_pow_right₀ (by linarith) (by norm_num)
  have b2 : 1 ≤ big ^ 2 := one_le_pow₀ (by linarith)
  have b5 : 1 ≤ big ^ 5 := one_le_pow₀ (by linarith)
  obtain ⟨s, sm, es, hs⟩ := range_within' (v := 1 + w)
    (le_trans (by rw [div_le_one (by positivity)]; linarith) (by linarith : (1 : ℝ) ≤ 1 + w))
    (by linarith)
  have hs' : Within (4.3 * ulp2) (1 + d * c) s :=
    ((hw.one_add (by linarith)).trans (by linarith) (by linarith) (by linarith) u0.le
      (by linarith) hs).mono (by linarith) (by linarith)
  have s1 : 1 / 2 ≤ s := by
    refine le_trans ?_ hs.1
    nlinarith
  have s2 : s ≤ 6 * big ^ 2 := by
    refine hs.2.trans ?_
    have : (1 + w) * (1 + ulp2) ≤ (1 + w) * 2 := mul_le_mul_of_nonneg_left (by linarith) (by linarith)
    linarith
  have ss := hs'.mul (by linarith) (by linarith : 0 ≤ 1 + d * c) (by linarith) (by linarith)
    (by linarith) (by linarith) hs'
  have ss1 : 1 / 4 ≤ s * s := by nlinarith
  have ss2 : s * s ≤ 36 * big ^ 4 := by
    calc s * s ≤ (6 * big ^ 2) * (6 * big ^ 2) := mul_le_mul s2 s2 (by linarith) (by positivity)
      _ = 36 * big ^ 4 := by ring
  obtain ⟨r, rm, er, hr'⟩ := range_within' (v := s * s)
    (le_trans (by rw [div_le_iff₀ (by positivity)]; linarith) ss1) (by linarith)
  have hr2 : Within (9.9 * ulp2) ((1 + d * c) * (1 + d * c)) r :=
    (ss.trans (by positivity) (by linarith) (by linarith) u0.le (by linarith) hr').mono
      (by positivity) (by linarith)
  have r1 : 1 / 8 ≤ r := by
    refine le_trans ?_ hr'.1
    nlinarith
  have r2 : r ≤ 72 * big ^ 4 := by
    refine hr'.2.trans ?_
    have : s * s * (1 + ulp2) ≤ s * s * 2 := mul_le_mul_of_nonneg_left (by linarith) (by linarith)
    linarith
  have hq := ht.div hc.pos.le (by positivity : 0 < (1 + d * c) * (1 + d * c)) (by linarith)
    (by linarith) (by linarith) (by linarith) hr2
  have t1 : 1 / (2 * big) ≤ tmp := by
    refine le_trans ?_ ht.1
    calc 1 / (2 * big) = 1 / big * (1 / 2) := by field_simp
      _ ≤ c * (1 - 2.1 * ulp2) := mul_le_mul hc.1 (by linarith) (by norm_num) hc.pos.le
  have t2 : tmp ≤ 2 * big := by
    refine ht.2.trans ?_
    calc c * (1 + 2.1 * ulp2) ≤ c * 2 := mul_le_mul_of_nonneg_left (by linarith) hc.pos.le
      _ ≤ 2 * big := by linarith [hc.2]
  obtain ⟨q, qm, eq, hq'⟩ := range_within' (v := tmp / r)
    (by
      rw [le_div_iff₀ (by linarith)]
      refine le_trans ?_ t1
      rw [div_mul_eq_mul_div, div_le_div_iff₀ (by positivity) (by positivity)]
      have : r * (2 * big) ≤ 72 * big ^ 4 * (2 * big) := mul_le_mul_of_nonneg_right r2 (by linarith)
      have e : 72 * big ^ 4 * (2 * big) = 144 * big ^ 5 := by ring
      linarith)
    (by
      rw [div_le_iff₀ (by linarith)]
      have h5 : big ≤ big ^ 5 := le_self_pow₀ (by linarith) (by norm_num)
      nlinarith)
  refine ⟨w, ew, p, pm, q, qm, ep, ?_, hp.mono (by positivity) (by linarith), ?_⟩
  · have e1 : binary64.add 1 (fin w) = fin s := es
    rw [e1]
    have e2 : binary64.mul (fin s) (fin s) = fin r := er
    rw [e2]
    show roundXR (fin tmp / fin r) = _
    rw [fin_div_fin _ _ (by linarith)]
    exact eq
  · exact (hq.trans (by have := hc.pos; positivity) (by linarith) (by linarith) u0.le (by linarith)
      hq').mono (by have := hc.pos; positivity) (by linarith)

/-- Probability and derivative of the scale-invariant model. -/
theorem core_inv {c d tmp : ℝ} (hc : Mid c) (hd : Mid d) (h64 : d * c ≤ 64)
    (ht : Within (2.1 * ulp2) c tmp) :
    ∃ w, binary64.mul (fin d) (fin tmp) = fin w ∧
      ∃ p ∈ doubles, ∃ q ∈ doubles, -(binary64.expm1 (-fin w)) = fin p ∧
        binary64.mul (fin tmp) (binary64.exp (-fin w)) = fin q ∧
        Within (218 * ulp2) (1 - Real.exp (-(d * c))) p ∧
        Within (218 * ulp2) (c * Real.exp (-(d * c))) q := by
  have u0 := ulp2_pos
  have us := ulp2_small
  have B := big_ge
  have B0 := big_pos
  obtain ⟨w, wm, ew, hw⟩ := scaled hc hd ht
  have hdc : 0 < d * c := mul_pos hd.pos hc.pos
  have hr := hd.mul hc
  obtain ⟨h1, h2⟩ := prod_ok hr
  obtain ⟨p, pm, ep, hp⟩ := inv_within (e := 3.2 * ulp2) (by linarith) (by linarith) hdc h1 hw
  have hw0 : 0 ≤ w := hw.nonneg hdc.le (by linarith)
  have b5 : 1 ≤ big ^ 5 := one_le_pow₀ (by linarith)
  have b15 : big ≤ big ^ 5 := le_self_pow₀ (by linarith) (by norm_num)
  have b25 : big ^ 2 ≤ big ^ 5 := pow_le_pow_right₀ (by linarith) (by norm_num)
  -- the exponential
  have hd1 : |w - d * c| ≤ 204.8 * ulp2 := by
    rw [abs_le]
    constructor <;> nlinarith [hw.1, hw.2]
  have he : Within (206 * ulp2) (Real.exp (-(d * c))) (Real.exp (-w)) := by
    obtain ⟨k1, k2⟩ := abs_le.1 hd1
    have e : Real.exp (-w) = Real.exp (-(d * c)) * Real.exp (d * c - w) := by
      rw [← Real.exp_add]; ring_nf
    rw [e]
    have x1 : 1 - 206 * ulp2 ≤ Real.exp (d * c - w) := by
      have := Real.add_one_le_exp (d * c - w)
      linarith
    have x2 : Real.exp (d * c - w) ≤ 1 + 206 * ulp2 := by
      have y1 : 1 - 204.8 * ulp2 ≤ Real.exp (-(d * c - w)) := by
        have := Real.add_one_le_exp (-(d * c - w))
        linarith
      have y2 : Real.exp (-(d * c - w)) * Real.exp (d * c - w) = 1 := by
        rw [← Real.exp_add]; simp
      have y3 := Real.exp_pos (d * c - w)
      have y4 : (1 - 204.8 * ulp2) * Real.exp (d * c - w) ≤ 1 := by
        exact (mul_le_mul_of_nonneg_right y1 y3.le).trans y2.le
      have y5 : 1 ≤ (1 - 204.8 * ulp2) * (1 + 206 * ulp2) := by nlinarith
      have y6 : 0 < 1 - 204.8 * ulp2 := by linarith
      exact le_of_mul_le_mul_left (y4.trans y5) y6
    exact ⟨mul_le_mul_of_nonneg_left x1 (Real.exp_pos _).le,
      mul_le_mul_of_nonneg_left x2 (Real.exp_pos _).le⟩
  have w65 : w ≤ 65 := by
    have := (abs_le.1 hd1).2
    linarith
  have ex1 : 1 / big ≤ Real.exp (-w) := by
    have h3 : Real.exp 65 ≤ big := by
      have : Real.exp 65 = Real.exp 1 ^ 65 := by rw [← Real.exp_nat_mul]; norm_num
      rw [this]
      calc Real.exp 1 ^ 65 ≤ (4 : ℝ) ^ 65 :=
            pow_le_pow_left₀ (Real.exp_pos _).le (by linarith [Real.exp_one_lt_d9]) _
        _ ≤ (2 : ℝ) ^ (200 : ℤ) := by norm_num
    have h4 : Real.exp w ≤ big := (Real.exp_le_exp.2 w65).trans h3
    rw [Real.exp_neg, ← one_div]
    exact one_div_le_one_div_of_le (Real.exp_pos _) h4
  have ex2 : Real.exp (-w) ≤ 1 := Real.exp_le_one_iff.2 (by linarith)
  obtain ⟨g, gm, eg, hg⟩ := range_within' (v := Real.exp (-w))
    (le_trans (one_div_le_one_div_of_le B0 (by linarith)) ex1) (by linarith)
  have hg' : Within (209.2 * ulp2) (Real.exp (-(d * c))) g :=
    (he.trans (Real.exp_pos _).le (by linarith) (by linarith) u0.le (by linarith) hg).mono
      (Real.exp_pos _).le (by linarith)
  have g1 : 1 / (2 * big) ≤ g := by
    refine le_trans ?_ hg.1
    calc 1 / (2 * big) = 1 / big * (1 / 2) := by field_simp
      _ ≤ Real.exp (-w) * (1 - ulp2) := mul_le_mul ex1 (by linarith) (by norm_num) (Real.exp_pos _).le
  have g2 : g ≤ 2 := by
    refine hg.2.trans ?_
    nlinarith [Real.exp_pos (-w)]
  have t1 : 1 / (2 * big) ≤ tmp := by
    refine le_trans ?_ ht.1
    calc 1 / (2 * big) = 1 / big * (1 / 2) := by field_simp
      _ ≤ c * (1 - 2.1 * ulp2) := mul_le_mul hc.1 (by linarith) (by norm_num) hc.pos.le
  have t2 : tmp ≤ 2 * big := by
    refine ht.2.trans ?_
    calc c * (1 + 2.1 * ulp2) ≤ c * 2 := mul_le_mul_of_nonneg_left (by linarith) hc.pos.le
      _ ≤ 2 * big := by linarith [hc.2]
  have hpos : 0 < 1 / (2 * big) := by positivity
  obtain ⟨q, qm, eq, hq⟩ := range_within' (v := tmp * g)
    (by
      refine le_trans ?_ (mul_le_mul t1 g1 hpos.le (by linarith))
      rw [div_mul_div_comm, one_mul]
      refine one_div_le_one_div_of_le (by positivity) ?_
      have e : 2 * big * (2 * big) = 4 * big ^ 2 := by ring
      rw [e]
      linarith)
    (by
      have : tmp * g ≤ 2 * big * 2 := mul_le_mul t2 g2 (by linarith) (by linarith)
      linarith)
  have hm := ht.mul hc.pos.le (Real.exp_pos (-(d * c))).le (by linarith) (by linarith) (by linarith)
    (by linarith) hg'
  refine ⟨w, ew, p, pm, q, qm, ep, ?_, ?_, ?_⟩
  · show roundXR (fin tmp * roundXR (XR.exp (fin (-w)))) = _
    have e1 : roundXR (XR.exp (fin (-w))) = fin g := eg
    rw [e1]
    exact eq
  · refine hp.mono ?_ (by linarith)
    have := Real.exp_le_one_iff.2 (neg_nonpos.2 hdc.le)
    linarith
  · have hpos : 0 ≤ c * Real.exp (-(d * c)) := mul_nonneg hc.pos.le (Real.exp_pos _).le
    exact (hm.trans hpos (by linarith) (by linarith) u0.le (by linarith) hq).mono hpos (by linarith)

end Round

end Verif
