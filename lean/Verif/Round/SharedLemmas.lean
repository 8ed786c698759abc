import Verif.Round.SharedModel
import Verif.Round.AllLemmas
import Verif.Round.FitSetup

/-!
# The fit with one parameter for all labels in double precision: lemmas
-/

namespace Verif

namespace Round

open XR Fit
open scoped NNReal

/-! ## Probability and derivative from the sum over the labels -/

/-- The product of the parameter and the sum over the labels. -/
private theorem scaled_sum {η c d tmp : ℝ} (η0 : 0 ≤ η) (η1 : η ≤ 210) (hc : Mid c) (hd : Mid d)
    (ht : Within (η * ulp2) c tmp) :
    ∃ w ∈ doubles, binary64.mul (fin d) (fin tmp) = fin w ∧
      Within ((η + 1.2) * ulp2) (d * c) w := by
  have u0 := ulp2_pos
  have us : ulp2 ≤ 1 / 1000000000 := by unfold ulp2; norm_num
  have hη : η * ulp2 ≤ 1 / 4000000 := by nlinarith
  have hη0 : 0 ≤ η * ulp2 := by positivity
  obtain ⟨h1, h2⟩ := prod_ok (hc.mul hd)
  obtain ⟨w, wm, ew, w1, w2⟩ := mul_within (e := η * ulp2) hη0 (by linarith) hc.pos hd.pos ht h1 h2
  refine ⟨w, wm, ?_, ?_⟩
  · show toDouble (d * tmp) = _
    rw [mul_comm]
    exact ew
  · rw [mul_comm d c]
    have h3 : η * ulp2 * ulp2 ≤ 0.1 * ulp2 := by nlinarith
    exact within_of (mul_pos hc.pos hd.pos) w1 w2 (e1 := (η + 1.2) * ulp2) (by nlinarith) (by nlinarith)
      le_rfl

/-- Probability and derivative of the scale-invariant model with several labels. -/
theorem core_sum {η c d tmp : ℝ} (η0 : 0 ≤ η) (hη : (η + 2) * (1 + d * c) ≤ 208) (hc : Mid c)
    (hd : Mid d) (ht : Within (η * ulp2) c tmp) :
    ∃ w, 0 < w ∧ binary64.mul (fin d) (fin tmp) = fin w ∧
      ∃ p ∈ doubles, ∃ q ∈ doubles, -(binary64.expm1 (-fin w)) = fin p ∧
        binary64.mul (fin tmp) (binary64.exp (-fin w)) = fin q ∧
        Within (218 * ulp2) (1 - Real.exp (-(d * c))) p ∧
        Within (218 * ulp2) (c * Real.exp (-(d * c))) q := by
  have u0 := ulp2_pos
  have us : ulp2 ≤ 1 / 1000000000 := by unfold ulp2; norm_num
  have B := big_ge
  have B0 := big_pos
  have hdc : 0 < d * c := mul_pos hd.pos hc.pos
  have η1 : η ≤ 206 := by nlinarith
  have hk : (η + 2) * (d * c) ≤ 206 - η := by linarith
  have h104 : d * c ≤ 103 := by nlinarith
  have hηu : η * ulp2 ≤ 1 / 4000000 := by nlinarith
  have hηu0 : 0 ≤ η * ulp2 := by positivity
  obtain ⟨w, wm, ew, hw⟩ := scaled_sum η0 (by linarith) hc hd ht
  obtain ⟨h1, h2⟩ := prod_ok (hd.mul hc)
  obtain ⟨p, pm, ep, hp⟩ := inv_within' (e := (η + 1.2) * ulp2) (by positivity) (by nlinarith) hdc h1 hw
  have hw0 : 0 < w := lt_of_lt_of_le (mul_pos hdc (by nlinarith)) hw.1
  have b5 : 1 ≤ big ^ 5 := one_le_pow₀ (by linarith)
  have b15 : big ≤ big ^ 5 := le_self_pow₀ (by linarith) (by norm_num)
  have b25 : big ^ 2 ≤ big ^ 5 := pow_le_pow_right₀ (by linarith) (by norm_num)
  -- the exponential
  obtain ⟨κ, hκ⟩ : ∃ κ, κ = (η + 1.2) * (d * c) := ⟨_, rfl⟩
  have κ0 : 0 ≤ κ := by rw [hκ]; positivity
  have κ1 : κ ≤ 206 - η := by nlinarith
  have hd1 : |w - d * c| ≤ κ * ulp2 := by
    have e : d * c * ((η + 1.2) * ulp2) = κ * ulp2 := by rw [hκ]; ring
    rw [abs_le]
    constructor <;> nlinarith [hw.1, hw.2]
  have κu : κ * ulp2 ≤ 1 / 4000000 := by nlinarith
  have κu0 : 0 ≤ κ * ulp2 := by positivity
  have κuu : κ * ulp2 * ulp2 ≤ 0.001 * ulp2 := by nlinarith
  have κ2 : κ * ulp2 * (κ * ulp2) ≤ 0.01 * ulp2 := by
    have : κ * (κ * ulp2) ≤ 206 * (1 / 4000000) := mul_le_mul (by linarith) κu κu0 (by norm_num)
    nlinarith
  have he : Within ((κ + 0.1) * ulp2) (Real.exp (-(d * c))) (Real.exp (-w)) := by
    obtain ⟨k1, k2⟩ := abs_le.1 hd1
    have e : Real.exp (-w) = Real.exp (-(d * c)) * Real.exp (d * c - w) := by
      rw [← Real.exp_add]; ring_nf
    rw [e]
    have x1 : 1 - (κ + 0.1) * ulp2 ≤ Real.exp (d * c - w) := by
      have := Real.add_one_le_exp (d * c - w)
      nlinarith
    have x2 : Real.exp (d * c - w) ≤ 1 + (κ + 0.1) * ulp2 := by
      have y1 : 1 - κ * ulp2 ≤ Real.exp (-(d * c - w)) := by
        have := Real.add_one_le_exp (-(d * c - w))
        linarith
      have y2 : Real.exp (-(d * c - w)) * Real.exp (d * c - w) = 1 := by
        rw [← Real.exp_add]; simp
      have y3 := Real.exp_pos (d * c - w)
      have y4 : (1 - κ * ulp2) * Real.exp (d * c - w) ≤ 1 :=
        (mul_le_mul_of_nonneg_right y1 y3.le).trans y2.le
      have y5 : 1 ≤ (1 - κ * ulp2) * (1 + (κ + 0.1) * ulp2) := by
        have : (1 - κ * ulp2) * (1 + (κ + 0.1) * ulp2)
            = 1 + 0.1 * ulp2 - κ * ulp2 * (κ * ulp2) - 0.1 * (κ * ulp2 * ulp2) := by ring
        rw [this]
        linarith
      have y6 : 0 < 1 - κ * ulp2 := by linarith
      exact le_of_mul_le_mul_left (y4.trans y5) y6
    exact ⟨mul_le_mul_of_nonneg_left x1 (Real.exp_pos _).le,
      mul_le_mul_of_nonneg_left x2 (Real.exp_pos _).le⟩
  have w104 : w ≤ 104 := by
    have := (abs_le.1 hd1).2
    linarith
  have ex1 : 1 / big ≤ Real.exp (-w) := by
    have h3 : Real.exp 104 ≤ big := by
      have : Real.exp 104 = Real.exp 1 ^ 104 := by rw [← Real.exp_nat_mul]; norm_num
      rw [this]
      calc Real.exp 1 ^ 104 ≤ (3 : ℝ) ^ 104 :=
            pow_le_pow_left₀ (Real.exp_pos _).le (by linarith [Real.exp_one_lt_d9]) _
        _ ≤ (2 : ℝ) ^ (200 : ℤ) := by norm_num
    have h4 : Real.exp w ≤ big := (Real.exp_le_exp.2 w104).trans h3
    rw [Real.exp_neg, ← one_div]
    exact one_div_le_one_div_of_le (Real.exp_pos _) h4
  have ex2 : Real.exp (-w) ≤ 1 := Real.exp_le_one_iff.2 (by linarith)
  obtain ⟨g, gm, eg, hg⟩ := range_within' (v := Real.exp (-w))
    (le_trans (one_div_le_one_div_of_le B0 (by linarith)) ex1) (by linarith)
  have κ10 : 0 ≤ (κ + 0.1) * ulp2 := by nlinarith
  have κ11 : (κ + 0.1) * ulp2 ≤ 1 / 1000000 := by nlinarith
  have hg' : Within (1.01 * ((κ + 0.1) * ulp2 + ulp2)) (Real.exp (-(d * c))) g :=
    he.trans (Real.exp_pos _).le κ10 (by linarith) u0.le (by linarith) hg
  have g1 : 1 / (2 * big) ≤ g := by
    refine le_trans ?_ hg.1
    calc 1 / (2 * big) = 1 / big * (1 / 2) := by field_simp
      _ ≤ Real.exp (-w) * (1 - ulp2) := mul_le_mul ex1 (by linarith) (by norm_num) (Real.exp_pos _).le
  have g2 : g ≤ 2 := by
    refine hg.2.trans ?_
    nlinarith [Real.exp_pos (-w)]
  have t1 : 1 / (2 * big) ≤ tmp := by
    refine le_trans ?_ ht.1
    calc 1 / (2 * big) = 1 / big * (1 / 2) := by field_simp
      _ ≤ c * (1 - η * ulp2) := mul_le_mul hc.1 (by linarith) (by norm_num) hc.pos.le
  have t2 : tmp ≤ 2 * big := by
    refine ht.2.trans ?_
    calc c * (1 + η * ulp2) ≤ c * 2 := mul_le_mul_of_nonneg_left (by linarith) hc.pos.le
      _ ≤ 2 * big := by linarith [hc.2]
  have hpos : 0 < 1 / (2 * big) := by positivity
  obtain ⟨q, qm, eq, hq⟩ := range_within' (v := tmp * g)
    (by
      refine le_trans ?_ (mul_le_mul t1 g1 hpos.le (by linarith))
      rw [div_mul_div_comm, one_mul]
      refine one_div_le_one_div_of_le (by positivity) ?_
      have e : 2 * big * (2 * big) = 4 * big ^ 2 := by ring
      rw [e]
      linarith)
    (by
      have : tmp * g ≤ 2 * big * 2 := mul_le_mul t2 g2 (by linarith) (by linarith)
      linarith)
  have hm := ht.mul hc.pos.le (Real.exp_pos (-(d * c))).le hηu0 (by linarith) (by linarith)
    (by linarith) hg'
  have sum : η * ulp2 + κ * ulp2 ≤ 206 * ulp2 := by
    have := mul_le_mul_of_nonneg_right (show η + κ ≤ 206 by linarith) u0.le
    linarith
  have ek : (κ + 0.1) * ulp2 = κ * ulp2 + 0.1 * ulp2 := by ring
  refine ⟨w, hw0, ew, p, pm, q, qm, ep, ?_, ?_, ?_⟩
  · show roundXR (fin tmp * roundXR (XR.exp (fin (-w)))) = _
    have e1 : roundXR (XR.exp (fin (-w))) = fin g := eg
    rw [e1]
    exact eq
  · have e3 : (η + 1.2) * ulp2 + 1.1 * ulp2 ≤ 218 * ulp2 := by
      have := mul_le_mul_of_nonneg_right (show η + 1.2 + 1.1 ≤ 218 by linarith) u0.le
      linarith
    refine hp.mono ?_ e3
    have := Real.exp_le_one_iff.2 (neg_nonpos.2 hdc.le)
    linarith
  · have hpos : 0 ≤ c * Real.exp (-(d * c)) := mul_nonneg hc.pos.le (Real.exp_pos _).le
    rw [ek] at hm
    exact (hm.trans hpos (by linarith) (by linarith) u0.le (by linarith) hq).mono hpos (by linarith)

/-! ## The sum over the labels -/

/-- The products of two properties of a label are in the normal range, or zero. -/
def ProdRange (x y : ℝ) : Prop :=
  x = 0 ∨ y = 0 ∨ (0 < x ∧ 0 < y ∧ (2 : ℝ) ^ (-1000 : ℤ) ≤ x * y ∧ x * y ≤ (2 : ℝ) ^ (1000 : ℤ))

private theorem nonneg_of {V : ℝ} (h : V = 0 ∨ (2 : ℝ) ^ (-1000 : ℤ) ≤ V) : 0 ≤ V := by
  rcases h with rfl | h
  · exact le_rfl
  · exact (pow_pos' _).le.trans h

private theorem big_aux {T B v w V m : ℝ} (hB : 0 < B) (h1 : v ≤ 2 * V) (h2 : w ≤ 2 * T)
    (h3 : V ≤ m * B) (h4 : T ≤ B) (h5 : m ≤ 1048576) : v + w ≤ 8388608 * B := by nlinarith

/-- One pass of the loop over the labels. -/
theorem jac_layer {k : ℕ} {x y : ℝ} (h : ProdRange x y) (m : ℕ) (hm : m < 2 ^ 20) (s s' : XR)
    (hs : InvAcc m s s') :
    ∃ t t', invJacBody binary64 s k (fin x) (fin y) = .ok t ∧
      Verif.invJacBody s' k (fin x) (fin y) = .ok t' ∧ InvAcc (m + 1) t t' := by
  rcases h with rfl | rfl | ⟨hx, hy, h1, h2⟩
  · exact ⟨s, s', by simp [invJacBody], by simp [Verif.invJacBody], hs.mono⟩
  · exact ⟨s, s', by simp [invJacBody], by simp [Verif.invJacBody], hs.mono⟩
  obtain ⟨v, hv, V, rfl, rfl, v0, V0, hsum⟩ : ∃ v ∈ doubles, ∃ V : ℝ, s = fin v ∧ s' = fin V ∧ 0 ≤ v ∧
      0 ≤ V ∧ v ≤ 2 * V := by
    obtain ⟨v, hv, V, rfl, rfl, v0, -, hw⟩ := inv_sum hm.le hs
    obtain ⟨_, _, _, _, e, _, hV, _⟩ := hs
    have V0 := nonneg_of (by rw [← XR.fin.inj e] at hV; exact hV)
    refine ⟨v, hv, V, rfl, rfl, v0, V0, hw.2.trans ?_⟩
    have h3 : (m : ℝ) ≤ 1048576 := by exact_mod_cast hm.le
    have h4 : ulp2 ≤ 1 / 1000000000 := by unfold ulp2; norm_num
    have u0 := ulp2_pos
    have : 2 * (2.1 + (m : ℝ)) * ulp2 ≤ 1 := by nlinarith
    nlinarith
  obtain ⟨v', hv', V', e1, e2, -, hV, hVm, g1, g2⟩ := hs
  obtain rfl := XR.fin.inj e1
  obtain rfl := XR.fin.inj e2
  have hu := ulp2_pos
  have hu' := ulp2_small
  have ht : 0 < x * y := mul_pos hx hy
  obtain ⟨w, hwd, ew, hw⟩ := toDouble_within
    (le_trans (zpow_le_zpow_right₀ (by norm_num) (by norm_num)) h1)
    (h2.trans (zpow_le_zpow_right₀ (by norm_num) (by norm_num)))
  have hw' : Within (2.1 * ulp2) (x * y) w := hw.mono ht.le (by linarith)
  have w0 : 0 ≤ w := le_trans (mul_nonneg ht.le (by linarith)) hw'.1
  have big : v + w ≤ (2 : ℝ) ^ (1023 : ℤ) := by
    have hw2 : w ≤ 2 * (x * y) := by nlinarith [hw'.2]
    have e1 : (2 : ℝ) ^ (1023 : ℤ) = (2 : ℝ) ^ (23 : ℤ) * (2 : ℝ) ^ (1000 : ℤ) := by
      rw [← zpow_add₀ (by norm_num)]; norm_num
    have e2 : (2 : ℝ) ^ (23 : ℤ) = 8388608 := by norm_num
    have h3 : (m : ℝ) ≤ 1048576 := by exact_mod_cast hm.le
    rw [e1, e2]
    exact big_aux (pow_pos' 1000) hsum hw2 hVm h2 h3
  obtain ⟨r, hr, er, r1, r2⟩ := add_step (a := 2.1 * ulp2) (by linarith) (by linarith) hv hwd v0 w0
    ht.le ⟨g1, g2⟩ hw' big
  have nz : (!(fin x).isZero && !(fin y).isZero) = true := by
    simp [hx.ne', hy.ne']
  refine ⟨fin r, fin (V + x * y), ?_, ?_, r, hr, V + x * y, rfl, rfl, ?_, ?_, ?_, r1, r2⟩
  · rw [invJacBody, if_pos nz]
    have e : binary64.mul (fin x) (fin y) = fin w := ew
    simp only [e, show (fin w).isInf = false from rfl]
    exact congrArg Except.ok er
  · rw [Verif.invJacBody, if_pos nz]
    rfl
  · refine le_trans (mul_nonneg (by linarith) (mul_nonneg (by linarith) (pow_nonneg ?_ _))) r1
    linarith
  · right
    linarith
  · push_cast
    rw [add_mul, one_mul]
    exact add_le_add hVm h2

/-- From the sum to probability and derivative. -/
theorem jac_end {L m : ℕ} (hm : m ≤ L) {s s' : XR} (hs : InvAcc m s s') {d D c : ℝ}
    (hd : d = 0 ∨ Mid d) (dD : d ≤ D) (hc : s' = fin c) (hc0 : c = 0 ∨ (1 / root ^ 3 ≤ c ∧ c ≤ root ^ 3))
    (hL : (L + 3) * (1 + D * c) ≤ 100) :
    PairAcc (invJacEnd binary64 (fin d) s) (1 - Real.exp (-(d * c))) (c * Real.exp (-(d * c))) := by
  have u0 := ulp2_pos
  have hmL : (m : ℝ) ≤ L := by exact_mod_cast hm
  have L0 : (0 : ℝ) ≤ L := Nat.cast_nonneg _
  have c0 : 0 ≤ c := by
    rcases hc0 with rfl | h
    · exact le_rfl
    · exact le_trans (by have := root_pos; positivity) h.1
  have d0 : 0 ≤ d := by
    rcases hd with rfl | h
    · exact le_rfl
    · exact h.pos.le
  have hDc : 0 ≤ D * c := mul_nonneg (d0.trans dD) c0
  have L97 : (L : ℝ) ≤ 97 := by nlinarith
  have m20 : m ≤ 2 ^ 20 := by
    have : (m : ℝ) ≤ 97 := by linarith
    have : m ≤ 97 := by exact_mod_cast this
    omega
  obtain ⟨v, hv, V, rfl, e2, v0, hV, hw⟩ := inv_sum m20 hs
  obtain rfl : c = V := by rw [hc] at e2; exact XR.fin.inj e2
  have ml : ∀ r : ℝ, binary64.mul (fin d) (fin r) = toDouble (d * r) := fun r => rfl
  have z0 : toDouble 0 = fin 0 := toDouble_self Faithful.binary64.zero_mem
  rcases hV with ⟨rfl, rfl⟩ | ⟨cp, vp, -⟩
  · have e : invJacEnd binary64 (fin d) (fin 0) = (0, 0) := by
      unfold invJacEnd
      rw [ml, mul_zero, z0]
      simp [zero_def]
    rw [e]
    simpa using PairAcc.zero
  obtain ⟨k1, k2⟩ := hc0.resolve_left cp.ne'
  have hη : Within ((2 * (2.1 + m)) * ulp2) c v := hw
  rcases hd with rfl | hd
  · have e : invJacEnd binary64 (fin 0) (fin v) = (0, fin v) := by
      unfold invJacEnd
      rw [ml, zero_mul, z0]
      simp
    rw [e]
    refine ⟨0, Faithful.binary64.zero_mem, v, hv, rfl, by simp, by simp, by simpa using c0,
      by simpa using k2, by simp [Within], ?_⟩
    simp only [zero_mul, neg_zero, Real.exp_zero, mul_one]
    refine hη.mono c0 (mul_le_mul_of_nonneg_right (by linarith) u0.le)
  · have hdc : d * c ≤ D * c := mul_le_mul_of_nonneg_right dD c0
    have hdc0 : 0 ≤ d * c := mul_nonneg d0 c0
    have hη2 : (2 * (2.1 + (m : ℝ)) + 2) * (1 + d * c) ≤ 208 := by
      have : (2 * (2.1 + (m : ℝ)) + 2) * (1 + d * c) ≤ (2.08 * (L + 3)) * (1 + D * c) :=
        mul_le_mul (by linarith) (by linarith) (by linarith) (by linarith)
      linarith
    obtain ⟨w, w0, ew, p, pm, q, qm, ep, eq, hp, hq⟩ := core_sum (by positivity) hη2
      (mid_of k1 k2) hd hη
    have e : invJacEnd binary64 (fin d) (fin v) = (fin p, fin q) := by
      unfold invJacEnd
      simp only [ew, not_zero w0, ep, eq]
      rfl
    rw [e]
    have x1 := Real.exp_pos (-(d * c))
    have x2 : Real.exp (-(d * c)) ≤ 1 := Real.exp_le_one_iff.2 (by linarith)
    refine ⟨p, pm, q, qm, rfl, by linarith, by linarith, mul_nonneg c0 x1.le, ?_, hp, hq⟩
    nlinarith

end Round

end Verif
