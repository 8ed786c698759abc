import Verif.Round.AllSums

/-!
# Log-likelihoods in double precision: lemmas
-/

namespace Verif

namespace Round

open XR

/-! ## Rounding is odd -/

theorem nearest_neg (y : ℝ) : nearest (-y) = -nearest y := by
  rcases (Int.floor_le y).eq_or_lt with h | h
  · rw [← h, ← Int.cast_neg, nearest_intCast, nearest_intCast]
  · have h' := Int.lt_floor_add_one y
    have hf : ⌊-y⌋ = -⌊y⌋ - 1 := by
      rw [Int.floor_eq_iff]
      push_cast
      constructor <;> linarith
    have hev : Even (-⌊y⌋ - 1) ↔ ¬ Even ⌊y⌋ := by
      rw [Int.even_sub_one, even_neg]
    unfold nearest
    rw [hf]
    push_cast
    rcases lt_trichotomy (y - ⌊y⌋) (1 / 2) with g | g | g
    · rw [if_neg (by linarith), if_pos (by linarith), if_pos g]; ring
    · have g' : -y - (-⌊y⌋ - 1) = (1 / 2 : ℝ) := by linarith
      rw [g, g', if_neg (lt_irrefl _), if_neg (lt_irrefl _), if_neg (lt_irrefl _),
        if_neg (lt_irrefl _)]
      by_cases e : Even ⌊y⌋
      · rw [if_neg (by rw [hev]; exact not_not.2 e), if_pos e]; ring
      · rw [if_pos (hev.2 e), if_neg e]; ring
    · rw [if_pos (by linarith), if_neg (by linarith), if_pos g]; ring

theorem rnd_neg (x : ℝ) : rnd (-x) = -rnd x := by
  have he : expo (-x) = expo x := by rw [expo, expo, abs_neg]
  rw [rnd, rnd, he, neg_div, nearest_neg]
  push_cast
  ring

private theorem cases_neg {B r : ℝ} (hB : 0 < B) :
    (if B ≤ -r then pinf else if -r ≤ -B then ninf else fin (-r)) =
      -(if B ≤ r then pinf else if r ≤ -B then ninf else fin r) := by
  rcases le_or_gt B r with h | h
  · rw [if_neg (by linarith), if_pos (by linarith), if_pos h]; rfl
  · rcases le_or_gt r (-B) with g | g
    · rw [if_pos (by linarith), if_neg (by linarith), if_pos g]; rfl
    · rw [if_neg (by linarith), if_neg (by linarith), if_neg (by linarith), if_neg (by linarith)]; rfl

theorem toDouble_neg (x : ℝ) : toDouble (-x) = -(toDouble x) := by
  unfold toDouble
  rw [rnd_neg]
  exact cases_neg (pow_pos' _)

theorem mul_neg_left (a b : ℝ) : binary64.mul (-fin a) (fin b) = -(binary64.mul (fin a) (fin b)) := by
  show toDouble (-a * b) = -(toDouble (a * b))
  rw [neg_mul, toDouble_neg]

/-! ## Rounding of a logarithm -/

theorem rnd_err_abs (x : ℝ) : |rnd x - x| ≤ ulp2 * (1 + |x|) := by
  have hu := ulp2_pos
  refine (rnd_err x).trans ?_
  rcases eq_or_ne x 0 with rfl | hx
  · have : (2 : ℝ) ^ expo 0 ≤ (2 : ℝ) ^ (-52 : ℤ) :=
      zpow_le_zpow_right₀ (by norm_num) (max_le (by simp) (by norm_num))
    have e : (2 : ℝ) ^ (-52 : ℤ) = 2 * ulp2 := by unfold ulp2; norm_num
    rw [abs_zero]
    linarith
  · have h1 : (2 : ℝ) ^ (Int.log 2 |x| - 52) ≤ 2 * ulp2 * |x| := by
      rw [zpow_sub₀ (by norm_num)]
      have := (log_bounds hx).1
      have e : 2 * ulp2 = 1 / (2 : ℝ) ^ (52 : ℤ) := by unfold ulp2; norm_num
      rw [e, div_mul_eq_mul_div, one_mul]
      exact div_le_div_of_nonneg_right this (by positivity)
    have h2 : (2 : ℝ) ^ (-1074 : ℤ) ≤ 2 * ulp2 := by
      have e : (2 : ℝ) ^ (-52 : ℤ) = 2 * ulp2 := by unfold ulp2; norm_num
      rw [← e]
      exact zpow_le_zpow_right₀ (by norm_num) (by norm_num)
    have h3 : (2 : ℝ) ^ expo x ≤ 2 * ulp2 * (1 + |x|) := by
      have hx0 := abs_nonneg x
      unfold expo
      rcases max_cases (Int.log 2 |x| - 52) (-1074) with ⟨e, _⟩ | ⟨e, _⟩
      · rw [e]; nlinarith
      · rw [e]; nlinarith
    linarith

/-- A number that is not positive and not huge. -/
theorem toDouble_nonpos {x : ℝ} (x0 : x ≤ 0) (h : -(2 : ℝ) ^ (200 : ℤ) ≤ x) :
    ∃ v ∈ doubles, toDouble x = fin v ∧ v ≤ 0 ∧ |v - x| ≤ ulp2 * (1 - x) := by
  have m0 : rnd x ≤ 0 := rnd_le Faithful.binary64.zero_mem x0
  have m1 : -(2 : ℝ) ^ (200 : ℤ) ≤ rnd x :=
    le_rnd (neg_mem (pow_mem (by norm_num) (by norm_num))) h
  have big : (2 : ℝ) ^ (200 : ℤ) < (2 : ℝ) ^ (1024 : ℤ) :=
    zpow_lt_zpow_right₀ (by norm_num) (by norm_num)
  have em : toDouble x = fin (rnd x) := by
    unfold toDouble
    rw [if_neg (not_le.2 (lt_of_le_of_lt m0 (pow_pos' _))),
      if_neg (not_le.2 (lt_of_lt_of_le (neg_lt_neg big) m1))]
  refine ⟨rnd x, ?_, em, m0, ?_⟩
  · have := In.toDouble x
    rw [em] at this
    exact this
  · have := rnd_err_abs x
    rwa [abs_of_nonpos x0, ← sub_eq_add_neg] at this

/-! ## Sums of terms that are not positive -/

/-- A logarithm of a probability with an absolute error. -/
def LFin (a : ℝ) (c e : XR) : Prop :=
  ∃ v ∈ doubles, ∃ V : ℝ, c = fin v ∧ e = fin V ∧ v ≤ 0 ∧ V ≤ 0 ∧ -2 ^ 42 ≤ V ∧
    |v - V| ≤ ulp2 * (a - V)

/-- The same, if the probability is not zero. -/
def LTerm (a : ℝ) (c e : XR) : Prop := (c = ninf ∧ e = ninf) ∨ LFin a c e

/-- Partial sums with `k` such terms. -/
def LAcc (a : ℝ) (k : ℕ) (c e : XR) : Prop :=
  ∃ v ∈ doubles, ∃ V : ℝ, c = fin v ∧ e = fin V ∧ v ≤ 0 ∧ V ≤ 0 ∧ -(2 ^ 42 * k) ≤ V ∧
    |v - V| ≤ 3 * ulp2 * k * (a + 1 - V)

theorem lacc_zero (a : ℝ) : LAcc a 0 0 0 :=
  ⟨0, Faithful.binary64.zero_mem, 0, rfl, rfl, le_rfl, le_rfl, by simp, by simp⟩

theorem lacc_add {a : ℝ} (a0 : 0 ≤ a) (a1 : a ≤ 2 ^ 100) {k : ℕ} (hk : k < 2 ^ 50)
    {e e' v v' : XR} (h : LAcc a k e e') (hv : LFin a v v') :
    LAcc a (k + 1) (binary64.add e v) (Arith.exact.add e' v') := by
  obtain ⟨s, hs, S, rfl, rfl, s0, S0, Sk, hst⟩ := h
  obtain ⟨t, ht, T, rfl, rfl, t0, T0, Tk, htt⟩ := hv
  have hu := ulp2_pos
  have hk0 : (0 : ℝ) ≤ k := Nat.cast_nonneg k
  have hk' : (k : ℝ) ≤ 2 ^ 50 := by exact_mod_cast hk.le
  have hul : ulp2 ≤ 1 / 2 ^ 53 := by unfold ulp2; norm_num
  have hku : 3 * ulp2 * k ≤ 3 / 8 := by
    have := mul_le_mul hul hk' hk0 (by norm_num)
    linarith
  set W := a + 1 - (S + T) with hW
  have W0 : 0 ≤ W := by linarith
  have h1 : |s - S| ≤ 3 * ulp2 * k * W :=
    hst.trans (mul_le_mul_of_nonneg_left (by linarith) (by positivity))
  have h1' : |s - S| ≤ 3 / 8 * W := h1.trans (mul_le_mul_of_nonneg_right hku W0)
  have h2 : |t - T| ≤ ulp2 * (a - T) := htt
  have h2' : ulp2 * (a - T) ≤ ulp2 * W := mul_le_mul_of_nonneg_left (by linarith) hu.le
  have h3 : ulp2 * W ≤ 1 / 2 ^ 53 * W := mul_le_mul_of_nonneg_right hul W0
  have hsum : -(s + t) ≤ -(S + T) + (3 / 8 * W + 1 / 2 ^ 53 * W) := by
    have := (abs_le.1 h1').1
    have := (abs_le.1 (h2.trans (h2'.trans h3))).1
    linarith
  obtain ⟨r, hr, er, r0, hrr⟩ := toDouble_nonpos (x := s + t) (by linarith) (by
    have e : (2 : ℝ) ^ (200 : ℤ) = (2 : ℝ) ^ 200 := by norm_num
    rw [e]
    have hW1 : W ≤ 2 ^ 100 + 1 + (2 ^ 42 * 2 ^ 50 + 2 ^ 42) := by
      have : (2 : ℝ) ^ 42 * k ≤ 2 ^ 42 * 2 ^ 50 := mul_le_mul_of_nonneg_left hk' (by norm_num)
      linarith
    have : -(s + t) ≤ 2 * W := by linarith
    have : 2 * W ≤ (2 : ℝ) ^ 200 := (mul_le_mul_of_nonneg_left hW1 (by norm_num)).trans (by norm_num)
    linarith)
  refine ⟨r, hr, S + T, er, rfl, r0, by linarith, by push_cast; linarith, ?_⟩
  have e : r - (S + T) = (r - (s + t)) + ((s - S) + (t - T)) := by ring
  have h4 : |r - (S + T)| ≤ |r - (s + t)| + (|s - S| + |t - T|) := by
    rw [e]; exact (abs_add_le _ _).trans (by linarith [abs_add_le (s - S) (t - T)])
  have h5 : ulp2 * (1 - (s + t)) ≤ ulp2 * (W - a + (3 / 8 * W + 1 / 2 ^ 53 * W)) :=
    mul_le_mul_of_nonneg_left (by linarith) hu.le
  push_cast
  have h6 : ulp2 * (1 / 2 ^ 53 * W) ≤ ulp2 * (1 / 8 * W) :=
    mul_le_mul_of_nonneg_left (by linarith) hu.le
  have h7 : 0 ≤ ulp2 * a := by positivity
  have h8 : 0 ≤ ulp2 * W := by positivity
  linarith

theorem LFin.mono {a b : ℝ} (hab : a ≤ b) {c e : XR} (h : LFin a c e) : LFin b c e := by
  obtain ⟨v, hv, V, e1, e2, v0, V0, Vk, h⟩ := h
  exact ⟨v, hv, V, e1, e2, v0, V0, Vk,
    h.trans (mul_le_mul_of_nonneg_left (by linarith) ulp2_pos.le)⟩

theorem lfin_zero {a : ℝ} (a0 : 0 ≤ a) : LFin a 0 0 :=
  ⟨0, Faithful.binary64.zero_mem, 0, rfl, rfl, le_rfl, le_rfl, by norm_num,
    by rw [sub_self, abs_zero, sub_zero]; exact mul_nonneg ulp2_pos.le a0⟩

/-! ## Terms -/

private theorem log_near {e a b : ℝ} (e0 : 0 ≤ e) (he : e ≤ 1 / 100) (ha : 0 < a)
    (h : Within e a b) : 0 < b ∧ |Real.log b - Real.log a| ≤ 1.02 * e := by
  have hb : 0 < b := lt_of_lt_of_le (mul_pos ha (by linarith)) h.1
  refine ⟨hb, ?_⟩
  rw [← Real.log_div hb.ne' ha.ne']
  have h1 : b / a ≤ 1 + e := by rw [div_le_iff₀ ha]; linarith [h.2]
  have h2 : 1 - e ≤ b / a := by rw [le_div_iff₀ ha]; linarith [h.1]
  have hp : 0 < b / a := by positivity
  have h3 := Real.log_le_sub_one_of_pos hp
  have h4 := Real.one_sub_inv_le_log_of_pos hp
  have h5 : (b / a)⁻¹ ≤ 1 + 1.02 * e := by
    rw [inv_le_iff_one_le_mul₀ hp]
    nlinarith
  rw [abs_le]
  constructor <;> linarith

private theorem round_log {r : ℝ} (r0 : r ≤ 0) (h : -2 ^ 43 ≤ r) :
    ∃ v ∈ doubles, toDouble r = fin v ∧ v ≤ 0 ∧ |v - r| ≤ ulp2 * (1 - r) := by
  refine toDouble_nonpos r0 (le_trans ?_ h)
  norm_num

/-- Logarithm of a probability with a relative error. -/
theorem log_term {p q c : ℝ} (c0 : 0 ≤ c) (hc : c * ulp2 ≤ 1 / 100) (q0 : 0 < q) (q1 : q ≤ 1)
    (ql : -2 ^ 42 ≤ Real.log q) (p1 : p ≤ 1) (h : Within (c * ulp2) q p) :
    LFin (2 + 1.02 * c) (binary64.log (fin p)) (XR.log (fin q)) := by
  have hu := ulp2_pos
  have hu' := ulp2_small
  obtain ⟨p0, hd⟩ := log_near (by positivity) hc q0 h
  have hlp : Real.log p ≤ 0 := Real.log_nonpos p0.le p1
  have hlq : Real.log q ≤ 0 := Real.log_nonpos q0.le q1
  have hd' := abs_le.1 hd
  obtain ⟨v, hv, ev, v0, hvv⟩ := round_log hlp (by linarith)
  refine ⟨v, hv, Real.log q, ?_, log_fin_pos q0, v0, hlq, ql, ?_⟩
  · show roundXR (XR.log (fin p)) = fin v
    rw [log_fin_pos p0]; exact ev
  · have e : v - Real.log q = (v - Real.log p) + (Real.log p - Real.log q) := by ring
    rw [e]
    refine (abs_add_le _ _).trans ?_
    have : ulp2 * (1 - Real.log p) ≤ ulp2 * (2 - Real.log q) :=
      mul_le_mul_of_nonneg_left (by linarith) hu.le
    linarith

private theorem low_aux {B t : ℝ} (B0 : 0 < B) (B1 : B ≤ 1) (h : B ≤ t) : B / 2 ≤ t / (1 + t) := by
  rw [le_div_iff₀ (by linarith)]
  nlinarith

private theorem log_low {t q : ℝ} (h : (2 : ℝ) ^ (-1000 : ℤ) ≤ t) (hq : t / (1 + t) ≤ q) :
    -2 ^ 42 ≤ Real.log q := by
  have B0 := pow_pos' (-1000)
  have h1 := low_aux B0 (zpow_le_one_of_nonpos₀ (by norm_num) (by norm_num)) h
  have h2 : (2 : ℝ) ^ (-1000 : ℤ) / 2 = (2 : ℝ) ^ (-1001 : ℤ) := by
    rw [show (-1001 : ℤ) = -1000 - 1 by norm_num, zpow_sub₀ (by norm_num), zpow_one]
  have h3 : Real.log ((2 : ℝ) ^ (-1001 : ℤ)) ≤ Real.log q :=
    Real.log_le_log (pow_pos' _) (by rw [← h2]; exact h1.trans hq)
  rw [Real.log_zpow] at h3
  have h4 := Real.log_le_sub_one_of_pos (show (0 : ℝ) < 2 by norm_num)
  clear h h1 h2 B0
  push_cast at h3
  linarith

private theorem one_sub_exp_low {t : ℝ} (ht : 0 < t) : t / (1 + t) ≤ 1 - Real.exp (-t) := by
  rw [Real.exp_neg]
  have h1 := Real.add_one_le_exp t
  have h2 : (Real.exp t)⁻¹ ≤ (1 + t)⁻¹ := inv_anti₀ (by linarith) (by linarith)
  have h3 : t / (1 + t) = 1 - (1 + t)⁻¹ := by field_simp; ring
  linarith

/-- Link in the fitness model, from the product of the factors. -/
theorem fit_logp_acc {e t w : ℝ} (he0 : 0 ≤ e) (he : e ≤ 3.2 * ulp2) (ht : 0 < t)
    (h1 : (2 : ℝ) ^ (-1000 : ℤ) ≤ t) (h2 : t ≤ (2 : ℝ) ^ (1000 : ℤ)) (hw : Within e t w)
    (hp : ∀ p, binary64.div (fin w) (binary64.add 1 (fin w)) = fin p → p ≤ 1) :
    LFin 8 (binary64.log (binary64.div (fin w) (binary64.add 1 (fin w))))
      (XR.log (fin t / (1 + fin t))) := by
  have hu := ulp2_pos
  have hu' := ulp2_small
  obtain ⟨p, _, ep, hpw⟩ := fit_within he0 (by linarith) ht h1 h2 hw
  have q0 : 0 < t / (1 + t) := by positivity
  have hW : Within (5.3 * ulp2) (t / (1 + t)) p :=
    ⟨(mul_le_mul_of_nonneg_left (by linarith) q0.le).trans hpw.1,
      hpw.2.trans (mul_le_mul_of_nonneg_left (by linarith) q0.le)⟩
  have eq : fin t / (1 + fin t) = fin (t / (1 + t)) := by
    show fin t / fin (1 + t) = _
    rw [fin_div_fin _ _ (by positivity)]
  rw [eq, ep]
  refine (log_term (c := 5.3) (by norm_num) (by linarith) q0 ?_ (log_low h1 le_rfl) (hp p ep)
    hW).mono (by norm_num)
  rw [div_le_one (by positivity)]; linarith

/-- Link in the scale-invariant model. -/
theorem inv_logp_acc {c t w : ℝ} (c0 : 0 ≤ c) (hc : (c + 1.1) * ulp2 ≤ 1 / 100) (ht : 0 < t)
    (h1 : (2 : ℝ) ^ (-1000 : ℤ) ≤ t) (hw : Within (c * ulp2) t w)
    (hp : ∀ p, -(binary64.expm1 (-fin w)) = fin p → p ≤ 1) :
    LFin (2 + 1.02 * (c + 1.1)) (binary64.log (-(binary64.expm1 (-fin w))))
      (XR.log (-(XR.expm1 (-fin t)))) := by
  have hu := ulp2_pos
  obtain ⟨p, _, ep, hpw⟩ := inv_within' (by positivity) (by linarith) ht h1 hw
  rw [← add_mul] at hpw
  have hlow := one_sub_exp_low ht
  have q0 : 0 < 1 - Real.exp (-t) := lt_of_lt_of_le (by positivity) hlow
  have eq : -(XR.expm1 (-fin t)) = fin (1 - Real.exp (-t)) := by
    show fin (-(Real.exp (-t) - 1)) = _
    rw [neg_sub]
  rw [eq, ep]
  exact log_term (by linarith) hc q0 (by linarith [Real.exp_pos (-t)]) (log_low h1 hlow) (hp p ep) hpw

/-- No link in the fitness model. -/
theorem fit_log1mp_acc {e t w T : ℝ} (he0 : 0 ≤ e) (he : e ≤ 3.2 * ulp2) (ht : 0 < t)
    (h1 : (2 : ℝ) ^ (-1000 : ℤ) ≤ t) (h2 : t ≤ (2 : ℝ) ^ (1000 : ℤ)) (hT : t ≤ T) (hT' : T ≤ 2 ^ 40)
    (hw : Within e t w) :
    LFin (2 + 6 * T) (binary64.log1p (binary64.div (-fin w) (binary64.add 1 (fin w))))
      (XR.log1p (-fin t / (1 + fin t))) := by
  have hu := ulp2_pos
  have hu' := ulp2_small
  have hul : ulp2 ≤ 1 / 2 ^ 53 := by unfold ulp2; norm_num
  have hw0 : 0 < w := lt_of_lt_of_le (mul_pos ht (by linarith)) hw.1
  have hw1 : w ≤ 2 ^ 42 := by
    have : t * (1 + e) ≤ t * 2 := mul_le_mul_of_nonneg_left (by linarith) ht.le
    linarith [hw.2]
  obtain ⟨p, _, ep, hpw⟩ := fit_within he0 (by linarith) ht h1 h2 hw
  set q := t / (1 + t) with hq
  have q0 : 0 < q := by positivity
  have hW : Within (5.3 * ulp2) q p :=
    ⟨(mul_le_mul_of_nonneg_left (by linarith) q0.le).trans hpw.1,
      hpw.2.trans (mul_le_mul_of_nonneg_left (by linarith) q0.le)⟩
  obtain ⟨s, _, es, hs, _⟩ := toDouble_within (x := 1 + w)
    ((zpow_le_one_of_nonpos₀ (by norm_num) (by norm_num)).trans (by linarith))
    (le_trans (show 1 + w ≤ (2 : ℝ) ^ (43 : ℤ) by norm_num; linarith)
      (zpow_le_zpow_right₀ (by norm_num) (by norm_num)))
  have s0 : 0 < s := lt_of_lt_of_le (mul_pos (by linarith) (by linarith)) hs
  have eadd : binary64.add 1 (fin w) = fin s := es
  have ediv : binary64.div (-fin w) (binary64.add 1 (fin w)) = fin (-p) := by
    rw [eadd] at ep ⊢
    have e1 : binary64.div (fin w) (fin s) = toDouble (w / s) := by
      show roundXR (fin w / fin s) = _
      rw [fin_div_fin _ _ s0.ne']; rfl
    have e2 : binary64.div (-fin w) (fin s) = toDouble (-(w / s)) := by
      show roundXR (fin (-w) / fin s) = _
      rw [fin_div_fin _ _ s0.ne', neg_div]; rfl
    rw [e2, toDouble_neg, ← e1, ep]; rfl
  have eq : -fin t / (1 + fin t) = fin (-q) := by
    show fin (-t) / fin (1 + t) = _
    rw [fin_div_fin _ _ (by positivity), neg_div]
  have q1 : 1 - q = 1 / (1 + t) := by rw [hq]; field_simp; ring
  have q1' : 0 < 1 - q := by rw [q1]; positivity
  have hqt : q = t * (1 - q) := by rw [q1, hq]; ring
  have htu : 5.3 * ulp2 * t ≤ 1 / 100 := by
    have : ulp2 * t ≤ 1 / 2 ^ 53 * 2 ^ 40 := mul_le_mul hul (by linarith) ht.le (by norm_num)
    linarith
  have hW' : Within (5.3 * ulp2 * t) (1 - q) (1 - p) := by
    have h3 : 5.3 * ulp2 * t * (1 - q) = 5.3 * ulp2 * q := by rw [mul_assoc, ← hqt]
    constructor
    · linarith [hW.2]
    · linarith [hW.1]
  obtain ⟨p1, hd⟩ := log_near (by positivity) htu q1' hW'
  have p0 : 0 < p := lt_of_lt_of_le (mul_pos q0 (by linarith)) hW.1
  have hlp : Real.log (1 - p) ≤ 0 := Real.log_nonpos p1.le (by linarith)
  have hlq : Real.log (1 - q) ≤ 0 := Real.log_nonpos q1'.le (by linarith)
  have hlow : -2 ^ 41 ≤ Real.log (1 - q) := by
    rw [q1, one_div, Real.log_inv]
    have := Real.log_le_sub_one_of_pos (show 0 < 1 + t by linarith)
    linarith
  have hd' := abs_le.1 hd
  obtain ⟨v, hv, ev, v0, hvv⟩ := round_log hlp (by linarith)
  rw [ediv, eq]
  refine ⟨v, hv, Real.log (1 - q), ?_, ?_, v0, hlq, by linarith, ?_⟩
  · show roundXR (XR.log1p (fin (-p))) = fin v
    rw [log1p_fin_pos (by linarith), ← sub_eq_add_neg]; exact ev
  · rw [log1p_fin_pos (by linarith), ← sub_eq_add_neg]
  · have e : v - Real.log (1 - q) =
        (v - Real.log (1 - p)) + (Real.log (1 - p) - Real.log (1 - q)) := by ring
    rw [e]
    refine (abs_add_le _ _).trans ?_
    have h5 : ulp2 * (1 - Real.log (1 - p)) ≤ ulp2 * (2 - Real.log (1 - q)) :=
      mul_le_mul_of_nonneg_left (by linarith) hu.le
    have h6 : 1.02 * (5.3 * ulp2 * t) ≤ ulp2 * (6 * T) := by
      have : ulp2 * t ≤ ulp2 * T := mul_le_mul_of_nonneg_left hT hu.le
      have : 0 ≤ ulp2 * T := this.trans' (by positivity)
      linarith
    linarith

/-- No link in the scale-invariant model. -/
theorem inv_log1mp_acc {c t w T : ℝ} (c0 : 0 ≤ c) (ht : 0 ≤ t) (hT : t ≤ T) (hT' : T ≤ 2 ^ 40)
    (hwd : w ∈ doubles) (hw0 : 0 ≤ w) (hw : Within (c * ulp2) t w) :
    LFin (c * T) (-fin w) (-fin t) := by
  refine ⟨-w, neg_mem hwd, -t, rfl, rfl, by linarith, by linarith, by linarith, ?_⟩
  have hu := ulp2_pos
  have h1 : |(-w) - (-t)| ≤ c * ulp2 * t := by
    rw [abs_le]
    constructor
    · linarith [hw.2]
    · linarith [hw.1]
  refine h1.trans ?_
  have h2 : c * ulp2 * t ≤ c * ulp2 * T := mul_le_mul_of_nonneg_left hT (by positivity)
  have h3 : 0 ≤ ulp2 * t := by positivity
  linarith

/-! ## The likelihood loop in two arithmetics -/

variable {α β δ ζ : Type}

/-- Results of the two loops: both have returned early, or the partial sums are related. -/
def Rel (P : XR → XR → Prop) : Except XR XR → Except XR XR → Prop
  | .error a, .error b => a = ninf ∧ b = ninf
  | .ok a, .ok b => P a b
  | _, _ => False

theorem Rel.bind {P P' : XR → XR → Prop} {r r' : Except XR XR} {f g : XR → Except XR XR}
    (h : Rel P r r') (hf : ∀ a b, P a b → Rel P' (f a) (g b)) : Rel P' (r >>= f) (r' >>= g) := by
  match r, r', h with
  | .error a, .error b, h => exact h
  | .ok a, .ok b, h => exact hf a b h

private theorem foldlM_one (f : XR → ℕ → Except XR XR) (a : XR) (m : ℕ) :
    List.foldlM f a [m] = f a m := by simp

theorem likelihood_rel {A B : Arith} (n : ℕ) (sl : Bool) (p p' q q' : δ → α → β → ζ → XR) (d : δ)
    (x : ℕ → α) (y : ℕ → β) (z : ℕ → ℕ → ζ) (link : ℕ → ℕ → Bool) (P : ℕ → XR → XR → Prop)
    (Q : XR → XR → Prop) (h0 : P 0 0 0) (hfin : ∀ v v', Q v v' → v.isInf = false ∧ v'.isInf = false)
    (hadd : ∀ k < n * (if sl then n else n - 1), ∀ e e' v v', P k e e' → Q v v' →
      P (k + 1) (A.add e v) (B.add e' v'))
    (hp : ∀ i < n, ∀ j < n, (p d (x i) (y j) (z i j) = ninf ∧ p' d (x i) (y j) (z i j) = ninf) ∨
      Q (p d (x i) (y j) (z i j)) (p' d (x i) (y j) (z i j)))
    (hq : ∀ i < n, ∀ j < n, (q d (x i) (y j) (z i j) = ninf ∧ q' d (x i) (y j) (z i j) = ninf) ∨
      Q (q d (x i) (y j) (z i j)) (q' d (x i) (y j) (z i j))) :
    Rel (P (n * (if sl then n else n - 1))) (likelihoodLoop A p q d n x y z link sl)
      (likelihoodLoop B p' q' d n x y z link sl) := by
  set c := if sl then n else n - 1 with hc
  have fold : ∀ (l : List ℕ) (adm : ℕ → Bool) (f g : ℕ → XR)
      (_ : ∀ j ∈ l, (f j = ninf ∧ g j = ninf) ∨ Q (f j) (g j)) (k : ℕ)
      (e e' : XR), P k e e' → k + l.countP adm ≤ n * c →
      Rel (P (k + l.countP adm))
        (l.foldlM (fun e j => if adm j then
          (if (f j).isInf then Except.error (f j) else .ok (A.add e (f j))) else .ok e) e)
        (l.foldlM (fun e j => if adm j then
          (if (g j).isInf then Except.error (g j) else .ok (B.add e (g j))) else .ok e) e') := by
    intro l adm f g
    induction l with
    | nil => intro _ k e e' h _; simpa [Rel, pure, Except.pure] using h
    | cons x l ih =>
      intro hq k e e' h hk
      rw [List.foldlM_cons, List.foldlM_cons]
      by_cases hx : adm x
      · rw [List.countP_cons_of_pos hx] at hk ⊢
        rw [if_pos hx, if_pos hx]
        rcases hq x (by simp) with ⟨e1, e2⟩ | hQ
        · rw [e1, e2]
          exact ⟨rfl, rfl⟩
        · obtain ⟨i1, i2⟩ := hfin _ _ hQ
          rw [i1, i2]
          have := ih (fun j hj => hq j (by simp [hj])) (k + 1) _ _
            (hadd k (by omega) _ _ _ _ h hQ) (by omega)
          rwa [show k + 1 + l.countP adm = k + (l.countP adm + 1) by omega] at this
      · rw [List.countP_cons_of_neg hx] at hk ⊢
        rw [if_neg hx, if_neg hx]
        exact ih (fun j hj => hq j (by simp [hj])) k e e' h hk
  have key : ∀ m ≤ n, Rel (P (m * c))
      ((List.range m).foldlM (fun like i => (List.range n).foldlM (fun like j =>
        if admissible i j sl then
          (let tmp := if link i j then p d (x i) (y j) (z i j) else q d (x i) (y j) (z i j)
          if tmp.isInf then .error tmp else .ok (A.add like tmp)) else .ok like) like) 0)
      ((List.range m).foldlM (fun like i => (List.range n).foldlM (fun like j =>
        if admissible i j sl then
          (let tmp := if link i j then p' d (x i) (y j) (z i j) else q' d (x i) (y j) (z i j)
          if tmp.isInf then .error tmp else .ok (B.add like tmp)) else .ok like) like) 0) := by
    intro m
    induction m with
    | zero => intro _; simpa [Rel, pure, Except.pure] using h0
    | succ m ih =>
      intro hm
      rw [List.range_succ, List.foldlM_append, List.foldlM_append]
      have hcnt := count_admissible (n := n) (i := m) (by omega) sl
      have hle : (m + 1) * c ≤ n * c := Nat.mul_le_mul_right c hm
      refine (ih (by omega)).bind fun a b hab => ?_
      have := fold (List.range n) (fun j => admissible m j sl)
        (fun j => if link m j then p d (x m) (y j) (z m j) else q d (x m) (y j) (z m j))
        (fun j => if link m j then p' d (x m) (y j) (z m j) else q' d (x m) (y j) (z m j))
        (by
          intro j hj
          by_cases hl : link m j
          · rw [if_pos hl, if_pos hl]; exact hp m (by omega) j (List.mem_range.1 hj)
          · rw [if_neg hl, if_neg hl]; exact hq m (by omega) j (List.mem_range.1 hj))
        (m * c) a b hab (by rw [hcnt, ← hc]; rw [Nat.succ_mul] at hle; omega)
      rw [hcnt, ← hc] at this
      rw [Nat.succ_mul, foldlM_one, foldlM_one]
      exact this
  exact key n le_rfl

end Round

end Verif
