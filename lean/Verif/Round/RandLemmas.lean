import Verif.Round.RandModel
import Verif.Round.NNLemmas
import Verif.Round.LikeLemmas

/-!
# The random ensemble in double precision: lemmas
-/

namespace Verif

namespace Round

open XR

/-! ## Relative errors -/

theorem within_mul {A B E X Y x y : ℝ} (A0 : 0 ≤ A) (A1 : A ≤ 1) (B0 : 0 ≤ B) (B1 : B ≤ 1)
    (h : A + B + A * B ≤ E) (X0 : 0 ≤ X) (Y0 : 0 ≤ Y) (hx : Within A X x) (hy : Within B Y y) :
    Within E (X * Y) (x * y) := by
  have XY : 0 ≤ X * Y := mul_nonneg X0 Y0
  have l1 : 0 ≤ X * (1 - A) := mul_nonneg X0 (by linarith)
  have l2 : 0 ≤ Y * (1 - B) := mul_nonneg Y0 (by linarith)
  have x0 : 0 ≤ x := l1.trans hx.1
  have y0 : 0 ≤ y := l2.trans hy.1
  have AB : 0 ≤ A * B := mul_nonneg A0 B0
  constructor
  · calc X * Y * (1 - E) ≤ X * Y * (1 - A - B + A * B) := mul_le_mul_of_nonneg_left (by linarith) XY
      _ = X * (1 - A) * (Y * (1 - B)) := by ring
      _ ≤ x * y := mul_le_mul hx.1 hy.1 l2 x0
  · calc x * y ≤ X * (1 + A) * (Y * (1 + B)) :=
          mul_le_mul hx.2 hy.2 y0 (mul_nonneg X0 (by linarith))
      _ = X * Y * (1 + (A + B + A * B)) := by ring
      _ ≤ _ := mul_le_mul_of_nonneg_left (by linarith) XY

theorem within_div {A B E X Y x y : ℝ} (A0 : 0 ≤ A) (A1 : A ≤ 1) (B0 : 0 ≤ B) (B1 : B < 1)
    (E1 : E ≤ 1) (h1 : 1 + A ≤ (1 + E) * (1 - B)) (h2 : (1 - E) * (1 + B) ≤ 1 - A) (X0 : 0 ≤ X)
    (Y0 : 0 < Y) (hx : Within A X x) (hy : Within B Y y) : Within E (X / Y) (x / y) := by
  have E0 : 0 ≤ 1 + E := by
    by_contra h
    have : (1 + E) * (1 - B) ≤ 0 := mul_nonpos_of_nonpos_of_nonneg (by linarith) (by linarith)
    linarith
  have y0 : 0 < y := lt_of_lt_of_le (mul_pos Y0 (by linarith)) hy.1
  have XY : 0 ≤ X / Y := div_nonneg X0 Y0.le
  have e : X / Y * Y = X := div_mul_cancel₀ X Y0.ne'
  constructor
  · rw [le_div_iff₀ y0]
    calc X / Y * (1 - E) * y ≤ X / Y * (1 - E) * (Y * (1 + B)) :=
          mul_le_mul_of_nonneg_left hy.2 (mul_nonneg XY (by linarith))
      _ = (X / Y * Y) * ((1 - E) * (1 + B)) := by ring
      _ ≤ X * (1 - A) := by rw [e]; exact mul_le_mul_of_nonneg_left h2 X0
      _ ≤ x := hx.1
  · rw [div_le_iff₀ y0]
    calc x ≤ X * (1 + A) := hx.2
      _ ≤ X * ((1 + E) * (1 - B)) := mul_le_mul_of_nonneg_left h1 X0
      _ = (X / Y * Y) * ((1 + E) * (1 - B)) := by rw [e]
      _ = X / Y * (1 + E) * (Y * (1 - B)) := by ring
      _ ≤ X / Y * (1 + E) * y := mul_le_mul_of_nonneg_left hy.1 (mul_nonneg XY E0)

theorem within_self (X : ℝ) : Within (0 * ulp2) X X := by
  constructor <;> simp

theorem within_mono {a b X x : ℝ} (h : a ≤ b) (X0 : 0 ≤ X) (hx : Within a X x) : Within b X x :=
  ⟨(mul_le_mul_of_nonneg_left (by linarith) X0).trans hx.1,
    hx.2.trans (mul_le_mul_of_nonneg_left (by linarith) X0)⟩

/-- Zero, or far from overflow and underflow. -/
def MidR (X : ℝ) : Prop := X = 0 ∨ ((2 : ℝ) ^ (-900 : ℤ) ≤ X ∧ X ≤ (2 : ℝ) ^ (900 : ℤ))

theorem MidR.nonneg {X : ℝ} (h : MidR X) : 0 ≤ X := by
  rcases h with rfl | h
  · exact le_rfl
  · exact (pow_pos' _).le.trans h.1

/-- `v` is a double that differs from `X` by at most the fraction `c * 2 ^ -53`. -/
def Good (c X : ℝ) (v : XR) : Prop := ∃ w ∈ doubles, v = fin w ∧ Within (c * ulp2) X w

theorem Good.mono {a b X : ℝ} {v : XR} (h : a ≤ b) (X0 : 0 ≤ X) (hv : Good a X v) : Good b X v := by
  obtain ⟨w, hw, e, h1⟩ := hv
  exact ⟨w, hw, e, within_mono (mul_le_mul_of_nonneg_right h ulp2_pos.le) X0 h1⟩

private theorem small_le {B x X : ℝ} (hx : X * (1 / 2) ≤ x) (h : B ≤ X) : B * (1 / 2) ≤ x := by linarith

private theorem big_le {B x X : ℝ} (hx : x ≤ X * 2) (h : X ≤ B) : x ≤ B * 2 := by linarith

theorem good_round {c X x : ℝ} (c0 : 0 ≤ c) (hc : c ≤ 2 ^ 28) (hX : MidR X)
    (h : Within (c * ulp2) X x) : Good (c + 1.1) X (toDouble x) := by
  have hu := ulp2_pos
  have hu' := ulp2_small
  have hcu : c * ulp2 ≤ 1 / 1000000 := by
    have := count_small' hc (k := 0) (by norm_num)
    simpa using this
  have cu0 : 0 ≤ c * ulp2 := mul_nonneg c0 hu.le
  have X0 := hX.nonneg
  rcases hX with rfl | ⟨h1, h2⟩
  · have : x = 0 := le_antisymm (by simpa using h.2) (by simpa using h.1)
    subst this
    exact ⟨0, Faithful.binary64.zero_mem, toDouble_self Faithful.binary64.zero_mem, by simp [Within]⟩
  · have l1 : X * (1 / 2) ≤ x :=
      (mul_le_mul_of_nonneg_left (by linarith) X0).trans h.1
    have l2 : x ≤ X * 2 := h.2.trans (mul_le_mul_of_nonneg_left (by linarith) X0)
    have m1 : (2 : ℝ) ^ (-1022 : ℤ) ≤ x := by
      refine le_trans ?_ (small_le l1 h1)
      rw [show (1 / 2 : ℝ) = (2 : ℝ) ^ (-1 : ℤ) by norm_num, ← zpow_add₀ (by norm_num)]
      exact zpow_le_zpow_right₀ (by norm_num) (by norm_num)
    have m2 : x ≤ (2 : ℝ) ^ (1023 : ℤ) := by
      refine (big_le l2 h2).trans ?_
      rw [show (2 : ℝ) ^ (900 : ℤ) * 2 = (2 : ℝ) ^ (901 : ℤ) by
        rw [show (901 : ℤ) = 900 + 1 by norm_num, zpow_add₀ (by norm_num), zpow_one]]
      exact zpow_le_zpow_right₀ (by norm_num) (by norm_num)
    obtain ⟨v, hv, e, hw⟩ := toDouble_within m1 m2
    refine ⟨v, hv, e, ?_⟩
    have x0 : 0 ≤ x := le_trans (mul_nonneg X0 (by norm_num)) l1
    clear h1 h2 m1 m2
    have p1 : c * ulp2 * ulp2 ≤ 0.1 * ulp2 := mul_le_mul_of_nonneg_right (by linarith) hu.le
    have p2 : 0 ≤ c * ulp2 * ulp2 := mul_nonneg cu0 hu.le
    constructor
    · calc X * (1 - (c + 1.1) * ulp2) ≤ X * ((1 - c * ulp2) * (1 - ulp2)) :=
            mul_le_mul_of_nonneg_left (by nlinarith) X0
        _ = X * (1 - c * ulp2) * (1 - ulp2) := by ring
        _ ≤ x * (1 - ulp2) := mul_le_mul_of_nonneg_right h.1 (by linarith)
        _ ≤ v := hw.1
    · calc v ≤ x * (1 + ulp2) := hw.2
        _ ≤ X * (1 + c * ulp2) * (1 + ulp2) := mul_le_mul_of_nonneg_right h.2 (by linarith)
        _ = X * ((1 + c * ulp2) * (1 + ulp2)) := by ring
        _ ≤ _ := mul_le_mul_of_nonneg_left (by nlinarith) X0

private theorem small_unit {a : ℝ} (a0 : 0 ≤ a) (ha : a ≤ 1000) :
    0 ≤ a * ulp2 ∧ a * ulp2 ≤ 1 / 1000000 := by
  have hu := ulp2_pos
  have h2 : ulp2 ≤ 1 / 2 ^ 53 := by unfold ulp2; norm_num
  refine ⟨mul_nonneg a0 hu.le, ?_⟩
  calc a * ulp2 ≤ 1000 * (1 / 2 ^ 53) := mul_le_mul ha h2 hu.le (by norm_num)
    _ ≤ _ := by norm_num

theorem good_mul {a b X Y : ℝ} {v w : XR} (a0 : 0 ≤ a) (ha : a ≤ 1000) (b0 : 0 ≤ b) (hb : b ≤ 1000)
    (X0 : 0 ≤ X) (Y0 : 0 ≤ Y) (hv : Good a X v) (hw : Good b Y w) (h : MidR (X * Y)) :
    Good (a + b + 1.2) (X * Y) (binary64.mul v w) := by
  obtain ⟨x, _, rfl, hx⟩ := hv
  obtain ⟨y, _, rfl, hy⟩ := hw
  have hu := ulp2_pos
  obtain ⟨A0, A1⟩ := small_unit a0 ha
  obtain ⟨B0, B1⟩ := small_unit b0 hb
  have h1 : a * ulp2 * (b * ulp2) ≤ 0.1 * ulp2 := by
    have : a * ulp2 * b ≤ 0.1 := by nlinarith
    calc a * ulp2 * (b * ulp2) = a * ulp2 * b * ulp2 := by ring
      _ ≤ _ := mul_le_mul_of_nonneg_right this hu.le
  have h2 := within_mul (E := (a + b + 0.1) * ulp2) A0 (by linarith) B0 (by linarith)
    (by linarith) X0 Y0 hx hy
  have := good_round (c := a + b + 0.1) (by linarith) (by linarith) h h2
  exact this.mono (by linarith) (mul_nonneg X0 Y0)

theorem good_div {a b X Y : ℝ} {x : ℝ} {w : XR} (a0 : 0 ≤ a) (ha : a ≤ 1000) (b0 : 0 ≤ b)
    (hb : b ≤ 1000) (X0 : 0 ≤ X) (Y0 : 0 < Y) (hx : Within (a * ulp2) X x) (hw : Good b Y w)
    (h : MidR (X / Y)) : Good (a + b + 1.2) (X / Y) (binary64.div (fin x) w) := by
  obtain ⟨y, _, rfl, hy⟩ := hw
  have hu := ulp2_pos
  obtain ⟨A0, A1⟩ := small_unit a0 ha
  obtain ⟨B0, B1⟩ := small_unit b0 hb
  have y0 : 0 < y := lt_of_lt_of_le (mul_pos Y0 (by linarith)) hy.1
  have h1 : b * ulp2 * ((a + b + 0.1) * ulp2) ≤ 0.1 * ulp2 := by
    have : b * ulp2 * (a + b + 0.1) ≤ 0.1 := by nlinarith
    calc b * ulp2 * ((a + b + 0.1) * ulp2) = b * ulp2 * (a + b + 0.1) * ulp2 := by ring
      _ ≤ _ := mul_le_mul_of_nonneg_right this hu.le
  have h3 : 0 ≤ b * ulp2 * ((a + b + 0.1) * ulp2) :=
    mul_nonneg B0 (mul_nonneg (by linarith) hu.le)
  have h2 := within_div (E := (a + b + 0.1) * ulp2) A0 (by linarith) B0 (by linarith)
    (by have := small_unit (a := 0.1) (by norm_num) (by norm_num); linarith [this.2])
    (by nlinarith) (by nlinarith) X0 Y0 hx hy
  have e : binary64.div (fin x) (fin y) = toDouble (x / y) := by
    show roundXR (fin x / fin y) = _
    rw [fin_div_fin _ _ y0.ne']; rfl
  rw [e]
  exact (good_round (c := a + b + 0.1) (by linarith) (by linarith) h h2).mono (by linarith)
    (div_nonneg X0 Y0.le)

theorem good_add {a X Y : ℝ} {v w : XR} (a0 : 0 ≤ a) (ha : a ≤ 1000) (hX : MidR X) (hY : MidR Y)
    (hv : Good a X v) (hw : Good a Y w) : Good (a + 1.1) (X + Y) (binary64.add v w) := by
  obtain ⟨x, xd, rfl, hx⟩ := hv
  obtain ⟨y, yd, rfl, hy⟩ := hw
  have hu := ulp2_pos
  obtain ⟨A0, A1⟩ := small_unit a0 ha
  have X0 := hX.nonneg
  have Y0 := hY.nonneg
  have h2 : Within (a * ulp2) (X + Y) (x + y) := ⟨by linarith [hx.1, hy.1], by linarith [hx.2, hy.2]⟩
  show Good _ _ (toDouble (x + y))
  rcases hX with rfl | ⟨h3, h4⟩
  · have : x = 0 := le_antisymm (by simpa using hx.2) (by simpa using hx.1)
    subst this
    rw [zero_add, zero_add, toDouble_self yd]
    exact ⟨y, yd, rfl, within_mono (by linarith) Y0 hy⟩
  · rcases hY with rfl | ⟨h5, h6⟩
    · have : y = 0 := le_antisymm (by simpa using hy.2) (by simpa using hy.1)
      subst this
      rw [add_zero, add_zero, toDouble_self xd]
      exact ⟨x, xd, rfl, within_mono (by linarith) X0 hx⟩
    · have b1 : x ≤ X * 2 := hx.2.trans (mul_le_mul_of_nonneg_left (by linarith) X0)
      have b2 : y ≤ Y * 2 := hy.2.trans (mul_le_mul_of_nonneg_left (by linarith) Y0)
      have x0 : 0 ≤ x := le_trans (mul_nonneg X0 (by linarith)) hx.1
      have y0 : 0 ≤ y := le_trans (mul_nonneg Y0 (by linarith)) hy.1
      have big : x + y ≤ (2 : ℝ) ^ (1023 : ℤ) := by
        have := add_le_add (big_le b1 h4) (big_le b2 h6)
        refine this.trans ?_
        rw [show (2 : ℝ) ^ (900 : ℤ) * 2 + (2 : ℝ) ^ (900 : ℤ) * 2 = (2 : ℝ) ^ (902 : ℤ) by
          rw [show (902 : ℤ) = 900 + 2 by norm_num, zpow_add₀ (by norm_num)]; norm_num; ring]
        exact zpow_le_zpow_right₀ (by norm_num) (by norm_num)
      obtain ⟨v, hv, e, hw⟩ := add_within xd yd x0 y0 big
      refine ⟨v, hv, e, ?_⟩
      clear h3 h4 h5 h6 big
      have p1 : a * ulp2 * ulp2 ≤ 0.1 * ulp2 := mul_le_mul_of_nonneg_right (by linarith) hu.le
      have p2 : 0 ≤ a * ulp2 * ulp2 := mul_nonneg A0 hu.le
      have hu' := ulp2_small
      have S0 : 0 ≤ X + Y := add_nonneg X0 Y0
      constructor
      · calc (X + Y) * (1 - (a + 1.1) * ulp2) ≤ (X + Y) * ((1 - a * ulp2) * (1 - ulp2)) :=
              mul_le_mul_of_nonneg_left (by nlinarith) S0
          _ = (X + Y) * (1 - a * ulp2) * (1 - ulp2) := by ring
          _ ≤ (x + y) * (1 - ulp2) := mul_le_mul_of_nonneg_right h2.1 (by linarith)
          _ ≤ v := hw.1
      · calc v ≤ (x + y) * (1 + ulp2) := hw.2
          _ ≤ (X + Y) * (1 + a * ulp2) * (1 + ulp2) := mul_le_mul_of_nonneg_right h2.2 (by linarith)
          _ = (X + Y) * ((1 + a * ulp2) * (1 + ulp2)) := by ring
          _ ≤ _ := mul_le_mul_of_nonneg_left (by nlinarith) S0

/-! ## Integers -/

theorem ofInt_binary64 {k : ℤ} (h : |k| ≤ 2 ^ 53) : ofInt binary64 k = fin (k : ℝ) := by
  show toDouble (0 + (k : ℝ)) = _
  rw [zero_add]
  exact toDouble_self (intCast_mem h)

theorem good_int {k : ℤ} (h : |k| ≤ 2 ^ 53) : Good 0 (k : ℝ) (ofInt binary64 k) :=
  ⟨k, intCast_mem h, ofInt_binary64 h, within_self _⟩

/-! ## Either of two links -/

private theorem either_within {e P p : ℝ} (e0 : 0 ≤ e) (P0 : 0 ≤ P) (P1 : P ≤ 1) (p1 : p ≤ 1)
    (p0 : 0 ≤ p) (h : Within e P p) : Within e (2 * P - P * P) (2 * p - p * p) := by
  have F0 : 0 ≤ 2 * P - P * P := by nlinarith
  have q0 : 0 ≤ 2 - P := by linarith
  have k1 := mul_le_mul_of_nonneg_right h.1 q0
  have k2 := mul_le_mul_of_nonneg_right h.2 q0
  have k3 : 0 ≤ e * (2 * P - P * P) := mul_nonneg e0 F0
  rcases le_total p P with hp | hp
  · have m : 2 * p - p * p ≤ 2 * P - P * P := by nlinarith
    constructor
    · nlinarith
    · linarith
  · have m : 2 * P - P * P ≤ 2 * p - p * p := by nlinarith
    constructor
    · linarith
    · nlinarith

theorem good_either {a P p : ℝ} (a0 : 0 ≤ a) (ha : a ≤ 100) (P0 : 0 ≤ P)
    (P1 : P ≤ 1) (p1 : p ≤ 1) (hmid : P = 0 ∨ (2 : ℝ) ^ (-400 : ℤ) ≤ P)
    (h : Within (a * ulp2) P p) : Good (a + 5) (2 * P - P * P) (either binary64 (fin p)) := by
  have hu := ulp2_pos
  have hu' := ulp2_small
  obtain ⟨A0, A1⟩ := small_unit a0 (by linarith)
  have p0 : 0 ≤ p := le_trans (mul_nonneg P0 (by linarith)) h.1
  have hpp : MidR (2 * p) ∧ MidR (p * p) := by
    rcases hmid with rfl | hm
    · have : p = 0 := le_antisymm (by simpa using h.2) p0
      subst this
      exact ⟨.inl (by simp), .inl (by simp)⟩
    · have l : P * (1 / 2) ≤ p := le_trans (mul_le_mul_of_nonneg_left (by linarith) P0) h.1
      have l' : (2 : ℝ) ^ (-401 : ℤ) ≤ p := by
        refine le_trans (le_of_eq ?_) (small_le l hm)
        rw [show (1 / 2 : ℝ) = (2 : ℝ) ^ (-1 : ℤ) by norm_num, ← zpow_add₀ (by norm_num)]
        rfl
      have one : (1 : ℝ) ≤ (2 : ℝ) ^ (899 : ℤ) := one_le_zpow₀ (by norm_num) (by norm_num)
      have two : (2 : ℝ) ≤ (2 : ℝ) ^ (900 : ℤ) := by
        calc (2 : ℝ) = (2 : ℝ) ^ (1 : ℤ) := by norm_num
          _ ≤ _ := zpow_le_zpow_right₀ (by norm_num) (by norm_num)
      have lo : (2 : ℝ) ^ (-900 : ℤ) ≤ (2 : ℝ) ^ (-401 : ℤ) :=
        zpow_le_zpow_right₀ (by norm_num) (by norm_num)
      have lo2 : (2 : ℝ) ^ (-900 : ℤ) ≤ (2 : ℝ) ^ (-401 : ℤ) * (2 : ℝ) ^ (-401 : ℤ) := by
        rw [← zpow_add₀ (by norm_num)]
        exact zpow_le_zpow_right₀ (by norm_num) (by norm_num)
      refine ⟨.inr ⟨?_, ?_⟩, .inr ⟨?_, ?_⟩⟩
      · exact (lo.trans l').trans (by linarith)
      · exact le_trans (by linarith) two
      · exact lo2.trans (mul_le_mul l' l' (pow_pos' _).le p0)
      · exact le_trans (by nlinarith) two
  obtain ⟨t, td, et, ht⟩ := good_round (c := 0) le_rfl (by norm_num) hpp.1 (within_self (2 * p))
  obtain ⟨s, sd, es, hs⟩ := good_round (c := 0) le_rfl (by norm_num) hpp.2 (within_self (p * p))
  rw [zero_add] at ht hs
  have pu : 0 ≤ p * ulp2 := mul_nonneg p0 hu.le
  have ppu : p * p * ulp2 ≤ p * ulp2 := mul_le_mul_of_nonneg_right (by nlinarith) hu.le
  have ppu0 : 0 ≤ p * p * ulp2 := mul_nonneg (mul_nonneg p0 p0) hu.le
  have pu1 : p * ulp2 ≤ p * (1 / 1000000) := mul_le_mul_of_nonneg_left hu' p0
  have hp2 : p * p ≤ p := by nlinarith
  have D1 : p ≤ 2 * p - p * p := by linarith
  have d1 : (2 * p - p * p) * (1 - 3.3 * ulp2) ≤ t - s := by
    have := mul_le_mul_of_nonneg_right D1 hu.le
    nlinarith [ht.1, hs.2]
  have d2 : t - s ≤ (2 * p - p * p) * (1 + 3.3 * ulp2) := by
    have := mul_le_mul_of_nonneg_right D1 hu.le
    nlinarith [ht.2, hs.1]
  have F0 : 0 ≤ 2 * p - p * p := by linarith
  have r0 : 0 ≤ t + -s := by
    have : 0 ≤ (2 * p - p * p) * (1 - 3.3 * ulp2) := mul_nonneg F0 (by linarith)
    linarith
  have big : t + -s ≤ (2 : ℝ) ^ (1023 : ℤ) := by
    have e2 : (2 : ℝ) ^ (2 : ℤ) ≤ (2 : ℝ) ^ (1023 : ℤ) :=
      zpow_le_zpow_right₀ (by norm_num) (by norm_num)
    refine le_trans ?_ e2
    have : (2 * p - p * p) * (1 + 3.3 * ulp2) ≤ 2 * 2 :=
      mul_le_mul (by nlinarith) (by linarith) (by linarith) (by norm_num)
    norm_num
    linarith
  obtain ⟨v, vd, ev, hv⟩ := sum_within td (Faithful.binary64.neg_mem s sd) r0 big
  refine ⟨v, vd, ?_, ?_⟩
  · unfold either
    show roundXR (roundXR (fin 2 * fin p) - roundXR (fin p * fin p)) = _
    rw [fin_mul_fin, fin_mul_fin]
    show roundXR (toDouble (2 * p) - toDouble (p * p)) = _
    rw [et, es, fin_sub_fin, sub_eq_add_neg]
    exact ev
  · clear big
    have w1 := either_within A0 P0 P1 p1 p0 h
    have P2 : 0 ≤ 2 * P - P * P := by nlinarith
    have w2 : Within (4.4 * ulp2) (2 * p - p * p) v := by
      have q : 3.3 * ulp2 * ulp2 ≤ 0.1 * ulp2 := mul_le_mul_of_nonneg_right (by linarith) hu.le
      have q' : 0 ≤ 3.3 * ulp2 * ulp2 := by positivity
      constructor
      · calc (2 * p - p * p) * (1 - 4.4 * ulp2) ≤ (2 * p - p * p) * ((1 - 3.3 * ulp2) * (1 - ulp2)) :=
              mul_le_mul_of_nonneg_left (by nlinarith) F0
          _ = (2 * p - p * p) * (1 - 3.3 * ulp2) * (1 - ulp2) := by ring
          _ ≤ (t + -s) * (1 - ulp2) := mul_le_mul_of_nonneg_right (by linarith) (by linarith)
          _ ≤ v := hv.1
      · calc v ≤ (t + -s) * (1 + ulp2) := hv.2
          _ ≤ (2 * p - p * p) * (1 + 3.3 * ulp2) * (1 + ulp2) :=
              mul_le_mul_of_nonneg_right (by linarith) (by linarith)
          _ = (2 * p - p * p) * ((1 + 3.3 * ulp2) * (1 + ulp2)) := by ring
          _ ≤ _ := mul_le_mul_of_nonneg_left (by nlinarith) F0
    have q : a * ulp2 * (4.4 * ulp2) ≤ 0.1 * ulp2 := by
      calc a * ulp2 * (4.4 * ulp2) = (a * ulp2 * 4.4) * ulp2 := by ring
        _ ≤ _ := mul_le_mul_of_nonneg_right (by linarith) hu.le
    have q' : 0 ≤ a * ulp2 * (4.4 * ulp2) := mul_nonneg A0 (by linarith)
    constructor
    · calc (2 * P - P * P) * (1 - (a + 5) * ulp2)
          ≤ (2 * P - P * P) * ((1 - a * ulp2) * (1 - 4.4 * ulp2)) :=
            mul_le_mul_of_nonneg_left (by nlinarith) P2
        _ = (2 * P - P * P) * (1 - a * ulp2) * (1 - 4.4 * ulp2) := by ring
        _ ≤ (2 * p - p * p) * (1 - 4.4 * ulp2) := mul_le_mul_of_nonneg_right w1.1 (by linarith)
        _ ≤ v := w2.1
    · calc v ≤ (2 * p - p * p) * (1 + 4.4 * ulp2) := w2.2
        _ ≤ (2 * P - P * P) * (1 + a * ulp2) * (1 + 4.4 * ulp2) :=
            mul_le_mul_of_nonneg_right w1.2 (by linarith)
        _ = (2 * P - P * P) * ((1 + a * ulp2) * (1 + 4.4 * ulp2)) := by ring
        _ ≤ _ := mul_le_mul_of_nonneg_left (by nlinarith) P2

end Round

end Verif
