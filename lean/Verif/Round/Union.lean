import Verif.Round.Binary64
import Mathlib.Tactic.NormNum

/-!
# The undirected probability in double precision

`exp_degrees` adds `pij + pji - pij * pji` to the undirected degrees.  Rounded to nearest in double
precision this stays between 0 and 1.  (In other rounding modes it need not.)
-/

namespace Verif

namespace Round

open XR

theorem nearest_err (y : ℝ) : |(nearest y : ℝ) - y| ≤ 1 / 2 := by
  have h1 := Int.floor_le y
  have h2 := Int.lt_floor_add_one y
  unfold nearest
  split_ifs with a b c
  · rw [abs_le]; constructor <;> linarith
  · push_cast; rw [abs_le]; constructor <;> linarith
  · rw [abs_le]; constructor <;> linarith
  · push_cast; rw [abs_le]; constructor <;> linarith

/-- Rounding changes a number by at most half of its last place. -/
theorem rnd_err (x : ℝ) : |rnd x - x| ≤ (2 : ℝ) ^ expo x / 2 := by
  have h := nearest_err (x / (2 : ℝ) ^ expo x)
  have hp := pow_pos' (expo x)
  have e : rnd x - x =
      ((nearest (x / (2 : ℝ) ^ expo x) : ℝ) - x / (2 : ℝ) ^ expo x) * (2 : ℝ) ^ expo x := by
    rw [rnd, sub_mul, div_mul_cancel₀ _ hp.ne']
  rw [e, abs_mul, abs_of_pos hp]
  have := mul_le_mul_of_nonneg_right h hp.le
  linarith

theorem expo_of {x : ℝ} {L : ℤ} (h1 : (2 : ℝ) ^ L ≤ x) (h2 : x < (2 : ℝ) ^ (L + 1))
    (hL : -1022 ≤ L) : expo x = L - 52 := by
  rw [expo, log_eq h1 h2]
  exact max_eq_left (by omega)

theorem expo_le {x : ℝ} {L : ℤ} (h0 : 0 < x) (h2 : x < (2 : ℝ) ^ (L + 1)) (hL : -1022 ≤ L) :
    expo x ≤ L - 52 := by
  rw [expo]
  refine max_le ?_ (by omega)
  rw [abs_of_pos h0]
  have := (Int.lt_zpow_iff_log_lt (b := 2) (by norm_num) h0 (x := L + 1)).1 (by exact_mod_cast h2)
  omega

/-- Numbers up to halfway between 1 and the next number are rounded to at most 1. -/
theorem rnd_le_one {z : ℝ} (h : z ≤ 1 + (2 : ℝ) ^ (-53 : ℤ)) : rnd z ≤ 1 := by
  have h1d : (1 : ℝ) ∈ doubles := units_subset (by simp [units])
  rcases le_or_gt z 1 with h1 | h1
  · exact rnd_le h1d h1
  have he : expo z = -52 := by
    refine expo_of (L := 0) (by simpa using h1.le) (h.trans_lt ?_) (by norm_num)
    norm_num
  rw [rnd, he]
  have hn : nearest (z / (2 : ℝ) ^ (-52 : ℤ)) ≤ 2 ^ 52 := by
    have hz : z / (2 : ℝ) ^ (-52 : ℤ) ≤ 2 ^ 52 + 1 / 2 := by
      rw [div_le_iff₀ (pow_pos' _)]
      refine h.trans ?_
      norm_num
    have hz' : (2 : ℝ) ^ 52 ≤ z / (2 : ℝ) ^ (-52 : ℤ) := by
      rw [le_div_iff₀ (pow_pos' _)]
      refine le_trans ?_ h1.le
      norm_num
    have hf : ⌊z / (2 : ℝ) ^ (-52 : ℤ)⌋ = 2 ^ 52 := by
      rw [Int.floor_eq_iff]
      push_cast
      constructor <;> linarith
    unfold nearest
    rw [hf]
    push_cast
    split_ifs with a b c
    · norm_num
    · exfalso; linarith
    · norm_num
    · exact absurd (by decide) c
  have : ((nearest (z / (2 : ℝ) ^ (-52 : ℤ)) : ℤ) : ℝ) ≤ 2 ^ 52 := by exact_mod_cast hn
  calc _ ≤ (2 : ℝ) ^ 52 * (2 : ℝ) ^ (-52 : ℤ) :=
        mul_le_mul_of_nonneg_right this (pow_pos' _).le
    _ = 1 := by norm_num

/-- A double precision number below 1 is at most `1 - 2 ^ -53`. -/
theorem double_lt_one {a : ℝ} (ha : a ∈ doubles) (h : a < 1) : a ≤ 1 - (2 : ℝ) ^ (-53 : ℤ) := by
  by_contra hc
  push Not at hc
  obtain ⟨⟨m, e, hm, he, rfl⟩, _⟩ := ha
  have hpos := pow_pos' e
  rcases le_or_gt (-53) e with h53 | h53
  · obtain ⟨c, hc'⟩ := mul_zpow_eq (m := m) h53
    rw [hc'] at h hc
    have hp := pow_pos' (-53)
    have e1 : (1 : ℝ) = (2 : ℝ) ^ 53 * (2 : ℝ) ^ (-53 : ℤ) := by norm_num
    have h1 : (c : ℝ) < 2 ^ 53 := by
      rw [e1] at h; exact lt_of_mul_lt_mul_right h hp.le
    have h2 : (2 : ℝ) ^ 53 - 1 < c := by
      have : ((2 : ℝ) ^ 53 - 1) * (2 : ℝ) ^ (-53 : ℤ) < c * (2 : ℝ) ^ (-53 : ℤ) := by
        rw [sub_mul, ← e1, one_mul]; exact hc
      exact lt_of_mul_lt_mul_right this hp.le
    have h1' : c < 2 ^ 53 := by exact_mod_cast h1
    have h2' : (2 : ℤ) ^ 53 - 1 < c := by exact_mod_cast h2
    omega
  · have hm' : (m : ℝ) ≤ 2 ^ 53 := by exact_mod_cast (le_abs_self m).trans hm
    have : (m : ℝ) * (2 : ℝ) ^ e ≤ 1 / 2 := by
      calc (m : ℝ) * (2 : ℝ) ^ e ≤ 2 ^ 53 * (2 : ℝ) ^ e :=
            mul_le_mul_of_nonneg_right hm' hpos.le
        _ ≤ 2 ^ 53 * (2 : ℝ) ^ (-54 : ℤ) :=
            mul_le_mul_of_nonneg_left (zpow_le_zpow_right₀ (by norm_num) (by omega)) (by norm_num)
        _ = 1 / 2 := by norm_num
    norm_num at hc
    linarith

/-- Rounding errors of the sum. -/
theorem sum_err {a b : ℝ} (h1 : 1 < a + b) (h2 : a + b ≤ 2) :
    rnd (a + b) ≤ a + b + (2 : ℝ) ^ (-53 : ℤ) ∧
      ∃ c : ℤ, rnd (a + b) = c * (2 : ℝ) ^ (-53 : ℤ) := by
  rcases h2.eq_or_lt with h | h
  · have : rnd (a + b) = a + b := by
      have h2d : (a + b) ∈ doubles := by rw [h]; exact_mod_cast natCast_mem (m := 2) (by norm_num)
      exact le_antisymm (rnd_le h2d le_rfl) (le_rnd h2d le_rfl)
    rw [this]
    refine ⟨by linarith [pow_pos' (-53)], 2 ^ 54, ?_⟩
    rw [h]; norm_num
  · have he : expo (a + b) = -52 :=
      expo_of (L := 0) (by simpa using h1.le) (by norm_num; exact h) (by norm_num)
    constructor
    · have := rnd_err (a + b)
      rw [he] at this
      have := (abs_le.1 this).2
      have e : (2 : ℝ) ^ (-52 : ℤ) / 2 = (2 : ℝ) ^ (-53 : ℤ) := by norm_num
      rw [e] at this
      linarith
    · rw [rnd, he]
      exact mul_zpow_eq (by norm_num)

/-- In double precision `pij + pji - pij * pji` is at most 1. -/
theorem union_le_one {a b : ℝ} (ha : a ∈ doubles) (hb : b ∈ doubles) (a0 : 0 ≤ a) (a1 : a ≤ 1)
    (b0 : 0 ≤ b) (b1 : b ≤ 1) : rnd (rnd (a + b) - rnd (a * b)) ≤ 1 := by
  wlog hab : b ≤ a generalizing a b
  · have := this hb ha b0 b1 a0 a1 (le_of_not_ge hab)
    rwa [add_comm, mul_comm] at this
  have h0d : (0 : ℝ) ∈ doubles := units_subset (by simp [units])
  have h1d : (1 : ℝ) ∈ doubles := units_subset (by simp [units])
  have hm0 : 0 ≤ rnd (a * b) := le_rnd h0d (mul_nonneg a0 b0)
  have hε := pow_pos' (-53)
  rcases le_or_gt (a + b) 1 with hs | hs
  · apply rnd_le_one
    have := rnd_le h1d hs
    linarith
  obtain ⟨hs1, c, hc⟩ := sum_err hs (by linarith)
  apply rnd_le_one
  rcases a1.eq_or_lt with rfl | a1
  · have : rnd (1 * b) = b := by
      rw [one_mul]; exact le_antisymm (rnd_le hb le_rfl) (le_rnd hb le_rfl)
    rw [this]
    linarith
  have ha' := double_lt_one ha a1
  have hab1 : a * b < 1 := by nlinarith
  have hη : 0 ≤ (1 - a - (2 : ℝ) ^ (-53 : ℤ)) := by linarith
  rcases lt_or_ge (a * b) (1 / 2) with hlt | hge
  · -- the smaller of the two is below 0.72
    have hb' : b ≤ 3 / 4 := by nlinarith
    have hmb : a * b - rnd (a * b) ≤ (2 : ℝ) ^ (-53 : ℤ) / 4 := by
      have := (abs_le.1 ((rnd_err (a * b)).trans (div_le_div_of_nonneg_right
        (zpow_le_zpow_right₀ (by norm_num : (1 : ℝ) ≤ 2)
          (expo_le (L := -2) (mul_pos (by linarith) (by linarith)) (by norm_num; linarith)
            (by norm_num)))
        (by norm_num : (0 : ℝ) ≤ 2)))).1
      have e : (2 : ℝ) ^ (-2 - 52 : ℤ) / 2 = (2 : ℝ) ^ (-53 : ℤ) / 4 := by norm_num
      rw [e] at this
      linarith
    have h7 : (2 : ℝ) ^ (-53 : ℤ) * (1 / 4) ≤ (1 - a) * (1 - b) :=
      mul_le_mul (by linarith) (by linarith) (by norm_num) (by linarith)
    have h8 : (1 - a) * (1 - b) = 1 - a - b + a * b := by ring
    linarith
  · -- both numbers are multiples of 2 ^ -53
    have he : expo (a * b) = -53 :=
      expo_of (L := -1) (by norm_num; linarith) (by norm_num; linarith) (by norm_num)
    have hmb := rnd_err (a * b)
    rw [he] at hmb
    have hmb := (abs_le.1 hmb).1
    obtain ⟨c', hc'⟩ : ∃ c' : ℤ, rnd (a * b) = c' * (2 : ℝ) ^ (-53 : ℤ) := ⟨_, by rw [rnd, he]⟩
    have e1 : (1 : ℝ) = (2 : ℝ) ^ 53 * (2 : ℝ) ^ (-53 : ℤ) := by norm_num
    generalize (2 : ℝ) ^ (-53 : ℤ) = ε at *
    have hz : rnd (a + b) - rnd (a * b) < 1 + 2 * ε := by
      have h7 : 0 ≤ (1 - a) * (1 - b) := mul_nonneg (by linarith) (by linarith)
      have h8 : (1 - a) * (1 - b) = 1 - a - b + a * b := by ring
      linarith
    rw [hc, hc'] at hz ⊢
    have h3 : ((c : ℝ) - c') * ε < ((2 : ℝ) ^ 53 + 2) * ε := by
      rw [sub_mul, add_mul, ← e1]
      exact hz
    have h4 : (c : ℝ) - c' < (2 : ℝ) ^ 53 + 2 := lt_of_mul_lt_mul_right h3 hε.le
    have h5 : c - c' < 2 ^ 53 + 2 := by exact_mod_cast h4
    have h6 : c - c' ≤ 2 ^ 53 + 1 := by omega
    have h7 : (c : ℝ) - c' ≤ (2 : ℝ) ^ 53 + 1 := by exact_mod_cast h6
    have h8 := mul_le_mul_of_nonneg_right h7 hε.le
    rw [sub_mul, add_mul, ← e1, one_mul] at h8
    exact h8

end Round

end Verif
