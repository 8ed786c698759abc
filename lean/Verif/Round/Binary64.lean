import Verif.Round.Lemmas
import Mathlib.Data.Int.Log
import Mathlib.Data.Real.Archimedean
import Mathlib.Tactic.FieldSimp
import Mathlib.Tactic.Ring

/-!
# IEEE 754 double precision

`binary64` is the arithmetic of the machine: every operation gives the exact result rounded to
the nearest double precision number, ties to even, with gradual underflow and with overflow to
infinity.  It is an instance of `Faithful`.

The library functions are taken to be rounded in the same way.  (Real libraries are allowed to be
worse, and `Faithful` covers those; this instance is used for the concrete cases only.)
-/

namespace Verif

namespace Round

noncomputable section

open XR

/-- The finite numbers of double precision: a significand of 53 bits and an exponent that is at
least -1074; smaller than `2 ^ 1024`. -/
def doubles : Set ℝ :=
  {q | (∃ m e : ℤ, |m| ≤ 2 ^ 53 ∧ -1074 ≤ e ∧ q = m * (2 : ℝ) ^ e) ∧ |q| < (2 : ℝ) ^ (1024 : ℤ)}

/-- Nearest integer, ties to even. -/
def nearest (y : ℝ) : ℤ :=
  if y - ⌊y⌋ < 1 / 2 then ⌊y⌋
  else if 1 / 2 < y - ⌊y⌋ then ⌊y⌋ + 1
  else if Even ⌊y⌋ then ⌊y⌋ else ⌊y⌋ + 1

/-- Exponent of the last place of `x`. -/
def expo (x : ℝ) : ℤ := max (Int.log 2 |x| - 52) (-1074)

/-- `x` rounded to a multiple of its last place. -/
def rnd (x : ℝ) : ℝ := nearest (x / (2 : ℝ) ^ expo x) * (2 : ℝ) ^ expo x

/-- `x` rounded to double precision. -/
def toDouble (x : ℝ) : XR :=
  if (2 : ℝ) ^ (1024 : ℤ) ≤ rnd x then pinf
  else if rnd x ≤ -(2 : ℝ) ^ (1024 : ℤ) then ninf
  else fin (rnd x)

/-- The same for a value that may be infinite or `nan`. -/
def roundXR : XR → XR
  | fin x => toDouble x
  | v => v

/-- Arithmetic of double precision numbers, rounding to nearest. -/
def binary64 : Arith where
  add a b := roundXR (a + b)
  sub a b := roundXR (a - b)
  mul a b := roundXR (a * b)
  div a b := roundXR (a / b)
  exp a := roundXR (XR.exp a)
  expm1 a := roundXR (XR.expm1 a)
  log a := roundXR (XR.log a)
  log1p a := roundXR (XR.log1p a)

theorem le_nearest {y : ℝ} {m : ℤ} (h : (m : ℝ) ≤ y) : m ≤ nearest y := by
  have := Int.le_floor.2 h
  unfold nearest
  split_ifs <;> omega

theorem nearest_le {y : ℝ} {m : ℤ} (h : y ≤ m) : nearest y ≤ m := by
  unfold nearest
  rcases (Int.floor_le y).eq_or_lt with e | hlt
  · rw [if_pos (by rw [e]; norm_num)]
    exact_mod_cast e.trans_le h
  · have : ⌊y⌋ < m := by exact_mod_cast hlt.trans_le h
    split_ifs <;> omega

theorem nearest_intCast (m : ℤ) : nearest (m : ℝ) = m :=
  le_antisymm (nearest_le le_rfl) (le_nearest le_rfl)

theorem pow_pos' (k : ℤ) : (0 : ℝ) < (2 : ℝ) ^ k := by positivity

theorem le_rnd_mul {x : ℝ} {m : ℤ} (h : m * (2 : ℝ) ^ expo x ≤ x) :
    m * (2 : ℝ) ^ expo x ≤ rnd x := by
  rw [rnd]
  refine mul_le_mul_of_nonneg_right ?_ (pow_pos' _).le
  exact_mod_cast le_nearest ((le_div_iff₀ (pow_pos' _)).2 h)

theorem rnd_le_mul {x : ℝ} {m : ℤ} (h : x ≤ m * (2 : ℝ) ^ expo x) :
    rnd x ≤ m * (2 : ℝ) ^ expo x := by
  rw [rnd]
  refine mul_le_mul_of_nonneg_right ?_ (pow_pos' _).le
  exact_mod_cast nearest_le ((div_le_iff₀ (pow_pos' _)).2 h)

/-- A number of the form `m * 2 ^ e` is a multiple of the last place of `x` if `e` is large
enough. -/
theorem mul_zpow_eq {m e k : ℤ} (h : k ≤ e) : ∃ c : ℤ, m * (2 : ℝ) ^ e = c * (2 : ℝ) ^ k := by
  obtain ⟨j, hj⟩ := Int.eq_ofNat_of_zero_le (sub_nonneg.2 h)
  refine ⟨m * 2 ^ j, ?_⟩
  rw [show e = k + j by omega, zpow_add₀ (by norm_num)]
  push_cast
  rw [zpow_natCast]
  ring

theorem log_bounds {x : ℝ} (hx : x ≠ 0) :
    (2 : ℝ) ^ Int.log 2 |x| ≤ |x| ∧ |x| < (2 : ℝ) ^ (Int.log 2 |x| + 1) := by
  have h : (0 : ℝ) < |x| := abs_pos.2 hx
  exact ⟨by exact_mod_cast Int.zpow_log_le_self (b := 2) (by norm_num) h,
    by exact_mod_cast Int.lt_zpow_succ_log_self (b := 2) (by norm_num) |x|⟩

theorem rnd_zero : rnd 0 = 0 := by
  rw [rnd, zero_div, show (0 : ℝ) = ((0 : ℤ) : ℝ) by simp, nearest_intCast]
  simp

/-- Either a double precision number is a multiple of the last place of `x`, or it is not larger
in absolute value than the largest power of two below `|x|`. -/
theorem double_cases {x q : ℝ} (hq : q ∈ doubles) :
    (∃ c : ℤ, q = c * (2 : ℝ) ^ expo x) ∨
      (|q| ≤ (2 : ℝ) ^ Int.log 2 |x| ∧ ∃ c : ℤ, (2 : ℝ) ^ Int.log 2 |x| = c * (2 : ℝ) ^ expo x) := by
  obtain ⟨⟨m, e, hm, he, rfl⟩, _⟩ := hq
  by_cases h : expo x ≤ e
  · exact .inl (mul_zpow_eq h)
  right
  push Not at h
  have hk : expo x = Int.log 2 |x| - 52 := by
    rw [expo] at h ⊢
    rcases le_total (Int.log 2 |x| - 52) (-1074) with h' | h'
    · rw [max_eq_right h'] at h; omega
    · exact max_eq_left h'
  constructor
  · rw [abs_mul, abs_of_pos (pow_pos' e)]
    have h1 : |(m : ℝ)| ≤ (2 : ℝ) ^ (53 : ℤ) := by
      have : ((|m| : ℤ) : ℝ) ≤ ((2 ^ 53 : ℤ) : ℝ) := by exact_mod_cast hm
      rw [Int.cast_abs] at this
      refine this.trans ?_
      norm_num
    calc |(m : ℝ)| * (2 : ℝ) ^ e ≤ (2 : ℝ) ^ (53 : ℤ) * (2 : ℝ) ^ e :=
          mul_le_mul_of_nonneg_right h1 (pow_pos' _).le
      _ = (2 : ℝ) ^ (53 + e) := (zpow_add₀ (by norm_num) _ _).symm
      _ ≤ (2 : ℝ) ^ Int.log 2 |x| := zpow_le_zpow_right₀ (by norm_num) (by omega)
  · have := mul_zpow_eq (m := 1) (e := Int.log 2 |x|) (k := expo x) (by omega)
    simpa using this

theorem le_rnd {x q : ℝ} (hq : q ∈ doubles) (h : q ≤ x) : q ≤ rnd x := by
  rcases double_cases (x := x) hq with ⟨c, rfl⟩ | ⟨h1, c, hc⟩
  · exact le_rnd_mul h
  by_cases hx : x = 0
  · subst hx; rw [rnd_zero]; exact h
  have hb := (log_bounds hx).1
  rcases lt_or_gt_of_ne hx with hneg | hpos
  · rw [abs_of_neg hneg] at hb h1 hc
    have h2 := neg_le_of_abs_le h1
    have e : q = ((-c : ℤ) : ℝ) * (2 : ℝ) ^ expo x := by
      push_cast; rw [neg_mul, ← hc]; linarith
    rw [e] at h ⊢
    exact le_rnd_mul h
  · rw [abs_of_pos hpos] at hb h1 hc
    have h2 := le_of_abs_le h1
    rw [hc] at hb h2
    exact h2.trans (le_rnd_mul hb)

theorem rnd_le {x q : ℝ} (hq : q ∈ doubles) (h : x ≤ q) : rnd x ≤ q := by
  rcases double_cases (x := x) hq with ⟨c, rfl⟩ | ⟨h1, c, hc⟩
  · exact rnd_le_mul h
  by_cases hx : x = 0
  · subst hx; rw [rnd_zero]; exact h
  have hb := (log_bounds hx).1
  rcases lt_or_gt_of_ne hx with hneg | hpos
  · rw [abs_of_neg hneg] at hb h1 hc
    have h2 := neg_le_of_abs_le h1
    have hb' : x ≤ ((-c : ℤ) : ℝ) * (2 : ℝ) ^ expo x := by
      push_cast; rw [neg_mul, ← hc]; linarith
    refine (rnd_le_mul hb').trans ?_
    push_cast; rw [neg_mul, ← hc]; exact h2
  · rw [abs_of_pos hpos] at hb h1 hc
    have h2 := le_of_abs_le h1
    have e : q = (c : ℝ) * (2 : ℝ) ^ expo x := by rw [← hc]; linarith
    rw [e] at h ⊢
    exact rnd_le_mul h

theorem rnd_form (x : ℝ) : ∃ m e : ℤ, |m| ≤ 2 ^ 53 ∧ -1074 ≤ e ∧ rnd x = m * (2 : ℝ) ^ e := by
  by_cases hx : x = 0
  · subst hx
    exact ⟨0, 0, by norm_num, by norm_num, by rw [rnd_zero]; simp⟩
  refine ⟨_, _, ?_, le_max_right _ _, rfl⟩
  have h : |x / (2 : ℝ) ^ expo x| ≤ ((2 ^ 53 : ℤ) : ℝ) := by
    rw [abs_div, abs_of_pos (pow_pos' _), div_le_iff₀ (pow_pos' _)]
    refine (log_bounds hx).2.le.trans ?_
    rw [show (((2 ^ 53 : ℤ)) : ℝ) = (2 : ℝ) ^ (53 : ℤ) by norm_num, ← zpow_add₀ (by norm_num)]
    refine zpow_le_zpow_right₀ (by norm_num) ?_
    have := le_max_left (Int.log 2 |x| - 52) (-1074)
    rw [← expo] at this
    omega
  rw [abs_le] at h ⊢
  refine ⟨le_nearest ?_, nearest_le h.2⟩
  push_cast at h ⊢
  linarith [h.1]

theorem In.toDouble (x : ℝ) : In doubles (toDouble x) := by
  unfold Round.toDouble
  split_ifs with h1 h2
  · trivial
  · trivial
  · push Not at h1 h2
    exact ⟨rnd_form x, abs_lt.2 ⟨h2, h1⟩⟩

theorem near_toDouble (x : ℝ) : Near doubles doubles (fin x) (toDouble x) where
  nan h := by simp at h
  rep _ := .toDouble x
  lower q hq h := by
    cases q with
    | fin q =>
      have h' : q ≤ rnd x := le_rnd hq (by simpa [leb] using h)
      have := (abs_lt.1 hq.2).1
      unfold toDouble
      split_ifs with h1 h2
      · rfl
      · linarith
      · simpa [leb] using h'
    | pinf => simp [leb] at h
    | ninf => exact ninf_leb (by have := In.toDouble x; intro e; rw [e] at this; exact this)
    | nan => simp [leb] at h
  upper q hq h := by
    cases q with
    | fin q =>
      have h' : rnd x ≤ q := rnd_le hq (by simpa [leb] using h)
      have := (abs_lt.1 hq.2).2
      unfold toDouble
      split_ifs with h1 h2
      · linarith
      · rfl
      · simpa [leb] using h'
    | ninf => simp [leb] at h
    | pinf => exact leb_pinf (by have := In.toDouble x; intro e; rw [e] at this; exact this)
    | nan => simp [leb] at h

theorem near_round (v : XR) : Near doubles doubles v (roundXR v) := by
  cases v with
  | fin x => exact near_toDouble x
  | pinf => exact ⟨fun h => h, fun _ => trivial, fun _ _ h => h, fun _ _ h => h⟩
  | ninf => exact ⟨fun h => h, fun _ => trivial, fun _ _ h => h, fun _ _ h => h⟩
  | nan => exact ⟨fun h => h, fun h => absurd rfl h, fun _ _ h => h, fun _ _ h => h⟩

theorem intCast_mem {m : ℤ} (h : |m| ≤ 2 ^ 53) : (m : ℝ) ∈ doubles := by
  refine ⟨⟨m, 0, h, by norm_num, by simp⟩, ?_⟩
  have : ((|m| : ℤ) : ℝ) ≤ ((2 ^ 53 : ℤ) : ℝ) := by exact_mod_cast h
  rw [Int.cast_abs] at this
  refine this.trans_lt ?_
  rw [show (((2 ^ 53 : ℤ)) : ℝ) = (2 : ℝ) ^ (53 : ℤ) by norm_num]
  exact zpow_lt_zpow_right₀ (by norm_num) (by norm_num)

theorem natCast_mem {m : ℕ} (h : m ≤ 2 ^ 53) : (m : ℝ) ∈ doubles := by
  have := intCast_mem (m := (m : ℤ)) (by rw [abs_of_nonneg (by positivity)]; exact_mod_cast h)
  exact_mod_cast this

theorem Near.mono {F Q Q' : Set ℝ} {e v : XR} (h : Near F Q e v) (hQ : Q' ⊆ Q) :
    Near F Q' e v where
  nan := h.nan
  rep := h.rep
  lower q hq := h.lower q (by cases q <;> simp_all [In]; exact hQ hq)
  upper q hq := h.upper q (by cases q <;> simp_all [In]; exact hQ hq)

theorem units_subset : units ⊆ doubles := by
  intro q hq
  rcases hq with rfl | rfl | rfl
  · have := intCast_mem (m := -1) (by norm_num); exact_mod_cast this
  · have := intCast_mem (m := 0) (by norm_num); exact_mod_cast this
  · have := intCast_mem (m := 1) (by norm_num); exact_mod_cast this

/-- Double precision arithmetic is an instance. -/
theorem Faithful.binary64 : Faithful doubles binary64 where
  zero_mem := units_subset (by simp [units])
  one_mem := units_subset (by simp [units])
  neg_mem := by
    rintro r ⟨⟨m, e, hm, he, rfl⟩, h⟩
    exact ⟨⟨-m, e, by rwa [abs_neg], he, by push_cast; ring⟩, by rwa [abs_neg]⟩
  add _ _ := near_round _
  sub _ _ := near_round _
  mul _ _ := near_round _
  div _ _ := near_round _
  exp _ := (near_round _).mono units_subset
  expm1 _ := (near_round _).mono units_subset
  log _ := (near_round _).mono units_subset
  log1p _ := (near_round _).mono units_subset

/-! ## Computing roundings -/

theorem log_eq {x : ℝ} {L : ℤ} (h1 : (2 : ℝ) ^ L ≤ x) (h2 : x < (2 : ℝ) ^ (L + 1)) :
    Int.log 2 |x| = L := by
  have hx : 0 < x := (pow_pos' L).trans_le h1
  rw [abs_of_pos hx]
  apply le_antisymm
  · exact Int.lt_add_one_iff.1 ((Int.lt_zpow_iff_log_lt (by norm_num) hx).1 (by exact_mod_cast h2))
  · exact (Int.zpow_le_iff_le_log (by norm_num) hx).1 (by exact_mod_cast h1)

/-- Rounding of a number of double precision is that number. -/
theorem toDouble_self {x : ℝ} (hx : x ∈ doubles) : toDouble x = fin x :=
  near_self (near_toDouble x) hx

end

end Round

end Verif
