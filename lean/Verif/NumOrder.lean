import Verif.Num
import Mathlib.Tactic.Linarith

/-!
# Comparisons, absolute value and numpy division on `XR`

These are the operations of `/repo/src/graph_ensembles/solver.py`, which works on numpy
scalars and arrays of length one: a comparison with `nan` is false, and a division by zero
does not raise but gives an infinity or `nan` (with a warning).
-/

namespace Verif

namespace XR

noncomputable section

/-- `a <= b` on floats (false as soon as one side is `nan`). -/
def leb : XR → XR → Bool
  | fin a, fin b => decide (a ≤ b)
  | nan, _ => false
  | _, nan => false
  | ninf, _ => true
  | _, pinf => true
  | _, _ => false

/-- `a == b` on floats (false as soon as one side is `nan`). -/
def eqb : XR → XR → Bool
  | fin a, fin b => decide (a = b)
  | pinf, pinf => true
  | ninf, ninf => true
  | _, _ => false

/-- `numpy.abs`. -/
def abs : XR → XR
  | fin a => fin |a|
  | pinf => pinf
  | ninf => pinf
  | nan => nan

/-- Division of numpy values: `a / 0` is an infinity with the sign of `a`, and `nan` for
`0 / 0`.  The sign of a zero denominator is not modelled. -/
def npDiv : XR → XR → XR
  | fin a, fin b => if b = 0 then signedInf a else fin (a / b)
  | pinf, fin b => if b = 0 then pinf else signedInf b
  | ninf, fin b => if b = 0 then ninf else signedInf (-b)
  | a, b => a / b

/-- The value is not `nan`. -/
def Num (a : XR) : Prop := a ≠ nan

@[simp] theorem leb_fin (a b : ℝ) : leb (fin a) (fin b) = decide (a ≤ b) := rfl
@[simp] theorem eqb_fin (a b : ℝ) : eqb (fin a) (fin b) = decide (a = b) := rfl
@[simp] theorem abs_fin (a : ℝ) : abs (fin a) = fin |a| := rfl
@[simp] theorem abs_pinf : abs pinf = pinf := rfl
@[simp] theorem abs_ninf : abs ninf = pinf := rfl
@[simp] theorem ltb_fin' (a b : ℝ) : ltb (fin a) (fin b) = decide (a < b) := rfl

theorem npDiv_fin (a : ℝ) {b : ℝ} (hb : b ≠ 0) : npDiv (fin a) (fin b) = fin (a / b) := by
  simp [npDiv, hb]

theorem leb_refl {a : XR} (h : a ≠ nan) : leb a a = true := by
  cases a <;> simp [leb] at *

theorem leb_trans {a b c : XR} (h1 : leb a b = true) (h2 : leb b c = true) :
    leb a c = true := by
  cases a <;> cases b <;> cases c <;> simp [leb] at * <;> linarith

theorem leb_antisymm {a b : XR} (h1 : leb a b = true) (h2 : leb b a = true) : a = b := by
  cases a <;> cases b <;> simp [leb] at * <;> linarith

theorem leb_num_left {a b : XR} (h : leb a b = true) : a ≠ nan := by
  rintro rfl; simp [leb] at h

theorem leb_num_right {a b : XR} (h : leb a b = true) : b ≠ nan := by
  rintro rfl; cases a <;> simp [leb] at h

theorem leb_of_ltb {a b : XR} (h : ltb a b = true) : leb a b = true := by
  cases a <;> cases b <;> simp [leb, ltb] at * <;> linarith

theorem leb_of_not_ltb {a b : XR} (ha : a ≠ nan) (hb : b ≠ nan) (h : ltb a b = false) :
    leb b a = true := by
  cases a <;> cases b <;> simp [leb, ltb] at * <;> linarith

theorem ltb_of_not_leb {a b : XR} (ha : a ≠ nan) (hb : b ≠ nan) (h : leb a b = false) :
    ltb b a = true := by
  cases a <;> cases b <;> simp [leb, ltb] at * <;> linarith

theorem not_leb_of_ltb {a b : XR} (h : ltb a b = true) : leb b a = false := by
  cases a <;> cases b <;> simp [leb, ltb] at * <;> linarith

theorem eqb_iff {a b : XR} : eqb a b = true ↔ a = b ∧ a ≠ nan := by
  cases a <;> cases b <;> simp [eqb]

theorem leb_iff_of_num {a b : XR} (ha : a ≠ nan) (hb : b ≠ nan) :
    leb a b = true ↔ ltb b a = false := by
  cases a <;> cases b <;> simp [leb, ltb] at *

theorem ninf_leb {a : XR} (h : a ≠ nan) : leb ninf a = true := by
  cases a <;> simp [leb] at *

theorem leb_pinf {a : XR} (h : a ≠ nan) : leb a pinf = true := by
  cases a <;> simp [leb] at *

end

end XR

end Verif
