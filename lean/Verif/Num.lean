import Mathlib.Data.Real.Basic
import Mathlib.Data.ENNReal.Real
import Mathlib.Analysis.SpecialFunctions.Log.Basic

/-!
# Extended reals with IEEE special values

Floating-point numbers are modelled by `XR`: a real number, `+inf`, `-inf` or `nan`.
Special values follow IEEE 754 (`0 * inf = nan`, `inf - inf = nan`, `inf / inf = nan`, ...);
rounding, underflow, overflow and the sign of zero are *not* modelled.

`math.log`, `math.log1p`, `math.exp`, `math.expm1` are the versions used inside numba
`nopython` functions: they return `-inf`/`nan` instead of raising (all call sites of these
functions in `/repo/src/graph_ensembles/sparse/models/{fitness,invariant}.py`,
`/repo/src/graph_ensembles/models.py` and `/repo/src/graph_ensembles/spark/models.py` are
inside `@jit(nopython=True)` functions, except `RandomDiGraph.log_likelihood`, which is
modelled separately with raising versions).
-/

namespace Verif

open scoped ENNReal

/-- A floating point value without rounding. -/
inductive XR where
  | fin (r : ℝ)
  | pinf
  | ninf
  | nan

namespace XR

noncomputable section

instance : Zero XR := ⟨fin 0⟩
instance : One XR := ⟨fin 1⟩

theorem zero_def : (0 : XR) = fin 0 := rfl
theorem one_def : (1 : XR) = fin 1 := rfl

/-- IEEE negation. -/
def neg : XR → XR
  | fin r => fin (-r)
  | pinf => ninf
  | ninf => pinf
  | nan => nan

/-- IEEE addition. -/
def add : XR → XR → XR
  | nan, _ => nan
  | _, nan => nan
  | fin a, fin b => fin (a + b)
  | pinf, ninf => nan
  | ninf, pinf => nan
  | pinf, _ => pinf
  | _, pinf => pinf
  | ninf, _ => ninf
  | _, ninf => ninf

/-- Infinity carrying the sign of the real number `a`; `nan` for `a = 0` (`0 * inf`). -/
def signedInf (a : ℝ) : XR := if 0 < a then pinf else if a < 0 then ninf else nan

/-- IEEE multiplication. -/
def mul : XR → XR → XR
  | nan, _ => nan
  | _, nan => nan
  | fin a, fin b => fin (a * b)
  | fin a, pinf => signedInf a
  | fin a, ninf => signedInf (-a)
  | pinf, fin a => signedInf a
  | ninf, fin a => signedInf (-a)
  | pinf, pinf => pinf
  | ninf, ninf => pinf
  | pinf, ninf => ninf
  | ninf, pinf => ninf

/-- Division.  A finite zero denominator gives `nan` here; in the modelled code numba raises
`ZeroDivisionError` in that case, and no modelled call site reaches it. -/
def div : XR → XR → XR
  | nan, _ => nan
  | _, nan => nan
  | fin a, fin b => if b = 0 then nan else fin (a / b)
  | fin _, pinf => fin 0
  | fin _, ninf => fin 0
  | pinf, fin b => signedInf b
  | ninf, fin b => signedInf (-b)
  | pinf, pinf => nan
  | ninf, ninf => nan
  | pinf, ninf => nan
  | ninf, pinf => nan

instance : Neg XR := ⟨neg⟩
instance : Add XR := ⟨add⟩
instance : Sub XR := ⟨fun a b => a + -b⟩
instance : Mul XR := ⟨mul⟩
instance : Div XR := ⟨div⟩

/-- `math.isinf`. -/
def isInf : XR → Bool
  | pinf => true
  | ninf => true
  | _ => false

/-- `v == 0` on floats. -/
def isZero : XR → Bool
  | fin r => decide (r = 0)
  | _ => false

/-- `v == 1.0` on floats. -/
def isOne : XR → Bool
  | fin r => decide (r = 1)
  | _ => false

/-- `a < b` on floats (false as soon as one side is `nan`). -/
def ltb : XR → XR → Bool
  | fin a, fin b => decide (a < b)
  | fin _, pinf => true
  | ninf, fin _ => true
  | ninf, pinf => true
  | _, _ => false

/-- `math.exp`. -/
def exp : XR → XR
  | fin r => fin (Real.exp r)
  | pinf => pinf
  | ninf => fin 0
  | nan => nan

/-- `math.expm1`. -/
def expm1 : XR → XR
  | fin r => fin (Real.exp r - 1)
  | pinf => pinf
  | ninf => fin (-1)
  | nan => nan

/-- `math.log` inside numba: `log 0 = -inf`, `log` of a negative number is `nan`. -/
def log : XR → XR
  | fin r => if 0 < r then fin (Real.log r) else if r = 0 then ninf else nan
  | pinf => pinf
  | ninf => nan
  | nan => nan

/-- `math.log1p` inside numba. -/
def log1p : XR → XR
  | fin r => if 0 < 1 + r then fin (Real.log (1 + r)) else if 1 + r = 0 then ninf else nan
  | pinf => pinf
  | ninf => nan
  | nan => nan

/-- Non-negative, possibly infinite values: what the constructors accept
(`/repo/src/graph_ensembles/sparse/models/fitness.py:112-116,150-151`). -/
def Nonneg : XR → Prop
  | fin r => 0 ≤ r
  | pinf => True
  | ninf => False
  | nan => False

/-- Embedding of the non-negative extended reals. -/
def ofENN (x : ℝ≥0∞) : XR := if x = ⊤ then pinf else fin x.toReal

/-- The real number stored, or `0` for a special value (only used on values proved finite). -/
def toReal : XR → ℝ
  | fin r => r
  | _ => 0

/-! ### Computation rules -/

@[simp] theorem fin_add_fin (a b : ℝ) : (fin a + fin b : XR) = fin (a + b) := rfl
@[simp] theorem fin_mul_fin (a b : ℝ) : (fin a * fin b : XR) = fin (a * b) := rfl
@[simp] theorem neg_fin (a : ℝ) : (-fin a : XR) = fin (-a) := rfl
@[simp] theorem fin_sub_fin (a b : ℝ) : (fin a - fin b : XR) = fin (a - b) := by
  show add (fin a) (neg (fin b)) = _; simp [add, neg, sub_eq_add_neg]
theorem fin_div_fin (a b : ℝ) (h : b ≠ 0) : (fin a / fin b : XR) = fin (a / b) := by
  show div _ _ = _; simp [div, h]
@[simp] theorem neg_pinf : (-pinf : XR) = ninf := rfl
@[simp] theorem neg_ninf : (-ninf : XR) = pinf := rfl
@[simp] theorem isInf_fin (a : ℝ) : isInf (fin a) = false := rfl
@[simp] theorem isInf_pinf : isInf pinf = true := rfl
@[simp] theorem isInf_ninf : isInf ninf = true := rfl
@[simp] theorem isInf_nan : isInf nan = false := rfl
@[simp] theorem isZero_fin (a : ℝ) : isZero (fin a) = decide (a = 0) := rfl
@[simp] theorem isZero_pinf : isZero pinf = false := rfl
@[simp] theorem isZero_ninf : isZero ninf = false := rfl
@[simp] theorem isOne_fin (a : ℝ) : isOne (fin a) = decide (a = 1) := rfl
@[simp] theorem exp_fin (a : ℝ) : exp (fin a) = fin (Real.exp a) := rfl
@[simp] theorem expm1_fin (a : ℝ) : expm1 (fin a) = fin (Real.exp a - 1) := rfl
@[simp] theorem toReal_fin (a : ℝ) : toReal (fin a) = a := rfl
@[simp] theorem ltb_fin_fin (a b : ℝ) : ltb (fin a) (fin b) = decide (a < b) := rfl
theorem log_fin_pos {a : ℝ} (h : 0 < a) : log (fin a) = fin (Real.log a) := by simp [log, h]
theorem log_fin_zero : log (fin 0) = ninf := by simp [log]
theorem log1p_fin_pos {a : ℝ} (h : 0 < 1 + a) : log1p (fin a) = fin (Real.log (1 + a)) := by
  simp [log1p, h]
@[simp] theorem fin_inj {a b : ℝ} : (fin a = fin b) ↔ a = b := ⟨fun h => by injection h, fun h => by rw [h]⟩

theorem pinf_mul_fin_pos {a : ℝ} (h : 0 < a) : (pinf * fin a : XR) = pinf := by
  show mul _ _ = _; simp [mul, signedInf, h]
theorem fin_mul_pinf_pos {a : ℝ} (h : 0 < a) : (fin a * pinf : XR) = pinf := by
  show mul _ _ = _; simp [mul, signedInf, h]
@[simp] theorem pinf_mul_pinf : (pinf * pinf : XR) = pinf := rfl
@[simp] theorem ninf_mul_pinf : (ninf * pinf : XR) = ninf := rfl
theorem ninf_mul_fin_pos {a : ℝ} (h : 0 < a) : (ninf * fin a : XR) = ninf := by
  show mul _ _ = _
  have h2 : ¬ (0 < -a) := by linarith
  have h3 : -a < 0 := by linarith
  simp only [mul, signedInf, if_neg h2, if_pos h3]
theorem fin_mul_pinf_neg {a : ℝ} (h : a < 0) : (fin a * pinf : XR) = ninf := by
  show mul _ _ = _
  have h2 : ¬ (0 < a) := by linarith
  simp only [mul, signedInf, if_neg h2, if_pos h]

@[simp] theorem ofENN_top : ofENN ⊤ = pinf := by simp [ofENN]
@[simp] theorem ofENN_zero : ofENN 0 = fin 0 := by simp [ofENN]
theorem ofENN_of_ne_top {x : ℝ≥0∞} (h : x ≠ ⊤) : ofENN x = fin x.toReal := by simp [ofENN, h]
theorem ofENN_ofReal {a : ℝ} (h : 0 ≤ a) : ofENN (ENNReal.ofReal a) = fin a := by
  simp [ofENN, ENNReal.toReal_ofReal h]

@[simp] theorem isZero_ofENN (x : ℝ≥0∞) : isZero (ofENN x) = decide (x = 0) := by
  by_cases h : x = ⊤
  · subst h; simp
  · simp [ofENN_of_ne_top h, ENNReal.toReal_eq_zero_iff, h]

@[simp] theorem isInf_ofENN (x : ℝ≥0∞) : isInf (ofENN x) = decide (x = ⊤) := by
  by_cases h : x = ⊤
  · subst h; simp
  · simp [ofENN_of_ne_top h, h]

/-- Away from `0 * inf`, IEEE multiplication agrees with multiplication in `[0, ∞]`. -/
theorem ofENN_mul {x y : ℝ≥0∞} (hx : x ≠ 0) (hy : y ≠ 0) :
    ofENN x * ofENN y = ofENN (x * y) := by
  by_cases h : x = ⊤
  · subst h
    by_cases h' : y = ⊤
    · subst h'; simp
    · rw [ENNReal.top_mul hy, ofENN_top, ofENN_of_ne_top h']
      exact pinf_mul_fin_pos (ENNReal.toReal_pos hy h')
  · by_cases h' : y = ⊤
    · subst h'
      rw [ENNReal.mul_top hx, ofENN_top, ofENN_of_ne_top h]
      exact fin_mul_pinf_pos (ENNReal.toReal_pos hx h)
    · rw [ofENN_of_ne_top h, ofENN_of_ne_top h', ofENN_of_ne_top (ENNReal.mul_ne_top h h')]
      simp [ENNReal.toReal_mul]

/-- On finite values there is no exception. -/
theorem ofENN_mul_fin {x y : ℝ≥0∞} (hx : x ≠ ⊤) (hy : y ≠ ⊤) :
    ofENN x * ofENN y = ofENN (x * y) := by
  rw [ofENN_of_ne_top hx, ofENN_of_ne_top hy, ofENN_of_ne_top (ENNReal.mul_ne_top hx hy)]
  simp [ENNReal.toReal_mul]

theorem nonneg_iff_exists (v : XR) : v.Nonneg ↔ ∃ x : ℝ≥0∞, v = ofENN x := by
  constructor
  · cases v with
    | fin r => intro h; exact ⟨ENNReal.ofReal r, (ofENN_ofReal h).symm⟩
    | pinf => intro _; exact ⟨⊤, by simp⟩
    | ninf => intro h; exact h.elim
    | nan => intro h; exact h.elim
  · rintro ⟨x, rfl⟩
    by_cases h : x = ⊤
    · subst h; simp [Nonneg]
    · rw [ofENN_of_ne_top h]; exact ENNReal.toReal_nonneg

end

end XR

end Verif
