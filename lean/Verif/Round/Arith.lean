import Verif.Num
import Verif.NumOrder

/-!
# Arithmetic with rounding

The rest of the model computes with real numbers.  Here the arithmetic is a parameter: `Arith`
holds the operations the probability functions use, `Arith.exact` is the arithmetic without
rounding, and `Faithful` says what is known of an arithmetic that rounds: the computed value
never crosses a number that can be represented.

This is weaker than what IEEE 754 prescribes for `+`, `-`, `*`, `/`: it holds in every rounding
mode, with overflow to infinity or to the largest number, and with gradual or sudden underflow.
For the functions of the mathematical library it only asks that the results do not cross
`-1`, `0` and `1`.  Negation is exact.
-/

namespace Verif

namespace Round

open XR

/-- The operations used by the probability functions. -/
structure Arith where
  add : XR → XR → XR
  sub : XR → XR → XR
  mul : XR → XR → XR
  div : XR → XR → XR
  exp : XR → XR
  expm1 : XR → XR
  log : XR → XR
  log1p : XR → XR

/-- The arithmetic without rounding. -/
noncomputable def Arith.exact : Arith where
  add a b := a + b
  sub a b := a - b
  mul a b := a * b
  div a b := a / b
  exp := XR.exp
  expm1 := XR.expm1
  log := XR.log
  log1p := XR.log1p

/-- `q` is an infinity or one of the numbers of `Q`. -/
def In (Q : Set ℝ) : XR → Prop
  | fin r => r ∈ Q
  | pinf => True
  | ninf => True
  | nan => False

/-- `v` is an acceptable result when the exact one is `e`: it is a number that can be represented
(`F`), and it is on the same side as `e` of every number of `Q`. -/
structure Near (F Q : Set ℝ) (e v : XR) : Prop where
  nan : e = nan → v = nan
  rep : e ≠ XR.nan → In F v
  lower : ∀ q, In Q q → leb q e = true → leb q v = true
  upper : ∀ q, In Q q → leb e q = true → leb v q = true

/-- The numbers the library functions do not cross. -/
def units : Set ℝ := {-1, 0, 1}

/-- The arithmetic `A` rounds to numbers of `F`. -/
structure Faithful (F : Set ℝ) (A : Arith) : Prop where
  zero_mem : (0 : ℝ) ∈ F
  one_mem : (1 : ℝ) ∈ F
  neg_mem : ∀ r ∈ F, -r ∈ F
  add : ∀ a b, Near F F (a + b) (A.add a b)
  sub : ∀ a b, Near F F (a - b) (A.sub a b)
  mul : ∀ a b, Near F F (a * b) (A.mul a b)
  div : ∀ a b, Near F F (a / b) (A.div a b)
  exp : ∀ a, Near F units (XR.exp a) (A.exp a)
  expm1 : ∀ a, Near F units (XR.expm1 a) (A.expm1 a)
  log : ∀ a, Near F units (XR.log a) (A.log a)
  log1p : ∀ a, Near F units (XR.log1p a) (A.log1p a)

theorem Near.refl (Q : Set ℝ) (e : XR) : Near Set.univ Q e e where
  nan h := h
  rep h := by cases e <;> simp_all [In]
  lower _ _ h := h
  upper _ _ h := h

/-- The arithmetic without rounding is an instance. -/
theorem Faithful.exact : Faithful Set.univ Arith.exact where
  zero_mem := trivial
  one_mem := trivial
  neg_mem _ _ := trivial
  add _ _ := .refl _ _
  sub _ _ := .refl _ _
  mul _ _ := .refl _ _
  div _ _ := .refl _ _
  exp _ := .refl _ _
  expm1 _ := .refl _ _
  log _ := .refl _ _
  log1p _ := .refl _ _

end Round

end Verif
