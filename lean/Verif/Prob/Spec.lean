import Verif.Num
import Mathlib.Analysis.SpecialFunctions.Exp

/-!
# Specification vocabulary for connection probabilities

Nothing in this file mentions the code.  Fitnesses and parameters live in `[0, ∞]`
(`ℝ≥0∞`, with the convention `0 * ∞ = 0`), probabilities in `ℝ`.
-/

namespace Verif.Spec

open scoped ENNReal

noncomputable section

/-- Link function of the fitness (configuration-like) model: `t / (1 + t)`, `1` at `∞`. -/
def fitProb (t : ℝ≥0∞) : ℝ := if t = ⊤ then 1 else t.toReal / (1 + t.toReal)

/-- Link function of the scale-invariant model: `1 - exp (-t)`, `1` at `∞`. -/
def invProb (t : ℝ≥0∞) : ℝ := if t = ⊤ then 1 else 1 - Real.exp (-t.toReal)

/-- Extended logarithm of a probability: `-inf` at `0`. -/
def elog (p : ℝ) : XR := if 0 < p then XR.fin (Real.log p) else XR.ninf

/-- A row of a sparse property matrix: labels strictly increasing. -/
def RowSorted {α : Type} (r : List (ℕ × α)) : Prop := r.Pairwise (fun a b => a.1 < b.1)

/-- The entry of a sparse row at a label: the stored value, or zero when absent. -/
def entry {α : Type} [Zero α] (r : List (ℕ × α)) (k : ℕ) : α := (r.lookup k).getD 0

/-- The row as seen by the code: values as floats. -/
def rowX (r : List (ℕ × ℝ≥0∞)) : List (ℕ × XR) := r.map (fun e => (e.1, XR.ofENN e.2))

/-- The dense row with the same entries. -/
def denseX (n : ℕ) (x : ℕ → ℝ≥0∞) : List XR := (List.range n).map (fun k => XR.ofENN (x k))

end

end Verif.Spec
