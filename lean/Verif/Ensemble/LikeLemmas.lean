import Verif.Ensemble.Models
import Mathlib.Algebra.BigOperators.Group.Finset.Sigma

/-! # The likelihood loop as a product -/

namespace Verif

open XR Spec

/-- A loop that adds `log (w i)` and leaves with `-inf` at the first zero factor. -/
theorem foldlM_log (f : XR → ℕ → Except XR XR) (w : ℕ → ℝ) (n : ℕ) (hw : ∀ i < n, 0 ≤ w i)
    (h : ∀ i < n, ∀ a, f (fin a) i
      = if 0 < w i then .ok (fin (a + Real.log (w i))) else .error ninf) (a : ℝ) :
    (List.range n).foldlM f (fin a)
      = if 0 < ∏ i ∈ Finset.range n, w i then
          .ok (fin (a + Real.log (∏ i ∈ Finset.range n, w i)))
        else .error ninf := by
  induction n with
  | zero => simp [pure, Except.pure]
  | succ n ih =>
    have hprod : 0 ≤ ∏ i ∈ Finset.range n, w i :=
      Finset.prod_nonneg (fun i hi => hw i (by simp at hi; omega))
    rw [List.range_succ, List.foldlM_append,
      ih (fun i hi => hw i (by omega)) (fun i hi => h i (by omega)), Finset.prod_range_succ]
    by_cases h1 : 0 < ∏ i ∈ Finset.range n, w i
    · rw [if_pos h1]
      simp only [List.foldlM_cons, List.foldlM_nil]
      show (f _ n >>= fun s => pure s) = _
      rw [h n (by omega)]
      by_cases h2 : 0 < w n
      · rw [if_pos h2, if_pos (mul_pos h1 h2), Real.log_mul h1.ne' h2.ne', add_assoc]; rfl
      · have h3 : w n = 0 := le_antisymm (not_lt.1 h2) (hw n (by omega))
        rw [if_neg h2, h3]; simp
    · have h3 : ∏ i ∈ Finset.range n, w i = 0 := le_antisymm (not_lt.1 h1) hprod
      rw [if_neg h1, h3]; simp; rfl

theorem prod_pairs (n : ℕ) (s : Bool) (f : ℕ × ℕ → ℝ) :
    ∏ e ∈ Law.pairs n s, f e
      = ∏ i ∈ Finset.range n, ∏ j ∈ Finset.range n, if admissible i j s then f (i, j) else 1 := by
  rw [Law.pairs, Finset.prod_filter, Finset.prod_product]
  simp only [admissible_iff]

/-- Bare form of the likelihood theorem. -/
theorem likelihoodLoop_eq {E : Ens} (hE : E.Coherent) (n : ℕ) (link : ℕ → ℕ → Bool) (s : Bool) :
    DiGraphEnsemble.likelihoodLoop E.logp E.log1mp E.param n E.prop_out E.prop_in E.prop_dyad
        link s
      = let P := ∏ e ∈ Law.pairs n s, if link e.1 e.2 then E.prob e else 1 - E.prob e
        if 0 < P then .ok (fin (Real.log P)) else .error ninf := by
  dsimp only
  rw [prod_pairs]
  unfold DiGraphEnsemble.likelihoodLoop
  have h0 : (0 : XR) = fin 0 := rfl
  have hw : ∀ i j, 0 ≤ if admissible i j s then
      (if link i j then E.prob (i, j) else 1 - E.prob (i, j)) else (1 : ℝ) := by
    intro i j
    have := hE.prob_mem (i, j)
    split
    · split
      · exact this.1
      · linarith [this.2]
    · norm_num
  rw [h0, foldlM_log _ (fun i => ∏ j ∈ Finset.range n, if admissible i j s then
      (if link i j then E.prob (i, j) else 1 - E.prob (i, j)) else 1) n
    (fun i _ => Finset.prod_nonneg (fun j _ => hw i j)), zero_add]
  intro i _ a
  refine foldlM_log _ _ n (fun j _ => hw i j) (fun j _ a => ?_) a
  by_cases hadm : admissible i j s = true
  · simp only [hadm, if_true]
    have key : ∀ r : ℝ, 0 ≤ r → (if (elog r).isInf = true then Except.error (elog r)
        else Except.ok (fin a + elog r) : Except XR XR)
        = if 0 < r then .ok (fin (a + Real.log r)) else .error ninf := by
      intro r hr
      unfold elog
      by_cases h : 0 < r
      · simp [h]
      · simp [h]
    have hp := hE.prob_mem (i, j)
    by_cases hl : link i j = true
    · simp only [hl, if_true]
      have e := hE.lp_eq i j
      unfold Ens.lp at e
      rw [e]; exact key _ hp.1
    · simp only [hl, if_false, Bool.false_eq_true]
      have e := hE.l1p_eq i j
      unfold Ens.l1p at e
      rw [e]; exact key _ (by linarith [hp.2])
  · simp [hadm]

theorem likelihood_eq {E : Ens} (hE : E.Coherent) (n : ℕ) (link : ℕ → ℕ → Bool) (s : Bool) :
    E.likelihood n link s
      = elog (∏ e ∈ Law.pairs n s, if link e.1 e.2 then E.prob e else 1 - E.prob e) := by
  unfold Ens.likelihood DiGraphEnsemble.likelihood
  rw [likelihoodLoop_eq hE]
  dsimp only
  unfold elog
  by_cases h : 0 < ∏ e ∈ Law.pairs n s, (if link e.1 e.2 = true then E.prob e else 1 - E.prob e)
  · simp only [if_pos h]
  · simp only [if_neg h]

end Verif
