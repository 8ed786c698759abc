import Verif.Round.LabelDense
import Verif.Round.LabelFitProps

/-!
# C113 on arrays: the fit label by label of the dense models in double precision

Missing in the theorem with the suffix `_partial`: as in `Verif/Round/LabelFitProps.lean`; the number
`expected_num_edges_label` returns is left out, since the dense method loops over the wrong range
(`C49_dense_edges_violated`).
-/

namespace Verif

open XR Round Fit Verif.Spec
open scoped NNReal ENNReal

/-- What the solver evaluates for a label is what it evaluates for the model of the label alone. -/
private theorem column_func (pj : XR → XR → XR → XR × XR) (x y : ℕ → ℕ → XR) (n k : ℕ) (sl : Bool) :
    Round.exp_edges_f_jac_layer binary64 pj (Dense.column n x k) (Dense.column n y k) sl
      = Round.exp_edges_f_jac binary64 (fun d i j => pj d (x i k) (y j k)) n sl := by
  funext d
  unfold Round.exp_edges_f_jac_layer Dense.column
  simp only [List.foldl_map]
  rfl

/-- **C113**, dense.  The fit with one parameter per label of a dense multi-layer model, started from
zero and run in double precision, returns one parameter and one report per label.  For every label the
parameter `d` is a finite double precision number not above `D k`, and the expected number of edges `e`
of the label at the fitted parameters is within `1.2` times the requested tolerance of the number asked
for, unless the iteration limit was reached.  If the report says converged or stopped without change,
it is.  The parameters tried increase. -/
theorem C113_dense_partial (K : Layer.Kind) (n L : ℕ) (sl : Bool) (x y : ℕ → ℕ → ℝ≥0)
    (hX : ∀ i < n, ∀ k < L, Round.InSize (x i k)) (hY : ∀ i < n, ∀ k < L, Round.InSize (y i k))
    (t : ℕ → ℝ) (atol rtol : ℝ) (maxiter : ℕ) (ho : ∀ k < L, Round.FitRange n (t k) atol rtol)
    (D : ℕ → ℝ≥0) (hD : ∀ k < L, (D k : ℝ) ≤ (2 : ℝ) ^ (45 : ℤ))
    (h64 : K = .inv → ∀ k < L, ∀ i < n, ∀ j < n, D k * (x i k * y j k) ≤ 64)
    (hE : ∀ k < L, t k * (1 + rtol) ≤ Law.mean (Law.pairs n sl)
      (Layer.denseProb K (fun k => D k) (fun i k => x i k) (fun i k => y i k) k)
      (fun G => (G.card : ℝ))) (func : XR → XR × XR) (num_edges : Option ℝ) :
    ∃ (r : MultiFit) (d : ℕ → ℝ≥0),
      Round.fitMulti binary64 (Round.Dense.labelModel binary64 K n L (fun i k => fin (x i k))
        (fun i k => fin (y i k)) sl t func num_edges) .none .density ⟨atol, rtol, maxiter⟩ = .ok r ∧
      r.param = (List.range L).map (fun k => fin (d k)) ∧ r.outputs.length = L ∧
      ∀ k < L, ∃ (sol : Verif.Solver.Solution) (e : ℝ),
        r.outputs[k]? = some sol ∧ sol.x = fin (d k) ∧ (d k : ℝ) ∈ doubles ∧ d k ≤ D k ∧
        e = Law.mean (Law.pairs n sl)
          (Layer.denseProb K (fun k => d k) (fun i k => x i k) (fun i k => y i k) k)
          (fun G => (G.card : ℝ)) ∧
        e ≤ t k * (1 + rtol) ∧
        (sol.max_iter_reached = true ∨ |e - t k| ≤ 1.2 * (atol + rtol * t k)) ∧
        (sol.converged = true ∨ sol.no_change_stop = true →
          |e - t k| ≤ 1.2 * (atol + rtol * t k)) ∧
        ∃ l : List ℝ, sol.x_seq = (l ++ [(d k : ℝ)]).map fin ∧
          (l ++ [(d k : ℝ)]).Pairwise (· < ·) := by
  have hmean : ∀ (k : ℕ) (d : ℕ → ℝ≥0),
      ((K.fitter (fun i => x i k) (fun j => y j k)).ens (d k)).exp_edges n sl
      = fin (Law.mean (Law.pairs n sl)
        (Layer.denseProb K (fun k => d k) (fun i k => x i k) (fun i k => y i k) k)
        (fun G => (G.card : ℝ))) := by
    intro k d
    rw [Layer.Kind.exp_edges, Law.mean_card]
    rfl
  have hres : ∀ k < L, Round.FitResult
      (Round.exp_edges_f_jac binary64 (fun d i j => Round.labelJac binary64 K d (fin (x i k))
        (fin (y j k))) n sl)
      (K.fitter (fun i => x i k) (fun j => y j k)) n sl (t k) atol rtol maxiter (D k) := by
    intro k hk
    cases K with
    | fit =>
      exact C93_dense_fitness_partial n sl _ _ _ (fun i hi => hX i hi k hk)
        (fun j hj => hY j hj k hk) (t k) atol rtol maxiter (ho k hk) (D k) _ (hD k hk)
        (hmean k D) (hE k hk)
    | inv =>
      exact C93_dense_invariant_partial n sl _ _ _ (fun i hi => hX i hi k hk)
        (fun j hj => hY j hj k hk) (t k) atol rtol maxiter (ho k hk) (D k) _ (hD k hk)
        (fun i hi j hj => h64 rfl k hk i hi j hj) (hmean k D) (hE k hk)
  have hall : ∀ k, ∃ (sol : Verif.Solver.Solution) (d : ℝ≥0), k < L → ∃ e : ℝ,
      Round.fitSingle binary64 ((Round.Dense.labelModel binary64 K n L (fun i k => fin (x i k))
        (fun i k => fin (y i k)) sl t func num_edges).layer k) (some (t k)) .none .density
        ⟨atol, rtol, maxiter⟩ = .ok sol ∧
      sol.x = fin d ∧ (d : ℝ) ∈ doubles ∧ d ≤ D k ∧
      ((K.fitter (fun i => x i k) (fun j => y j k)).ens d).exp_edges n sl = fin e ∧
      e ≤ t k * (1 + rtol) ∧
      (sol.max_iter_reached = true ∨ |e - t k| ≤ 1.2 * (atol + rtol * t k)) ∧
      (sol.converged = true ∨ sol.no_change_stop = true → |e - t k| ≤ 1.2 * (atol + rtol * t k)) ∧
      ∃ l : List ℝ, sol.x_seq = (l ++ [(d : ℝ)]).map fin ∧ (l ++ [(d : ℝ)]).Pairwise (· < ·) := by
    intro k
    by_cases hk : k < L
    · obtain ⟨sol, d, e, e1, e2, dm, dD, -, hen, hle, h3, h4, h5, -⟩ := hres k hk
      refine ⟨sol, d, fun _ => ⟨e, ?_, e2, dm, dD, hen, hle, h3, h4, h5⟩⟩
      rw [← e1]
      exact congrArg (fun f => Round.fitSingle binary64 f (some (t k)) .none .density
        ⟨atol, rtol, maxiter⟩) (column_func _ _ _ n k sl)
    · exact ⟨⟨fin 0, 0, 0, 0, [], [], [], [], false, false, false⟩, 0, fun h => absurd h hk⟩
  choose sols d hd using hall
  refine ⟨⟨(List.range L).map fun k => (sols k).x, (List.range L).map sols⟩, d,
    Round.fitMulti_eq (m := Round.Dense.labelModel binary64 K n L (fun i k => fin (x i k))
      (fun i k => fin (y i k)) sl t func num_edges) rfl rfl ⟨atol, rtol, maxiter⟩ (sols := sols)
      (fun k hk => (hd k hk).choose_spec.1), ?_, by simp, fun k hk => ?_⟩
  · refine List.map_congr_left fun k hk => ?_
    obtain ⟨e, -, h, -⟩ := hd k (List.mem_range.1 hk)
    exact h
  · obtain ⟨e, -, h1, h2, h3, h4, h5, h6, h7, h8⟩ := hd k hk
    refine ⟨sols k, e, by simp [hk], h1, h2, h3, ?_, h5, h6, h7, h8⟩
    rw [hmean k d, fin_inj] at h4
    exact h4.symm

/-- Two vertices with unit properties under two labels, half an edge asked for under each: the
hypotheses hold with `D k = 4` for both models. -/
example (K : Layer.Kind) :
    Round.InSize 1 ∧ Round.FitRange 2 (1 / 2) ((2 : ℝ) ^ (-80 : ℤ)) ((2 : ℝ) ^ (-30 : ℤ)) ∧
    ((4 : ℝ≥0) : ℝ) ≤ (2 : ℝ) ^ (45 : ℤ) ∧ (4 : ℝ≥0) * (1 * 1) ≤ 64 ∧
    ∀ k < 2, 1 / 2 * (1 + (2 : ℝ) ^ (-30 : ℤ)) ≤ Law.mean (Law.pairs 2 false)
      (Layer.denseProb K (fun _ => (4 : ℝ≥0)) (fun _ _ => (1 : ℝ≥0)) (fun _ _ => (1 : ℝ≥0)) k)
      (fun G => (G.card : ℝ)) := by
  have h30 : (2 : ℝ) ^ (-30 : ℤ) ≤ 1 := zpow_le_one_of_nonpos₀ (by norm_num) (by norm_num)
  refine ⟨?_, ?_, by norm_num, by norm_num, ?_⟩
  · right
    constructor <;> norm_num
  · have pm : ∀ {k : ℤ}, -1022 ≤ k → k ≤ 1000 → (2 : ℝ) ^ k ∈ doubles :=
      fun h1 h2 => pow_mem (by omega) (by omega)
    refine ⟨?_, pm (by norm_num) (by norm_num), pm (by norm_num) (by norm_num), by norm_num,
      by norm_num, by positivity, by norm_num, by norm_num, by norm_num⟩
    have := pm (k := -1) (by norm_num) (by norm_num)
    norm_num at this ⊢
    exact this
  · intro k _
    have hq : 1 / 2 ≤ K.q (4 : ℝ≥0) := by
      have h4 : ((4 : ℝ≥0) : ℝ≥0∞) ≠ ⊤ := ENNReal.coe_ne_top
      cases K with
      | fit =>
        show 1 / 2 ≤ fitProb _
        rw [fitProb_of_ne_top h4]
        norm_num
      | inv =>
        show 1 / 2 ≤ invProb _
        rw [invProb_of_ne_top h4]
        have h1 : (2 : ℝ) ≤ Real.exp 4 := by linarith [Real.add_one_le_exp (4 : ℝ)]
        have : Real.exp (-4) ≤ 1 / 2 := by
          rw [Real.exp_neg, ← one_div]
          exact one_div_le_one_div_of_le (by norm_num) h1
        norm_num
        linarith
    have hc : (Law.pairs 2 false).card = 2 := by decide
    rw [Law.mean_card]
    unfold Layer.denseProb
    simp only [ENNReal.coe_one, mul_one, Finset.sum_const, hc, nsmul_eq_mul]
    push_cast
    push_cast at hq
    linarith

end Verif
