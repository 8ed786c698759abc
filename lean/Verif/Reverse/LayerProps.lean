import Verif.Reverse.FitProps
import Verif.Layer.FitProps
import Verif.Solver.RateProps

/-!
# C100, C101: fits with one parameter per label of the sparse multi-layer models

The two properties for `labelModel`, the model whose objectives are those of the columns of the
property matrices.
-/

namespace Verif

open XR Spec
open scoped ENNReal NNReal

noncomputable section

namespace Layer

private theorem func_free (K : Kind) {n L : ℕ} {x y : ℕ → List (ℕ × ℝ≥0)} {s : Bool} {e : ℕ → ℝ}
    {func func' : XR → XR × XR} {num_edges num_edges' : Option ℝ} {x0 : Fit.X0}
    {method : Fit.Method} {o : Fit.Opts} :
    Fit.fitMulti (labelModel K n L x y s e func num_edges) x0 method o =
      Fit.fitMulti (labelModel K n L x y s e func' num_edges') x0 method o := by
  unfold Fit.fitMulti
  cases method <;> rfl

private theorem reversed (K : Kind) (x y : ℕ → ℝ≥0) :
    Fit.Reversed (K.fitter x y) (K.fitter y x) := by
  cases K
  · exact .denseFit _ _ _ _
  · exact .denseInv _ _ _ _

/-- **C100**, fit of a sparse multi-layer model with one parameter per label: exchanging the two
property matrices changes nothing. -/
theorem C100_fit_labels (K : Kind) {n L : ℕ} {x y : ℕ → List (ℕ × ℝ≥0)}
    (hx : ∀ i, RowSorted (x i)) (hy : ∀ i, RowSorted (y i)) (s : Bool)
    {e : ℕ → ℝ} (he : ∀ k, 0 ≤ e k) (func func' : XR → XR × XR) (num_edges num_edges' : Option ℝ)
    {o : Fit.Opts} (hat : 0 < o.atol) (hrt : 0 ≤ o.rtol) {x0 : Fit.X0}
    (hx0 : ∀ v ∈ (x0.multi L).vals, ∃ r : ℝ, v = fin r) (method : Fit.Method) :
    Fit.fitMulti (labelModel K n L y x s e func' num_edges') x0 method o =
      Fit.fitMulti (labelModel K n L x y s e func num_edges) x0 method o := by
  have h := reversed K (entry (column n x 0)) (entry (column n y 0))
  refine (func_free K (func' := (K.fitter (entry (column n y 0))
    (entry (column n x 0))).func n s) (num_edges' := none)).trans (Eq.trans ?_ (func_free K (func := (K.fitter (entry (column n x 0))
    (entry (column n y 0))).func n s) (num_edges := none)))
  refine Reverse.C100_fit_multi
    (M := labelModel K n L x y s e ((K.fitter (entry (column n x 0))
      (entry (column n y 0))).func n s) none)
    (M' := labelModel K n L y x s e ((K.fitter (entry (column n y 0))
      (entry (column n x 0))).func n s) none) h
    (fun k => reversed K (entry (column n x k)) (entry (column n y k)))
    (Fit.agree_self _ n s) (Fit.agree_self _ n s) (fun k => layer_objective K hx hy k s)
    (fun k => layer_objective K hy hx k s) rfl rfl rfl rfl ?_
    ?_ hat hrt hx0 method
  · intro m hm
    simp [labelModel] at hm
  · intro m hm k
    simp only [labelModel, Option.some.injEq] at hm
    rw [← hm]
    exact he k

private theorem fitter_p (K : Kind) (x y : ℕ → ℝ≥0) (d : ℝ≥0) (i j : ℕ) :
    ((K.fitter x y).ens d).p i j = fin (K.q (d * x i * y j)) := by
  cases K
  · exact (Ens.Is.denseFit (d : ℝ≥0∞) (Fit.toENN x) (Fit.toENN y) (fun _ _ => 0)).p_eq i j
  · exact (Ens.Is.denseInv (d : ℝ≥0∞) (Fit.toENN x) (Fit.toENN y) (fun _ _ => 0)).p_eq i j

/-- **C101**, fit of a sparse multi-layer model with one parameter per label and default options:
if the number of edges of every label is attained at a parameter at which no link of the label has a
probability above `1 - 10⁻²⁵`, every label converges, and `expected_num_edges_label` of the fitted
model agrees with the numbers of edges within the tolerances. -/
theorem C101_fit_labels (K : Kind) {n L : ℕ} {x y : ℕ → List (ℕ × ℝ≥0)}
    (hx : ∀ i, RowSorted (x i)) (hy : ∀ i, RowSorted (y i)) (dyad : ℕ → ℕ → XR) (s : Bool)
    {e : ℕ → ℝ} (func : XR → XR × XR) (num_edges : Option ℝ)
    (hroot : ∀ k < L, ∃ root : ℝ≥0, labelMean K n x y s k root = e k ∧
      ∀ i < n, ∀ j < n, (i ≠ j ∨ s = true) →
        K.q (root * entry (x i) k * entry (y j) k) ≤ 1 - 1 / 10 ^ 25) :
    ∃ r, Fit.fitMulti (labelModel K n L x y s e func num_edges) .none .density
        ⟨1 / 10 ^ 24, 1 / 10 ^ 9, 100⟩ = .ok r ∧
      ∀ k < L, ∃ (sol : Solver.Solution) (v : ℝ), r.outputs[k]? = some sol ∧
        sol.converged = true ∧
        (exp_edges_label K.link.p_ijk n L (fun k => r.param.getD k 0) (fun i => Fit.rowN (x i))
          (fun i => Fit.rowN (y i)) dyad s)[k]? = some (fin v) ∧
        |v - e k| ≤ 1 / 10 ^ 24 + 1 / 10 ^ 9 * e k := by
  obtain ⟨r, h1, h2⟩ := Fit.C101_default_label (M := labelModel K n L x y s e func num_edges)
    rfl rfl (fun k hk => by
      obtain ⟨root, h3, h4⟩ := hroot k hk
      refine ⟨_, n, s, root, K.isFitter _ _, layer_objective K hx hy k s, ?_, ?_⟩
      · show _ = _
        rw [fitter_mean, h3]
      · intro i hi j hj hij
        refine ⟨_, fitter_p K _ _ root i j, ?_⟩
        rw [entry_column hi, entry_column hj]
        exact h4 i hi j hj hij)
  refine ⟨r, h1, fun k hk => ?_⟩
  have he : ∀ k < L, 0 ≤ e k := by
    intro k hk
    obtain ⟨root, h3, -⟩ := hroot k hk
    rw [← h3]
    unfold labelMean
    rw [Law.mean_card]
    refine Finset.sum_nonneg (fun a _ => ?_)
    exact (K.q_mem _).1
  obtain ⟨sol, k1, -, k2⟩ := h2 k hk
  obtain ⟨-, k3⟩ := C69_reproduces_partial K hx hy dyad s he
    (o := ⟨1 / 10 ^ 24, 1 / 10 ^ 9, 100⟩) (by norm_num) (by norm_num)
    (by
      intro v hv
      simp only [Fit.X0.multi, List.mem_replicate] at hv
      exact ⟨0, hv.2⟩) rfl h1
  obtain ⟨sol', v, k4, k5, k6⟩ := k3 k hk
  rw [k1, Option.some.injEq] at k4
  subst k4
  exact ⟨sol, v, k1, k2, k5, k6.1 k2⟩

/-- One label on two vertices, all properties one, one expected edge: the hypotheses hold. -/
example : ∃ r, Fit.fitMulti (labelModel .fit 2 1 (fun _ => [(0, 1)]) (fun _ => [(0, 1)]) false
    (fun _ => 1) (fun _ => (0, 0)) none) .none .density ⟨1 / 10 ^ 24, 1 / 10 ^ 9, 100⟩ = .ok r := by
  obtain ⟨r, h, -⟩ := C101_fit_labels .fit (n := 2) (L := 1) (x := fun _ => [(0, 1)])
    (y := fun _ => [(0, 1)]) (e := fun _ => 1) (fun _ => by simp [RowSorted])
    (fun _ => by simp [RowSorted]) (fun _ _ => 0) false (fun _ => (0, 0)) none (by
      intro k hk
      obtain rfl : k = 0 := by omega
      have hq : Kind.fit.q (((1 : ℝ≥0) : ℝ≥0∞) * ((1 : ℝ≥0) : ℝ≥0∞) * ((1 : ℝ≥0) : ℝ≥0∞)) = 1 / 2 := by
        simp [Kind.q, fitProb]
        norm_num
      have he : entry [((0 : ℕ), (1 : ℝ≥0))] 0 = 1 := rfl
      refine ⟨1, ?_, fun i _ j _ _ => ?_⟩
      · unfold labelMean
        rw [Law.mean_card]
        simp only [he, hq]
        have hc : (Law.pairs 2 false).card = 2 := by decide
        simp [hc]
      · simp only [he, hq]
        norm_num)
  exact ⟨r, h⟩

end Layer

end

end Verif
