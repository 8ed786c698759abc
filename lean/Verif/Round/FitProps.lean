import Verif.Round.FitSetup
import Verif.Round.AccProps

/-!
# C93: the fit in double precision

Missing in the theorems (suffix `_partial`): properties outside the range `InSize` (the claim is
false there, `C93_violated`), initial parameters other than zero, relative tolerances above `1/10`,
numbers of edges that are reached only by parameters above `2 ^ 45` (or, in the scale-invariant
models, with `D x_i y_j z_ij` above 64 for some pair).
-/

namespace Verif

open XR Round Fit
open scoped NNReal ENNReal

/-- Arguments of `fit` covered by `C93`: number of vertices, target number of edges, tolerances. -/
structure Round.FitRange (n : ℕ) (t atol rtol : ℝ) : Prop where
  target : t ∈ doubles
  atol_mem : atol ∈ doubles
  rtol_mem : rtol ∈ doubles
  target_ge : (2 : ℝ) ^ (-40 : ℤ) ≤ t
  target_le : t ≤ (2 : ℝ) ^ (60 : ℤ)
  atol_ge : 0 ≤ atol
  atol_le : atol ≤ (2 : ℝ) ^ (60 : ℤ)
  rtol_ge : 20 * (((n * n : ℕ) : ℝ) + 300) * (2 : ℝ) ^ (-53 : ℤ) ≤ rtol
  rtol_le : rtol ≤ 1 / 10

/-- A property of a vertex or pair covered by `C93`. -/
def Round.InSize (x : ℝ≥0) : Prop :=
  x = 0 ∨ ((2 : ℝ) ^ (-33 : ℤ) ≤ x ∧ (x : ℝ) ≤ (2 : ℝ) ^ (33 : ℤ))

/-- What `C93` says about the result of `fit` run in double precision, `F` being the model without
rounding.  The fit returns; the parameter `d` is a finite double precision number
not above `D`, zero or at least `2 ^ (-195)`; the
exact expected number of edges `e` of the ensemble with that parameter is within `1.2` times the
requested tolerance of the target `t`, unless the iteration limit was reached.  The flags reported
with the result can be trusted: if convergence or lack of change is reported, `e` is within that
distance.  The parameters tried increase.  The number of iterations is bounded in terms of the slope
`G` of the expected number of edges at zero. -/
def Round.FitResult (func : XR → XR × XR) (F : Fitter) (n : ℕ) (sl : Bool) (t atol rtol : ℝ)
    (maxiter : ℕ) (D : ℝ≥0) : Prop :=
  ∃ (r : Verif.Solver.Solution) (d : ℝ≥0) (e : ℝ),
    Round.fitSingle binary64 func (some t) .none .density ⟨atol, rtol, maxiter⟩ = .ok r ∧
    r.x = fin d ∧ (d : ℝ) ∈ doubles ∧ d ≤ D ∧ (d = 0 ∨ (2 : ℝ) ^ (-195 : ℤ) ≤ d) ∧
    (F.ens d).exp_edges n sl = fin e ∧ e ≤ t * (1 + rtol) ∧
    (r.max_iter_reached = true ∨ |e - t| ≤ 1.2 * (atol + rtol * t)) ∧
    (r.converged = true ∨ r.no_change_stop = true → |e - t| ≤ 1.2 * (atol + rtol * t)) ∧
    (∃ l : List ℝ, r.x_seq = (l ++ [(d : ℝ)]).map fin ∧ (l ++ [(d : ℝ)]).Pairwise (· < ·)) ∧
    ∃ G, F.func n sl (fin 0) = (fin 0, fin G) ∧ 0.9 * (rtol * t) * r.n_iter ≤ G * d

private theorem sized {x : ℝ≥0} (h : Round.InSize x) : Sized x := by
  rcases h with h | ⟨h1, h2⟩
  · left; simp [h]
  · right
    refine ⟨?_, h2⟩
    unfold root
    rw [one_div, ← zpow_neg]
    exact h1

theorem Round.fit_result {F : Fitter} (hF : IsFitter F) {pj : XR → ℕ → ℕ → XR × XR} {n : ℕ}
    {sl : Bool} {t atol rtol : ℝ} {maxiter : ℕ} {D : ℝ≥0} (h : PairSetup F pj n D)
    (D1 : (D : ℝ) ≤ (2 : ℝ) ^ (45 : ℤ)) (ho : Round.FitRange n t atol rtol) {eD : ℝ}
    (hD : (F.ens D).exp_edges n sl = fin eD) (hle : t * (1 + rtol) ≤ eD) :
    Round.FitResult (Round.exp_edges_f_jac binary64 pj n sl) F n sl t atol rtol maxiter D := by
  rw [F.exp_edges hF n sl D] at hD
  have b60 : (2 : ℝ) ^ (60 : ℤ) ≤ big := zpow_le_zpow_right₀ (by norm_num) (by norm_num)
  have hrel := relErr_le ho.rtol_ge
  have ht : 0 < t := lt_of_lt_of_le (pow_pos' _) ho.target_ge
  have hS := h.setup hF (sl := sl) D.2 (D1.trans big45) ho.target ho.atol_mem ho.rtol_mem ho.target_ge
    (ho.target_le.trans b60) ho.atol_ge (ho.atol_le.trans b60) ho.rtol_ge ho.rtol_le
    (by rw [XR.fin.inj hD]; exact hle)
  obtain ⟨r, d, e1, e2, dm, d0, dD, dl, hE, h1, h2, h3, h4⟩ := hS.solve maxiter
  refine ⟨r, ⟨d, d0⟩, F.obj hF n sl d, ?_, e2, dm, dD, ?_, F.exp_edges hF n sl ⟨d, d0⟩, ?_, h1, h2, h4,
    F.objDer hF n sl 0, ?_, h3⟩
  · rw [fitSingle_eq, e1]
    rfl
  · exact dl.imp (fun h => NNReal.eq h) id
  · refine hE.trans (mul_le_mul_of_nonneg_left ?_ ht.le)
    have := ulp2_pos
    have := hS.hu
    linarith
  · rw [F.rep hF n sl 0 le_rfl, (F.isObj hF n sl).zero]

/-- **C93**, sparse `FitnessModel`. -/
theorem C93_sparse_fitness_partial (n : ℕ) (sl : Bool) (x y : ℕ → ℝ≥0) (z : ℕ → ℕ → ℝ≥0)
    (hx : ∀ i < n, Round.InSize (x i)) (hy : ∀ j < n, Round.InSize (y j))
    (hz : ∀ i < n, ∀ j < n, Round.InSize (z i j)) (t atol rtol : ℝ) (maxiter : ℕ)
    (ho : Round.FitRange n t atol rtol) (D : ℝ≥0) (eD : ℝ) (hD : (D : ℝ) ≤ (2 : ℝ) ^ (45 : ℤ))
    (heD : ((Fit.sparseFit x y z).ens D).exp_edges n sl = fin eD) (hle : t * (1 + rtol) ≤ eD) :
    Round.FitResult
      (Round.exp_edges_f_jac binary64 (fun d i j => Round.Sparse.FitnessModel.p_jac_ij binary64 d
        (fin (x i)) (fin (y j)) (fin (z i j))) n sl)
      (Fit.sparseFit x y z) n sl t atol rtol maxiter D :=
  fit_result (.sparseFit x y z) (sparseFit_setup (fun i hi => sized (hx i hi))
    (fun j hj => sized (hy j hj)) (fun i hi j hj => sized (hz i hi j hj)) D.2 hD) hD ho heD hle

/-- **C93**, sparse `ScaleInvariantModel`. -/
theorem C93_sparse_invariant_partial (n : ℕ) (sl : Bool) (x y : ℕ → ℝ≥0) (z : ℕ → ℕ → ℝ≥0)
    (hx : ∀ i < n, Round.InSize (x i)) (hy : ∀ j < n, Round.InSize (y j))
    (hz : ∀ i < n, ∀ j < n, Round.InSize (z i j)) (t atol rtol : ℝ) (maxiter : ℕ)
    (ho : Round.FitRange n t atol rtol) (D : ℝ≥0) (eD : ℝ) (hD : (D : ℝ) ≤ (2 : ℝ) ^ (45 : ℤ))
    (h64 : ∀ i < n, ∀ j < n, D * (x i * y j * z i j) ≤ 64)
    (heD : ((Fit.sparseInv x y z).ens D).exp_edges n sl = fin eD) (hle : t * (1 + rtol) ≤ eD) :
    Round.FitResult
      (Round.exp_edges_f_jac binary64 (fun d i j => Round.Sparse.ScaleInvariantModel.p_jac_ij
        binary64 d (fin (x i)) (fin (y j)) (fin (z i j))) n sl)
      (Fit.sparseInv x y z) n sl t atol rtol maxiter D :=
  fit_result (.sparseInv x y z) (sparseInv_setup (fun i hi => sized (hx i hi))
    (fun j hj => sized (hy j hj)) (fun i hi j hj => sized (hz i hi j hj)) D.2
    (fun i hi j hj => by exact_mod_cast h64 i hi j hj)) hD ho heD hle

/-- **C93**, dense and spark `FitnessModel`. -/
theorem C93_dense_fitness_partial (n : ℕ) (sl : Bool) (x y : ℕ → ℝ≥0) (w : ℕ → ℕ → XR)
    (hx : ∀ i < n, Round.InSize (x i)) (hy : ∀ j < n, Round.InSize (y j)) (t atol rtol : ℝ)
    (maxiter : ℕ) (ho : Round.FitRange n t atol rtol) (D : ℝ≥0) (eD : ℝ)
    (hD : (D : ℝ) ≤ (2 : ℝ) ^ (45 : ℤ))
    (heD : ((Fit.denseFit x y w).ens D).exp_edges n sl = fin eD) (hle : t * (1 + rtol) ≤ eD) :
    Round.FitResult
      (Round.exp_edges_f_jac binary64 (fun d i j => Round.Dense.FitnessModel.p_jac_ij binary64 d
        (fin (x i)) (fin (y j))) n sl)
      (Fit.denseFit x y w) n sl t atol rtol maxiter D :=
  fit_result (.denseFit x y w) (denseFit_setup (fun i hi => sized (hx i hi))
    (fun j hj => sized (hy j hj)) D.2 hD) hD ho heD hle

/-- **C93**, dense `ScaleInvariantModel`. -/
theorem C93_dense_invariant_partial (n : ℕ) (sl : Bool) (x y : ℕ → ℝ≥0) (w : ℕ → ℕ → XR)
    (hx : ∀ i < n, Round.InSize (x i)) (hy : ∀ j < n, Round.InSize (y j)) (t atol rtol : ℝ)
    (maxiter : ℕ) (ho : Round.FitRange n t atol rtol) (D : ℝ≥0) (eD : ℝ)
    (hD : (D : ℝ) ≤ (2 : ℝ) ^ (45 : ℤ)) (h64 : ∀ i < n, ∀ j < n, D * (x i * y j) ≤ 64)
    (heD : ((Fit.denseInv x y w).ens D).exp_edges n sl = fin eD) (hle : t * (1 + rtol) ≤ eD) :
    Round.FitResult
      (Round.exp_edges_f_jac binary64 (fun d i j => Round.Dense.ScaleInvariantModel.p_jac_ij
        binary64 d (fin (x i)) (fin (y j))) n sl)
      (Fit.denseInv x y w) n sl t atol rtol maxiter D :=
  fit_result (.denseInv x y w) (denseInv_setup (fun i hi => sized (hx i hi))
    (fun j hj => sized (hy j hj)) D.2 (fun i hi j hj => by exact_mod_cast h64 i hi j hj)) hD ho heD
    hle

/-! ## A case that meets the hypotheses -/

private theorem range2 : Round.FitRange 2 (1 / 2) ((2 : ℝ) ^ (-80 : ℤ)) ((2 : ℝ) ^ (-30 : ℤ)) where
  target := by
    have := pow_mem (k := -1) (by norm_num) (by norm_num)
    norm_num at this ⊢
    exact this
  atol_mem := pow_mem (by norm_num) (by norm_num)
  rtol_mem := pow_mem (by norm_num) (by norm_num)
  target_ge := by norm_num
  target_le := by norm_num
  atol_ge := by positivity
  atol_le := by norm_num
  rtol_ge := by norm_num
  rtol_le := by norm_num

private theorem size1 : Round.InSize 1 := by
  right
  constructor <;> norm_num

/-- Two vertices with unit properties, target `1/2`: all hypotheses of the four theorems hold with
`D = 4`. -/
example (w : ℕ → ℕ → XR) : Round.FitRange 2 (1 / 2) ((2 : ℝ) ^ (-80 : ℤ)) ((2 : ℝ) ^ (-30 : ℤ)) ∧
    Round.InSize 1 ∧ ((4 : ℝ≥0) * (1 * 1 * 1) ≤ 64) ∧
    ((Fit.sparseFit (fun _ => 1) (fun _ => 1) (fun _ _ => 1)).ens (4 : ℝ≥0)).exp_edges 2 false =
      fin (8 / 5) ∧
    ((Fit.denseFit (fun _ => 1) (fun _ => 1) w).ens (4 : ℝ≥0)).exp_edges 2 false = fin (8 / 5) ∧
    ((Fit.sparseInv (fun _ => 1) (fun _ => 1) (fun _ _ => 1)).ens (4 : ℝ≥0)).exp_edges 2 false =
      fin (2 * (1 - Real.exp (-4))) ∧
    ((Fit.denseInv (fun _ => 1) (fun _ => 1) w).ens (4 : ℝ≥0)).exp_edges 2 false =
      fin (2 * (1 - Real.exp (-4))) ∧
    1 / 2 * (1 + (2 : ℝ) ^ (-30 : ℤ)) ≤ 8 / 5 ∧
    1 / 2 * (1 + (2 : ℝ) ^ (-30 : ℤ)) ≤ 2 * (1 - Real.exp (-4)) := by
  have sums : ∀ q : ℝ, (∑ i ∈ Finset.range 2, ∑ j ∈ Finset.range 2,
      if admissible i j false then q else 0) = 2 * q := by
    intro q
    simp [Finset.sum_range_succ, admissible]
    ring
  have key : ∀ {F : Fitter} (_ : IsFitter F) (q : ℝ),
      (∀ i < 2, ∀ j < 2, (F.ens (4 : ℝ≥0)).p i j = fin q) →
      (F.ens (4 : ℝ≥0)).exp_edges 2 false = fin (2 * q) := by
    intro F _ q hq
    unfold Ens.exp_edges
    rw [DiGraphEnsemble.exp_edges_eq (q := fun _ _ => q) (fun i hi j hj _ => hq i hi j hj), sums]
  have ea : ∀ i, Ens.arr (toENN fun _ => (1 : ℝ≥0)) i = fin ((1 : ℝ≥0) : ℝ) :=
    fun i => ofENN_coe 1
  have v1 : (4 : ℝ) * (((1 : ℝ≥0) : ℝ) * ((1 : ℝ≥0) : ℝ) * ((1 : ℝ≥0) : ℝ)) /
      (1 + 4 * (((1 : ℝ≥0) : ℝ) * ((1 : ℝ≥0) : ℝ) * ((1 : ℝ≥0) : ℝ))) = 4 / 5 := by norm_num
  have v2 : 1 - Real.exp (-((4 : ℝ) * (((1 : ℝ≥0) : ℝ) * ((1 : ℝ≥0) : ℝ) * ((1 : ℝ≥0) : ℝ)))) =
      1 - Real.exp (-4) := by norm_num
  have p1 := (sparse_fit_pair 1 1 1).prob 4
  have p2 := (sparse_inv_pair 1 1 1).prob 4
  rw [show ((4 : ℝ≥0) : ℝ) = 4 by norm_num] at p1 p2
  simp only [v1] at p1
  simp only [v2] at p2
  have he : Real.exp (-4) ≤ 1 / 2 := by
    have h1 : (2 : ℝ) ≤ Real.exp 4 := by linarith [Real.add_one_le_exp (4 : ℝ)]
    rw [Real.exp_neg, ← one_div]
    exact one_div_le_one_div_of_le (by norm_num) h1
  have e85 : (8 / 5 : ℝ) = 2 * (4 / 5) := by norm_num
  have one : fin ((1 : ℝ≥0) : ℝ) = (1 : XR) := by simp [one_def]
  refine ⟨range2, size1, by norm_num, ?_, ?_, ?_, ?_, by norm_num, ?_⟩
  · rw [e85]
    exact key (.sparseFit _ _ _) _ (fun i _ j _ => by
      simp only [Fit.sparseFit, Ens.p, Ens.sparseFit, ea]; exact p1)
  · rw [e85]
    exact key (.denseFit _ _ _) _ (fun i _ j _ => by
      simp only [Fit.denseFit, Ens.p, Ens.denseFit, ea]
      rw [← (C07_single _ _ _ _).1, ← one]; exact p1)
  · exact key (.sparseInv _ _ _) _ (fun i _ j _ => by
      simp only [Fit.sparseInv, Ens.p, Ens.sparseInv, ea]; exact p2)
  · exact key (.denseInv _ _ _) _ (fun i _ j _ => by
      simp only [Fit.denseInv, Ens.p, Ens.denseInv, ea]
      rw [← (C07_single _ _ _ _).2.2.2.2.1, ← one]; exact p2)
  · have : (2 : ℝ) ^ (-30 : ℤ) ≤ 1 := zpow_le_one_of_nonpos₀ (by norm_num) (by norm_num)
    linarith

/-! ## Products that overflow -/

private theorem half_mem : (1 / 2 : ℝ) ∈ doubles := by
  have := pow_mem (k := -1) (by norm_num) (by norm_num)
  norm_num at this ⊢
  exact this

private theorem nhalf_mem : (-(1 / 2) : ℝ) ∈ doubles := by
  refine ⟨⟨-1, -1, by norm_num, by norm_num, by norm_num⟩, ?_⟩
  rw [abs_neg, abs_of_pos (by norm_num)]
  exact lt_of_lt_of_le (by norm_num) (one_le_zpow₀ (by norm_num) (by norm_num : (0 : ℤ) ≤ 1024))

private theorem tol_mem : ((2 : ℝ) ^ (-30 : ℤ) + (2 : ℝ) ^ (-31 : ℤ)) ∈ doubles := by
  refine ⟨⟨3, -31, by norm_num, by norm_num, by norm_num⟩, ?_⟩
  rw [abs_of_pos (by positivity)]
  exact lt_of_lt_of_le (by norm_num) (one_le_zpow₀ (by norm_num) (by norm_num : (0 : ℤ) ≤ 1024))

/-- The state the solver cannot leave: the point is zero, the derivative infinite. -/
private structure Stuck (s : Verif.Solver.St) : Prop where
  x : s.x = fin 0
  f : s.f = fin (-(1 / 2))
  f_p : s.f_p = pinf
  x_l : s.x_l = fin 0
  x_u : s.x_u = pinf
  f_l : s.f_l = some (fin (-(1 / 2)))
  f_u : s.f_u = some (fin (1 / 2))
  norm : s.norm = fin (1 / 2)
  diff : s.diff = fin 1
  norm_seq : s.norm_seq.getLastD nan = fin (1 / 2)
  diff_seq : s.diff_seq.getLastD nan = fin 1

private theorem last (l : List XR) (v : XR) : (l ++ [v]).getLastD nan = v := by simp

section

variable {func : XR → XR × XR} (m : ℕ)

private noncomputable def cfgs (func : XR → XR × XR) (m : ℕ) : Verif.Solver.Cfg :=
  Fit.cfg func (1 / 2) ⟨(2 : ℝ) ^ (-30 : ℤ), (2 : ℝ) ^ (-30 : ℤ), m⟩

private theorem tol_eq : Round.Solver.tol binary64 (cfgs func m) =
    fin ((2 : ℝ) ^ (-30 : ℤ) + (2 : ℝ) ^ (-31 : ℤ)) := by
  have e1 : binary64.mul (fin ((2 : ℝ) ^ (-30 : ℤ))) (fin (1 / 2)) = fin ((2 : ℝ) ^ (-31 : ℤ)) := by
    show toDouble ((2 : ℝ) ^ (-30 : ℤ) * (1 / 2)) = _
    rw [show (2 : ℝ) ^ (-30 : ℤ) * (1 / 2) = (2 : ℝ) ^ (-31 : ℤ) by norm_num]
    exact toDouble_self (pow_mem (by norm_num) (by norm_num))
  show binary64.add (fin ((2 : ℝ) ^ (-30 : ℤ)))
    (binary64.mul (fin ((2 : ℝ) ^ (-30 : ℤ))) (fin (1 / 2))) = _
  rw [e1]
  exact toDouble_self tol_mem

private theorem continues_eq {s : Verif.Solver.St} (h1 : s.norm = fin (1 / 2))
    (h2 : s.diff = fin 1) :
    Round.Solver.continues binary64 (cfgs func m) s = decide (s.n_iter < m) := by
  have e1 : ltb (fin ((2 : ℝ) ^ (-30 : ℤ) + (2 : ℝ) ^ (-31 : ℤ))) (fin (1 / 2)) = true := by
    simp only [ltb, decide_eq_true_eq]; norm_num
  have e2 : ltb (fin (cfgs func m).rtol) (fin 1) = true := by
    show ltb (fin ((2 : ℝ) ^ (-30 : ℤ))) (fin 1) = true
    simp only [ltb, decide_eq_true_eq]; norm_num
  unfold Round.Solver.continues
  rw [tol_eq, h1, h2, e1, e2]
  simp [cfgs, Fit.cfg]

private theorem add0 : binary64.add 0 (-(fin (1 / 2))) = fin (-(1 / 2)) := by
  show toDouble (0 + -(1 / 2)) = _
  rw [zero_add]
  exact toDouble_self nhalf_mem

private theorem add1 : binary64.add 1 (-(fin (1 / 2))) = fin (1 / 2) := by
  show toDouble (1 + -(1 / 2)) = _
  rw [show (1 : ℝ) + -(1 / 2) = 1 / 2 by norm_num]
  exact toDouble_self half_mem

private theorem zero_mem : (0 : ℝ) ∈ doubles := Faithful.binary64.zero_mem

private theorem dx_zero {s : Verif.Solver.St} (h1 : s.f = fin (-(1 / 2))) (h2 : s.f_p = pinf) :
    Round.Solver.newtonDx binary64 (cfgs func m) s = fin 0 := by
  unfold Round.Solver.newtonDx Round.Solver.npDiv
  rw [h1, h2]
  have e : (pinf : XR).isZero = false := rfl
  simp only [e]
  exact toDouble_self zero_mem

private theorem add00 : binary64.add (fin 0) (fin 0) = fin 0 := by
  show toDouble (0 + 0) = _
  rw [add_zero]
  exact toDouble_self zero_mem

private theorem back0 : binary64.add (fin 0) (binary64.mul (fin 2) (XR.abs (fin 0))) = fin 0 := by
  have : binary64.mul (fin 2) (XR.abs (fin 0)) = fin 0 := by
    show toDouble (2 * |0|) = _
    rw [abs_zero, mul_zero]
    exact toDouble_self zero_mem
  rw [this, add00]

variable (f0 : func (fin 0) = (0, pinf)) (fi : func pinf = (1, 0))

include f0 in
private theorem at_zero {s : Verif.Solver.St} (x_l : s.x_l = fin 0) (x_u : s.x_u = pinf)
    (f_u : s.f_u = some (fin (1 / 2))) (x_old : XR) (hx : x_old = fin 0 ∨ x_old = pinf) :
    ∃ s', (Verif.Solver.bracketLoop (Round.Solver.evalAt binary64 (cfgs func m) s (fin 0))).map
      (Round.Solver.record binary64 x_old) = .ok s' ∧ Stuck s' ∧ s'.n_iter = s.n_iter + 1 := by
  have e1 : Round.Solver.evalAt binary64 (cfgs func m) s (fin 0) =
      { s with x := fin 0, f := fin (-(1 / 2)), f_p := pinf } := by
    unfold Round.Solver.evalAt
    show { s with x := fin 0, f := binary64.add (func (fin 0)).1 (-(fin (1 / 2))),
                  f_p := (func (fin 0)).2 } = _
    rw [f0, add0]
  have e2 : Verif.Solver.bracketLoop { s with x := fin 0, f := fin (-(1 / 2)), f_p := pinf } =
      .ok { s with x := fin 0, f := fin (-(1 / 2)), f_p := pinf, x_l := fin 0,
                   f_l := some (fin (-(1 / 2))) } := by
    unfold Verif.Solver.bracketLoop Verif.Solver.signs
    simp [Verif.Solver.pos, Verif.Solver.negv, ltb, leb, x_l]
    norm_num
  have ab : XR.abs (fin (-(1 / 2))) = fin (1 / 2) := by
    show fin |(-(1 / 2) : ℝ)| = _
    rw [abs_neg, abs_of_pos (by norm_num)]
  have ed : (if !(x_old.isZero) && !(x_old.isInf) then
      (Round.Solver.npDiv binary64 (binary64.add (fin 0) (-x_old)) x_old).abs else fin 1) =
      fin 1 := by
    rcases hx with rfl | rfl <;> simp [isZero, isInf]
  rw [e1, e2]
  refine ⟨_, rfl, ⟨rfl, rfl, rfl, rfl, x_u, rfl, f_u, ab, ed, ?_, ?_⟩, rfl⟩
  · exact (last _ _).trans ab
  · exact (last _ _).trans ed

include f0 in
private theorem stuck_step {s : Verif.Solver.St} (h : Stuck s) :
    ∃ s', Round.Solver.step binary64 (cfgs func m) s = .ok s' ∧ Stuck s' ∧
      s'.n_iter = s.n_iter + 1 := by
  have e : Round.Solver.nextX binary64 (cfgs func m) s = fin 0 := by
    unfold Round.Solver.nextX
    simp only [dx_zero m h.f h.f_p, h.x, h.x_u, h.x_l, h.f_u, h.f_l, add00, back0]
    simp [leb, isInf]
  unfold Round.Solver.step
  rw [e]
  exact at_zero m f0 h.x_l h.x_u h.f_u s.x (.inl h.x)

include f0 in
private theorem stuck_loop (k : ℕ) : ∀ s : Verif.Solver.St, Stuck s → s.n_iter + k = m →
    ∃ s', Round.Solver.loop binary64 (cfgs func m) k s = .ok s' ∧ Stuck s' ∧ s'.n_iter = m := by
  induction k with
  | zero => intro s h hk; exact ⟨s, rfl, h, hk⟩
  | succ k ih =>
    intro s h hk
    obtain ⟨s1, e1, h1, n1⟩ := stuck_step m f0 h
    obtain ⟨s2, e2, h2, n2⟩ := ih s1 h1 (by omega)
    refine ⟨s2, ?_, h2, n2⟩
    unfold Round.Solver.loop
    rw [continues_eq m h.norm h.diff, if_pos (by simp; omega), e1]
    exact e2

include f0 fi in
private theorem stuck_solve (hm : 2 ≤ m) :
    ∃ r, Round.Solver.solve binary64 (cfgs func m) (fin 0) = .ok r ∧ r.x = fin 0 ∧
      r.max_iter_reached = true ∧ r.converged = false ∧ r.no_change_stop = false := by
  obtain ⟨k, rfl⟩ := Nat.exists_eq_add_of_le' hm
  have ab : XR.abs (fin (-(1 / 2))) = fin (1 / 2) := by
    show fin |(-(1 / 2) : ℝ)| = _
    rw [abs_neg, abs_of_pos (by norm_num)]
  have ab' : XR.abs (fin (1 / 2)) = fin (1 / 2) := by
    show fin |((1 / 2) : ℝ)| = _
    rw [abs_of_pos (by norm_num)]
  -- the initial point
  let s0 : Verif.Solver.St :=
    { n_iter := 0, x := fin 0, f := fin (-(1 / 2)), f_p := pinf, x_l := fin 0, x_u := pinf,
      f_l := none, f_u := none, norm := fin (1 / 2), diff := fin 1, f_seq := [fin (-(1 / 2))],
      x_seq := [fin 0], norm_seq := [fin (1 / 2)], diff_seq := [fin 1] }
  have i0 : Round.Solver.init binary64 (cfgs func (k + 2)) (fin 0) = s0 := by
    unfold Round.Solver.init
    have : (binary64.add (func (fin 0)).1 (-(fin (1 / 2)))) = fin (-(1 / 2)) := by rw [f0, add0]
    simp only [cfgs, Fit.cfg, this, ab, s0]
    rw [f0]
  let s1 : Verif.Solver.St := { s0 with f_l := some (fin (-(1 / 2))) }
  have b0 : Verif.Solver.bracketInit s0 = .ok s1 := by
    unfold Verif.Solver.bracketInit Verif.Solver.signs
    simp [Verif.Solver.pos, Verif.Solver.negv, ltb, leb, s0, s1]
    norm_num
  -- the first iteration goes to infinity
  have x1 : Round.Solver.nextX binary64 (cfgs func (k + 2)) s1 = pinf := by
    unfold Round.Solver.nextX
    rw [dx_zero _ rfl rfl]
    simp only [s1, s0, add00]
    simp [leb]
  let s2 : Verif.Solver.St :=
    { s1 with n_iter := 1, x := pinf, f := fin (1 / 2), f_p := 0, f_u := some (fin (1 / 2)),
              norm := fin (1 / 2), diff := fin 1, f_seq := [fin (-(1 / 2)), fin (1 / 2)],
              x_seq := [fin 0, pinf], norm_seq := [fin (1 / 2), fin (1 / 2)],
              diff_seq := [fin 1, fin 1] }
  have st1 : Round.Solver.step binary64 (cfgs func (k + 2)) s1 = .ok s2 := by
    unfold Round.Solver.step
    rw [x1]
    have e1 : Round.Solver.evalAt binary64 (cfgs func (k + 2)) s1 pinf =
        { s1 with x := pinf, f := fin (1 / 2), f_p := 0 } := by
      show { s1 with x := pinf, f := binary64.add (func pinf).1 (-(fin (1 / 2))),
                     f_p := (func pinf).2 } = _
      rw [fi, add1]
    have e2 : Verif.Solver.bracketLoop { s1 with x := pinf, f := fin (1 / 2), f_p := 0 } =
        .ok { s1 with x := pinf, f := fin (1 / 2), f_p := 0, f_u := some (fin (1 / 2)) } := by
      unfold Verif.Solver.bracketLoop Verif.Solver.signs
      simp [Verif.Solver.pos, Verif.Solver.negv, ltb, leb, zero_def, s0, s1, isZero, eqb]
    rw [e1, e2]
    simp [Except.map, Round.Solver.record, s2, s1, s0, isZero]
  -- the second iteration goes back to zero
  have x2 : Round.Solver.nextX binary64 (cfgs func (k + 2)) s2 = fin 0 := by
    have d2 : Round.Solver.newtonDx binary64 (cfgs func (k + 2)) s2 = fin (-(2 : ℝ) ^ (29 : ℤ)) := by
      unfold Round.Solver.newtonDx Round.Solver.npDiv
      have z1 : (s2.f_p).isZero = true := by simp [s2, isZero]
      have z2 : (fin (cfgs func (k + 2)).atol).isZero = false :=
        isZero_eq_false (pow_pos' (-30)).ne'
      simp only [z1, z2, if_true, Bool.false_eq_true, if_false]
      show roundXR (fin (-(1 / 2)) / fin ((2 : ℝ) ^ (-30 : ℤ))) = _
      rw [fin_div_fin _ _ (pow_pos' _).ne']
      show toDouble (-(1 / 2) / (2 : ℝ) ^ (-30 : ℤ)) = _
      rw [show -(1 / 2) / (2 : ℝ) ^ (-30 : ℤ) = -(2 : ℝ) ^ (29 : ℤ) by norm_num]
      refine toDouble_self ⟨⟨-1, 29, by norm_num, by norm_num, by norm_num⟩, ?_⟩
      rw [abs_neg, abs_of_pos (pow_pos' _)]
      exact zpow_lt_zpow_right₀ (by norm_num) (by norm_num)
    have a2 : binary64.add pinf (fin (-(2 : ℝ) ^ (29 : ℤ))) = pinf := rfl
    unfold Round.Solver.nextX
    rw [d2]
    simp only [s2, s1, s0, a2, back0]
    simp [leb, isInf]
  obtain ⟨s3, e3, h3, n3⟩ := at_zero (s := s2) (k + 2) f0 rfl rfl rfl pinf (.inr rfl)
  have st2 : Round.Solver.step binary64 (cfgs func (k + 2)) s2 = .ok s3 := by
    unfold Round.Solver.step
    rw [x2]
    exact e3
  obtain ⟨s4, e4, h4, n4⟩ := stuck_loop (k + 2) f0 k s3 h3 (by
    rw [n3]; show 1 + 1 + k = k + 2; omega)
  have lp : Round.Solver.loop binary64 (cfgs func (k + 2)) (k + 2) s1 = .ok s4 := by
    unfold Round.Solver.loop
    rw [continues_eq _ rfl rfl, if_pos (by show decide (0 < k + 2) = true; simp), st1]
    show Round.Solver.loop binary64 (cfgs func (k + 2)) (k + 1) s2 = .ok s4
    unfold Round.Solver.loop
    rw [continues_eq _ rfl rfl, if_pos (by show decide (1 < k + 2) = true; simp), st2]
    exact e4
  refine ⟨Round.Solver.mkSolution binary64 (cfgs func (k + 2)) s4, ?_, h4.x, ?_, ?_, ?_⟩
  · unfold Round.Solver.solve
    simp only [i0, b0]
    have c1 : (ltb (cfgs func (k + 2)).x_u (fin 0) || ltb (fin 0) (cfgs func (k + 2)).x_l) =
        false := by
      simp [cfgs, Fit.cfg, ltb]
    have c2 : ltb s0.norm (fin (cfgs func (k + 2)).atol) = false := by
      show ltb (fin (1 / 2)) (fin ((2 : ℝ) ^ (-30 : ℤ))) = false
      simp only [ltb, decide_eq_false_iff_not]; norm_num
    rw [c1, c2]
    show (Round.Solver.loop binary64 (cfgs func (k + 2)) (k + 2) s1).map _ = _
    rw [lp]
    rfl
  · show decide (k + 2 ≤ s4.n_iter) = true
    rw [n4]; simp
  · show leb (s4.norm_seq.getLastD nan) (Round.Solver.tol binary64 _) = false
    rw [h4.norm_seq, tol_eq]
    simp only [leb, decide_eq_false_iff_not]; norm_num
  · show leb (s4.diff_seq.getLastD nan) (fin ((2 : ℝ) ^ (-30 : ℤ))) = false
    rw [h4.diff_seq]
    simp only [leb, decide_eq_false_iff_not]; norm_num

end

/-- **C93 fails outside the range of sizes.**  Two vertices, one possible link, from the first to
the second.  The product of the two properties overflows although all numbers given, the product of
all three, and the parameter `2 ^ (-800)` that gives exactly the requested number of edges are
double precision numbers.  The fit jumps to infinity, back to zero, and stays there: whatever the
iteration limit, it returns the parameter zero (no links at all). -/
theorem C93_violated (maxiter : ℕ) (hm : 2 ≤ maxiter) (d : ℝ≥0) (x y : ℕ → ℝ≥0)
    (z : ℕ → ℕ → ℝ≥0) (hd : d = (2 : ℝ≥0) ^ (-800 : ℤ))
    (hx : x = fun i => if i = 0 then (2 : ℝ≥0) ^ (600 : ℤ) else 0)
    (hy : y = fun j => if j = 1 then (2 : ℝ≥0) ^ (600 : ℤ) else 0)
    (hz : z = fun _ _ => (2 : ℝ≥0) ^ (-400 : ℤ)) :
    ((Fit.sparseFit x y z).ens d).exp_edges 2 false = fin (1 / 2) ∧
    ∃ r, Round.fitSingle binary64
      (Round.exp_edges_f_jac binary64 (fun d i j => Round.Sparse.FitnessModel.p_jac_ij binary64 d
        (fin (x i)) (fin (y j)) (fin (z i j))) 2 false) (some (1 / 2)) .none .density
        ⟨(2 : ℝ) ^ (-30 : ℤ), (2 : ℝ) ^ (-30 : ℤ), maxiter⟩ = .ok r ∧
      r.x = fin 0 ∧ r.max_iter_reached = true ∧ r.converged = false ∧ r.no_change_stop = false := by
  have x0 : x 0 = (2 : ℝ≥0) ^ (600 : ℤ) := by rw [hx]; rfl
  have x1 : x 1 = 0 := by rw [hx]; rfl
  have y1 : y 1 = (2 : ℝ≥0) ^ (600 : ℤ) := by rw [hy]; rfl
  have z01 : z 0 1 = (2 : ℝ≥0) ^ (-400 : ℤ) := by rw [hz]
  have c600 : (((2 : ℝ≥0) ^ (600 : ℤ) : ℝ≥0) : ℝ) = (2 : ℝ) ^ (600 : ℤ) := by push_cast; rfl
  have c400 : (((2 : ℝ≥0) ^ (-400 : ℤ) : ℝ≥0) : ℝ) = (2 : ℝ) ^ (-400 : ℤ) := by push_cast; rfl
  constructor
  · unfold Ens.exp_edges
    have ex : ∀ i, Ens.arr (toENN x) i = fin (x i) := fun i => ofENN_coe (x i)
    have ey : ∀ i, Ens.arr (toENN y) i = fin (y i) := fun i => ofENN_coe (y i)
    have ez : ∀ i j, Ens.arr (toENN (z i)) j = fin (z i j) := fun i j => ofENN_coe (z i j)
    have hp : ∀ i j, ((Fit.sparseFit x y z).ens d).p i j =
        fin ((2 : ℝ) ^ (-800 : ℤ) * ((x i : ℝ) * y j * z i j) /
          (1 + (2 : ℝ) ^ (-800 : ℤ) * ((x i : ℝ) * y j * z i j))) := by
      intro i j
      have h := (sparse_fit_pair (x i) (y j) (z i j)).prob d
      rw [show (d : ℝ) = (2 : ℝ) ^ (-800 : ℤ) by rw [hd]; push_cast; rfl] at h
      rw [← h]
      simp only [Fit.sparseFit, Ens.p, Ens.sparseFit, ex, ey, ez]
    have v : (2 : ℝ) ^ (-800 : ℤ) * ((x 0 : ℝ) * (y 1 : ℝ) * (z 0 1 : ℝ)) = 1 := by
      rw [x0, y1, z01, c600, c400]
      rw [← zpow_add₀ two_ne_zero, ← zpow_add₀ two_ne_zero, ← zpow_add₀ two_ne_zero]
      norm_num
    rw [DiGraphEnsemble.exp_edges_eq (fun i _ j _ _ => hp i j)]
    simp only [Finset.sum_range_succ, Finset.sum_range_zero, v, x1, admissible]
    norm_num
  · have e0 : binary64.add 0 0 = 0 := add00
    have n600 : (fin ((2 : ℝ) ^ (600 : ℤ))).isZero = false := isZero_eq_false (pow_pos' _).ne'
    have n400 : (fin ((2 : ℝ) ^ (-400 : ℤ))).isZero = false := isZero_eq_false (pow_pos' _).ne'
    have pr : prod3 binary64 (fin (x 0)) (fin (y 1)) (fin (z 0 1)) = pinf := by
      rw [x0, y1, z01, c600, c400, prod3]
      have : binary64.mul (fin ((2 : ℝ) ^ (600 : ℤ))) (fin ((2 : ℝ) ^ (600 : ℤ))) = pinf := by
        show toDouble ((2 : ℝ) ^ (600 : ℤ) * (2 : ℝ) ^ (600 : ℤ)) = _
        rw [← zpow_add₀ two_ne_zero]
        exact toDouble_huge (by norm_num)
      rw [this]
      show roundXR (pinf * fin ((2 : ℝ) ^ (-400 : ℤ))) = pinf
      rw [pinf_mul_fin_pos (pow_pos' _)]
      rfl
    have q10 : ∀ d, Round.Sparse.FitnessModel.p_jac_ij binary64 d (fin (x 1)) (fin (y 0))
        (fin (z 1 0)) = (0, 0) := by
      intro d
      unfold Round.Sparse.FitnessModel.p_jac_ij
      rw [x1]
      simp [isZero]
    have q01 : Round.Sparse.FitnessModel.p_jac_ij binary64 (fin 0) (fin (x 0)) (fin (y 1))
        (fin (z 0 1)) = (0, pinf) := by
      unfold Round.Sparse.FitnessModel.p_jac_ij
      rw [pr, x0, y1, z01, c600, c400, n600, n400]
      simp [isZero]
    have qi : Round.Sparse.FitnessModel.p_jac_ij binary64 pinf (fin (x 0)) (fin (y 1))
        (fin (z 0 1)) = (1, 0) := by
      unfold Round.Sparse.FitnessModel.p_jac_ij
      rw [pr, x0, y1, z01, c600, c400, n600, n400]
      have : binary64.mul pinf pinf = pinf := rfl
      simp [isZero, this, isInf]
    have ad : ∀ d, Round.exp_edges_f_jac binary64 (fun d i j =>
        Round.Sparse.FitnessModel.p_jac_ij binary64 d (fin (x i)) (fin (y j)) (fin (z i j))) 2 false d =
        (binary64.add (binary64.add 0 (Round.Sparse.FitnessModel.p_jac_ij binary64 d (fin (x 0))
          (fin (y 1)) (fin (z 0 1))).1) 0, binary64.add (binary64.add 0
          (Round.Sparse.FitnessModel.p_jac_ij binary64 d (fin (x 0)) (fin (y 1)) (fin (z 0 1))).2)
          0) := by
      intro d
      simp [Round.exp_edges_f_jac, List.range_succ, admissible, q10]
    have a01 : binary64.add 0 1 = 1 := by
      show toDouble (0 + 1) = _
      rw [zero_add]
      exact toDouble_self Faithful.binary64.one_mem
    have a10 : binary64.add 1 0 = 1 := by
      show toDouble (1 + 0) = _
      rw [add_zero]
      exact toDouble_self Faithful.binary64.one_mem
    obtain ⟨r, h1, h2⟩ := stuck_solve maxiter (func := Round.exp_edges_f_jac binary64 (fun d i j =>
        Round.Sparse.FitnessModel.p_jac_ij binary64 d (fin (x i)) (fin (y j)) (fin (z i j))) 2 false)
      (by rw [ad, q01, e0, e0]; rfl) (by rw [ad, qi, a01, a10, e0, e0]) hm
    refine ⟨r, ?_, h2⟩
    rw [fitSingle_eq]
    show (Round.Solver.solve binary64 (cfgs _ maxiter) (fin 0)).mapError _ = _
    rw [h1]
    rfl

end Verif
