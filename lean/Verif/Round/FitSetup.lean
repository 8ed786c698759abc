import Verif.Round.Newton
import Verif.Round.JacSum

/-!
# The fit in double precision: from pairs of vertices to the solver
-/

namespace Verif

namespace Round

open XR Fit
open scoped NNReal ENNReal

/-- What is needed of the pair function `pj` computed in double precision, up to the parameter `D`. -/
structure PairSetup (F : Fitter) (pj : XR → ℕ → ℕ → XR × XR) (n : ℕ) (D : ℝ) : Prop where
  acc : ∀ d, 0 ≤ d → d ≤ D → (d = 0 ∨ Mid d) → ∀ i < n, ∀ j < n,
    ∃ P P', F.pj (fin d) i j = (fin P, fin P') ∧ PairAcc (pj (fin d) i j) P P'
  low : ∀ i < n, ∀ j < n, ∃ P P', F.pj (fin D) i j = (fin P, fin P') ∧ (P = 0 ∨ 1 / big ≤ P')

/-- The smallest parameter that can occur after the first step. -/
noncomputable def tiny : ℝ := (2 : ℝ) ^ (-195 : ℤ)

theorem relErr_le {n : ℕ} {rtol : ℝ} (h : 20 * (((n * n : ℕ) : ℝ) + 300) * ulp2 ≤ rtol) :
    16 * relErr n ≤ rtol := by
  have u0 := ulp2_pos
  have : (0 : ℝ) ≤ ((n * n : ℕ) : ℝ) := Nat.cast_nonneg _
  unfold relErr
  nlinarith

theorem PairSetup.setup {F : Fitter} (hF : IsFitter F) {pj : XR → ℕ → ℕ → XR × XR} {n : ℕ}
    {sl : Bool} {t atol rtol D : ℝ} (h : PairSetup F pj n D)
    (D0 : 0 ≤ D) (D1 : D ≤ big) (tm : t ∈ doubles) (am : atol ∈ doubles) (rm : rtol ∈ doubles)
    (t0 : (2 : ℝ) ^ (-40 : ℤ) ≤ t) (t1 : t ≤ big) (a0 : 0 ≤ atol) (a1 : atol ≤ big)
    (hn : 20 * (((n * n : ℕ) : ℝ) + 300) * ulp2 ≤ rtol) (hr : rtol ≤ 1 / 10)
    (hD : t * (1 + rtol) ≤ F.obj hF n sl D) :
    Setup (exp_edges_f_jac binary64 pj n sl) (F.obj hF n sl) (F.objDer hF n sl) t atol rtol
      (relErr n) tiny D := by
  have u0 := ulp2_pos
  have us := ulp2_small
  have B := big_ge
  have hε := relErr_le hn
  have htp : 0 < t := lt_of_lt_of_le (pow_pos' _) t0
  have nn0 : (0 : ℝ) ≤ ((n * n : ℕ) : ℝ) := Nat.cast_nonneg _
  have hu : ulp2 ≤ relErr n := by
    unfold relErr
    nlinarith
  have hrp : 0 < rtol := by linarith
  have tinyBig : 1 / big ≤ tiny := by
    unfold tiny big
    rw [one_div, ← zpow_neg]
    exact zpow_le_zpow_right₀ (by norm_num) (by norm_num)
  have isObj := F.isObj hF n sl
  -- a pair with a positive probability
  have hpos : 0 < F.obj hF n sl D := lt_of_lt_of_le (by positivity) hD
  have rp : 1 / big ≤ F.objDer hF n sl D := by
    have hne : ∃ e ∈ Law.pairs n sl, F.val hF e D ≠ 0 := by
      by_contra hcon
      push Not at hcon
      have : F.obj hF n sl D = 0 := Finset.sum_eq_zero hcon
      linarith
    obtain ⟨⟨i, j⟩, he, hv⟩ := hne
    obtain ⟨hi, hj, _⟩ := Law.mem_pairs.1 he
    obtain ⟨P, P', e1, hP⟩ := h.low i hi j hj
    have e2 := (F.pairLink hF (i, j)).jac D D0
    rw [e1, Prod.mk.injEq] at e2
    have q1 : P = F.val hF (i, j) D := XR.fin.inj e2.1
    have q2 : P' = F.der hF (i, j) D := XR.fin.inj e2.2
    rcases hP with hP | hP
    · exact absurd (q1.symm.trans hP) hv
    · rw [q2] at hP
      exact hP.trans (Finset.single_le_sum
        (f := fun e => F.der hF e D) (fun e _ => (F.pairLink hF e).link.nonneg D D0) he)
  -- the derivative at zero
  have der0 : F.objDer hF n sl 0 ≤ ((n * n : ℕ) : ℝ) * root ^ 3 := by
    have h1 : ∀ e ∈ Law.pairs n sl, F.der hF e 0 ≤ root ^ 3 := by
      rintro ⟨i, j⟩ he
      obtain ⟨hi, hj, _⟩ := Law.mem_pairs.1 he
      obtain ⟨P, P', e1, p, _, q, _, _, _, _, _, hP', _⟩ := h.acc 0 le_rfl D0 (.inl rfl) i hi j hj
      have e2 := (F.pairLink hF (i, j)).jac 0 le_rfl
      rw [e1, Prod.mk.injEq] at e2
      have q2 : P' = F.der hF (i, j) 0 := XR.fin.inj e2.2
      rw [← q2]
      exact hP'
    have h2 : (Law.pairs n sl).card ≤ n * n := by
      refine (Finset.card_filter_le _ _).trans ?_
      rw [Finset.card_product, Finset.card_range]
    calc F.objDer hF n sl 0 ≤ ∑ _e ∈ Law.pairs n sl, root ^ 3 := Finset.sum_le_sum h1
      _ = (Law.pairs n sl).card * root ^ 3 := by rw [Finset.sum_const, nsmul_eq_mul]
      _ ≤ ((n * n : ℕ) : ℝ) * root ^ 3 :=
          mul_le_mul_of_nonneg_right (by exact_mod_cast h2) (pow_pos root_pos 3).le
  have nb : ((n * n : ℕ) : ℝ) ≤ (2 : ℝ) ^ (53 : ℤ) := by
    have h1 : ((n * n : ℕ) : ℝ) * ulp2 ≤ 1 := by nlinarith
    have h2 : (2 : ℝ) ^ (53 : ℤ) * ulp2 = 1 := by
      unfold ulp2; rw [← zpow_add₀ two_ne_zero]; norm_num
    rw [← h2] at h1
    exact le_of_mul_le_mul_right h1 u0
  have r3 : root ^ 3 = (2 : ℝ) ^ (99 : ℤ) := by
    unfold root; rw [← zpow_natCast, ← zpow_mul]; norm_num
  have der1 : F.objDer hF n sl 0 ≤ (2 : ℝ) ^ (152 : ℤ) := by
    refine der0.trans ?_
    have e : (2 : ℝ) ^ (152 : ℤ) = (2 : ℝ) ^ (53 : ℤ) * (2 : ℝ) ^ (99 : ℤ) := by
      rw [← zpow_add₀ two_ne_zero]; norm_num
    rw [e, r3]
    exact mul_le_mul_of_nonneg_right nb (pow_pos' 99).le
  refine ⟨isObj, ?_, hu, hε, hr, htp, tm, am, rm, a0, ?_, D0, ?_, rp, ?_, t1, ?_, a1, D1, tinyBig⟩
  · intro d dm d0 dD hd
    have hd' : d = 0 ∨ Mid d := by
      rcases hd with hd | hd
      · exact .inl hd
      · exact .inr ⟨tinyBig.trans hd, dD.trans D1⟩
    obtain ⟨a, am, b, bm, E, G, e1, e2, h1, h2⟩ := exp_edges_f_jac_acc (sl := sl)
      (hn.trans hr) (h.acc d d0 dD hd')
    have e3 := F.rep hF n sl d d0
    unfold Fitter.func at e3
    rw [e2, Prod.mk.injEq] at e3
    rw [← XR.fin.inj e3.1, ← XR.fin.inj e3.2]
    exact ⟨a, am, b, bm, e1, h1, h2⟩
  · refine lt_of_lt_of_le ?_ hD
    have : 5 * relErr n < rtol := by linarith
    nlinarith
  · have h1 : 2 * tiny * F.objDer hF n sl 0 ≤ 2 * tiny * (2 : ℝ) ^ (152 : ℤ) :=
      mul_le_mul_of_nonneg_left der1 (by unfold tiny; positivity)
    refine h1.trans (le_trans ?_ t0)
    have e : 2 * tiny * (2 : ℝ) ^ (152 : ℤ) = (2 : ℝ) ^ (-42 : ℤ) := by
      unfold tiny
      rw [mul_assoc, ← zpow_add₀ two_ne_zero]
      norm_num
    rw [e]
    exact zpow_le_zpow_right₀ (by norm_num) (by norm_num)
  · refine der1.trans ?_
    unfold big
    exact zpow_le_zpow_right₀ (by norm_num) (by norm_num)
  · have h1 : (2 : ℝ) ^ (-53 : ℤ) ≤ rtol := by
      have : ulp2 ≤ rtol := by linarith
      exact this
    have h2 : (2 : ℝ) ^ (-53 : ℤ) * (2 : ℝ) ^ (-40 : ℤ) ≤ rtol * t :=
      mul_le_mul h1 t0 (pow_pos' _).le hrp.le
    refine le_trans ?_ h2
    unfold big
    rw [one_div, ← zpow_neg, ← zpow_add₀ two_ne_zero]
    exact zpow_le_zpow_right₀ (by norm_num) (by norm_num)

/-- The call of the solver made by `fit`. -/
theorem fitSingle_eq (func : XR → XR × XR) (t : ℝ) (o : Opts) :
    fitSingle binary64 func (some t) .none .density o =
      (Solver.solve binary64 (cfg func t o) (fin 0)).mapError .solver := by
  have hneg : anyNeg [(0 : XR)] = false := by simp [anyNeg, zero_def]
  show (if anyNeg [(0 : XR)] then Except.error Fit.Err.valueError
    else (Solver.solve binary64 (cfg func t o) (fin 0)).mapError .solver) = _
  rw [hneg]
  rfl

/-! ## The models -/

/-- Lower bound of the derivative of the fitness model. -/
theorem fit_low {c D : ℝ} (h1 : 1 / root ^ 3 ≤ c) (h2 : c ≤ root ^ 3) (D0 : 0 ≤ D)
    (D1 : D ≤ (2 : ℝ) ^ (45 : ℤ)) : 1 / big ≤ c / ((1 + D * c) * (1 + D * c)) := by
  have r0 := root_pos
  have c0 : 0 < c := lt_of_lt_of_le (by positivity) h1
  have hD : 0 ≤ D * c := mul_nonneg D0 c0.le
  rw [div_le_div_iff₀ big_pos (by positivity), one_mul]
  have r3 : root ^ 3 = (2 : ℝ) ^ (99 : ℤ) := by
    unfold root; rw [← zpow_natCast, ← zpow_mul]; norm_num
  rcases le_or_gt (D * c) 1 with h | h
  · have e1 : (1 + D * c) * (1 + D * c) ≤ 4 := by nlinarith
    have e2 : 4 ≤ 1 / root ^ 3 * big := by
      have : big = root ^ 3 * (2 : ℝ) ^ (101 : ℤ) := by
        rw [r3]; unfold big; rw [← zpow_add₀ two_ne_zero]; norm_num
      rw [this, ← mul_assoc, one_div_mul_cancel (by positivity), one_mul]
      norm_num
    exact e1.trans (e2.trans (mul_le_mul_of_nonneg_right h1 big_pos.le))
  · have e1 : (1 + D * c) * (1 + D * c) ≤ (2 * (D * c)) * (2 * (D * c)) :=
      mul_le_mul (by linarith) (by linarith) (by linarith) (by linarith)
    have e2 : D * D * c * 4 ≤ big := by
      have p45 := pow_pos' 45
      have s1 : D * D ≤ (2 : ℝ) ^ (45 : ℤ) * (2 : ℝ) ^ (45 : ℤ) := mul_le_mul D1 D1 D0 p45.le
      have s2 : D * D * c ≤ (2 : ℝ) ^ (45 : ℤ) * (2 : ℝ) ^ (45 : ℤ) * (2 : ℝ) ^ (99 : ℤ) :=
        mul_le_mul s1 (h2.trans r3.le) c0.le (by positivity)
      have s3 : (2 : ℝ) ^ (45 : ℤ) * (2 : ℝ) ^ (45 : ℤ) * (2 : ℝ) ^ (99 : ℤ) * 4 ≤ big := by
        unfold big
        have e4 : (4 : ℝ) = (2 : ℝ) ^ (2 : ℤ) := by norm_num
        rw [e4, ← zpow_add₀ two_ne_zero, ← zpow_add₀ two_ne_zero, ← zpow_add₀ two_ne_zero]
        exact zpow_le_zpow_right₀ (by norm_num) (by norm_num)
      exact (mul_le_mul_of_nonneg_right s2 (by norm_num)).trans s3
    calc (1 + D * c) * (1 + D * c) ≤ (2 * (D * c)) * (2 * (D * c)) := e1
      _ = c * (D * D * c * 4) := by ring
      _ ≤ c * big := mul_le_mul_of_nonneg_left e2 c0.le

/-- Lower bound of the derivative of the scale-invariant model. -/
theorem inv_low {c D : ℝ} (h1 : 1 / root ^ 3 ≤ c) (h64 : D * c ≤ 64) :
    1 / big ≤ c * Real.exp (-(D * c)) := by
  have r0 := root_pos
  have c0 : 0 < c := lt_of_lt_of_le (by positivity) h1
  have r3 : root ^ 3 = (2 : ℝ) ^ (99 : ℤ) := by
    unfold root; rw [← zpow_natCast, ← zpow_mul]; norm_num
  have h3 : Real.exp 64 ≤ (2 : ℝ) ^ (101 : ℤ) := by
    have : Real.exp 64 = Real.exp 1 ^ 64 := by rw [← Real.exp_nat_mul]; norm_num
    rw [this]
    calc Real.exp 1 ^ 64 ≤ (2.72 : ℝ) ^ 64 :=
          pow_le_pow_left₀ (Real.exp_pos _).le (by linarith [Real.exp_one_lt_d9]) _
      _ ≤ (2 : ℝ) ^ (101 : ℤ) := by norm_num
  have h4 : 1 / (2 : ℝ) ^ (101 : ℤ) ≤ Real.exp (-(D * c)) := by
    rw [Real.exp_neg, ← one_div]
    exact one_div_le_one_div_of_le (Real.exp_pos _) ((Real.exp_le_exp.2 h64).trans h3)
  have e : 1 / big = 1 / root ^ 3 * (1 / (2 : ℝ) ^ (101 : ℤ)) := by
    rw [r3, one_div_mul_one_div, ← zpow_add₀ two_ne_zero]; rfl
  rw [e]
  exact mul_le_mul h1 h4 (by positivity) c0.le

variable {n : ℕ} {D : ℝ} {x y : ℕ → ℝ≥0}

theorem big45 : (2 : ℝ) ^ (45 : ℤ) ≤ big := zpow_le_zpow_right₀ (by norm_num) (by norm_num)

theorem sized_prod {x y z : ℝ} (hx : Sized x) (hy : Sized y) (hz : Sized z) :
    x * y * z = 0 ∨ (1 / root ^ 3 ≤ x * y * z ∧ x * y * z ≤ root ^ 3) := by
  rcases hx with rfl | hx
  · left; simp
  rcases hy with rfl | hy
  · left; simp
  rcases hz with rfl | hz
  · left; simp
  exact .inr (triple_range hx hy hz)

theorem Sized.one : Sized 1 := by
  have := root_ge
  exact .inr ⟨by rw [div_le_one root_pos]; linarith, by linarith⟩

theorem sparseFit_setup {z : ℕ → ℕ → ℝ≥0} (hx : ∀ i < n, Sized (x i)) (hy : ∀ i < n, Sized (y i))
    (hz : ∀ i < n, ∀ j < n, Sized (z i j)) (D0 : 0 ≤ D) (D1 : D ≤ (2 : ℝ) ^ (45 : ℤ)) :
    PairSetup (Fit.sparseFit x y z)
      (fun d i j => Sparse.FitnessModel.p_jac_ij binary64 d (fin (x i)) (fin (y j)) (fin (z i j)))
      n D where
  acc d d0 _ hd i hi j hj :=
    ⟨_, _, (sparse_fit_pair (x i) (y j) (z i j)).jac d d0,
      sparse_fit_jac hd (hx i hi) (hy j hj) (hz i hi j hj)⟩
  low i hi j hj := by
    refine ⟨_, _, (sparse_fit_pair (x i) (y j) (z i j)).jac D D0, ?_⟩
    rcases sized_prod (hx i hi) (hy j hj) (hz i hi j hj) with h | ⟨h1, h2⟩
    · left; simp [h]
    · exact .inr (fit_low h1 h2 D0 D1)

theorem sparseInv_setup {z : ℕ → ℕ → ℝ≥0} (hx : ∀ i < n, Sized (x i)) (hy : ∀ i < n, Sized (y i))
    (hz : ∀ i < n, ∀ j < n, Sized (z i j)) (D0 : 0 ≤ D)
    (h64 : ∀ i < n, ∀ j < n, D * ((x i : ℝ) * y j * z i j) ≤ 64) :
    PairSetup (Fit.sparseInv x y z)
      (fun d i j =>
        Sparse.ScaleInvariantModel.p_jac_ij binary64 d (fin (x i)) (fin (y j)) (fin (z i j)))
      n D where
  acc d d0 dD hd i hi j hj :=
    ⟨_, _, (sparse_inv_pair (x i) (y j) (z i j)).jac d d0,
      sparse_inv_jac hd (hx i hi) (hy j hj) (hz i hi j hj)
        ((mul_le_mul_of_nonneg_right dD (by positivity)).trans (h64 i hi j hj))⟩
  low i hi j hj := by
    refine ⟨_, _, (sparse_inv_pair (x i) (y j) (z i j)).jac D D0, ?_⟩
    rcases sized_prod (hx i hi) (hy j hj) (hz i hi j hj) with h | ⟨h1, h2⟩
    · left; simp [h]
    · exact .inr (inv_low h1 (h64 i hi j hj))

theorem dense_fit_exact (x y : ℝ≥0) (d : ℝ) (d0 : 0 ≤ d) :
    Verif.Dense.FitnessModel.p_jac_ij (fin d) (fin x) (fin y) =
      (fin (d * ((x : ℝ) * y) / (1 + d * ((x : ℝ) * y))),
        fin ((x : ℝ) * y / ((1 + d * ((x : ℝ) * y)) * (1 + d * ((x : ℝ) * y))))) := by
  have h := (sparse_fit_pair x y 1).jac d d0
  rw [← (C07_single _ _ _ 0).2.2.2.1]
  simpa [one_def] using h

theorem dense_inv_exact (x y : ℝ≥0) (d : ℝ) (d0 : 0 ≤ d) :
    Verif.Dense.ScaleInvariantModel.p_jac_ij (fin d) (fin x) (fin y) =
      (fin (1 - Real.exp (-(d * ((x : ℝ) * y)))),
        fin ((x : ℝ) * y * Real.exp (-(d * ((x : ℝ) * y))))) := by
  have h := (sparse_inv_pair x y 1).jac d d0
  rw [← (C07_single _ _ _ 0).2.2.2.2.2.2.2]
  simpa [one_def] using h

theorem denseFit_setup {w : ℕ → ℕ → XR} (hx : ∀ i < n, Sized (x i)) (hy : ∀ i < n, Sized (y i))
    (D0 : 0 ≤ D) (D1 : D ≤ (2 : ℝ) ^ (45 : ℤ)) :
    PairSetup (Fit.denseFit x y w)
      (fun d i j => Dense.FitnessModel.p_jac_ij binary64 d (fin (x i)) (fin (y j))) n D where
  acc d d0 _ hd i hi j hj :=
    ⟨_, _, dense_fit_exact (x i) (y j) d d0, dense_fit_jac hd (hx i hi) (hy j hj)⟩
  low i hi j hj := by
    refine ⟨_, _, dense_fit_exact (x i) (y j) D D0, ?_⟩
    have h := sized_prod (hx i hi) (hy j hj) Sized.one
    rw [mul_one] at h
    rcases h with h | ⟨h1, h2⟩
    · left; simp [h]
    · exact .inr (fit_low h1 h2 D0 D1)

theorem denseInv_setup {w : ℕ → ℕ → XR} (hx : ∀ i < n, Sized (x i)) (hy : ∀ i < n, Sized (y i))
    (D0 : 0 ≤ D) (h64 : ∀ i < n, ∀ j < n, D * ((x i : ℝ) * y j) ≤ 64) :
    PairSetup (Fit.denseInv x y w)
      (fun d i j => Dense.ScaleInvariantModel.p_jac_ij binary64 d (fin (x i)) (fin (y j))) n D where
  acc d d0 dD hd i hi j hj :=
    ⟨_, _, dense_inv_exact (x i) (y j) d d0, dense_inv_jac hd (hx i hi) (hy j hj)
      ((mul_le_mul_of_nonneg_right dD (by positivity)).trans (h64 i hi j hj))⟩
  low i hi j hj := by
    refine ⟨_, _, dense_inv_exact (x i) (y j) D D0, ?_⟩
    have h := sized_prod (hx i hi) (hy j hj) Sized.one
    rw [mul_one] at h
    rcases h with h | ⟨h1, h2⟩
    · left; simp [h]
    · exact .inr (inv_low h1 (h64 i hi j hj))

end Round

end Verif
