import Verif.Prob.Props
import Mathlib.Analysis.Calculus.Deriv.Inv
import Mathlib.Analysis.Calculus.Deriv.Mul
import Mathlib.Analysis.Calculus.Deriv.Add
import Mathlib.Analysis.Calculus.LogDeriv

/-!
# C05: the value/derivative pair handed to the solver

The pair is compared with the probability function the ensemble itself uses (`p_ij`, `p_ijk`)
and with the derivative of that function of the parameter.
-/

namespace Verif

open scoped ENNReal
open XR Spec

/-- `(v, j)` is the value of `p` at `d` together with its derivative (one-sided at `0`). -/
def IsValueAndDeriv (pair : XR × XR) (p : ℝ → XR) (d : ℝ) : Prop :=
  ∃ v j : ℝ, pair = (fin v, fin j) ∧ p d = fin v ∧
    HasDerivWithinAt (fun t => (p t).toReal) j (Set.Ici 0) d

/-! ### Derivatives of the link functions -/

theorem hasDeriv_fit {c d : ℝ} (h : 1 + d * c ≠ 0) :
    HasDerivAt (fun t : ℝ => t * c / (1 + t * c)) (c / ((1 + d * c) * (1 + d * c))) d := by
  have h1 : HasDerivAt (fun t : ℝ => t * c) c d := by
    simpa using (hasDerivAt_id d).mul_const c
  have h2 : HasDerivAt (fun t : ℝ => 1 + t * c) c d := by
    simpa using h1.const_add 1
  refine (h1.fun_div h2 h).congr_deriv ?_
  field_simp
  ring

theorem hasDeriv_inv (c d : ℝ) :
    HasDerivAt (fun t : ℝ => 1 - Real.exp (-(t * c))) (c * Real.exp (-(d * c))) d := by
  have h1 : HasDerivAt (fun t : ℝ => -(t * c)) (-c) d := by
    simpa using ((hasDerivAt_id d).mul_const c).fun_neg
  refine ((h1.exp).const_sub 1).congr_deriv ?_
  ring

theorem hasDeriv_noneFit {d : ℝ} (s : Finset ℕ) (c : ℕ → ℝ) (h : ∀ k ∈ s, 1 + d * c k ≠ 0) :
    HasDerivAt (fun t : ℝ => 1 - ∏ k ∈ s, (1 / (1 + t * c k)))
      ((∏ k ∈ s, (1 / (1 + d * c k))) * ∑ k ∈ s, c k / (1 + d * c k)) d := by
  suffices h' : HasDerivAt (fun t : ℝ => ∏ k ∈ s, (1 / (1 + t * c k)))
      (-((∏ k ∈ s, (1 / (1 + d * c k))) * ∑ k ∈ s, c k / (1 + d * c k))) d by
    simpa using h'.const_sub 1
  induction s using Finset.induction_on with
  | empty => simpa using hasDerivAt_const d (1 : ℝ)
  | insert a s ha ih =>
    have ih' := ih (fun k hk => h k (Finset.mem_insert_of_mem hk))
    have hne := h a (Finset.mem_insert_self a s)
    have h2 : HasDerivAt (fun t : ℝ => 1 + t * c a) (c a) d := by
      simpa using ((hasDerivAt_id d).mul_const (c a)).const_add 1
    have h3 : HasDerivAt (fun t : ℝ => 1 / (1 + t * c a)) (-(c a) / (1 + d * c a) ^ 2) d := by
      simpa [one_div] using h2.fun_inv hne
    simp only [Finset.prod_insert ha, Finset.sum_insert ha]
    refine (h3.fun_mul ih').congr_deriv ?_
    generalize (∏ k ∈ s, 1 / (1 + d * c k)) = P
    generalize (∑ k ∈ s, c k / (1 + d * c k)) = S
    clear h3
    generalize 1 + d * c a = u at *
    field_simp
    ring

/-! ### Model values on finite inputs -/

theorem ofReal_mul4 {d x y z : ℝ} (hd : 0 ≤ d) (hx : 0 ≤ x) (hy : 0 ≤ y) (hz : 0 ≤ z) :
    (ENNReal.ofReal d * ENNReal.ofReal x * ENNReal.ofReal y * ENNReal.ofReal z).toReal
      = d * (x * y * z) := by
  simp [ENNReal.toReal_mul, ENNReal.toReal_ofReal, hd, hx, hy, hz]; ring

theorem sparse_fit_p_fin {d x y z : ℝ} (hd : 0 ≤ d) (hx : 0 ≤ x) (hy : 0 ≤ y) (hz : 0 ≤ z) :
    Sparse.FitnessModel.p_ij (fin d) (fin x) (fin y) (fin z)
      = fin (d * (x * y * z) / (1 + d * (x * y * z))) := by
  have := sparse_fit_p_ij (ENNReal.ofReal d) (ENNReal.ofReal x) (ENNReal.ofReal y)
    (ENNReal.ofReal z)
  rw [ofENN_ofReal hd, ofENN_ofReal hx, ofENN_ofReal hy, ofENN_ofReal hz] at this
  rw [this, fitProb_of_ne_top (by finiteness), ofReal_mul4 hd hx hy hz]

theorem sparse_inv_p_fin {d x y z : ℝ} (hd : 0 ≤ d) (hx : 0 ≤ x) (hy : 0 ≤ y) (hz : 0 ≤ z) :
    Sparse.ScaleInvariantModel.p_ij (fin d) (fin x) (fin y) (fin z)
      = fin (1 - Real.exp (-(d * (x * y * z)))) := by
  have := sparse_inv_p_ij (ENNReal.ofReal d) (ENNReal.ofReal x) (ENNReal.ofReal y)
    (ENNReal.ofReal z)
  rw [ofENN_ofReal hd, ofENN_ofReal hx, ofENN_ofReal hy, ofENN_ofReal hz] at this
  rw [this, invProb_of_ne_top (by finiteness), ofReal_mul4 hd hx hy hz]

theorem sparse_fit_jac_fin {d x y z : ℝ} (hd : 0 ≤ d) (hx : 0 ≤ x) (hy : 0 ≤ y) (hz : 0 ≤ z) :
    Sparse.FitnessModel.p_jac_ij (fin d) (fin x) (fin y) (fin z)
      = (fin (d * (x * y * z) / (1 + d * (x * y * z))),
         fin (x * y * z / ((1 + d * (x * y * z)) * (1 + d * (x * y * z))))) := by
  have hne : 1 + d * (x * y * z) ≠ 0 := by positivity
  unfold Sparse.FitnessModel.p_jac_ij
  by_cases h : x = 0 ∨ y = 0 ∨ z = 0
  · rw [if_pos (by simpa [or_assoc] using h)]
    rcases h with h | h | h <;> simp [h, zero_def]
  · rw [if_neg (by simpa [or_assoc] using h)]
    by_cases h0 : d = 0
    · simp [h0, zero_def]
    · rw [if_neg (by simp [h0])]
      simp only [fin_mul_fin, one_def, fin_add_fin, isInf_fin, Bool.false_eq_true, if_false]
      rw [fin_div_fin _ _ hne, fin_div_fin _ _ (mul_ne_zero hne hne)]

theorem sparse_inv_jac_fin {d x y z : ℝ} :
    Sparse.ScaleInvariantModel.p_jac_ij (fin d) (fin x) (fin y) (fin z)
      = (fin (1 - Real.exp (-(d * (x * y * z)))),
         fin (x * y * z * Real.exp (-(d * (x * y * z))))) := by
  unfold Sparse.ScaleInvariantModel.p_jac_ij
  by_cases h : x = 0 ∨ y = 0 ∨ z = 0
  · rw [if_pos (by simpa [or_assoc] using h)]
    rcases h with h | h | h <;> simp [h, zero_def]
  · rw [if_neg (by simpa [or_assoc] using h)]
    by_cases h0 : d = 0
    · simp [h0, zero_def]
    · rw [if_neg (by simp [h0])]
      simp

theorem within_of_eq {f g : ℝ → ℝ} {j d : ℝ} (hd : 0 ≤ d) (hg : HasDerivAt g j d)
    (h : ∀ t, 0 ≤ t → f t = g t) : HasDerivWithinAt f j (Set.Ici 0) d :=
  hg.hasDerivWithinAt.congr (fun t ht => h t ht) (h d hd)

/-! ### C05, single layer -/

/-- Sparse backend (with a dyadic factor). -/
theorem C05_sparse_single {d x y z : ℝ} (hd : 0 ≤ d) (hx : 0 ≤ x) (hy : 0 ≤ y) (hz : 0 ≤ z) :
    IsValueAndDeriv (Sparse.FitnessModel.p_jac_ij (fin d) (fin x) (fin y) (fin z))
      (fun t => Sparse.FitnessModel.p_ij (fin t) (fin x) (fin y) (fin z)) d ∧
    IsValueAndDeriv (Sparse.ScaleInvariantModel.p_jac_ij (fin d) (fin x) (fin y) (fin z))
      (fun t => Sparse.ScaleInvariantModel.p_ij (fin t) (fin x) (fin y) (fin z)) d := by
  have hne : 1 + d * (x * y * z) ≠ 0 := by positivity
  exact ⟨⟨_, _, sparse_fit_jac_fin hd hx hy hz, sparse_fit_p_fin hd hx hy hz,
      within_of_eq hd (hasDeriv_fit hne)
        (fun t ht => by dsimp only; rw [sparse_fit_p_fin ht hx hy hz, toReal_fin])⟩,
    ⟨_, _, sparse_inv_jac_fin, sparse_inv_p_fin hd hx hy hz,
      within_of_eq hd (hasDeriv_inv _ d)
        (fun t ht => by dsimp only; rw [sparse_inv_p_fin ht hx hy hz, toReal_fin])⟩⟩

/-- Dense and spark backends, and one layer of the multi-layer models. -/
theorem C05_dense_single {d x y : ℝ} (hd : 0 ≤ d) (hx : 0 ≤ x) (hy : 0 ≤ y) (w : XR) :
    IsValueAndDeriv (Dense.FitnessModel.p_jac_ij (fin d) (fin x) (fin y))
      (fun t => Dense.FitnessModel.p_ij (fin t) (fin x) (fin y) w) d ∧
    IsValueAndDeriv (Dense.ScaleInvariantModel.p_jac_ij (fin d) (fin x) (fin y))
      (fun t => Dense.ScaleInvariantModel.p_ij (fin t) (fin x) (fin y) w) d ∧
    IsValueAndDeriv (MultiFitnessModel.p_jac_ijk (fin d) (fin x) (fin y))
      (fun t => MultiFitnessModel.p_ijk (fin t) (fin x) (fin y) w) d ∧
    IsValueAndDeriv (MultiInvariantModel.p_jac_ijk (fin d) (fin x) (fin y))
      (fun t => MultiInvariantModel.p_ijk (fin t) (fin x) (fin y) w) d := by
  have h := C05_sparse_single hd hx hy zero_le_one
  have e : ∀ t : XR, _ := fun t => C07_single t (fin x) (fin y) w
  simp only [one_def] at e
  simp only [(e _).1, (e _).2.2.2.1, (e _).2.2.2.2.1, (e _).2.2.2.2.2.2.2] at h
  exact ⟨h.1, h.2, h.1, h.2⟩

/-- The value part also agrees for infinite parameters and properties. -/
theorem C05_single_value (d x y z w : XR) (hd : d.Nonneg) (hx : x.Nonneg) (hy : y.Nonneg)
    (hz : z.Nonneg) :
    (Sparse.FitnessModel.p_jac_ij d x y z).1 = Sparse.FitnessModel.p_ij d x y z ∧
    (Sparse.ScaleInvariantModel.p_jac_ij d x y z).1 = Sparse.ScaleInvariantModel.p_ij d x y z ∧
    (Dense.FitnessModel.p_jac_ij d x y).1 = Dense.FitnessModel.p_ij d x y w ∧
    (Dense.ScaleInvariantModel.p_jac_ij d x y).1 = Dense.ScaleInvariantModel.p_ij d x y w := by
  have sp : ∀ d x y z : XR, d.Nonneg → x.Nonneg → y.Nonneg → z.Nonneg →
      (Sparse.FitnessModel.p_jac_ij d x y z).1 = Sparse.FitnessModel.p_ij d x y z ∧
      (Sparse.ScaleInvariantModel.p_jac_ij d x y z).1
        = Sparse.ScaleInvariantModel.p_ij d x y z := by
    intro d x y z hd hx hy hz
    obtain ⟨d, rfl⟩ := (nonneg_iff_exists _).1 hd
    obtain ⟨x, rfl⟩ := (nonneg_iff_exists _).1 hx
    obtain ⟨y, rfl⟩ := (nonneg_iff_exists _).1 hy
    obtain ⟨z, rfl⟩ := (nonneg_iff_exists _).1 hz
    rw [sparse_fit_p_ij, sparse_inv_p_ij]
    unfold Sparse.FitnessModel.p_jac_ij Sparse.ScaleInvariantModel.p_jac_ij
    by_cases h : x = 0 ∨ y = 0 ∨ z = 0
    · have h0 : d * x * y * z = 0 := by rcases h with h | h | h <;> simp [h]
      rw [if_pos (by simpa [or_assoc] using h), if_pos (by simpa [or_assoc] using h), h0,
        fitProb_zero, invProb_zero]
      exact ⟨rfl, rfl⟩
    · push Not at h
      have hb : ((ofENN x).isZero || (ofENN y).isZero || (ofENN z).isZero) = false := by simp [h]
      simp only [hb, Bool.false_eq_true, if_false]
      by_cases h0 : d = 0
      · subst h0
        simp [fitProb_zero, invProb_zero, zero_def]
      · have hb' : (ofENN d).isZero = false := by simp [h0]
        simp only [hb', Bool.false_eq_true, if_false]
        have e : ofENN d * (ofENN x * ofENN y * ofENN z) = ofENN (d * x * y * z) := by
          rw [ofENN_mul h.1 h.2.1, ofENN_mul (mul_ne_zero h.1 h.2.1) h.2.2,
            ofENN_mul h0 (mul_ne_zero (mul_ne_zero h.1 h.2.1) h.2.2)]
          congr 1; ring
        have f := fit_ladder (d * x * y * z)
        have g := inv_ladder (d * x * y * z)
        simp only [e]
        rw [← f, ← g]
        constructor <;> split <;> rfl
  have s1 := sp d x y z hd hx hy hz
  have s2 := sp d x y 1 hd hx hy (by simp [XR.Nonneg])
  have e := C07_single d x y w
  rw [e.1, e.2.2.2.1, e.2.2.2.2.1, e.2.2.2.2.2.2.2] at s2
  exact ⟨s1.1, s1.2, s2.1, s2.2⟩

example : (0 : ℝ) ≤ 0 ∧ (0 : ℝ) ≤ 3 / 2 := by norm_num

/-! ### C05, all layers -/

/-- The dense row with real entries. -/
noncomputable def denseR (n : ℕ) (x : ℕ → ℝ) : List XR := (List.range n).map (fun k => fin (x k))

theorem denseR_eq (n : ℕ) {x : ℕ → ℝ} (hx : ∀ k, 0 ≤ x k) :
    denseR n x = denseX n (fun k => ENNReal.ofReal (x k)) := by
  unfold denseR denseX
  exact List.map_congr_left (fun k _ => (ofENN_ofReal (hx k)).symm)

theorem multi_fit_p_fin (n : ℕ) {d : ℝ} {x y : ℕ → ℝ} (hd : 0 ≤ d) (hx : ∀ k, 0 ≤ x k)
    (hy : ∀ k, 0 ≤ y k) :
    Dense.MultiFitnessModel.p_ij (fun _ => fin d) (denseR n x) (denseR n y)
      = fin (1 - ∏ k ∈ Finset.range n, (1 / (1 + d * (x k * y k)))) := by
  have e : (fun _ : ℕ => fin d) = arrX (fun _ => ENNReal.ofReal d) := by
    funext _; exact (ofENN_ofReal hd).symm
  rw [e, denseR_eq n hx, denseR_eq n hy, dense_multiFit_p_ij]
  congr 2
  refine Finset.prod_congr rfl (fun k _ => ?_)
  rw [one_sub_fitProb (by finiteness)]
  simp [ENNReal.toReal_mul, ENNReal.toReal_ofReal, hd, hx, hy, mul_assoc]

theorem multi_inv_p_fin (n : ℕ) {d : ℝ} {x y : ℕ → ℝ} (hd : 0 ≤ d) (hx : ∀ k, 0 ≤ x k)
    (hy : ∀ k, 0 ≤ y k) :
    Dense.MultiInvariantModel.p_ij (fun _ => fin d) (denseR n x) (denseR n y)
      = fin (1 - Real.exp (-(d * ∑ k ∈ Finset.range n, x k * y k))) := by
  have e : (fun _ : ℕ => fin d) = arrX (fun _ => ENNReal.ofReal d) := by
    funext _; exact (ofENN_ofReal hd).symm
  rw [e, denseR_eq n hx, denseR_eq n hy, dense_multiInv_p_ij,
    noneInv_eq_exp (by push Not; intro k _; finiteness)]
  congr 4
  rw [Finset.mul_sum]
  refine Finset.sum_congr rfl (fun k _ => ?_)
  simp [ENNReal.toReal_mul, ENNReal.toReal_ofReal, hd, hx, hy, mul_assoc]

/-- One shared parameter `d` for all layers (`per_label = False`), finite values. -/
theorem C05_multi_dense (n : ℕ) {d : ℝ} {x y : ℕ → ℝ} (hd : 0 ≤ d) (hx : ∀ k, 0 ≤ x k)
    (hy : ∀ k, 0 ≤ y k) :
    IsValueAndDeriv (Dense.MultiFitnessModel.p_jac_ij (fin d) (denseR n x) (denseR n y))
      (fun t => Dense.MultiFitnessModel.p_ij (fun _ => fin t) (denseR n x) (denseR n y)) d ∧
    IsValueAndDeriv (Dense.MultiInvariantModel.p_jac_ij (fin d) (denseR n x) (denseR n y))
      (fun t => Dense.MultiInvariantModel.p_ij (fun _ => fin t) (denseR n x) (denseR n y)) d := by
  constructor
  · have hne : ∀ k ∈ Finset.range n, 1 + d * (x k * y k) ≠ 0 := fun k _ => by
      have := mul_nonneg hd (mul_nonneg (hx k) (hy k)); positivity
    refine ⟨_, _, ?_, multi_fit_p_fin n hd hx hy, within_of_eq hd
      (hasDeriv_noneFit (Finset.range n) (fun k => x k * y k) hne)
      (fun t ht => by dsimp only; rw [multi_fit_p_fin n ht hx hy, toReal_fin])⟩
    unfold Dense.MultiFitnessModel.p_jac_ij denseR
    rw [List.range_eq_range', one_def, zero_def, zipLoop_fitJac hd x y hx hy n 0 1 0]
    simp [finish]
  · refine ⟨_, _, ?_, multi_inv_p_fin n hd hx hy, within_of_eq hd
      (hasDeriv_inv (∑ k ∈ Finset.range n, x k * y k) d)
      (fun t ht => by dsimp only; rw [multi_inv_p_fin n ht hx hy, toReal_fin])⟩
    unfold Dense.MultiInvariantModel.p_jac_ij denseR
    rw [if_neg (by simp), List.range_eq_range', zero_def, zipLoop_invJac x y n 0 0]
    simp only [finish, invJacEnd, fin_mul_fin, ← Finset.range_eq_Ico, zero_add]
    by_cases h : d * ∑ k ∈ Finset.range n, x k * y k = 0
    · rw [if_pos (by simpa using h), h]; simp [zero_def]
    · rw [if_neg (by simpa using h)]; simp

/-- Sparse and spark: rows with finite non-negative entries. -/
theorem C05_multi_sparse {d : ℝ} {xs ys : List (ℕ × ℝ)} (hd : 0 ≤ d) (sx : RowSorted xs)
    (sy : RowSorted ys) (hx : ∀ k, 0 ≤ entry xs k) (hy : ∀ k, 0 ≤ entry ys k) :
    let X := xs.map (fun e => (e.1, fin e.2))
    let Y := ys.map (fun e => (e.1, fin e.2))
    IsValueAndDeriv (Sparse.MultiFitnessModel.p_jac_ij (fin d) X Y)
      (fun t => Sparse.MultiFitnessModel.p_ij (fun _ => fin t) X Y) d ∧
    IsValueAndDeriv (Sparse.MultiInvariantModel.p_jac_ij (fin d) X Y)
      (fun t => Sparse.MultiInvariantModel.p_ij (fun _ => fin t) X Y) d := by
  intro X Y
  have ent : ∀ (r : List (ℕ × ℝ)) (k : ℕ), entry (r.map (fun e => (e.1, fin e.2))) k
      = fin (entry r k) := by
    intro r k
    induction r with
    | nil => rfl
    | cons e r ih =>
      obtain ⟨a, v⟩ := e
      rw [List.map_cons, entry_cons, entry_cons, ih]; split <;> rfl
  have bound : ∀ r : List (ℕ × XR), ∃ n, ∀ e ∈ r, e.1 < n := by
    intro r
    induction r with
    | nil => exact ⟨0, by simp⟩
    | cons e r ih =>
      obtain ⟨m, hm⟩ := ih
      exact ⟨max m (e.1 + 1), fun f hf => by
        rcases List.mem_cons.1 hf with rfl | hf
        · exact lt_of_lt_of_le (Nat.lt_succ_self _) (le_max_right _ _)
        · exact lt_of_lt_of_le (hm f hf) (le_max_left _ _)⟩
  obtain ⟨n1, h1⟩ := bound X
  obtain ⟨n2, h2⟩ := bound Y
  have b1 : ∀ e ∈ X, e.1 < max n1 n2 := fun e he => lt_of_lt_of_le (h1 e he) (le_max_left _ _)
  have b2 : ∀ e ∈ Y, e.1 < max n1 n2 := fun e he => lt_of_lt_of_le (h2 e he) (le_max_right _ _)
  have sX : RowSorted X := by unfold RowSorted; rw [List.pairwise_map]; exact sx
  have sY : RowSorted Y := by unfold RowSorted; rw [List.pairwise_map]; exact sy
  have main := C05_multi_dense (max n1 n2) hd hx hy
  have dx : (List.range (max n1 n2)).map (entry X) = denseR (max n1 n2) (entry xs) := by
    unfold denseR; exact List.map_congr_left (fun k _ => ent xs k)
  have dy : (List.range (max n1 n2)).map (entry Y) = denseR (max n1 n2) (entry ys) := by
    unfold denseR; exact List.map_congr_left (fun k _ => ent ys k)
  simp only [sparse_dense_fit_jac _ sX sY b1 b2, sparse_dense_inv_jac _ sX sY b1 b2,
    sparse_dense_fit_p _ sX sY b1 b2, sparse_dense_inv_p _ sX sY b1 b2, dx, dy]
  exact main

example : RowSorted [(1, (2 : ℝ)), (4, 3)] ∧ ∀ k, 0 ≤ entry [(1, (2 : ℝ)), (4, 3)] k := by
  refine ⟨by simp [RowSorted], fun k => ?_⟩
  simp only [entry_cons, entry_nil]
  split
  · norm_num
  · split <;> norm_num

/-- Value part of the all-layer fitness model for infinite parameters and properties. -/
theorem C05_multiFit_value (n : ℕ) (d : ℝ≥0∞) (x y : ℕ → ℝ≥0∞) :
    (Dense.MultiFitnessModel.p_jac_ij (ofENN d) (denseX n x) (denseX n y)).1
      = Dense.MultiFitnessModel.p_ij (fun _ => ofENN d) (denseX n x) (denseX n y) := by
  have hp := dense_multiFit_p_ij n (fun _ => d) x y
  rw [show (fun _ : ℕ => ofENN d) = arrX (fun _ => d) from rfl, hp]
  unfold Dense.MultiFitnessModel.p_jac_ij
  rw [denseX_eq, denseX_eq, one_def]
  rcases zipLoop_fitJac_fst d x y n 0 1 0 with ⟨h1, h2⟩ | ⟨h1, J, h2⟩
  · rw [h2]
    rw [noneFit_of_top (by
      obtain ⟨i, hi, ht⟩ := h1
      exact ⟨i, by simpa using hi, by rw [mul_assoc]; exact ht⟩)]
    simp [finish, one_def]
  · rw [h2]
    simp only [finish, fin_sub_fin, one_mul, Nat.zero_add, ← Finset.range_eq_Ico, noneFit,
      mul_assoc]

/-- **The value part of the all-layer scale-invariant pair, exactly.**  It agrees with the
probability used by the ensemble if and only if an infinite parameter comes with a common
label, and a zero parameter comes without an infinite product. -/
theorem C05_multiInv_value_iff (n : ℕ) (d : ℝ≥0∞) (x y : ℕ → ℝ≥0∞) :
    (Dense.MultiInvariantModel.p_jac_ij (ofENN d) (denseX n x) (denseX n y)).1
      = Dense.MultiInvariantModel.p_ij (fun _ => ofENN d) (denseX n x) (denseX n y) ↔
    ((d = ⊤ → ∃ k ∈ Finset.range n, x k * y k ≠ 0) ∧
     (d = 0 → ∀ k ∈ Finset.range n, x k * y k ≠ ⊤)) := by
  have hp := dense_multiInv_p_ij n (fun _ => d) x y
  rw [show (fun _ : ℕ => ofENN d) = arrX (fun _ => d) from rfl, hp]
  have sum_eq : ∑ k ∈ Finset.range n, d * x k * y k = d * ∑ k ∈ Finset.range n, x k * y k := by
    rw [Finset.mul_sum]; exact Finset.sum_congr rfl (fun k _ => mul_assoc _ _ _)
  have hnone : 1 - noneInv n (fun _ => d) x y = invProb (d * ∑ k ∈ Finset.range n, x k * y k) := by
    rw [noneInv_eq, sum_eq]; ring
  rw [hnone]
  unfold Dense.MultiInvariantModel.p_jac_ij
  by_cases htop : d = ⊤
  · subst htop
    rw [if_pos (by simp)]
    simp only [one_def, fin_inj]
    rw [eq_comm, invProb_eq_one_iff]
    simp only [forall_const, ENNReal.top_ne_zero, IsEmpty.forall_iff, and_true]
    rw [ENNReal.top_mul']
    constructor
    · intro h
      by_contra hc
      push Not at hc
      rw [if_pos (Finset.sum_eq_zero hc)] at h
      exact absurd h (by simp)
    · rintro ⟨k, hk, hne⟩
      rw [if_neg]
      exact fun h => hne (Finset.sum_eq_zero_iff.1 h k hk)
  · rw [if_neg (by simp [htop]), denseX_eq, denseX_eq, zero_def, zipLoop_invJac_enn]
    simp only [← Finset.range_eq_Ico, zero_add, htop, false_implies, true_and]
    by_cases hinf : ∃ i ∈ Finset.range n, x i * y i = ⊤
    · rw [if_pos hinf]
      simp only [finish, one_def, fin_inj]
      have hs : ∑ k ∈ Finset.range n, x k * y k = ⊤ := ENNReal.sum_eq_top.2 hinf
      rw [hs, eq_comm, invProb_eq_one_iff]
      constructor
      · intro h h0
        rw [h0] at h; simp at h
      · intro h
        rw [ENNReal.mul_top]
        intro h0
        obtain ⟨i, hi, ht⟩ := hinf
        exact h h0 i hi ht
    · rw [if_neg hinf]
      push Not at hinf
      simp only [finish]
      refine ⟨fun _ _ => hinf, fun _ => ?_⟩
      have hfin : d * ∑ k ∈ Finset.range n, x k * y k ≠ ⊤ :=
        ENNReal.mul_ne_top htop (ENNReal.sum_ne_top.2 hinf)
      rw [invProb_of_ne_top hfin, ENNReal.toReal_mul, ENNReal.toReal_sum hinf]
      unfold invJacEnd
      rw [ofENN_of_ne_top htop, fin_mul_fin]
      by_cases h : d.toReal * ∑ k ∈ Finset.range n, (x k * y k).toReal = 0
      · rw [if_pos (by simpa using h), h]; simp [zero_def]
      · rw [if_neg (by simpa using h), inv_end]

/-- **The code violates C05** for the multi-layer scale-invariant model at an infinite
parameter: for two nodes without a common label the solver is told the link has probability
`1` while the ensemble gives it probability `0`. -/
theorem C05_multiInv_value_violated :
    (Sparse.MultiInvariantModel.p_jac_ij pinf [(0, 1)] [(1, 1)]).1 = 1 ∧
    Sparse.MultiInvariantModel.p_ij (fun _ => pinf) [(0, 1)] [(1, 1)] = 0 := by
  constructor
  · simp [Sparse.MultiInvariantModel.p_jac_ij]
  · simp [Sparse.MultiInvariantModel.p_ij, mergeLoop, finish, zero_def]

/-- The part of C05 that holds for infinite parameters in that model: nodes sharing a label. -/
theorem C05_multiInv_value_partial (n : ℕ) (d : ℝ≥0∞) (x y : ℕ → ℝ≥0∞) (hd : d ≠ 0)
    (hxy : ∃ k ∈ Finset.range n, x k * y k ≠ 0) :
    (Dense.MultiInvariantModel.p_jac_ij (ofENN d) (denseX n x) (denseX n y)).1
      = Dense.MultiInvariantModel.p_ij (fun _ => ofENN d) (denseX n x) (denseX n y) :=
  (C05_multiInv_value_iff n d x y).2 ⟨fun _ => hxy, fun h => absurd h hd⟩

example : ∃ k ∈ Finset.range 2, (fun _ => 2 : ℕ → ℝ≥0∞) k * (fun _ => 3 : ℕ → ℝ≥0∞) k ≠ 0 :=
  ⟨0, by simp, by norm_num⟩

end Verif
