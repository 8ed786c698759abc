import Verif.Prob.MultiLemmas

/-! # Refinement of the all-layer functions -/

namespace Verif

open scoped ENNReal
open XR Spec

/-- The float array holding a parameter vector. -/
noncomputable abbrev arrX (D : ℕ → ℝ≥0∞) : ℕ → XR := fun k => ofENN (D k)

theorem denseX_eq (n : ℕ) (x : ℕ → ℝ≥0∞) :
    denseX n x = (List.range' 0 n).map (fun i => ofENN (x i)) := by
  rw [denseX, List.range_eq_range']

theorem entry_rowX (r : List (ℕ × ℝ≥0∞)) (k : ℕ) : entry (rowX r) k = ofENN (entry r k) := by
  induction r with
  | nil => simp [rowX, entry_nil, zero_def]
  | cons e r ih =>
    obtain ⟨a, v⟩ := e
    have : rowX ((a, v) :: r) = (a, ofENN v) :: rowX r := rfl
    rw [this, entry_cons, entry_cons, ih]
    split <;> rfl

theorem rowSorted_rowX {r : List (ℕ × ℝ≥0∞)} (h : RowSorted r) : RowSorted (rowX r) := by
  unfold RowSorted rowX
  rw [List.pairwise_map]
  exact h

theorem mem_rowX {r : List (ℕ × ℝ≥0∞)} {n : ℕ} (h : ∀ e ∈ r, e.1 < n) :
    ∀ e ∈ rowX r, 0 ≤ e.1 ∧ e.1 < 0 + n := by
  intro e he
  simp only [rowX, List.mem_map] at he
  obtain ⟨e', he', rfl⟩ := he
  exact ⟨Nat.zero_le _, by simpa using h e' he'⟩

/-- Merging two sparse rows is zipping the corresponding dense rows, for any zero-skipping body. -/
theorem mergeLoop_dense {σ ρ : Type} {body : σ → ℕ → XR → XR → Except ρ σ} (hb : SkipsZero body)
    {n : ℕ} {xs ys : List (ℕ × XR)} (hx : RowSorted xs) (hy : RowSorted ys)
    (hxn : ∀ e ∈ xs, e.1 < n) (hyn : ∀ e ∈ ys, e.1 < n) (s : σ) :
    mergeLoop body xs ys s =
      zipLoop body 0 ((List.range n).map (entry xs)) ((List.range n).map (entry ys)) s := by
  rw [List.range_eq_range']
  exact mergeLoop_eq_zipLoop hb n 0 xs ys s hx hy
    (fun e he => ⟨Nat.zero_le _, by simpa using hxn e he⟩)
    (fun e he => ⟨Nat.zero_le _, by simpa using hyn e he⟩)

theorem mergeLoop_rowX {σ ρ : Type} {body : σ → ℕ → XR → XR → Except ρ σ} (hb : SkipsZero body)
    {n : ℕ} {xs ys : List (ℕ × ℝ≥0∞)} (hx : RowSorted xs) (hy : RowSorted ys)
    (hxn : ∀ e ∈ xs, e.1 < n) (hyn : ∀ e ∈ ys, e.1 < n) (s : σ) :
    mergeLoop body (rowX xs) (rowX ys) s =
      zipLoop body 0 (denseX n (entry xs)) (denseX n (entry ys)) s := by
  rw [mergeLoop_eq_zipLoop hb n 0 _ _ s (rowSorted_rowX hx) (rowSorted_rowX hy)
    (mem_rowX hxn) (mem_rowX hyn), denseX_eq, denseX_eq]
  simp only [funext (entry_rowX xs), funext (entry_rowX ys)]

section spec

variable (n : ℕ) (D x y : ℕ → ℝ≥0∞)

/-- Probability that no layer has the link (fitness model). -/
noncomputable abbrev noneFit : ℝ := ∏ k ∈ Finset.range n, (1 - fitProb (D k * x k * y k))
/-- Probability that no layer has the link (scale-invariant model). -/
noncomputable abbrev noneInv : ℝ := ∏ k ∈ Finset.range n, (1 - invProb (D k * x k * y k))

theorem noneFit_nonneg : 0 ≤ noneFit n D x y :=
  Finset.prod_nonneg (fun k _ => by have := fitProb_le_one (D k * x k * y k); linarith)
theorem noneFit_le_one : noneFit n D x y ≤ 1 :=
  Finset.prod_le_one (fun k _ => by have := fitProb_le_one (D k * x k * y k); linarith)
    (fun k _ => by have := fitProb_nonneg (D k * x k * y k); linarith)
theorem noneInv_nonneg : 0 ≤ noneInv n D x y :=
  Finset.prod_nonneg (fun k _ => by have := invProb_le_one (D k * x k * y k); linarith)
theorem noneInv_le_one : noneInv n D x y ≤ 1 :=
  Finset.prod_le_one (fun k _ => by have := invProb_le_one (D k * x k * y k); linarith)
    (fun k _ => by have := invProb_nonneg (D k * x k * y k); linarith)

variable {n D x y}

theorem noneFit_of_top (h : ∃ k ∈ Finset.range n, D k * x k * y k = ⊤) : noneFit n D x y = 0 := by
  obtain ⟨k, hk, ht⟩ := h
  exact Finset.prod_eq_zero hk (by rw [ht, fitProb_top]; ring)
theorem noneInv_of_top (h : ∃ k ∈ Finset.range n, D k * x k * y k = ⊤) : noneInv n D x y = 0 := by
  obtain ⟨k, hk, ht⟩ := h
  exact Finset.prod_eq_zero hk (by rw [ht, invProb_top]; ring)

theorem noneFit_pos (h : ¬ ∃ k ∈ Finset.range n, D k * x k * y k = ⊤) : 0 < noneFit n D x y := by
  push Not at h
  exact Finset.prod_pos (fun k hk => by have := fitProb_lt_one (h k hk); linarith)

theorem noneInv_eq_exp (h : ¬ ∃ k ∈ Finset.range n, D k * x k * y k = ⊤) :
    noneInv n D x y = Real.exp (-∑ k ∈ Finset.range n, (D k * x k * y k).toReal) := by
  push Not at h
  rw [← Finset.sum_neg_distrib, Real.exp_sum]
  exact Finset.prod_congr rfl (fun k hk => one_sub_invProb (h k hk))

end spec

/-! ## Dense -/

section dense

variable (n : ℕ) (D x y : ℕ → ℝ≥0∞)

theorem zipLoop_fit0 (ret : XR) :
    zipLoop (fitBody ret (arrX D)) 0 (denseX n x) (denseX n y) 1 =
      if ∃ k ∈ Finset.range n, D k * x k * y k = ⊤ then .error ret
      else .ok (fin (noneFit n D x y)) := by
  have := zipLoop_fit ret D x y (arrX D) (fun _ => rfl) n 0 1
  rw [one_def, denseX_eq, denseX_eq, this]
  simp only [Nat.zero_add, ← Finset.range_eq_Ico, one_mul]

theorem zipLoop_inv0 (ret : XR) :
    zipLoop (invBody ret (arrX D)) 0 (denseX n x) (denseX n y) 0 =
      if ∃ k ∈ Finset.range n, D k * x k * y k = ⊤ then .error ret
      else .ok (fin (∑ k ∈ Finset.range n, (D k * x k * y k).toReal)) := by
  have := zipLoop_inv ret D x y (arrX D) (fun _ => rfl) n 0 0
  rw [zero_def, denseX_eq, denseX_eq, this]
  simp only [← Finset.range_eq_Ico, zero_add]

theorem dense_multiFit_p_ij :
    Dense.MultiFitnessModel.p_ij (arrX D) (denseX n x) (denseX n y)
      = fin (1 - noneFit n D x y) := by
  unfold Dense.MultiFitnessModel.p_ij
  rw [zipLoop_fit0]
  split
  · next h => rw [noneFit_of_top h]; simp [finish, one_def]
  · simp [finish, one_def]

theorem fitLogpEnd_eq (h : ¬ ∃ k ∈ Finset.range n, D k * x k * y k = ⊤) :
    fitLogpEnd (fin (noneFit n D x y)) = elog (1 - noneFit n D x y) := by
  unfold fitLogpEnd
  have hpos := noneFit_pos h
  have hle := noneFit_le_one n D x y
  by_cases h1 : noneFit n D x y = 1
  · rw [if_pos (by simp [h1]), h1, sub_self, elog_zero]
  · have : 0 < 1 - noneFit n D x y := by
      rcases hle.lt_or_eq with h | h
      · linarith
      · exact absurd h h1
    rw [if_neg (by simp [h1]), neg_fin, log1p_fin_pos (by linarith), elog_pos this]
    rfl

theorem dense_multiFit_logp :
    Dense.MultiFitnessModel.logp (arrX D) (denseX n x) (denseX n y)
      = elog (1 - noneFit n D x y) := by
  unfold Dense.MultiFitnessModel.logp
  rw [zipLoop_fit0]
  split
  · next h => rw [noneFit_of_top h]; simp [finish, elog_one, zero_def]
  · next h => simp only [finish]; exact fitLogpEnd_eq n D x y h

theorem dense_multiFit_log1mp :
    Dense.MultiFitnessModel.log1mp (arrX D) (denseX n x) (denseX n y)
      = elog (noneFit n D x y) := by
  unfold Dense.MultiFitnessModel.log1mp
  rw [zipLoop_fit0]
  split
  · next h => rw [noneFit_of_top h]; simp [finish, elog_zero]
  · next h => simp only [finish]; rw [log_fin_pos (noneFit_pos h), elog_pos (noneFit_pos h)]

theorem inv_end (v : ℝ) : -(XR.expm1 (-(fin v))) = fin (1 - Real.exp (-v)) := by
  simp

theorem dense_multiInv_p_ij :
    Dense.MultiInvariantModel.p_ij (arrX D) (denseX n x) (denseX n y)
      = fin (1 - noneInv n D x y) := by
  unfold Dense.MultiInvariantModel.p_ij
  rw [zipLoop_inv0]
  split
  · next h => rw [noneInv_of_top h]; simp [finish, one_def]
  · next h =>
    simp only [finish]
    rw [noneInv_eq_exp h, inv_end]
    split
    · next h0 =>
      have h0' : ∑ k ∈ Finset.range n, (D k * x k * y k).toReal = 0 := by simpa using h0
      rw [h0']; simp [zero_def]
    · rfl

theorem invLogpEnd_eq {v : ℝ} (hv : 0 ≤ v) : invLogpEnd (fin v) = elog (1 - Real.exp (-v)) := by
  unfold invLogpEnd
  by_cases h0 : v = 0
  · rw [if_pos (by simp [h0]), h0]; simp [elog]
  · have hlt : Real.exp (-v) < 1 := Real.exp_lt_one_iff.mpr (by
      have : 0 < v := lt_of_le_of_ne hv (Ne.symm h0)
      linarith)
    have : 0 < 1 - Real.exp (-v) := by linarith
    rw [if_neg (by simp [h0]), inv_end, log_fin_pos this, elog_pos this]

theorem dense_multiInv_logp :
    Dense.MultiInvariantModel.logp (arrX D) (denseX n x) (denseX n y)
      = elog (1 - noneInv n D x y) := by
  unfold Dense.MultiInvariantModel.logp
  rw [zipLoop_inv0]
  split
  · next h => rw [noneInv_of_top h]; simp [finish, elog_one, zero_def]
  · next h =>
    simp only [finish]
    rw [noneInv_eq_exp h]
    exact invLogpEnd_eq (Finset.sum_nonneg (fun k _ => ENNReal.toReal_nonneg))

theorem dense_multiInv_log1mp :
    Dense.MultiInvariantModel.log1mp (arrX D) (denseX n x) (denseX n y)
      = elog (noneInv n D x y) := by
  unfold Dense.MultiInvariantModel.log1mp
  rw [zipLoop_inv0]
  split
  · next h => rw [noneInv_of_top h]; simp [finish, elog_zero]
  · next h =>
    simp only [finish]
    rw [noneInv_eq_exp h, elog_pos (Real.exp_pos _), Real.log_exp, neg_fin]

end dense

/-! ## Sparse (and spark) -/

section sparse

variable {n : ℕ} {xs ys : List (ℕ × XR)}

theorem sparse_dense_fit_p (d : ℕ → XR) (hx : RowSorted xs) (hy : RowSorted ys)
    (hxn : ∀ e ∈ xs, e.1 < n) (hyn : ∀ e ∈ ys, e.1 < n) :
    Sparse.MultiFitnessModel.p_ij d xs ys =
      Dense.MultiFitnessModel.p_ij d ((List.range n).map (entry xs))
        ((List.range n).map (entry ys)) := by
  unfold Sparse.MultiFitnessModel.p_ij Dense.MultiFitnessModel.p_ij
  rw [mergeLoop_dense (fitBody_skips 1 d) hx hy hxn hyn]

theorem sparse_dense_fit_logp (d : ℕ → XR) (hx : RowSorted xs) (hy : RowSorted ys)
    (hxn : ∀ e ∈ xs, e.1 < n) (hyn : ∀ e ∈ ys, e.1 < n) :
    Sparse.MultiFitnessModel.logp d xs ys =
      Dense.MultiFitnessModel.logp d ((List.range n).map (entry xs))
        ((List.range n).map (entry ys)) := by
  unfold Sparse.MultiFitnessModel.logp Dense.MultiFitnessModel.logp
  rw [mergeLoop_dense (fitBody_skips 0 d) hx hy hxn hyn]

theorem sparse_dense_fit_log1mp (d : ℕ → XR) (hx : RowSorted xs) (hy : RowSorted ys)
    (hxn : ∀ e ∈ xs, e.1 < n) (hyn : ∀ e ∈ ys, e.1 < n) :
    Sparse.MultiFitnessModel.log1mp d xs ys =
      Dense.MultiFitnessModel.log1mp d ((List.range n).map (entry xs))
        ((List.range n).map (entry ys)) := by
  unfold Sparse.MultiFitnessModel.log1mp Dense.MultiFitnessModel.log1mp
  rw [mergeLoop_dense (fitBody_skips ninf d) hx hy hxn hyn]
  congr 1
  funext val
  split
  · next h =>
    cases val <;> simp_all [isOne]
    simp [XR.log, zero_def]
  · rfl

theorem sparse_dense_fit_jac (d : XR) (hx : RowSorted xs) (hy : RowSorted ys)
    (hxn : ∀ e ∈ xs, e.1 < n) (hyn : ∀ e ∈ ys, e.1 < n) :
    Sparse.MultiFitnessModel.p_jac_ij d xs ys =
      Dense.MultiFitnessModel.p_jac_ij d ((List.range n).map (entry xs))
        ((List.range n).map (entry ys)) := by
  unfold Sparse.MultiFitnessModel.p_jac_ij Dense.MultiFitnessModel.p_jac_ij
  rw [mergeLoop_dense (fitJacBody_skips d) hx hy hxn hyn]

theorem sparse_dense_inv_p (d : ℕ → XR) (hx : RowSorted xs) (hy : RowSorted ys)
    (hxn : ∀ e ∈ xs, e.1 < n) (hyn : ∀ e ∈ ys, e.1 < n) :
    Sparse.MultiInvariantModel.p_ij d xs ys =
      Dense.MultiInvariantModel.p_ij d ((List.range n).map (entry xs))
        ((List.range n).map (entry ys)) := by
  unfold Sparse.MultiInvariantModel.p_ij Dense.MultiInvariantModel.p_ij
  rw [mergeLoop_dense (invBody_skips 1 d) hx hy hxn hyn]
  congr 1
  funext val
  split
  · next h =>
    cases val <;> simp_all [isZero]
    simp [zero_def]
  · rfl

theorem sparse_dense_inv_logp (d : ℕ → XR) (hx : RowSorted xs) (hy : RowSorted ys)
    (hxn : ∀ e ∈ xs, e.1 < n) (hyn : ∀ e ∈ ys, e.1 < n) :
    Sparse.MultiInvariantModel.logp d xs ys =
      Dense.MultiInvariantModel.logp d ((List.range n).map (entry xs))
        ((List.range n).map (entry ys)) := by
  unfold Sparse.MultiInvariantModel.logp Dense.MultiInvariantModel.logp
  rw [mergeLoop_dense (invBody_skips 0 d) hx hy hxn hyn]

theorem sparse_dense_inv_log1mp (d : ℕ → XR) (hx : RowSorted xs) (hy : RowSorted ys)
    (hxn : ∀ e ∈ xs, e.1 < n) (hyn : ∀ e ∈ ys, e.1 < n) :
    Sparse.MultiInvariantModel.log1mp d xs ys =
      Dense.MultiInvariantModel.log1mp d ((List.range n).map (entry xs))
        ((List.range n).map (entry ys)) := by
  unfold Sparse.MultiInvariantModel.log1mp Dense.MultiInvariantModel.log1mp
  rw [mergeLoop_dense (invBody_skips ninf d) hx hy hxn hyn]

theorem sparse_dense_inv_jac (d : XR) (hx : RowSorted xs) (hy : RowSorted ys)
    (hxn : ∀ e ∈ xs, e.1 < n) (hyn : ∀ e ∈ ys, e.1 < n) :
    Sparse.MultiInvariantModel.p_jac_ij d xs ys =
      Dense.MultiInvariantModel.p_jac_ij d ((List.range n).map (entry xs))
        ((List.range n).map (entry ys)) := by
  unfold Sparse.MultiInvariantModel.p_jac_ij Dense.MultiInvariantModel.p_jac_ij
  rw [mergeLoop_dense invJacBody_skips hx hy hxn hyn]

/-- The dense row of a sparse row with values in `[0, ∞]`. -/
theorem denseX_rowX (n : ℕ) (r : List (ℕ × ℝ≥0∞)) :
    (List.range n).map (entry (rowX r)) = denseX n (entry r) := by
  simp only [denseX, funext (entry_rowX r)]

theorem lt_rowX {r : List (ℕ × ℝ≥0∞)} {n : ℕ} (h : ∀ e ∈ r, e.1 < n) :
    ∀ e ∈ rowX r, e.1 < n := fun e he => by simpa using (mem_rowX h e he).2

end sparse

/-! ## Value/derivative pairs -/

section jac

theorem fitJacBody_fin {d x y v j : ℝ} (hd : 0 ≤ d) (hx : 0 ≤ x) (hy : 0 ≤ y) (k : ℕ) :
    fitJacBody (fin d) (fin v, fin j) k (fin x) (fin y) =
      .ok (fin (v * (1 / (1 + d * (x * y)))), fin (j + x * y / (1 + d * (x * y)))) := by
  unfold fitJacBody
  have hne : 1 + d * (x * y) ≠ 0 := by positivity
  by_cases h : x = 0 ∨ y = 0
  · rw [if_neg (by simp; tauto)]
    rcases h with h | h <;> simp [h]
  · rw [if_pos (by simp; tauto)]
    by_cases h0 : d = 0
    · simp [h0]
    · rw [if_neg (by simp [h0])]
      simp only [fin_mul_fin, one_def, fin_add_fin, isInf_fin]
      rw [fin_div_fin _ _ hne, fin_div_fin _ _ hne]
      simp [div_eq_mul_inv]

theorem zipLoop_fitJac {d : ℝ} (hd : 0 ≤ d) (x y : ℕ → ℝ) (hx : ∀ k, 0 ≤ x k) (hy : ∀ k, 0 ≤ y k)
    (n k : ℕ) (v j : ℝ) :
    zipLoop (fitJacBody (fin d)) k ((List.range' k n).map (fun i => fin (x i)))
        ((List.range' k n).map (fun i => fin (y i))) (fin v, fin j) =
      .ok (fin (v * ∏ i ∈ Finset.Ico k (k + n), (1 / (1 + d * (x i * y i)))),
           fin (j + ∑ i ∈ Finset.Ico k (k + n), x i * y i / (1 + d * (x i * y i)))) := by
  induction n generalizing k v j with
  | zero => simp [zipLoop]
  | succ n ih =>
    simp only [List.range'_succ, List.map_cons, zipLoop]
    rw [fitJacBody_fin hd (hx k) (hy k)]
    have hins : Finset.Ico k (k + (n + 1)) = insert k (Finset.Ico (k + 1) (k + 1 + n)) := by
      ext i; simp; omega
    simp only
    rw [ih (k + 1), hins, Finset.prod_insert (by simp), Finset.sum_insert (by simp),
      mul_assoc v, add_assoc j]

theorem zipLoop_invJac (x y : ℕ → ℝ) (n k : ℕ) (v : ℝ) :
    zipLoop invJacBody k ((List.range' k n).map (fun i => fin (x i)))
        ((List.range' k n).map (fun i => fin (y i))) (fin v) =
      .ok (fin (v + ∑ i ∈ Finset.Ico k (k + n), x i * y i)) := by
  induction n generalizing k v with
  | zero => simp [zipLoop]
  | succ n ih =>
    simp only [List.range'_succ, List.map_cons, zipLoop]
    have : invJacBody (fin v) k (fin (x k)) (fin (y k)) = .ok (fin (v + x k * y k)) := by
      unfold invJacBody
      by_cases h : x k = 0 ∨ y k = 0
      · rw [if_neg (by simp; tauto)]
        rcases h with h | h <;> simp [h]
      · rw [if_pos (by simp; tauto)]; simp
    rw [this]
    have hins : Finset.Ico k (k + (n + 1)) = insert k (Finset.Ico (k + 1) (k + 1 + n)) := by
      ext i; simp; omega
    simp only
    rw [ih (k + 1), hins, Finset.sum_insert (by simp), add_assoc v]

/-- First component of the fitness pair on `[0, ∞]`. -/
theorem fitJacBody_fst (d x y : ℝ≥0∞) (v : ℝ) (J : XR) (k : ℕ) :
    (d * (x * y) = ⊤ ∧ fitJacBody (ofENN d) (fin v, J) k (ofENN x) (ofENN y) = .error (1, 0)) ∨
    (d * (x * y) ≠ ⊤ ∧ ∃ J', fitJacBody (ofENN d) (fin v, J) k (ofENN x) (ofENN y) =
      .ok (fin (v * (1 - fitProb (d * (x * y)))), J')) := by
  unfold fitJacBody
  by_cases h : x = 0 ∨ y = 0
  · right
    have h0 : d * (x * y) = 0 := by rcases h with h | h <;> simp [h]
    rw [if_neg (by simp; tauto), h0]
    exact ⟨by simp, J, by simp [fitProb_zero]⟩
  · rw [if_pos (by simp; tauto)]
    push Not at h
    by_cases hd : d = 0
    · right
      rw [if_pos (by simp [hd]), hd]
      exact ⟨by simp, _, by simp [fitProb_zero]; rfl⟩
    · rw [if_neg (by simp [hd])]
      simp only [ofENN_mul h.1 h.2, ofENN_mul hd (mul_ne_zero h.1 h.2)]
      by_cases ht : d * (x * y) = ⊤
      · left; simp [ht]
      · right
        refine ⟨ht, J + ofENN (x * y) / (1 + ofENN (d * (x * y))), ?_⟩
        rw [if_neg (by simp [ht]), one_sub_fitProb ht, ofENN_of_ne_top ht, one_def, fin_add_fin,
          fin_div_fin _ _ (one_add_toReal_pos _).ne', mul_one_div]

theorem zipLoop_fitJac_fst (d : ℝ≥0∞) (x y : ℕ → ℝ≥0∞) (n k : ℕ) (v : ℝ) (J : XR) :
    ((∃ i ∈ Finset.Ico k (k + n), d * (x i * y i) = ⊤) ∧
      zipLoop (fitJacBody (ofENN d)) k ((List.range' k n).map (fun i => ofENN (x i)))
        ((List.range' k n).map (fun i => ofENN (y i))) (fin v, J) = .error (1, 0)) ∨
    ((¬ ∃ i ∈ Finset.Ico k (k + n), d * (x i * y i) = ⊤) ∧ ∃ J',
      zipLoop (fitJacBody (ofENN d)) k ((List.range' k n).map (fun i => ofENN (x i)))
        ((List.range' k n).map (fun i => ofENN (y i))) (fin v, J) =
      .ok (fin (v * ∏ i ∈ Finset.Ico k (k + n), (1 - fitProb (d * (x i * y i)))), J')) := by
  induction n generalizing k v J with
  | zero => right; exact ⟨by simp, J, by simp [zipLoop]⟩
  | succ n ih =>
    have hins : Finset.Ico k (k + (n + 1)) = insert k (Finset.Ico (k + 1) (k + 1 + n)) := by
      ext i; simp; omega
    simp only [List.range'_succ, List.map_cons, zipLoop, hins, Finset.exists_mem_insert]
    rcases fitJacBody_fst d (x k) (y k) v J k with ⟨h1, h2⟩ | ⟨h1, J', h2⟩
    · left; exact ⟨Or.inl h1, by rw [h2]⟩
    · rw [h2]
      simp only
      rcases ih (k + 1) (v * (1 - fitProb (d * (x k * y k)))) J' with ⟨h3, h4⟩ | ⟨h3, J'', h4⟩
      · left; exact ⟨Or.inr h3, h4⟩
      · right
        refine ⟨by simp only [h1, false_or]; exact h3, J'', ?_⟩
        rw [h4, Finset.prod_insert (by simp), mul_assoc v]

/-- The invariant pair on `[0, ∞]`. -/
theorem zipLoop_invJac_enn (x y : ℕ → ℝ≥0∞) (n k : ℕ) (v : ℝ) :
    zipLoop invJacBody k ((List.range' k n).map (fun i => ofENN (x i)))
        ((List.range' k n).map (fun i => ofENN (y i))) (fin v) =
      if ∃ i ∈ Finset.Ico k (k + n), x i * y i = ⊤ then .error (1, 0)
      else .ok (fin (v + ∑ i ∈ Finset.Ico k (k + n), (x i * y i).toReal)) := by
  induction n generalizing k v with
  | zero => simp [zipLoop]
  | succ n ih =>
    simp only [List.range'_succ, List.map_cons, zipLoop]
    have : invJacBody (fin v) k (ofENN (x k)) (ofENN (y k)) =
        if x k * y k = ⊤ then .error (1, 0) else .ok (fin (v + (x k * y k).toReal)) := by
      unfold invJacBody
      by_cases h : x k = 0 ∨ y k = 0
      · rw [if_neg (by simp; tauto)]
        rcases h with h | h <;> simp [h]
      · rw [if_pos (by simp; tauto)]
        push Not at h
        simp only [ofENN_mul h.1 h.2]
        by_cases ht : x k * y k = ⊤
        · simp [ht]
        · rw [if_neg (by simp [ht]), if_neg ht, ofENN_of_ne_top ht, fin_add_fin]
    rw [this]
    have hins : Finset.Ico k (k + (n + 1)) = insert k (Finset.Ico (k + 1) (k + 1 + n)) := by
      ext i; simp; omega
    by_cases h : x k * y k = ⊤
    · rw [if_pos h, if_pos ⟨k, by simp, h⟩]
    · rw [if_neg h]
      simp only
      rw [ih (k + 1), hins, Finset.sum_insert (by simp), add_assoc v]
      simp only [Finset.exists_mem_insert, h, false_or]

end jac

end Verif
