import Verif.Solver.Newton
import Verif.Solver.Density
import Verif.Prob.JacProps
import Verif.Ensemble.Lemmas

/-!
# The objectives of the library models
-/

namespace Verif

open XR Spec
open scoped ENNReal NNReal

noncomputable section

namespace Fit

theorem ofENN_coe (x : ℝ≥0) : ofENN (x : ℝ≥0∞) = fin x := by
  rw [ofENN_of_ne_top ENNReal.coe_ne_top, ENNReal.coe_toReal]

theorem multi_fit_jac_fin (n : ℕ) {d : ℝ} {x y : ℕ → ℝ} (hd : 0 ≤ d) (hx : ∀ k, 0 ≤ x k)
    (hy : ∀ k, 0 ≤ y k) :
    Dense.MultiFitnessModel.p_jac_ij (fin d) (denseR n x) (denseR n y) =
      (fin (1 - ∏ k ∈ Finset.range n, (1 / (1 + d * (x k * y k)))),
       fin ((∏ k ∈ Finset.range n, (1 / (1 + d * (x k * y k)))) *
         ∑ k ∈ Finset.range n, x k * y k / (1 + d * (x k * y k)))) := by
  unfold Dense.MultiFitnessModel.p_jac_ij denseR
  rw [List.range_eq_range', one_def, zero_def, zipLoop_fitJac hd x y hx hy n 0 1 0]
  simp [finish]

theorem multi_inv_jac_fin (n : ℕ) {d : ℝ} {x y : ℕ → ℝ} :
    Dense.MultiInvariantModel.p_jac_ij (fin d) (denseR n x) (denseR n y) =
      (fin (1 - Real.exp (-(d * ∑ k ∈ Finset.range n, x k * y k))),
       fin ((∑ k ∈ Finset.range n, x k * y k) *
         Real.exp (-(d * ∑ k ∈ Finset.range n, x k * y k)))) := by
  unfold Dense.MultiInvariantModel.p_jac_ij denseR
  rw [if_neg (by simp), List.range_eq_range', zero_def, zipLoop_invJac x y n 0 0]
  simp only [finish, invJacEnd, fin_mul_fin, ← Finset.range_eq_Ico, zero_add]
  by_cases h : d * ∑ k ∈ Finset.range n, x k * y k = 0
  · rw [if_pos (by simpa using h), h]; simp [zero_def]
  · rw [if_neg (by simpa using h)]; simp

theorem entry_rowN (r : List (ℕ × ℝ≥0)) (k : ℕ) :
    entry (rowN r) k = fin ((entry r k : ℝ≥0) : ℝ) := by
  unfold rowN
  induction r with
  | nil => rfl
  | cons e r ih =>
    obtain ⟨a, v⟩ := e
    rw [List.map_cons, entry_cons, entry_cons, ih]; split <;> rfl

theorem rowX_rowENN (r : List (ℕ × ℝ≥0)) : rowX (rowENN r) = rowN r := by
  simp [rowX, rowENN, rowN, ofENN_coe, Function.comp_def]

theorem exists_bound {A : Type} (r : List (ℕ × A)) : ∃ n, ∀ e ∈ r, e.1 < n := by
  induction r with
  | nil => exact ⟨0, by simp⟩
  | cons e r ih =>
    obtain ⟨m, hm⟩ := ih
    exact ⟨max m (e.1 + 1), fun f hf => by
      rcases List.mem_cons.1 hf with rfl | hf
      · exact lt_of_lt_of_le (Nat.lt_succ_self _) (le_max_right _ _)
      · exact lt_of_lt_of_le (hm f hf) (le_max_left _ _)⟩

theorem entry_eq_zero {r : List (ℕ × ℝ≥0)} {n k : ℕ} (h : ∀ e ∈ r, e.1 < n) (hk : n ≤ k) :
    entry r k = 0 := by
  induction r with
  | nil => rfl
  | cons e r ih =>
    obtain ⟨a, v⟩ := e
    have : a < n := h (a, v) (by simp)
    rw [entry_cons, if_neg (by omega)]
    exact ih (fun e he => h e (by simp [he]))

/-- What the proofs need to know about one pair of vertices: value and derivative handed to the
solver, connection probability of the fitted ensemble. -/
structure PairLink (pj : XR → XR × XR) (p : ℝ≥0∞ → XR) (act : Prop) (P P' : ℝ → ℝ) : Prop where
  link : Link P P' act
  jac : ∀ d, 0 ≤ d → pj (fin d) = (fin (P d), fin (P' d))
  prob : ∀ d : ℝ≥0, p d = fin (P d)

theorem sparse_fit_pair (x y z : ℝ≥0) :
    PairLink (fun d => Sparse.FitnessModel.p_jac_ij d (fin x) (fin y) (fin z))
      (fun d => Sparse.FitnessModel.p_ij (ofENN d) (fin x) (fin y) (fin z))
      (x ≠ 0 ∧ y ≠ 0 ∧ z ≠ 0)
      (fun t => t * ((x : ℝ) * y * z) / (1 + t * ((x : ℝ) * y * z)))
      (fun d => ((x : ℝ) * y * z) / ((1 + d * ((x : ℝ) * y * z)) * (1 + d * ((x : ℝ) * y * z)))) where
  link := by
    have := link_fit (c := (x : ℝ) * y * z) (by positivity)
    have e : ((x : ℝ) * y * z ≠ 0) = (x ≠ 0 ∧ y ≠ 0 ∧ z ≠ 0) := by
      simp [not_or, and_assoc]
    rwa [e] at this
  jac := fun d hd => sparse_fit_jac_fin hd x.2 y.2 z.2
  prob := fun d => by rw [ofENN_coe]; exact sparse_fit_p_fin d.2 x.2 y.2 z.2

theorem sparse_inv_pair (x y z : ℝ≥0) :
    PairLink (fun d => Sparse.ScaleInvariantModel.p_jac_ij d (fin x) (fin y) (fin z))
      (fun d => Sparse.ScaleInvariantModel.p_ij (ofENN d) (fin x) (fin y) (fin z))
      (x ≠ 0 ∧ y ≠ 0 ∧ z ≠ 0)
      (fun t => 1 - Real.exp (-(t * ((x : ℝ) * y * z))))
      (fun d => ((x : ℝ) * y * z) * Real.exp (-(d * ((x : ℝ) * y * z)))) where
  link := by
    have := link_inv (c := (x : ℝ) * y * z) (by positivity)
    have e : ((x : ℝ) * y * z ≠ 0) = (x ≠ 0 ∧ y ≠ 0 ∧ z ≠ 0) := by
      simp [not_or, and_assoc]
    rwa [e] at this
  jac := fun d _ => sparse_inv_jac_fin
  prob := fun d => by rw [ofENN_coe]; exact sparse_inv_p_fin d.2 x.2 y.2 z.2

theorem PairLink.congr {pj pj' : XR → XR × XR} {p p' : ℝ≥0∞ → XR} {act act' : Prop}
    {P P' : ℝ → ℝ} (h : PairLink pj p act P P') (h1 : pj' = pj) (h2 : p' = p)
    (h3 : act ↔ act') : PairLink pj' p' act' P P' := by
  subst h1 h2
  rwa [← propext h3]

theorem dense_fit_pair (x y : ℝ≥0) (w : XR) : ∃ P P',
    PairLink (fun d => Dense.FitnessModel.p_jac_ij d (fin x) (fin y))
      (fun d => Dense.FitnessModel.p_ij (ofENN d) (fin x) (fin y) w) (x ≠ 0 ∧ y ≠ 0) P P' := by
  have h := sparse_fit_pair x y 1
  refine ⟨_, _, h.congr ?_ ?_ (by simp)⟩
  · funext d; rw [← (C07_single _ _ _ w).2.2.2.1]; rfl
  · funext d; rw [← (C07_single _ _ _ w).1]; rfl

theorem dense_inv_pair (x y : ℝ≥0) (w : XR) : ∃ P P',
    PairLink (fun d => Dense.ScaleInvariantModel.p_jac_ij d (fin x) (fin y))
      (fun d => Dense.ScaleInvariantModel.p_ij (ofENN d) (fin x) (fin y) w) (x ≠ 0 ∧ y ≠ 0)
      P P' := by
  have h := sparse_inv_pair x y 1
  refine ⟨_, _, h.congr ?_ ?_ (by simp)⟩
  · funext d; rw [← (C07_single _ _ _ w).2.2.2.2.2.2.2]; rfl
  · funext d; rw [← (C07_single _ _ _ w).2.2.2.2.1]; rfl

theorem multi_fit_pair (L : ℕ) (x y : ℕ → ℝ≥0) :
    PairLink (fun d => Dense.MultiFitnessModel.p_jac_ij d (denseN L x) (denseN L y))
      (fun d => Dense.MultiFitnessModel.p_ij (fun _ => ofENN d) (denseN L x) (denseN L y))
      (∃ k < L, x k ≠ 0 ∧ y k ≠ 0)
      (fun t => 1 - ∏ k ∈ Finset.range L, (1 / (1 + t * ((x k : ℝ) * y k))))
      (fun d => (∏ k ∈ Finset.range L, (1 / (1 + d * ((x k : ℝ) * y k)))) *
        ∑ k ∈ Finset.range L, (x k : ℝ) * y k / (1 + d * ((x k : ℝ) * y k))) where
  link := by
    have := link_noneFit (Finset.range L) (c := fun k => (x k : ℝ) * y k)
      (fun k => by positivity)
    have e : (∃ k ∈ Finset.range L, (x k : ℝ) * y k ≠ 0) = (∃ k < L, x k ≠ 0 ∧ y k ≠ 0) := by
      simp [not_or]
    rwa [e] at this
  jac := fun d hd => multi_fit_jac_fin L hd (fun k => (x k).2) (fun k => (y k).2)
  prob := fun d => by
    rw [ofENN_coe]; exact multi_fit_p_fin L d.2 (fun k => (x k).2) (fun k => (y k).2)

theorem multi_inv_pair (L : ℕ) (x y : ℕ → ℝ≥0) :
    PairLink (fun d => Dense.MultiInvariantModel.p_jac_ij d (denseN L x) (denseN L y))
      (fun d => Dense.MultiInvariantModel.p_ij (fun _ => ofENN d) (denseN L x) (denseN L y))
      (∃ k < L, x k ≠ 0 ∧ y k ≠ 0)
      (fun t => 1 - Real.exp (-(t * ∑ k ∈ Finset.range L, (x k : ℝ) * y k)))
      (fun d => (∑ k ∈ Finset.range L, (x k : ℝ) * y k) *
        Real.exp (-(d * ∑ k ∈ Finset.range L, (x k : ℝ) * y k))) where
  link := by
    have := link_inv (c := ∑ k ∈ Finset.range L, (x k : ℝ) * y k)
      (Finset.sum_nonneg (fun k _ => by positivity))
    have e : ((∑ k ∈ Finset.range L, (x k : ℝ) * y k) ≠ 0) = (∃ k < L, x k ≠ 0 ∧ y k ≠ 0) := by
      rw [ne_eq, Finset.sum_eq_zero_iff_of_nonneg (fun k _ => by positivity)]
      simp [not_or]
    rwa [e] at this
  jac := fun d _ => multi_inv_jac_fin L
  prob := fun d => by
    rw [ofENN_coe]; exact multi_inv_p_fin L d.2 (fun k => (x k).2) (fun k => (y k).2)

theorem sparse_row (xs ys : List (ℕ × ℝ≥0)) : ∃ N,
    (∀ e ∈ rowN xs, e.1 < N) ∧ (∀ e ∈ rowN ys, e.1 < N) ∧
    (List.range N).map (entry (rowN xs)) = denseN N (entry xs) ∧
    (List.range N).map (entry (rowN ys)) = denseN N (entry ys) ∧
    ((∃ k < N, entry xs k ≠ 0 ∧ entry ys k ≠ 0) ↔ ∃ k, entry xs k ≠ 0 ∧ entry ys k ≠ 0) := by
  obtain ⟨n1, h1⟩ := exists_bound xs
  obtain ⟨n2, h2⟩ := exists_bound ys
  refine ⟨max n1 n2, ?_, ?_, ?_, ?_, ?_⟩
  · intro e he
    obtain ⟨e', he', rfl⟩ := List.mem_map.mp he
    exact lt_of_lt_of_le (h1 e' he') (le_max_left _ _)
  · intro e he
    obtain ⟨e', he', rfl⟩ := List.mem_map.mp he
    exact lt_of_lt_of_le (h2 e' he') (le_max_right _ _)
  · exact List.map_congr_left (fun k _ => entry_rowN xs k)
  · exact List.map_congr_left (fun k _ => entry_rowN ys k)
  · constructor
    · rintro ⟨k, -, hk⟩; exact ⟨k, hk⟩
    · rintro ⟨k, hk⟩
      refine ⟨k, ?_, hk⟩
      by_contra hcon
      exact hk.1 (entry_eq_zero h1 (le_trans (le_max_left _ _) (not_lt.mp hcon)))

theorem sorted_rowN {r : List (ℕ × ℝ≥0)} (h : RowSorted r) : RowSorted (rowN r) := by
  unfold RowSorted rowN at *; rw [List.pairwise_map]; exact h

/-- Every pair of vertices of every fitted model. -/
theorem fitter_pair {F : Fitter} (hF : IsFitter F) (i j : ℕ) : ∃ P P',
    PairLink (fun d => F.pj d i j) (fun d => (F.ens d).p i j) (F.linkable i j) P P' := by
  have ea : ∀ (x : ℕ → ℝ≥0) i, Ens.arr (toENN x) i = fin (x i) := fun x i => ofENN_coe (x i)
  have ed : ∀ (L : ℕ) (x : ℕ → ℝ≥0), denseX L (toENN x) = denseN L x := fun L x => by
    unfold denseX denseN toENN; simp [ofENN_coe]
  cases hF with
  | sparseFit x y z =>
    exact ⟨_, _, (sparse_fit_pair (x i) (y j) (z i j)).congr rfl
      (by funext d; simp only [sparseFit, Ens.p, Ens.sparseFit, ea]) Iff.rfl⟩
  | sparseInv x y z =>
    exact ⟨_, _, (sparse_inv_pair (x i) (y j) (z i j)).congr rfl
      (by funext d; simp only [sparseInv, Ens.p, Ens.sparseInv, ea]) Iff.rfl⟩
  | denseFit x y w =>
    obtain ⟨P, P', h⟩ := dense_fit_pair (x i) (y j) (w i j)
    exact ⟨P, P', h.congr rfl
      (by funext d; simp only [denseFit, Ens.p, Ens.denseFit, ea]) Iff.rfl⟩
  | denseInv x y w =>
    obtain ⟨P, P', h⟩ := dense_inv_pair (x i) (y j) (w i j)
    exact ⟨P, P', h.congr rfl
      (by funext d; simp only [denseInv, Ens.p, Ens.denseInv, ea]) Iff.rfl⟩
  | sparkInv x y w =>
    obtain ⟨P, P', h⟩ := dense_inv_pair (x i) (y j) (w i j)
    exact ⟨P, P', h.congr rfl
      (by funext d; simp only [sparkInv, Ens.p, Ens.sparkInv, ea]) Iff.rfl⟩
  | sparseMultiFit x y hx hy =>
    obtain ⟨N, b1, b2, d1, d2, hk⟩ := sparse_row (x i) (y j)
    refine ⟨_, _, (multi_fit_pair N (entry (x i)) (entry (y j))).congr ?_ ?_ hk⟩
    · funext d
      show Sparse.MultiFitnessModel.p_jac_ij d (rowN (x i)) (rowN (y j)) = _
      rw [sparse_dense_fit_jac _ (sorted_rowN (hx i)) (sorted_rowN (hy j)) b1 b2, d1, d2]
    · funext d
      show Sparse.MultiFitnessModel.p_ij (Ens.arr fun _ => d) (rowX (rowENN (x i)))
        (rowX (rowENN (y j))) = _
      rw [rowX_rowENN, rowX_rowENN,
        sparse_dense_fit_p _ (sorted_rowN (hx i)) (sorted_rowN (hy j)) b1 b2, d1, d2]
      rfl
  | sparseMultiInv x y hx hy =>
    obtain ⟨N, b1, b2, d1, d2, hk⟩ := sparse_row (x i) (y j)
    refine ⟨_, _, (multi_inv_pair N (entry (x i)) (entry (y j))).congr ?_ ?_ hk⟩
    · funext d
      show Sparse.MultiInvariantModel.p_jac_ij d (rowN (x i)) (rowN (y j)) = _
      rw [sparse_dense_inv_jac _ (sorted_rowN (hx i)) (sorted_rowN (hy j)) b1 b2, d1, d2]
    · funext d
      show Sparse.MultiInvariantModel.p_ij (Ens.arr fun _ => d) (rowX (rowENN (x i)))
        (rowX (rowENN (y j))) = _
      rw [rowX_rowENN, rowX_rowENN,
        sparse_dense_inv_p _ (sorted_rowN (hx i)) (sorted_rowN (hy j)) b1 b2, d1, d2]
      rfl
  | denseMultiFit L x y =>
    refine ⟨_, _, (multi_fit_pair L (x i) (y j)).congr rfl ?_ Iff.rfl⟩
    funext d
    show Dense.MultiFitnessModel.p_ij (Ens.arr fun _ => d) (denseX L (toENN (x i)))
      (denseX L (toENN (y j))) = _
    rw [ed, ed]
    rfl
  | denseMultiInv L x y =>
    refine ⟨_, _, (multi_inv_pair L (x i) (y j)).congr rfl ?_ Iff.rfl⟩
    funext d
    show Dense.MultiInvariantModel.p_ij (Ens.arr fun _ => d) (denseX L (toENN (x i)))
      (denseX L (toENN (y j))) = _
    rw [ed, ed]
    rfl

/-- Value and derivative functions of the pairs of a fitted model. -/
def Fitter.val (F : Fitter) (hF : IsFitter F) (e : ℕ × ℕ) : ℝ → ℝ :=
  (fitter_pair hF e.1 e.2).choose
def Fitter.der (F : Fitter) (hF : IsFitter F) (e : ℕ × ℕ) : ℝ → ℝ :=
  (fitter_pair hF e.1 e.2).choose_spec.choose

theorem Fitter.pairLink {F : Fitter} (hF : IsFitter F) (e : ℕ × ℕ) :
    PairLink (fun d => F.pj d e.1 e.2) (fun d => (F.ens d).p e.1 e.2) (F.linkable e.1 e.2)
      (F.val hF e) (F.der hF e) :=
  (fitter_pair hF e.1 e.2).choose_spec.choose_spec

theorem exp_edges_f_jac_eq {pj : XR → ℕ → ℕ → XR × XR} {n : ℕ} {s : Bool} {d : ℝ}
    {P P' : ℕ × ℕ → ℝ → ℝ} (h : ∀ i j, pj (fin d) i j = (fin (P (i, j) d), fin (P' (i, j) d))) :
    exp_edges_f_jac pj n s (fin d) =
      (fin (total (Law.pairs n s) P d), fin (total (Law.pairs n s) P' d)) := by
  unfold exp_edges_f_jac total
  rw [sum_pairs, sum_pairs]
  have key := foldl_rep (A := ℝ × ℝ) (fun a => (fin a.1, fin a.2))
    (fun s' i => (List.range n).foldl (fun s' j =>
      if admissible i j s then (s'.1 + (pj (fin d) i j).1, s'.2 + (pj (fin d) i j).2)
      else s') s')
    (fun i => (∑ j ∈ Finset.range n, if admissible i j s then P (i, j) d else 0,
      ∑ j ∈ Finset.range n, if admissible i j s then P' (i, j) d else 0)) n
    (fun i _ a => by
      have := foldl_rep (A := ℝ × ℝ) (fun a => (fin a.1, fin a.2))
        (fun s' j => if admissible i j s then
          (s'.1 + (pj (fin d) i j).1, s'.2 + (pj (fin d) i j).2) else s')
        (fun j => (if admissible i j s then P (i, j) d else 0,
          if admissible i j s then P' (i, j) d else 0)) n
        (fun j _ a => by
          by_cases hadm : admissible i j s = true
          · simp [hadm, h]
          · simp [hadm]) a
      rw [this]
      simp [Prod.fst_sum, Prod.snd_sum]) (0, 0)
  have e0 : ((0, 0) : XR × XR) = (fun a : ℝ × ℝ => (fin a.1, fin a.2)) (0, 0) := rfl
  rw [e0, key]
  simp [Prod.fst_sum, Prod.snd_sum]

theorem obj_total {S : Finset (ℕ × ℕ)} {P P' : ℕ × ℕ → ℝ → ℝ} {act : ℕ × ℕ → Prop}
    (h : ∀ e ∈ S, Link (P e) (P' e) (act e)) : Solver.Obj (total S P) (total S P') where
  zero := total_zero h
  concave := fun _ _ hx hy => total_concave h hx hy
  mono := fun _ _ hx hxy => total_mono h hx hxy
  nonneg := fun _ hd => total_deriv_nonneg h hd
  anti := fun _ _ hx hxy => total_deriv_anti h hx hxy
  pos := fun d hd hp => by
    have hact : ∃ e ∈ S, act e := by
      by_contra hcon
      push Not at hcon
      have : total S P d = 0 := Finset.sum_eq_zero (fun e he => (h e he).dead (hcon e he) d hd)
      linarith
    have h1 := total_strict h hact hd (lt_add_one d)
    have h2 := total_concave h hd (show 0 ≤ d + 1 by linarith)
    rw [add_sub_cancel_left] at h2
    linarith

/-- Objective of a fitted model. -/
def Fitter.obj (F : Fitter) (hF : IsFitter F) (n : ℕ) (s : Bool) : ℝ → ℝ :=
  total (Law.pairs n s) (F.val hF)
def Fitter.objDer (F : Fitter) (hF : IsFitter F) (n : ℕ) (s : Bool) : ℝ → ℝ :=
  total (Law.pairs n s) (F.der hF)

theorem Fitter.rep {F : Fitter} (hF : IsFitter F) (n : ℕ) (s : Bool) :
    Solver.Rep (F.func n s) (F.obj hF n s) (F.objDer hF n s) := fun d hd =>
  exp_edges_f_jac_eq (fun i j => (F.pairLink hF (i, j)).jac d hd)

theorem Fitter.isObj {F : Fitter} (hF : IsFitter F) (n : ℕ) (s : Bool) :
    Solver.Obj (F.obj hF n s) (F.objDer hF n s) :=
  obj_total (fun e _ => (F.pairLink hF e).link)

/-- The objective is the expected number of edges of the ensemble with that parameter. -/
theorem Fitter.exp_edges {F : Fitter} (hF : IsFitter F) (n : ℕ) (s : Bool) (d : ℝ≥0) :
    (F.ens d).exp_edges n s = fin (F.obj hF n s d) := by
  unfold Ens.exp_edges Fitter.obj total
  rw [DiGraphEnsemble.exp_edges_eq (q := fun i j => F.val hF (i, j) d)
    (fun i _ j _ _ => (F.pairLink hF (i, j)).prob d), sum_pairs]

/-! ### One layer -/

theorem foldl_list_rep {σ A β : Type} [AddCommMonoid A] (R : A → σ) (f : σ → β → σ) (g : β → A) :
    ∀ (l : List β), (∀ b ∈ l, ∀ a, f (R a) b = R (a + g b)) → ∀ a,
      l.foldl f (R a) = R (a + (l.map g).sum)
  | [], _, a => by simp
  | b :: l, h, a => by
    rw [List.foldl_cons, h b (by simp), foldl_list_rep R f g l (fun c hc => h c (by simp [hc]))]
    simp [add_assoc]

theorem entry_cons {α : Type} [Zero α] (k : ℕ) (v : α) (r : List (ℕ × α)) (i : ℕ) :
    entry ((k, v) :: r) i = if i = k then v else entry r i := by
  unfold entry
  rw [List.lookup_cons]
  by_cases h : i = k
  · simp [h]
  · rw [beq_false_of_ne h, if_neg h]

/-- A sum over the stored entries of a sparse row is the sum over all positions. -/
theorem sum_row {A α : Type} [AddCommMonoid A] [Zero α] (g : ℕ → α → A) (hg : ∀ i, g i 0 = 0)
    (n : ℕ) : ∀ (r : List (ℕ × α)), RowSorted r → (∀ e ∈ r, e.1 < n) →
      (r.map (fun e => g e.1 e.2)).sum = ∑ i ∈ Finset.range n, g i (entry r i)
  | [], _, _ => by
    simp only [List.map_nil, List.sum_nil]
    exact (Finset.sum_eq_zero (fun i _ => hg i)).symm
  | (k, v) :: r, hs, hn => by
    unfold RowSorted at hs
    rw [List.pairwise_cons] at hs
    rw [List.map_cons, List.sum_cons, sum_row g hg n r hs.2 (fun e he => hn e (by simp [he]))]
    have hk : k ∈ Finset.range n := Finset.mem_range.mpr (hn (k, v) (by simp))
    have h0 : entry r k = 0 := by
      unfold entry
      rw [List.lookup_eq_none_iff.mpr]
      · rfl
      · intro e he
        have := hs.1 e he
        exact bne_iff_ne.mpr (Nat.ne_of_lt this)
    rw [← Finset.add_sum_erase _ _ hk, ← Finset.add_sum_erase (a := k) _ (fun i => g i (entry ((k, v) :: r) i)) hk]
    rw [h0, hg, zero_add, entry_cons, if_pos rfl]
    congr 1
    refine Finset.sum_congr rfl (fun i hi => ?_)
    rw [entry_cons, if_neg (Finset.ne_of_mem_erase hi)]

/-- The objective of one layer, given by its stored entries, is the objective over all pairs of
vertices. -/
theorem layer_eq {pj : XR → XR → XR → XR × XR} {n : ℕ} {s : Bool} {d : ℝ}
    (hpj : ∀ x y : ℝ≥0, ∃ a b : ℝ, pj (fin d) (fin x) (fin y) = (fin a, fin b))
    (hx : ∀ y : ℝ≥0, pj (fin d) (fin (0 : ℝ≥0)) (fin y) = (0, 0))
    (hy : ∀ x : ℝ≥0, pj (fin d) (fin x) (fin (0 : ℝ≥0)) = (0, 0))
    {a b : List (ℕ × ℝ≥0)} (ha : RowSorted a) (hb : RowSorted b)
    (han : ∀ e ∈ a, e.1 < n) (hbn : ∀ e ∈ b, e.1 < n) :
    exp_edges_f_jac_layer pj (rowN a) (rowN b) s (fin d) =
      exp_edges_f_jac (fun d i j => pj d (arrN (entry a) i) (arrN (entry b) j)) n s (fin d) := by
  choose P P' hP using hpj
  have hx0 : ∀ y, P 0 y = 0 ∧ P' 0 y = 0 := fun y => by
    have := hx y
    rw [hP] at this
    simpa [zero_def] using this
  have hy0 : ∀ x, P x 0 = 0 ∧ P' x 0 = 0 := fun x => by
    have := hy x
    rw [hP] at this
    simpa [zero_def] using this
  rw [exp_edges_f_jac_eq (P := fun e _ => P (entry a e.1) (entry b e.2))
    (P' := fun e _ => P' (entry a e.1) (entry b e.2)) (fun i j => hP _ _)]
  unfold exp_edges_f_jac_layer rowN
  simp only [List.foldl_map]
  let R : ℝ × ℝ → XR × XR := fun c => (fin c.1, fin c.2)
  let G : ℕ → ℝ≥0 → ℕ → ℝ≥0 → ℝ × ℝ := fun i x j y =>
    if admissible i j s then (P x y, P' x y) else 0
  have inner : ∀ e ∈ a, ∀ c : ℝ × ℝ,
      b.foldl (fun s' y => if admissible e.1 y.1 s then
        (s'.1 + (pj (fin d) (fin e.2) (fin y.2)).1, s'.2 + (pj (fin d) (fin e.2) (fin y.2)).2)
        else s') (R c) = R (c + ∑ j ∈ Finset.range n, G e.1 e.2 j (entry b j)) := by
    intro e he c
    rw [foldl_list_rep R _ (fun y => G e.1 e.2 y.1 y.2),
      sum_row (G e.1 e.2) (fun j => by simp only [G, hy0]; split_ifs <;> rfl) n b hb hbn]
    intro y hy c
    simp only [G, hP, R]
    split_ifs
    · simp
    · simp
  have h0 : ((0 : XR), (0 : XR)) = R 0 := rfl
  rw [h0, foldl_list_rep R _
    (fun e => ∑ j ∈ Finset.range n, G e.1 e.2 j (entry b j)) a inner 0,
    sum_row (fun i x => ∑ j ∈ Finset.range n, G i x j (entry b j))
      (fun i => Finset.sum_eq_zero (fun j _ => by simp only [G, hx0]; split_ifs <;> rfl)) n a ha han,
    zero_add]
  unfold total
  rw [sum_pairs, sum_pairs]
  simp only [R, Prod.fst_sum, Prod.snd_sum, G]
  congr 2 <;>
  · refine Finset.sum_congr rfl (fun i _ => Finset.sum_congr rfl (fun j _ => ?_))
    split_ifs <;> rfl

/-- `density_fit_layer` of `MultiFitnessModel` on stored columns is the objective of the
single-layer model with the columns as properties. -/
theorem layer_fit {a b : List (ℕ × ℝ≥0)} (ha : RowSorted a) (hb : RowSorted b) {n : ℕ}
    (han : ∀ e ∈ a, e.1 < n) (hbn : ∀ e ∈ b, e.1 < n) (w : ℕ → ℕ → XR) (s : Bool) (d : ℝ≥0) :
    exp_edges_f_jac_layer MultiFitnessModel.p_jac_ijk (rowN a) (rowN b) s (fin d) =
      (denseFit (entry a) (entry b) w).func n s (fin d) := by
  refine layer_eq (fun x y => ?_) (fun y => ?_) (fun x => ?_) ha hb han hbn
  · obtain ⟨P, P', h⟩ := dense_fit_pair x y 0
    exact ⟨_, _, h.jac d d.2⟩
  · simp [MultiFitnessModel.p_jac_ijk, Dense.FitnessModel.p_jac_ij]
  · simp [MultiFitnessModel.p_jac_ijk, Dense.FitnessModel.p_jac_ij]

/-- The same for `MultiInvariantModel`. -/
theorem layer_inv {a b : List (ℕ × ℝ≥0)} (ha : RowSorted a) (hb : RowSorted b) {n : ℕ}
    (han : ∀ e ∈ a, e.1 < n) (hbn : ∀ e ∈ b, e.1 < n) (w : ℕ → ℕ → XR) (s : Bool) (d : ℝ≥0) :
    exp_edges_f_jac_layer MultiInvariantModel.p_jac_ijk (rowN a) (rowN b) s (fin d) =
      (denseInv (entry a) (entry b) w).func n s (fin d) := by
  refine layer_eq (fun x y => ?_) (fun y => ?_) (fun x => ?_) ha hb han hbn
  · obtain ⟨P, P', h⟩ := dense_inv_pair x y 0
    exact ⟨_, _, h.jac d d.2⟩
  · simp [MultiInvariantModel.p_jac_ijk, Dense.ScaleInvariantModel.p_jac_ij]
  · simp [MultiInvariantModel.p_jac_ijk, Dense.ScaleInvariantModel.p_jac_ij]

end Fit

end

end Verif
