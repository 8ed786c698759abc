import Verif.Round.Union
import Verif.Round.Loops
import Mathlib.Tactic.NormNum

/-!
# C91: rounding does not take probabilities and expectations out of their range
-/

namespace Verif

open XR Round

variable {F : Set ℝ} {A : Arith}

private theorem pos_of {a : ℝ} (h0 : 0 ≤ a) (h : ¬ a = 0) : 0 < a := lt_of_le_of_ne h0 (Ne.symm h)

private theorem guard4 (d x y z : ℝ) : ((fin x).isZero || (fin y).isZero || (fin z).isZero ||
    (fin d).isZero) = true ↔ x = 0 ∨ y = 0 ∨ z = 0 ∨ d = 0 := by
  simp [isZero, or_assoc]

private theorem guard3 (d x y : ℝ) : ((fin x).isZero || (fin y).isZero || (fin d).isZero) = true ↔
    x = 0 ∨ y = 0 ∨ d = 0 := by
  simp [isZero, or_assoc]

private theorem unit_out {v : XR} (h : Round.Unit F v) : ∃ p : ℝ, v = fin p ∧ 0 ≤ p ∧ p ≤ 1 := by
  obtain ⟨r, _, e, h0, h1⟩ := h
  exact ⟨r, e, h0, h1⟩

private theorem sparse_fit_unit (hF : Faithful F A) {d x y z : ℝ} (hd : 0 ≤ d) (hx : 0 ≤ x)
    (hy : 0 ≤ y) (hz : 0 ≤ z) :
    Round.Unit F (Round.Sparse.FitnessModel.p_ij A (fin d) (fin x) (fin y) (fin z)) := by
  rw [Round.Sparse.FitnessModel.p_ij]
  split_ifs with h
  · exact .zero hF
  · rw [guard4] at h
    push Not at h
    exact fit_unit hF (prod4_nn hF (pos_of hd h.2.2.2) (pos_of hx h.1) (pos_of hy h.2.1)
      (pos_of hz h.2.2.1))

private theorem sparse_inv_unit (hF : Faithful F A) {d x y z : ℝ} (hd : 0 ≤ d) (hx : 0 ≤ x)
    (hy : 0 ≤ y) (hz : 0 ≤ z) :
    Round.Unit F (Round.Sparse.ScaleInvariantModel.p_ij A (fin d) (fin x) (fin y) (fin z)) := by
  rw [Round.Sparse.ScaleInvariantModel.p_ij]
  split_ifs with h
  · exact .zero hF
  · rw [guard4] at h
    push Not at h
    exact inv_unit hF (prod4_nn hF (pos_of hd h.2.2.2) (pos_of hx h.1) (pos_of hy h.2.1)
      (pos_of hz h.2.2.1))

private theorem dense_fit_unit (hF : Faithful F A) {d x y : ℝ} (z : XR) (hd : 0 ≤ d) (hx : 0 ≤ x)
    (hy : 0 ≤ y) :
    Round.Unit F (Round.Dense.FitnessModel.p_ij A (fin d) (fin x) (fin y) z) := by
  rw [Round.Dense.FitnessModel.p_ij]
  split_ifs with h
  · exact .zero hF
  · rw [guard3] at h
    push Not at h
    exact fit_unit hF (prod3_nn hF (pos_of hd h.2.2) (pos_of hx h.1) (pos_of hy h.2.1))

private theorem dense_inv_unit (hF : Faithful F A) {d x y : ℝ} (z : XR) (hd : 0 ≤ d) (hx : 0 ≤ x)
    (hy : 0 ≤ y) :
    Round.Unit F (Round.Dense.ScaleInvariantModel.p_ij A (fin d) (fin x) (fin y) z) := by
  rw [Round.Dense.ScaleInvariantModel.p_ij]
  split_ifs with h
  · exact .zero hF
  · rw [guard3] at h
    push Not at h
    exact inv_unit hF (prod3_nn hF (pos_of hd h.2.2) (pos_of hx h.1) (pos_of hy h.2.1))

/-- **C91**, connection probabilities.  In every arithmetic that does not cross representable
numbers, and for every finite parameter and all finite properties that are not negative, the
computed connection probability of every single-layer model is a number between 0 and 1.

Missing: infinite parameters and properties (see `C91_infinite_violated`). -/
theorem C91_probability_partial (hF : Faithful F A) (d x y z : ℝ) (hd : 0 ≤ d) (hx : 0 ≤ x)
    (hy : 0 ≤ y) (hz : 0 ≤ z) :
    (∃ p : ℝ, Round.Sparse.FitnessModel.p_ij A (fin d) (fin x) (fin y) (fin z) = fin p ∧
      0 ≤ p ∧ p ≤ 1) ∧
    (∃ p : ℝ, Round.Sparse.ScaleInvariantModel.p_ij A (fin d) (fin x) (fin y) (fin z) = fin p ∧
      0 ≤ p ∧ p ≤ 1) ∧
    (∃ p : ℝ, Round.Dense.FitnessModel.p_ij A (fin d) (fin x) (fin y) (fin z) = fin p ∧
      0 ≤ p ∧ p ≤ 1) ∧
    (∃ p : ℝ, Round.Dense.ScaleInvariantModel.p_ij A (fin d) (fin x) (fin y) (fin z) = fin p ∧
      0 ≤ p ∧ p ≤ 1) :=
  ⟨unit_out (sparse_fit_unit hF hd hx hy hz), unit_out (sparse_inv_unit hF hd hx hy hz),
    unit_out (dense_fit_unit hF _ hd hx hy), unit_out (dense_inv_unit hF _ hd hx hy)⟩

private theorem finite0 {d : ℕ → ℝ} (h : ∀ k, 0 ≤ d k) (k : ℕ) : Fin0 (fin (d k)) := ⟨_, rfl, h k⟩

private theorem finite_sparse {l : List (ℕ × ℝ)} (h : ∀ p ∈ l, 0 ≤ p.2) :
    ∀ p ∈ l.map (fun p => (p.1, fin p.2)), Fin0 p.2 := by
  intro p hp
  obtain ⟨q, hq, rfl⟩ := List.mem_map.1 hp
  exact ⟨_, rfl, h q hq⟩

private theorem finite_dense {l : List ℝ} (h : ∀ p ∈ l, 0 ≤ p) : ∀ p ∈ l.map fin, Fin0 p := by
  intro p hp
  obtain ⟨q, hq, rfl⟩ := List.mem_map.1 hp
  exact ⟨_, rfl, h q hq⟩

/-- **C91**, the probability over all layers of the multi-layer models (sparse and spark). -/
theorem C91_multi_partial (hF : Faithful F A) (d : ℕ → ℝ) (hd : ∀ k, 0 ≤ d k) (x y : List (ℕ × ℝ))
    (hx : ∀ p ∈ x, 0 ≤ p.2) (hy : ∀ p ∈ y, 0 ≤ p.2) :
    (∃ p : ℝ, Round.Sparse.MultiFitnessModel.p_ij A (fun k => fin (d k))
      (x.map fun p => (p.1, fin p.2)) (y.map fun p => (p.1, fin p.2)) = fin p ∧ 0 ≤ p ∧ p ≤ 1) ∧
    (∃ p : ℝ, Round.Sparse.MultiInvariantModel.p_ij A (fun k => fin (d k))
      (x.map fun p => (p.1, fin p.2)) (y.map fun p => (p.1, fin p.2)) = fin p ∧ 0 ≤ p ∧ p ≤ 1) := by
  constructor
  · refine unit_out (F := F) (finish_inv (mergeLoop_inv (R := Round.Unit F)
      (fitBody_inv (R := Round.Unit F) hF (Round.Unit.one hF) (finite0 hd)) _ _ _ (.one hF) (finite_sparse hx)
      (finite_sparse hy)) fun s hs => sub_one_unit hF hs)
  · refine unit_out (F := F) (finish_inv (mergeLoop_inv (R := Round.Unit F)
      (invBody_inv (R := Round.Unit F) hF (Round.Unit.one hF) (finite0 hd)) _ _ _ (Round.Unit.zero hF).nn (finite_sparse hx)
      (finite_sparse hy)) fun s hs => expm1_neg hF hs)

/-- **C91**, the probability over all layers of the multi-layer models of the dense backend. -/
theorem C91_multi_dense_partial (hF : Faithful F A) (d : ℕ → ℝ) (hd : ∀ k, 0 ≤ d k) (x y : List ℝ)
    (hx : ∀ p ∈ x, 0 ≤ p) (hy : ∀ p ∈ y, 0 ≤ p) :
    (∃ p : ℝ, Round.Dense.MultiFitnessModel.p_ij A (fun k => fin (d k)) (x.map fin) (y.map fin) =
      fin p ∧ 0 ≤ p ∧ p ≤ 1) ∧
    (∃ p : ℝ, Round.Dense.MultiInvariantModel.p_ij A (fun k => fin (d k)) (x.map fin)
      (y.map fin) = fin p ∧ 0 ≤ p ∧ p ≤ 1) := by
  constructor
  · refine unit_out (F := F) (finish_inv (zipLoop_inv (R := Round.Unit F)
      (fitBody_inv (R := Round.Unit F) hF (Round.Unit.one hF) (finite0 hd)) _ _ _ _ (.one hF) (finite_dense hx)
      (finite_dense hy)) fun s hs => sub_one_unit hF hs)
  · refine unit_out (F := F) (finish_inv (zipLoop_inv (R := Round.Unit F)
      (invBody_inv (R := Round.Unit F) hF (Round.Unit.one hF) (finite0 hd)) _ _ _ _ (Round.Unit.zero hF).nn (finite_dense hx)
      (finite_dense hy)) fun s hs => ?_)
    split
    · exact .zero hF
    · exact expm1_neg hF hs

private theorem sparse_fit_logs (hF : Faithful F A) {d x y z : ℝ} (hd : 0 ≤ d) (hx : 0 ≤ x)
    (hy : 0 ≤ y) (hz : 0 ≤ z) :
    NP (Round.Sparse.FitnessModel.logp A (fin d) (fin x) (fin y) (fin z)) ∧
      NP (Round.Sparse.FitnessModel.log1mp A (fin d) (fin x) (fin y) (fin z)) := by
  rw [Round.Sparse.FitnessModel.logp, Round.Sparse.FitnessModel.log1mp]
  by_cases h : x = 0 ∨ y = 0 ∨ z = 0 ∨ d = 0
  · rw [if_pos ((guard4 ..).2 h), if_pos ((guard4 ..).2 h)]
    exact ⟨.inl rfl, .zero⟩
  · rw [if_neg (mt (guard4 ..).1 h), if_neg (mt (guard4 ..).1 h)]
    push Not at h
    have := prod4_nn hF (pos_of hd h.2.2.2) (pos_of hx h.1) (pos_of hy h.2.1) (pos_of hz h.2.2.1)
    exact ⟨fit_logp hF this, fit_log1mp hF this⟩

private theorem sparse_inv_logs (hF : Faithful F A) {d x y z : ℝ} (hd : 0 ≤ d) (hx : 0 ≤ x)
    (hy : 0 ≤ y) (hz : 0 ≤ z) :
    NP (Round.Sparse.ScaleInvariantModel.logp A (fin d) (fin x) (fin y) (fin z)) ∧
      NP (Round.Sparse.ScaleInvariantModel.log1mp A (fin d) (fin x) (fin y) (fin z)) := by
  rw [Round.Sparse.ScaleInvariantModel.logp, Round.Sparse.ScaleInvariantModel.log1mp]
  by_cases h : x = 0 ∨ y = 0 ∨ z = 0 ∨ d = 0
  · rw [if_pos ((guard4 ..).2 h), if_pos ((guard4 ..).2 h)]
    exact ⟨.inl rfl, .zero⟩
  · rw [if_neg (mt (guard4 ..).1 h), if_neg (mt (guard4 ..).1 h)]
    push Not at h
    have := prod4_nn hF (pos_of hd h.2.2.2) (pos_of hx h.1) (pos_of hy h.2.1) (pos_of hz h.2.2.1)
    exact ⟨inv_logp hF this, inv_log1mp this⟩

private theorem dense_fit_logs (hF : Faithful F A) {d x y : ℝ} (z : XR) (hd : 0 ≤ d) (hx : 0 ≤ x)
    (hy : 0 ≤ y) :
    NP (Round.Dense.FitnessModel.logp A (fin d) (fin x) (fin y) z) ∧
      NP (Round.Dense.FitnessModel.log1mp A (fin d) (fin x) (fin y) z) := by
  rw [Round.Dense.FitnessModel.logp, Round.Dense.FitnessModel.log1mp]
  by_cases h : x = 0 ∨ y = 0 ∨ d = 0
  · rw [if_pos ((guard3 ..).2 h), if_pos ((guard3 ..).2 h)]
    exact ⟨.inl rfl, .zero⟩
  · rw [if_neg (mt (guard3 ..).1 h), if_neg (mt (guard3 ..).1 h)]
    push Not at h
    have := prod3_nn hF (pos_of hd h.2.2) (pos_of hx h.1) (pos_of hy h.2.1)
    exact ⟨fit_logp hF this, fit_log1mp hF this⟩

private theorem dense_inv_logs (hF : Faithful F A) {d x y : ℝ} (z : XR) (hd : 0 ≤ d) (hx : 0 ≤ x)
    (hy : 0 ≤ y) :
    NP (Round.Dense.ScaleInvariantModel.logp A (fin d) (fin x) (fin y) z) ∧
      NP (Round.Dense.ScaleInvariantModel.log1mp A (fin d) (fin x) (fin y) z) := by
  rw [Round.Dense.ScaleInvariantModel.logp, Round.Dense.ScaleInvariantModel.log1mp]
  by_cases h : x = 0 ∨ y = 0 ∨ d = 0
  · rw [if_pos ((guard3 ..).2 h), if_pos ((guard3 ..).2 h)]
    exact ⟨.inl rfl, .zero⟩
  · rw [if_neg (mt (guard3 ..).1 h), if_neg (mt (guard3 ..).1 h)]
    push Not at h
    have := prod3_nn hF (pos_of hd h.2.2) (pos_of hx h.1) (pos_of hy h.2.1)
    refine ⟨inv_logp hF this, ?_⟩
    have h1 := near_le (hF.mul (-fin d) (fin x)) hF.zero_mem (by
      have := mul_nonneg hd hx; linarith : -d * x ≤ 0)
    rcases mul_np hF h1 (pos_of hy h.2.1) with e | ⟨r, _, e, hr⟩
    · exact .inl e
    · exact .inr ⟨r, e, hr⟩

/-- A log-probability: `-inf` or a number that is not positive. -/
def IsLogProb (v : XR) : Prop := v = ninf ∨ ∃ r : ℝ, v = fin r ∧ r ≤ 0

/-- **C91**, log-probabilities.  The computed logarithms of the probability of a link and of no
link are `-inf` or numbers that are not positive; in particular they are never `nan`. -/
theorem C91_logs_partial (hF : Faithful F A) (d x y z : ℝ) (hd : 0 ≤ d) (hx : 0 ≤ x)
    (hy : 0 ≤ y) (hz : 0 ≤ z) :
    (IsLogProb (Round.Sparse.FitnessModel.logp A (fin d) (fin x) (fin y) (fin z)) ∧
      IsLogProb (Round.Sparse.FitnessModel.log1mp A (fin d) (fin x) (fin y) (fin z))) ∧
    (IsLogProb (Round.Sparse.ScaleInvariantModel.logp A (fin d) (fin x) (fin y) (fin z)) ∧
      IsLogProb (Round.Sparse.ScaleInvariantModel.log1mp A (fin d) (fin x) (fin y) (fin z))) ∧
    (IsLogProb (Round.Dense.FitnessModel.logp A (fin d) (fin x) (fin y) (fin z)) ∧
      IsLogProb (Round.Dense.FitnessModel.log1mp A (fin d) (fin x) (fin y) (fin z))) ∧
    (IsLogProb (Round.Dense.ScaleInvariantModel.logp A (fin d) (fin x) (fin y) (fin z)) ∧
      IsLogProb (Round.Dense.ScaleInvariantModel.log1mp A (fin d) (fin x) (fin y) (fin z))) :=
  ⟨sparse_fit_logs hF hd hx hy hz, sparse_inv_logs hF hd hx hy hz, dense_fit_logs hF _ hd hx hy,
    dense_inv_logs hF _ hd hx hy⟩

/-- **C91**, log-probabilities over all layers (sparse and spark). -/
theorem C91_multi_logs_partial (hF : Faithful F A) (d : ℕ → ℝ) (hd : ∀ k, 0 ≤ d k)
    (x y : List (ℕ × ℝ)) (hx : ∀ p ∈ x, 0 ≤ p.2) (hy : ∀ p ∈ y, 0 ≤ p.2) :
    let dd : ℕ → XR := fun k => fin (d k)
    let xx := x.map fun p => (p.1, fin p.2)
    let yy := y.map fun p => (p.1, fin p.2)
    (IsLogProb (Round.Sparse.MultiFitnessModel.logp A dd xx yy) ∧
      IsLogProb (Round.Sparse.MultiFitnessModel.log1mp A dd xx yy)) ∧
    (IsLogProb (Round.Sparse.MultiInvariantModel.logp A dd xx yy) ∧
      IsLogProb (Round.Sparse.MultiInvariantModel.log1mp A dd xx yy)) := by
  refine ⟨⟨?_, ?_⟩, ?_, ?_⟩
  · exact finish_inv (mergeLoop_inv (R := NP) (fitBody_inv (R := NP) hF NP.zero (finite0 hd)) _ _ _ (.one hF)
      (finite_sparse hx) (finite_sparse hy)) fun s hs => fitLogpEnd_np hF hs
  · refine finish_inv (mergeLoop_inv (R := NP) (fitBody_inv (R := NP) hF (.inl rfl) (finite0 hd)) _ _ _
      (.one hF) (finite_sparse hx) (finite_sparse hy)) fun s hs => ?_
    split
    · exact NP.zero
    · exact log_np hF hs
  · exact finish_inv (mergeLoop_inv (R := NP) (invBody_inv (R := NP) hF NP.zero (finite0 hd)) _ _ _
      (Round.Unit.zero hF).nn (finite_sparse hx) (finite_sparse hy)) fun s hs => invLogpEnd_np hF hs
  · exact finish_inv (mergeLoop_inv (R := NP) (invBody_inv (R := NP) hF (.inl rfl) (finite0 hd)) _ _ _
      (Round.Unit.zero hF).nn (finite_sparse hx) (finite_sparse hy)) fun s hs => neg_np hs

/-- **C91**, log-probabilities over all layers of the dense backend. -/
theorem C91_multi_dense_logs_partial (hF : Faithful F A) (d : ℕ → ℝ) (hd : ∀ k, 0 ≤ d k)
    (x y : List ℝ) (hx : ∀ p ∈ x, 0 ≤ p) (hy : ∀ p ∈ y, 0 ≤ p) :
    let dd : ℕ → XR := fun k => fin (d k)
    (IsLogProb (Round.Dense.MultiFitnessModel.logp A dd (x.map fin) (y.map fin)) ∧
      IsLogProb (Round.Dense.MultiFitnessModel.log1mp A dd (x.map fin) (y.map fin))) ∧
    (IsLogProb (Round.Dense.MultiInvariantModel.logp A dd (x.map fin) (y.map fin)) ∧
      IsLogProb (Round.Dense.MultiInvariantModel.log1mp A dd (x.map fin) (y.map fin))) := by
  refine ⟨⟨?_, ?_⟩, ?_, ?_⟩
  · exact finish_inv (zipLoop_inv (R := NP) (fitBody_inv (R := NP) hF NP.zero (finite0 hd)) _ _ _ _ (.one hF)
      (finite_dense hx) (finite_dense hy)) fun s hs => fitLogpEnd_np hF hs
  · exact finish_inv (zipLoop_inv (R := NP) (fitBody_inv (R := NP) hF (.inl rfl) (finite0 hd)) _ _ _ _
      (.one hF) (finite_dense hx) (finite_dense hy)) fun s hs => log_np hF hs
  · exact finish_inv (zipLoop_inv (R := NP) (invBody_inv (R := NP) hF NP.zero (finite0 hd)) _ _ _ _
      (Round.Unit.zero hF).nn (finite_dense hx) (finite_dense hy)) fun s hs => invLogpEnd_np hF hs
  · exact finish_inv (zipLoop_inv (R := NP) (invBody_inv (R := NP) hF (.inl rfl) (finite0 hd)) _ _ _ _
      (Round.Unit.zero hF).nn (finite_dense hx) (finite_dense hy)) fun s hs => neg_np hs

/-- **C91**, expected number of edges.  If all numbers of edges can be represented, and the
computed connection probabilities are representable numbers between 0 and 1, the computed expected
number of edges is a number between 0 and the number of admissible pairs. -/
theorem C91_edges {α β δ ζ : Type} (hF : Faithful F A) (n : ℕ) (sl : Bool)
    (hN : ∀ k : ℕ, k ≤ n * (if sl then n else n - 1) → (k : ℝ) ∈ F) (p : δ → α → β → ζ → XR)
    (d : δ) (x : ℕ → α) (y : ℕ → β) (z : ℕ → ℕ → ζ)
    (hp : ∀ i j, ∃ q ∈ F, p d (x i) (y j) (z i j) = fin q ∧ 0 ≤ q ∧ q ≤ 1) :
    ∃ e : ℝ, Round.exp_edges A p d n x y z sl = fin e ∧ 0 ≤ e ∧
      e ≤ (n * (if sl then n else n - 1) : ℕ) := by
  obtain ⟨e, _, h, h0, h1⟩ := exp_edges_bd hF n sl hN p d x y z hp
  exact ⟨e, h, h0, h1⟩

/-- **C91**, expected out- and in-degrees, in the same way: between 0 and the number of possible
partners.  The expected undirected degrees are never negative and never `nan`. -/
theorem C91_degrees {α β δ ζ : Type} (hF : Faithful F A) (n : ℕ) (sl : Bool)
    (hN : ∀ k : ℕ, k ≤ n → (k : ℝ) ∈ F) (p : δ → α → β → ζ → XR)
    (d : δ) (x : ℕ → α) (y : ℕ → β) (z : ℕ → ℕ → ζ)
    (hp : ∀ i j, ∃ q ∈ F, p d (x i) (y j) (z i j) = fin q ∧ 0 ≤ q ∧ q ≤ 1) (k : ℕ) (hk : k < n) :
    (∃ e : ℝ, (Round.exp_degrees A p d n x y z sl).exp_d_out k = fin e ∧ 0 ≤ e ∧
      e ≤ (if sl then n else n - 1 : ℕ)) ∧
    (∃ e : ℝ, (Round.exp_degrees A p d n x y z sl).exp_d_in k = fin e ∧ 0 ≤ e ∧
      e ≤ (if sl then n else n - 1 : ℕ)) ∧
    ((Round.exp_degrees A p d n x y z sl).exp_d k = pinf ∨
      ∃ e : ℝ, (Round.exp_degrees A p d n x y z sl).exp_d k = fin e ∧ 0 ≤ e) := by
  have h := exp_degrees_inv (A := A) n sl p d x y z (Bd F) (fun _ => NN F) (Round.Unit F) (NN F)
    (.zero hF) (Round.Unit.zero hF).nn
    (fun k hk e v he hv => he.add hF (hN _ (by omega)) hv) (fun k hk e v he hv => add_nn hF he hv)
    hp (fun v hv => hv.nn)
    (fun v w hv hw => by
      obtain ⟨a, ha, rfl, a0, a1⟩ := hv
      obtain ⟨b, hb, rfl, b0, b1⟩ := hw
      -- the sum is at least `a`, the product at most `a`
      have hm := near_between (hF.mul (fin a) (fin b)) hF.zero_mem ha (by positivity)
        (mul_le_of_le_one_right a0 b1)
      obtain ⟨m, hmF, em, m0, m1⟩ := hm
      rw [em]
      rcases near_ge (hF.add (fin a) (fin b)) ha (by linarith) with e | ⟨s, _, e, hs⟩
      · rw [e]
        exact .inl (near_pinf (hF.sub pinf (fin m)))
      · rw [e]
        exact near_nn hF (hF.sub (fin s) (fin m)) (by linarith : (0 : ℝ) ≤ s + -m)) k hk
  have hn : n - 1 + sl.toNat = if sl then n else n - 1 := by cases sl <;> simp; omega
  rw [hn] at h
  obtain ⟨⟨a, _, ea, a0, a1⟩, ⟨b, _, eb, b0, b1⟩, h3⟩ := h
  refine ⟨⟨a, ea, a0, a1⟩, ⟨b, eb, b0, b1⟩, ?_⟩
  rcases h3 with e | ⟨r, _, e, h0⟩
  · exact .inl e
  · exact .inr ⟨r, e, h0⟩

/-- **C91**, log-likelihood: if the computed log-probabilities are `-inf` or not positive, so is
the computed log-likelihood of every graph. -/
theorem C91_likelihood {α β δ ζ : Type} (hF : Faithful F A) (logp log1mp : δ → α → β → ζ → XR)
    (d : δ) (n : ℕ) (x : ℕ → α) (y : ℕ → β) (z : ℕ → ℕ → ζ) (link : ℕ → ℕ → Bool) (sl : Bool)
    (h1 : ∀ i j, IsLogProb (logp d (x i) (y j) (z i j)))
    (h2 : ∀ i j, IsLogProb (log1mp d (x i) (y j) (z i j))) :
    IsLogProb (Round.likelihood A logp log1mp d n x y z link sl) :=
  likelihood_np hF logp log1mp d n x y z link sl h1 h2

/-! ## Double precision -/

/-- **C91** in double precision, for the four single-layer models with up to `2 ^ 26` vertices:
expected number of edges, and expected degrees, the undirected ones included. -/
theorem C91_double_partial (n : ℕ) (hn : n ≤ 2 ^ 26) (d : ℝ) (x y : ℕ → ℝ) (z : ℕ → ℕ → ℝ)
    (hd : 0 ≤ d) (hx : ∀ i, 0 ≤ x i) (hy : ∀ i, 0 ≤ y i) (hz : ∀ i j, 0 ≤ z i j) (sl : Bool) :
    ∀ p ∈ [Round.Sparse.FitnessModel.p_ij binary64, Round.Sparse.ScaleInvariantModel.p_ij binary64,
      Round.Dense.FitnessModel.p_ij binary64, Round.Dense.ScaleInvariantModel.p_ij binary64],
    (∃ e : ℝ, Round.exp_edges binary64 p (fin d) n (fun i => fin (x i)) (fun i => fin (y i))
        (fun i j => fin (z i j)) sl = fin e ∧ 0 ≤ e ∧ e ≤ (n * (if sl then n else n - 1) : ℕ)) ∧
    ∀ k < n, ∀ a ∈ [DiGraphEnsemble.Degrees.exp_d, DiGraphEnsemble.Degrees.exp_d_out,
      DiGraphEnsemble.Degrees.exp_d_in],
      ∃ e : ℝ, a (Round.exp_degrees binary64 p (fin d) n (fun i => fin (x i)) (fun i => fin (y i))
        (fun i j => fin (z i j)) sl) k = fin e ∧ 0 ≤ e ∧ e ≤ (if sl then n else n - 1 : ℕ) := by
  have hF := Faithful.binary64
  have unit : ∀ p ∈ [Round.Sparse.FitnessModel.p_ij binary64,
      Round.Sparse.ScaleInvariantModel.p_ij binary64, Round.Dense.FitnessModel.p_ij binary64,
      Round.Dense.ScaleInvariantModel.p_ij binary64],
      ∀ i j, Round.Unit doubles (p (fin d) (fin (x i)) (fin (y j)) (fin (z i j))) := by
    intro p hp i j
    simp only [List.mem_cons, List.not_mem_nil, or_false] at hp
    rcases hp with rfl | rfl | rfl | rfl
    · exact sparse_fit_unit hF hd (hx i) (hy j) (hz i j)
    · exact sparse_inv_unit hF hd (hx i) (hy j) (hz i j)
    · exact dense_fit_unit hF _ hd (hx i) (hy j)
    · exact dense_inv_unit hF _ hd (hx i) (hy j)
  have hsq : n * (if sl then n else n - 1) ≤ 2 ^ 53 := by
    have : (if sl then n else n - 1) ≤ 2 ^ 26 := by split <;> omega
    calc _ ≤ 2 ^ 26 * 2 ^ 26 := Nat.mul_le_mul hn this
      _ ≤ 2 ^ 53 := by norm_num
  intro p hp
  refine ⟨C91_edges hF n sl (fun k hk => natCast_mem (hk.trans hsq)) p _ _ _ _ (unit p hp), ?_⟩
  intro k hk
  have hU : ∀ v w, Round.Unit doubles v → Round.Unit doubles w →
      Round.Unit doubles (binary64.sub (binary64.add v w) (binary64.mul v w)) := by
    intro v w hv hw
    obtain ⟨a, ha, rfl, a0, a1⟩ := hv
    obtain ⟨b, hb, rfl, b0, b1⟩ := hw
    have h2 : (2 : ℝ) ∈ doubles := by exact_mod_cast natCast_mem (m := 2) (by norm_num)
    obtain ⟨s, hsF, es, s0, _⟩ :=
      near_between (hF.add (fin a) (fin b)) ha h2 (by linarith) (by linarith)
    obtain ⟨m, hmF, em, m0, m1⟩ := near_between (hF.mul (fin a) (fin b)) hF.zero_mem ha
      (by positivity) (mul_le_of_le_one_right a0 b1)
    have es' : toDouble (a + b) = fin s := es
    have em' : toDouble (a * b) = fin m := em
    have get : ∀ {x v : ℝ}, toDouble x = fin v → v = rnd x := by
      intro x v h
      unfold toDouble at h
      split_ifs at h
      exact (XR.fin.inj h).symm
    rw [es, em]
    obtain ⟨r, hr, er, r0⟩ : ∃ r ∈ doubles, binary64.sub (fin s) (fin m) = fin r ∧ 0 ≤ r := by
      obtain ⟨r, hr, er, r0, _⟩ := near_between (hF.sub (fin s) (fin m)) hF.zero_mem h2
        (by linarith : (0 : ℝ) ≤ s + -m) (by linarith : s + -m ≤ 2)
      exact ⟨r, hr, er, r0⟩
    refine ⟨r, hr, er, r0, ?_⟩
    have er' : toDouble (s + -m) = fin r := er
    have := union_le_one ha hb a0 a1 b0 b1
    rw [← get es', ← get em', sub_eq_add_neg, ← get er'] at this
    exact this
  have h := exp_degrees_inv (A := binary64) n sl p (fin d) (fun i => fin (x i))
    (fun i => fin (y i)) (fun i j => fin (z i j)) (Bd doubles) (Bd doubles)
    (Round.Unit doubles) (Round.Unit doubles) (.zero hF) (.zero hF)
    (fun k hk e v he hv => he.add hF (natCast_mem (by omega)) hv)
    (fun k hk e v he hv => he.add hF (natCast_mem (by omega)) hv) (unit p hp) (fun _ h => h) hU k hk
  have hn : n - 1 + sl.toNat = if sl then n else n - 1 := by cases sl <;> simp; omega
  rw [hn] at h
  obtain ⟨⟨a, _, ea, a0, a1⟩, ⟨b, _, eb, b0, b1⟩, c, _, ec, c0, c1⟩ := h
  intro q hq
  simp only [List.mem_cons, List.not_mem_nil, or_false] at hq
  rcases hq with rfl | rfl | rfl
  · exact ⟨c, ec, c0, c1⟩
  · exact ⟨a, ea, a0, a1⟩
  · exact ⟨b, eb, b0, b1⟩

/-- The hypotheses are met: the arithmetic of the machine does not cross representable numbers,
and it is not exact (`1 + 2 ^ 53` is rounded). -/
example : Faithful doubles binary64 ∧ binary64.add 1 (fin ((2 : ℝ) ^ 53)) ≠ 1 + fin ((2 : ℝ) ^ 53) := by
  refine ⟨Faithful.binary64, ?_⟩
  intro h
  have h1 : toDouble (1 + (2 : ℝ) ^ 53) = fin (1 + (2 : ℝ) ^ 53) := h
  have h2 := In.toDouble (1 + (2 : ℝ) ^ 53)
  rw [h1] at h2
  obtain ⟨⟨m, e, hm, _, hq⟩, _⟩ := h2
  have hm' : (m : ℝ) ≤ 2 ^ 53 := by exact_mod_cast (le_abs_self m).trans hm
  rcases le_or_gt e 0 with he | he
  · have : (2 : ℝ) ^ e ≤ 1 := zpow_le_one_of_nonpos₀ (by norm_num) he
    have hp := pow_pos' e
    nlinarith
  · obtain ⟨c, hc⟩ := mul_zpow_eq (m := m) (e := e) (k := 1) (by omega)
    rw [hc, zpow_one] at hq
    have : (1 + 2 ^ 53 : ℤ) = c * 2 := by exact_mod_cast hq
    omega

/-- Values of the parameter and of the properties to which the theorems apply. -/
example : (0 : ℝ) ≤ 1 / 2 ∧ ∀ i : ℕ, (0 : ℝ) ≤ (i : ℝ) := ⟨by norm_num, fun i => by positivity⟩

/-! ## Infinite properties -/

theorem toDouble_tiny {x : ℝ} (h0 : 0 < x) (h : x < (2 : ℝ) ^ (-1100 : ℤ)) : toDouble x = fin 0 := by
  have he : expo x = -1074 := by
    rw [expo]
    refine max_eq_right ?_
    rw [abs_of_pos h0]
    have := (Int.lt_zpow_iff_log_lt (b := 2) (by norm_num) h0 (x := -1100)).1 (by exact_mod_cast h)
    omega
  have hn : nearest (x / (2 : ℝ) ^ expo x) = 0 := by
    have hpos : 0 < x / (2 : ℝ) ^ expo x := div_pos h0 (pow_pos' _)
    have hlt : x / (2 : ℝ) ^ expo x < 1 / 2 := by
      rw [he, div_lt_iff₀ (pow_pos' _)]
      calc x < (2 : ℝ) ^ (-1100 : ℤ) := h
        _ ≤ (2 : ℝ) ^ (-1075 : ℤ) := zpow_le_zpow_right₀ (by norm_num) (by norm_num)
        _ = 1 / 2 * (2 : ℝ) ^ (-1074 : ℤ) := by
            rw [show (-1075 : ℤ) = -1 + -1074 by norm_num, zpow_add₀ (by norm_num)]; norm_num
    have hf : ⌊x / (2 : ℝ) ^ expo x⌋ = 0 := by
      rw [Int.floor_eq_iff]
      simp only [Int.cast_zero]
      constructor <;> linarith
    unfold nearest
    rw [hf]
    simp only [Int.cast_zero, sub_zero]
    rw [if_pos hlt]
  have hr : rnd x = 0 := by rw [rnd, hn]; simp
  unfold toDouble
  rw [hr, if_neg (not_le.2 (pow_pos' _)), if_neg (not_le.2 (neg_lt_zero.2 (pow_pos' _)))]

/-- **C91** fails for infinite properties.  A product of a small parameter and a small property
underflows to 0, and 0 times infinity is not a number: in double precision the computed probability
is `nan`, although it is 1 without rounding. -/
theorem C91_infinite_violated :
    Round.Sparse.FitnessModel.p_ij binary64 (fin ((2 : ℝ) ^ (-600 : ℤ)))
      (fin ((2 : ℝ) ^ (-600 : ℤ))) pinf 1 = nan ∧
    Verif.Sparse.FitnessModel.p_ij (fin ((2 : ℝ) ^ (-600 : ℤ)))
      (fin ((2 : ℝ) ^ (-600 : ℤ))) pinf 1 = 1 := by
  have hp := pow_pos' (-600)
  have hne : (fin ((2 : ℝ) ^ (-600 : ℤ))).isZero = false := isZero_eq_false hp.ne'
  constructor
  · have e1 : binary64.mul (fin ((2 : ℝ) ^ (-600 : ℤ))) (fin ((2 : ℝ) ^ (-600 : ℤ))) = fin 0 := by
      show toDouble ((2 : ℝ) ^ (-600 : ℤ) * (2 : ℝ) ^ (-600 : ℤ)) = fin 0
      rw [← zpow_add₀ (by norm_num)]
      exact toDouble_tiny (pow_pos' _) (zpow_lt_zpow_right₀ (by norm_num) (by norm_num))
    have e2 : binary64.mul (fin 0) pinf = nan := by
      show roundXR (signedInf 0) = nan
      simp [signedInf, roundXR]
    have e3 : prod4 binary64 (fin ((2 : ℝ) ^ (-600 : ℤ))) (fin ((2 : ℝ) ^ (-600 : ℤ))) pinf 1 =
        nan := by
      rw [prod4, e1, e2]; rfl
    rw [Round.Sparse.FitnessModel.p_ij]
    simp only [hne, e3]
    simp [isZero, isInf, one_def]
    rfl
  · have hm : fin ((2 : ℝ) ^ (-600 : ℤ)) * fin ((2 : ℝ) ^ (-600 : ℤ)) * pinf * 1 = (pinf : XR) := by
      rw [show fin ((2 : ℝ) ^ (-600 : ℤ)) * fin ((2 : ℝ) ^ (-600 : ℤ)) =
        (fin ((2 : ℝ) ^ (-600 : ℤ) * (2 : ℝ) ^ (-600 : ℤ)) : XR) from rfl,
        fin_mul_pinf_pos (mul_pos hp hp), one_def, pinf_mul_fin_pos one_pos]
    rw [Verif.Sparse.FitnessModel.p_ij]
    simp only [hne, hm]
    simp [isZero, isInf, one_def]

end Verif
