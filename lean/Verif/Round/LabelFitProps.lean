import Verif.Round.LabelFit
import Verif.Round.FitProps
import Verif.Round.LayerProps

/-!
# C113: the fit label by label in double precision

Missing in the theorem with the suffix `_partial`: properties outside the range `InSize`, initial
parameters other than zero, relative tolerances above `1/10`, numbers of edges that are reached only by
parameters above `2 ^ 45` (or, in the scale-invariant model, with parameter times properties above 64).
-/

namespace Verif

open XR Round Fit Verif.Spec
open scoped NNReal ENNReal

namespace Round

/-- The value is an infinity, `nan` or a double precision number. -/
private def Rep (v : XR) : Prop := ∀ r, v = fin r → r ∈ doubles

private theorem rep_round (v : XR) : Rep (roundXR v) := by
  intro r h
  by_cases hv : v = nan
  · subst hv; exact absurd h (by simp [roundXR])
  · have := (near_round v).rep hv
    rw [h] at this
    exact this

private theorem add_zero_rep {v : XR} (h : Rep v) : binary64.add v 0 = v := by
  cases v with
  | fin r =>
    show toDouble (r + 0) = fin r
    rw [add_zero, toDouble_self (h r rfl)]
  | pinf => rfl
  | ninf => rfl
  | nan => rfl

/-- A loop over the stored entries of a column, as a loop over all vertices. -/
private theorem foldl_column {σ : Type} (I : σ → Prop) (g : σ → ℕ × XR → σ)
    (hI : ∀ s e, I s → I (g s e)) (h0 : ∀ s i, I s → g s (i, fin 0) = s)
    {x : ℕ → List (ℕ × ℝ≥0)} (hx : ∀ i, RowSorted (x i)) (k n : ℕ) {s : σ} (hs : I s) :
    (Layer.column n (fun i => rowN (x i)) k).foldl g s
      = (List.range n).foldl (fun s i => g s (i, fin (entry (x i) k : ℝ≥0))) s ∧
    I ((Layer.column n (fun i => rowN (x i)) k).foldl g s) := by
  induction n with
  | zero => exact ⟨rfl, hs⟩
  | succ n ih =>
    have hc : Layer.column (n + 1) (fun i => rowN (x i)) k
        = Layer.column n (fun i => rowN (x i)) k
          ++ ((rowN (x n)).filter (fun e => e.1 == k)).map (fun e => (n, e.2)) := by
      unfold Layer.column
      rw [List.range_succ, List.flatMap_append]
      simp
    rw [hc, List.foldl_append, List.range_succ, List.foldl_append, ← ih.1]
    simp only [List.foldl_cons, List.foldl_nil]
    have hf : (rowN (x n)).filter (fun e => e.1 == k)
        = ((x n).filter (fun e => e.1 == k)).map (fun e => (e.1, fin (e.2 : ℝ≥0))) := by
      unfold rowN
      rw [List.filter_map]
      rfl
    have hlen := Layer.filter_sorted (hx n) k
    rw [hf]
    rcases hl : (x n).filter (fun e => e.1 == k) with _ | ⟨a, l⟩
    · have he : entry (x n) k = 0 := by
        unfold entry
        have : (x n).lookup k = none := by
          rw [List.lookup_eq_none_iff]
          intro p hp
          by_contra hne
          have : p ∈ (x n).filter (fun e => e.1 == k) :=
            List.mem_filter.2 ⟨hp, by
              have h1 : (k == p.1) = true := by simpa using hne
              rw [beq_iff_eq] at h1 ⊢
              exact h1.symm⟩
          rw [hl] at this
          simp at this
        rw [this]
        rfl
      rw [he, hl, List.map_nil, List.map_nil, List.foldl_nil]
      exact ⟨(h0 _ _ ih.2).symm, ih.2⟩
    · have hl0 : l = [] := by
        rw [hl, List.length_cons] at hlen
        exact List.length_eq_zero_iff.1 (by omega)
      subst hl0
      have ha : a ∈ (x n).filter (fun e => e.1 == k) := by rw [hl]; simp
      obtain ⟨ha, hk⟩ := List.mem_filter.1 ha
      have hk' : a.1 = k := by simpa using hk
      have he := Layer.entry_of_mem (hx n) ha
      rw [hk'] at he
      rw [he, hl]
      exact ⟨rfl, hI _ _ ih.2⟩

private theorem jac_zero_left (K : Layer.Kind) (d b : XR) : labelJac binary64 K d (fin 0) b = (0, 0) := by
  cases K <;> simp [labelJac, Dense.FitnessModel.p_jac_ij, Dense.ScaleInvariantModel.p_jac_ij]

private theorem jac_zero_right (K : Layer.Kind) (d a : XR) : labelJac binary64 K d a (fin 0) = (0, 0) := by
  cases K <;> simp [labelJac, Dense.FitnessModel.p_jac_ij, Dense.ScaleInvariantModel.p_jac_ij]

/-- What the solver evaluates for a label is what it evaluates for the model of the label alone. -/
private theorem layer_func (K : Layer.Kind) {x y : ℕ → List (ℕ × ℝ≥0)} (hx : ∀ i, RowSorted (x i))
    (hy : ∀ i, RowSorted (y i)) (n k : ℕ) (sl : Bool) :
    exp_edges_f_jac_layer binary64 (labelJac binary64 K) (Layer.column n (fun i => rowN (x i)) k)
        (Layer.column n (fun i => rowN (y i)) k) sl
      = Round.exp_edges_f_jac binary64 (fun d i j => labelJac binary64 K d
          (fin (entry (x i) k : ℝ≥0)) (fin (entry (y j) k : ℝ≥0))) n sl := by
  funext d
  let I : XR × XR → Prop := fun s => Rep s.1 ∧ Rep s.2
  let step : ℕ × XR → XR × XR → ℕ × XR → XR × XR := fun a s b =>
    if admissible a.1 b.1 sl then
      (binary64.add s.1 (labelJac binary64 K d a.2 b.2).1,
        binary64.add s.2 (labelJac binary64 K d a.2 b.2).2)
    else s
  have sI : ∀ a s b, I s → I (step a s b) := by
    intro a s b hs
    show I (if _ then _ else _)
    split
    · exact ⟨rep_round _, rep_round _⟩
    · exact hs
  have s0 : ∀ a s b, I s → labelJac binary64 K d a.2 b.2 = (0, 0) → step a s b = s := by
    intro a s b hs hz
    show (if _ then _ else _) = _
    split
    · rw [hz]
      exact Prod.ext (add_zero_rep hs.1) (add_zero_rep hs.2)
    · rfl
  have i0 : I (0, 0) := by
    have h : Rep 0 := fun r h => by
      have : (0 : ℝ) = r := by simpa [zero_def] using h
      rw [← this]
      exact Faithful.binary64.zero_mem
    exact ⟨h, h⟩
  have inner : ∀ a s, I s → _ := fun a s hs =>
    foldl_column I (step a) (sI a) (fun s i h => s0 a s _ h (jac_zero_right K d a.2)) hy k n hs
  have outer := foldl_column I
    (fun s a => (Layer.column n (fun i => rowN (y i)) k).foldl (step a) s)
    (fun s a hs => by
      have : ∀ (l : List (ℕ × XR)) s, I s → I (l.foldl (step a) s) := by
        intro l
        induction l with
        | nil => intro s h; exact h
        | cons b l ih => intro s h; exact ih _ (sI a s b h)
      exact this _ s hs)
    (fun s i hs => by
      have : ∀ (l : List (ℕ × XR)) s, I s → l.foldl (step (i, fin 0)) s = s := by
        intro l
        induction l with
        | nil => intro s _; rfl
        | cons b l ih =>
          intro s h
          rw [List.foldl_cons, s0 _ s b h (jac_zero_left K d b.2), ih s h]
      exact this _ s hs) hx k n i0
  have hfold : ∀ l : List ℕ, ∀ s, I s →
      l.foldl (fun s i => (Layer.column n (fun i => rowN (y i)) k).foldl
        (step (i, fin (entry (x i) k : ℝ≥0))) s) s
      = l.foldl (fun s i => (List.range n).foldl
        (fun s j => step (i, fin (entry (x i) k : ℝ≥0)) s (j, fin (entry (y j) k : ℝ≥0))) s) s := by
    intro l
    induction l with
    | nil => intro s _; rfl
    | cons i l ih =>
      intro s hs
      have := inner (i, fin (entry (x i) k : ℝ≥0)) s hs
      rw [List.foldl_cons, List.foldl_cons, ← this.1]
      exact ih _ this.2
  exact outer.1.trans (hfold _ _ i0)

/-- The loop over the labels runs one fit per label. -/
theorem fitMulti_eq {m : MultiModel} (hp : m.per_label = true) {e : ℕ → ℝ}
    (he : m.num_edges_label = some e) (o : Opts) {sols : ℕ → Verif.Solver.Solution}
    (h : ∀ k < m.num_labels,
      fitSingle binary64 (m.layer k) (some (e k)) .none .density o = .ok (sols k)) :
    fitMulti binary64 m .none .density o
      = .ok ⟨(List.range m.num_labels).map fun k => (sols k).x,
          (List.range m.num_labels).map sols⟩ := by
  have hneg : anyNeg (List.replicate m.num_labels (0 : XR)) = false := by
    unfold anyNeg
    rw [List.any_eq_false]
    intro v hv
    rw [List.eq_of_mem_replicate hv]
    simp [zero_def]
  have key : ∀ l ≤ m.num_labels, (List.range l).foldlM
      (fitLabel binary64 m e ⟨List.replicate m.num_labels 0, false, true⟩ o)
      (⟨List.replicate m.num_labels 0, []⟩ : MultiFit)
      = .ok ⟨((List.range l).map fun k => (sols k).x) ++ List.replicate (m.num_labels - l) 0,
          (List.range l).map sols⟩ := by
    intro l
    induction l with
    | zero => intro _; simp [pure, Except.pure]
    | succ l ih =>
      intro hl
      rw [List.range_succ, List.foldlM_append, ih (by omega)]
      have h1 := h l (by omega)
      rw [fitSingle_eq] at h1
      have h2 : (List.replicate m.num_labels (0 : XR)).getD l 0 = fin 0 := by
        simp [List.getD, show l < m.num_labels by omega, zero_def]
      simp only [bind, Except.bind, List.foldlM_cons, List.foldlM_nil, fitLabel, h2, h1, pure,
        Except.pure, Except.ok.injEq]
      congr 1
      · rw [List.set_append_right _ _ (by simp)]
        have h3 : m.num_labels - l = (m.num_labels - (l + 1)) + 1 := by omega
        rw [h3]
        simp [List.replicate_succ, store]
      · simp
  unfold fitMulti
  simp only [X0.multi, List.length_replicate, ne_eq, not_true_eq_false, if_false, Bool.not_true,
    Bool.false_eq_true, hneg, hp, if_true, he]
  unfold fitLabels
  rw [key _ le_rfl]
  simp

/-- Parameter and properties in the range of the fit are in the range of `C112`. -/
private theorem range_of {d : ℝ} {a b : ℝ≥0} (hd : d = 0 ∨ (2 : ℝ) ^ (-195 : ℤ) ≤ d)
    (hd' : d ≤ (2 : ℝ) ^ (45 : ℤ)) (ha : InSize a) (hb : InSize b) : LayerRange d a b := by
  rcases hd with rfl | hd
  · exact .inl (.inr (.inr rfl))
  rcases ha with rfl | ⟨a1, a2⟩
  · exact .inl (.inl rfl)
  rcases hb with rfl | ⟨b1, b2⟩
  · exact .inl (.inr (.inl rfl))
  have pd : (0 : ℝ) < (2 : ℝ) ^ (-195 : ℤ) := pow_pos' _
  have pa : (0 : ℝ) < (2 : ℝ) ^ (-33 : ℤ) := pow_pos' _
  have d0 := pd.trans_le hd
  have a0 := pa.trans_le a1
  have b0 := pa.trans_le b1
  have l1 : (2 : ℝ) ^ (-228 : ℤ) ≤ d * a := by
    rw [show (2 : ℝ) ^ (-228 : ℤ) = (2 : ℝ) ^ (-195 : ℤ) * (2 : ℝ) ^ (-33 : ℤ) by
      rw [← zpow_add₀ two_ne_zero]; norm_num]
    exact mul_le_mul hd a1 pa.le d0.le
  have u1 : d * a ≤ (2 : ℝ) ^ (78 : ℤ) := by
    rw [show (2 : ℝ) ^ (78 : ℤ) = (2 : ℝ) ^ (45 : ℤ) * (2 : ℝ) ^ (33 : ℤ) by
      rw [← zpow_add₀ two_ne_zero]; norm_num]
    exact mul_le_mul hd' a2 a0.le (pow_pos' _).le
  have l2 : (2 : ℝ) ^ (-261 : ℤ) ≤ d * a * b := by
    rw [show (2 : ℝ) ^ (-261 : ℤ) = (2 : ℝ) ^ (-228 : ℤ) * (2 : ℝ) ^ (-33 : ℤ) by
      rw [← zpow_add₀ two_ne_zero]; norm_num]
    exact mul_le_mul l1 b1 pa.le (mul_pos d0 a0).le
  have u2 : d * a * b ≤ (2 : ℝ) ^ (111 : ℤ) := by
    rw [show (2 : ℝ) ^ (111 : ℤ) = (2 : ℝ) ^ (78 : ℤ) * (2 : ℝ) ^ (33 : ℤ) by
      rw [← zpow_add₀ two_ne_zero]; norm_num]
    exact mul_le_mul u1 b2 b0.le (pow_pos' _).le
  exact .inr ⟨d0, a0, b0,
    ⟨(zpow_le_zpow_right₀ one_le_two (by norm_num)).trans l1,
      u1.trans (zpow_le_zpow_right₀ one_le_two (by norm_num))⟩,
    ⟨(zpow_le_zpow_right₀ one_le_two (by norm_num)).trans l2,
      u2.trans (zpow_le_zpow_right₀ one_le_two (by norm_num))⟩⟩

private theorem entry_cases {r : List (ℕ × ℝ≥0)} (k : ℕ) : entry r k = 0 ∨ (k, entry r k) ∈ r := by
  unfold entry
  cases h : r.lookup k with
  | none => exact .inl rfl
  | some v => exact .inr (mem_of_lookup h)

private theorem entry_size {r : List (ℕ × ℝ≥0)} (h : ∀ e ∈ r, InSize e.2) (k : ℕ) :
    InSize (entry r k) := by
  rcases entry_cases (r := r) k with h1 | h1
  · exact .inl h1
  · exact h _ h1

/-- The result of `C93` for one label. -/
private theorem label_result (K : Layer.Kind) {n : ℕ} (sl : Bool) {x y : ℕ → List (ℕ × ℝ≥0)}
    (hx : ∀ i, RowSorted (x i)) (hy : ∀ i, RowSorted (y i))
    (hX : ∀ i < n, ∀ e ∈ x i, InSize e.2) (hY : ∀ i < n, ∀ e ∈ y i, InSize e.2)
    {k : ℕ} {t atol rtol : ℝ} (maxiter : ℕ) (ho : FitRange n t atol rtol) {D : ℝ≥0}
    (hD : (D : ℝ) ≤ (2 : ℝ) ^ (45 : ℤ))
    (h64 : K = .inv → ∀ i < n, ∀ j < n, ∀ a b, (k, a) ∈ x i → (k, b) ∈ y j → D * (a * b) ≤ 64)
    (hE : t * (1 + rtol) ≤ Layer.labelMean K n x y sl k D) :
    FitResult (exp_edges_f_jac_layer binary64 (labelJac binary64 K)
        (Layer.column n (fun i => rowN (x i)) k) (Layer.column n (fun i => rowN (y i)) k) sl)
      (K.fitter (fun i => entry (x i) k) (fun i => entry (y i) k)) n sl t atol rtol maxiter D := by
  rw [layer_func K hx hy n k sl]
  have hm : ((K.fitter (fun i => entry (x i) k) (fun i => entry (y i) k)).ens D).exp_edges n sl
      = fin (Layer.labelMean K n x y sl k D) := by
    rw [Layer.Kind.exp_edges, Layer.labelMean, Law.mean_card]
  cases K with
  | fit =>
    exact C93_dense_fitness_partial n sl _ _ _ (fun i hi => entry_size (hX i hi) k)
      (fun j hj => entry_size (hY j hj) k) t atol rtol maxiter ho D _ hD hm hE
  | inv =>
    refine C93_dense_invariant_partial n sl _ _ _ (fun i hi => entry_size (hX i hi) k)
      (fun j hj => entry_size (hY j hj) k) t atol rtol maxiter ho D _ hD (fun i hi j hj => ?_) hm hE
    rcases entry_cases (r := x i) k with h1 | h1
    · simp [h1]
    rcases entry_cases (r := y j) k with h2 | h2
    · simp [h2]
    exact h64 rfl i hi j hj _ _ h1 h2

private theorem range_n {n : ℕ} {t atol rtol : ℝ} (ho : FitRange n t atol rtol) : n ≤ 2 ^ 25 := by
  by_contra hn
  have h1 : (2 ^ 25 : ℕ) * 2 ^ 25 ≤ n * n := Nat.mul_le_mul (by omega) (by omega)
  have h2 : ((2 : ℝ) ^ 50) ≤ ((n * n : ℕ) : ℝ) := by
    have : (2 ^ 50 : ℕ) ≤ n * n := by
      calc (2 ^ 50 : ℕ) = 2 ^ 25 * 2 ^ 25 := by norm_num
        _ ≤ _ := h1
    exact_mod_cast this
  have h3 := ho.rtol_ge.trans ho.rtol_le
  have h4 : (20 : ℝ) * (2 ^ 50 + 300) * (2 : ℝ) ^ (-53 : ℤ)
      ≤ 20 * (((n * n : ℕ) : ℝ) + 300) * (2 : ℝ) ^ (-53 : ℤ) :=
    mul_le_mul_of_nonneg_right (mul_le_mul_of_nonneg_left (by linarith) (by norm_num)) (pow_pos' _).le
  have h5 : (1 : ℝ) / 10 < 20 * (2 ^ 50 + 300) * (2 : ℝ) ^ (-53 : ℤ) := by norm_num
  linarith

private theorem bound_sum {n : ℕ} {t atol rtol e v : ℝ} {N : ℕ} (ho : FitRange n t atol rtol)
    (hN : N ≤ n * n) (e0 : 0 ≤ e) (he : e ≤ t * (1 + rtol))
    (hv : |v - e| ≤ (N + 6) * (2 : ℝ) ^ (-52 : ℤ) * e) (h : |e - t| ≤ 1.2 * (atol + rtol * t)) :
    |v - t| ≤ 1.4 * (atol + rtol * t) := by
  have t0 : 0 < t := lt_of_lt_of_le (pow_pos' _) ho.target_ge
  have hN' : (N : ℝ) ≤ ((n * n : ℕ) : ℝ) := by exact_mod_cast hN
  have h52 : (2 : ℝ) ^ (-52 : ℤ) = 2 * (2 : ℝ) ^ (-53 : ℤ) := by norm_num
  have u0 : (0 : ℝ) < (2 : ℝ) ^ (-53 : ℤ) := pow_pos' _
  have r1 := ho.rtol_ge
  have r2 := ho.rtol_le
  have a0 := ho.atol_ge
  rw [h52] at hv
  generalize (2 : ℝ) ^ (-53 : ℤ) = u at *
  have h1 : ((N : ℝ) + 6) * (2 * u) ≤ rtol / 10 := by
    have : ((N : ℝ) + 6) * (2 * u) ≤ (((n * n : ℕ) : ℝ) + 300) * (2 * u) :=
      mul_le_mul_of_nonneg_right (by linarith) (by linarith)
    linarith
  have r0 : 0 ≤ rtol := by
    have : (0 : ℝ) ≤ ((N : ℝ) + 6) * (2 * u) :=
      mul_nonneg (by have := Nat.cast_nonneg (α := ℝ) N; linarith) (by linarith)
    linarith
  have h2 : ((N : ℝ) + 6) * (2 * u) * e ≤ rtol / 10 * (1.1 * t) := by
    refine mul_le_mul h1 ?_ e0 (by linarith)
    have : t * (1 + rtol) ≤ t * 1.1 := mul_le_mul_of_nonneg_left (by linarith) t0.le
    linarith
  have h3 : |v - t| ≤ |v - e| + |e - t| := by
    have := abs_add_le (v - e) (e - t)
    rwa [sub_add_sub_cancel] at this
  have h4 : 0 ≤ rtol * t := mul_nonneg r0 t0.le
  have h5 : rtol / 10 * (1.1 * t) = 0.11 * (rtol * t) := by ring
  linarith

end Round

/-- **C113.**  The fit with one parameter per label of a sparse multi-layer model, started from zero and
run in double precision, returns one parameter and one report per label.  For every label the
parameter `d` is a finite double precision number not above `D k`, the exact expected number of edges
`e` of the label at the fitted parameters is within `1.2` times the requested tolerance of the number
asked for, and `v`, the number that `expected_num_edges_label` returns in double precision for the
fitted model, within `1.4` times, unless the iteration limit was reached.  If the report says converged
or stopped without change, both hold.  The parameters tried increase. -/
theorem C113_partial (K : Layer.Kind) (n L : ℕ) (sl : Bool) (x y : ℕ → List (ℕ × ℝ≥0))
    (hx : ∀ i, RowSorted (x i)) (hy : ∀ i, RowSorted (y i))
    (hX : ∀ i < n, ∀ e ∈ x i, Round.InSize e.2) (hY : ∀ i < n, ∀ e ∈ y i, Round.InSize e.2)
    (t : ℕ → ℝ) (atol rtol : ℝ) (maxiter : ℕ) (ho : ∀ k < L, Round.FitRange n (t k) atol rtol)
    (D : ℕ → ℝ≥0) (hD : ∀ k < L, (D k : ℝ) ≤ (2 : ℝ) ^ (45 : ℤ)) (dyad : ℕ → ℕ → XR)
    (h64 : K = .inv → ∀ k < L, ∀ i < n, ∀ j < n, ∀ a b, (k, a) ∈ x i → (k, b) ∈ y j →
      D k * (a * b) ≤ 64)
    (hE : ∀ k < L, ∃ E : ℝ, (Layer.exp_edges_label K.link.p_ijk n L (fun k => fin (D k))
      (fun i => rowN (x i)) (fun i => rowN (y i)) dyad sl)[k]? = some (fin E) ∧
      t k * (1 + rtol) ≤ E) (func : XR → XR × XR) (num_edges : Option ℝ) :
    let X := fun i => rowN (x i)
    let Y := fun i => rowN (y i)
    ∃ r, Round.fitMulti binary64 (Round.labelModel binary64 K n L X Y sl t func num_edges) .none
        .density ⟨atol, rtol, maxiter⟩ = .ok r ∧
      r.param.length = L ∧ r.outputs.length = L ∧
      ∀ k < L, ∃ (sol : Verif.Solver.Solution) (d : ℝ≥0) (e v : ℝ),
        r.outputs[k]? = some sol ∧ r.param[k]? = some (fin d) ∧ sol.x = fin d ∧
        (d : ℝ) ∈ doubles ∧ d ≤ D k ∧
        (Layer.exp_edges_label K.link.p_ijk n L (fun k => r.param.getD k 0) X Y dyad sl)[k]?
          = some (fin e) ∧
        (Round.exp_edges_label binary64 (Round.labelProb binary64 K) n L
          (fun k => r.param.getD k 0) X Y dyad sl)[k]? = some (fin v) ∧
        e ≤ t k * (1 + rtol) ∧
        (sol.max_iter_reached = true ∨ (|e - t k| ≤ 1.2 * (atol + rtol * t k) ∧
          |v - t k| ≤ 1.4 * (atol + rtol * t k))) ∧
        (sol.converged = true ∨ sol.no_change_stop = true → |e - t k| ≤ 1.2 * (atol + rtol * t k) ∧
          |v - t k| ≤ 1.4 * (atol + rtol * t k)) ∧
        ∃ l : List ℝ, sol.x_seq = (l ++ [(d : ℝ)]).map fin ∧ (l ++ [(d : ℝ)]).Pairwise (· < ·) := by
  intro X Y
  have hmean : ∀ d : ℕ → ℝ≥0, ∀ k < L, (Layer.exp_edges_label K.link.p_ijk n L
      (fun k => fin (d k)) X Y dyad sl)[k]? = some (fin (Layer.labelMean K n x y sl k (d k))) := by
    intro d k hk
    rw [Layer.edges_label_eq K n L d hx hy dyad sl]
    simp [hk]
  have hres : ∀ k, ∃ (sol : Verif.Solver.Solution) (d : ℝ≥0), (¬ k < L → d = 0) ∧ (k < L → ∃ e : ℝ,
      fitSingle binary64 ((Round.labelModel binary64 K n L X Y sl t func num_edges).layer k)
        (some (t k)) .none .density ⟨atol, rtol, maxiter⟩ = .ok sol ∧
      sol.x = fin d ∧ (d : ℝ) ∈ doubles ∧ d ≤ D k ∧ (d = 0 ∨ (2 : ℝ) ^ (-195 : ℤ) ≤ d) ∧
      Layer.labelMean K n x y sl k d = e ∧ e ≤ t k * (1 + rtol) ∧
      (sol.max_iter_reached = true ∨ |e - t k| ≤ 1.2 * (atol + rtol * t k)) ∧
      (sol.converged = true ∨ sol.no_change_stop = true → |e - t k| ≤ 1.2 * (atol + rtol * t k)) ∧
      ∃ l : List ℝ, sol.x_seq = (l ++ [(d : ℝ)]).map fin ∧ (l ++ [(d : ℝ)]).Pairwise (· < ·)) := by
    intro k
    by_cases hk : k < L
    · obtain ⟨E, h1, h2⟩ := hE k hk
      rw [hmean D k hk, Option.some.injEq, fin_inj] at h1
      obtain ⟨sol, d, e, e1, e2, dm, dD, dl, hen, hle, h3, h4, h5, -⟩ :=
        label_result K sl hx hy hX hY (k := k) maxiter (ho k hk) (hD k hk)
          (fun hK => h64 hK k hk) (by rw [h1]; exact h2)
      refine ⟨sol, d, fun h => absurd hk h, fun _ => ⟨e, e1, e2, dm, dD, dl, ?_, hle, h3, h4, h5⟩⟩
      rw [Layer.Kind.exp_edges, fin_inj] at hen
      rw [Layer.labelMean, Law.mean_card]
      exact hen
    · exact ⟨⟨fin 0, 0, 0, 0, [], [], [], [], false, false, false⟩, 0, fun _ => rfl, fun h => absurd h hk⟩
  choose sols d hd0 hd using hres
  have hfit := Round.fitMulti_eq (m := Round.labelModel binary64 K n L X Y sl t func num_edges) rfl
    rfl ⟨atol, rtol, maxiter⟩ (sols := sols) (fun k hk => (hd k hk).choose_spec.1)
  replace hfit : Round.fitMulti binary64 (Round.labelModel binary64 K n L X Y sl t func num_edges)
      .none .density ⟨atol, rtol, maxiter⟩ = .ok ⟨(List.range L).map fun k => (sols k).x,
        (List.range L).map sols⟩ := hfit
  have hpar : (fun k => ((List.range L).map fun k => (sols k).x).getD k 0) = fun k => fin (d k) := by
    funext k
    by_cases hk : k < L
    · obtain ⟨e, -, h, -⟩ := hd k hk
      simp [List.getD, hk, h]
    · rw [hd0 k hk]
      simp [List.getD, hk, zero_def]
  refine ⟨_, hfit, by simp, by simp, fun k hk => ?_⟩
  obtain ⟨e, -, h1, h2, h3, h4, h5, h6, h7, h8, h9⟩ := hd k hk
  have hrow : ∀ r : List (ℕ × ℝ≥0), Round.row (r.map fun e => (e.1, (e.2 : ℝ))) = rowN r := by
    intro r
    unfold Round.row rowN
    rw [List.map_map]
    rfl
  have hsort : ∀ {r : List (ℕ × ℝ≥0)}, RowSorted r → RowSorted (r.map fun e => (e.1, (e.2 : ℝ))) := by
    intro r h
    unfold RowSorted at *
    rw [List.pairwise_map]
    exact h
  have hacc := C112_expected_partial (Round.labelProb binary64 K, K.link.p_ijk)
    (by cases K <;> simp [Round.layerModels, Round.labelProb, Layer.Kind.link, Layer.fitLink,
      Layer.invLink]) n L
    (Round.range_n (ho k hk)) (fun k => (d k : ℝ)) (fun i => (x i).map fun e => (e.1, (e.2 : ℝ)))
    (fun i => (y i).map fun e => (e.1, (e.2 : ℝ))) (fun i => hsort (hx i)) (fun i => hsort (hy i))
    (by
      intro i hi j hj k' a b ha hb
      obtain ⟨⟨ka, a'⟩, ha2, ea⟩ := List.mem_map.1 ha
      obtain ⟨⟨kb, b'⟩, hb2, eb⟩ := List.mem_map.1 hb
      obtain ⟨rfl, rfl⟩ := Prod.mk.inj ea
      obtain ⟨-, rfl⟩ := Prod.mk.inj eb
      by_cases hk' : ka < L
      · obtain ⟨-, -, -, -, g1, g2, -⟩ := hd ka hk'
        refine Round.range_of (g2.imp (fun h => by rw [h]; rfl) id) ?_ (hX i hi _ ha2)
          (hY j hj _ hb2)
        exact (NNReal.coe_le_coe.2 g1).trans (hD ka hk')
      · rw [hd0 ka hk']
        exact .inl (.inr (.inr rfl))) dyad sl
  simp only [hrow] at hacc
  obtain ⟨l1, l2, hacc⟩ := hacc
  obtain ⟨v, V, ev, eV, V0, hv⟩ := (hacc k hk).1
  have hV := hmean d k hk
  have eV' : V = Layer.labelMean K n x y sl k (d k) := by
    rw [List.getD, hV] at eV
    simpa using eV.symm
  have ev' : (Round.exp_edges_label binary64 (Round.labelProb binary64 K) n L (fun k => fin (d k))
      X Y dyad sl)[k]? = some (fin v) := by
    have hl : k < (Round.exp_edges_label binary64 (Round.labelProb binary64 K) n L
      (fun k => fin (d k)) X Y dyad sl).length := by rw [l1]; exact hk
    have ev2 := ev
    rw [List.getD, List.getElem?_eq_getElem hl] at ev2
    rw [List.getElem?_eq_getElem hl]
    exact congrArg some ev2
  rw [eV', h5] at hv V0
  have hb := Round.bound_sum (ho k hk) (Round.stored_label_le k) V0 h6 hv
  refine ⟨sols k, d k, e, v, by simp [hk], by simp [hk, h1], h1, h2, h3, ?_, ?_, h6, ?_, ?_, h9⟩
  · rw [hpar, hV, h5]
  · rw [hpar]
    exact ev'
  · exact h7.imp id fun h => ⟨h, hb h⟩
  · exact fun h => ⟨h8 h, hb (h8 h)⟩

/-- Two vertices with unit properties under two labels, half an edge asked for under each: the
hypotheses hold with `D k = 4` for both models. -/
example (K : Layer.Kind) (dyad : ℕ → ℕ → XR) :
    (∀ _ : ℕ, RowSorted [(0, (1 : ℝ≥0)), (1, 1)]) ∧
    (∀ e ∈ [(0, (1 : ℝ≥0)), (1, 1)], Round.InSize e.2) ∧
    Round.FitRange 2 (1 / 2) ((2 : ℝ) ^ (-80 : ℤ)) ((2 : ℝ) ^ (-30 : ℤ)) ∧
    ((4 : ℝ≥0) : ℝ) ≤ (2 : ℝ) ^ (45 : ℤ) ∧
    (∀ k a b, (k, a) ∈ [(0, (1 : ℝ≥0)), (1, 1)] → (k, b) ∈ [(0, (1 : ℝ≥0)), (1, 1)] →
      (4 : ℝ≥0) * (a * b) ≤ 64) ∧
    ∀ k < 2, ∃ E : ℝ, (Layer.exp_edges_label K.link.p_ijk 2 2 (fun _ => fin (4 : ℝ≥0))
      (fun _ => rowN [(0, 1), (1, 1)]) (fun _ => rowN [(0, 1), (1, 1)]) dyad false)[k]?
        = some (fin E) ∧ 1 / 2 * (1 + (2 : ℝ) ^ (-30 : ℤ)) ≤ E := by
  have hs : ∀ _ : ℕ, RowSorted [(0, (1 : ℝ≥0)), (1, 1)] := fun _ => by simp [RowSorted]
  have h30 : (2 : ℝ) ^ (-30 : ℤ) ≤ 1 := zpow_le_one_of_nonpos₀ (by norm_num) (by norm_num)
  refine ⟨hs, ?_, ?_, ?_, ?_, ?_⟩
  · intro e he
    simp only [List.mem_cons, List.not_mem_nil, or_false] at he
    rcases he with rfl | rfl <;> right <;> constructor <;> norm_num
  · have pm : ∀ {k : ℤ}, -1022 ≤ k → k ≤ 1000 → (2 : ℝ) ^ k ∈ doubles :=
      fun h1 h2 => pow_mem (by omega) (by omega)
    refine ⟨?_, pm (by norm_num) (by norm_num), pm (by norm_num) (by norm_num), by norm_num,
      by norm_num, by positivity, by norm_num, by norm_num, by norm_num⟩
    have := pm (k := -1) (by norm_num) (by norm_num)
    norm_num at this ⊢
    exact this
  · norm_num
  · intro k a b ha hb
    simp only [List.mem_cons, Prod.mk.injEq, List.not_mem_nil, or_false] at ha hb
    rcases ha with ⟨-, rfl⟩ | ⟨-, rfl⟩ <;> rcases hb with ⟨-, rfl⟩ | ⟨-, rfl⟩ <;> norm_num
  · intro k hk
    refine ⟨Layer.labelMean K 2 (fun _ => [(0, 1), (1, 1)]) (fun _ => [(0, 1), (1, 1)]) false k 4,
      ?_, ?_⟩
    · rw [Layer.edges_label_eq K 2 2 (fun _ => 4) hs hs dyad false]
      simp [hk]
    · have hen : entry [(0, (1 : ℝ≥0)), (1, 1)] k = 1 := by
        interval_cases k <;> rfl
      have hq : 1 / 2 ≤ K.q (4 : ℝ≥0) := by
        have h4 : ((4 : ℝ≥0) : ℝ≥0∞) ≠ ⊤ := ENNReal.coe_ne_top
        cases K with
        | fit =>
          show 1 / 2 ≤ fitProb _
          rw [fitProb_of_ne_top h4]
          norm_num
        | inv =>
          show 1 / 2 ≤ invProb _
          rw [invProb_of_ne_top h4]
          have h1 : (2 : ℝ) ≤ Real.exp 4 := by linarith [Real.add_one_le_exp (4 : ℝ)]
          have : Real.exp (-4) ≤ 1 / 2 := by
            rw [Real.exp_neg, ← one_div]
            exact one_div_le_one_div_of_le (by norm_num) h1
          norm_num
          linarith
      have hc : (Law.pairs 2 false).card = 2 := by decide
      unfold Layer.labelMean
      rw [Law.mean_card]
      simp only [hen, ENNReal.coe_one, mul_one, Finset.sum_const, hc, nsmul_eq_mul]
      push_cast
      push_cast at hq
      linarith

end Verif
