import Verif.Round.SharedLemmas
import Verif.Round.FitProps
import Verif.Round.AllProps
import Verif.Round.LayerLemmas

/-!
# C114: the fit with one parameter for all labels in double precision

Missing in the theorems with the suffix `_partial`: the fitness model (`C114_fitness_violated`),
properties outside the range `InSize`, initial parameters other than zero, relative tolerances above
`1/10`, numbers of edges that are reached only by parameters above `2 ^ 45` or by parameters with
`(L + 3) (1 + D ∑ x_ik y_jk)` above 100 for some pair.
-/

namespace Verif

open XR Round Fit Verif.Spec
open scoped NNReal ENNReal

namespace Round

private theorem sized {x : ℝ≥0} (h : InSize x) : Sized x := by
  rcases h with h | ⟨h1, h2⟩
  · left; simp [h]
  · right
    refine ⟨?_, h2⟩
    unfold root
    rw [one_div, ← zpow_neg]
    exact h1

private theorem prodRange {x y : ℝ} (hx : Sized x) (hy : Sized y) : ProdRange x y := by
  rcases hx with hx | hx
  · exact .inl hx
  rcases hy with hy | hy
  · exact .inr (.inl hy)
  exact .inr (.inr ⟨pos_of_sized hx, pos_of_sized hy, (pair_mid hx hy).ok⟩)

/-- The sum over the labels is zero or of moderate size. -/
private theorem sum_range {L : ℕ} (hL : (L : ℝ) ≤ 97) {a b : ℕ → ℝ≥0} (ha : ∀ k < L, InSize (a k))
    (hb : ∀ k < L, InSize (b k)) :
    let c : ℝ := ∑ k ∈ Finset.range L, (a k : ℝ) * b k
    c = 0 ∨ (1 / root ^ 3 ≤ c ∧ c ≤ root ^ 3) := by
  intro c
  have r0 := root_pos
  have r1 := root_ge
  have r23 : root ^ 2 ≤ root ^ 3 := pow_le_pow_right₀ (by linarith) (by norm_num)
  have hp : ∀ k, 0 ≤ (a k : ℝ) * b k := fun k => by positivity
  have hle : ∀ k < L, (a k : ℝ) * b k ≤ root ^ 2 := by
    intro k hk
    rcases sized (ha k hk) with h | h
    · rw [h, zero_mul]; positivity
    rcases sized (hb k hk) with h' | h'
    · rw [h', mul_zero]; positivity
    rw [pow_two]
    exact mul_le_mul h.2 h'.2 (pos_of_sized h').le r0.le
  by_cases h : ∃ k ∈ Finset.range L, (a k : ℝ) * b k ≠ 0
  · right
    obtain ⟨k, hk, hne⟩ := h
    constructor
    · have h1 : 1 / root ^ 2 ≤ (a k : ℝ) * b k := by
        have h2 := (sized (ha k (Finset.mem_range.1 hk))).resolve_left (left_ne_zero_of_mul hne)
        have h3 := (sized (hb k (Finset.mem_range.1 hk))).resolve_left (right_ne_zero_of_mul hne)
        calc 1 / root ^ 2 = 1 / root * (1 / root) := by field_simp
          _ ≤ _ := mul_le_mul h2.1 h3.1 (by positivity) (pos_of_sized h2).le
      calc 1 / root ^ 3 ≤ 1 / root ^ 2 := one_div_le_one_div_of_le (by positivity) r23
        _ ≤ _ := h1
        _ ≤ c := Finset.single_le_sum (f := fun k => (a k : ℝ) * b k) (fun i _ => hp i) hk
    · calc c ≤ ∑ _k ∈ Finset.range L, root ^ 2 := Finset.sum_le_sum (fun k hk => hle k (Finset.mem_range.1 hk))
        _ = L * root ^ 2 := by simp
        _ ≤ root * root ^ 2 := mul_le_mul_of_nonneg_right (by linarith) (by positivity)
        _ = root ^ 3 := by ring
  · left
    push Not at h
    exact Finset.sum_eq_zero h

/-- The sum of the loop without rounding is read off at parameter zero. -/
private theorem sum_eq {t' : XR} {m : ℕ} {t : XR} (hs : InvAcc m t t') {S : ℝ}
    (h : Verif.invJacEnd (fin 0) t' = (fin (1 - Real.exp (-(0 * S))), fin (S * Real.exp (-(0 * S))))) :
    t' = fin S := by
  obtain ⟨_, _, V, _, rfl, _⟩ := hs
  have e : Verif.invJacEnd (fin 0) (fin V) = (0, fin V) := by
    simp [Verif.invJacEnd]
  rw [e] at h
  have := congrArg Prod.snd h
  simpa using this

private theorem sorted_length {r : List (ℕ × ℝ≥0)} {L : ℕ} (h : RowSorted r) (hl : ∀ e ∈ r, e.1 < L) :
    r.length ≤ L := by
  have nd : (r.map Prod.fst).Nodup :=
    List.Pairwise.imp (fun h => ne_of_lt h) (List.pairwise_map.2 h)
  have hsub : (r.map Prod.fst).toFinset ⊆ Finset.range L := by
    intro k hk
    obtain ⟨e, he, rfl⟩ := List.mem_map.1 (List.mem_toFinset.1 hk)
    exact Finset.mem_range.2 (hl e he)
  have := Finset.card_le_card hsub
  rwa [List.toFinset_card_of_nodup nd, List.length_map, Finset.card_range] at this

private theorem entry_size {r : List (ℕ × ℝ≥0)} (h : ∀ e ∈ r, InSize e.2) (k : ℕ) :
    InSize (entry r k) := by
  unfold entry
  cases hl : r.lookup k with
  | none => exact .inl rfl
  | some v => exact h _ (mem_of_lookup hl)

private theorem label_le {L : ℕ} {D c : ℝ} (D0 : 0 ≤ D) (c0 : 0 ≤ c) (hL : (L + 3) * (1 + D * c) ≤ 100) :
    (L : ℝ) ≤ 97 ∧ D * c ≤ 64 := by
  have h0 : (0 : ℝ) ≤ L := Nat.cast_nonneg _
  have h1 : 0 ≤ D * c := mul_nonneg D0 c0
  constructor <;> nlinarith

private theorem sum_nn (L : ℕ) (a b : ℕ → ℝ≥0) :
    0 ≤ ∑ k ∈ Finset.range L, (a k : ℝ) * b k :=
  Finset.sum_nonneg fun k _ => by positivity

private theorem nat_le {L : ℕ} (h : (L : ℝ) ≤ 97) : L ≤ 2 ^ 20 := by
  have : L ≤ 97 := by exact_mod_cast h
  omega

/-- The lower bound of the derivative at the largest parameter. -/
private theorem low_of {L : ℕ} {D : ℝ} (D0 : 0 ≤ D) {a b : ℕ → ℝ≥0} (ha : ∀ k < L, InSize (a k))
    (hb : ∀ k < L, InSize (b k))
    (hL : (L + 3) * (1 + D * ∑ k ∈ Finset.range L, (a k : ℝ) * b k) ≤ 100) :
    1 - Real.exp (-(D * ∑ k ∈ Finset.range L, (a k : ℝ) * b k)) = 0 ∨
      1 / big ≤ (∑ k ∈ Finset.range L, (a k : ℝ) * b k) *
        Real.exp (-(D * ∑ k ∈ Finset.range L, (a k : ℝ) * b k)) := by
  obtain ⟨h1, h2⟩ := label_le D0 (sum_nn L a b) hL
  have := sum_range h1 ha hb
  generalize (∑ k ∈ Finset.range L, (a k : ℝ) * b k) = c at *
  rcases this with rfl | h
  · left; simp
  · right; exact inv_low h.1 h2

private theorem sparse_exact {L : ℕ} {x y : List (ℕ × ℝ≥0)} (hx : RowSorted x)
    (hy : RowSorted y) (hxl : ∀ e ∈ x, e.1 < L) (hyl : ∀ e ∈ y, e.1 < L) (d : ℝ) :
    Verif.Sparse.MultiInvariantModel.p_jac_ij (fin d) (rowN x) (rowN y) =
      (fin (1 - Real.exp (-(d * ∑ k ∈ Finset.range L, ((entry x k : ℝ≥0) : ℝ) * (entry y k : ℝ≥0)))),
       fin ((∑ k ∈ Finset.range L, ((entry x k : ℝ≥0) : ℝ) * (entry y k : ℝ≥0)) *
        Real.exp (-(d * ∑ k ∈ Finset.range L, ((entry x k : ℝ≥0) : ℝ) * (entry y k : ℝ≥0))))) := by
  have b : ∀ r : List (ℕ × ℝ≥0), (∀ e ∈ r, e.1 < L) → ∀ e ∈ rowN r, e.1 < L := by
    intro r h e he
    obtain ⟨e', he', rfl⟩ := List.mem_map.1 he
    exact h e' he'
  have m : ∀ r : List (ℕ × ℝ≥0), (List.range L).map (entry (rowN r)) = denseN L (entry r) :=
    fun r => List.map_congr_left (fun k _ => entry_rowN r k)
  rw [sparse_dense_inv_jac _ (sorted_rowN hx) (sorted_rowN hy) (b x hxl) (b y hyl), m, m]
  exact multi_inv_jac_fin L

private theorem sparse_pair {L : ℕ} {D : ℝ} (D0 : 0 ≤ D) {x y : List (ℕ × ℝ≥0)} (hx : RowSorted x)
    (hy : RowSorted y) (hxl : ∀ e ∈ x, e.1 < L) (hyl : ∀ e ∈ y, e.1 < L)
    (hX : ∀ e ∈ x, InSize e.2) (hY : ∀ e ∈ y, InSize e.2)
    (hL : (L + 3) * (1 + D * ∑ k ∈ Finset.range L, ((entry x k : ℝ≥0) : ℝ) * (entry y k : ℝ≥0)) ≤ 100)
    {d : ℝ} (dD : d ≤ D) (hd : d = 0 ∨ Mid d) :
    PairAcc (Sparse.MultiInvariantModel.p_jac_ij binary64 (fin d) (rowN x) (rowN y))
      (1 - Real.exp (-(d * ∑ k ∈ Finset.range L, ((entry x k : ℝ≥0) : ℝ) * (entry y k : ℝ≥0))))
      ((∑ k ∈ Finset.range L, ((entry x k : ℝ≥0) : ℝ) * (entry y k : ℝ≥0)) *
        Real.exp (-(d * ∑ k ∈ Finset.range L, ((entry x k : ℝ≥0) : ℝ) * (entry y k : ℝ≥0)))) := by
  have hl := (label_le D0 (sum_nn L (entry x) (entry y)) hL).1
  have hlen := sorted_length hx hxl
  have h20 := nat_le hl
  have hr : ∀ r : List (ℕ × ℝ≥0), (rowN r).length = r.length := fun r => by simp [rowN]
  obtain ⟨t, t', e1, e2, hP⟩ := mergeLoop_rel (P := InvAcc) (M := 2 ^ 20) (body := invJacBody binary64)
    (body' := Verif.invJacBody) (fun m s t h => h.mono) (rowN x) (rowN y) 0 0 0
    (by rw [hr]; omega) (by
      intro k a b ha hb m hm s s' hs
      obtain ⟨⟨_, a'⟩, ha', h1⟩ := List.mem_map.1 ha
      obtain ⟨⟨_, b'⟩, hb', h2⟩ := List.mem_map.1 hb
      cases h1; cases h2
      exact jac_layer (prodRange (sized (hX _ ha')) (sized (hY _ hb'))) m hm s s' hs) InvAcc.zero
  have hex := sparse_exact hx hy hxl hyl 0
  unfold Verif.Sparse.MultiInvariantModel.p_jac_ij at hex
  rw [if_neg (by simp), e2] at hex
  have ht := sum_eq hP hex
  unfold Sparse.MultiInvariantModel.p_jac_ij
  rw [if_neg (by simp), e1]
  exact jac_end (L := L) (by rw [hr]; omega) hP hd dD ht
    (sum_range hl (fun k _ => entry_size hX k) (fun k _ => entry_size hY k)) hL

private theorem dense_pair {L : ℕ} {D : ℝ} (D0 : 0 ≤ D) {x y : ℕ → ℝ≥0}
    (hX : ∀ k < L, InSize (x k)) (hY : ∀ k < L, InSize (y k))
    (hL : (L + 3) * (1 + D * ∑ k ∈ Finset.range L, (x k : ℝ) * y k) ≤ 100)
    {d : ℝ} (dD : d ≤ D) (hd : d = 0 ∨ Mid d) :
    PairAcc (Dense.MultiInvariantModel.p_jac_ij binary64 (fin d) (denseN L x) (denseN L y))
      (1 - Real.exp (-(d * ∑ k ∈ Finset.range L, (x k : ℝ) * y k)))
      ((∑ k ∈ Finset.range L, (x k : ℝ) * y k) *
        Real.exp (-(d * ∑ k ∈ Finset.range L, (x k : ℝ) * y k))) := by
  have hl := (label_le D0 (sum_nn L x y) hL).1
  have h20 := nat_le hl
  have hr : ∀ r : ℕ → ℝ≥0, (denseN L r).length = L := fun r => by simp [denseN]
  obtain ⟨t, t', e1, e2, hP⟩ := zipLoop_rel (P := InvAcc) (M := 2 ^ 20) (body := invJacBody binary64)
    (body' := Verif.invJacBody) (fun m s t h => h.mono) (denseN L x) (denseN L y) 0 0 0 0
    (by rw [hr]; omega) (by
      intro i hi hj m hm s s' hs
      have g : ∀ (r : ℕ → ℝ≥0) (h : i < (denseN L r).length), (denseN L r)[i] = fin (r i) :=
        fun r h => by simp [denseN]
      rw [g x hi, g y hj]
      exact jac_layer (prodRange (sized (hX i (by simpa [denseN] using hi))) (sized (hY i (by simpa [denseN] using hi)))) m hm s s' hs) InvAcc.zero
  have hex : Verif.Dense.MultiInvariantModel.p_jac_ij (fin 0) (denseN L x) (denseN L y) = _ :=
    multi_inv_jac_fin L
  unfold Verif.Dense.MultiInvariantModel.p_jac_ij at hex
  rw [if_neg (by simp), e2] at hex
  have ht := sum_eq hP hex
  unfold Dense.MultiInvariantModel.p_jac_ij
  rw [if_neg (by simp), e1]
  exact jac_end (L := L) (by rw [hr]; omega) hP hd dD ht (sum_range hl hX hY) hL

private theorem sparse_setup {n L : ℕ} {x y : ℕ → List (ℕ × ℝ≥0)} {D : ℝ} (D0 : 0 ≤ D)
    (hx : ∀ i, RowSorted (x i)) (hy : ∀ i, RowSorted (y i))
    (hxl : ∀ i < n, ∀ e ∈ x i, e.1 < L) (hyl : ∀ i < n, ∀ e ∈ y i, e.1 < L)
    (hX : ∀ i < n, ∀ e ∈ x i, InSize e.2) (hY : ∀ i < n, ∀ e ∈ y i, InSize e.2)
    (hL : ∀ i < n, ∀ j < n, (L + 3) * (1 + D * ∑ k ∈ Finset.range L,
      ((entry (x i) k : ℝ≥0) : ℝ) * (entry (y j) k : ℝ≥0)) ≤ 100) :
    PairSetup (Fit.sparseMultiInv x y) (fun d i j =>
      Sparse.MultiInvariantModel.p_jac_ij binary64 d (rowN (x i)) (rowN (y j))) n D where
  acc := fun d _ dD hd i hi j hj =>
    ⟨_, _, sparse_exact (hx i) (hy j) (hxl i hi) (hyl j hj) d,
      sparse_pair D0 (hx i) (hy j) (hxl i hi) (hyl j hj) (hX i hi) (hY j hj) (hL i hi j hj) dD hd⟩
  low := fun i hi j hj =>
    ⟨_, _, sparse_exact (hx i) (hy j) (hxl i hi) (hyl j hj) D,
      low_of D0 (fun k _ => entry_size (hX i hi) k) (fun k _ => entry_size (hY j hj) k) (hL i hi j hj)⟩

private theorem dense_setup {n L : ℕ} {x y : ℕ → ℕ → ℝ≥0} {D : ℝ} (D0 : 0 ≤ D)
    (hX : ∀ i < n, ∀ k < L, InSize (x i k)) (hY : ∀ i < n, ∀ k < L, InSize (y i k))
    (hL : ∀ i < n, ∀ j < n, (L + 3) * (1 + D * ∑ k ∈ Finset.range L, (x i k : ℝ) * y j k) ≤ 100) :
    PairSetup (Fit.denseMultiInv L x y) (fun d i j =>
      Dense.MultiInvariantModel.p_jac_ij binary64 d (denseN L (x i)) (denseN L (y j))) n D where
  acc := fun _ _ dD hd i hi j hj =>
    ⟨_, _, multi_inv_jac_fin L, dense_pair D0 (hX i hi) (hY j hj) (hL i hi j hj) dD hd⟩
  low := fun i hi j hj =>
    ⟨_, _, multi_inv_jac_fin L, low_of D0 (hX i hi) (hY j hj) (hL i hi j hj)⟩

/-- With one parameter for all labels the fit is a single call of the solver. -/
private theorem fitMulti_shared {m : MultiModel} (hp : m.per_label = false) {t : ℝ}
    (he : m.num_edges = some t) (o : Opts) {r : Verif.Solver.Solution}
    (h : fitSingle binary64 m.func (some t) .none .density o = .ok r) :
    fitMulti binary64 m .none .density o = .ok ⟨List.replicate m.num_labels r.x, [r]⟩ := by
  rw [fitSingle_eq] at h
  have hneg : anyNeg (List.replicate m.num_labels (0 : XR)) = false := by
    simp [anyNeg, zero_def]
  have hget : (List.replicate m.num_labels (0 : XR)).getD 0 0 = fin 0 := by
    cases m.num_labels <;> simp [List.replicate, zero_def]
  simp only [fitMulti, X0.multi, List.length_replicate, ne_eq, not_true_eq_false, if_false,
    Bool.not_true, Bool.false_eq_true, hneg, hp, he, hget, h]

/-- Parameter and properties in the range of the fit are in the range of `C108`. -/
private theorem range_of {d : ℝ} {a b : ℝ≥0} (hd : d = 0 ∨ (2 : ℝ) ^ (-195 : ℤ) ≤ d)
    (hd' : d ≤ (2 : ℝ) ^ (45 : ℤ)) (ha : InSize a) (hb : InSize b) : LayerRange d a b := by
  rcases hd with rfl | hd
  · exact .inl (.inr (.inr rfl))
  rcases ha with rfl | ⟨a1, a2⟩
  · exact .inl (.inl rfl)
  rcases hb with rfl | ⟨b1, b2⟩
  · exact .inl (.inr (.inl rfl))
  have pd : (0 : ℝ) < (2 : ℝ) ^ (-195 : ℤ) := pow_pos' _
  have pa : (0 : ℝ) < (2 : ℝ) ^ (-33 : ℤ) := pow_pos' _
  have d0 := pd.trans_le hd
  have a0 := pa.trans_le a1
  have b0 := pa.trans_le b1
  have l1 : (2 : ℝ) ^ (-228 : ℤ) ≤ d * a := by
    rw [show (2 : ℝ) ^ (-228 : ℤ) = (2 : ℝ) ^ (-195 : ℤ) * (2 : ℝ) ^ (-33 : ℤ) by
      rw [← zpow_add₀ two_ne_zero]; norm_num]
    exact mul_le_mul hd a1 pa.le d0.le
  have u1 : d * a ≤ (2 : ℝ) ^ (78 : ℤ) := by
    rw [show (2 : ℝ) ^ (78 : ℤ) = (2 : ℝ) ^ (45 : ℤ) * (2 : ℝ) ^ (33 : ℤ) by
      rw [← zpow_add₀ two_ne_zero]; norm_num]
    exact mul_le_mul hd' a2 a0.le (pow_pos' _).le
  have l2 : (2 : ℝ) ^ (-261 : ℤ) ≤ d * a * b := by
    rw [show (2 : ℝ) ^ (-261 : ℤ) = (2 : ℝ) ^ (-228 : ℤ) * (2 : ℝ) ^ (-33 : ℤ) by
      rw [← zpow_add₀ two_ne_zero]; norm_num]
    exact mul_le_mul l1 b1 pa.le (mul_pos d0 a0).le
  have u2 : d * a * b ≤ (2 : ℝ) ^ (111 : ℤ) := by
    rw [show (2 : ℝ) ^ (111 : ℤ) = (2 : ℝ) ^ (78 : ℤ) * (2 : ℝ) ^ (33 : ℤ) by
      rw [← zpow_add₀ two_ne_zero]; norm_num]
    exact mul_le_mul u1 b2 b0.le (pow_pos' _).le
  exact .inr ⟨d0, a0, b0,
    ⟨(zpow_le_zpow_right₀ one_le_two (by norm_num)).trans l1,
      u1.trans (zpow_le_zpow_right₀ one_le_two (by norm_num))⟩,
    ⟨(zpow_le_zpow_right₀ one_le_two (by norm_num)).trans l2,
      u2.trans (zpow_le_zpow_right₀ one_le_two (by norm_num))⟩⟩

private theorem range_n {n : ℕ} {t atol rtol : ℝ} (ho : FitRange n t atol rtol) : n ≤ 2 ^ 25 := by
  by_contra hn
  have h1 : (2 ^ 25 : ℕ) * 2 ^ 25 ≤ n * n := Nat.mul_le_mul (by omega) (by omega)
  have h2 : ((2 : ℝ) ^ 50) ≤ ((n * n : ℕ) : ℝ) := by
    have : (2 ^ 50 : ℕ) ≤ n * n := by
      calc (2 ^ 50 : ℕ) = 2 ^ 25 * 2 ^ 25 := by norm_num
        _ ≤ _ := h1
    exact_mod_cast this
  have h3 := ho.rtol_ge.trans ho.rtol_le
  have h4 : (20 : ℝ) * (2 ^ 50 + 300) * (2 : ℝ) ^ (-53 : ℤ)
      ≤ 20 * (((n * n : ℕ) : ℝ) + 300) * (2 : ℝ) ^ (-53 : ℤ) :=
    mul_le_mul_of_nonneg_right (mul_le_mul_of_nonneg_left (by linarith) (by norm_num)) (pow_pos' _).le
  have h5 : (1 : ℝ) / 10 < 20 * (2 ^ 50 + 300) * (2 : ℝ) ^ (-53 : ℤ) := by norm_num
  linarith

private theorem target_pos {n : ℕ} {t atol rtol : ℝ} (ho : FitRange n t atol rtol) :
    0 < t * (1 + rtol) := by
  have t0 : 0 < t := lt_of_lt_of_le (pow_pos' _) ho.target_ge
  have r0 : 0 ≤ rtol := le_trans (by positivity) ho.rtol_ge
  positivity

private theorem bound_sum {n : ℕ} {t atol rtol e v : ℝ} {N : ℕ} (ho : FitRange n t atol rtol)
    {L : ℕ} (hL : (L : ℝ) ≤ 97) (hN : N ≤ n * n) (e0 : 0 ≤ e) (he : e ≤ t * (1 + rtol))
    (hv : |v - e| ≤ (N + (2 * L + 6)) * (2 : ℝ) ^ (-52 : ℤ) * e) (h : |e - t| ≤ 1.2 * (atol + rtol * t)) :
    |v - t| ≤ 1.4 * (atol + rtol * t) := by
  have t0 : 0 < t := lt_of_lt_of_le (pow_pos' _) ho.target_ge
  have hN' : (N : ℝ) ≤ ((n * n : ℕ) : ℝ) := by exact_mod_cast hN
  have h52 : (2 : ℝ) ^ (-52 : ℤ) = 2 * (2 : ℝ) ^ (-53 : ℤ) := by norm_num
  have u0 : (0 : ℝ) < (2 : ℝ) ^ (-53 : ℤ) := pow_pos' _
  have r1 := ho.rtol_ge
  have r2 := ho.rtol_le
  have a0 := ho.atol_ge
  rw [h52] at hv
  generalize (2 : ℝ) ^ (-53 : ℤ) = u at *
  have h1 : ((N : ℝ) + (2 * L + 6)) * (2 * u) ≤ rtol / 10 := by
    have : ((N : ℝ) + (2 * L + 6)) * (2 * u) ≤ (((n * n : ℕ) : ℝ) + 300) * (2 * u) :=
      mul_le_mul_of_nonneg_right (by linarith) (by linarith)
    linarith
  have r0 : 0 ≤ rtol := by
    have : (0 : ℝ) ≤ ((N : ℝ) + (2 * L + 6)) * (2 * u) :=
      mul_nonneg (by have := Nat.cast_nonneg (α := ℝ) N; have := Nat.cast_nonneg (α := ℝ) L; linarith) (by linarith)
    linarith
  have h2 : ((N : ℝ) + (2 * L + 6)) * (2 * u) * e ≤ rtol / 10 * (1.1 * t) := by
    refine mul_le_mul h1 ?_ e0 (by linarith)
    have : t * (1 + rtol) ≤ t * 1.1 := mul_le_mul_of_nonneg_left (by linarith) t0.le
    linarith
  have h3 : |v - t| ≤ |v - e| + |e - t| := by
    have := abs_add_le (v - e) (e - t)
    rwa [sub_add_sub_cancel] at this
  have h4 : 0 ≤ rtol * t := mul_nonneg r0 t0.le
  have h5 : rtol / 10 * (1.1 * t) = 0.11 * (rtol * t) := by ring
  linarith

end Round

/-- **C114**, sparse (and spark) `MultiInvariantModel`.  The fit with one parameter for all labels,
started from zero and run in double precision, returns the same parameter `d` for each of the `L` labels
and one report.  The parameter is a finite double precision number not above `D`.  The exact expected
number of edges `e` (counting a pair once, whatever its labels) at that parameter is within `1.2` times
the requested tolerance of the target `t`, and `v`, the number that `expected_num_edges` returns in
double precision for the fitted model, within `1.4` times, unless the iteration limit was reached.  If
the report says converged or stopped without change, both hold.  The parameters tried increase. -/
theorem C114_sparse_partial (n L : ℕ) (sl : Bool) (x y : ℕ → List (ℕ × ℝ≥0))
    (hx : ∀ i, RowSorted (x i)) (hy : ∀ i, RowSorted (y i))
    (hxl : ∀ i < n, ∀ e ∈ x i, e.1 < L) (hyl : ∀ i < n, ∀ e ∈ y i, e.1 < L)
    (hX : ∀ i < n, ∀ e ∈ x i, Round.InSize e.2) (hY : ∀ i < n, ∀ e ∈ y i, Round.InSize e.2)
    (t atol rtol : ℝ) (maxiter : ℕ) (ho : Round.FitRange n t atol rtol) (D : ℝ≥0) (E : ℝ)
    (hD : (D : ℝ) ≤ (2 : ℝ) ^ (45 : ℤ))
    (hL : ∀ i < n, ∀ j < n,
      (L + 3) * (1 + D * ∑ k ∈ Finset.range L, entry (x i) k * entry (y j) k) ≤ 100)
    (heD : DiGraphEnsemble.exp_edges (fun d a b (_ : Unit) => Sparse.MultiInvariantModel.p_ij d a b)
      (fun _ => fin D) n (fun i => rowN (x i)) (fun j => rowN (y j)) (fun _ _ => ()) sl = fin E)
    (hle : t * (1 + rtol) ≤ E) (num_edges_label : Option (ℕ → ℝ)) (layer : ℕ → XR → XR × XR) :
    let X := fun i => rowN (x i)
    let Y := fun i => rowN (y i)
    ∃ (r : Verif.Solver.Solution) (d : ℝ≥0) (e v : ℝ),
      Round.fitMulti binary64 (Round.sharedModel binary64
          (fun d i j => Round.Sparse.MultiInvariantModel.p_jac_ij binary64 d (X i) (Y j)) n L sl
          (some t) num_edges_label layer) .none .density ⟨atol, rtol, maxiter⟩
        = .ok ⟨List.replicate L (fin d), [r]⟩ ∧
      r.x = fin d ∧ (d : ℝ) ∈ doubles ∧ d ≤ D ∧
      DiGraphEnsemble.exp_edges (fun d a b (_ : Unit) => Sparse.MultiInvariantModel.p_ij d a b)
        (fun _ => fin d) n X Y (fun _ _ => ()) sl = fin e ∧
      Round.exp_edges binary64
        (fun d a b (_ : Unit) => Round.Sparse.MultiInvariantModel.p_ij binary64 d a b)
        (fun _ => fin d) n X Y (fun _ _ => ()) sl = fin v ∧
      e ≤ t * (1 + rtol) ∧
      (r.max_iter_reached = true ∨ (|e - t| ≤ 1.2 * (atol + rtol * t) ∧
        |v - t| ≤ 1.4 * (atol + rtol * t))) ∧
      (r.converged = true ∨ r.no_change_stop = true → |e - t| ≤ 1.2 * (atol + rtol * t) ∧
        |v - t| ≤ 1.4 * (atol + rtol * t)) ∧
      ∃ l : List ℝ, r.x_seq = (l ++ [(d : ℝ)]).map fin ∧ (l ++ [(d : ℝ)]).Pairwise (· < ·) := by
  intro X Y
  have hL' : ∀ i < n, ∀ j < n, ((L : ℝ) + 3) * (1 + (D : ℝ) * ∑ k ∈ Finset.range L,
      ((entry (x i) k : ℝ≥0) : ℝ) * (entry (y j) k : ℝ≥0)) ≤ 100 := by
    intro i hi j hj
    exact_mod_cast hL i hi j hj
  have hens : ∀ d : ℝ≥0, ((Fit.sparseMultiInv x y).ens d).exp_edges n sl = DiGraphEnsemble.exp_edges
      (fun d a b (_ : Unit) => Sparse.MultiInvariantModel.p_ij d a b) (fun _ => fin d) n X Y
      (fun _ _ => ()) sl := by
    intro d
    have e1 : (Ens.arr fun _ : ℕ => (d : ℝ≥0∞)) = fun _ => fin d := funext fun _ => ofENN_coe d
    show DiGraphEnsemble.exp_edges _ (Ens.arr fun _ : ℕ => (d : ℝ≥0∞)) n
      (fun i => rowX (rowENN (x i))) (fun i => rowX (rowENN (y i))) _ sl = _
    simp only [e1, rowX_rowENN]
    rfl
  obtain ⟨r, d, e, h1, h2, dm, dD, dl, he, hle', h3, h4, h5, -⟩ :=
    Round.fit_result (maxiter := maxiter) (.sparseMultiInv x y hx hy)
      (sparse_setup D.2 hx hy hxl hyl hX hY hL') hD ho ((hens D).trans heD) hle
  have hn := range_n ho
  rw [hens] at he
  have dl' : (d : ℝ) = 0 ∨ (2 : ℝ) ^ (-195 : ℤ) ≤ d := dl.imp (fun h => by rw [h]; rfl) id
  have dD' : (d : ℝ) ≤ (2 : ℝ) ^ (45 : ℤ) := (NNReal.coe_le_coe.2 dD).trans hD
  have n0 : n ≠ 0 := by
    rintro rfl
    have E0 : E = 0 := XR.fin.inj (heD.symm.trans (by simp [DiGraphEnsemble.exp_edges, zero_def]))
    exact absurd hle (not_le.2 (E0 ▸ target_pos ho))
  have hl := (label_le D.2 (sum_nn L _ _) (hL' 0 (Nat.pos_of_ne_zero n0) 0 (Nat.pos_of_ne_zero n0))).1
  have hc := (C108_invariant_sparse_partial n L hn (nat_le hl) (fun _ => d)
    (fun i => (x i).map fun e => (e.1, (e.2 : ℝ))) (fun i => (y i).map fun e => (e.1, (e.2 : ℝ)))
    (fun i hi => by rw [List.length_map]; exact sorted_length (hx i) (hxl i hi))
    (fun i hi j hj k a b ha hb => by
      obtain ⟨⟨_, a'⟩, ha', g1⟩ := List.mem_map.1 ha
      obtain ⟨⟨_, b'⟩, hb', g2⟩ := List.mem_map.1 hb
      cases g1; cases g2
      exact range_of dl' dD' (hX i hi _ ha') (hY j hj _ hb')) sl).2.1
  have hrow : ∀ r : List (ℕ × ℝ≥0),
      ((r.map fun e => (e.1, (e.2 : ℝ))).map fun p => (p.1, fin p.2)) = rowN r := by
    intro r
    rw [List.map_map]
    rfl
  simp only [hrow] at hc
  obtain ⟨v, V, c1, c2, V0, hv⟩ := hc
  obtain rfl : V = e := by
    have := c2.symm.trans he
    exact XR.fin.inj this
  have hb : |V - t| ≤ 1.2 * (atol + rtol * t) → |v - t| ≤ 1.4 * (atol + rtol * t) := by
    refine fun h => bound_sum ho hl (Nat.mul_le_mul le_rfl ?_) V0 hle' hv h
    split <;> omega
  refine ⟨r, d, V, v, ?_, h2, dm, dD, he, c1, hle', h3.imp id fun h => ⟨h, hb h⟩,
    fun h => ⟨h4 h, hb (h4 h)⟩, h5⟩
  rw [← h2]
  exact fitMulti_shared rfl rfl _ h1

/-- **C114**, dense `MultiInvariantModel`: the same for properties given as arrays with one column per
label. -/
theorem C114_dense_partial (n L : ℕ) (sl : Bool) (x y : ℕ → ℕ → ℝ≥0)
    (hX : ∀ i < n, ∀ k < L, Round.InSize (x i k)) (hY : ∀ i < n, ∀ k < L, Round.InSize (y i k))
    (t atol rtol : ℝ) (maxiter : ℕ) (ho : Round.FitRange n t atol rtol) (D : ℝ≥0) (E : ℝ)
    (hD : (D : ℝ) ≤ (2 : ℝ) ^ (45 : ℤ))
    (hL : ∀ i < n, ∀ j < n,
      (L + 3) * (1 + D * ∑ k ∈ Finset.range L, x i k * y j k) ≤ 100)
    (heD : DiGraphEnsemble.exp_edges (fun d a b (_ : Unit) => Dense.MultiInvariantModel.p_ij d a b)
      (fun _ => fin D) n (fun i => denseN L (x i)) (fun j => denseN L (y j)) (fun _ _ => ()) sl = fin E)
    (hle : t * (1 + rtol) ≤ E) (num_edges_label : Option (ℕ → ℝ)) (layer : ℕ → XR → XR × XR) :
    let X := fun i => denseN L (x i)
    let Y := fun i => denseN L (y i)
    ∃ (r : Verif.Solver.Solution) (d : ℝ≥0) (e v : ℝ),
      Round.fitMulti binary64 (Round.sharedModel binary64
          (fun d i j => Round.Dense.MultiInvariantModel.p_jac_ij binary64 d (X i) (Y j)) n L sl
          (some t) num_edges_label layer) .none .density ⟨atol, rtol, maxiter⟩
        = .ok ⟨List.replicate L (fin d), [r]⟩ ∧
      r.x = fin d ∧ (d : ℝ) ∈ doubles ∧ d ≤ D ∧
      DiGraphEnsemble.exp_edges (fun d a b (_ : Unit) => Dense.MultiInvariantModel.p_ij d a b)
        (fun _ => fin d) n X Y (fun _ _ => ()) sl = fin e ∧
      Round.exp_edges binary64
        (fun d a b (_ : Unit) => Round.Dense.MultiInvariantModel.p_ij binary64 d a b)
        (fun _ => fin d) n X Y (fun _ _ => ()) sl = fin v ∧
      e ≤ t * (1 + rtol) ∧
      (r.max_iter_reached = true ∨ (|e - t| ≤ 1.2 * (atol + rtol * t) ∧
        |v - t| ≤ 1.4 * (atol + rtol * t))) ∧
      (r.converged = true ∨ r.no_change_stop = true → |e - t| ≤ 1.2 * (atol + rtol * t) ∧
        |v - t| ≤ 1.4 * (atol + rtol * t)) ∧
      ∃ l : List ℝ, r.x_seq = (l ++ [(d : ℝ)]).map fin ∧ (l ++ [(d : ℝ)]).Pairwise (· < ·) := by
  intro X Y
  have hL' : ∀ i < n, ∀ j < n, ((L : ℝ) + 3) * (1 + (D : ℝ) * ∑ k ∈ Finset.range L,
      (x i k : ℝ) * y j k) ≤ 100 := by
    intro i hi j hj
    exact_mod_cast hL i hi j hj
  have hens : ∀ d : ℝ≥0, ((Fit.denseMultiInv L x y).ens d).exp_edges n sl = DiGraphEnsemble.exp_edges
      (fun d a b (_ : Unit) => Dense.MultiInvariantModel.p_ij d a b) (fun _ => fin d) n X Y
      (fun _ _ => ()) sl := by
    intro d
    have e1 : (Ens.arr fun _ : ℕ => (d : ℝ≥0∞)) = fun _ => fin d := funext fun _ => ofENN_coe d
    have ed : ∀ z : ℕ → ℝ≥0, denseX L (toENN z) = denseN L z := fun z => by
      unfold denseX denseN toENN; simp [ofENN_coe]
    show DiGraphEnsemble.exp_edges _ (Ens.arr fun _ : ℕ => (d : ℝ≥0∞)) n
      (fun i => denseX L (toENN (x i))) (fun i => denseX L (toENN (y i))) _ sl = _
    simp only [e1, ed]
    rfl
  obtain ⟨r, d, e, h1, h2, dm, dD, dl, he, hle', h3, h4, h5, -⟩ :=
    Round.fit_result (maxiter := maxiter) (.denseMultiInv L x y)
      (dense_setup D.2 hX hY hL') hD ho ((hens D).trans heD) hle
  have hn := range_n ho
  rw [hens] at he
  have dl' : (d : ℝ) = 0 ∨ (2 : ℝ) ^ (-195 : ℤ) ≤ d := dl.imp (fun h => by rw [h]; rfl) id
  have dD' : (d : ℝ) ≤ (2 : ℝ) ^ (45 : ℤ) := (NNReal.coe_le_coe.2 dD).trans hD
  have n0 : n ≠ 0 := by
    rintro rfl
    have E0 : E = 0 := XR.fin.inj (heD.symm.trans (by simp [DiGraphEnsemble.exp_edges, zero_def]))
    exact absurd hle (not_le.2 (E0 ▸ target_pos ho))
  have hl := (label_le D.2 (sum_nn L _ _) (hL' 0 (Nat.pos_of_ne_zero n0) 0 (Nat.pos_of_ne_zero n0))).1
  have hc := (C108_invariant_dense_partial n L hn (nat_le hl) (fun _ => d)
    (fun i => (List.range L).map fun k => (x i k : ℝ)) (fun i => (List.range L).map fun k => (y i k : ℝ))
    (fun i _ => by simp)
    (fun i hi j hj k hk hk' => by
      have hkL : k < L := by simpa using hk
      simp only [List.getElem_map, List.getElem_range]
      exact range_of dl' dD' (hX i hi k hkL) (hY j hj k hkL)) sl).2.1
  have hrow : ∀ z : ℕ → ℝ≥0, (((List.range L).map fun k => (z k : ℝ)).map fin) = denseN L z := by
    intro z
    rw [List.map_map]
    rfl
  simp only [hrow] at hc
  obtain ⟨v, V, c1, c2, V0, hv⟩ := hc
  obtain rfl : V = e := by
    have := c2.symm.trans he
    exact XR.fin.inj this
  have hb : |V - t| ≤ 1.2 * (atol + rtol * t) → |v - t| ≤ 1.4 * (atol + rtol * t) := by
    refine fun h => bound_sum ho hl (Nat.mul_le_mul le_rfl ?_) V0 hle' hv h
    split <;> omega
  refine ⟨r, d, V, v, ?_, h2, dm, dD, he, c1, hle', h3.imp id fun h => ⟨h, hb h⟩,
    fun h => ⟨h4 h, hb (h4 h)⟩, h5⟩
  rw [← h2]
  exact fitMulti_shared rfl rfl _ h1

/-- Two vertices, two labels, all properties equal to one, one edge asked for. -/
example :
    let x : ℕ → List (ℕ × ℝ≥0) := fun _ => [(0, 1), (1, 1)]
    (∀ i, RowSorted (x i)) ∧ (∀ i < 2, ∀ e ∈ x i, e.1 < 2) ∧
    (∀ i < 2, ∀ e ∈ x i, Round.InSize e.2) ∧
    Round.FitRange 2 1 ((2 : ℝ) ^ (-20 : ℤ)) ((2 : ℝ) ^ (-20 : ℤ)) ∧
    ((1 : ℝ≥0) : ℝ) ≤ (2 : ℝ) ^ (45 : ℤ) ∧
    (∀ i < 2, ∀ j < 2, ((2 : ℕ) + 3 : ℝ≥0) *
      (1 + 1 * ∑ k ∈ Finset.range 2, entry (x i) k * entry (x j) k) ≤ 100) ∧
    ∃ E : ℝ, DiGraphEnsemble.exp_edges
        (fun d a b (_ : Unit) => Sparse.MultiInvariantModel.p_ij d a b) (fun _ => fin (1 : ℝ≥0)) 2
        (fun i => rowN (x i)) (fun j => rowN (x j)) (fun _ _ => ()) false = fin E ∧
      1 * (1 + (2 : ℝ) ^ (-20 : ℤ)) ≤ E := by
  intro x
  have one : Round.InSize 1 := .inr ⟨by norm_num, by norm_num⟩
  refine ⟨fun i => by simp [x, RowSorted], fun i _ e he => ?_, fun i _ e he => ?_,
    ⟨Faithful.binary64.one_mem, pow_mem (by norm_num) (by norm_num),
      pow_mem (by norm_num) (by norm_num), by norm_num, by norm_num, by norm_num, by norm_num,
      by norm_num, by norm_num⟩, by norm_num, fun i _ j _ => ?_, 2 * (1 - Real.exp (-2)), ?_, ?_⟩
  · rcases List.mem_cons.1 he with rfl | he
    · norm_num
    · rw [List.mem_singleton.1 he]; norm_num
  · rcases List.mem_cons.1 he with rfl | he
    · exact one
    · rw [List.mem_singleton.1 he]; exact one
  · have : ∀ k < 2, entry (x i) k = 1 := by
      intro k hk
      interval_cases k <;> rfl
    rw [Finset.sum_range_succ, Finset.sum_range_one]
    show _ * (1 + 1 * (entry (x i) 0 * entry (x i) 0 + entry (x i) 1 * entry (x i) 1)) ≤ _
    rw [this 0 (by norm_num), this 1 (by norm_num)]
    norm_num
  · have hp : Sparse.MultiInvariantModel.p_ij (fun _ => fin (1 : ℝ≥0)) (rowN [(0, 1), (1, 1)])
        (rowN [(0, 1), (1, 1)]) = fin (1 - Real.exp (-2)) := by
      have z : (fin (1 : ℝ)).isZero = false := isZero_eq_false one_ne_zero
      have i1 : (fin (1 : ℝ)).isInf = false := rfl
      simp only [Sparse.MultiInvariantModel.p_ij, rowN, List.map_cons, List.map_nil, mergeLoop,
        invBody, NNReal.coe_one, z, fin_mul_fin, mul_one, i1, zero_def, fin_add_fin, finish]
      norm_num
    show DiGraphEnsemble.exp_edges _ _ 2 (fun _ => rowN [(0, 1), (1, 1)])
      (fun _ => rowN [(0, 1), (1, 1)]) _ false = _
    simp only [DiGraphEnsemble.exp_edges, hp]
    simp [List.range_succ, admissible, zero_def]
    ring
  · have h1 : Real.exp (-2) ≤ 1 / 4 := by
      rw [Real.exp_neg, ← one_div]
      refine one_div_le_one_div_of_le (by norm_num) ?_
      have : (1 + 1 : ℝ) ≤ Real.exp 1 := Real.add_one_le_exp 1
      calc (4 : ℝ) ≤ Real.exp 1 * Real.exp 1 := by nlinarith
        _ = Real.exp 2 := by rw [← Real.exp_add]; norm_num
    norm_num
    linarith

/-! ### The fitness model -/

section

private noncomputable def tgt : ℝ := (2 : ℝ) ^ (-27 : ℤ)

private theorem tgt_pos : 0 < tgt := pow_pos' _

private theorem tgt_mem : tgt ∈ doubles := pow_mem (by norm_num) (by norm_num)

private theorem one_mem : (1 : ℝ) ∈ doubles := Faithful.binary64.one_mem

private theorem zero_mem : (0 : ℝ) ∈ doubles := Faithful.binary64.zero_mem

/-- Rounding of `1 / (1 + 2 ^ -27)`: the exact value is just below the middle of two numbers. -/
private theorem inv_tgt : toDouble (1 / (1 + tgt)) = fin (1 - tgt) := by
  have ht : tgt = 1 / 2 ^ 27 := by unfold tgt; norm_num
  have he : expo (1 / (1 + tgt)) = -53 :=
    expo_of (L := -1) (by rw [ht]; norm_num) (by rw [ht]; norm_num) (by norm_num)
  have hn := nearest_err (1 / (1 + tgt) / (2 : ℝ) ^ (-53 : ℤ))
  have hm : nearest (1 / (1 + tgt) / (2 : ℝ) ^ (-53 : ℤ)) = (2 ^ 53 - 2 ^ 26 : ℤ) := by
    have h1 := abs_le.1 hn
    generalize nearest (1 / (1 + tgt) / (2 : ℝ) ^ (-53 : ℤ)) = N at h1
    have e1 : 1 / (1 + tgt) / (2 : ℝ) ^ (-53 : ℤ) < 2 ^ 53 - 2 ^ 26 + 1 / 2 := by
      rw [ht]; norm_num
    have e2 : 2 ^ 53 - 2 ^ 26 < 1 / (1 + tgt) / (2 : ℝ) ^ (-53 : ℤ) := by
      rw [ht]; norm_num
    have l : (2 ^ 53 - 2 ^ 26 : ℝ) - 1 < N := by linarith [h1.1]
    have u : (N : ℝ) < (2 ^ 53 - 2 ^ 26 : ℝ) + 1 := by linarith [h1.2]
    have l' : (2 ^ 53 - 2 ^ 26 : ℤ) - 1 < N := by exact_mod_cast l
    have u' : N < (2 ^ 53 - 2 ^ 26 : ℤ) + 1 := by exact_mod_cast u
    omega
  have hr : rnd (1 / (1 + tgt)) = 1 - tgt := by
    rw [rnd, he, hm, ht]; norm_num
  unfold toDouble
  rw [hr, if_neg, if_neg]
  · have : -(2 : ℝ) ^ (1024 : ℤ) < 0 := neg_lt_zero.2 (pow_pos' _)
    rw [ht, not_le]
    exact this.trans (by norm_num)
  · have : (1 : ℝ) < (2 : ℝ) ^ (1024 : ℤ) := one_lt_zpow₀ (by norm_num) (by norm_num)
    exact not_le.2 ((sub_lt_self 1 tgt_pos).trans this)

private theorem sum_mem : 1 + tgt ∈ doubles :=
  ⟨⟨2 ^ 27 + 1, -27, by norm_num, by norm_num, by unfold tgt; norm_num⟩, by
    have : (2 : ℝ) < (2 : ℝ) ^ (1024 : ℤ) := by
      calc (2 : ℝ) = (2 : ℝ) ^ (1 : ℤ) := by norm_num
        _ < _ := zpow_lt_zpow_right₀ (by norm_num) (by norm_num)
    have h : |1 + tgt| ≤ 2 := by unfold tgt; norm_num [abs_of_pos]
    exact h.trans_lt this⟩

private noncomputable def pcfg (func : XR → XR × XR) (m : ℕ) : Verif.Solver.Cfg :=
  Fit.cfg func tgt ⟨0, (2 : ℝ) ^ (-40 : ℤ), m⟩

/-- The first step reaches a parameter at which the computed number of edges is the target. -/
private theorem one_step {func : XR → XR × XR} {J : XR} (f0 : func (fin 0) = (0, 1))
    (f1 : func (fin tgt) = (fin tgt, J)) (m : ℕ) :
    ∃ r, Round.Solver.solve binary64 (pcfg func (m + 2)) (fin 0) = .ok r ∧ r.x = fin tgt ∧
      r.max_iter_reached = false ∧ r.converged = true := by
  have tp := tgt_pos
  have ab : XR.abs (fin (-tgt)) = fin tgt := by
    show fin |(-tgt : ℝ)| = _
    rw [abs_neg, abs_of_pos tp]
  have htol : Round.Solver.tol binary64 (pcfg func (m + 2)) = fin ((2 : ℝ) ^ (-67 : ℤ)) := by
    have pm : (2 : ℝ) ^ (-67 : ℤ) ∈ doubles := pow_mem (by norm_num) (by norm_num)
    have e : binary64.mul (fin ((2 : ℝ) ^ (-40 : ℤ))) (fin tgt) = fin ((2 : ℝ) ^ (-67 : ℤ)) := by
      show toDouble ((2 : ℝ) ^ (-40 : ℤ) * (2 : ℝ) ^ (-27 : ℤ)) = _
      rw [← zpow_add₀ two_ne_zero]
      exact toDouble_self pm
    unfold Round.Solver.tol
    show binary64.add (fin 0) (binary64.mul (fin ((2 : ℝ) ^ (-40 : ℤ))) (fin tgt)) = _
    rw [e]
    show toDouble (0 + _) = _
    rw [zero_add]
    exact toDouble_self pm
  let s0 : Verif.Solver.St :=
    { n_iter := 0, x := fin 0, f := fin (-tgt), f_p := 1, x_l := fin 0, x_u := pinf,
      f_l := none, f_u := none, norm := fin tgt, diff := fin 1, f_seq := [fin (-tgt)],
      x_seq := [fin 0], norm_seq := [fin tgt], diff_seq := [fin 1] }
  have i0 : Round.Solver.init binary64 (pcfg func (m + 2)) (fin 0) = s0 := by
    unfold Round.Solver.init
    have : (binary64.add (func (fin 0)).1 (-(fin tgt))) = fin (-tgt) := by
      rw [f0]
      show toDouble (0 + -tgt) = _
      rw [zero_add]
      exact toDouble_self (Faithful.binary64.neg_mem _ tgt_mem)
    simp only [pcfg, Fit.cfg, this, ab, s0]
    rw [f0]
  let s1 : Verif.Solver.St := { s0 with f_l := some (fin (-tgt)) }
  have b0 : Verif.Solver.bracketInit s0 = .ok s1 := by
    unfold Verif.Solver.bracketInit Verif.Solver.signs
    simp [Verif.Solver.pos, Verif.Solver.negv, ltb, leb, s0, s1, one_def, tp, not_lt.2 tp.le]
  have x1 : Round.Solver.nextX binary64 (pcfg func (m + 2)) s1 = fin tgt := by
    have dx : Round.Solver.newtonDx binary64 (pcfg func (m + 2)) s1 = fin tgt := by
      unfold Round.Solver.newtonDx Round.Solver.npDiv
      have z : (1 : XR).isZero = false := isZero_eq_false one_ne_zero
      simp only [s1, s0, z]
      show roundXR (fin (-(-tgt)) / fin 1) = _
      rw [fin_div_fin _ _ one_ne_zero, neg_neg, div_one]
      exact toDouble_self tgt_mem
    have ad : binary64.add (fin 0) (fin tgt) = fin tgt := by
      show toDouble (0 + tgt) = _
      rw [zero_add]; exact toDouble_self tgt_mem
    unfold Round.Solver.nextX
    simp only [dx]
    simp [s1, s0, ad, leb, not_le.2 tp]
  let s2 : Verif.Solver.St := { s1 with x := fin tgt, f := fin 0, f_p := J }
  have e1 : Round.Solver.evalAt binary64 (pcfg func (m + 2)) s1 (fin tgt) = s2 := by
    show { s1 with x := fin tgt, f := binary64.add (func (fin tgt)).1 (-(fin tgt)),
                   f_p := (func (fin tgt)).2 } = s2
    have : binary64.add (fin tgt) (-(fin tgt)) = fin 0 := by
      show toDouble (tgt + -tgt) = _
      rw [add_neg_cancel]; exact toDouble_self zero_mem
    rw [f1, this]
  have e2 : Verif.Solver.bracketLoop s2 = .ok s2 := by
    have hs : Verif.Solver.signs s2 = none := by
      unfold Verif.Solver.signs
      simp [Verif.Solver.pos, Verif.Solver.negv, ltb, s2, zero_def]
    unfold Verif.Solver.bracketLoop
    rw [hs]
    simp [s2, s1, s0, eqb, tp.ne', isZero_fin]
  have st1 : Round.Solver.step binary64 (pcfg func (m + 2)) s1 =
      .ok (Round.Solver.record binary64 (fin 0) s2) := by
    unfold Round.Solver.step
    rw [x1, e1, e2]
    rfl
  have nm : (Round.Solver.record binary64 (fin 0) s2).norm = fin 0 := by
    show fin |(0 : ℝ)| = _
    rw [abs_zero]
  have lp : Round.Solver.loop binary64 (pcfg func (m + 2)) (m + 2) s1 =
      .ok (Round.Solver.record binary64 (fin 0) s2) := by
    have c1 : Round.Solver.continues binary64 (pcfg func (m + 2)) s1 = true := by
      unfold Round.Solver.continues
      rw [htol]
      have g1 : ltb (fin ((2 : ℝ) ^ (-67 : ℤ))) s1.norm = true := by
        show ltb (fin ((2 : ℝ) ^ (-67 : ℤ))) (fin tgt) = true
        simp only [ltb, decide_eq_true_eq]; unfold tgt; norm_num
      have g2 : decide (s1.n_iter < (pcfg func (m + 2)).max_iter) = true := by
        show decide (0 < m + 2) = true
        simp
      have g3 : ltb (fin (pcfg func (m + 2)).rtol) s1.diff = true := by
        show ltb (fin ((2 : ℝ) ^ (-40 : ℤ))) (fin 1) = true
        simp only [ltb, decide_eq_true_eq]; norm_num
      rw [g1, g2, g3]; rfl
    have c2 : Round.Solver.continues binary64 (pcfg func (m + 2))
        (Round.Solver.record binary64 (fin 0) s2) = false := by
      unfold Round.Solver.continues
      rw [htol, nm]
      have g1 : ltb (fin ((2 : ℝ) ^ (-67 : ℤ))) (fin 0) = false := by
        simp only [ltb, decide_eq_false_iff_not]; norm_num
      rw [g1]; rfl
    unfold Round.Solver.loop
    rw [c1, if_pos rfl, st1]
    show Round.Solver.loop binary64 (pcfg func (m + 2)) (m + 1) _ = _
    unfold Round.Solver.loop
    rw [c2]
    rfl
  refine ⟨Round.Solver.mkSolution binary64 (pcfg func (m + 2))
    (Round.Solver.record binary64 (fin 0) s2), ?_, rfl, ?_, ?_⟩
  · unfold Round.Solver.solve
    simp only [i0, b0]
    have c1 : (ltb (pcfg func (m + 2)).x_u (fin 0) || ltb (fin 0) (pcfg func (m + 2)).x_l) =
        false := by
      simp [pcfg, Fit.cfg, ltb]
    have c2 : ltb s0.norm (fin (pcfg func (m + 2)).atol) = false := by
      show ltb (fin tgt) (fin 0) = false
      simp only [ltb, decide_eq_false_iff_not]; exact not_lt.2 tp.le
    rw [c1, c2]
    show (Round.Solver.loop binary64 (pcfg func (m + 2)) (m + 2) s1).map _ = _
    rw [lp]
    rfl
  · show decide (m + 2 ≤ 0 + 1) = false
    simp
  · show leb (([fin tgt] ++ [XR.abs (fin 0)]).getLastD nan) (Round.Solver.tol binary64 _) = true
    rw [htol]
    show leb (fin |(0 : ℝ)|) (fin ((2 : ℝ) ^ (-67 : ℤ))) = true
    simp only [leb, decide_eq_true_eq, abs_zero]; norm_num

private theorem one_isZero : (fin (1 : ℝ)).isZero = false := isZero_eq_false one_ne_zero

private theorem tgt_isZero : (fin tgt).isZero = false := isZero_eq_false tgt_pos.ne'

private theorem mul_one' {v : ℝ} (h : v ∈ doubles) : binary64.mul (fin v) (fin 1) = fin v := by
  show toDouble (v * 1) = _
  rw [mul_one]; exact toDouble_self h

private theorem pair_zero : Round.fitJacBody binary64 (fin 0) (1, 0) 0 (fin 1) (fin 1) = .ok (1, 1) := by
  unfold Round.fitJacBody
  have z : (fin (0 : ℝ)).isZero = true := by simp [isZero_fin]
  have a : binary64.add (0 : XR) (fin 1) = 1 := by
    show toDouble (0 + 1) = _
    rw [zero_add]; exact toDouble_self one_mem
  simp [z, mul_one' one_mem, a]

private theorem pair_tgt : ∃ J, Round.fitJacBody binary64 (fin tgt) (1, 0) 0 (fin 1) (fin 1)
    = .ok (fin (1 - tgt), J) := by
  unfold Round.fitJacBody
  have a : binary64.add (1 : XR) (fin tgt) = fin (1 + tgt) := toDouble_self sum_mem
  have d : binary64.div (1 : XR) (fin (1 + tgt)) = fin (1 - tgt) := by
    show roundXR (fin 1 / fin (1 + tgt)) = _
    rw [fin_div_fin _ _ (by have := tgt_pos; positivity)]
    exact inv_tgt
  refine ⟨binary64.add 0 (binary64.div (fin 1) (fin (1 + tgt))), ?_⟩
  simp only [one_isZero, tgt_isZero, mul_one' one_mem, mul_one' tgt_mem, a, d]
  rfl

private theorem add_zero' {v : ℝ} (h : v ∈ doubles) : binary64.add (fin v) 0 = fin v := by
  show toDouble (v + 0) = _
  rw [add_zero]; exact toDouble_self h

private theorem zero_add' {v : ℝ} (h : v ∈ doubles) : binary64.add 0 (fin v) = fin v := by
  show toDouble (0 + v) = _
  rw [zero_add]; exact toDouble_self h

private theorem end_zero : Round.fitJacEnd binary64 (1, 0) = (fin 0, fin 0) := by
  unfold Round.fitJacEnd
  have a : binary64.sub (1 : XR) 1 = fin 0 := by
    show toDouble (1 - 1) = _
    rw [sub_self]; exact toDouble_self zero_mem
  have b : binary64.mul (1 : XR) 0 = fin 0 := by
    show toDouble (1 * 0) = _
    rw [mul_zero]; exact toDouble_self zero_mem
  rw [a, b]

private theorem end_one : Round.fitJacEnd binary64 (1, 1) = (fin 0, fin 1) := by
  unfold Round.fitJacEnd
  have a : binary64.sub (1 : XR) 1 = fin 0 := by
    show toDouble (1 - 1) = _
    rw [sub_self]; exact toDouble_self zero_mem
  have b : binary64.mul (1 : XR) 1 = fin 1 := mul_one' one_mem
  rw [a, b]

private theorem end_tgt (J : XR) : (Round.fitJacEnd binary64 (fin (1 - tgt), J)).1 = fin tgt := by
  show toDouble (1 - (1 - tgt)) = _
  rw [sub_sub_cancel]; exact toDouble_self tgt_mem

/-- The sums over the pairs of two vertices with one possible link. -/
private theorem two_func {pj : XR → ℕ → ℕ → XR × XR} (h10 : ∀ d, pj d 1 0 = (fin 0, fin 0))
    (h0 : pj (fin 0) 0 1 = (fin 0, fin 1)) (h1 : (pj (fin tgt) 0 1).1 = fin tgt) :
    Round.exp_edges_f_jac binary64 pj 2 false (fin 0) = (0, 1) ∧
    ∃ J, Round.exp_edges_f_jac binary64 pj 2 false (fin tgt) = (fin tgt, J) := by
  have ad : ∀ d, Round.exp_edges_f_jac binary64 pj 2 false d =
      (binary64.add (binary64.add 0 (pj d 0 1).1) 0, binary64.add (binary64.add 0 (pj d 0 1).2) 0) := by
    intro d
    simp [Round.exp_edges_f_jac, List.range_succ, admissible, h10, ← zero_def]
  constructor
  · rw [ad, h0]
    simp only [zero_add' zero_mem, zero_add' one_mem, add_zero' zero_mem, add_zero' one_mem]
    rfl
  · refine ⟨binary64.add (binary64.add 0 (pj (fin tgt) 0 1).2) 0, ?_⟩
    rw [ad, h1, zero_add' tgt_mem, add_zero' tgt_mem]

private theorem fit_of_func {m : MultiModel} (hp : m.per_label = false) (he : m.num_edges = some tgt)
    (f0 : m.func (fin 0) = (0, 1)) (f1 : ∃ J, m.func (fin tgt) = (fin tgt, J)) (k : ℕ) :
    ∃ r : Verif.Solver.Solution,
      fitMulti binary64 m .none .density ⟨0, (2 : ℝ) ^ (-40 : ℤ), k + 2⟩
        = .ok ⟨List.replicate m.num_labels (fin tgt), [r]⟩ ∧
      r.converged = true ∧ r.max_iter_reached = false := by
  obtain ⟨J, f1⟩ := f1
  obtain ⟨r, h1, h2, h3, h4⟩ := one_step f0 f1 k
  refine ⟨r, ?_, h4, h3⟩
  rw [← h2]
  refine fitMulti_shared hp he _ ?_
  rw [fitSingle_eq]
  show (Round.Solver.solve binary64 (pcfg m.func (k + 2)) (fin 0)).mapError _ = _
  rw [h1]
  rfl

end

/-- **C114 fails for the fitness model.**  Two vertices, one label, one possible link, from the first
vertex to the second, properties equal to one, `2 ^ -27` edges asked for with the relative tolerance
`2 ^ -40` (both in the range of C114).  The probability is computed as one minus a quotient, which loses
half of its digits: after one step the computed number of edges is exactly the target and the fit reports
that it converged, but the exact number of edges at the parameter returned misses the target by more
than a thousand times the tolerance.  The same with sparse rows and with dense rows. -/
theorem C114_fitness_violated (maxiter : ℕ) (hm : 2 ≤ maxiter) (x y : ℕ → ℕ → ℝ≥0)
    (hx : x = fun i _ => if i = 0 then 1 else 0) (hy : y = fun j _ => if j = 1 then 1 else 0)
    (num_edges_label : Option (ℕ → ℝ)) (layer : ℕ → XR → XR × XR) :
    let t : ℝ := (2 : ℝ) ^ (-27 : ℤ)
    let rtol : ℝ := (2 : ℝ) ^ (-40 : ℤ)
    let X := fun i => rowN [(0, x i 0)]
    let Y := fun j => rowN [(0, y j 0)]
    let X' := fun i => denseN 1 (x i)
    let Y' := fun j => denseN 1 (y j)
    Round.FitRange 2 t 0 rtol ∧
    (∃ e, DiGraphEnsemble.exp_edges (fun d a b (_ : Unit) => Sparse.MultiFitnessModel.p_ij d a b)
        (fun _ => fin t) 2 X Y (fun _ _ => ()) false = fin e ∧
      DiGraphEnsemble.exp_edges (fun d a b (_ : Unit) => Dense.MultiFitnessModel.p_ij d a b)
        (fun _ => fin t) 2 X' Y' (fun _ _ => ()) false = fin e ∧
      1000 * (0 + rtol * t) < |e - t|) ∧
    (∃ r : Verif.Solver.Solution, Round.fitMulti binary64 (Round.sharedModel binary64
        (fun d i j => Round.Sparse.MultiFitnessModel.p_jac_ij binary64 d (X i) (Y j)) 2 1 false
        (some t) num_edges_label layer) .none .density ⟨0, rtol, maxiter⟩ = .ok ⟨[fin t], [r]⟩ ∧
      r.converged = true ∧ r.max_iter_reached = false) ∧
    ∃ r : Verif.Solver.Solution, Round.fitMulti binary64 (Round.sharedModel binary64
        (fun d i j => Round.Dense.MultiFitnessModel.p_jac_ij binary64 d (X' i) (Y' j)) 2 1 false
        (some t) num_edges_label layer) .none .density ⟨0, rtol, maxiter⟩ = .ok ⟨[fin t], [r]⟩ ∧
      r.converged = true ∧ r.max_iter_reached = false := by
  intro t rtol X Y X' Y'
  obtain ⟨k, rfl⟩ := Nat.exists_eq_add_of_le' hm
  have tp := tgt_pos
  have X0 : X 0 = [(0, fin 1)] := by simp [X, hx, rowN]
  have X1 : X 1 = [(0, fin 0)] := by simp [X, hx, rowN]
  have Y0 : Y 0 = [(0, fin 0)] := by simp [Y, hy, rowN]
  have Y1 : Y 1 = [(0, fin 1)] := by simp [Y, hy, rowN]
  have X0' : X' 0 = [fin 1] := by simp [X', hx, denseN]
  have X1' : X' 1 = [fin 0] := by simp [X', hx, denseN]
  have Y0' : Y' 0 = [fin 0] := by simp [Y', hy, denseN]
  have Y1' : Y' 1 = [fin 1] := by simp [Y', hy, denseN]
  have z : (fin (0 : ℝ)).isZero = true := by simp [isZero_fin]
  have body1 : Verif.fitBody 1 (fun _ => fin t) 1 0 (fin 1) (fin 1) = .ok (fin (1 / (1 + t))) := by
    have tz : (fin t).isZero = false := tgt_isZero
    have t1 : 1 + t ≠ 0 := by have : 0 < t := tgt_pos; positivity
    unfold Verif.fitBody
    simp only [tz, one_isZero, fin_mul_fin, mul_one, one_def, fin_add_fin, fin_div_fin _ _ t1]
    rfl
  have body0 : Verif.fitBody 1 (fun _ => fin t) 1 0 (fin 0) (fin 0) = .ok 1 := by
    unfold Verif.fitBody
    simp [z]
  have fv : (1 : XR) - fin (1 + t)⁻¹ + (1 - 1) = fin (t / (1 + t)) := by
    have t1 : 1 + t ≠ 0 := by have : 0 < t := tgt_pos; positivity
    rw [one_def, fin_sub_fin, fin_sub_fin, fin_add_fin, sub_self, add_zero, inv_eq_one_div,
      one_sub_div t1, add_sub_cancel_left]
  obtain ⟨J, hJ⟩ := pair_tgt
  refine ⟨⟨pow_mem (by norm_num) (by norm_num), Faithful.binary64.zero_mem,
    pow_mem (by norm_num) (by norm_num), ?_, ?_, le_rfl, (pow_pos' _).le, ?_, ?_⟩, ?_, ?_, ?_⟩
  · exact zpow_le_zpow_right₀ one_le_two (by norm_num)
  · exact zpow_le_zpow_right₀ one_le_two (by norm_num)
  · norm_num [rtol]
  · norm_num [rtol]
  · refine ⟨t / (1 + t), ?_, ?_, ?_⟩
    · simp [DiGraphEnsemble.exp_edges, List.range_succ, admissible, X0, X1, Y0, Y1,
        Verif.Sparse.MultiFitnessModel.p_ij, mergeLoop, body1, body0, finish, fv]
    · simp [DiGraphEnsemble.exp_edges, List.range_succ, admissible, X0', X1', Y0', Y1',
        Verif.Dense.MultiFitnessModel.p_ij, zipLoop, body1, body0, finish, fv]
    · norm_num [t, rtol, abs_of_neg]
  · have h := two_func (pj := fun d i j => Round.Sparse.MultiFitnessModel.p_jac_ij binary64 d (X i) (Y j))
      (fun d => by
        unfold Round.Sparse.MultiFitnessModel.p_jac_ij
        rw [X1, Y0]
        simp [mergeLoop, Round.fitJacBody, z, finish, end_zero])
      (by
        unfold Round.Sparse.MultiFitnessModel.p_jac_ij
        rw [X0, Y1]
        simp [mergeLoop, pair_zero, finish, end_one])
      (by
        unfold Round.Sparse.MultiFitnessModel.p_jac_ij
        rw [X0, Y1]
        simp [mergeLoop, hJ, finish, end_tgt])
    exact fit_of_func rfl rfl h.1 h.2 k
  · have h := two_func (pj := fun d i j => Round.Dense.MultiFitnessModel.p_jac_ij binary64 d (X' i) (Y' j))
      (fun d => by
        unfold Round.Dense.MultiFitnessModel.p_jac_ij
        rw [X1', Y0']
        simp [zipLoop, Round.fitJacBody, z, finish, end_zero])
      (by
        unfold Round.Dense.MultiFitnessModel.p_jac_ij
        rw [X0', Y1']
        simp [zipLoop, pair_zero, finish, end_one])
      (by
        unfold Round.Dense.MultiFitnessModel.p_jac_ij
        rw [X0', Y1']
        simp [zipLoop, hJ, finish, end_tgt])
    exact fit_of_func rfl rfl h.1 h.2 k

end Verif
