import Verif.Prob.MultiRefine

/-!
# C01–C04, C06–C08: connection probabilities

The statements use only the model functions, `XR.Nonneg` / `XR.ofENN` (non-negative, possibly
infinite floats), and the vocabulary of `Verif/Prob/Spec.lean` (`elog`, `RowSorted`, `entry`,
`denseX`).
-/

namespace Verif

open scoped ENNReal
open XR Spec

/-- A float that is a probability: a finite number in `[0, 1]`. -/
def IsProb (v : XR) : Prop := ∃ r : ℝ, 0 ≤ r ∧ r ≤ 1 ∧ v = fin r

/-! ## C01 -/

theorem C01_single (d x y z : XR) (hd : d.Nonneg) (hx : x.Nonneg) (hy : y.Nonneg)
    (hz : z.Nonneg) (w : XR) :
    IsProb (Sparse.FitnessModel.p_ij d x y z) ∧
    IsProb (Sparse.ScaleInvariantModel.p_ij d x y z) ∧
    IsProb (Dense.FitnessModel.p_ij d x y w) ∧
    IsProb (Dense.ScaleInvariantModel.p_ij d x y w) ∧
    IsProb (MultiFitnessModel.p_ijk d x y w) ∧
    IsProb (MultiInvariantModel.p_ijk d x y w) := by
  obtain ⟨d, rfl⟩ := (nonneg_iff_exists _).1 hd
  obtain ⟨x, rfl⟩ := (nonneg_iff_exists _).1 hx
  obtain ⟨y, rfl⟩ := (nonneg_iff_exists _).1 hy
  obtain ⟨z, rfl⟩ := (nonneg_iff_exists _).1 hz
  exact ⟨⟨_, fitProb_nonneg _, fitProb_le_one _, sparse_fit_p_ij d x y z⟩,
    ⟨_, invProb_nonneg _, invProb_le_one _, sparse_inv_p_ij d x y z⟩,
    ⟨_, fitProb_nonneg _, fitProb_le_one _, dense_fit_p_ij d x y w⟩,
    ⟨_, invProb_nonneg _, invProb_le_one _, dense_inv_p_ij d x y w⟩,
    ⟨_, fitProb_nonneg _, fitProb_le_one _, dense_fit_p_ij d x y w⟩,
    ⟨_, invProb_nonneg _, invProb_le_one _, dense_inv_p_ij d x y w⟩⟩

example : (pinf : XR).Nonneg ∧ (fin 0).Nonneg ∧ (fin (3 / 2)).Nonneg := by
  refine ⟨trivial, ?_, ?_⟩ <;> simp [XR.Nonneg]; norm_num

/-- Postcondition of code that either falls through with an accumulator or returns. -/
def LoopPost {ρ σ : Type} (P : σ → Prop) (Q : ρ → Prop) : Except ρ σ → Prop
  | .ok s => P s
  | .error r => Q r

/-- Result of a loop over labels with a probability-like accumulator in `I`. -/
theorem mergeLoop_invariant {ρ σ : Type} {body : σ → ℕ → XR → XR → Except ρ σ}
    {P : σ → Prop} {Q : ρ → Prop} (X : XR → Prop)
    (hb : ∀ s k x y, P s → X x → X y →
      LoopPost P Q (body s k x y))
    (xs ys : List (ℕ × XR)) (s : σ) (hs : P s)
    (hx : ∀ e ∈ xs, X e.2) (hy : ∀ e ∈ ys, X e.2) :
    LoopPost P Q (mergeLoop body xs ys s) := by
  fun_induction mergeLoop body xs ys s with
  | case1 => exact hs
  | case2 => exact hs
  | case3 xv xs b yv ys s r hr =>
    have := hb s b xv yv hs (hx (b, xv) (by simp)) (hy (b, yv) (by simp))
    rw [hr] at this; exact this
  | case4 xv xs b yv ys s s' hr ih =>
    have := hb s b xv yv hs (hx (b, xv) (by simp)) (hy (b, yv) (by simp))
    rw [hr] at this
    exact ih this (fun e he => hx e (List.mem_cons_of_mem _ he))
      (fun e he => hy e (List.mem_cons_of_mem _ he))
  | case5 a xv xs b yv ys s hab hlt ih =>
    exact ih hs (fun e he => hx e (List.mem_cons_of_mem _ he)) hy
  | case6 a xv xs b yv ys s hab hlt ih =>
    exact ih hs hx (fun e he => hy e (List.mem_cons_of_mem _ he))

theorem zipLoop_invariant {ρ σ : Type} {body : σ → ℕ → XR → XR → Except ρ σ}
    {P : σ → Prop} {Q : ρ → Prop} (X : XR → Prop)
    (hb : ∀ s k x y, P s → X x → X y →
      LoopPost P Q (body s k x y))
    (k : ℕ) (xs ys : List XR) (s : σ) (hs : P s)
    (hx : ∀ e ∈ xs, X e) (hy : ∀ e ∈ ys, X e) :
    LoopPost P Q (zipLoop body k xs ys s) := by
  fun_induction zipLoop body k xs ys s with
  | case1 => exact hs
  | case2 => exact hs
  | case3 k xv xs yv ys s r hr =>
    have := hb s k xv yv hs (hx xv (by simp)) (hy yv (by simp))
    rw [hr] at this; exact this
  | case4 k xv xs yv ys s s' hr ih =>
    have := hb s k xv yv hs (hx xv (by simp)) (hy yv (by simp))
    rw [hr] at this
    exact ih this (fun e he => hx e (List.mem_cons_of_mem _ he))
      (fun e he => hy e (List.mem_cons_of_mem _ he))

/-- Accumulator of the fitness loops. -/
def FitAcc (s : XR) : Prop := ∃ v : ℝ, 0 < v ∧ v ≤ 1 ∧ s = fin v
/-- Accumulator of the invariant loops. -/
def InvAcc (s : XR) : Prop := ∃ v : ℝ, 0 ≤ v ∧ s = fin v

theorem fitBody_acc (d : ℕ → XR) (hd : ∀ k, (d k).Nonneg) (s : XR) (k : ℕ) (x y : XR)
    (hs : FitAcc s) (hx : x.Nonneg) (hy : y.Nonneg) :
    LoopPost FitAcc IsProb (fitBody 1 d s k x y) := by
  obtain ⟨v, hv0, hv1, rfl⟩ := hs
  obtain ⟨dk, hdk⟩ := (nonneg_iff_exists _).1 (hd k)
  obtain ⟨x, rfl⟩ := (nonneg_iff_exists _).1 hx
  obtain ⟨y, rfl⟩ := (nonneg_iff_exists _).1 hy
  have := fitBody_eq 1 (fun _ => dk) (fun _ => x) (fun _ => y) v k d hdk
  rw [this]
  by_cases h : dk * x * y = ⊤
  · simp only [h, if_true]; exact ⟨1, by norm_num, le_rfl, rfl⟩
  · simp only [h, if_false]
    have h1 := fitProb_lt_one h
    have h2 := fitProb_nonneg (dk * x * y)
    exact ⟨_, mul_pos hv0 (by linarith), mul_le_one₀ hv1 (by linarith) (by linarith), rfl⟩

theorem invBody_acc (d : ℕ → XR) (hd : ∀ k, (d k).Nonneg) (s : XR) (k : ℕ) (x y : XR)
    (hs : InvAcc s) (hx : x.Nonneg) (hy : y.Nonneg) :
    LoopPost InvAcc IsProb (invBody 1 d s k x y) := by
  obtain ⟨v, hv0, rfl⟩ := hs
  obtain ⟨dk, hdk⟩ := (nonneg_iff_exists _).1 (hd k)
  obtain ⟨x, rfl⟩ := (nonneg_iff_exists _).1 hx
  obtain ⟨y, rfl⟩ := (nonneg_iff_exists _).1 hy
  have := invBody_eq 1 (fun _ => dk) (fun _ => x) (fun _ => y) v k d hdk
  rw [this]
  by_cases h : dk * x * y = ⊤
  · simp only [h, if_true]; exact ⟨1, by norm_num, le_rfl, rfl⟩
  · simp only [h, if_false]
    exact ⟨_, add_nonneg hv0 ENNReal.toReal_nonneg, rfl⟩

theorem fit_finish_prob {r : Except XR XR}
    (h : LoopPost FitAcc IsProb r) :
    IsProb (finish r (fun val => 1 - val)) := by
  cases r with
  | error v => exact h
  | ok s =>
    obtain ⟨v, hv0, hv1, rfl⟩ := h
    exact ⟨1 - v, by linarith, by linarith, by simp [finish, one_def]⟩

theorem inv_isProb {s : XR} (h : InvAcc s) : IsProb (-(XR.expm1 (-s))) := by
  obtain ⟨v, hv0, rfl⟩ := h
  rw [inv_end]
  have h1 : Real.exp (-v) ≤ 1 := Real.exp_le_one_iff.mpr (by linarith)
  have h2 := Real.exp_pos (-v)
  exact ⟨_, by linarith, by linarith, rfl⟩

/-- All layers: the label lists may be arbitrary (even unsorted or of different lengths). -/
theorem C01_multi (d : ℕ → XR) (hd : ∀ k, (d k).Nonneg) :
    (∀ out inn : List (ℕ × XR), (∀ e ∈ out, e.2.Nonneg) → (∀ e ∈ inn, e.2.Nonneg) →
      IsProb (Sparse.MultiFitnessModel.p_ij d out inn) ∧
      IsProb (Sparse.MultiInvariantModel.p_ij d out inn)) ∧
    (∀ out inn : List XR, (∀ v ∈ out, v.Nonneg) → (∀ v ∈ inn, v.Nonneg) →
      IsProb (Dense.MultiFitnessModel.p_ij d out inn) ∧
      IsProb (Dense.MultiInvariantModel.p_ij d out inn)) := by
  refine ⟨fun out inn ho hi => ⟨?_, ?_⟩, fun out inn ho hi => ⟨?_, ?_⟩⟩
  · exact fit_finish_prob (mergeLoop_invariant (body := fitBody 1 d) (P := FitAcc) (Q := IsProb) XR.Nonneg
      (fun s k x y => fitBody_acc d hd s k x y) out inn 1 ⟨1, one_pos, le_rfl, rfl⟩ ho hi)
  · have := mergeLoop_invariant (body := invBody 1 d) (P := InvAcc) (Q := IsProb) XR.Nonneg
      (fun s k x y => invBody_acc d hd s k x y) out inn 0 ⟨0, le_rfl, rfl⟩ ho hi
    unfold Sparse.MultiInvariantModel.p_ij
    revert this
    cases mergeLoop (invBody 1 d) out inn 0 with
    | error v => exact id
    | ok s => exact inv_isProb
  · exact fit_finish_prob (zipLoop_invariant (body := fitBody 1 d) (P := FitAcc) (Q := IsProb) XR.Nonneg
      (fun s k x y => fitBody_acc d hd s k x y) 0 out inn 1 ⟨1, one_pos, le_rfl, rfl⟩ ho hi)
  · have := zipLoop_invariant (body := invBody 1 d) (P := InvAcc) (Q := IsProb) XR.Nonneg
      (fun s k x y => invBody_acc d hd s k x y) 0 out inn 0 ⟨0, le_rfl, rfl⟩ ho hi
    unfold Dense.MultiInvariantModel.p_ij
    revert this
    cases zipLoop (invBody 1 d) 0 out inn 0 with
    | error v => exact id
    | ok s =>
      intro h
      simp only [finish]
      split
      · exact ⟨0, le_rfl, by norm_num, rfl⟩
      · exact inv_isProb h

example : ∃ d : ℕ → XR, (∀ k, (d k).Nonneg) ∧ d 0 = pinf :=
  ⟨fun _ => pinf, fun _ => trivial, rfl⟩

/-! ## C02 -/

theorem ofENN_eq_zero_iff (t : ℝ≥0∞) : ofENN t = 0 ↔ t = 0 := by
  by_cases h : t = ⊤
  · subst h; simp [zero_def]
  · rw [ofENN_of_ne_top h, zero_def, fin_inj, ENNReal.toReal_eq_zero_iff]; simp [h]

theorem ofENN_eq_pinf_iff (t : ℝ≥0∞) : ofENN t = pinf ↔ t = ⊤ := by
  by_cases h : t = ⊤
  · subst h; simp
  · rw [ofENN_of_ne_top h]; simp [h]

/-- A link is impossible iff something is zero, certain iff nothing is zero and something is
infinite, and otherwise has a probability strictly between. -/
theorem C02_sparse (d x y z : XR) (hd : d.Nonneg) (hx : x.Nonneg) (hy : y.Nonneg)
    (hz : z.Nonneg) (p : XR)
    (hp : p = Sparse.FitnessModel.p_ij d x y z ∨ p = Sparse.ScaleInvariantModel.p_ij d x y z) :
    (p = 0 ↔ d = 0 ∨ x = 0 ∨ y = 0 ∨ z = 0) ∧
    (p = 1 ↔ (d ≠ 0 ∧ x ≠ 0 ∧ y ≠ 0 ∧ z ≠ 0) ∧ (d = pinf ∨ x = pinf ∨ y = pinf ∨ z = pinf)) ∧
    (p = 0 ∨ p = 1 ∨ ∃ r : ℝ, 0 < r ∧ r < 1 ∧ p = fin r) := by
  obtain ⟨d, rfl⟩ := (nonneg_iff_exists _).1 hd
  obtain ⟨x, rfl⟩ := (nonneg_iff_exists _).1 hx
  obtain ⟨y, rfl⟩ := (nonneg_iff_exists _).1 hy
  obtain ⟨z, rfl⟩ := (nonneg_iff_exists _).1 hz
  have hz0 : d * x * y * z = 0 ↔ d = 0 ∨ x = 0 ∨ y = 0 ∨ z = 0 := by simp [or_assoc]
  have ht0 : d * x * y * z = ⊤ ↔ (d ≠ 0 ∧ x ≠ 0 ∧ y ≠ 0 ∧ z ≠ 0) ∧
      (d = ⊤ ∨ x = ⊤ ∨ y = ⊤ ∨ z = ⊤) := by
    constructor
    · intro h
      have h0 : d * x * y * z ≠ 0 := by rw [h]; simp
      rw [ne_eq, hz0] at h0
      push Not at h0
      refine ⟨h0, ?_⟩
      by_contra hc
      push Not at hc
      exact ENNReal.mul_ne_top (ENNReal.mul_ne_top (ENNReal.mul_ne_top hc.1 hc.2.1) hc.2.2.1)
        hc.2.2.2 h
    · rintro ⟨⟨h1, h2, h3, h4⟩, h | h | h | h⟩
      · rw [h, ENNReal.top_mul h2, ENNReal.top_mul h3, ENNReal.top_mul h4]
      · rw [h, ENNReal.mul_top h1, ENNReal.top_mul h3, ENNReal.top_mul h4]
      · rw [h, ENNReal.mul_top (mul_ne_zero h1 h2), ENNReal.top_mul h4]
      · rw [h, ENNReal.mul_top (mul_ne_zero (mul_ne_zero h1 h2) h3)]
  simp only [ne_eq, ofENN_eq_zero_iff, ofENN_eq_pinf_iff] at *
  rw [← hz0, ← ht0]
  rcases hp with rfl | rfl
  · rw [sparse_fit_p_ij, zero_def, one_def, fin_inj, fin_inj]
    refine ⟨fitProb_eq_zero_iff, fitProb_eq_one_iff, ?_⟩
    by_cases h0 : d * x * y * z = 0
    · left; rw [h0, fitProb_zero]
    · by_cases h1 : d * x * y * z = ⊤
      · right; left; rw [h1, fitProb_top]
      · right; right; exact ⟨_, fitProb_pos h0, fitProb_lt_one h1, rfl⟩
  · rw [sparse_inv_p_ij, zero_def, one_def, fin_inj, fin_inj]
    refine ⟨invProb_eq_zero_iff, invProb_eq_one_iff, ?_⟩
    by_cases h0 : d * x * y * z = 0
    · left; rw [h0, invProb_zero]
    · by_cases h1 : d * x * y * z = ⊤
      · right; left; rw [h1, invProb_top]
      · right; right; exact ⟨_, invProb_pos h0, invProb_lt_one h1, rfl⟩

/-- The dense, spark and one-layer functions: no dyadic factor. -/
theorem C02_dense (d x y w : XR) (hd : d.Nonneg) (hx : x.Nonneg) (hy : y.Nonneg) (p : XR)
    (hp : p = Dense.FitnessModel.p_ij d x y w ∨ p = Dense.ScaleInvariantModel.p_ij d x y w) :
    (p = 0 ↔ d = 0 ∨ x = 0 ∨ y = 0) ∧
    (p = 1 ↔ (d ≠ 0 ∧ x ≠ 0 ∧ y ≠ 0) ∧ (d = pinf ∨ x = pinf ∨ y = pinf)) ∧
    (p = 0 ∨ p = 1 ∨ ∃ r : ℝ, 0 < r ∧ r < 1 ∧ p = fin r) := by
  obtain ⟨d, rfl⟩ := (nonneg_iff_exists _).1 hd
  obtain ⟨x, rfl⟩ := (nonneg_iff_exists _).1 hx
  obtain ⟨y, rfl⟩ := (nonneg_iff_exists _).1 hy
  have h1z : (1 : XR) ≠ 0 := by simp [one_def, zero_def]
  have h1i : (1 : XR) ≠ pinf := by simp [one_def]
  have hone : (1 : XR) = ofENN 1 := by simp [ofENN, one_def]
  have key := C02_sparse (ofENN d) (ofENN x) (ofENN y) 1 hd hx hy (by simp [XR.Nonneg]) p
    (by
      rcases hp with rfl | rfl
      · left; rw [dense_fit_p_ij, hone, sparse_fit_p_ij, mul_one]
      · right; rw [dense_inv_p_ij, hone, sparse_inv_p_ij, mul_one])
  simpa only [h1z, h1i, or_false, ne_eq, not_false_eq_true, and_true] using key

example : (fin 2).Nonneg ∧ (pinf : XR).Nonneg ∧ (fin 2 : XR) ≠ 0 := by
  refine ⟨by simp [XR.Nonneg], trivial, by simp [zero_def]⟩

/-! ## C03 -/

/-- The order of probabilities as floats. -/
def ProbLe (p q : XR) : Prop := ∃ r s : ℝ, p = fin r ∧ q = fin s ∧ r ≤ s
/-- The strict order of probabilities as floats. -/
def ProbLt (p q : XR) : Prop := ∃ r s : ℝ, p = fin r ∧ q = fin s ∧ r < s

theorem C03_single {d d' x x' y y' z z' : ℝ≥0∞} (hd : d ≤ d') (hx : x ≤ x') (hy : y ≤ y')
    (hz : z ≤ z') (w : XR) :
    ProbLe (Sparse.FitnessModel.p_ij (ofENN d) (ofENN x) (ofENN y) (ofENN z))
      (Sparse.FitnessModel.p_ij (ofENN d') (ofENN x') (ofENN y') (ofENN z')) ∧
    ProbLe (Sparse.ScaleInvariantModel.p_ij (ofENN d) (ofENN x) (ofENN y) (ofENN z))
      (Sparse.ScaleInvariantModel.p_ij (ofENN d') (ofENN x') (ofENN y') (ofENN z')) ∧
    ProbLe (Dense.FitnessModel.p_ij (ofENN d) (ofENN x) (ofENN y) w)
      (Dense.FitnessModel.p_ij (ofENN d') (ofENN x') (ofENN y') w) ∧
    ProbLe (Dense.ScaleInvariantModel.p_ij (ofENN d) (ofENN x) (ofENN y) w)
      (Dense.ScaleInvariantModel.p_ij (ofENN d') (ofENN x') (ofENN y') w) := by
  have h3 : d * x * y ≤ d' * x' * y' := mul_le_mul' (mul_le_mul' hd hx) hy
  have h4 : d * x * y * z ≤ d' * x' * y' * z' := mul_le_mul' h3 hz
  exact ⟨⟨_, _, sparse_fit_p_ij .., sparse_fit_p_ij .., fitProb_strictMono.monotone h4⟩,
    ⟨_, _, sparse_inv_p_ij .., sparse_inv_p_ij .., invProb_strictMono.monotone h4⟩,
    ⟨_, _, dense_fit_p_ij .., dense_fit_p_ij .., fitProb_strictMono.monotone h3⟩,
    ⟨_, _, dense_inv_p_ij .., dense_inv_p_ij .., invProb_strictMono.monotone h3⟩⟩

theorem C03_single_strict {d d' x y z : ℝ≥0∞} (hd : d < d') (hx : x ≠ 0) (hx' : x ≠ ⊤)
    (hy : y ≠ 0) (hy' : y ≠ ⊤) (hz : z ≠ 0) (hz' : z ≠ ⊤) (w : XR) :
    ProbLt (Sparse.FitnessModel.p_ij (ofENN d) (ofENN x) (ofENN y) (ofENN z))
      (Sparse.FitnessModel.p_ij (ofENN d') (ofENN x) (ofENN y) (ofENN z)) ∧
    ProbLt (Sparse.ScaleInvariantModel.p_ij (ofENN d) (ofENN x) (ofENN y) (ofENN z))
      (Sparse.ScaleInvariantModel.p_ij (ofENN d') (ofENN x) (ofENN y) (ofENN z)) ∧
    ProbLt (Dense.FitnessModel.p_ij (ofENN d) (ofENN x) (ofENN y) w)
      (Dense.FitnessModel.p_ij (ofENN d') (ofENN x) (ofENN y) w) ∧
    ProbLt (Dense.ScaleInvariantModel.p_ij (ofENN d) (ofENN x) (ofENN y) w)
      (Dense.ScaleInvariantModel.p_ij (ofENN d') (ofENN x) (ofENN y) w) := by
  have h2 : d * x < d' * x := (ENNReal.mul_lt_mul_iff_left hx hx').2 hd
  have h3 : d * x * y < d' * x * y := (ENNReal.mul_lt_mul_iff_left hy hy').2 h2
  have h4 : d * x * y * z < d' * x * y * z := (ENNReal.mul_lt_mul_iff_left hz hz').2 h3
  exact ⟨⟨_, _, sparse_fit_p_ij .., sparse_fit_p_ij .., fitProb_strictMono h4⟩,
    ⟨_, _, sparse_inv_p_ij .., sparse_inv_p_ij .., invProb_strictMono h4⟩,
    ⟨_, _, dense_fit_p_ij .., dense_fit_p_ij .., fitProb_strictMono h3⟩,
    ⟨_, _, dense_inv_p_ij .., dense_inv_p_ij .., invProb_strictMono h3⟩⟩

example : (1 : ℝ≥0∞) < ⊤ ∧ (2 : ℝ≥0∞) ≠ 0 ∧ (2 : ℝ≥0∞) ≠ ⊤ := by simp

theorem noneFit_anti {n : ℕ} {D D' x x' y y' : ℕ → ℝ≥0∞} (hD : ∀ k, D k ≤ D' k)
    (hx : ∀ k, x k ≤ x' k) (hy : ∀ k, y k ≤ y' k) : noneFit n D' x' y' ≤ noneFit n D x y :=
  Finset.prod_le_prod (fun k _ => by have := fitProb_le_one (D' k * x' k * y' k); linarith)
    (fun k _ => by
      have := fitProb_strictMono.monotone (mul_le_mul' (mul_le_mul' (hD k) (hx k)) (hy k))
      linarith)
theorem noneInv_anti {n : ℕ} {D D' x x' y y' : ℕ → ℝ≥0∞} (hD : ∀ k, D k ≤ D' k)
    (hx : ∀ k, x k ≤ x' k) (hy : ∀ k, y k ≤ y' k) : noneInv n D' x' y' ≤ noneInv n D x y :=
  Finset.prod_le_prod (fun k _ => by have := invProb_le_one (D' k * x' k * y' k); linarith)
    (fun k _ => by
      have := invProb_strictMono.monotone (mul_le_mul' (mul_le_mul' (hD k) (hx k)) (hy k))
      linarith)

/-- All layers, dense rows with `n` labels. -/
theorem C03_multi_dense {n : ℕ} {D D' x x' y y' : ℕ → ℝ≥0∞} (hD : ∀ k, D k ≤ D' k)
    (hx : ∀ k, x k ≤ x' k) (hy : ∀ k, y k ≤ y' k) :
    ProbLe (Dense.MultiFitnessModel.p_ij (fun k => ofENN (D k)) (denseX n x) (denseX n y))
      (Dense.MultiFitnessModel.p_ij (fun k => ofENN (D' k)) (denseX n x') (denseX n y')) ∧
    ProbLe (Dense.MultiInvariantModel.p_ij (fun k => ofENN (D k)) (denseX n x) (denseX n y))
      (Dense.MultiInvariantModel.p_ij (fun k => ofENN (D' k)) (denseX n x') (denseX n y')) :=
  ⟨⟨_, _, dense_multiFit_p_ij n D x y, dense_multiFit_p_ij n D' x' y', by
      have := noneFit_anti (n := n) hD hx hy; linarith⟩,
   ⟨_, _, dense_multiInv_p_ij n D x y, dense_multiInv_p_ij n D' x' y', by
      have := noneInv_anti (n := n) hD hx hy; linarith⟩⟩

theorem sparse_multiFit_p_ij {n : ℕ} (D : ℕ → ℝ≥0∞) {xs ys : List (ℕ × ℝ≥0∞)} (hx : RowSorted xs)
    (hy : RowSorted ys) (hxn : ∀ e ∈ xs, e.1 < n) (hyn : ∀ e ∈ ys, e.1 < n) :
    Sparse.MultiFitnessModel.p_ij (arrX D) (rowX xs) (rowX ys)
      = fin (1 - noneFit n D (entry xs) (entry ys)) := by
  rw [sparse_dense_fit_p _ (rowSorted_rowX hx) (rowSorted_rowX hy) (lt_rowX hxn) (lt_rowX hyn),
    denseX_rowX, denseX_rowX, dense_multiFit_p_ij]

theorem sparse_multiInv_p_ij {n : ℕ} (D : ℕ → ℝ≥0∞) {xs ys : List (ℕ × ℝ≥0∞)} (hx : RowSorted xs)
    (hy : RowSorted ys) (hxn : ∀ e ∈ xs, e.1 < n) (hyn : ∀ e ∈ ys, e.1 < n) :
    Sparse.MultiInvariantModel.p_ij (arrX D) (rowX xs) (rowX ys)
      = fin (1 - noneInv n D (entry xs) (entry ys)) := by
  rw [sparse_dense_inv_p _ (rowSorted_rowX hx) (rowSorted_rowX hy) (lt_rowX hxn) (lt_rowX hyn),
    denseX_rowX, denseX_rowX, dense_multiInv_p_ij]

theorem exists_bound (rs : List (List (ℕ × ℝ≥0∞))) : ∃ n, ∀ r ∈ rs, ∀ e ∈ r, e.1 < n := by
  induction rs with
  | nil => exact ⟨0, by simp⟩
  | cons r rs ih =>
    obtain ⟨n, hn⟩ := ih
    obtain ⟨m, hm⟩ : ∃ m, ∀ e ∈ r, e.1 < m := by
      clear hn
      induction r with
      | nil => exact ⟨0, by simp⟩
      | cons e r ih =>
        obtain ⟨m, hm⟩ := ih
        exact ⟨max m (e.1 + 1), fun f hf => by
          rcases List.mem_cons.1 hf with rfl | hf
          · exact lt_of_lt_of_le (Nat.lt_succ_self _) (le_max_right _ _)
          · exact lt_of_lt_of_le (hm f hf) (le_max_left _ _)⟩
    exact ⟨max n m, fun r' hr' e he => by
      rcases List.mem_cons.1 hr' with rfl | h
      · exact lt_of_lt_of_le (hm e he) (le_max_right _ _)
      · exact lt_of_lt_of_le (hn r' h e he) (le_max_left _ _)⟩

/-- All layers, sparse rows with any labels. -/
theorem C03_multi_sparse {D D' : ℕ → ℝ≥0∞} {xs xs' ys ys' : List (ℕ × ℝ≥0∞)}
    (sx : RowSorted xs) (sx' : RowSorted xs') (sy : RowSorted ys) (sy' : RowSorted ys')
    (hD : ∀ k, D k ≤ D' k) (hx : ∀ k, entry xs k ≤ entry xs' k)
    (hy : ∀ k, entry ys k ≤ entry ys' k) :
    ProbLe (Sparse.MultiFitnessModel.p_ij (fun k => ofENN (D k)) (rowX xs) (rowX ys))
      (Sparse.MultiFitnessModel.p_ij (fun k => ofENN (D' k)) (rowX xs') (rowX ys')) ∧
    ProbLe (Sparse.MultiInvariantModel.p_ij (fun k => ofENN (D k)) (rowX xs) (rowX ys))
      (Sparse.MultiInvariantModel.p_ij (fun k => ofENN (D' k)) (rowX xs') (rowX ys')) := by
  obtain ⟨n, hn⟩ := exists_bound [xs, xs', ys, ys']
  have h1 := hn xs (by simp)
  have h2 := hn xs' (by simp)
  have h3 := hn ys (by simp)
  have h4 := hn ys' (by simp)
  exact ⟨⟨_, _, sparse_multiFit_p_ij D sx sy h1 h3, sparse_multiFit_p_ij D' sx' sy' h2 h4, by
      have := noneFit_anti (n := n) hD hx hy; linarith⟩,
   ⟨_, _, sparse_multiInv_p_ij D sx sy h1 h3, sparse_multiInv_p_ij D' sx' sy' h2 h4, by
      have := noneInv_anti (n := n) hD hx hy; linarith⟩⟩

example : RowSorted [(1, (2 : ℝ≥0∞)), (4, 3)] ∧
    (∀ k, entry [(1, (2 : ℝ≥0∞))] k ≤ entry [(1, (2 : ℝ≥0∞)), (4, 3)] k) := by
  refine ⟨by simp [RowSorted], fun k => ?_⟩
  simp only [entry_cons, entry_nil]
  split <;> simp

/-! ## C04 -/

/-- `p`, `logp`, `log1mp` tell the same story. -/
def LogsAgree (p logp log1mp : XR) : Prop :=
  ∃ r : ℝ, 0 ≤ r ∧ r ≤ 1 ∧ p = fin r ∧ logp = elog r ∧ log1mp = elog (1 - r)

theorem C04_single (d x y z w : XR) (hd : d.Nonneg) (hx : x.Nonneg) (hy : y.Nonneg)
    (hz : z.Nonneg) :
    LogsAgree (Sparse.FitnessModel.p_ij d x y z) (Sparse.FitnessModel.logp d x y z)
      (Sparse.FitnessModel.log1mp d x y z) ∧
    LogsAgree (Sparse.ScaleInvariantModel.p_ij d x y z) (Sparse.ScaleInvariantModel.logp d x y z)
      (Sparse.ScaleInvariantModel.log1mp d x y z) ∧
    LogsAgree (Dense.FitnessModel.p_ij d x y w) (Dense.FitnessModel.logp d x y w)
      (Dense.FitnessModel.log1mp d x y w) ∧
    LogsAgree (Dense.ScaleInvariantModel.p_ij d x y w) (Dense.ScaleInvariantModel.logp d x y w)
      (Dense.ScaleInvariantModel.log1mp d x y w) ∧
    LogsAgree (Dense.ScaleInvariantModel.p_ij d x y w) (Dense.ScaleInvariantModel.logp d x y w)
      (Spark.ScaleInvariantModel.log1mp d x y w) ∧
    LogsAgree (MultiFitnessModel.p_ijk d x y w) (MultiFitnessModel.logp_ijk d x y w)
      (MultiFitnessModel.log1mp_ijk d x y w) ∧
    LogsAgree (MultiInvariantModel.p_ijk d x y w) (MultiInvariantModel.logp_ijk d x y w)
      (MultiInvariantModel.log1mp_ijk d x y w) := by
  obtain ⟨d, rfl⟩ := (nonneg_iff_exists _).1 hd
  obtain ⟨x, rfl⟩ := (nonneg_iff_exists _).1 hx
  obtain ⟨y, rfl⟩ := (nonneg_iff_exists _).1 hy
  obtain ⟨z, rfl⟩ := (nonneg_iff_exists _).1 hz
  exact ⟨⟨_, fitProb_nonneg _, fitProb_le_one _, sparse_fit_p_ij .., sparse_fit_logp ..,
      sparse_fit_log1mp ..⟩,
    ⟨_, invProb_nonneg _, invProb_le_one _, sparse_inv_p_ij .., sparse_inv_logp ..,
      sparse_inv_log1mp ..⟩,
    ⟨_, fitProb_nonneg _, fitProb_le_one _, dense_fit_p_ij .., dense_fit_logp ..,
      dense_fit_log1mp ..⟩,
    ⟨_, invProb_nonneg _, invProb_le_one _, dense_inv_p_ij .., dense_inv_logp ..,
      dense_inv_log1mp ..⟩,
    ⟨_, invProb_nonneg _, invProb_le_one _, dense_inv_p_ij .., dense_inv_logp ..,
      spark_inv_log1mp ..⟩,
    ⟨_, fitProb_nonneg _, fitProb_le_one _, dense_fit_p_ij .., dense_fit_logp ..,
      dense_fit_log1mp ..⟩,
    ⟨_, invProb_nonneg _, invProb_le_one _, dense_inv_p_ij .., dense_inv_logp ..,
      dense_inv_log1mp ..⟩⟩

theorem C04_multi_dense (n : ℕ) (D x y : ℕ → ℝ≥0∞) :
    LogsAgree
      (Dense.MultiFitnessModel.p_ij (fun k => ofENN (D k)) (denseX n x) (denseX n y))
      (Dense.MultiFitnessModel.logp (fun k => ofENN (D k)) (denseX n x) (denseX n y))
      (Dense.MultiFitnessModel.log1mp (fun k => ofENN (D k)) (denseX n x) (denseX n y)) ∧
    LogsAgree
      (Dense.MultiInvariantModel.p_ij (fun k => ofENN (D k)) (denseX n x) (denseX n y))
      (Dense.MultiInvariantModel.logp (fun k => ofENN (D k)) (denseX n x) (denseX n y))
      (Dense.MultiInvariantModel.log1mp (fun k => ofENN (D k)) (denseX n x) (denseX n y)) := by
  refine ⟨⟨1 - noneFit n D x y, ?_, ?_, dense_multiFit_p_ij .., dense_multiFit_logp .., ?_⟩,
    ⟨1 - noneInv n D x y, ?_, ?_, dense_multiInv_p_ij .., dense_multiInv_logp .., ?_⟩⟩
  · have := noneFit_le_one n D x y; linarith
  · have := noneFit_nonneg n D x y; linarith
  · rw [sub_sub_cancel]; exact dense_multiFit_log1mp n D x y
  · have := noneInv_le_one n D x y; linarith
  · have := noneInv_nonneg n D x y; linarith
  · rw [sub_sub_cancel]; exact dense_multiInv_log1mp n D x y

theorem C04_multi_sparse (D : ℕ → ℝ≥0∞) {xs ys : List (ℕ × ℝ≥0∞)} (sx : RowSorted xs)
    (sy : RowSorted ys) :
    LogsAgree
      (Sparse.MultiFitnessModel.p_ij (fun k => ofENN (D k)) (rowX xs) (rowX ys))
      (Sparse.MultiFitnessModel.logp (fun k => ofENN (D k)) (rowX xs) (rowX ys))
      (Sparse.MultiFitnessModel.log1mp (fun k => ofENN (D k)) (rowX xs) (rowX ys)) ∧
    LogsAgree
      (Sparse.MultiInvariantModel.p_ij (fun k => ofENN (D k)) (rowX xs) (rowX ys))
      (Sparse.MultiInvariantModel.logp (fun k => ofENN (D k)) (rowX xs) (rowX ys))
      (Sparse.MultiInvariantModel.log1mp (fun k => ofENN (D k)) (rowX xs) (rowX ys)) := by
  obtain ⟨n, hn⟩ := exists_bound [xs, ys]
  have h1 := lt_rowX (hn xs (by simp))
  have h3 := lt_rowX (hn ys (by simp))
  have hx := rowSorted_rowX sx
  have hy := rowSorted_rowX sy
  rw [sparse_dense_fit_p _ hx hy h1 h3, sparse_dense_fit_logp _ hx hy h1 h3,
    sparse_dense_fit_log1mp _ hx hy h1 h3, sparse_dense_inv_p _ hx hy h1 h3,
    sparse_dense_inv_logp _ hx hy h1 h3, sparse_dense_inv_log1mp _ hx hy h1 h3,
    denseX_rowX, denseX_rowX]
  exact C04_multi_dense n D (entry xs) (entry ys)

/-! ## C06 -/

/-- `1 -` the product over all labels of `1 -` the one-layer probability. -/
theorem C06_dense (n : ℕ) (D x y : ℕ → ℝ≥0∞) (w : XR) :
    (∃ q : ℕ → ℝ, (∀ k, MultiFitnessModel.p_ijk (ofENN (D k)) (ofENN (x k)) (ofENN (y k)) w
        = fin (q k)) ∧
      Dense.MultiFitnessModel.p_ij (fun k => ofENN (D k)) (denseX n x) (denseX n y)
        = fin (1 - ∏ k ∈ Finset.range n, (1 - q k))) ∧
    (∃ q : ℕ → ℝ, (∀ k, MultiInvariantModel.p_ijk (ofENN (D k)) (ofENN (x k)) (ofENN (y k)) w
        = fin (q k)) ∧
      Dense.MultiInvariantModel.p_ij (fun k => ofENN (D k)) (denseX n x) (denseX n y)
        = fin (1 - ∏ k ∈ Finset.range n, (1 - q k))) :=
  ⟨⟨fun k => fitProb (D k * x k * y k), fun _ => dense_fit_p_ij _ _ _ w,
      dense_multiFit_p_ij n D x y⟩,
   ⟨fun k => invProb (D k * x k * y k), fun _ => dense_inv_p_ij _ _ _ w,
      dense_multiInv_p_ij n D x y⟩⟩

/-- Sparse and spark: rows are lists of `(label, value)` with strictly increasing labels below
the number of labels `n`; a missing label counts as a zero property. -/
theorem C06_sparse (n : ℕ) (D : ℕ → ℝ≥0∞) {xs ys : List (ℕ × ℝ≥0∞)} (sx : RowSorted xs)
    (sy : RowSorted ys) (hxn : ∀ e ∈ xs, e.1 < n) (hyn : ∀ e ∈ ys, e.1 < n) (w : XR) :
    (∃ q : ℕ → ℝ, (∀ k, MultiFitnessModel.p_ijk (ofENN (D k)) (ofENN (entry xs k))
        (ofENN (entry ys k)) w = fin (q k)) ∧
      Sparse.MultiFitnessModel.p_ij (fun k => ofENN (D k)) (rowX xs) (rowX ys)
        = fin (1 - ∏ k ∈ Finset.range n, (1 - q k))) ∧
    (∃ q : ℕ → ℝ, (∀ k, MultiInvariantModel.p_ijk (ofENN (D k)) (ofENN (entry xs k))
        (ofENN (entry ys k)) w = fin (q k)) ∧
      Sparse.MultiInvariantModel.p_ij (fun k => ofENN (D k)) (rowX xs) (rowX ys)
        = fin (1 - ∏ k ∈ Finset.range n, (1 - q k))) :=
  ⟨⟨fun k => fitProb (D k * entry xs k * entry ys k), fun _ => dense_fit_p_ij _ _ _ w,
      sparse_multiFit_p_ij D sx sy hxn hyn⟩,
   ⟨fun k => invProb (D k * entry xs k * entry ys k), fun _ => dense_inv_p_ij _ _ _ w,
      sparse_multiInv_p_ij D sx sy hxn hyn⟩⟩

example : RowSorted [(0, (2 : ℝ≥0∞)), (2, ⊤)] ∧ (∀ e ∈ [(0, (2 : ℝ≥0∞)), (2, ⊤)], e.1 < 3) := by
  constructor <;> simp [RowSorted]

/-! ## C07 -/

theorem mul_one_XR (v : XR) : v * 1 = v := by
  cases v with
  | fin r => simp [one_def]
  | pinf => exact pinf_mul_fin_pos one_pos
  | ninf => exact ninf_mul_fin_pos one_pos
  | nan => rfl

/-- Single layer: without dyadic factor (`z = 1`) the sparse functions are the dense and spark
ones, for all floats. -/
theorem C07_single (d x y w : XR) :
    Sparse.FitnessModel.p_ij d x y 1 = Dense.FitnessModel.p_ij d x y w ∧
    Sparse.FitnessModel.logp d x y 1 = Dense.FitnessModel.logp d x y w ∧
    Sparse.FitnessModel.log1mp d x y 1 = Dense.FitnessModel.log1mp d x y w ∧
    Sparse.FitnessModel.p_jac_ij d x y 1 = Dense.FitnessModel.p_jac_ij d x y ∧
    Sparse.ScaleInvariantModel.p_ij d x y 1 = Dense.ScaleInvariantModel.p_ij d x y w ∧
    Sparse.ScaleInvariantModel.logp d x y 1 = Dense.ScaleInvariantModel.logp d x y w ∧
    Sparse.ScaleInvariantModel.log1mp d x y 1 = Spark.ScaleInvariantModel.log1mp d x y w ∧
    Sparse.ScaleInvariantModel.p_jac_ij d x y 1 = Dense.ScaleInvariantModel.p_jac_ij d x y := by
  have h1 : XR.isZero (1 : XR) = false := by simp [one_def]
  simp only [Sparse.FitnessModel.p_ij, Sparse.FitnessModel.logp, Sparse.FitnessModel.log1mp,
    Sparse.FitnessModel.p_jac_ij, Sparse.ScaleInvariantModel.p_ij,
    Sparse.ScaleInvariantModel.logp, Sparse.ScaleInvariantModel.log1mp,
    Sparse.ScaleInvariantModel.p_jac_ij, Dense.FitnessModel.p_ij, Dense.FitnessModel.logp,
    Dense.FitnessModel.log1mp, Dense.FitnessModel.p_jac_ij, Dense.ScaleInvariantModel.p_ij,
    Dense.ScaleInvariantModel.logp, Spark.ScaleInvariantModel.log1mp,
    Dense.ScaleInvariantModel.p_jac_ij, h1, Bool.or_false, mul_one_XR, and_self]

/-- The dense scale-invariant `log1mp`, which is coded differently, agrees on all values a model
can be constructed with. -/
theorem C07_single_log1mp (d x y w : XR) (hd : d.Nonneg) (hx : x.Nonneg) (hy : y.Nonneg) :
    Dense.ScaleInvariantModel.log1mp d x y w = Spark.ScaleInvariantModel.log1mp d x y w := by
  obtain ⟨d, rfl⟩ := (nonneg_iff_exists _).1 hd
  obtain ⟨x, rfl⟩ := (nonneg_iff_exists _).1 hx
  obtain ⟨y, rfl⟩ := (nonneg_iff_exists _).1 hy
  rw [dense_inv_log1mp, spark_inv_log1mp]

/-- All layers: a function of two sparse rows equals the dense function of the two dense rows
with the same entries, for all floats; in particular explicitly stored zeros do not matter. -/
theorem C07_multi {n : ℕ} {xs ys : List (ℕ × XR)} (sx : RowSorted xs) (sy : RowSorted ys)
    (hxn : ∀ e ∈ xs, e.1 < n) (hyn : ∀ e ∈ ys, e.1 < n) (d : ℕ → XR) :
    let dx := (List.range n).map (entry xs)
    let dy := (List.range n).map (entry ys)
    Sparse.MultiFitnessModel.p_ij d xs ys = Dense.MultiFitnessModel.p_ij d dx dy ∧
    Sparse.MultiFitnessModel.logp d xs ys = Dense.MultiFitnessModel.logp d dx dy ∧
    Sparse.MultiFitnessModel.log1mp d xs ys = Dense.MultiFitnessModel.log1mp d dx dy ∧
    Sparse.MultiFitnessModel.p_jac_ij (d 0) xs ys = Dense.MultiFitnessModel.p_jac_ij (d 0) dx dy ∧
    Sparse.MultiInvariantModel.p_ij d xs ys = Dense.MultiInvariantModel.p_ij d dx dy ∧
    Sparse.MultiInvariantModel.logp d xs ys = Dense.MultiInvariantModel.logp d dx dy ∧
    Sparse.MultiInvariantModel.log1mp d xs ys = Dense.MultiInvariantModel.log1mp d dx dy ∧
    Sparse.MultiInvariantModel.p_jac_ij (d 0) xs ys
      = Dense.MultiInvariantModel.p_jac_ij (d 0) dx dy :=
  ⟨sparse_dense_fit_p d sx sy hxn hyn, sparse_dense_fit_logp d sx sy hxn hyn,
    sparse_dense_fit_log1mp d sx sy hxn hyn, sparse_dense_fit_jac (d 0) sx sy hxn hyn,
    sparse_dense_inv_p d sx sy hxn hyn, sparse_dense_inv_logp d sx sy hxn hyn,
    sparse_dense_inv_log1mp d sx sy hxn hyn, sparse_dense_inv_jac (d 0) sx sy hxn hyn⟩

/-- Two sparse rows with the same entries (one may store zeros explicitly) are interchangeable. -/
theorem C07_stored_zeros {n : ℕ} {xs xs' ys ys' : List (ℕ × XR)} (sx : RowSorted xs)
    (sx' : RowSorted xs') (sy : RowSorted ys) (sy' : RowSorted ys')
    (hxn : ∀ e ∈ xs, e.1 < n) (hyn : ∀ e ∈ ys, e.1 < n)
    (hxn' : ∀ e ∈ xs', e.1 < n) (hyn' : ∀ e ∈ ys', e.1 < n)
    (hx : entry xs = entry xs') (hy : entry ys = entry ys') (d : ℕ → XR) :
    Sparse.MultiFitnessModel.p_ij d xs ys = Sparse.MultiFitnessModel.p_ij d xs' ys' ∧
    Sparse.MultiInvariantModel.p_ij d xs ys = Sparse.MultiInvariantModel.p_ij d xs' ys' := by
  rw [sparse_dense_fit_p d sx sy hxn hyn, sparse_dense_fit_p d sx' sy' hxn' hyn',
    sparse_dense_inv_p d sx sy hxn hyn, sparse_dense_inv_p d sx' sy' hxn' hyn', hx, hy]
  exact ⟨rfl, rfl⟩

example : entry [(0, (0 : XR)), (2, pinf)] = entry [(2, (pinf : XR))] ∧
    RowSorted [(0, (0 : XR)), (2, pinf)] := by
  refine ⟨funext fun k => ?_, by simp [RowSorted]⟩
  simp only [entry_cons, entry_nil]
  split <;> rename_i h
  · subst h; simp
  · rfl

/-! ## C08 -/

theorem invProb_complement_sum {ι : Type} (s : Finset ι) (t : ι → ℝ≥0∞) :
    1 - invProb (∑ i ∈ s, t i) = ∏ i ∈ s, (1 - invProb (t i)) := by
  by_cases h : ∃ i ∈ s, t i = ⊤
  · obtain ⟨i, hi, ht⟩ := h
    rw [(ENNReal.sum_eq_top).2 ⟨i, hi, ht⟩, invProb_top, sub_self,
      Finset.prod_eq_zero hi (by rw [ht, invProb_top, sub_self])]
  · push Not at h
    rw [one_sub_invProb ((ENNReal.sum_ne_top).2 h), ENNReal.toReal_sum h,
      ← Finset.sum_neg_distrib, Real.exp_sum]
    exact Finset.prod_congr rfl (fun i hi => (one_sub_invProb (h i hi)).symm)

/-- Merging the nodes of `A` and the nodes of `B` (properties add up): the probability of a link
between the two merged nodes is the probability that some link from `A` to `B` exists when
the links are independent. -/
theorem C08_single {ι κ : Type} (A : Finset ι) (B : Finset κ) (x : ι → ℝ≥0∞) (y : κ → ℝ≥0∞)
    (d z : ℝ≥0∞) (w : XR) :
    (∃ q : ι → κ → ℝ,
      (∀ i j, Sparse.ScaleInvariantModel.p_ij (ofENN d) (ofENN (x i)) (ofENN (y j)) (ofENN z)
        = fin (q i j)) ∧
      Sparse.ScaleInvariantModel.p_ij (ofENN d) (ofENN (∑ i ∈ A, x i)) (ofENN (∑ j ∈ B, y j))
        (ofENN z) = fin (1 - ∏ i ∈ A, ∏ j ∈ B, (1 - q i j))) ∧
    (∃ q : ι → κ → ℝ,
      (∀ i j, Dense.ScaleInvariantModel.p_ij (ofENN d) (ofENN (x i)) (ofENN (y j)) w
        = fin (q i j)) ∧
      Dense.ScaleInvariantModel.p_ij (ofENN d) (ofENN (∑ i ∈ A, x i)) (ofENN (∑ j ∈ B, y j)) w
        = fin (1 - ∏ i ∈ A, ∏ j ∈ B, (1 - q i j))) := by
  have e3 : d * (∑ i ∈ A, x i) * (∑ j ∈ B, y j) = ∑ i ∈ A, ∑ j ∈ B, d * x i * y j := by
    rw [mul_assoc, Finset.sum_mul_sum, Finset.mul_sum]
    exact Finset.sum_congr rfl (fun i _ => by simp only [Finset.mul_sum, mul_assoc])
  have e4 : d * (∑ i ∈ A, x i) * (∑ j ∈ B, y j) * z = ∑ i ∈ A, ∑ j ∈ B, d * x i * y j * z := by
    rw [e3, Finset.sum_mul]
    exact Finset.sum_congr rfl (fun i _ => by rw [Finset.sum_mul])
  refine ⟨⟨_, fun i j => sparse_inv_p_ij .., ?_⟩, ⟨_, fun i j => dense_inv_p_ij .., ?_⟩⟩
  · rw [sparse_inv_p_ij, e4]
    simp only [← invProb_complement_sum, sub_sub_cancel]
  · rw [dense_inv_p_ij, e3]
    simp only [← invProb_complement_sum, sub_sub_cancel]

theorem noneInv_eq (n : ℕ) (D x y : ℕ → ℝ≥0∞) :
    noneInv n D x y = 1 - invProb (∑ k ∈ Finset.range n, D k * x k * y k) :=
  (invProb_complement_sum _ _).symm

/-- The same for the all-layer probability of the multi-layer scale-invariant model, where the
properties of the merged node are the label-wise sums. -/
theorem C08_multi {ι κ : Type} (A : Finset ι) (B : Finset κ) (n : ℕ) (D : ℕ → ℝ≥0∞)
    (xs : ι → List (ℕ × ℝ≥0∞)) (ys : κ → List (ℕ × ℝ≥0∞))
    (hx : ∀ i, RowSorted (xs i) ∧ ∀ e ∈ xs i, e.1 < n)
    (hy : ∀ j, RowSorted (ys j) ∧ ∀ e ∈ ys j, e.1 < n)
    (gx gy : List (ℕ × ℝ≥0∞)) (hgx : RowSorted gx ∧ ∀ e ∈ gx, e.1 < n)
    (hgy : RowSorted gy ∧ ∀ e ∈ gy, e.1 < n)
    (hsx : ∀ k, entry gx k = ∑ i ∈ A, entry (xs i) k)
    (hsy : ∀ k, entry gy k = ∑ j ∈ B, entry (ys j) k) :
    ∃ q : ι → κ → ℝ,
      (∀ i j, Sparse.MultiInvariantModel.p_ij (fun k => ofENN (D k)) (rowX (xs i)) (rowX (ys j))
        = fin (q i j)) ∧
      Sparse.MultiInvariantModel.p_ij (fun k => ofENN (D k)) (rowX gx) (rowX gy)
        = fin (1 - ∏ i ∈ A, ∏ j ∈ B, (1 - q i j)) := by
  refine ⟨_, fun i j => sparse_multiInv_p_ij D (hx i).1 (hy j).1 (hx i).2 (hy j).2, ?_⟩
  rw [sparse_multiInv_p_ij D hgx.1 hgy.1 hgx.2 hgy.2]
  simp only [sub_sub_cancel, ← invProb_complement_sum]
  congr 2
  simp only [hsx, hsy]
  have e : ∀ k, D k * (∑ i ∈ A, entry (xs i) k) * (∑ j ∈ B, entry (ys j) k)
      = ∑ i ∈ A, ∑ j ∈ B, D k * entry (xs i) k * entry (ys j) k := fun k => by
    rw [mul_assoc, Finset.sum_mul_sum, Finset.mul_sum]
    exact Finset.sum_congr rfl (fun i _ => by simp only [Finset.mul_sum, mul_assoc])
  rw [Finset.sum_congr rfl (fun k _ => e k), Finset.sum_comm]
  exact Finset.sum_congr rfl (fun i _ => Finset.sum_comm)

/-- The hypotheses of `C08_multi` on a concrete case: two nodes with different labels. -/
example : (∀ k, entry [(0, (2 : ℝ≥0∞)), (3, 5)] k
      = ∑ i ∈ ({0, 1} : Finset ℕ), entry (if i = 0 then [(0, (2 : ℝ≥0∞))] else [(3, 5)]) k) := by
  intro k
  rw [Finset.sum_pair (by decide)]
  simp only [if_true, one_ne_zero, if_false, entry_cons, entry_nil]
  by_cases h : k = 0
  · subst h; simp
  · simp [h]

end Verif
