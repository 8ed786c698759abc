import Verif.Round.DegLemmas

/-!
# C107: expected degrees in double precision

Missing in the theorems (suffix `_partial`): factors whose partial products leave the range of
`C92_probability_partial`, and mathematical functions that are not correctly rounded.
-/

namespace Verif

open XR Round

theorem Round.exact_le_one {f : (XR → XR → XR → XR → XR) × (XR → XR → XR → XR → XR)}
    (hf : f ∈ Round.models) {d x y z : ℝ} (h : Round.InRange d x y z) {q : ℝ}
    (e : f.2 (fin d) (fin x) (fin y) (fin z) = fin q) : q ≤ 1 := by
  rcases h with h | ⟨hd, hx, hy, _, _, h3⟩
  · have g3 : ((fin x).isZero || (fin y).isZero || (fin d).isZero) = true := by
      rcases h with rfl | rfl | rfl <;> simp [isZero]
    have g4 : ((fin x).isZero || (fin y).isZero || (fin z).isZero || (fin d).isZero) = true := by
      rcases h with rfl | rfl | rfl <;> simp [isZero]
    have : f.2 (fin d) (fin x) (fin y) (fin z) = fin 0 := by
      simp only [Round.models, List.mem_cons, List.not_mem_nil, or_false] at hf
      rcases hf with rfl | rfl | rfl | rfl
      · simp only [Verif.Sparse.FitnessModel.p_ij, g4]; rfl
      · simp only [Verif.Sparse.ScaleInvariantModel.p_ij, g4]; rfl
      · simp only [Verif.Dense.FitnessModel.p_ij, g3]; rfl
      · simp only [Verif.Dense.ScaleInvariantModel.p_ij, g3]; rfl
    rw [this] at e
    rw [← XR.fin.inj e]
    norm_num
  · have hz : 0 ≤ z := by
      rcases h3 with rfl | h3
      · exact le_rfl
      · exact h3.1.le
    obtain ⟨h1, h2, h3, h4⟩ := C91_probability_partial Faithful.exact d x y z hd.le hx.le hy.le hz
    have hr : ∃ r : ℝ, f.2 (fin d) (fin x) (fin y) (fin z) = fin r ∧ 0 ≤ r ∧ r ≤ 1 := by
      simp only [Round.models, List.mem_cons, List.not_mem_nil, or_false] at hf
      rcases hf with rfl | rfl | rfl | rfl
      · exact h1
      · exact h2
      · exact h3
      · exact h4
    obtain ⟨r, er, _, r1⟩ := hr
    rw [er] at e
    rwa [← XR.fin.inj e]

/-- **C107**.  With at most `2 ^ 26` vertices, and all pairs of vertices in the range of
`C92_probability_partial` (or with a zero property), the expected out- and in-degrees computed in
double precision are within a relative distance of about `n + 5` half last places of the exact ones,
and the expected undirected degrees within about `n + 10`.  `N` is the number of possible
neighbours. -/
theorem C107_degrees_partial (f : (XR → XR → XR → XR → XR) × (XR → XR → XR → XR → XR))
    (hf : f ∈ Round.models) (n : ℕ) (hn : n ≤ 2 ^ 26) (d : ℝ) (x y : ℕ → ℝ) (z : ℕ → ℕ → ℝ)
    (h : ∀ i < n, ∀ j < n, Round.InRange d (x i) (y j) (z i j)) (sl : Bool) (k : ℕ) (hk : k < n) :
    let N := if sl then n else n - 1
    let u := (2 : ℝ) ^ (-53 : ℤ)
    let computed := Round.exp_degrees binary64 f.1 (fin d) n (fun i => fin (x i))
      (fun j => fin (y j)) (fun i j => fin (z i j)) sl
    let exact := DiGraphEnsemble.exp_degrees f.2 (fin d) n (fun i => fin (x i))
      (fun j => fin (y j)) (fun i j => fin (z i j)) sl
    (∃ e E : ℝ, computed.exp_d_out k = fin e ∧ exact.exp_d_out k = fin E ∧
      E * ((1 - 6 * u) * (1 - u) ^ N) ≤ e ∧ e ≤ E * ((1 + 6 * u) * (1 + u) ^ N)) ∧
    (∃ e E : ℝ, computed.exp_d_in k = fin e ∧ exact.exp_d_in k = fin E ∧
      E * ((1 - 6 * u) * (1 - u) ^ N) ≤ e ∧ e ≤ E * ((1 + 6 * u) * (1 + u) ^ N)) ∧
    (∃ e E : ℝ, computed.exp_d k = fin e ∧ exact.exp_d k = fin E ∧
      E * ((1 - 11 * u) * (1 - u) ^ N) ≤ e ∧ e ≤ E * ((1 + 11 * u) * (1 + u) ^ N)) := by
  intro N u computed exact
  have hu := ulp2_pos
  have hu' := ulp2_small
  have hterm : ∀ i < n, ∀ j < n,
      Term (5.3 * ulp2) (f.1 (fin d) (fin (x i)) (fin (y j)) (fin (z i j)))
        (f.2 (fin d) (fin (x i)) (fin (y j)) (fin (z i j))) := by
    intro i hi j hj
    obtain ⟨p, hp, q, q0, p0, p1, e1, e2, hw⟩ := Round.pair_acc hf (h i hi j hj)
    exact ⟨p, hp, q, e1, e2, p0, p1, q0, Round.exact_le_one hf (h i hi j hj) e2, hw⟩
  have hN : n - 1 + sl.toNat = N := by cases sl <;> simp [N]; omega
  have key := exp_degrees_rel (A := binary64) (B := Arith.exact) n sl f.1 f.2 (fin d)
    (fun i => fin (x i)) (fun j => fin (y j)) (fun i j => fin (z i j)) (Acc (5.3 * ulp2))
    (Acc (10.4 * ulp2)) (Term (5.3 * ulp2)) (Term (10.4 * ulp2)) (acc_zero _) (acc_zero _)
    (fun k hk e e' v v' he hv => acc_add (by linarith) (by linarith)
      (hk.trans_le (hn.trans (by norm_num))) he hv)
    (fun k hk e e' v v' he hv => acc_add (by linarith) (by linarith)
      (hk.trans_le (hn.trans (by norm_num))) he hv)
    hterm
    (by
      rintro v v' ⟨s, hs, t, e1, e2, s0, s1, t0, t1, hw⟩
      exact ⟨s, hs, t, e1, e2, s0, s1, t0, t1,
        (mul_le_mul_of_nonneg_left (by linarith) t0).trans hw.1,
        hw.2.trans (mul_le_mul_of_nonneg_left (by linarith) t0)⟩)
    (by
      rintro v w v' w' ⟨s, hs, t, rfl, rfl, s0, s1, t0, t1, hw⟩
        ⟨s', hs', t', rfl, rfl, s0', s1', t0', t1', hw'⟩
      obtain ⟨r, hr, er, r0, r1, hrw⟩ := union_acc (e := 5.3 * ulp2) (by linarith) (by linarith)
        hs hs' s0 s1 s0' s1' t0 t1 t0' t1' hw hw'
      refine ⟨r, hr, t + t' - t * t', er, rfl, r0, r1, ?_, ?_, ?_⟩
      · nlinarith
      · nlinarith
      · rwa [show 10.4 * ulp2 = 5.3 * ulp2 + 5.1 * ulp2 by ring])
    k hk
  rw [hN] at key
  have conv : ∀ {a b : ℝ} {c e : XR}, 0 ≤ a → a ≤ b → Acc a N c e →
      ∃ s t : ℝ, c = fin s ∧ e = fin t ∧ t * ((1 - b) * (1 - ulp2) ^ N) ≤ s ∧
        s ≤ t * ((1 + b) * (1 + ulp2) ^ N) := by
    rintro a b c e a0 hab ⟨s, _, t, e1, e2, _, t0, _, g1, g2⟩
    refine ⟨s, t, e1, e2, le_trans (mul_le_mul_of_nonneg_left ?_ t0) g1,
      g2.trans (mul_le_mul_of_nonneg_left ?_ t0)⟩
    · exact mul_le_mul_of_nonneg_right (by linarith) (pow_nonneg (by linarith) _)
    · exact mul_le_mul_of_nonneg_right (by linarith) (pow_nonneg (by linarith) _)
  exact ⟨conv (b := 6 * ulp2) (by linarith) (by linarith) key.1,
    conv (b := 6 * ulp2) (by linarith) (by linarith) key.2.1,
    conv (b := 11 * ulp2) (by linarith) (by linarith) key.2.2⟩

/-- Two vertices with self-loops meet the hypotheses. -/
example : ∀ i < 2, ∀ j < 2, Round.InRange 2 (if i = 0 then 1 else 3) (if j = 1 then 0 else 5) 1 := by
  have big : ∀ r : ℝ, 1 ≤ r → r ≤ 32 →
      (2 : ℝ) ^ (-1000 : ℤ) ≤ r ∧ r ≤ (2 : ℝ) ^ (1000 : ℤ) := fun r h1 h2 =>
    ⟨(zpow_le_one_of_nonpos₀ (by norm_num) (by norm_num)).trans h1,
      h2.trans ((show (32 : ℝ) ≤ (2 : ℝ) ^ (5 : ℤ) by norm_num).trans
        (zpow_le_zpow_right₀ (by norm_num) (by norm_num)))⟩
  intro i _ j _
  by_cases hj : j = 1
  · exact Or.inl (Or.inr (Or.inl (if_pos hj)))
  · rw [if_neg hj]
    right
    split <;>
    exact ⟨by norm_num, by norm_num, by norm_num, big _ (by norm_num) (by norm_num),
        big _ (by norm_num) (by norm_num), .inr ⟨by norm_num, big _ (by norm_num) (by norm_num)⟩⟩

/-- **C107** in one number: with at most `2 ^ 26` vertices in the range, the relative error of every
expected degree is at most `(n + 11) * 2 ^ -52`. -/
theorem C107_error_partial (f : (XR → XR → XR → XR → XR) × (XR → XR → XR → XR → XR))
    (hf : f ∈ Round.models) (n : ℕ) (hn : n ≤ 2 ^ 26) (d : ℝ) (x y : ℕ → ℝ) (z : ℕ → ℕ → ℝ)
    (h : ∀ i < n, ∀ j < n, Round.InRange d (x i) (y j) (z i j)) (sl : Bool) (k : ℕ) (hk : k < n)
    (g : DiGraphEnsemble.Degrees → ℕ → XR)
    (hg : g = DiGraphEnsemble.Degrees.exp_d ∨ g = DiGraphEnsemble.Degrees.exp_d_out ∨
      g = DiGraphEnsemble.Degrees.exp_d_in) :
    ∃ e E : ℝ,
      g (Round.exp_degrees binary64 f.1 (fin d) n (fun i => fin (x i)) (fun j => fin (y j))
        (fun i j => fin (z i j)) sl) k = fin e ∧
      g (DiGraphEnsemble.exp_degrees f.2 (fin d) n (fun i => fin (x i)) (fun j => fin (y j))
        (fun i j => fin (z i j)) sl) k = fin E ∧
      0 ≤ E ∧ |e - E| ≤ (n + 11) * (2 : ℝ) ^ (-52 : ℤ) * E := by
  have hu := ulp2_pos
  have e52 : (2 : ℝ) ^ (-52 : ℤ) = 2 * ulp2 := by unfold ulp2; norm_num
  have hN : (((if sl then n else n - 1 : ℕ)) : ℝ) ≤ n := by
    have : (if sl then n else n - 1) ≤ n := by split <;> omega
    exact_mod_cast this
  have hn' : (n : ℝ) ≤ 2 ^ 26 := by exact_mod_cast hn
  have hs : ((n : ℝ) + 11) * ulp2 ≤ 1 / 2 := by
    have : ulp2 ≤ 1 / 2 ^ 50 := by unfold ulp2; norm_num
    calc ((n : ℝ) + 11) * ulp2 ≤ (2 ^ 26 + 11) * (1 / 2 ^ 50) :=
          mul_le_mul (by linarith) this hu.le (by norm_num)
      _ ≤ 1 / 2 := by norm_num
  have conv : ∀ {c e E : ℝ}, 0 ≤ c → c ≤ 11 → 0 ≤ E →
      E * ((1 - c * ulp2) * (1 - ulp2) ^ (if sl then n else n - 1)) ≤ e →
      e ≤ E * ((1 + c * ulp2) * (1 + ulp2) ^ (if sl then n else n - 1)) →
      |e - E| ≤ (n + 11) * (2 : ℝ) ^ (-52 : ℤ) * E := by
    intro c e E c0 hc E0 h1 h2
    have hle := mul_le_mul_of_nonneg_right
      (show c + ((if sl then n else n - 1 : ℕ) : ℝ) ≤ n + 11 by linarith) hu.le
    refine (abs_of_powers c0 (by linarith) E0 h1 h2).trans ?_
    rw [e52]
    refine mul_le_mul_of_nonneg_right ?_ E0
    linarith
  obtain ⟨⟨e1, E1, a1, b1, l1, u1⟩, ⟨e2, E2, a2, b2, l2, u2⟩, ⟨e3, E3, a3, b3, l3, u3⟩⟩ :=
    C107_degrees_partial f hf n hn d x y z h sl k hk
  have nonneg : ∀ {E e c : ℝ}, 1 ≤ c → c ≤ 11 →
      E * ((1 - c * ulp2) * (1 - ulp2) ^ (if sl then n else n - 1)) ≤ e →
      e ≤ E * ((1 + c * ulp2) * (1 + ulp2) ^ (if sl then n else n - 1)) → 0 ≤ E := by
    intro E e c c0 hc h1 h2
    by_contra hneg
    push Not at hneg
    have hu' := ulp2_small
    have hc1 : c * ulp2 ≤ 11 * ulp2 := mul_le_mul_of_nonneg_right hc hu.le
    have hc2 : 0 < c * ulp2 := mul_pos (by linarith) hu
    have p1 : (1 - c * ulp2) * (1 - ulp2) ^ (if sl then n else n - 1) < 1 :=
      lt_of_le_of_lt (mul_le_of_le_one_right (by linarith)
        (pow_le_one₀ (by linarith) (by linarith))) (by linarith)
    have p2 : 1 ≤ (1 + c * ulp2) * (1 + ulp2) ^ (if sl then n else n - 1) :=
      one_le_mul_of_one_le_of_one_le (by linarith) (one_le_pow₀ (by linarith))
    have q1 := mul_lt_mul_of_neg_left p1 hneg
    have q2 := mul_le_mul_of_nonpos_left p2 hneg.le
    linarith
  rcases hg with rfl | rfl | rfl
  · have := nonneg (c := 11) (by norm_num) le_rfl l3 u3
    exact ⟨e3, E3, a3, b3, this, conv (by norm_num) le_rfl this l3 u3⟩
  · have := nonneg (c := 6) (by norm_num) (by norm_num) l1 u1
    exact ⟨e1, E1, a1, b1, this, conv (by norm_num) (by norm_num) this l1 u1⟩
  · have := nonneg (c := 6) (by norm_num) (by norm_num) l2 u2
    exact ⟨e2, E2, a2, b2, this, conv (by norm_num) (by norm_num) this l2 u2⟩

end Verif
