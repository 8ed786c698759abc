import Verif.Round.RandLemmas

/-!
# Sums in any order, and averages over the neighbours in the random ensemble
-/

namespace Verif

namespace Round

open XR

/-! ## Sums in any order -/

private theorem pow_lower {k m : ℕ} (h : k ≤ m) : (1 - ulp2) ^ m ≤ (1 - ulp2) ^ k :=
  pow_le_pow_of_le_one (by linarith [ulp2_small]) (by linarith [ulp2_pos]) h

private theorem pow_upper {k m : ℕ} (h : k ≤ m) : (1 + ulp2) ^ k ≤ (1 + ulp2) ^ m :=
  pow_le_pow_right₀ (by linarith [ulp2_pos]) h

private theorem order_pos (t : Order) : 1 ≤ t.leaves.length := by
  induction t with
  | leaf i => simp [Order.leaves]
  | node l r hl hr => rw [Order.leaves, List.length_append]; omega

/-- A sum of non-negative numbers with relative error `c * 2 ^ -53`, in any order. -/
theorem order_sum {c M : ℝ} (c0 : 0 ≤ c) (hc : c ≤ 2 ^ 26) (M0 : 0 ≤ M)
    (hM : M ≤ (2 : ℝ) ^ (500 : ℤ)) (x X : ℕ → ℝ) (t : Order) (hlen : t.leaves.length ≤ 2 ^ 26)
    (h : ∀ i ∈ t.leaves, x i ∈ doubles ∧ 0 ≤ X i ∧ X i ≤ M ∧ Within (c * ulp2) (X i) (x i)) :
    ∃ w ∈ doubles, t.sum binary64 (fun i => fin (x i)) = fin w ∧
      0 ≤ (t.leaves.map X).sum ∧ (t.leaves.map X).sum ≤ t.leaves.length * M ∧
      (t.leaves.map X).sum * ((1 - c * ulp2) * (1 - ulp2) ^ t.leaves.length) ≤ w ∧
      w ≤ (t.leaves.map X).sum * ((1 + c * ulp2) * (1 + ulp2) ^ t.leaves.length) ∧
      ∀ i ∈ t.leaves, x i ≤ w := by
  have hu := ulp2_pos
  have hu' := ulp2_small
  have cu0 : 0 ≤ c * ulp2 := mul_nonneg c0 hu.le
  induction t with
  | leaf i =>
    obtain ⟨hd, X0, XM, hw⟩ := h i (by simp [Order.leaves])
    have cs := count_small' (c := c) (by linarith) (k := 0) (by norm_num)
    simp only [Nat.cast_zero, add_zero] at cs
    refine ⟨x i, hd, rfl, ?_, ?_, ?_, ?_, ?_⟩
    · simpa [Order.leaves] using X0
    · simpa [Order.leaves] using XM
    · simp only [Order.leaves, List.map_cons, List.map_nil, List.sum_cons, List.sum_nil, add_zero,
        List.length_singleton, pow_one]
      refine (mul_le_mul_of_nonneg_left ?_ X0).trans hw.1
      nlinarith
    · simp only [Order.leaves, List.map_cons, List.map_nil, List.sum_cons, List.sum_nil, add_zero,
        List.length_singleton, pow_one]
      refine hw.2.trans (mul_le_mul_of_nonneg_left ?_ X0)
      nlinarith
    · intro j hj
      obtain rfl : j = i := by simpa [Order.leaves] using hj
      exact le_rfl
  | node l r hl hr =>
    have len : (Order.node l r).leaves.length = l.leaves.length + r.leaves.length := by
      rw [Order.leaves, List.length_append]
    have sum : ((Order.node l r).leaves.map X).sum = (l.leaves.map X).sum + (r.leaves.map X).sum := by
      rw [Order.leaves, List.map_append, List.sum_append]
    have memL : ∀ i ∈ l.leaves, i ∈ (Order.node l r).leaves := fun i hi => by
      rw [Order.leaves]; exact List.mem_append_left _ hi
    have memR : ∀ i ∈ r.leaves, i ∈ (Order.node l r).leaves := fun i hi => by
      rw [Order.leaves]; exact List.mem_append_right _ hi
    obtain ⟨a, ad, ea, A0, AM, a1, a2, am⟩ := hl (by omega) fun i hi => h i (memL i hi)
    obtain ⟨b, bd, eb, B0, BM, b1, b2, bm⟩ := hr (by omega) fun i hi => h i (memR i hi)
    set A := (l.leaves.map X).sum
    set B := (r.leaves.map X).sum
    have pl := order_pos l
    have pr := order_pos r
    set k := l.leaves.length
    set m := r.leaves.length
    have hkm : k + m ≤ 2 ^ 26 := by omega
    have cs := count_small' (c := c) (by linarith) hkm
    have km0 : 0 ≤ ((k + m : ℕ) : ℝ) * ulp2 := by positivity
    have cs1 : c * ulp2 ≤ 1 / 1000000 := by linarith
    have low : ∀ j, 0 ≤ (1 - c * ulp2) * (1 - ulp2) ^ j := fun j =>
      mul_nonneg (by linarith) (pow_nonneg (by linarith) j)
    have a0 : 0 ≤ a := (mul_nonneg A0 (low k)).trans a1
    have b0 : 0 ≤ b := (mul_nonneg B0 (low m)).trans b1
    have a1' : A * ((1 - c * ulp2) * (1 - ulp2) ^ (k + m - 1)) ≤ a :=
      (mul_le_mul_of_nonneg_left (mul_le_mul_of_nonneg_left (pow_lower (by omega)) (by linarith))
        A0).trans a1
    have b1' : B * ((1 - c * ulp2) * (1 - ulp2) ^ (k + m - 1)) ≤ b :=
      (mul_le_mul_of_nonneg_left (mul_le_mul_of_nonneg_left (pow_lower (by omega)) (by linarith))
        B0).trans b1
    have a2' : a ≤ A * ((1 + c * ulp2) * (1 + ulp2) ^ (k + m - 1)) :=
      a2.trans (mul_le_mul_of_nonneg_left (mul_le_mul_of_nonneg_left (pow_upper (by omega))
        (by linarith)) A0)
    have b2' : b ≤ B * ((1 + c * ulp2) * (1 + ulp2) ^ (k + m - 1)) :=
      b2.trans (mul_le_mul_of_nonneg_left (mul_le_mul_of_nonneg_left (pow_upper (by omega))
        (by linarith)) B0)
    have ab : |(a + b) - (A + B)| ≤ 2 * (c + (k + m - 1 : ℕ)) * ulp2 * (A + B) := by
      refine abs_of_powers c0 ?_ (by linarith) (by linarith) (by linarith)
      have : ((k + m - 1 : ℕ) : ℝ) * ulp2 ≤ ((k + m : ℕ) : ℝ) * ulp2 :=
        mul_le_mul_of_nonneg_right (by exact_mod_cast Nat.sub_le _ _) hu.le
      linarith
    have big : a + b ≤ (2 : ℝ) ^ (1023 : ℤ) := by
      have h1 : (c + (k + m - 1 : ℕ)) * ulp2 ≤ 1 / 1000000 := by
        have : ((k + m - 1 : ℕ) : ℝ) * ulp2 ≤ ((k + m : ℕ) : ℝ) * ulp2 :=
          mul_le_mul_of_nonneg_right (by exact_mod_cast Nat.sub_le _ _) hu.le
        linarith
      have h2 : a + b ≤ 2 * (A + B) := by
        have h3 := (abs_le.1 ab).2
        have h4 : 2 * (c + (k + m - 1 : ℕ)) * ulp2 * (A + B) ≤ 1 * (A + B) :=
          mul_le_mul_of_nonneg_right (by linarith) (by linarith)
        linarith
      have h5 : A + B ≤ 2 ^ 26 * M := by
        have : ((k : ℝ) + m) * M ≤ 2 ^ 26 * M :=
          mul_le_mul_of_nonneg_right (by exact_mod_cast hkm) M0
        linarith
      have h6 : a + b ≤ 2 ^ 27 * M := by linarith
      refine h6.trans ((mul_le_mul_of_nonneg_left hM (by norm_num)).trans ?_)
      have e1 : (2 : ℝ) ^ 27 * (2 : ℝ) ^ (500 : ℤ) = (2 : ℝ) ^ (527 : ℤ) := by
        rw [show (527 : ℤ) = 27 + 500 by norm_num, zpow_add₀ (by norm_num)]; rfl
      rw [e1]
      exact zpow_le_zpow_right₀ (by norm_num) (by norm_num)
    obtain ⟨w, wd, ew, hw⟩ := add_within ad bd a0 b0 big
    clear big
    have hmono : ∀ q ∈ doubles, q ≤ a + b → q ≤ w := by
      intro q hq hqab
      have h1 := (near_toDouble (a + b)).lower (fin q) hq (by simpa [leb] using hqab)
      rw [ew] at h1
      simpa [leb] using h1
    refine ⟨w, wd, ?_, ?_, ?_, ?_, ?_, ?_⟩
    · rw [Order.sum, ea, eb]; exact ew
    · rw [sum]; linarith
    · rw [sum, len]; push_cast; linarith
    · rw [sum, len]
      calc (A + B) * ((1 - c * ulp2) * (1 - ulp2) ^ (k + m))
          = (A * ((1 - c * ulp2) * (1 - ulp2) ^ (k + m - 1)) +
              B * ((1 - c * ulp2) * (1 - ulp2) ^ (k + m - 1))) * (1 - ulp2) := by
            obtain ⟨j, hj⟩ : ∃ j, k + m = j + 1 := ⟨k + m - 1, by omega⟩
            rw [hj, Nat.add_sub_cancel, pow_succ]; ring
        _ ≤ (a + b) * (1 - ulp2) := mul_le_mul_of_nonneg_right (by linarith) (by linarith)
        _ ≤ w := hw.1
    · rw [sum, len]
      calc w ≤ (a + b) * (1 + ulp2) := hw.2
        _ ≤ (A * ((1 + c * ulp2) * (1 + ulp2) ^ (k + m - 1)) +
              B * ((1 + c * ulp2) * (1 + ulp2) ^ (k + m - 1))) * (1 + ulp2) :=
            mul_le_mul_of_nonneg_right (by linarith) (by linarith)
        _ = (A + B) * ((1 + c * ulp2) * (1 + ulp2) ^ (k + m)) := by
            obtain ⟨j, hj⟩ : ∃ j, k + m = j + 1 := ⟨k + m - 1, by omega⟩
            rw [hj, Nat.add_sub_cancel, pow_succ]; ring
    · intro i hi
      rw [Order.leaves] at hi
      rcases List.mem_append.1 hi with hi | hi
      · exact hmono _ (h i (memL i hi)).1 ((am i hi).trans (by linarith))
      · exact hmono _ (h i (memR i hi)).1 ((bm i hi).trans (by linarith))

/-! ## Rounding with an absolute error -/

theorem rnd_err_max (x : ℝ) : |rnd x - x| ≤ ulp2 * max |x| ((2 : ℝ) ^ (-1022 : ℤ)) := by
  by_cases hx : x = 0
  · subst hx
    rw [rnd_zero, sub_zero, abs_zero]
    exact mul_nonneg ulp2_pos.le (le_max_of_le_left le_rfl)
  refine (rnd_err x).trans ?_
  have e : ∀ a : ℤ, (2 : ℝ) ^ (a - 52) / 2 = ulp2 * (2 : ℝ) ^ a := by
    intro a
    rw [ulp2, ← zpow_add₀ (by norm_num), div_eq_mul_inv, show (2 : ℝ)⁻¹ = (2 : ℝ) ^ (-1 : ℤ) by norm_num,
      ← zpow_add₀ (by norm_num)]
    congr 1; ring
  unfold expo
  rcases le_total (Int.log 2 |x| - 52) (-1074) with h | h
  · rw [max_eq_right h, show (-1074 : ℤ) = -1022 - 52 by norm_num, e]
    exact mul_le_mul_of_nonneg_left (le_max_right _ _) ulp2_pos.le
  · rw [max_eq_left h, e]
    refine mul_le_mul_of_nonneg_left (le_trans ?_ (le_max_left _ _)) ulp2_pos.le
    exact (log_bounds hx).1

/-! ## Averages -/

theorem Order.sum_congr (A : Arith) {v v' : ℕ → XR} (t : Order) (h : ∀ i ∈ t.leaves, v i = v' i) :
    t.sum A v = t.sum A v' := by
  induction t with
  | leaf i => exact h i (by simp [Order.leaves])
  | node l r hl hr =>
    rw [Order.sum, Order.sum, hl fun i hi => h i (by rw [Order.leaves]; exact List.mem_append_left _ hi),
      hr fun i hi => h i (by rw [Order.leaves]; exact List.mem_append_right _ hi)]

/-- Zero, or between `2 ^ -400` and `2 ^ 400`. -/
def Small (r : ℝ) : Prop := r = 0 ∨ ((2 : ℝ) ^ (-400 : ℤ) ≤ r ∧ r ≤ (2 : ℝ) ^ (400 : ℤ))

theorem Small.nonneg {r : ℝ} (h : Small r) : 0 ≤ r := by
  rcases h with rfl | h
  · exact le_rfl
  · exact (pow_pos' _).le.trans h.1

theorem Small.le {r : ℝ} (h : Small r) : r ≤ (2 : ℝ) ^ (400 : ℤ) := by
  rcases h with rfl | h
  · exact (pow_pos' _).le
  · exact h.2

theorem Small.mid_mul {c r : ℝ} (h : Small r) (c1 : (2 : ℝ) ^ (-401 : ℤ) ≤ c) (c2 : c ≤ 2) :
    MidR (c * r) := by
  have c0 : 0 ≤ c := (pow_pos' _).le.trans c1
  rcases h with rfl | ⟨h1, h2⟩
  · exact .inl (mul_zero c)
  · refine .inr ⟨?_, ?_⟩
    · refine le_trans ?_ (mul_le_mul c1 h1 (pow_pos' _).le c0)
      rw [← zpow_add₀ (by norm_num)]
      exact zpow_le_zpow_right₀ (by norm_num) (by norm_num)
    · refine (mul_le_mul c2 h2 ((pow_pos' _).le.trans h1) (by norm_num)).trans ?_
      rw [show (2 : ℝ) * (2 : ℝ) ^ (400 : ℤ) = (2 : ℝ) ^ (401 : ℤ) by
        rw [show (401 : ℤ) = 1 + 400 by norm_num, zpow_add₀ (by norm_num), zpow_one]]
      exact zpow_le_zpow_right₀ (by norm_num) (by norm_num)

/-- The sum over all vertices. -/
theorem total_acc {n : ℕ} (hn : n ≤ 2 ^ 25) {t : Order} (ht : t.Covers n) {c : ℝ} (c1 : (2 : ℝ) ^ (-401 : ℤ) ≤ c) (c2 : c ≤ 2) (g : ℕ → ℝ)
    (hg : ∀ i < n, Small (g i)) :
    ∃ w ∈ doubles, t.sum binary64 (fun j => binary64.mul (fin c) (fin (g j))) = fin w ∧
      Within ((2 * n + 2.4) * ulp2) (c * ∑ j ∈ Finset.range n, g j) w ∧
      ∀ i < n, ∃ x ∈ doubles, binary64.mul (fin c) (fin (g i)) = fin x ∧
        Within (1.2 * ulp2) (c * g i) x ∧ x ≤ w := by
  have hu := ulp2_pos
  have c0 : 0 ≤ c := (pow_pos' _).le.trans c1
  have hterm : ∀ i < n, Good 1.2 (c * g i) (binary64.mul (fin c) (fin (g i))) := by
    intro i hi
    have h1 := good_round (c := 0) le_rfl (by norm_num) ((hg i hi).mid_mul c1 c2)
      (within_self (c * g i))
    exact Good.mono (by norm_num) (mul_nonneg c0 (hg i hi).nonneg) h1
  choose! x xd ex hx using hterm
  have hmem : ∀ i ∈ t.leaves, i < n := fun i hi => List.mem_range.1 ((ht.mem_iff).1 hi)
  have hlen : t.leaves.length = n := by rw [ht.length_eq, List.length_range]
  have hsum : (t.leaves.map fun i => c * g i).sum = c * ∑ j ∈ Finset.range n, g j := by
    rw [(ht.map fun i => c * g i).sum_eq, Rand.sum_list_range, Finset.mul_sum]
  obtain ⟨w, wd, ew, W0, WM, w1, w2, wm⟩ := order_sum (c := 1.2) (M := (2 : ℝ) ^ (401 : ℤ))
    (by norm_num) (by norm_num) (pow_pos' _).le (zpow_le_zpow_right₀ (by norm_num) (by norm_num))
    x (fun i => c * g i) t (by rw [hlen]; exact hn.trans (by norm_num)) (by
      intro i hi
      have hi := hmem i hi
      refine ⟨xd i hi, mul_nonneg c0 (hg i hi).nonneg, ?_, hx i hi⟩
      refine (mul_le_mul c2 (hg i hi).le (hg i hi).nonneg (by norm_num)).trans (le_of_eq ?_)
      rw [show (401 : ℤ) = 1 + 400 by norm_num, zpow_add₀ (by norm_num), zpow_one])
  rw [hsum] at W0 w1 w2
  rw [hlen] at w1 w2
  refine ⟨w, wd, ?_, ?_, ?_⟩
  · rw [← ew]
    exact Order.sum_congr _ _ fun i hi => ex i (hmem i hi)
  · have cs := count_small' (c := 1.2) (by norm_num) (k := n) (hn.trans (by norm_num))
    have := abs_le.1 (abs_of_powers (c := 1.2) (by norm_num) (by linarith) W0 w1 w2)
    constructor <;> nlinarith [this.1, this.2]
  · intro i hi
    exact ⟨x i, xd i hi, ex i hi, hx i hi,
      wm i ((ht.mem_iff).2 (List.mem_range.2 hi))⟩

/-- The average over all vertices, self-loops included. -/
theorem avg_loops {n : ℕ} (n0 : 0 < n) (hn : n ≤ 2 ^ 25) {c S T : ℝ} (c0 : 0 < c) {D : XR}
    (hS : MidR (S / n)) (S0 : 0 ≤ S)
    (hT : Within ((2 * n + 2.4) * ulp2) (c * S) T) (hD : Good 1.2 (c * n) D) :
    ∃ r, binary64.div (fin T) D = fin r ∧ D.isZero = false ∧
      |r - S / n| ≤ (2 * n + 5) * ulp2 * (S / n) := by
  obtain ⟨d, dd, rfl, hd⟩ := hD
  have hu := ulp2_pos
  have hu' := ulp2_small
  have n1 : (0 : ℝ) < n := by exact_mod_cast n0
  have cs := count_small' (c := 4) (by norm_num) (k := n) (hn.trans (by norm_num))
  have nu : 0 ≤ n * ulp2 := by positivity
  have cn : 0 < c * n := mul_pos c0 n1
  have d0 : 0 < d := lt_of_lt_of_le (mul_pos cn (by linarith)) hd.1
  have hq := within_div (A := (2 * n + 2.4) * ulp2) (B := 1.2 * ulp2) (E := (2 * n + 3.7) * ulp2)
    (by positivity) (by linarith) (by positivity) (by linarith) (by linarith)
    (by
      have : (2 * n + 3.7) * ulp2 * (1.2 * ulp2) ≤ 0.1 * ulp2 := by
        have : (2 * n + 3.7) * ulp2 * 1.2 ≤ 0.1 := by linarith
        nlinarith
      nlinarith)
    (by nlinarith [mul_nonneg (mul_nonneg (by positivity : (0 : ℝ) ≤ 2 * n + 3.7) hu.le) hu.le])
    (mul_nonneg c0.le S0) cn hT hd
  rw [mul_div_mul_left _ _ c0.ne'] at hq
  have hn' : (n : ℝ) ≤ 2 ^ 25 := by exact_mod_cast hn
  obtain ⟨r, _, er, hr⟩ := good_round (c := 2 * n + 3.7) (by positivity) (by linarith) hS hq
  refine ⟨r, ?_, ?_, ?_⟩
  · rw [← er]
    show roundXR (fin T / fin d) = _
    rw [fin_div_fin _ _ d0.ne']; rfl
  · simp [d0.ne']
  · have q0 : 0 ≤ S / n * ulp2 := mul_nonneg hS.nonneg hu.le
    rw [abs_le]
    constructor <;> nlinarith [hr.1, hr.2]

private theorem big_le' {B x T Z : ℝ} (h : T ≤ Z * 1.001) (x0 : 0 ≤ x) (Z0 : 0 ≤ Z) (hB : Z ≤ B) :
    T + -x ≤ B * 2 := by linarith

/-- The average over the other vertices. -/
theorem avg_other {n : ℕ} (n2 : 2 ≤ n) (hn : n ≤ 2 ^ 25) {c S T γ x : ℝ} (c0 : 0 < c) {D : XR}
    (Td : T ∈ doubles) (xd : x ∈ doubles) (γ0 : 0 ≤ γ) (γS : γ ≤ S)
    (big : c * S ≤ (2 : ℝ) ^ (500 : ℤ)) (big' : S ≤ (2 : ℝ) ^ (500 : ℤ))
    (hS : S = 0 ∨ (2 : ℝ) ^ (-500 : ℤ) ≤ S)
    (hT : Within ((2 * n + 2.4) * ulp2) (c * S) T) (hx : Within (1.2 * ulp2) (c * γ) x)
    (xT : x ≤ T) (hD : Good 1.2 (c * ((n : ℝ) - 1)) D) :
    ∃ r, binary64.div (binary64.add (fin T) (fin (-x))) D = fin r ∧ D.isZero = false ∧
      |r - (S - γ) / ((n : ℝ) - 1)| ≤ (2 * n + 10) * ulp2 * (S / ((n : ℝ) - 1)) := by
  obtain ⟨d, dd, rfl, hd⟩ := hD
  have hu := ulp2_pos
  have hu' := ulp2_small
  have n1 : (1 : ℝ) ≤ (n : ℝ) - 1 := by
    have : (2 : ℝ) ≤ n := by exact_mod_cast n2
    linarith
  set k : ℝ := (n : ℝ) - 1 with hk
  have hn' : (n : ℝ) ≤ 2 ^ 25 := by exact_mod_cast hn
  have cs := count_small' (c := 4) (by norm_num) (k := n) (hn.trans (by norm_num))
  have nu : 0 ≤ n * ulp2 := by positivity
  have k0 : 0 < k := by linarith
  have cn : 0 < c * k := mul_pos c0 k0
  have d0 : 0 < d := lt_of_lt_of_le (mul_pos cn (by linarith)) hd.1
  have S0 : 0 ≤ S := γ0.trans γS
  have cS : 0 ≤ c * S := mul_nonneg c0.le S0
  have cSu : 0 ≤ c * S * ulp2 := mul_nonneg cS hu.le
  have T0 : 0 ≤ T := le_trans (mul_nonneg cS (by linarith)) hT.1
  have T2 : T ≤ c * S * 1.001 := hT.2.trans (mul_le_mul_of_nonneg_left (by linarith) cS)
  have cγ : c * γ ≤ c * S := mul_le_mul_of_nonneg_left γS c0.le
  have cγ0 : 0 ≤ c * γ := mul_nonneg c0.le γ0
  have x0 : 0 ≤ x := le_trans (mul_nonneg cγ0 (by linarith)) hx.1
  have bigT : T + -x ≤ (2 : ℝ) ^ (1023 : ℤ) := by
    have h1 : T + -x ≤ (2 : ℝ) ^ (500 : ℤ) * 2 := big_le' T2 x0 cS big
    refine h1.trans ?_
    rw [show (2 : ℝ) ^ (500 : ℤ) * 2 = (2 : ℝ) ^ (501 : ℤ) by
      rw [show (501 : ℤ) = 500 + 1 by norm_num, zpow_add₀ (by norm_num), zpow_one]]
    exact zpow_le_zpow_right₀ (by norm_num) (by norm_num)
  obtain ⟨y, yd, ey, hy⟩ := sum_within Td (Faithful.binary64.neg_mem x xd) (by linarith) bigT
  clear bigT big
  have y0 : 0 ≤ y := le_trans (mul_nonneg (by linarith) (by linarith)) hy.1
  -- the numerator
  have e1 : |y - c * (S - γ)| ≤ (2 * n + 5) * ulp2 * (c * S) := by
    have t1 : (T + -x) * ulp2 ≤ c * S * 1.001 * ulp2 :=
      mul_le_mul_of_nonneg_right (by linarith) hu.le
    have t2 : c * γ * ulp2 ≤ c * S * ulp2 := mul_le_mul_of_nonneg_right cγ hu.le
    rw [abs_le]
    constructor <;> nlinarith [hy.1, hy.2, hT.1, hT.2, hx.1, hx.2]
  have hdiv : |y / d - (S - γ) / k| ≤ (2 * n + 7) * ulp2 * (S / k) := by
    have e2 : y / d - (S - γ) / k = (y - c * (S - γ) - (d - c * k) * ((S - γ) / k)) / d := by
      field_simp
      ring
    have Q0 : 0 ≤ (S - γ) / k := div_nonneg (by linarith) k0.le
    have e3 : |(d - c * k) * ((S - γ) / k)| ≤ 1.2 * ulp2 * (c * S) := by
      rw [abs_mul, abs_of_nonneg Q0]
      have h1 : |d - c * k| ≤ c * k * (1.2 * ulp2) := by
        rw [abs_le]; constructor <;> linarith [hd.1, hd.2]
      calc |d - c * k| * ((S - γ) / k) ≤ c * k * (1.2 * ulp2) * ((S - γ) / k) :=
            mul_le_mul_of_nonneg_right h1 Q0
        _ = 1.2 * ulp2 * (c * (S - γ)) := by field_simp
        _ ≤ _ := mul_le_mul_of_nonneg_left (by linarith) (by positivity)
    rw [e2, abs_div, abs_of_pos d0, div_le_iff₀ d0]
    calc |y - c * (S - γ) - (d - c * k) * ((S - γ) / k)|
        ≤ |y - c * (S - γ)| + |(d - c * k) * ((S - γ) / k)| := abs_sub _ _
      _ ≤ (2 * n + 6.2) * ulp2 * (c * S) := by linarith
      _ ≤ (2 * n + 7) * ulp2 * (S / k) * (c * k * (1 - 1.2 * ulp2)) := by
          have : (2 * n + 7) * ulp2 * (S / k) * (c * k * (1 - 1.2 * ulp2))
              = (2 * n + 7) * ulp2 * (1 - 1.2 * ulp2) * (c * S) := by field_simp
          rw [this]
          refine mul_le_mul_of_nonneg_right ?_ cS
          have : (2 * n + 7) * ulp2 * (1.2 * ulp2) ≤ 0.1 * ulp2 := by
            have : (2 * n + 7) * ulp2 * 1.2 ≤ 0.1 := by linarith
            nlinarith
          nlinarith
      _ ≤ (2 * n + 7) * ulp2 * (S / k) * d :=
          mul_le_mul_of_nonneg_left hd.1 (mul_nonneg (by positivity) (div_nonneg S0 k0.le))
  have SK : 0 ≤ S / k := div_nonneg S0 k0.le
  have SKu : 0 ≤ S / k * ulp2 := mul_nonneg SK hu.le
  have yd0 : 0 ≤ y / d := div_nonneg y0 d0.le
  have hle : y / d ≤ 2 * (S / k) := by
    have h1 := (abs_le.1 hdiv).2
    have h2 : (S - γ) / k ≤ S / k := div_le_div_of_nonneg_right (by linarith) k0.le
    have h3 : (2 * n + 7) * ulp2 * (S / k) ≤ 1 * (S / k) :=
      mul_le_mul_of_nonneg_right (by linarith) SK
    linarith
  have hr : |rnd (y / d) - y / d| ≤ 2 * ulp2 * (S / k) := by
    rcases hS with hS | hS
    · have : y / d = 0 := by
        rw [hS, zero_div, mul_zero] at hle
        exact le_antisymm hle yd0
      rw [this, rnd_zero, sub_zero, abs_zero]
      positivity
    · refine (rnd_err_max _).trans ?_
      rw [mul_assoc, mul_left_comm]
      refine mul_le_mul_of_nonneg_left (max_le ?_ ?_) hu.le
      · rw [abs_of_nonneg yd0]; exact hle
      · have h1 : (2 : ℝ) ^ (-500 : ℤ) / 2 ^ 25 ≤ S / k :=
          div_le_div₀ S0 hS k0 (by linarith)
        have h2 : (2 : ℝ) ^ (-500 : ℤ) / 2 ^ 25 = (2 : ℝ) ^ (-525 : ℤ) := by
          rw [show (-525 : ℤ) = -500 - 25 by norm_num, zpow_sub₀ (by norm_num)]; rfl
        rw [h2] at h1
        refine (le_trans ?_ h1).trans (by linarith)
        exact zpow_le_zpow_right₀ (by norm_num) (by norm_num)
  have up : rnd (y / d) ≤ (2 : ℝ) ^ (501 : ℤ) := by
    refine rnd_le (pow_mem (by norm_num) (by norm_num)) ?_
    have h1 : S / k ≤ S := div_le_self S0 n1
    have h2 : y / d ≤ S * 2 := by linarith
    refine (h2.trans (mul_le_mul_of_nonneg_right big' (by norm_num))).trans (le_of_eq ?_)
    rw [show (501 : ℤ) = 500 + 1 by norm_num, zpow_add₀ (by norm_num), zpow_one]
  have lo : 0 ≤ rnd (y / d) := le_rnd Faithful.binary64.zero_mem yd0
  have e4 : toDouble (y / d) = fin (rnd (y / d)) := by
    have h1 : (2 : ℝ) ^ (501 : ℤ) < (2 : ℝ) ^ (1024 : ℤ) :=
      zpow_lt_zpow_right₀ (by norm_num) (by norm_num)
    have h2 := pow_pos' 1024
    unfold toDouble
    rw [if_neg (not_le.2 (up.trans_lt h1)), if_neg (not_le.2 (lt_of_lt_of_le (neg_lt_zero.2 h2) lo))]
  refine ⟨rnd (y / d), ?_, by simp [d0.ne'], ?_⟩
  · have e5 : binary64.add (fin T) (fin (-x)) = fin y := ey
    rw [e5, ← e4]
    show roundXR (fin y / fin d) = _
    rw [fin_div_fin _ _ d0.ne']; rfl
  · clear up e4 big'
    calc |rnd (y / d) - (S - γ) / k|
        ≤ |rnd (y / d) - y / d| + |y / d - (S - γ) / k| := abs_sub_le _ _ _
      _ ≤ (2 * n + 10) * ulp2 * (S / k) := by nlinarith

end Round

end Verif
