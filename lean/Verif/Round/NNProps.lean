import Verif.Round.NNLemmas
import Verif.Round.DegProps

/-!
# C110: nearest-neighbour averages in double precision

Missing in the theorems (suffix `_partial`): factors whose partial products leave the range of
`C92_probability_partial`, probabilities and property values below `2 ^ -400` or above `2 ^ 400`,
dyadic properties that differ between pairs, mathematical functions that are not correctly rounded,
and small probabilities in the direction `out-in` (see `C110_outin_violated`, `C110_outin_partial`).
-/

namespace Verif

open XR Round
open DiGraphEnsemble (Dir)

/-- Zero, or neither too small nor too large. -/
def Round.ZeroOrMid (r : ℝ) : Prop :=
  r = 0 ∨ (2 : ℝ) ^ (-400 : ℤ) ≤ r ∧ r ≤ (2 : ℝ) ^ (400 : ℤ)

theorem Round.ZeroOrMid.nonneg {r : ℝ} (h : Round.ZeroOrMid r) : 0 ≤ r := by
  rcases h with rfl | h
  · exact le_rfl
  · exact (pow_pos' _).le.trans h.1

theorem Round.ZeroOrMid.le {r : ℝ} (h : Round.ZeroOrMid r) : r ≤ (2 : ℝ) ^ (400 : ℤ) := by
  rcases h with rfl | h
  · exact (pow_pos' _).le
  · exact h.2

theorem Round.nn_mul_range {q g : ℝ} (hq1 : (2 : ℝ) ^ (-400 : ℤ) ≤ q) (hq2 : q ≤ 1)
    (hg1 : (2 : ℝ) ^ (-400 : ℤ) ≤ g) (hg2 : g ≤ (2 : ℝ) ^ (400 : ℤ)) :
    (2 : ℝ) ^ (-800 : ℤ) ≤ q * g ∧ q * g ≤ (2 : ℝ) ^ (400 : ℤ) := by
  constructor
  · rw [show (-800 : ℤ) = -400 + -400 by norm_num, zpow_add₀ (by norm_num)]
    exact mul_le_mul hq1 hg1 (pow_pos' _).le ((pow_pos' _).le.trans hq1)
  · calc q * g ≤ 1 * (2 : ℝ) ^ (400 : ℤ) :=
          mul_le_mul hq2 hg2 ((pow_pos' _).le.trans hg1) (by norm_num)
      _ = _ := one_mul _

/-- A term of the sum. -/
theorem Round.nn_term_of {e c p q g' g : ℝ} (e0 : 0 ≤ e) (he : e ≤ 2 ^ 22) (c0 : 0 ≤ c)
    (hc : c ≤ 2 ^ 27) (q1 : q ≤ 1)
    (hq : Round.ZeroOrMid q) (hw : Within (e * ulp2) q p) (hg : Round.ZeroOrMid g)
    (hgw : Within (c * ulp2) g g') :
    NTerm (e + 1.7 + c) ((2 : ℝ) ^ (400 : ℤ)) (binary64.mul (fin p) (fin g'))
      (Arith.exact.mul (fin q) (fin g)) := by
  have hu := ulp2_pos
  have hu' := ulp2_small
  have hc28 := count_small' (c := c) (by linarith) (k := 0) (by norm_num)
  rw [Nat.cast_zero, add_zero] at hc28
  have cu0 : 0 ≤ c * ulp2 := mul_nonneg c0 hu.le
  have hul : ulp2 ≤ 1 / 2 ^ 53 := by unfold ulp2; norm_num
  have eu0 : 0 ≤ e * ulp2 := mul_nonneg e0 hu.le
  have he28 : e * ulp2 ≤ 1 / 1000 :=
    (mul_le_mul he hul hu.le (by norm_num)).trans (by norm_num)
  have hec : e * ulp2 * (c * ulp2) ≤ 1 / 10 * ulp2 := by
    have h1 : e * ulp2 ≤ 2 ^ 22 * (1 / 2 ^ 53) := mul_le_mul he hul hu.le (by norm_num)
    have h2 : c * ulp2 ≤ 2 ^ 27 * ulp2 := mul_le_mul_of_nonneg_right hc hu.le
    calc e * ulp2 * (c * ulp2) ≤ 2 ^ 22 * (1 / 2 ^ 53) * (2 ^ 27 * ulp2) :=
          mul_le_mul h1 h2 cu0 (by norm_num)
      _ ≤ _ := by linarith
  have zero : ∀ {a b a' b' : ℝ}, a * b = 0 → a' * b' = 0 →
      NTerm (e + 1.7 + c) ((2 : ℝ) ^ (400 : ℤ)) (binary64.mul (fin a) (fin b))
        (Arith.exact.mul (fin a') (fin b')) := by
    intro a b a' b' h h'
    refine ⟨0, Faithful.binary64.zero_mem, 0, ?_, ?_, le_rfl, le_rfl, (pow_pos' _).le,
      by simp [Within]⟩
    · show toDouble (a * b) = _
      rw [h]; exact toDouble_self Faithful.binary64.zero_mem
    · show fin (a' * b') = _
      rw [h']
  have zero_of : ∀ {ε w : ℝ}, Within ε 0 w → w = 0 := by
    intro ε w hw
    have h1 := hw.1; have h2 := hw.2
    rw [zero_mul] at h1 h2
    linarith
  rcases hg with rfl | ⟨g1, g2⟩
  · rw [zero_of hgw]
    exact zero (mul_zero _) (mul_zero _)
  rcases hq with rfl | ⟨q2, _⟩
  · rw [zero_of hw]
    exact zero (zero_mul _) (zero_mul _)
  have q0 : 0 < q := (pow_pos' _).trans_le q2
  have g0 : 0 < g := (pow_pos' _).trans_le g1
  obtain ⟨r1, r2⟩ := Round.nn_mul_range q2 q1 g1 g2
  have qg : 0 < q * g := mul_pos q0 g0
  have p0 : 0 < p := lt_of_lt_of_le (mul_pos q0 (by linarith)) hw.1
  have h0 : 0 < g' := lt_of_lt_of_le (mul_pos g0 (by linarith)) hgw.1
  have l1 : q * g * ((1 - e * ulp2) * (1 - c * ulp2)) ≤ p * g' := by
    rw [show q * g * ((1 - e * ulp2) * (1 - c * ulp2))
      = (q * (1 - e * ulp2)) * (g * (1 - c * ulp2)) by ring]
    exact mul_le_mul hw.1 hgw.1 (mul_nonneg g0.le (by linarith)) p0.le
  have u1 : p * g' ≤ q * g * ((1 + e * ulp2) * (1 + c * ulp2)) := by
    rw [show q * g * ((1 + e * ulp2) * (1 + c * ulp2))
      = (q * (1 + e * ulp2)) * (g * (1 + c * ulp2)) by ring]
    exact mul_le_mul hw.2 hgw.2 h0.le (mul_nonneg q0.le (by linarith))
  have l2 : q * g / 2 ≤ p * g' := by
    refine le_trans ?_ l1
    rw [div_eq_mul_inv]
    exact mul_le_mul_of_nonneg_left (by nlinarith) qg.le
  have u2 : p * g' ≤ 2 * (q * g) := by
    refine u1.trans ?_
    rw [mul_comm 2 (q * g)]
    exact mul_le_mul_of_nonneg_left (by nlinarith) qg.le
  have b1 : (2 : ℝ) ^ (-1022 : ℤ) ≤ p * g' := by
    refine le_trans ?_ l2
    rw [le_div_iff₀ (by norm_num)]
    refine le_trans ?_ r1
    rw [← zpow_add_one₀ (by norm_num)]
    exact zpow_le_zpow_right₀ (by norm_num) (by norm_num)
  have b2 : p * g' ≤ (2 : ℝ) ^ (1023 : ℤ) := by
    refine u2.trans ((mul_le_mul_of_nonneg_left r2 (by norm_num)).trans ?_)
    rw [mul_comm, ← zpow_add_one₀ (by norm_num)]
    exact zpow_le_zpow_right₀ (by norm_num) (by norm_num)
  obtain ⟨w, hwd, ew, hww⟩ := toDouble_within b1 b2
  clear b1 b2 r1 q2 g1 g2
  have pg : 0 < p * g' := mul_pos p0 h0
  refine ⟨w, hwd, q * g, ew, rfl, ?_, qg.le, r2, ?_, ?_⟩
  · exact le_trans (mul_nonneg pg.le (by linarith)) hww.1
  · refine le_trans ?_ hww.1
    refine le_trans ?_ (mul_le_mul_of_nonneg_right l1 (by linarith))
    rw [mul_assoc (q * g)]
    refine mul_le_mul_of_nonneg_left ?_ qg.le
    have m1 : 1 - e * ulp2 - c * ulp2 ≤ (1 - e * ulp2) * (1 - c * ulp2) := by
      have := mul_nonneg eu0 cu0
      linarith
    have m2 := mul_le_mul_of_nonneg_right m1 (show (0 : ℝ) ≤ 1 - ulp2 by linarith)
    have m3 : 0 ≤ ulp2 * (e * ulp2 + c * ulp2) := by positivity
    linarith
  · refine hww.2.trans ?_
    refine (mul_le_mul_of_nonneg_right u1 (by linarith)).trans ?_
    rw [mul_assoc (q * g)]
    refine mul_le_mul_of_nonneg_left ?_ qg.le
    have k1 : (1 + e * ulp2) * (1 + c * ulp2) ≤ 1 + (e * ulp2 + c * ulp2 + 1 / 10 * ulp2) := by
      linarith
    have k2 := mul_le_mul_of_nonneg_right k1 (show (0 : ℝ) ≤ 1 + ulp2 by linarith)
    have k3 : (e * ulp2 + c * ulp2 + 1 / 10 * ulp2) * ulp2 ≤ 1 / 10 * ulp2 :=
      mul_le_mul_of_nonneg_right (by linarith) hu.le
    linarith

theorem Round.nn_sum_low {n : ℕ} {a : ℕ → ℝ} {L : ℝ} (h0 : ∀ j < n, 0 ≤ a j)
    (h : ∀ j < n, a j = 0 ∨ L ≤ a j) :
    (∑ j ∈ Finset.range n, a j) = 0 ∨ L ≤ ∑ j ∈ Finset.range n, a j := by
  by_cases hz : ∀ j < n, a j = 0
  · exact .inl (Finset.sum_eq_zero fun j hj => hz j (Finset.mem_range.1 hj))
  · push Not at hz
    obtain ⟨j, hj, hne⟩ := hz
    refine .inr (((h j hj).resolve_left hne).trans ?_)
    exact Finset.single_le_sum (f := a) (fun i hi => h0 i (Finset.mem_range.1 hi))
      (Finset.mem_range.2 hj)

/-- The quotient of a computed sum by a computed degree. -/
theorem Round.nn_entry {c : ℝ} (c0 : 0 ≤ c) (hc : c ≤ 2 ^ 28) {N : ℕ} (hN : N ≤ 2 ^ 26) {n : ℕ}
    (hNn : N ≤ n) {s S t D : ℝ} (S0 : 0 ≤ S)
    (hs : Within (2 * (c + N) * ulp2) S s) (ht : Within (2 * (c + N) * ulp2) D t)
    (hS : S = 0 ∨ (2 : ℝ) ^ (-800 : ℤ) ≤ S) (D0 : 0 < D) (hD : D ≤ 2 ^ 26)
    (hSD : S ≤ (2 : ℝ) ^ (400 : ℤ) * D) :
    ∃ r : ℝ, binary64.div (fin s) (fin t) = fin r ∧
      |r - S / D| ≤ (4.06 * (c + n) + 1.03) * ulp2 * (S / D) := by
  have hu := ulp2_pos
  have hu' := ulp2_small
  have hN' : (N : ℝ) ≤ 2 ^ 26 := by exact_mod_cast hN
  have hNn' : (N : ℝ) ≤ n := by exact_mod_cast hNn
  have hN0 : (0 : ℝ) ≤ N := Nat.cast_nonneg N
  have he : 2 * (c + N) * ulp2 ≤ 1 / 100 := by linarith [count_small' hc hN]
  have he0 : 0 ≤ 2 * (c + N) * ulp2 := by positivity
  obtain ⟨t0, hq⟩ := quot_within he0 he S0 D0 hs ht
  have ediv : binary64.div (fin s) (fin t) = toDouble (s / t) := by
    show roundXR (fin s / fin t) = _
    rw [fin_div_fin _ _ t0.ne']; rfl
  rw [ediv]
  rcases hS with rfl | hS
  · rw [zero_div] at hq ⊢
    have : s / t = 0 := le_antisymm (by simpa using hq.2) (by simpa using hq.1)
    rw [this, toDouble_self Faithful.binary64.zero_mem]
    exact ⟨0, rfl, by simp⟩
  have SD0 : 0 < S / D := div_pos ((pow_pos' _).trans_le hS) D0
  have low : (2 : ℝ) ^ (-850 : ℤ) ≤ S / D := by
    rw [le_div_iff₀ D0]
    calc (2 : ℝ) ^ (-850 : ℤ) * D ≤ (2 : ℝ) ^ (-850 : ℤ) * (2 : ℝ) ^ (26 : ℤ) :=
          mul_le_mul_of_nonneg_left (by exact_mod_cast hD) (pow_pos' _).le
      _ = (2 : ℝ) ^ (-824 : ℤ) := by rw [← zpow_add₀ (by norm_num)]; norm_num
      _ ≤ (2 : ℝ) ^ (-800 : ℤ) := zpow_le_zpow_right₀ (by norm_num) (by norm_num)
      _ ≤ S := hS
  have high : S / D ≤ (2 : ℝ) ^ (400 : ℤ) := (div_le_iff₀ D0).2 hSD
  have half : S / D / 2 ≤ s / t ∧ s / t ≤ 2 * (S / D) := by
    constructor
    · refine le_trans ?_ hq.1
      rw [div_eq_mul_inv]
      exact mul_le_mul_of_nonneg_left (by linarith) SD0.le
    · refine hq.2.trans ?_
      rw [mul_comm 2 (S / D)]
      exact mul_le_mul_of_nonneg_left (by linarith) SD0.le
  have b1 : (2 : ℝ) ^ (-1022 : ℤ) ≤ s / t := by
    refine le_trans ?_ half.1
    rw [le_div_iff₀ (by norm_num)]
    refine le_trans ?_ low
    rw [← zpow_add_one₀ (by norm_num)]
    exact zpow_le_zpow_right₀ (by norm_num) (by norm_num)
  have b2 : s / t ≤ (2 : ℝ) ^ (1023 : ℤ) := by
    refine half.2.trans ((mul_le_mul_of_nonneg_left high (by norm_num)).trans ?_)
    rw [mul_comm, ← zpow_add_one₀ (by norm_num)]
    exact zpow_le_zpow_right₀ (by norm_num) (by norm_num)
  obtain ⟨r, _, er, hr⟩ := toDouble_within b1 b2
  refine ⟨r, er, ?_⟩
  have st0 : 0 ≤ s / t := (pow_pos' _).le.trans b1
  have hle : 2.03 * (2 * (c + N) * ulp2) ≤ 4.06 * (c + n) * ulp2 := by
    rw [show 2.03 * (2 * (c + N) * ulp2) = 4.06 * (c + N) * ulp2 by ring]
    exact mul_le_mul_of_nonneg_right (by linarith) hu.le
  have hb : |s / t - S / D| ≤ 4.06 * (c + n) * ulp2 * (S / D) := by
    have := mul_le_mul_of_nonneg_right hle SD0.le
    rw [abs_le]
    constructor
    · linarith [hq.1]
    · linarith [hq.2]
  have hc : |r - s / t| ≤ 1.03 * ulp2 * (S / D) := by
    have h3 : s / t ≤ S / D * 1.03 :=
      hq.2.trans (mul_le_mul_of_nonneg_left (by linarith) SD0.le)
    have h4 := mul_le_mul_of_nonneg_left h3 hu.le
    rw [abs_le]
    constructor
    · linarith [hr.1]
    · linarith [hr.2]
  calc |r - S / D| = |(r - s / t) + (s / t - S / D)| := by congr 1; ring
    _ ≤ |r - s / t| + |s / t - S / D| := abs_add_le _ _
    _ ≤ _ := by linarith

/-- The average, for a property that is itself known up to a relative error `c * 2 ^ -53`. -/
theorem Round.av_nn_core {α β δ ζ : Type} (pr ex : δ → α → β → ζ → XR) (n : ℕ) (hn : n ≤ 2 ^ 25)
    (d : δ) (x : ℕ → α) (y : ℕ → β) (z : ζ) (e : ℝ) (he0 : 0 ≤ e) (he : e ≤ 2 ^ 22)
    (h : ∀ i < n, ∀ j < n, Term (e * ulp2) (pr d (x i) (y j) z) (ex d (x i) (y j) z))
    (hp : ∀ i < n, ∀ j < n, ∀ q, ex d (x i) (y j) z = fin q → Round.ZeroOrMid q)
    (c : ℝ) (c0 : 0 ≤ c) (hc : c ≤ 2 ^ 27) (v v' : ℕ → XR)
    (hv : ∀ i < n, ∃ g' g : ℝ, v i = fin g' ∧ v' i = fin g ∧ Round.ZeroOrMid g ∧
      Within (c * ulp2) g g') (ndir : Dir)
    (hdir : ndir = .out ∨ ndir = .inn) (sl : Bool) (jUndef : ℕ) :
    ∃ a A : ℕ → XR,
      Round.av_nn binary64 jUndef pr d n x y (fun _ _ => z) v ndir sl = .ok a ∧
      Round.av_nn Arith.exact jUndef ex d n x y (fun _ _ => z) v' ndir sl = .ok A ∧
      ∀ k < n, ∃ r R : ℝ, a k = fin r ∧ A k = fin R ∧ 0 ≤ R ∧
        |r - R| ≤ (4.06 * (e + 1.7 + c + n) + 1.03) * ulp2 * R := by
  have hu := ulp2_pos
  have hu' := ulp2_small
  have h7 : 0 ≤ e + 1.7 + c := by linarith
  have h7' : e + 1.7 + c ≤ 2 ^ 28 := by linarith
  have cu0 : 0 ≤ c * ulp2 := mul_nonneg c0 hu.le
  have eu0 : 0 ≤ e * ulp2 := mul_nonneg he0 hu.le
  choose! g' g ev ev' hg hgw using hv
  have hK : ndir.Known := by rcases hdir with rfl | rfl <;> trivial
  -- the exact probabilities
  choose! q q0 q1 eq using fun i (hi : i < n) j (hj : j < n) =>
    (show ∃ q : ℝ, 0 ≤ q ∧ q ≤ 1 ∧ ex d (x i) (y j) z = fin q from by
      obtain ⟨_, _, q, _, e2, _, _, q0, q1, _⟩ := h i hi j hj
      exact ⟨q, q0, q1, e2⟩)
  have acc : ∀ i < n, ∀ j < n, ∃ p ∈ doubles,
      pr d (x i) (y j) z = fin p ∧ 0 ≤ p ∧
        Within (e * ulp2) (q i j) p := by
    intro i hi j hj
    obtain ⟨p, hp, q', e1, e2, p0, _, _, _, hw⟩ := h i hi j hj
    rw [eq i hi j hj] at e2
    obtain rfl := XR.fin.inj e2
    exact ⟨p, hp, e1, p0, hw⟩
  have hmod : ∀ i < n, ∀ j < n, Round.ZeroOrMid (q i j) := fun i hi j hj =>
    hp i hi j hj _ (eq i hi j hj)
  set N := n - 1 + sl.toNat with hNdef
  have hNn : N ≤ n ∨ n = 0 := by
    have : sl.toNat ≤ 1 := by cases sl <;> decide
    omega
  rcases Nat.eq_zero_or_pos n with hn0 | hnpos
  · subst hn0
    obtain ⟨A, eA, _⟩ := exact_average jUndef 0 sl ex d x y z v' g ev' ndir hK q (by intro i hi; omega) (by intro i hi; omega)
    obtain ⟨a, ea⟩ : ∃ a, Round.av_nn binary64 jUndef pr d 0 x y (fun _ _ => z) v ndir sl = .ok a := by
      cases sl <;> exact ⟨_, rfl⟩
    exact ⟨a, A, ea, eA, by intro k hk; omega⟩
  have hNn : N ≤ n := by omega
  have hN26 : N ≤ 2 ^ 26 := hNn.trans (hn.trans (by norm_num))
  have hNn' : (N : ℝ) ≤ 2 ^ 26 := by exact_mod_cast hN26
  -- the weights
  have w0 : ∀ i < n, ∀ j < n, 0 ≤ Query.weight q sl ndir i j := by
    intro i hi j hj
    rcases hdir with rfl | rfl <;> simp only [Query.weight, DiGraphEnsemble.masked] <;> split
    · exact q0 i hi j hj
    · exact le_rfl
    · exact q0 j hj i hi
    · exact le_rfl
  have wmod : ∀ i < n, ∀ j < n, Round.ZeroOrMid (Query.weight q sl ndir i j) ∧
      Query.weight q sl ndir i j ≤ 1 := by
    intro i hi j hj
    rcases hdir with rfl | rfl <;> simp only [Query.weight, DiGraphEnsemble.masked] <;> split
    · exact ⟨hmod i hi j hj, q1 i hi j hj⟩
    · exact ⟨.inl rfl, zero_le_one⟩
    · exact ⟨hmod j hj i hi, q1 j hj i hi⟩
    · exact ⟨.inl rfl, zero_le_one⟩
  -- the results without rounding
  obtain ⟨A, eA, hA⟩ := exact_average jUndef n sl ex d x y z v' g ev' ndir hK q eq w0
  obtain ⟨S', eS', hS'⟩ := exact_av_nn jUndef n sl ex d x y z v' g ev' ndir hK q eq
  have hD' := fun k hk => exact_deg n sl ex d x y z ndir hK q eq k hk
  -- the sums
  obtain ⟨s, t, es, et, hst⟩ := exp_av_nn_rel (A := binary64) (B := Arith.exact) jUndef n sl pr ex
    d x y z v v' ndir hdir
    (NAcc (e + 1.7 + c) ((2 : ℝ) ^ (400 : ℤ))) (NTerm (e + 1.7 + c) ((2 : ℝ) ^ (400 : ℤ))) (nacc_zero _ _)
    (fun k hk s s' v v' hs hv => nacc_add (by linarith) (by linarith) (pow_pos' _).le le_rfl
      (hk.trans_le (hn.trans (by norm_num))) hs hv)
    (by
      intro i hi j hj k hk
      obtain ⟨p, _, ep, _, hw⟩ := acc i hi j hj
      rw [ep, eq i hi j hj, ev k hk, ev' k hk]
      exact Round.nn_term_of he0 he c0 hc (q1 i hi j hj) (hmod i hi j hj) hw (hg k hk) (hgw k hk))
  rw [et] at eS'
  obtain rfl : t = S' := by injection eS'
  -- the degrees
  have hdeg : ∀ k < n, NAcc (e + 1.7 + c) 1 N
      (Query.pick ndir (Round.exp_degrees binary64 pr d n x y (fun _ _ => z) sl) k)
      (Query.pick ndir (Round.exp_degrees Arith.exact ex d n x y (fun _ _ => z) sl) k) := by
    intro k hk
    have key := exp_degrees_rel (A := binary64) (B := Arith.exact) n sl pr ex d x y (fun _ _ => z) (NAcc (e + 1.7 + c) 1) (fun _ _ _ => True)
      (NTerm (e + 1.7 + c) 1) (fun _ _ => True) (nacc_zero _ _) trivial
      (fun k hk s s' v v' hs hv => nacc_add (by linarith) (by linarith) zero_le_one
        (one_le_zpow₀ (by norm_num) (by norm_num)) (hk.trans_le (hn.trans (by norm_num))) hs hv)
      (fun _ _ _ _ _ _ _ _ => trivial)
      (by
        intro i hi j hj
        obtain ⟨p, hpd, ep, p0, hw⟩ := acc i hi j hj
        have hq0 := q0 i hi j hj
        refine ⟨p, hpd, q i j, ep, eq i hi j hj, p0, hq0, q1 i hi j hj, ?_, ?_⟩
        · exact (mul_le_mul_of_nonneg_left (by linarith) hq0).trans hw.1
        · exact hw.2.trans (mul_le_mul_of_nonneg_left (by linarith) hq0))
      (fun _ _ _ => trivial) (fun _ _ _ _ _ _ => trivial) k hk
    rcases hdir with rfl | rfl
    · exact key.1
    · exact key.2.1
  -- facts on one vertex
  have hone : ∀ k < n, ∃ s' D' : ℝ, s k = fin s' ∧
      Query.pick ndir (Round.exp_degrees binary64 pr d n x y (fun _ _ => z) sl) k = fin D' ∧
      Within (2 * (e + 1.7 + c + N) * ulp2) (∑ j ∈ Finset.range n, Query.weight q sl ndir k j * g j) s' ∧
      Within (2 * (e + 1.7 + c + N) * ulp2) (∑ j ∈ Finset.range n, Query.weight q sl ndir k j) D' ∧
      ∑ j ∈ Finset.range n, Query.weight q sl ndir k j ≤ N := by
    intro k hk
    obtain ⟨s1, _, S1, e1, e2, _, _, _, hw1⟩ := (hst k hk).within h7 h7' hN26
    obtain ⟨s2, _, S2, e3, e4, _, _, hle, hw2⟩ := (hdeg k hk).within h7 h7' hN26
    rw [hS' k hk] at e2
    rw [hD' k hk] at e4
    obtain rfl := XR.fin.inj e2
    obtain rfl := XR.fin.inj e4
    exact ⟨s1, s2, e1, e3, hw1, hw2, by simpa using hle⟩
  have hε : 2 * (e + 1.7 + c + N) * ulp2 ≤ 1 / 100 := by
    linarith [count_small' h7' hN26]
  have zero_of : ∀ {W w : ℝ}, W = 0 → Within (2 * (e + 1.7 + c + N) * ulp2) W w → w = 0 := by
    rintro W w rfl hw
    have h1 := hw.1; have h2 := hw.2
    rw [zero_mul] at h1 h2
    linarith
  have pos_of : ∀ {W w : ℝ}, 0 < W → Within (2 * (e + 1.7 + c + N) * ulp2) W w → 0 < w := by
    intro W w hW hw
    exact lt_of_lt_of_le (mul_pos hW (by linarith)) hw.1
  have sum0 : ∀ k < n, (∑ j ∈ Finset.range n, Query.weight q sl ndir k j) = 0 →
      (∑ j ∈ Finset.range n, Query.weight q sl ndir k j * g j) = 0 := by
    intro k hk h
    rw [Finset.sum_eq_zero_iff_of_nonneg
      (fun j hj => w0 k hk j (Finset.mem_range.1 hj))] at h
    exact Finset.sum_eq_zero fun j hj => by rw [h j hj, zero_mul]
  have D0 : ∀ k < n, 0 ≤ ∑ j ∈ Finset.range n, Query.weight q sl ndir k j := fun k hk =>
    Finset.sum_nonneg fun j hj => w0 k hk j (Finset.mem_range.1 hj)
  have S0 : ∀ k < n, 0 ≤ ∑ j ∈ Finset.range n, Query.weight q sl ndir k j * g j := fun k hk =>
    Finset.sum_nonneg fun j hj => mul_nonneg (w0 k hk j (Finset.mem_range.1 hj))
      (hg j (Finset.mem_range.1 hj)).nonneg
  refine ⟨Round.average binary64 s (Query.pick ndir (Round.exp_degrees binary64 pr d n x y (fun _ _ => z) sl)), A, ?_, eA, ?_⟩
  · unfold Round.av_nn
    simp only [es]
    rw [if_pos]
    rw [List.all_eq_true]
    intro k hk
    have hk := List.mem_range.1 hk
    obtain ⟨s', D', e1, e2, hw1, hw2, _⟩ := hone k hk
    rw [e1, e2]
    rcases (D0 k hk).eq_or_lt with hz | hpos
    · rw [zero_of hz.symm hw2, zero_of (sum0 k hk hz.symm) hw1]
      simp [isZero_fin]
    · simp [isZero_fin, (pos_of hpos hw2).ne']
  · intro k hk
    obtain ⟨s', D', e1, e2, hw1, hw2, hle⟩ := hone k hk
    unfold Round.average
    rw [e1, e2, hA k hk]
    rcases (D0 k hk).eq_or_lt with hz | hpos
    · rw [zero_of hz.symm hw2, zero_of (sum0 k hk hz.symm) hw1, ← hz]
      exact ⟨0, 0, by simp [isZero_fin], by simp, le_rfl, by simp⟩
    · have hD := pos_of hpos hw2
      rw [if_neg (by simp [isZero_fin, hD.ne'])]
      have low := Round.nn_sum_low (n := n) (a := fun j => Query.weight q sl ndir k j * g j)
        (L := (2 : ℝ) ^ (-800 : ℤ))
        (fun j hj => mul_nonneg (w0 k hk j hj) (hg j hj).nonneg)
        (by
          intro j hj
          obtain ⟨hm, h1⟩ := wmod k hk j hj
          rcases hm with h0 | ⟨h2, _⟩
          · exact .inl (by rw [h0, zero_mul])
          rcases hg j hj with h0 | ⟨h3, h4⟩
          · exact .inl (by rw [h0, mul_zero])
          exact .inr (Round.nn_mul_range h2 h1 h3 h4).1)
      obtain ⟨r, er, hr⟩ := Round.nn_entry h7 h7' hN26 hNn (S0 k hk) hw1 hw2 low hpos (hle.trans hNn')
        (by
          rw [Finset.mul_sum]
          refine Finset.sum_le_sum fun j hj => ?_
          have hj := Finset.mem_range.1 hj
          rw [mul_comm]
          exact mul_le_mul_of_nonneg_right (hg j hj).le (w0 k hk j hj))
      exact ⟨r, _, er, rfl, div_nonneg (S0 k hk) hpos.le, hr⟩

theorem Round.nn_term_models {f : (XR → XR → XR → XR → XR) × (XR → XR → XR → XR → XR)}
    (hf : f ∈ Round.models) {d a b z : ℝ} (h : Round.InRange d a b z) :
    Term (5.3 * ulp2) (f.1 (fin d) (fin a) (fin b) (fin z)) (f.2 (fin d) (fin a) (fin b) (fin z)) := by
  obtain ⟨p, hp, q, q0, p0, p1, e1, e2, hw⟩ := Round.pair_acc hf h
  exact ⟨p, hp, q, e1, e2, p0, p1, q0, Round.exact_le_one hf h e2, hw⟩

/-- **C110**.  With at most `2 ^ 25` vertices, all pairs of vertices in the range of
`C92_probability_partial` (or with a zero property), and probabilities and values of the averaged
property that are zero or between `2 ^ -400` and `2 ^ 400`, the average over out- or in-neighbours is
computed without failure of the assertion, and the relative error of every entry is at most
`(5 * n + 30) * 2 ^ -53`. -/
theorem C110_property_partial (f : (XR → XR → XR → XR → XR) × (XR → XR → XR → XR → XR))
    (hf : f ∈ Round.models) (n : ℕ) (hn : n ≤ 2 ^ 25) (d : ℝ) (x y : ℕ → ℝ) (z : ℝ)
    (h : ∀ i < n, ∀ j < n, Round.InRange d (x i) (y j) z)
    (hp : ∀ i < n, ∀ j < n, ∀ q, f.2 (fin d) (fin (x i)) (fin (y j)) (fin z) = fin q →
      Round.ZeroOrMid q)
    (g : ℕ → ℝ) (hg : ∀ i < n, Round.ZeroOrMid (g i)) (ndir : Dir)
    (hdir : ndir = .out ∨ ndir = .inn) (sl : Bool) (jUndef : ℕ) :
    ∃ a A : ℕ → XR,
      Round.av_nn binary64 jUndef f.1 (fin d) n (fun i => fin (x i)) (fun j => fin (y j))
        (fun _ _ => fin z) (fun i => fin (g i)) ndir sl = .ok a ∧
      Round.av_nn Arith.exact jUndef f.2 (fin d) n (fun i => fin (x i)) (fun j => fin (y j))
        (fun _ _ => fin z) (fun i => fin (g i)) ndir sl = .ok A ∧
      ∀ k < n, ∃ r R : ℝ, a k = fin r ∧ A k = fin R ∧ 0 ≤ R ∧
        |r - R| ≤ (5 * n + 30) * (2 : ℝ) ^ (-53 : ℤ) * R := by
  obtain ⟨a, A, ea, eA, hA⟩ := Round.av_nn_core f.1 f.2 n hn (fin d) (fun i => fin (x i))
    (fun j => fin (y j)) (fin z) 5.3 (by norm_num) (by norm_num)
    (fun i hi j hj => Round.nn_term_models hf (h i hi j hj)) hp 0 le_rfl (by norm_num)
    (fun i => fin (g i)) (fun i => fin (g i)) (fun i hi => ⟨g i, g i, rfl, rfl, hg i hi,
      by simp [Within]⟩) ndir hdir sl jUndef
  refine ⟨a, A, ea, eA, fun k hk => ?_⟩
  obtain ⟨r, R, er, eR, R0, hr⟩ := hA k hk
  refine ⟨r, R, er, eR, R0, hr.trans (mul_le_mul_of_nonneg_right ?_ R0)⟩
  refine mul_le_mul_of_nonneg_right ?_ ulp2_pos.le
  have : (0 : ℝ) ≤ n := Nat.cast_nonneg n
  linarith

/-- Computed degrees as values of the averaged property. -/
theorem Round.nn_degree_values {α β δ ζ : Type} (pr ex : δ → α → β → ζ → XR) (n : ℕ)
    (sl : Bool) (hn : n ≤ 2 ^ 25) (d : δ) (x : ℕ → α) (y : ℕ → β) (z : ζ) (e : ℝ)
    (h : ∀ i < n, ∀ j < n, Term (e * ulp2) (pr d (x i) (y j) z) (ex d (x i) (y j) z))
    (hp : ∀ i < n, ∀ j < n, ∀ q, ex d (x i) (y j) z = fin q → Round.ZeroOrMid q)
    (c : ℝ) (ddir : Dir) (hddir : ddir.Known)
    (hd : ∀ i < n, Round.Close (fun V => c * ulp2 * V)
      (Query.pick ddir (Round.exp_degrees binary64 pr d n x y (fun _ _ => z) sl) i)
      (Query.pick ddir (DiGraphEnsemble.exp_degrees ex d n x y (fun _ _ => z) sl) i))
    (i : ℕ) (hi : i < n) :
    ∃ g' g : ℝ,
      Query.pick ddir (Round.exp_degrees binary64 pr d n x y (fun _ _ => z) sl) i = fin g' ∧
      Query.pick ddir (DiGraphEnsemble.exp_degrees ex d n x y (fun _ _ => z) sl) i = fin g ∧
      Round.ZeroOrMid g ∧ Within (c * ulp2) g g' := by
  have hn' : (n : ℝ) ≤ 2 ^ 25 := by exact_mod_cast hn
  choose! q q0 q1 eq using fun i (hi : i < n) j (hj : j < n) =>
    (show ∃ q : ℝ, 0 ≤ q ∧ q ≤ 1 ∧ ex d (x i) (y j) z = fin q from by
      obtain ⟨_, _, q, _, e2, _, _, q0, q1, _⟩ := h i hi j hj
      exact ⟨q, q0, q1, e2⟩)
  have hD := exact_deg n sl ex d x y z ddir
    hddir q eq i hi
  have hD2 : Query.pick ddir (DiGraphEnsemble.exp_degrees ex d n
      x y (fun _ _ => z) sl) i
      = fin (∑ j ∈ Finset.range n, Query.weight q sl ddir i j) := hD
  obtain ⟨v, V, e1, e2, V0, hv⟩ := hd i hi
  refine ⟨v, V, e1, e2, ?_, ?_⟩
  · rw [hD2] at e2
    rw [← XR.fin.inj e2]
    have wb : ∀ j < n, 0 ≤ Query.weight q sl ddir i j ∧ Query.weight q sl ddir i j ≤ 1 ∧
        (Query.weight q sl ddir i j = 0 ∨ (2 : ℝ) ^ (-400 : ℤ) ≤ Query.weight q sl ddir i j) := by
      intro j hj
      have a1 := q0 i hi j hj; have a2 := q0 j hj i hi
      have b1 := q1 i hi j hj; have b2 := q1 j hj i hi
      have c1 := hp i hi j hj _ (eq i hi j hj); have c2 := hp j hj i hi _ (eq j hj i hi)
      have c3 := hp i hi i hi _ (eq i hi i hi)
      have a3 := q0 i hi i hi; have b3 := q1 i hi i hi
      cases ddir with
      | out =>
        simp only [Query.weight, DiGraphEnsemble.masked]
        split
        · exact ⟨a1, b1, c1.imp id (fun h => h.1)⟩
        · exact ⟨le_rfl, zero_le_one, .inl rfl⟩
      | inn =>
        simp only [Query.weight, DiGraphEnsemble.masked]
        split
        · exact ⟨a2, b2, c2.imp id (fun h => h.1)⟩
        · exact ⟨le_rfl, zero_le_one, .inl rfl⟩
      | outIn =>
        simp only [Query.weight, DiGraphEnsemble.undir]
        split
        · have k1 : q i j ≤ q i j + q j i - q i j * q j i := by nlinarith
          refine ⟨a1.trans k1, by nlinarith, ?_⟩
          rcases c1 with c1 | c1
          · rw [c1, zero_add, zero_mul, sub_zero]
            exact c2.imp id (fun h => h.1)
          · exact .inr (c1.1.trans k1)
        · split
          · exact ⟨a3, b3, c3.imp id (fun h => h.1)⟩
          · exact ⟨le_rfl, zero_le_one, .inl rfl⟩
      | underscored | other => exact False.elim hddir
    rcases Round.nn_sum_low (n := n) (a := fun j => Query.weight q sl ddir i j)
      (fun j hj => (wb j hj).1) (fun j hj => (wb j hj).2.2) with h0 | h1
    · exact .inl h0
    · refine .inr ⟨h1, ?_⟩
      have : ∑ j ∈ Finset.range n, Query.weight q sl ddir i j ≤ ∑ j ∈ Finset.range n, 1 :=
        Finset.sum_le_sum fun j hj => (wb j (Finset.mem_range.1 hj)).2.1
      rw [Finset.sum_const, Finset.card_range, nsmul_eq_mul, mul_one] at this
      refine (this.trans hn').trans ?_
      rw [show (2 : ℝ) ^ 25 = (2 : ℝ) ^ (25 : ℤ) by norm_num]
      exact zpow_le_zpow_right₀ (by norm_num) (by norm_num)
  · have := abs_le.1 hv
    constructor
    · linarith [this.1]
    · linarith [this.2]

/-- The average of the neighbours' expected degrees, computed with a relative error `c * 2 ^ -53`. -/
theorem Round.av_nn_degree_core {α β δ ζ : Type} (pr ex : δ → α → β → ζ → XR) (n : ℕ)
    (sl : Bool) (hn : n ≤ 2 ^ 25) (d : δ) (x : ℕ → α) (y : ℕ → β) (z : ζ) (e : ℝ) (he0 : 0 ≤ e) (he : e ≤ 2 ^ 22)
    (h : ∀ i < n, ∀ j < n, Term (e * ulp2) (pr d (x i) (y j) z) (ex d (x i) (y j) z))
    (hp : ∀ i < n, ∀ j < n, ∀ q, ex d (x i) (y j) z = fin q → Round.ZeroOrMid q)
    (c : ℝ) (c0 : 0 ≤ c) (hc : c ≤ 2 ^ 27) (ddir : Dir) (hddir : ddir.Known)
    (hd : ∀ i < n, Round.Close (fun V => c * ulp2 * V)
      (Query.pick ddir (Round.exp_degrees binary64 pr d n x y (fun _ _ => z) sl) i)
      (Query.pick ddir (DiGraphEnsemble.exp_degrees ex d n x y (fun _ _ => z) sl) i))
    (ndir : Dir) (hdir : ndir = .out ∨ ndir = .inn) (jUndef : ℕ) :
    ∃ a A : ℕ → XR,
      Round.av_nn binary64 jUndef pr d n x y (fun _ _ => z)
        (Query.pick ddir (Round.exp_degrees binary64 pr d n x y (fun _ _ => z) sl)) ndir sl = .ok a ∧
      Round.av_nn Arith.exact jUndef ex d n x y (fun _ _ => z)
        (Query.pick ddir (DiGraphEnsemble.exp_degrees ex d n x y (fun _ _ => z) sl)) ndir sl = .ok A ∧
      ∀ k < n, ∃ r R : ℝ, a k = fin r ∧ A k = fin R ∧ 0 ≤ R ∧
        |r - R| ≤ (4.06 * (e + 1.7 + c + n) + 1.03) * ulp2 * R := by
  exact Round.av_nn_core pr ex n hn d x y z e he0 he h hp c c0 hc _ _
    (Round.nn_degree_values pr ex n sl hn d x y z e h hp c ddir hddir hd) ndir hdir sl jUndef

/-- **C110**, degrees.  The same for the average of the neighbours' own expected degrees, which are
computed in double precision as well: the relative error of every entry is at most
`(13 * n + 120) * 2 ^ -53`. -/
theorem C110_degree_partial (f : (XR → XR → XR → XR → XR) × (XR → XR → XR → XR → XR))
    (hf : f ∈ Round.models) (n : ℕ) (hn : n ≤ 2 ^ 25) (d : ℝ) (x y : ℕ → ℝ) (z : ℝ)
    (h : ∀ i < n, ∀ j < n, Round.InRange d (x i) (y j) z)
    (hp : ∀ i < n, ∀ j < n, ∀ q, f.2 (fin d) (fin (x i)) (fin (y j)) (fin z) = fin q →
      Round.ZeroOrMid q)
    (ddir : Dir) (hddir : ddir.Known) (ndir : Dir)
    (hdir : ndir = .out ∨ ndir = .inn) (sl : Bool) (jUndef : ℕ) :
    ∃ a A : ℕ → XR,
      Round.av_nn binary64 jUndef f.1 (fin d) n (fun i => fin (x i)) (fun j => fin (y j))
        (fun _ _ => fin z) (Query.pick ddir (Round.exp_degrees binary64 f.1 (fin d) n
          (fun i => fin (x i)) (fun j => fin (y j)) (fun _ _ => fin z) sl)) ndir sl = .ok a ∧
      Round.av_nn Arith.exact jUndef f.2 (fin d) n (fun i => fin (x i)) (fun j => fin (y j))
        (fun _ _ => fin z) (Query.pick ddir (DiGraphEnsemble.exp_degrees f.2 (fin d) n
          (fun i => fin (x i)) (fun j => fin (y j)) (fun _ _ => fin z) sl)) ndir sl = .ok A ∧
      ∀ k < n, ∃ r R : ℝ, a k = fin r ∧ A k = fin R ∧ 0 ≤ R ∧
        |r - R| ≤ (13 * n + 120) * (2 : ℝ) ^ (-53 : ℤ) * R := by
  have hn0 : (0 : ℝ) ≤ n := Nat.cast_nonneg n
  have hn' : (n : ℝ) ≤ 2 ^ 25 := by exact_mod_cast hn
  obtain ⟨a, A, ea, eA, hA⟩ := Round.av_nn_degree_core f.1 f.2 n sl hn (fin d) (fun i => fin (x i))
    (fun j => fin (y j)) (fin z) 5.3 (by norm_num) (by norm_num)
    (fun i hi j hj => Round.nn_term_models hf (h i hi j hj)) hp (2 * n + 22) (by linarith) (by linarith) ddir
    hddir (by
      intro i hi
      obtain ⟨e, E, e1, e2, E0, he⟩ := C107_error_partial f hf n (hn.trans (by norm_num)) d x y
        (fun _ _ => z) h sl i hi (Query.pick ddir) (by
          cases ddir with
          | out => exact .inr (.inl rfl)
          | inn => exact .inr (.inr rfl)
          | outIn => exact .inl rfl
          | underscored | other => exact False.elim hddir)
      refine ⟨e, E, e1, e2, E0, he.trans (le_of_eq ?_)⟩
      have e52 : (2 : ℝ) ^ (-52 : ℤ) = 2 * ulp2 := by unfold ulp2; norm_num
      rw [e52]
      ring) ndir hdir jUndef
  refine ⟨a, A, ea, eA, fun k hk => ?_⟩
  obtain ⟨r, R, er, eR, R0, hr⟩ := hA k hk
  refine ⟨r, R, er, eR, R0, hr.trans (mul_le_mul_of_nonneg_right ?_ R0)⟩
  refine mul_le_mul_of_nonneg_right ?_ ulp2_pos.le
  linarith

/-- Bounds of the exact probability of a pair. -/
theorem Round.nn_exact_pair {f : (XR → XR → XR → XR → XR) × (XR → XR → XR → XR → XR)}
    (hf : f ∈ Round.models) {d x y : ℝ} (hd : 0 < d) (hx : 0 < x) (hy : 0 < y) :
    ∃ q : ℝ, f.2 (fin d) (fin x) (fin y) (fin 1) = fin q ∧ d * x * y / (1 + d * x * y) ≤ q ∧
      q ≤ d * x * y := by
  have ht : 0 < d * x * y := by positivity
  have g4 : ((fin x).isZero || (fin y).isZero || (fin 1).isZero || (fin d).isZero) = false := by
    simp [isZero, hd.ne', hx.ne', hy.ne']
  have g3 : ((fin x).isZero || (fin y).isZero || (fin d).isZero) = false := by
    simp [isZero, hd.ne', hx.ne', hy.ne']
  have fit : d * x * y / (1 + d * x * y) ≤ d * x * y := div_le_self ht.le (by linarith)
  have inv1 : d * x * y / (1 + d * x * y) ≤ 1 - Real.exp (-(d * x * y)) := by
    have h1 := Real.add_one_le_exp (d * x * y)
    have h2 : Real.exp (-(d * x * y)) ≤ 1 / (1 + d * x * y) := by
      rw [Real.exp_neg, ← one_div]
      exact one_div_le_one_div_of_le (by positivity) (by linarith)
    have h3 : d * x * y / (1 + d * x * y) = 1 - 1 / (1 + d * x * y) := by field_simp; ring
    linarith
  have inv2 : 1 - Real.exp (-(d * x * y)) ≤ d * x * y := by
    linarith [Real.add_one_le_exp (-(d * x * y))]
  simp only [Round.models, List.mem_cons, List.not_mem_nil, or_false] at hf
  rcases hf with rfl | rfl | rfl | rfl
  · refine ⟨d * x * y / (1 + d * x * y), ?_, le_rfl, fit⟩
    simp only [Verif.Sparse.FitnessModel.p_ij, g4]
    show fin (d * x * y * 1) / fin (1 + d * x * y * 1) = _
    rw [mul_one, fin_div_fin _ _ (by positivity)]
  · refine ⟨1 - Real.exp (-(d * x * y)), ?_, inv1, inv2⟩
    simp only [Verif.Sparse.ScaleInvariantModel.p_ij, g4]
    show fin (-(Real.exp (-(d * x * y * 1)) - 1)) = _
    rw [mul_one, neg_sub]
  · refine ⟨d * x * y / (1 + d * x * y), ?_, le_rfl, fit⟩
    simp only [Verif.Dense.FitnessModel.p_ij, g3]
    show fin (d * x * y) / fin (1 + d * x * y) = _
    rw [fin_div_fin _ _ (by positivity)]
  · refine ⟨1 - Real.exp (-(d * x * y)), ?_, inv1, inv2⟩
    simp only [Verif.Dense.ScaleInvariantModel.p_ij, g3]
    show fin (-(Real.exp (-(d * x * y)) - 1)) = _
    rw [neg_sub]

theorem Round.nn_in_range_of {d x y : ℝ} (hd : 0 < d) (hx : 0 < x) (hy : 0 < y)
    (h1 : (2 : ℝ) ^ (-100 : ℤ) ≤ d * x) (h2 : d * x ≤ (2 : ℝ) ^ (100 : ℤ))
    (h3 : (2 : ℝ) ^ (-100 : ℤ) ≤ d * x * y) (h4 : d * x * y ≤ (2 : ℝ) ^ (100 : ℤ)) :
    Round.InRange d x y 1 := by
  have l : (2 : ℝ) ^ (-1000 : ℤ) ≤ (2 : ℝ) ^ (-100 : ℤ) :=
    zpow_le_zpow_right₀ (by norm_num) (by norm_num)
  have u : (2 : ℝ) ^ (100 : ℤ) ≤ (2 : ℝ) ^ (1000 : ℤ) :=
    zpow_le_zpow_right₀ (by norm_num) (by norm_num)
  refine .inr ⟨hd, hx, hy, ⟨l.trans h1, h2.trans u⟩, ⟨l.trans h3, h4.trans u⟩, .inr ⟨one_pos, ?_, ?_⟩⟩
  · rw [mul_one]; exact l.trans h3
  · rw [mul_one]; exact h4.trans u

/-- Two vertices, with a zero property, and a property averaged over the neighbours that has a zero
meet the hypotheses. -/
example (f : (XR → XR → XR → XR → XR) × (XR → XR → XR → XR → XR)) (hf : f ∈ Round.models) :
    let x : ℕ → ℝ := fun i => if i = 0 then 1 else 3
    let y : ℕ → ℝ := fun j => if j = 1 then 0 else 5
    let g : ℕ → ℝ := fun i => if i = 1 then 0 else 7
    (∀ i < 2, ∀ j < 2, Round.InRange 2 (x i) (y j) 1) ∧
    (∀ i < 2, ∀ j < 2, ∀ q, f.2 (fin 2) (fin (x i)) (fin (y j)) (fin 1) = fin q →
      Round.ZeroOrMid q) ∧
    ∀ i < 2, Round.ZeroOrMid (g i) := by
  intro x y g
  have l : (2 : ℝ) ^ (-400 : ℤ) ≤ (2 : ℝ) ^ (-1 : ℤ) :=
    zpow_le_zpow_right₀ (by norm_num) (by norm_num)
  have u : (2 : ℝ) ^ (10 : ℤ) ≤ (2 : ℝ) ^ (400 : ℤ) :=
    zpow_le_zpow_right₀ (by norm_num) (by norm_num)
  have mid : ∀ r : ℝ, 1 / 2 ≤ r → r ≤ 1024 → Round.ZeroOrMid r := fun r h1 h2 =>
    .inr ⟨l.trans (by norm_num at h1 ⊢; linarith), le_trans (by norm_num at h2 ⊢; linarith) u⟩
  have range : ∀ i < 2, ∀ j < 2, Round.InRange 2 (x i) (y j) 1 := by
    intro i _ j _
    by_cases hj : j = 1
    · exact Or.inl (Or.inr (Or.inl (if_pos hj)))
    · have hy : y j = 5 := if_neg hj
      rw [hy]
      have hx : x i = 1 ∨ x i = 3 := by simp only [x]; split <;> simp
      rcases hx with hx | hx <;> rw [hx] <;>
      exact Round.nn_in_range_of (by norm_num) (by norm_num) (by norm_num) (by norm_num) (by norm_num)
        (by norm_num) (by norm_num)
  refine ⟨range, ?_, ?_⟩
  · intro i hi j hj q hq
    by_cases h : j = 1
    · have hy : y j = 0 := if_pos h
      have h0 : f.2 (fin 2) (fin (x i)) (fin 0) (fin 1) = fin 0 := by
        have g3 : ((fin (x i)).isZero || (fin 0).isZero || (fin 2).isZero) = true := by simp [isZero]
        have g4 : ((fin (x i)).isZero || (fin 0).isZero || (fin 1).isZero || (fin 2).isZero) = true := by
          simp [isZero]
        simp only [Round.models, List.mem_cons, List.not_mem_nil, or_false] at hf
        rcases hf with rfl | rfl | rfl | rfl
        · simp only [Verif.Sparse.FitnessModel.p_ij, g4]; rfl
        · simp only [Verif.Sparse.ScaleInvariantModel.p_ij, g4]; rfl
        · simp only [Verif.Dense.FitnessModel.p_ij, g3]; rfl
        · simp only [Verif.Dense.ScaleInvariantModel.p_ij, g3]; rfl
      rw [hy, h0] at hq
      exact .inl (XR.fin.inj hq).symm
    · have hy : y j = 5 := if_neg h
      have hx : x i = 1 ∨ x i = 3 := by simp only [x]; split <;> simp
      have hx0 : 0 < x i := by rcases hx with hx | hx <;> rw [hx] <;> norm_num
      have h1 := Round.exact_le_one hf (range i hi j hj) hq
      rw [hy] at hq
      obtain ⟨q', e, h2, _⟩ := Round.nn_exact_pair hf (show (0 : ℝ) < 2 by norm_num) hx0
        (show (0 : ℝ) < 5 by norm_num)
      rw [hq] at e
      obtain rfl := XR.fin.inj e
      refine mid q (le_trans ?_ h2) (by linarith)
      rcases hx with hx | hx <;> rw [hx] <;> norm_num
  · intro i _
    by_cases h : i = 1
    · exact .inl (if_pos h)
    · rw [show g i = 7 from if_neg h]
      exact mid 7 (by norm_num) (by norm_num)

/-- **C110** fails for the direction `out-in`: the probability of a link in either direction is
computed as one minus the product of the complements, which loses probabilities below half a last
place.  Between two vertices whose probabilities are about `2 ^ -60` the average of the property that
is one everywhere is computed as zero, whereas it is one without rounding. -/
theorem C110_outin_violated (f : (XR → XR → XR → XR → XR) × (XR → XR → XR → XR → XR))
    (hf : f ∈ Round.models) (jUndef : ℕ) :
    let v : XR := fin ((2 : ℝ) ^ (-30 : ℤ))
    (∃ a : ℕ → XR, Round.av_nn binary64 jUndef f.1 1 2 (fun _ => v) (fun _ => v) (fun _ _ => 1)
        (fun _ => 1) .outIn false = .ok a ∧ a 0 = 0 ∧ a 1 = 0) ∧
    ∃ A : ℕ → XR, Round.av_nn Arith.exact jUndef f.2 1 2 (fun _ => v) (fun _ => v) (fun _ _ => 1)
        (fun _ => 1) .outIn false = .ok A ∧ A 0 = 1 ∧ A 1 = 1 := by
  intro v
  have hu := ulp2_pos
  have hu' := ulp2_small
  have hx : (0 : ℝ) < (2 : ℝ) ^ (-30 : ℤ) := pow_pos' _
  have hone : (1 : ℝ) ∈ doubles := Faithful.binary64.one_mem
  have hrange : Round.InRange 1 ((2 : ℝ) ^ (-30 : ℤ)) ((2 : ℝ) ^ (-30 : ℤ)) 1 :=
    Round.nn_in_range_of one_pos hx hx (by norm_num) (by norm_num) (by norm_num) (by norm_num)
  obtain ⟨q, eq, ql, qu⟩ := Round.nn_exact_pair hf one_pos hx hx
  have q0 : 0 < q := lt_of_lt_of_le (by positivity) ql
  have q1 : q ≤ 1 / 2 ^ 60 := qu.trans (by norm_num)
  obtain ⟨p, hp, q', _, p0, _, ep, eq', hw⟩ := Round.pair_acc hf hrange
  rw [eq] at eq'
  obtain rfl := XR.fin.inj eq'
  have p0 : 0 < p := lt_of_lt_of_le (mul_pos q0 (by linarith)) hw.1
  have p1 : p ≤ (2 : ℝ) ^ (-55 : ℤ) := by
    have h1 : p ≤ q * 2 := hw.2.trans (mul_le_mul_of_nonneg_left (by linarith) q0.le)
    have h2 : (2 : ℝ) ^ (-55 : ℤ) = 1 / 2 ^ 55 := by norm_num
    rw [h2]
    linarith
  constructor
  · -- the computed probability of a link in either direction is zero
    have s1 : binary64.sub 1 (fin p) = fin 1 := toDouble_near_one p0 p1
    have m1 : binary64.mul (fin 1) (fin 1) = fin 1 := by
      show toDouble (1 * 1) = _
      rw [mul_one]; exact toDouble_self hone
    have s2 : binary64.sub 1 (fin 1) = fin 0 := by
      show toDouble (1 - 1) = _
      rw [sub_self]; exact toDouble_self Faithful.binary64.zero_mem
    have m2 : binary64.mul (fin 0) 1 = fin 0 := by
      show toDouble (0 * 1) = _
      rw [zero_mul]; exact toDouble_self Faithful.binary64.zero_mem
    have a1 : binary64.add 0 (fin 0) = fin 0 := by
      show toDouble (0 + 0) = _
      rw [add_zero]; exact toDouble_self Faithful.binary64.zero_mem
    have ep' : f.1 1 v v 1 = fin p := ep
    have hav : Round.exp_av_nn_prop binary64 jUndef f.1 1 2 (fun _ => v) (fun _ => v) (fun _ _ => 1)
        (fun _ => 1) .outIn false = .ok zeros := by
      have hz : Round.addAt binary64 zeros 1 (fin 0) = zeros := by
        funext k
        rw [addAt_apply]
        split
        · exact a1
        · rfl
      have hz' : Round.addAt binary64 zeros 0 (fin 0) = zeros := by
        funext k
        rw [addAt_apply]
        split
        · exact a1
        · rfl
      show Except.ok (Round.addAt binary64 (Round.addAt binary64 zeros 1
        (binary64.mul (binary64.sub 1 (binary64.mul (binary64.sub 1 (f.1 1 v v 1))
          (binary64.sub 1 (f.1 1 v v 1)))) 1)) 0
        (binary64.mul (binary64.sub 1 (binary64.mul (binary64.sub 1 (f.1 1 v v 1))
          (binary64.sub 1 (f.1 1 v v 1)))) 1)) = _
      rw [ep', s1, m1, s2, m2, hz, hz']
    have hdeg : ∀ k < 2, ∃ e : ℝ, (Round.exp_degrees binary64 f.1 1 2 (fun _ => v) (fun _ => v)
        (fun _ _ => 1) false).exp_d k = fin e := by
      intro k hk
      obtain ⟨_, _, e, _, he, _⟩ := C107_degrees_partial f hf 2 (by norm_num) 1
        (fun _ => (2 : ℝ) ^ (-30 : ℤ)) (fun _ => (2 : ℝ) ^ (-30 : ℤ)) (fun _ _ => 1)
        (fun _ _ _ _ => hrange) false k hk
      exact ⟨e, he⟩
    have hent : ∀ k < 2, Round.average binary64 zeros (Round.exp_degrees binary64 f.1 1 2
        (fun _ => v) (fun _ => v) (fun _ _ => 1) false).exp_d k = 0 := by
      intro k hk
      obtain ⟨e, he⟩ := hdeg k hk
      unfold Round.average
      rw [he]
      by_cases h : e = 0
      · rw [if_pos (by simp [isZero_fin, h])]; rfl
      · rw [if_neg (by simp [isZero_fin, h])]
        show roundXR (fin 0 / fin e) = fin 0
        rw [fin_div_fin _ _ h, zero_div]; exact toDouble_self Faithful.binary64.zero_mem
    refine ⟨_, ?_, hent 0 (by norm_num), hent 1 (by norm_num)⟩
    unfold Round.av_nn
    rw [hav]
    refine if_pos ?_
    rw [List.all_eq_true]
    intro k _
    have : (zeros k).isZero = true := by simp [zeros, isZero]
    rw [this, Bool.or_true]
  · have e' : ∀ i < 2, ∀ j < 2, f.2 1 ((fun _ => v) i) ((fun _ => v) j) 1 = fin q :=
      fun _ _ _ _ => eq
    have hq1 : q ≤ 1 := q1.trans (by norm_num)
    obtain ⟨A, eA, hA⟩ := exact_average jUndef 2 false f.2 1 (fun _ => v) (fun _ => v) 1 (fun _ => 1)
      (fun _ => 1) (fun _ _ => rfl) .outIn trivial (fun _ _ => q) e' (by
        intro i _ j _
        simp only [Query.weight, DiGraphEnsemble.undir]
        split
        · nlinarith
        · simp)
    have hw : 0 < q + q - q * q := by nlinarith
    refine ⟨A, eA, ?_, ?_⟩
    · rw [hA 0 (by norm_num)]
      simp [Finset.sum_range_succ, Query.weight, DiGraphEnsemble.undir, hw.ne', one_def]
    · rw [hA 1 (by norm_num)]
      simp [Finset.sum_range_succ, Query.weight, DiGraphEnsemble.undir, hw.ne', one_def]

end Verif
