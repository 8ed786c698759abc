import Verif.Round.RandSum
import Verif.Round.NNProps
import Verif.Round.Grid
import Verif.Random.SampledProps

/-!
# Property C111: the random ensemble in double precision

Missing in the `_partial` theorems: more than `2 ^ 26` vertices (`2 ^ 25` for averages), numbers of
edges below `2 ^ -300` other than zero or above the number of admissible pairs, link probabilities
within `2 ^ -400` of zero or one for the likelihood, properties that are neither zero nor in
`[2 ^ -400, 2 ^ 400]`, averages with self-loops in the direction `out-in` (not averages even without
rounding, see C38), averages relative to themselves (false, `C111_average_violated`), and
logarithms that are not correctly rounded.  The weight parameter is in `RandWeightProps`.
-/

namespace Verif

open XR Finset MeasureTheory
open DiGraphEnsemble (Dir)
open Round (binary64 doubles ulp2 ulp2_pos ulp2_small Within Good MidR ofInt pow_pos')

private theorem abs_of_within {c X x : ℝ} (h : Within (c * ulp2) X x) :
    |x - X| ≤ c * (2 : ℝ) ^ (-53 : ℤ) * X := by
  have : ulp2 = (2 : ℝ) ^ (-53 : ℤ) := rfl
  rw [← this, abs_le]
  constructor <;> nlinarith [h.1, h.2]

private theorem mid_of {X : ℝ} (h1 : (2 : ℝ) ^ (-352 : ℤ) ≤ X) (h2 : X ≤ 2 ^ 60) : MidR X := by
  refine .inr ⟨(zpow_le_zpow_right₀ (by norm_num) (by norm_num)).trans h1, h2.trans ?_⟩
  rw [show (2 : ℝ) ^ 60 = (2 : ℝ) ^ (60 : ℤ) from rfl]
  exact zpow_le_zpow_right₀ (by norm_num) (by norm_num)

private theorem abs_sq {n : ℕ} (hn : n ≤ 2 ^ 26) : |((n : ℤ) ^ 2)| ≤ 2 ^ 53 := by
  have : (n : ℤ) ≤ 2 ^ 26 := by exact_mod_cast hn
  rw [abs_of_nonneg (by positivity)]
  nlinarith

private theorem abs_mul_pred {n : ℕ} (hn : n ≤ 2 ^ 26) : |((n : ℤ) * ((n : ℤ) - 1))| ≤ 2 ^ 53 := by
  have : (n : ℤ) ≤ 2 ^ 26 := by exact_mod_cast hn
  rw [abs_le]
  constructor <;> nlinarith

private theorem abs_pred {n : ℕ} (hn : n ≤ 2 ^ 26) : |((n : ℤ) - 1)| ≤ 2 ^ 53 := by
  have : (n : ℤ) ≤ 2 ^ 26 := by exact_mod_cast hn
  rw [abs_le]
  constructor <;> linarith

private theorem abs_self {n : ℕ} (hn : n ≤ 2 ^ 26) : |(n : ℤ)| ≤ 2 ^ 53 := by
  have : (n : ℤ) ≤ 2 ^ 26 := by exact_mod_cast hn
  rw [abs_le]
  constructor <;> linarith

/-- The mean degree in closed form. -/
private theorem rand_mean_degree (o : Rand.Obj) (P : ℝ) (i : ℕ) (hi : i < o.num_vertices) :
    Rand.mean o.num_vertices o.selfloops P (fun G => (Law.degree o.num_vertices G i : ℝ))
      = (2 * P - P * P) * ((o.num_vertices : ℝ) - 1) + if o.selfloops then P else 0 := by
  obtain ⟨-, d, _, _, h1, -, -, h2⟩ := Rand.C36_expectations { o with param := some (fin P, 0) } P 0 rfl
  have h3 := (h2 i hi).1
  simp only [Rand.expected_degree] at h1
  cases hs : o.selfloops with
  | false =>
    rw [hs] at h1 h3
    simp only [Bool.false_eq_true, if_false] at h1
    cases h1
    simp only [fin_mul_fin, fin_sub_fin] at h3
    rw [← XR.fin.inj h3]; simp
  | true =>
    rw [hs] at h1 h3
    simp only [if_true] at h1
    cases h1
    simp only [fin_mul_fin, fin_sub_fin, fin_add_fin] at h3
    rw [← XR.fin.inj h3]; simp

/-- **C111**, fit and expectations.  The link probability is a double in `[0, 1]` within
`1.2 * 2 ^ -53` (relatively) of the given number of edges per admissible pair; the computed number of
edges is within `4 * 2 ^ -53` of the given one, the computed out- and in-degrees within `3 * 2 ^ -53`
of the given number per vertex, the computed degree within `9 * 2 ^ -53` of the mean degree of random
graphs with exactly the given number of edges on average. -/
theorem C111_fit_partial (o : Rand.Obj) (m : Rand.Number) (hm : o.num_edges = some m)
    (hw : ∀ w, o.total_weight = some w → w.val ≠ 0 ∧ o.discrete_weights ≠ none)
    (hn : o.num_vertices ≤ 2 ^ 26)
    (hN : 0 < (Law.pairs o.num_vertices o.selfloops).card)
    (m0 : m.val = 0 ∨ (2 : ℝ) ^ (-300 : ℤ) ≤ m.val)
    (m1 : m.val ≤ (Law.pairs o.num_vertices o.selfloops).card) :
    let n := o.num_vertices
    let P := m.val / (Law.pairs n o.selfloops).card
    ∃ o' p q, Round.rand_fit binary64 o = .ok o' ∧ o'.param = some (fin p, q) ∧
      o'.num_vertices = n ∧ o'.selfloops = o.selfloops ∧ p ∈ doubles ∧ 0 ≤ p ∧ p ≤ 1 ∧
      |p - P| ≤ 1.2 * (2 : ℝ) ^ (-53 : ℤ) * P ∧
      (∃ e, Round.rand_num_edges binary64 o' = .ok (fin e) ∧
        |e - m.val| ≤ 4 * (2 : ℝ) ^ (-53 : ℤ) * m.val) ∧
      ∃ dOut dIn d, Round.rand_out_degree binary64 o' = .ok dOut ∧
        Round.rand_in_degree binary64 o' = .ok dIn ∧ Round.rand_degree binary64 o' = .ok d ∧
        ∀ i < n, ∃ a r : ℝ, dOut i = fin a ∧ dIn i = fin a ∧ d i = fin r ∧
          |a - m.val / n| ≤ 3 * (2 : ℝ) ^ (-53 : ℤ) * (m.val / n) ∧
          |r - Rand.mean n o.selfloops P (fun G => (Law.degree n G i : ℝ))|
            ≤ 9 * (2 : ℝ) ^ (-53 : ℤ) *
              Rand.mean n o.selfloops P (fun G => (Law.degree n G i : ℝ)) := by
  intro n P
  have hu := ulp2_pos
  have hcard := Rand.card_pairs n o.selfloops
  have N0 : (0 : ℝ) < (Law.pairs n o.selfloops).card := by exact_mod_cast hN
  set N : ℝ := ((Law.pairs n o.selfloops).card : ℝ) with hNdef
  have n0 : 0 < n := by
    rcases Nat.eq_zero_or_pos n with h | h
    · exfalso
      rw [hcard, h] at N0
      cases hs : o.selfloops <;> simp [hs] at N0
    · exact h
  have nR : (1 : ℝ) ≤ n := by exact_mod_cast n0
  have nR' : (n : ℝ) ≤ 2 ^ 26 := by exact_mod_cast hn
  have hpred : o.selfloops = false → (1 : ℝ) ≤ (n : ℝ) - 1 := by
    intro hs
    rw [hs, if_neg (by simp)] at hcard
    rw [hcard] at N0
    have h1 : (0 : ℝ) < (n : ℝ) - 1 := pos_of_mul_pos_right N0 (by linarith)
    have h2 : (1 : ℝ) < n := by linarith
    have h3 : 1 < n := by exact_mod_cast h2
    have h4 : (2 : ℝ) ≤ n := by exact_mod_cast h3
    linarith
  have NB : N ≤ 2 ^ 52 := by
    rw [hcard]
    split_ifs
    · nlinarith
    · nlinarith
  have M0 : 0 ≤ m.val := by
    rcases m0 with h | h
    · exact h.ge
    · exact (pow_pos' _).le.trans h
  have P0 : 0 ≤ P := div_nonneg M0 N0.le
  have P1 : P ≤ 1 := (div_le_one N0).2 m1
  have hP : m.val = P * N := (div_mul_cancel₀ _ N0.ne').symm
  have hP' : P = 0 ∨ (2 : ℝ) ^ (-352 : ℤ) ≤ P := by
    rcases m0 with h | h
    · left; show m.val / N = 0; rw [h, zero_div]
    · right
      have h1 : (2 : ℝ) ^ (-300 : ℤ) / 2 ^ 52 ≤ P := div_le_div₀ M0 h N0 NB
      refine le_trans (le_of_eq ?_) h1
      rw [show (-352 : ℤ) = -300 - 52 by norm_num, zpow_sub₀ (by norm_num)]; rfl
  have mid : ∀ c : ℝ, 1 ≤ c → c ≤ 2 ^ 60 → MidR (P * c) := by
    intro c c1 c2
    rcases hP' with h | h
    · exact .inl (by rw [h, zero_mul])
    · refine mid_of (h.trans (le_mul_of_one_le_right P0 c1)) ?_
      calc P * c ≤ 1 * c := mul_le_mul_of_nonneg_right P1 (by linarith)
        _ ≤ _ := by linarith
  have midP : MidR P := by have := mid 1 le_rfl (by norm_num); rwa [mul_one] at this
  -- the weight parameter
  obtain ⟨q, hq⟩ : ∃ q, Round.rand_fitWeight binary64 o m = .ok q := by
    unfold Round.rand_fitWeight
    cases hT : o.total_weight with
    | none => exact ⟨_, rfl⟩
    | some w =>
      obtain ⟨h1, h2⟩ := hw w hT
      cases hD : o.discrete_weights with
      | none => exact absurd hD h2
      | some b =>
        cases b <;> simp only [Round.randDivF, if_neg h1] <;> exact ⟨_, rfl⟩
  -- the link probability
  have hfit : ∃ k : ℤ, |k| ≤ 2 ^ 53 ∧ (k : ℝ) = N ∧ (k ≠ 0) ∧
      (if o.selfloops then Round.randDiv binary64 m.np m.val ((o.num_vertices : ℤ) ^ 2)
        else Round.randDiv binary64 m.np m.val
          ((o.num_vertices : ℤ) * ((o.num_vertices : ℤ) - 1)))
        = Round.randDiv binary64 m.np m.val k := by
    cases hs : o.selfloops with
    | true =>
      rw [hs, if_pos rfl] at hcard
      refine ⟨(n : ℤ) ^ 2, abs_sq hn, ?_, ?_, by rw [if_pos rfl]⟩
      · push_cast; exact hcard.symm
      · positivity
    | false =>
      rw [hs, if_neg (by simp)] at hcard
      refine ⟨(n : ℤ) * ((n : ℤ) - 1), abs_mul_pred hn, ?_, ?_, by rw [if_neg (by simp)]⟩
      · push_cast; exact hcard.symm
      · intro h
        have h' : (((n : ℤ) * ((n : ℤ) - 1) : ℤ) : ℝ) = 0 := by rw [h]; simp
        push_cast at h'
        rw [hcard, h'] at N0
        exact lt_irrefl _ N0
  obtain ⟨k, hk, hkN, hk0, hif⟩ := hfit
  have hgood : Good 1.2 P (binary64.div (fin m.val) (ofInt binary64 k)) := by
    have h1 := Round.good_int hk
    rw [hkN] at h1
    have := Round.good_div (a := 0) (b := 0) le_rfl (by norm_num) le_rfl (by norm_num) M0 N0
      (Round.within_self m.val) h1 midP
    simpa using this
  obtain ⟨p, pd, ep, hp⟩ := hgood
  have p0 : 0 ≤ p := le_trans (mul_nonneg P0 (by linarith [ulp2_small])) hp.1
  have p1 : p ≤ 1 := by
    have h1 := (Round.Faithful.binary64.div (fin m.val) (ofInt binary64 k)).upper (fin 1)
      (show (1 : ℝ) ∈ doubles from Round.Faithful.binary64.one_mem) (by
        rw [Round.ofInt_binary64 hk, hkN, fin_div_fin _ _ N0.ne']
        simpa [leb] using P1)
    rw [ep] at h1
    simpa [leb] using h1
  refine ⟨{ o with param := some (fin p, q) }, p, q, ?_, rfl, rfl, rfl, pd, p0, p1,
    abs_of_within hp, ?_, ?_⟩
  · unfold Round.rand_fit
    rw [hm]
    dsimp only
    rw [hif]
    unfold Round.randDiv
    rw [if_neg hk0]
    dsimp only
    rw [hq, ep]
  · -- number of edges
    have gp : Good 1.2 P (fin p) := ⟨p, pd, rfl, hp⟩
    unfold Round.rand_num_edges
    dsimp only
    cases hs : o.selfloops with
    | true =>
      rw [hs, if_pos rfl] at hcard
      rw [if_pos rfl]
      have h1 := Round.good_int (abs_sq hn)
      have e1 : (((n : ℤ) ^ 2 : ℤ) : ℝ) = N := by push_cast; exact hcard.symm
      rw [e1] at h1
      have h2 := Round.good_mul (by norm_num) (by norm_num) le_rfl (by norm_num) P0 N0.le gp h1
        (mid N (by rw [hcard]; nlinarith) (by linarith))
      rw [← hP] at h2
      obtain ⟨e, _, ee, he⟩ := h2.mono (b := 4) (by norm_num) M0
      exact ⟨e, congrArg _ ee, abs_of_within he⟩
    | false =>
      have hk1 := hpred hs
      rw [hs, if_neg (by simp)] at hcard
      rw [if_neg (by simp)]
      have h1 := Round.good_int (abs_self hn)
      have h3 := Round.good_int (abs_pred hn)
      have e1 : (((n : ℤ) : ℤ) : ℝ) = n := by push_cast; rfl
      have e3 : (((n : ℤ) - 1 : ℤ) : ℝ) = (n : ℝ) - 1 := by push_cast; rfl
      rw [e1] at h1
      rw [e3] at h3
      have h2 := Round.good_mul (by norm_num) (by norm_num) le_rfl (by norm_num) P0
        (by linarith : (0 : ℝ) ≤ n) gp h1 (mid n nR (by linarith))
      have h4 := Round.good_mul (by norm_num) (by norm_num) le_rfl (by norm_num)
        (mul_nonneg P0 (by linarith)) (by linarith) h2 h3
        (by rw [mul_assoc, ← hcard]; exact mid N (by rw [hcard]; nlinarith) (by linarith))
      rw [mul_assoc, ← hcard, ← hP] at h4
      obtain ⟨e, _, ee, he⟩ := h4.mono (b := 4) (by norm_num) M0
      exact ⟨e, congrArg _ ee, abs_of_within he⟩
  · -- degrees
    have gp : Good 1.2 P (fin p) := ⟨p, pd, rfl, hp⟩
    have h1 := Round.good_int (abs_self hn)
    have h3 := Round.good_int (abs_pred hn)
    have e1 : (((n : ℤ) : ℤ) : ℝ) = n := by push_cast; rfl
    have e3 : (((n : ℤ) - 1 : ℤ) : ℝ) = (n : ℝ) - 1 := by push_cast; rfl
    rw [e1] at h1
    rw [e3] at h3
    have hout : ∃ a, Round.rand_out_degree binary64 { o with param := some (fin p, q) }
          = .ok (fun _ => fin a) ∧
        |a - m.val / n| ≤ 3 * (2 : ℝ) ^ (-53 : ℤ) * (m.val / n) := by
      unfold Round.rand_out_degree
      dsimp only
      cases hs : o.selfloops with
      | true =>
        rw [hs, if_pos rfl] at hcard
        rw [if_pos rfl]
        have h2 := Round.good_mul (by norm_num) (by norm_num) le_rfl (by norm_num) P0
          (by linarith : (0 : ℝ) ≤ n) gp h1 (mid n nR (by linarith))
        have e : P * n = m.val / n := by rw [hP, hcard]; field_simp
        rw [e] at h2
        obtain ⟨a, _, ea, ha⟩ := h2.mono (b := 3) (by norm_num) (div_nonneg M0 (by linarith))
        exact ⟨a, by rw [ea], abs_of_within ha⟩
      | false =>
        have hk1 := hpred hs
        rw [hs, if_neg (by simp)] at hcard
        rw [if_neg (by simp)]
        have h2 := Round.good_mul (by norm_num) (by norm_num) le_rfl (by norm_num) P0
          (by linarith) gp h3 (mid _ hk1 (by linarith))
        have e : P * ((n : ℝ) - 1) = m.val / n := by rw [hP, hcard]; field_simp
        rw [e] at h2
        obtain ⟨a, _, ea, ha⟩ := h2.mono (b := 3) (by norm_num) (div_nonneg M0 (by linarith))
        exact ⟨a, by rw [ea], abs_of_within ha⟩
    have F0 : 0 ≤ 2 * P - P * P := by nlinarith
    have FP : P ≤ 2 * P - P * P := by nlinarith
    have ge := Round.good_either (a := 1.2) (by norm_num) (by norm_num) P0 P1 p1
      (hP'.imp_right fun h => le_trans (zpow_le_zpow_right₀ (by norm_num) (by norm_num)) h) hp
    have midF : MidR ((2 * P - P * P) * ((n : ℝ) - 1)) := by
      rcases hP' with h | h
      · exact .inl (by rw [h]; ring)
      · rcases Nat.lt_or_ge n 2 with h2 | h2
        · have : n = 1 := by omega
          exact .inl (by rw [this]; simp)
        · have h2' : (2 : ℝ) ≤ n := by exact_mod_cast h2
          refine mid_of ((h.trans FP).trans (le_mul_of_one_le_right F0 (by linarith))) ?_
          calc (2 * P - P * P) * ((n : ℝ) - 1) ≤ 2 * 2 ^ 26 :=
                mul_le_mul (by nlinarith) (by linarith) (by linarith) (by norm_num)
            _ ≤ _ := by norm_num
    have gd := Round.good_mul (by norm_num) (by norm_num) le_rfl (by norm_num) F0 (by linarith) ge h3
      midF
    have hdeg : ∃ r, Round.rand_degree binary64 { o with param := some (fin p, q) }
          = .ok (fun _ => fin r) ∧
        Within (9 * ulp2) ((2 * P - P * P) * ((n : ℝ) - 1) + if o.selfloops then P else 0) r := by
      unfold Round.rand_degree
      dsimp only
      have D0 : 0 ≤ (2 * P - P * P) * ((n : ℝ) - 1) := mul_nonneg F0 (by linarith)
      cases hs : o.selfloops with
      | true =>
        rw [if_pos rfl, if_pos rfl]
        have h5 := Round.good_add (by norm_num) (by norm_num) midF midP gd
          (gp.mono (by norm_num) P0)
        obtain ⟨r, _, er, hr⟩ := h5.mono (b := 9) (by norm_num) (by linarith)
        exact ⟨r, by rw [er], hr⟩
      | false =>
        rw [if_neg (by simp), if_neg (by simp), add_zero]
        obtain ⟨r, _, er, hr⟩ := gd.mono (b := 9) (by norm_num) D0
        exact ⟨r, by rw [er], hr⟩
    obtain ⟨a, ea, ha⟩ := hout
    obtain ⟨r, er, hr⟩ := hdeg
    refine ⟨_, _, _, ea, ea, er, fun i hi => ⟨a, r, rfl, rfl, rfl, ha, ?_⟩⟩
    rw [rand_mean_degree o P i hi]
    exact abs_of_within hr

example : ∃ (o : Rand.Obj) (m : Rand.Number), o.num_edges = some m ∧
    (∀ w, o.total_weight = some w → w.val ≠ 0 ∧ o.discrete_weights ≠ none) ∧
    o.num_vertices ≤ 2 ^ 26 ∧ 0 < (Law.pairs o.num_vertices o.selfloops).card ∧
    (m.val = 0 ∨ (2 : ℝ) ^ (-300 : ℤ) ≤ m.val) ∧
    m.val ≤ (Law.pairs o.num_vertices o.selfloops).card := by
  have h : (Law.pairs 3 false).card = 6 := by decide
  refine ⟨⟨3, some ⟨2, false⟩, none, none, false, none⟩, ⟨2, false⟩, rfl, by simp, by norm_num, ?_,
    .inr ?_, ?_⟩
  · show 0 < (Law.pairs 3 false).card
    rw [h]; norm_num
  · exact (zpow_le_one_of_nonpos₀ (by norm_num) (by norm_num)).trans (by norm_num)
  · show (2 : ℝ) ≤ ((Law.pairs 3 false).card : ℝ)
    rw [h]; norm_num

/-! ### Likelihood -/

private theorem mid_log {x : ℝ} (h0 : (2 : ℝ) ^ (-400 : ℤ) ≤ x) (h1 : (2 : ℝ) ^ (-400 : ℤ) ≤ 1 - x) :
    (2 : ℝ) ^ (-400 : ℤ) ≤ -Real.log x ∧ -Real.log x ≤ 400 := by
  have x0 : 0 < x := (pow_pos' _).trans_le h0
  constructor
  · have := Real.log_le_sub_one_of_pos x0
    linarith
  · have h2 := Real.log_le_log (pow_pos' _) h0
    rw [Real.log_zpow] at h2
    have h3 := Real.log_le_sub_one_of_pos (show (0 : ℝ) < 2 by norm_num)
    have h4 : ((-400 : ℤ) : ℝ) = -400 := by norm_num
    rw [h4] at h2
    linarith

/-- An integer between `0` and `2 ^ 52` times a logarithm. -/
private theorem good_log {k : ℤ} {x : ℝ} {v : XR} (hk : 0 ≤ k) (hk' : k ≤ 2 ^ 52)
    (h0 : (2 : ℝ) ^ (-400 : ℤ) ≤ x) (h1 : (2 : ℝ) ^ (-400 : ℤ) ≤ 1 - x)
    (hv : v = Round.toDouble (Real.log x)) :
    ∃ w ∈ doubles, binary64.mul (ofInt binary64 k) v = fin (-w) ∧
      MidR ((k : ℝ) * -Real.log x) ∧ Within (2.3 * ulp2) ((k : ℝ) * -Real.log x) w := by
  obtain ⟨l0, l1⟩ := mid_log h0 h1
  have kR : (0 : ℝ) ≤ k := by exact_mod_cast hk
  have kR' : (k : ℝ) ≤ 2 ^ 52 := by exact_mod_cast hk'
  have e400 : (2 : ℝ) ^ (-900 : ℤ) ≤ (2 : ℝ) ^ (-400 : ℤ) :=
    zpow_le_zpow_right₀ (by norm_num) (by norm_num)
  have e900 : (2 : ℝ) ^ 62 ≤ (2 : ℝ) ^ (900 : ℤ) := by
    rw [show (2 : ℝ) ^ 62 = (2 : ℝ) ^ (62 : ℤ) from rfl]
    exact zpow_le_zpow_right₀ (by norm_num) (by norm_num)
  have midL : MidR (-Real.log x) := .inr ⟨e400.trans l0, le_trans (by linarith) e900⟩
  have L0 : 0 ≤ -Real.log x := (pow_pos' _).le.trans l0
  have mid : MidR ((k : ℝ) * -Real.log x) := by
    rcases hk.eq_or_lt with h | h
    · exact .inl (by rw [← h]; simp)
    · have h1 : (1 : ℝ) ≤ k := by
        have : (1 : ℤ) ≤ k := h
        exact_mod_cast this
      refine .inr ⟨(e400.trans l0).trans (le_mul_of_one_le_left L0 h1), le_trans ?_ e900⟩
      calc (k : ℝ) * -Real.log x ≤ 2 ^ 52 * 400 := mul_le_mul kR' l1 L0 (by norm_num)
        _ ≤ _ := by norm_num
  have g1 := Round.good_round (c := 0) le_rfl (by norm_num) midL (Round.within_self _)
  have g2 := Round.good_int (k := k) (by rw [abs_of_nonneg hk]; linarith)
  have g3 := Round.good_mul le_rfl (by norm_num) (by norm_num) (by norm_num) kR L0 g2 g1 mid
  obtain ⟨y, yd, ey, -⟩ := g1
  obtain ⟨w, wd, ew, hw⟩ := g3.mono (b := 2.3) (by norm_num) (mul_nonneg kR L0)
  refine ⟨w, wd, ?_, mid, hw⟩
  rw [ey, Round.ofInt_binary64 (by rw [abs_of_nonneg hk]; linarith)] at ew
  rw [Round.toDouble_neg] at ey
  have : v = fin (-y) := by
    rw [hv]
    cases h : Round.toDouble (Real.log x) with
    | fin t =>
      rw [h] at ey
      have : -t = y := XR.fin.inj ey
      rw [← this, neg_neg]
    | pinf => rw [h] at ey; cases ey
    | ninf => rw [h] at ey; cases ey
    | nan => rw [h] at ey; cases ey
  rw [this, Round.ofInt_binary64 (by rw [abs_of_nonneg hk]; linarith)]
  change Round.toDouble ((k : ℝ) * y) = fin w at ew
  change Round.toDouble ((k : ℝ) * -y) = fin (-w)
  rw [mul_neg, Round.toDouble_neg, ew]
  rfl

/-- **C111**, log-likelihood of graphs with admissible links: within `4 * 2 ^ -53`, relatively, of the
logarithm of the probability of the graph. -/
theorem C111_likelihood_partial (b : Method.Backend) (o : Rand.Obj) (p : ℝ) (q : XR)
    (hp : o.param = some (fin p, q)) (p0 : (2 : ℝ) ^ (-400 : ℤ) ≤ p)
    (p1 : (2 : ℝ) ^ (-400 : ℤ) ≤ 1 - p) (hn : o.num_vertices ≤ 2 ^ 26) (g : Rand.Arg)
    (sl : Option Bool) (hg : g ≠ .other) (hs : g.shape = (o.num_vertices, o.num_vertices))
    (hc : g.Clean o.num_vertices b)
    (hsub : g.links o.num_vertices ⊆ Law.pairs o.num_vertices (sl.getD o.selfloops)) :
    let L := Real.log (Law.prob (Law.pairs o.num_vertices (sl.getD o.selfloops)) (fun _ => p)
      (g.links o.num_vertices))
    ∃ l, Round.rand_log_likelihood binary64 b o g sl = .ok (fin l) ∧
      |l - L| ≤ 4 * (2 : ℝ) ^ (-53 : ℤ) * |L| := by
  intro L
  have P0 : 0 < p := (pow_pos' _).trans_le p0
  have P1 : p < 1 := by linarith [pow_pos' (-400)]
  obtain ⟨hC, hC'⟩ := Rand.C37_partial b o p q hp P0.le P1 g sl hg hs hc (fun h => absurd h P0.ne')
  have hC' := hC' P0 hsub
  set n := o.num_vertices with hndef
  set s := sl.getD o.selfloops with hsdef
  set G := g.links n with hG
  have hL : L = (G.card : ℝ) * Real.log p + (((Law.pairs n s).card : ℝ) - G.card) * Real.log (1 - p)
      := by
    rw [hC'] at hC
    unfold Rand.graphProb at hC
    rw [if_pos hsub] at hC
    have hpos : 0 < Law.prob (Law.pairs n s) (fun _ => p) G := by
      unfold Law.prob
      refine Finset.prod_pos fun e _ => ?_
      split_ifs <;> linarith
    unfold Spec.elog at hC
    rw [if_pos hpos] at hC
    exact (XR.fin.inj (Except.ok.inj hC)).symm
  obtain ⟨adj, ha, hsh, hnnz, hdiag⟩ := Rand.adjOf_spec b n g hg hs hc
  have hdiag' : s = false → adj.diag = false := by
    intro h
    by_contra hd
    obtain ⟨i, hi, hl⟩ := hdiag.1 (by simpa using hd)
    have := hsub (Rand.mem_links.2 ⟨⟨hi, hi⟩, hl⟩)
    rw [h] at this
    simp [Law.mem_pairs] at this
  -- the number of pairs
  have hcard := Rand.card_pairs n s
  have hKN := Finset.card_le_card hsub
  obtain ⟨N, hN, hNif⟩ : ∃ N : ℤ, N = ((Law.pairs n s).card : ℤ) ∧
      (if s = true then ((n : ℤ) ^ 2 - adj.nnz) else ((n : ℤ) * ((n : ℤ) - 1) - adj.nnz))
        = N - G.card := by
    refine ⟨_, rfl, ?_⟩
    rw [hnnz]
    split_ifs at hcard ⊢ with h
    · have : ((Law.pairs n s).card : ℤ) = (n : ℤ) ^ 2 := by exact_mod_cast hcard
      rw [this]
    · have : ((Law.pairs n s).card : ℤ) = (n : ℤ) * ((n : ℤ) - 1) := by exact_mod_cast hcard
      rw [this]
  have NB : N ≤ 2 ^ 52 := by
    have nZ : (n : ℤ) ≤ 2 ^ 26 := by exact_mod_cast hn
    have nZ0 : (0 : ℤ) ≤ n := by positivity
    split_ifs at hcard with h
    · have : ((Law.pairs n s).card : ℤ) = (n : ℤ) ^ 2 := by exact_mod_cast hcard
      rw [hN, this]; nlinarith
    · have : ((Law.pairs n s).card : ℤ) = (n : ℤ) * ((n : ℤ) - 1) := by exact_mod_cast hcard
      rw [hN, this]; nlinarith
  have KN : (G.card : ℤ) ≤ N := hN ▸ Int.ofNat_le.2 hKN
  have K0 : (0 : ℤ) ≤ G.card := Int.natCast_nonneg _
  have N0 : (0 : ℝ) ≤ ((Law.pairs n s).card : ℝ) - G.card := by
    have : (G.card : ℝ) ≤ ((Law.pairs n s).card : ℝ) := by exact_mod_cast hKN
    linarith
  have lp : binary64.log (fin p) = Round.toDouble (Real.log p) := by
    show Round.roundXR (XR.log (fin p)) = _
    unfold XR.log
    dsimp only
    rw [if_pos P0]; rfl
  have lq : binary64.log1p (fin (-p)) = Round.toDouble (Real.log (1 - p)) := by
    show Round.roundXR (XR.log1p (fin (-p))) = _
    have : XR.log1p (fin (-p)) = fin (Real.log (1 - p)) := by
      unfold XR.log1p
      simp only
      rw [if_pos (by linarith), ← sub_eq_add_neg]
    rw [this]; rfl
  obtain ⟨w1, d1, e1, m1, h1⟩ := good_log K0 (KN.trans NB) p0 p1 lp
  obtain ⟨w2, d2, e2, m2, h2⟩ := good_log (k := N - G.card) (x := 1 - p)
    (by linarith) (by linarith) p1 (by linarith) lq
  have c2 : (((N - G.card : ℤ)) : ℝ) = ((Law.pairs n s).card : ℝ) - G.card := by
    rw [hN]; push_cast; rfl
  rw [c2] at m2 h2
  obtain ⟨w, _, ew, hw⟩ := Round.good_add (a := 2.3) (by norm_num) (by norm_num) m1 m2
    ⟨w1, d1, rfl, h1⟩ ⟨w2, d2, rfl, h2⟩
  have hsum : binary64.add (fin (-w1)) (fin (-w2)) = fin (-w) := by
    change Round.toDouble (w1 + w2) = fin w at ew
    change Round.toDouble (-w1 + -w2) = _
    rw [← neg_add, Round.toDouble_neg, ew]; rfl
  refine ⟨-w, ?_, ?_⟩
  · unfold Round.rand_log_likelihood
    rw [hp]
    dsimp only
    rw [ha]
    dsimp only
    rw [if_neg (not_not.2 hsh)]
    have t : (fin p).toReal = p := rfl
    rw [t, if_neg (fun h => P0.ne' h.1), if_neg (fun h => P1.ne h.1)]
    unfold Round.rand_log Round.rand_log1p
    rw [if_pos P0, if_pos (by linarith)]
    dsimp only
    rw [← hsdef, ← hndef]
    cases hss : s with
    | true =>
      rw [hss, if_pos rfl] at hNif
      rw [if_pos rfl, hNif, hnnz, e1, e2, hsum]
    | false =>
      rw [hss, if_neg (by simp)] at hNif
      rw [if_neg (by simp), hdiag' hss, if_neg (by simp), hNif, hnnz, e1, e2, hsum]
  · have hLn : (G.card : ℝ) * -Real.log p
        + (((Law.pairs n s).card : ℝ) - G.card) * -Real.log (1 - p) = -L := by rw [hL]; ring
    have hLn' : (((G.card : ℤ)) : ℝ) * -Real.log p
        + (((Law.pairs n s).card : ℝ) - G.card) * -Real.log (1 - p) = -L := by
      rw [← hLn]; push_cast; rfl
    rw [hLn'] at hw
    have L0 : 0 ≤ -L := by
      rw [← hLn]
      have a1 := Real.log_nonpos P0.le P1.le
      have a2 := Real.log_nonpos (x := 1 - p) (by linarith) (by linarith)
      exact add_nonneg (mul_nonneg (Nat.cast_nonneg _) (by linarith)) (mul_nonneg N0 (by linarith))
    have := abs_of_within (Round.within_mono (b := 4 * ulp2)
      (mul_le_mul_of_nonneg_right (by norm_num) ulp2_pos.le) L0 hw)
    rw [show -w - L = -(w - -L) by ring, abs_neg, abs_of_nonpos (by linarith : L ≤ 0)]
    exact this

example : ∃ (o : Rand.Obj) (g : Rand.Arg), o.param = some (fin (1 / 2), 0) ∧
    (2 : ℝ) ^ (-400 : ℤ) ≤ 1 / 2 ∧ (2 : ℝ) ^ (-400 : ℤ) ≤ 1 - 1 / 2 ∧ o.num_vertices ≤ 2 ^ 26 ∧
    g ≠ .other ∧ g.shape = (o.num_vertices, o.num_vertices) ∧ g.Clean o.num_vertices .sparse ∧
    g.links o.num_vertices ⊆ Law.pairs o.num_vertices ((none : Option Bool).getD o.selfloops) := by
  have h : (2 : ℝ) ^ (-400 : ℤ) ≤ 1 / 2 := by
    have : (1 / 2 : ℝ) = (2 : ℝ) ^ (-1 : ℤ) := by norm_num
    rw [this]
    exact zpow_le_zpow_right₀ (by norm_num) (by norm_num)
  refine ⟨⟨3, none, none, none, false, some (fin (1 / 2), 0)⟩, .graph 3 {(0, 1), (2, 0)}, rfl, h,
    by norm_num at h ⊢; exact h, by norm_num, by simp, rfl, trivial, ?_⟩
  rintro ⟨i, j⟩ he
  obtain ⟨⟨hi, hj⟩, hl⟩ := Rand.mem_links.1 he
  simp only [Rand.Arg.IsLink, Finset.mem_insert, Finset.mem_singleton, Prod.mk.injEq] at hl
  refine Law.mem_pairs.2 ⟨hi, hj, ?_⟩
  rcases hl with ⟨rfl, rfl⟩ | ⟨rfl, rfl⟩ <;> simp

/-- **C111**, log-likelihood: rounding changes neither the exceptions nor the results `-inf` of the
function without rounding. -/
theorem C111_likelihood_branches (b : Method.Backend) (o : Rand.Obj) (g : Rand.Arg)
    (sl : Option Bool) :
    (∀ e, Round.rand_log_likelihood binary64 b o g sl = .error e ↔
      Rand.log_likelihood b o g sl = .error e) ∧
    (Rand.log_likelihood b o g sl = .ok ninf →
      Round.rand_log_likelihood binary64 b o g sl = .ok ninf) := by
  unfold Round.rand_log_likelihood Rand.log_likelihood
  cases o.param with
  | none => exact ⟨fun _ => Iff.rfl, fun h => h⟩
  | some pq =>
    obtain ⟨p, q⟩ := pq
    dsimp only
    cases Rand.adjOf b g with
    | error e => exact ⟨fun _ => Iff.rfl, fun h => h⟩
    | ok adj =>
      dsimp only
      unfold Round.rand_log Round.rand_log1p Rand.log Rand.log1p
      split_ifs <;> simp

/-! ### Nearest-neighbour averages -/

private theorem sum_small {n : ℕ} (hn : n ≤ 2 ^ 25) {g : ℕ → ℝ} (hg : ∀ i < n, Round.Small (g i)) :
    0 ≤ ∑ j ∈ range n, g j ∧ (∑ j ∈ range n, g j) ≤ (2 : ℝ) ^ (425 : ℤ) ∧
      ((∑ j ∈ range n, g j) = 0 ∨ (2 : ℝ) ^ (-400 : ℤ) ≤ ∑ j ∈ range n, g j) := by
  have h0 : ∀ j ∈ range n, 0 ≤ g j := fun j hj => (hg j (mem_range.1 hj)).nonneg
  refine ⟨Finset.sum_nonneg h0, ?_, ?_⟩
  · have h1 := Finset.sum_le_card_nsmul (range n) g ((2 : ℝ) ^ (400 : ℤ))
      (fun j hj => (hg j (mem_range.1 hj)).le)
    rw [card_range, nsmul_eq_mul] at h1
    refine h1.trans ?_
    rw [show (425 : ℤ) = 25 + 400 by norm_num, zpow_add₀ (by norm_num)]
    exact mul_le_mul_of_nonneg_right (by
      rw [show (2 : ℝ) ^ (25 : ℤ) = ((2 ^ 25 : ℕ) : ℝ) by norm_num]; exact_mod_cast hn) (pow_pos' _).le
  · by_cases h : ∀ j ∈ range n, g j = 0
    · exact .inl (Finset.sum_eq_zero h)
    · push Not at h
      obtain ⟨j, hj, hne⟩ := h
      refine .inr (le_trans ?_ (Finset.single_le_sum h0 hj))
      rcases hg j (mem_range.1 hj) with h | h
      · exact absurd h hne
      · exact h.1

private theorem degree_good {c : ℝ} (cd : c ∈ doubles) (c1 : (2 : ℝ) ^ (-401 : ℤ) ≤ c) (c2 : c ≤ 2)
    {k : ℤ} (hk : 1 ≤ k) (hk' : k ≤ 2 ^ 25) :
    Good 1.2 (c * (k : ℝ)) (binary64.mul (fin c) (ofInt binary64 k)) := by
  have kR : (1 : ℝ) ≤ k := by exact_mod_cast hk
  have kR' : (k : ℝ) ≤ 2 ^ 25 := by exact_mod_cast hk'
  have c0 : 0 ≤ c := (pow_pos' _).le.trans c1
  have := Round.good_mul (a := 0) (b := 0) (X := c) (Y := k) le_rfl (by norm_num) le_rfl (by norm_num)
    c0 (by linarith) ⟨c, cd, rfl, Round.within_self c⟩
    (Round.good_int (by rw [abs_of_nonneg (by linarith)]; linarith)) (.inr ⟨?_, ?_⟩)
  · simpa using this
  · refine le_trans ?_ (le_mul_of_one_le_right c0 kR)
    exact (zpow_le_zpow_right₀ (by norm_num) (by norm_num)).trans c1
  · have h1 : c * k ≤ 2 * 2 ^ 25 := mul_le_mul c2 kR' (by linarith) (by norm_num)
    refine h1.trans ?_
    rw [show (2 : ℝ) * 2 ^ 25 = (2 : ℝ) ^ (26 : ℤ) by norm_num]
    exact zpow_le_zpow_right₀ (by norm_num) (by norm_num)

private theorem core_other {n : ℕ} (n2 : 2 ≤ n) (hn : n ≤ 2 ^ 25) {t : Round.Order} (ht : t.Covers n)
    {c : ℝ} (cd : c ∈ doubles) (c1 : (2 : ℝ) ^ (-401 : ℤ) ≤ c) (c2 : c ≤ 2) {g : ℕ → ℝ}
    (hg : ∀ i < n, Round.Small (g i)) :
    (binary64.mul (fin c) (ofInt binary64 ((n : ℤ) - 1))).isZero = false ∧
    ∀ i < n, ∃ r, binary64.div (binary64.add
        (t.sum binary64 (fun j => binary64.mul (fin c) (fin (g j))))
        (binary64.mul (-fin c) (fin (g i)))) (binary64.mul (fin c) (ofInt binary64 ((n : ℤ) - 1)))
          = fin r ∧
      |r - (∑ j ∈ (range n).erase i, g j) / ((n : ℝ) - 1)|
        ≤ (2 * n + 10) * (2 : ℝ) ^ (-53 : ℤ) * ((∑ j ∈ range n, g j) / ((n : ℝ) - 1)) := by
  have c0 : 0 < c := (pow_pos' _).trans_le c1
  have n2Z : (2 : ℤ) ≤ n := by exact_mod_cast n2
  have hnZ : (n : ℤ) ≤ 2 ^ 25 := by exact_mod_cast hn
  have hD := degree_good cd c1 c2 (k := (n : ℤ) - 1) (by linarith) (by linarith)
  have eD : (((n : ℤ) - 1 : ℤ) : ℝ) = (n : ℝ) - 1 := by push_cast; rfl
  rw [eD] at hD
  obtain ⟨T, Td, eT, hT, hx⟩ := Round.total_acc hn ht c1 c2 g hg
  obtain ⟨S0, SB, hS⟩ := sum_small hn hg
  have main : ∀ i < n, ∃ r, binary64.div (binary64.add
        (t.sum binary64 (fun j => binary64.mul (fin c) (fin (g j))))
        (binary64.mul (-fin c) (fin (g i)))) (binary64.mul (fin c) (ofInt binary64 ((n : ℤ) - 1)))
          = fin r ∧ (binary64.mul (fin c) (ofInt binary64 ((n : ℤ) - 1))).isZero = false ∧
      |r - (∑ j ∈ (range n).erase i, g j) / ((n : ℝ) - 1)|
        ≤ (2 * n + 10) * (2 : ℝ) ^ (-53 : ℤ) * ((∑ j ∈ range n, g j) / ((n : ℝ) - 1)) := by
    intro i hi
    obtain ⟨x, xd, ex, hxi, xT⟩ := hx i hi
    have hsplit := Finset.sum_erase_add (range n) g (mem_range.2 hi)
    have gi := (hg i hi).nonneg
    have gS : g i ≤ ∑ j ∈ range n, g j :=
      Finset.single_le_sum (fun j hj => (hg j (mem_range.1 hj)).nonneg) (mem_range.2 hi)
    have e425 : (2 : ℝ) ^ (425 : ℤ) ≤ (2 : ℝ) ^ (500 : ℤ) :=
      zpow_le_zpow_right₀ (by norm_num) (by norm_num)
    have b1 : c * ∑ j ∈ range n, g j ≤ (2 : ℝ) ^ (500 : ℤ) := by
      calc c * ∑ j ∈ range n, g j ≤ (2 : ℝ) ^ (1 : ℤ) * (2 : ℝ) ^ (425 : ℤ) :=
            mul_le_mul (by simpa using c2) SB S0 (pow_pos' _).le
        _ ≤ _ := by
          rw [← zpow_add₀ (by norm_num)]
          exact zpow_le_zpow_right₀ (by norm_num) (by norm_num)
    obtain ⟨r, h1, h2, h3⟩ := Round.avg_other n2 hn c0 Td xd gi gS b1 (SB.trans e425)
      (hS.imp_right fun h => le_trans (zpow_le_zpow_right₀ (by norm_num) (by norm_num)) h) hT hxi xT hD
    refine ⟨r, ?_, h2, ?_⟩
    · rw [eT, Round.mul_neg_left, ex]
      exact h1
    · rw [show (∑ j ∈ (range n).erase i, g j) = (∑ j ∈ range n, g j) - g i by linarith]
      exact h3
  refine ⟨(main 0 (by omega)).choose_spec.2.1, fun i hi => ?_⟩
  obtain ⟨r, h1, _, h3⟩ := main i hi
  exact ⟨r, h1, h3⟩

/-- **C111**, nearest-neighbour averages without self-loops, in any order of the sums: within
`(2 n + 10) * 2 ^ -53` of the average over the other vertices, in units of the sum over all vertices
divided by `n - 1`. -/
theorem C111_average_partial (t : Round.Order) (o : Rand.Obj) (p : ℝ) (q : XR)
    (hp : o.param = some (fin p, q)) (pd : p ∈ doubles) (p0 : (2 : ℝ) ^ (-400 : ℤ) ≤ p) (p1 : p ≤ 1)
    (n2 : 2 ≤ o.num_vertices) (hn : o.num_vertices ≤ 2 ^ 25) (ht : t.Covers o.num_vertices)
    (sl : Option Bool) (hs : sl.getD o.selfloops = false) (ndir : Dir)
    (hd : ndir = .out ∨ ndir = .inn ∨ ndir = .outIn) (g : ℕ → ℝ)
    (hg : ∀ i < o.num_vertices, Round.ZeroOrMid (g i)) :
    ∃ r : ℕ → XR, Round.rand_av_nn binary64 t o o.num_vertices (fun j => fin (g j)) ndir sl = .ok r ∧
      ∀ i < o.num_vertices, ∃ v, r i = fin v ∧
        |v - (∑ j ∈ (range o.num_vertices).erase i, g j) / ((o.num_vertices : ℝ) - 1)|
          ≤ (2 * o.num_vertices + 10) * (2 : ℝ) ^ (-53 : ℤ) *
            ((∑ j ∈ range o.num_vertices, g j) / ((o.num_vertices : ℝ) - 1)) := by
  have hs1 : (Rand.withLoops o sl).selfloops = false := by cases sl <;> exact hs
  have hs2 : (Rand.withLoops o sl).num_vertices = o.num_vertices := by cases sl <;> rfl
  have hs3 : (Rand.withLoops o sl).param = o.param := by cases sl <;> rfl
  have P0 : 0 ≤ p := (pow_pos' _).le.trans p0
  -- the factor of the properties
  obtain ⟨c, cd, c1, c2, hdeg, hsum⟩ : ∃ c ∈ doubles, (2 : ℝ) ^ (-401 : ℤ) ≤ c ∧ c ≤ 2 ∧
      Round.rand_avDeg binary64 (Rand.withLoops o sl) ndir
        = .ok (fun _ => binary64.mul (fin c) (ofInt binary64 ((o.num_vertices : ℤ) - 1))) ∧
      Round.rand_avSum binary64 t (Rand.withLoops o sl) (fin p) (fun j => fin (g j)) ndir
        = .ok (fun i => binary64.add (t.sum binary64 (fun j => binary64.mul (fin c) (fin (g j))))
          (binary64.mul (-fin c) (fin (g i)))) := by
    have e401 : (2 : ℝ) ^ (-401 : ℤ) ≤ (2 : ℝ) ^ (-400 : ℤ) :=
      zpow_le_zpow_right₀ (by norm_num) (by norm_num)
    have hout : Round.rand_out_degree binary64 (Rand.withLoops o sl)
        = .ok (fun _ => binary64.mul (fin p) (ofInt binary64 ((o.num_vertices : ℤ) - 1))) := by
      unfold Round.rand_out_degree
      rw [hs3, hp, hs1, hs2]
      rfl
    rcases hd with rfl | rfl | rfl
    · refine ⟨p, pd, e401.trans p0, by linarith, hout, ?_⟩
      unfold Round.rand_avSum; rw [hs1]; rfl
    · refine ⟨p, pd, e401.trans p0, by linarith, hout, ?_⟩
      unfold Round.rand_avSum; rw [hs1]; rfl
    · obtain ⟨c, cd, ec, hc⟩ := Round.good_either (a := 0) le_rfl (by norm_num) P0 p1 p1 (.inr p0)
        (Round.within_self p)
      have hu := ulp2_small
      have F1 : p ≤ 2 * p - p * p := by nlinarith
      have F2 : 2 * p - p * p ≤ 1 := by nlinarith [sq_nonneg (1 - p)]
      refine ⟨c, cd, ?_, ?_, ?_, ?_⟩
      · have h1 : (2 : ℝ) ^ (-401 : ℤ) = (2 : ℝ) ^ (-400 : ℤ) / 2 := by
          rw [show (-401 : ℤ) = -400 - 1 by norm_num, zpow_sub₀ (by norm_num), zpow_one]
        rw [h1]
        have := hc.1
        generalize (2 : ℝ) ^ (-400 : ℤ) = z at *
        nlinarith
      · have := hc.2
        nlinarith
      · unfold Round.rand_avDeg Round.rand_degree
        dsimp only
        rw [hs3, hp, hs1, hs2]
        dsimp only
        rw [ec]; rfl
      · unfold Round.rand_avSum
        dsimp only
        rw [hs1, ec]; rfl
  obtain ⟨hz, hall⟩ := core_other n2 hn ht cd c1 c2 hg
  refine ⟨fun i => binary64.div (binary64.add
        (t.sum binary64 (fun j => binary64.mul (fin c) (fin (g j))))
        (binary64.mul (-fin c) (fin (g i))))
          (binary64.mul (fin c) (ofInt binary64 ((o.num_vertices : ℤ) - 1))), ?_, hall⟩
  unfold Round.rand_av_nn
  rw [hp]
  dsimp only
  rw [if_neg (not_not.2 rfl), hdeg, hsum]
  dsimp only
  rw [if_pos (by rw [List.all_eq_true]; intro i _; rw [hz]; rfl)]
  simp only [hz, Bool.false_eq_true, if_false]

/-- **C111**, nearest-neighbour averages with self-loops: within `(2 n + 5) * 2 ^ -53`, relatively, of
the average over all vertices. -/
theorem C111_average_loops_partial (t : Round.Order) (o : Rand.Obj) (p : ℝ) (q : XR)
    (hp : o.param = some (fin p, q)) (pd : p ∈ doubles) (p0 : (2 : ℝ) ^ (-400 : ℤ) ≤ p) (p1 : p ≤ 1)
    (n1 : 1 ≤ o.num_vertices) (hn : o.num_vertices ≤ 2 ^ 25) (ht : t.Covers o.num_vertices)
    (sl : Option Bool) (hs : sl.getD o.selfloops = true) (ndir : Dir)
    (hd : ndir = .out ∨ ndir = .inn) (g : ℕ → ℝ)
    (hg : ∀ i < o.num_vertices, Round.ZeroOrMid (g i)) :
    ∃ r : ℕ → XR, Round.rand_av_nn binary64 t o o.num_vertices (fun j => fin (g j)) ndir sl = .ok r ∧
      ∀ i < o.num_vertices, ∃ v, r i = fin v ∧
        |v - (∑ j ∈ range o.num_vertices, g j) / o.num_vertices|
          ≤ (2 * o.num_vertices + 5) * (2 : ℝ) ^ (-53 : ℤ) *
            ((∑ j ∈ range o.num_vertices, g j) / o.num_vertices) := by
  have hs1 : (Rand.withLoops o sl).selfloops = true := by cases sl <;> exact hs
  have hs2 : (Rand.withLoops o sl).num_vertices = o.num_vertices := by cases sl <;> rfl
  have hs3 : (Rand.withLoops o sl).param = o.param := by cases sl <;> rfl
  have P0 : 0 < p := (pow_pos' _).trans_le p0
  have e401 : (2 : ℝ) ^ (-401 : ℤ) ≤ (2 : ℝ) ^ (-400 : ℤ) :=
    zpow_le_zpow_right₀ (by norm_num) (by norm_num)
  have hout : Round.rand_out_degree binary64 (Rand.withLoops o sl)
      = .ok (fun _ => binary64.mul (fin p) (ofInt binary64 (o.num_vertices : ℤ))) := by
    unfold Round.rand_out_degree
    rw [hs3, hp, hs1, hs2]
    rfl
  have hdeg : Round.rand_avDeg binary64 (Rand.withLoops o sl) ndir
      = .ok (fun _ => binary64.mul (fin p) (ofInt binary64 (o.num_vertices : ℤ))) := by
    rcases hd with rfl | rfl <;> exact hout
  have hsum : Round.rand_avSum binary64 t (Rand.withLoops o sl) (fin p) (fun j => fin (g j)) ndir
      = .ok (fun _ => t.sum binary64 (fun j => binary64.mul (fin p) (fin (g j)))) := by
    rcases hd with rfl | rfl <;> (unfold Round.rand_avSum; rw [hs1]; rfl)
  have hD := degree_good pd (e401.trans p0) (by linarith) (k := (o.num_vertices : ℤ))
    (by exact_mod_cast n1) (by exact_mod_cast hn)
  rw [show (((o.num_vertices : ℤ)) : ℝ) = (o.num_vertices : ℝ) from Int.cast_natCast _] at hD
  obtain ⟨T, Td, eT, hT, -⟩ := Round.total_acc hn ht (e401.trans p0) (by linarith) g hg
  obtain ⟨S0, SB, hS⟩ := sum_small hn hg
  have n1R : (1 : ℝ) ≤ o.num_vertices := by exact_mod_cast n1
  have hnR : (o.num_vertices : ℝ) ≤ (2 : ℝ) ^ (25 : ℤ) := by
    rw [show (2 : ℝ) ^ (25 : ℤ) = ((2 ^ 25 : ℕ) : ℝ) by norm_num]; exact_mod_cast hn
  have mid : MidR ((∑ j ∈ range o.num_vertices, g j) / o.num_vertices) := by
    rcases hS with h | h
    · exact .inl (by rw [h, zero_div])
    · refine .inr ⟨?_, ?_⟩
      · have := div_le_div₀ S0 h (by linarith) hnR
        rw [← zpow_sub₀ (by norm_num)] at this
        exact (zpow_le_zpow_right₀ (by norm_num) (by norm_num)).trans this
      · exact ((div_le_self S0 n1R).trans SB).trans
          (zpow_le_zpow_right₀ (by norm_num) (by norm_num))
  obtain ⟨r, h1, hz, h2⟩ := Round.avg_loops n1 hn P0 mid S0 hT hD
  refine ⟨fun _ => fin r, ?_, fun i _ => ⟨r, rfl, h2⟩⟩
  unfold Round.rand_av_nn
  rw [hp]
  dsimp only
  rw [if_neg (not_not.2 rfl), hdeg, hsum]
  dsimp only
  rw [if_pos (by rw [List.all_eq_true]; intro i _; rw [hz]; rfl)]
  simp only [hz, eT, Bool.false_eq_true, if_false, h1]

example : ∃ (t : Round.Order) (o : Rand.Obj) (g : ℕ → ℝ), o.param = some (fin 1, 0) ∧
    (1 : ℝ) ∈ doubles ∧ (2 : ℝ) ^ (-400 : ℤ) ≤ 1 ∧ 2 ≤ o.num_vertices ∧ o.num_vertices ≤ 2 ^ 25 ∧
    t.Covers o.num_vertices ∧ (none : Option Bool).getD o.selfloops = false ∧
    (some true).getD o.selfloops = true ∧ g 1 = 1 ∧
    ∀ i < o.num_vertices, Round.ZeroOrMid (g i) := by
  have h : (2 : ℝ) ^ (-400 : ℤ) ≤ 1 := zpow_le_one_of_nonpos₀ (by norm_num) (by norm_num)
  have h' : (1 : ℝ) ≤ (2 : ℝ) ^ (400 : ℤ) := one_le_zpow₀ (by norm_num) (by norm_num)
  exact ⟨.node (.leaf 2) (.node (.leaf 0) (.leaf 1)), ⟨3, none, none, none, false, some (fin 1, 0)⟩,
    fun i => if i = 0 then 0 else 1, rfl, Round.Faithful.binary64.one_mem, h, by norm_num,
    by norm_num, show List.Perm [2, 0, 1] (List.range 3) by decide, rfl, rfl, rfl, fun i _ => by
      show Round.ZeroOrMid (if i = 0 then 0 else 1)
      split_ifs
      · exact .inl rfl
      · exact .inr ⟨h, h'⟩⟩

/-- Without self-loops the property of the vertex itself is subtracted from the sum over all vertices,
so the error of the average is not small compared with the average: for two vertices with properties
`2 ^ -59` and `2` the average over the neighbours of the second, `2 ^ -59`, is computed as zero,
whatever the order of the sum. -/
theorem C111_average_violated (t : Round.Order) (ht : t.Covers 2) (o : Rand.Obj)
    (hn : o.num_vertices = 2) (hs : o.selfloops = false) {q : XR} (hp : o.param = some (fin (1 / 2), q))
    (g : ℕ → ℝ) (h0 : g 0 = (2 : ℝ) ^ (-59 : ℤ)) (h1 : g 1 = 2) :
    ∃ r r' : ℕ → XR, Round.rand_av_nn binary64 t o 2 (fun j => fin (g j)) .out none = .ok r ∧
      (Rand.expected_av_nn_property o 2 (fun j => fin (g j)) .out none).2 = .ok r' ∧
      r 1 = 0 ∧ r' 1 = fin ((2 : ℝ) ^ (-59 : ℤ)) := by
  have hone : (1 : ℝ) ∈ doubles := Round.Faithful.binary64.one_mem
  have half : (1 / 2 : ℝ) ∈ doubles := by
    have := Round.pow_mem (k := -1) (by norm_num) (by norm_num)
    simpa using this
  have m60 : (2 : ℝ) ^ (-60 : ℤ) ∈ doubles := Round.pow_mem (by norm_num) (by norm_num)
  have a0 : binary64.mul (fin (1 / 2)) (fin (g 0)) = fin ((2 : ℝ) ^ (-60 : ℤ)) := by
    show Round.toDouble (1 / 2 * g 0) = _
    rw [h0, show (1 / 2 : ℝ) * (2 : ℝ) ^ (-59 : ℤ) = (2 : ℝ) ^ (-60 : ℤ) by norm_num]
    exact Round.toDouble_self m60
  have a1 : binary64.mul (fin (1 / 2)) (fin (g 1)) = fin 1 := by
    show Round.toDouble (1 / 2 * g 1) = _
    rw [h1, show (1 / 2 : ℝ) * 2 = 1 by norm_num]
    exact Round.toDouble_self hone
  have round1 : Round.toDouble (1 + (2 : ℝ) ^ (-60 : ℤ)) = fin 1 := by
    have hr : Round.rnd (1 + (2 : ℝ) ^ (-60 : ℤ)) = 1 :=
      le_antisymm (Round.rnd_le_one (by norm_num)) (Round.le_rnd hone (by norm_num))
    have : Round.toDouble 1 = fin 1 := Round.toDouble_self hone
    have hr1 : Round.rnd 1 = 1 := le_antisymm (Round.rnd_le hone le_rfl) (Round.le_rnd hone le_rfl)
    rw [← this]
    unfold Round.toDouble
    rw [hr, hr1]
  have hsum : t.sum binary64 (fun j => binary64.mul (fin (1 / 2)) (fin (g j))) = fin 1 := by
    have len : ∀ l : Round.Order, 1 ≤ l.leaves.length := by
      intro l
      induction l with
      | leaf i => simp [Round.Order.leaves]
      | node l r hl hr => simp only [Round.Order.leaves, List.length_append]; omega
    have hlen : t.leaves.length = 2 := by
      have := ht.length_eq
      simpa using this
    have hmem : ∀ i, i ∈ t.leaves ↔ i < 2 := fun i => (ht.mem_iff).trans List.mem_range
    have hnd : t.leaves.Nodup := (ht.nodup_iff).2 List.nodup_range
    cases t with
    | leaf i => simp [Round.Order.leaves] at hlen
    | node l r =>
      simp only [Round.Order.leaves, List.length_append] at hlen
      cases l with
      | node l1 l2 =>
        simp only [Round.Order.leaves, List.length_append] at hlen
        have := len l1; have := len l2; have := len r; omega
      | leaf i =>
        cases r with
        | node r1 r2 =>
          simp only [Round.Order.leaves, List.length_append, List.length_singleton] at hlen
          have := len r1; have := len r2; omega
        | leaf j =>
          have hi : i < 2 := (hmem i).1 (by simp [Round.Order.leaves])
          have hj : j < 2 := (hmem j).1 (by simp [Round.Order.leaves])
          have hij : i ≠ j := by simpa [Round.Order.leaves] using hnd
          simp only [Round.Order.sum]
          have hc : (i = 0 ∧ j = 1) ∨ (i = 1 ∧ j = 0) := by omega
          rcases hc with ⟨rfl, rfl⟩ | ⟨rfl, rfl⟩
          · rw [a0, a1]
            show Round.toDouble ((2 : ℝ) ^ (-60 : ℤ) + 1) = _
            rw [add_comm, round1]
          · rw [a0, a1]
            exact round1
  have hD : binary64.mul (fin (1 / 2)) (ofInt binary64 ((2 : ℤ) - 1)) = fin (1 / 2) := by
    rw [Round.ofInt_binary64 (by norm_num)]
    show Round.toDouble (1 / 2 * ((2 - 1 : ℤ) : ℝ)) = _
    rw [show (1 / 2 : ℝ) * ((2 - 1 : ℤ) : ℝ) = 1 / 2 by norm_num]
    exact Round.toDouble_self half
  have zero : Round.toDouble 0 = fin 0 := Round.toDouble_self Round.Faithful.binary64.zero_mem
  have n1 : binary64.mul (-fin (1 / 2)) (fin (g 1)) = fin (-1) := by
    rw [Round.mul_neg_left, a1]; rfl
  obtain ⟨n, m, w, dw, s, par⟩ := o
  subst hn hs hp
  have hz : (fin (1 / 2 : ℝ)).isZero = false := by
    rw [isZero_fin]; norm_num
  refine ⟨fun i => binary64.div (binary64.add
      (t.sum binary64 (fun j => binary64.mul (fin (1 / 2)) (fin (g j))))
      (binary64.mul (-fin (1 / 2)) (fin (g i)))) (fin (1 / 2)), fun i => fin ((g 0 + g 1 - g i)), ?_, ?_,
      ?_, ?_⟩
  · unfold Round.rand_av_nn Round.rand_avDeg Round.rand_out_degree Round.rand_avSum Rand.withLoops
    simp only [ne_eq, not_true_eq_false, if_false, Bool.false_eq_true, Nat.cast_ofNat, hD, hz,
      Bool.not_false, Bool.true_or]
    rw [if_pos (by simp)]
  · have hd : fin (1 / 2 : ℝ) * fin (((2 : ℕ) : ℝ) - 1) = fin (1 / 2) := by
      rw [fin_mul_fin]; norm_num
    have ha : ∀ i, fin (1 / 2 : ℝ) * fin (g 0) + (fin (1 / 2 : ℝ) * fin (g 1) + 0)
        + -fin (1 / 2 : ℝ) * fin (g i) = fin ((g 0 + g 1 - g i) / 2) := by
      intro i
      show fin _ = fin _
      congr 1; ring
    unfold Rand.expected_av_nn_property Rand.avDeg Rand.expected_out_degree Rand.avSum Rand.withLoops
    simp only [ne_eq, not_true_eq_false, if_false, Bool.false_eq_true, hd, hz, Bool.not_false,
      Bool.true_or]
    rw [if_pos (by simp)]
    have hr : List.range 2 = [0, 1] := rfl
    simp only [hr, List.map_cons, List.map_nil, List.sum_cons, List.sum_nil, ha]
    congr 1
    funext i
    rw [fin_div_fin _ _ (by norm_num)]
    congr 1; ring
  · dsimp only
    rw [hsum, n1]
    show binary64.div (Round.toDouble (1 + -1)) _ = fin 0
    rw [add_neg_cancel, zero]
    show Round.roundXR (fin 0 / fin (1 / 2)) = _
    rw [fin_div_fin _ _ (by norm_num), zero_div]
    exact zero
  · dsimp only
    rw [add_sub_cancel_right, h0]

example : ∃ (t : Round.Order) (o : Rand.Obj) (g : ℕ → ℝ), t.Covers 2 ∧ o.num_vertices = 2 ∧
    o.selfloops = false ∧ o.param = some (fin (1 / 2), 0) ∧ g 0 = (2 : ℝ) ^ (-59 : ℤ) ∧ g 1 = 2 :=
  ⟨.node (.leaf 0) (.leaf 1), ⟨2, none, none, none, false, some (fin (1 / 2), 0)⟩,
    fun i => if i = 0 then (2 : ℝ) ^ (-59 : ℤ) else 2, List.Perm.refl _, rfl, rfl, rfl, by simp, by simp⟩

/-! ### Sampling -/

section

variable {ι γ κ : Type} [DecidableEq ι]

/-- **C111**, samples drawn with random numbers of 53 bits: the mean of every quantity is that over
random graphs whose link probability is the fitted one rounded up to a multiple of `2 ^ -53`; the mean
number of links exceeds the fitted probability times the number of pairs by at most `2 ^ -53` per
pair. -/
theorem C111_sample_partial (b : Graph.Backend) (o : Rand.Obj) (hn : o.num_vertices < 2 ^ 64) {p : ℝ}
    {q : XR} (hp : o.param = some (fin p, q)) (p0 : 0 ≤ p) (p1 : p ≤ 1)
    (ref : Option (Sampled.Ref ι γ κ)) (sl : Option Bool) (v w : ℕ → ℕ → ℝ)
    {Ω : Type} [MeasurableSpace Ω] (P : Measure Ω) [IsProbabilityMeasure P] (U : ℕ → Ω → ℝ)
    (hU : IsGrid P U) :
    ∃ (g : Ω → Sampled.Obj ι γ Sampled.Adj) (X : Ω → Finset (ℕ × ℕ)),
      (∀ ω, Rand.sampleGraph b o ref .none sl (fun m => U m ω) v w = .ok (g ω) ∧
        (g ω).num_vertices = o.num_vertices ∧ X ω ⊆ Law.pairs o.num_vertices o.selfloops ∧
        (g ω).adj.Links (X ω : Set (ℕ × ℕ))) ∧
      (∀ f : Finset (ℕ × ℕ) → ℝ, Integrable (fun ω => f (X ω)) P ∧
        ∫ ω, f (X ω) ∂P
          = Rand.mean o.num_vertices o.selfloops ((⌈p * 2 ^ 53⌉₊ : ℝ) / 2 ^ 53) f) ∧
      0 ≤ ∫ ω, ((X ω).card : ℝ) ∂P - p * (Law.pairs o.num_vertices o.selfloops).card ∧
      ∫ ω, ((X ω).card : ℝ) ∂P - p * (Law.pairs o.num_vertices o.selfloops).card
        ≤ (2 : ℝ) ^ (-53 : ℤ) * (Law.pairs o.num_vertices o.selfloops).card := by
  obtain ⟨pos, hpos, -, h⟩ := Rand.C83_object_partial b o hn hp ref sl
  choose g k1 k2 _ _ _ _ k7 using fun ω => h (fun m => U m ω) v w
  classical
  set S := Law.pairs o.num_vertices o.selfloops with hS
  have hmean : ∀ f : Finset (ℕ × ℕ) → ℝ,
      Integrable (fun ω => f (S.filter (fun e => U (pos e) ω < p))) P ∧
      ∫ ω, f (S.filter (fun e => U (pos e) ω < p)) ∂P = Law.mean S (fun _ => roundUp p) f := by
    refine fun f => integral_of_law (fun _ _ => roundUp_mem p1)
      (X := fun ω => S.filter (fun e => U (pos e) ω < p)) (fun ω => Finset.filter_subset _ _)
      (fun e he => ?_) (fun G hG => ?_) f
    · have : {ω | e ∈ S.filter (fun e => U (pos e) ω < p)} = U (pos e) ⁻¹' Set.Iio p := by
        ext ω
        exact Finset.mem_filter.trans ⟨fun h => h.2, fun h => ⟨he, h⟩⟩
      rw [this]
      exact hU.meas _ measurableSet_Iio
    · have hinj : Function.Injective (fun e : {e // e ∈ S} => pos e.1) :=
        fun a b hab => Subtype.ext (hpos a.2 b.2 hab)
      have hbox := (hU.precomp hinj).measure_box Finset.univ (fun _ => p) (fun _ _ => p1)
        (fun e => e.1 ∈ G)
      have hset : {ω | S.filter (fun e => U (pos e) ω < p) = G}
          = {ω | ∀ e ∈ (Finset.univ : Finset {e // e ∈ S}), U (pos e.1) ω < p ↔ e.1 ∈ G} := by
        ext ω
        constructor
        · intro h e _
          have h' : S.filter (fun e => U (pos e) ω < p) = G := h
          rw [← h', Finset.mem_filter]
          exact ⟨fun h => ⟨e.2, h⟩, fun h => h.2⟩
        · intro h
          show S.filter (fun e => U (pos e) ω < p) = G
          ext e
          rw [Finset.mem_filter]
          exact ⟨fun he => (h ⟨e, he.1⟩ (Finset.mem_univ _)).1 he.2,
            fun he => ⟨hG he, (h ⟨e, hG he⟩ (Finset.mem_univ _)).2 he⟩⟩
      rw [hset, hbox]
      congr 1
      unfold Law.prob
      exact Finset.prod_attach S (fun e => if e ∈ G then roundUp p else 1 - roundUp p)
  have hcardmean : ∫ ω, ((S.filter (fun e => U (pos e) ω < p)).card : ℝ) ∂P = S.card * roundUp p := by
    rw [(hmean (fun G => (G.card : ℝ))).2, Law.mean_card, Finset.sum_const, nsmul_eq_mul]
  refine ⟨g, fun ω => S.filter (fun e => U (pos e) ω < p),
    fun ω => ⟨k1 ω, k2 ω, Finset.filter_subset _ _, ?_⟩, hmean, ?_, ?_⟩
  · have := k7 ω
    convert this using 1
    ext e
    simp [hS]
  · rw [hcardmean]
    have := mul_le_mul_of_nonneg_left (le_roundUp p) (Nat.cast_nonneg (α := ℝ) S.card)
    linarith
  · rw [hcardmean]
    have h2 := (roundUp_lt p0).le
    rw [show (1 : ℝ) / 2 ^ 53 = (2 : ℝ) ^ (-53 : ℤ) by norm_num] at h2
    have := mul_le_mul_of_nonneg_left h2 (Nat.cast_nonneg (α := ℝ) S.card)
    linarith

example : ∃ (Ω : Type) (_ : MeasurableSpace Ω) (P : Measure Ω) (_ : IsProbabilityMeasure P)
    (U : ℕ → Ω → ℝ) (o : Rand.Obj), IsGrid P U ∧ o.num_vertices < 2 ^ 64 ∧
    o.param = some (fin (1 / 3), 0) := by
  obtain ⟨Ω, i1, P, i2, U, hU⟩ := exists_isGrid ℕ
  exact ⟨Ω, i1, P, i2, U, ⟨3, none, none, none, true, some (fin (1 / 3), 0)⟩, hU, by norm_num, rfl⟩

end

end Verif
