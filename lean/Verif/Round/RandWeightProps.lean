import Verif.Round.RandProps

/-!
# Property C111: the weight parameter of the random ensemble in double precision

Missing in the `_partial` theorems: total weights that are negative or zero, and quotients of number of edges
and total weight that underflow or overflow.
-/

namespace Verif

open XR Finset MeasureTheory
open Round (binary64 doubles ulp2 ulp2_pos)

/-- `fit` succeeds if there are admissible pairs and the weight parameter can be computed. -/
private theorem fit_ok (o : Rand.Obj) (m : Rand.Number) (hm : o.num_edges = some m)
    (hN : 0 < (Law.pairs o.num_vertices o.selfloops).card) {q : XR}
    (hq : Round.rand_fitWeight binary64 o m = .ok q) :
    ∃ o' p, Round.rand_fit binary64 o = .ok o' ∧ o'.param = some (p, q) := by
  have hcard := Rand.card_pairs o.num_vertices o.selfloops
  have N0 : (0 : ℝ) < (Law.pairs o.num_vertices o.selfloops).card := by exact_mod_cast hN
  unfold Round.rand_fit
  simp only [hm, hq]
  cases hs : o.selfloops with
  | true =>
    rw [hs, if_pos rfl] at hcard
    rw [hs, hcard] at N0
    have k0 : (o.num_vertices : ℤ) ^ 2 ≠ 0 := by
      intro h
      have : (o.num_vertices : ℝ) ^ 2 = 0 := by exact_mod_cast h
      exact N0.ne' this
    simp only [if_true, Round.randDiv, if_neg k0]
    exact ⟨_, _, rfl, rfl⟩
  | false =>
    rw [hs, if_neg (by simp)] at hcard
    rw [hs, hcard] at N0
    have k0 : (o.num_vertices : ℤ) * ((o.num_vertices : ℤ) - 1) ≠ 0 := by
      intro h
      have : (o.num_vertices : ℝ) * ((o.num_vertices : ℝ) - 1) = 0 := by exact_mod_cast h
      exact N0.ne' this
    simp only [Bool.false_eq_true, if_false, Round.randDiv, if_neg k0]
    exact ⟨_, _, rfl, rfl⟩

private theorem div_eq {m w : ℝ} (hw : w ≠ 0) : binary64.div (fin m) (fin w) = Round.toDouble (m / w) := by
  show Round.roundXR (fin m / fin w) = _
  rw [fin_div_fin _ _ hw]; rfl

/-- **C111**, fit of continuous weights.  The rate of the weights is within `2 ^ -53`, relatively, of the
number of edges over the total weight. -/
theorem C111_weight_continuous_partial (o : Rand.Obj) (m w : Rand.Number) (hm : o.num_edges = some m)
    (hT : o.total_weight = some w) (hd : o.discrete_weights = some false) (w0 : 0 < w.val)
    (hN : 0 < (Law.pairs o.num_vertices o.selfloops).card)
    (h1 : m.val = 0 ∨ (2 : ℝ) ^ (-1022 : ℤ) ≤ m.val / w.val) (h2 : m.val / w.val ≤ (2 : ℝ) ^ (1023 : ℤ)) :
    ∃ o' p q, Round.rand_fit binary64 o = .ok o' ∧ o'.param = some (p, fin q) ∧ q ∈ doubles ∧ 0 ≤ q ∧
      |q - m.val / w.val| ≤ (2 : ℝ) ^ (-53 : ℤ) * (m.val / w.val) := by
  have key : ∃ q ∈ doubles, Round.toDouble (m.val / w.val) = fin q ∧ 0 ≤ q ∧
      |q - m.val / w.val| ≤ ulp2 * (m.val / w.val) := by
    rcases h1 with h | h
    · rw [h, zero_div]
      exact ⟨0, Round.Faithful.binary64.zero_mem, Round.toDouble_self Round.Faithful.binary64.zero_mem,
        le_rfl, by simp⟩
    · obtain ⟨q, hq, e, hw⟩ := Round.toDouble_within h h2
      have r0 : 0 ≤ m.val / w.val := (Round.pow_pos' _).le.trans h
      have hu : ulp2 ≤ 1 := by unfold ulp2; norm_num
      refine ⟨q, hq, e, (mul_nonneg r0 (by linarith)).trans hw.1, ?_⟩
      rw [abs_le]
      constructor
      · linarith [hw.1]
      · linarith [hw.2]
  obtain ⟨q, hq, e, q0, hd'⟩ := key
  obtain ⟨o', p, e1, e2⟩ := fit_ok o m hm hN (q := fin q) (by
    simp only [Round.rand_fitWeight, hT, hd, Round.randDivF, if_neg w0.ne', div_eq w0.ne', e])
  exact ⟨o', p, q, e1, e2, hq, q0, hd'⟩

/-- **C111**, fit of discrete weights.  If the total weight is at least the number of edges, the parameter of
the geometric distribution of the weights is in `[0, 1]` and within `2 * 2 ^ -53` of one minus the number of
edges over the total weight. -/
theorem C111_weight_discrete_partial (o : Rand.Obj) (m w : Rand.Number) (hm : o.num_edges = some m)
    (hT : o.total_weight = some w) (hd : o.discrete_weights = some true) (w0 : 0 < w.val)
    (hN : 0 < (Law.pairs o.num_vertices o.selfloops).card) (m0 : 0 ≤ m.val) (hmw : m.val ≤ w.val) :
    ∃ o' p q, Round.rand_fit binary64 o = .ok o' ∧ o'.param = some (p, fin q) ∧ q ∈ doubles ∧ 0 ≤ q ∧
      q ≤ 1 ∧ |q - (1 - m.val / w.val)| ≤ 2 * (2 : ℝ) ^ (-53 : ℤ) := by
  obtain ⟨r, _, e, r0, r1, hr⟩ := Round.toDouble_unit (div_nonneg m0 w0.le) ((div_le_one w0).2 hmw)
  obtain ⟨q, hq, e', q0, q1, hq'⟩ := Round.toDouble_unit (x := 1 - r) (by linarith) (by linarith)
  have es : binary64.sub 1 (fin r) = fin q := by
    show Round.toDouble (1 + -r) = _
    rw [← sub_eq_add_neg]; exact e'
  obtain ⟨o', p, e1, e2⟩ := fit_ok o m hm hN (q := fin q) (by
    simp only [Round.rand_fitWeight, hT, hd, Round.randDivF, if_neg w0.ne', div_eq w0.ne', e, Except.map, es])
  refine ⟨o', p, q, e1, e2, hq, q0, q1, ?_⟩
  have e53 : (2 : ℝ) ^ (-53 : ℤ) = ulp2 := rfl
  rw [e53, show q - (1 - m.val / w.val) = (q - (1 - r)) + -(r - m.val / w.val) by ring]
  refine (abs_add_le _ _).trans ?_
  rw [abs_neg]
  linarith

/-- **C111**, exceptions of `fit`: rounding does not change them. -/
theorem C111_fit_errors (o : Rand.Obj) (e : Rand.Err) :
    Round.rand_fit binary64 o = .error e ↔ Rand.fit o = .error e := by
  have hdiv : ∀ (np : Bool) (a : ℝ) (k : ℤ) (K : ℝ), (k : ℝ) = K →
      (∃ x y, Round.randDiv binary64 np a k = .ok x ∧ Rand.pyDiv np a K = .ok y) ∨
      ∃ f, Round.randDiv binary64 np a k = .error f ∧ Rand.pyDiv np a K = .error f := by
    rintro np a k K rfl
    unfold Round.randDiv Rand.pyDiv
    by_cases h : k = 0
    · cases np <;> simp [h]
    · simp [h]
  have hdivF : ∀ (np : Bool) (a b : ℝ),
      (∃ x y, Round.randDivF binary64 np a b = .ok x ∧ Rand.pyDiv np a b = .ok y) ∨
      ∃ f, Round.randDivF binary64 np a b = .error f ∧ Rand.pyDiv np a b = .error f := by
    intro np a b
    unfold Round.randDivF Rand.pyDiv
    by_cases h : b = 0
    · cases np <;> simp [h]
    · simp [h]
  have hwt : ∀ m : Rand.Number,
      (∃ x y, Round.rand_fitWeight binary64 o m = .ok x ∧ Rand.fitWeight o m = .ok y) ∨
      ∃ f, Round.rand_fitWeight binary64 o m = .error f ∧ Rand.fitWeight o m = .error f := by
    intro m
    unfold Round.rand_fitWeight Rand.fitWeight
    cases o.total_weight with
    | none => exact .inl ⟨_, _, rfl, rfl⟩
    | some w =>
      cases o.discrete_weights with
      | none => exact .inr ⟨_, rfl, rfl⟩
      | some b =>
        rcases hdivF (m.np || w.np) m.val w.val with ⟨x, y, h1, h2⟩ | ⟨f, h1, h2⟩
        · cases b <;> simp only [h1, h2, Except.map]
          · exact .inl ⟨_, _, rfl, rfl⟩
          · exact .inl ⟨_, _, rfl, rfl⟩
        · cases b <;> simp only [h1, h2, Except.map]
          · exact .inr ⟨_, rfl, rfl⟩
          · exact .inr ⟨_, rfl, rfl⟩
  unfold Round.rand_fit Rand.fit
  cases o.num_edges with
  | none => exact Iff.rfl
  | some m =>
    cases o.selfloops with
    | true =>
      rcases hdiv m.np m.val ((o.num_vertices : ℤ) ^ 2) ((o.num_vertices : ℝ) ^ 2) (by push_cast; rfl)
        with ⟨x, y, h1, h2⟩ | ⟨f, h1, h2⟩
      · rcases hwt m with ⟨u, v, g1, g2⟩ | ⟨f, g1, g2⟩
        · simp [h1, h2, g1, g2]
        · simp [h1, h2, g1, g2]
      · simp [h1, h2]
    | false =>
      rcases hdiv m.np m.val ((o.num_vertices : ℤ) * ((o.num_vertices : ℤ) - 1))
        ((o.num_vertices : ℝ) * ((o.num_vertices : ℝ) - 1)) (by push_cast; rfl)
        with ⟨x, y, h1, h2⟩ | ⟨f, h1, h2⟩
      · rcases hwt m with ⟨u, v, g1, g2⟩ | ⟨f, g1, g2⟩
        · simp [h1, h2, g1, g2]
        · simp [h1, h2, g1, g2]
      · simp [h1, h2]

/-- With one vertex and no self-loops there is no pair to divide by. -/
example : Round.rand_fit binary64 ⟨1, some ⟨1, false⟩, none, none, false, none⟩ = .error .zeroDivision := by
  simp [Round.rand_fit, Round.randDiv]

/-- Three vertices, two edges and total weight five. -/
example (b : Bool) : ∃ (o : Rand.Obj) (m w : Rand.Number), o.num_edges = some m ∧ o.total_weight = some w ∧
    o.discrete_weights = some b ∧ 0 < w.val ∧ 0 < (Law.pairs o.num_vertices o.selfloops).card ∧
    0 ≤ m.val ∧ m.val ≤ w.val ∧ (2 : ℝ) ^ (-1022 : ℤ) ≤ m.val / w.val ∧
    m.val / w.val ≤ (2 : ℝ) ^ (1023 : ℤ) := by
  have h : (Law.pairs 3 false).card = 6 := by decide
  refine ⟨⟨3, some ⟨2, false⟩, some ⟨5, false⟩, some b, false, none⟩, ⟨2, false⟩, ⟨5, false⟩, rfl, rfl, rfl,
    by norm_num, ?_, by norm_num, by norm_num, ?_, ?_⟩
  · show 0 < (Law.pairs 3 false).card
    rw [h]; norm_num
  · refine le_trans (zpow_le_zpow_right₀ (by norm_num) (show (-1022 : ℤ) ≤ -2 by norm_num)) ?_
    norm_num
  · refine le_trans ?_ (one_le_zpow₀ (by norm_num) (by norm_num))
    norm_num

end Verif
