import Verif.Round.AccProps

/-!
# Expected degrees in double precision: lemmas
-/

namespace Verif

namespace Round

open XR

/-! ## The degree loop with two arithmetics -/

section

variable {A B : Arith}

/-- One inner step with two different vertices, in two arithmetics. -/
theorem step_pair_rel {P : ℕ → XR → XR → Prop} {Q : XR → XR → Prop} {n m j s : ℕ} (hs : s ≤ 1)
    (hadd : ∀ k < n, ∀ e e' p p', P k e e' → Q p p' → P (k + 1) (A.add e p) (B.add e' p'))
    (hm : m < n) (hj : j < m) {a b : ℕ → XR}
    (ha : ∀ k, P (contributions m j s k) (a k) (b k)) {v w v' w' : XR} (hv : Q v v')
    (hw : Q w w') (k : ℕ) :
    P (contributions m (j + 1) s k) (addAt A (addAt A a m v) j w k)
      (addAt B (addAt B b m v') j w' k) := by
  have h := ha k
  rw [addAt_apply, addAt_apply, addAt_apply, addAt_apply]
  unfold contributions at h ⊢
  by_cases h1 : k = j
  · subst h1
    rw [if_pos (show k < k + 1 by omega), if_pos (show k = k from rfl),
      if_pos (show k = k from rfl), if_neg (show ¬ k = m by omega), if_neg (show ¬ k = m by omega)]
    rw [if_neg (show ¬ k < k by omega), if_neg (show ¬ k = m by omega), if_pos hj] at h
    have := hadd _ (by omega) _ _ _ _ h hw
    rwa [show m - 1 + s + 1 = m + s by omega] at this
  · rw [if_neg h1, if_neg h1]
    by_cases h2 : k = m
    · subst h2
      rw [if_neg (show ¬ k < j + 1 by omega), if_pos (show k = k from rfl),
        if_pos (show k = k from rfl), if_pos (show k = k from rfl)]
      rw [if_neg (show ¬ k < j by omega), if_pos (show k = k from rfl)] at h
      exact hadd _ (by omega) _ _ _ _ h hv
    · rw [if_neg h2, if_neg h2, if_neg h2]
      rw [if_neg h2] at h
      rcases lt_or_ge k j with h3 | h3
      · rw [if_pos h3] at h; rwa [if_pos (by omega)]
      · rw [if_neg (by omega)] at h; rwa [if_neg (by omega)]

/-- The inner step of a vertex with itself, with self-loops, in two arithmetics. -/
theorem step_self_rel {P : ℕ → XR → XR → Prop} {Q : XR → XR → Prop} {n m : ℕ}
    (hadd : ∀ k < n, ∀ e e' p p', P k e e' → Q p p' → P (k + 1) (A.add e p) (B.add e' p'))
    (hm : m < n) {a b : ℕ → XR} (ha : ∀ k, P (contributions m m 1 k) (a k) (b k)) {v v' : XR}
    (hv : Q v v') (k : ℕ) :
    P (contributions m (m + 1) 1 k) (addAt A a m v k) (addAt B b m v' k) := by
  have h := ha k
  rw [addAt_apply, addAt_apply]
  unfold contributions at h ⊢
  by_cases h2 : k = m
  · subst h2
    rw [if_pos (show k < k + 1 by omega), if_pos (show k = k from rfl),
      if_pos (show k = k from rfl)]
    rw [if_neg (show ¬ k < k by omega), if_pos (show k = k from rfl)] at h
    exact hadd _ (by omega) _ _ _ _ h hv
  · rcases lt_or_ge k m with h3 | h3
    · rw [if_pos h3] at h
      rwa [if_pos (show k < m + 1 by omega), if_neg h2, if_neg h2]
    · rw [if_neg (show ¬ k < m by omega), if_neg h2, if_neg (show ¬ k < m by omega)] at h
      rwa [if_neg (show ¬ k < m + 1 by omega), if_neg h2, if_neg (show ¬ k < m by omega),
        if_neg h2, if_neg h2]

/-- Invariant of the degree loop run in two arithmetics. -/
theorem exp_degrees_rel {α β δ ζ : Type} (n : ℕ) (sl : Bool) (p q : δ → α → β → ζ → XR) (d : δ)
    (x : ℕ → α) (y : ℕ → β) (z : ℕ → ℕ → ζ) (P P' : ℕ → XR → XR → Prop) (Q Q' : XR → XR → Prop)
    (h0 : P 0 0 0) (h0' : P' 0 0 0)
    (hadd : ∀ k < n, ∀ e e' v v', P k e e' → Q v v' → P (k + 1) (A.add e v) (B.add e' v'))
    (hadd' : ∀ k < n, ∀ e e' v v', P' k e e' → Q' v v' → P' (k + 1) (A.add e v) (B.add e' v'))
    (hQ : ∀ i < n, ∀ j < n, Q (p d (x i) (y j) (z i j)) (q d (x i) (y j) (z i j)))
    (hQQ : ∀ v v', Q v v' → Q' v v')
    (hQ' : ∀ v w v' w', Q v v' → Q w w' →
      Q' (A.sub (A.add v w) (A.mul v w)) (B.sub (B.add v' w') (B.mul v' w')))
    (k : ℕ) (hk : k < n) :
    P (n - 1 + sl.toNat) ((exp_degrees A p d n x y z sl).exp_d_out k)
        ((exp_degrees B q d n x y z sl).exp_d_out k) ∧
      P (n - 1 + sl.toNat) ((exp_degrees A p d n x y z sl).exp_d_in k)
        ((exp_degrees B q d n x y z sl).exp_d_in k) ∧
      P' (n - 1 + sl.toNat) ((exp_degrees A p d n x y z sl).exp_d k)
        ((exp_degrees B q d n x y z sl).exp_d k) := by
  let I : ℕ → ℕ → DiGraphEnsemble.Degrees → DiGraphEnsemble.Degrees → Prop := fun m j s t => ∀ k,
    P (contributions m j sl.toNat k) (s.exp_d_out k) (t.exp_d_out k) ∧
      P (contributions m j sl.toNat k) (s.exp_d_in k) (t.exp_d_in k) ∧
      P' (contributions m j sl.toNat k) (s.exp_d k) (t.exp_d k)
  have hsl : sl.toNat ≤ 1 := by cases sl <;> decide
  have step : ∀ m < n, ∀ j < m + 1, ∀ s t, I m j s t →
      I m (j + 1) (exp_degrees_step A p d x y z sl m s j)
        (exp_degrees_step B q d x y z sl m t j) := by
    intro m hm j hj s t hI
    rw [exp_degrees_step, exp_degrees_step]
    by_cases e : m = j
    · subst e
      rw [if_neg (not_not.2 rfl), if_neg (not_not.2 rfl)]
      cases sl with
      | false =>
        intro k
        simp only [Bool.toNat_false, contributions_skip]
        exact hI k
      | true =>
        intro k
        refine ⟨step_self_rel hadd hm (fun k => (hI k).1) (hQ m hm m hm) k,
          step_self_rel hadd hm (fun k => (hI k).2.1) (hQ m hm m hm) k,
          step_self_rel hadd' hm (fun k => (hI k).2.2) (hQQ _ _ (hQ m hm m hm)) k⟩
    · rw [if_pos e, if_pos e]
      have hj' : j < m := by omega
      have hjn : j < n := by omega
      have q1 := hQ m hm j hjn
      have q2 := hQ j hjn m hm
      intro k
      refine ⟨step_pair_rel hsl hadd hm hj' (fun k => (hI k).1) q1 q2 k, ?_,
        step_pair_rel hsl hadd' hm hj' (fun k => (hI k).2.2) (hQ' _ _ _ _ q1 q2)
          (hQ' _ _ _ _ q1 q2) k⟩
      have := step_pair_rel hsl hadd hm hj' (fun k => (hI k).2.1) q2 q1 k
      rw [addAt_comm e, addAt_comm e] at this
      exact this
  have fold : ∀ (f g : DiGraphEnsemble.Degrees → ℕ → DiGraphEnsemble.Degrees)
      (R : ℕ → DiGraphEnsemble.Degrees → DiGraphEnsemble.Degrees → Prop) (m : ℕ) (s t),
      R 0 s t → (∀ j < m, ∀ s t, R j s t → R (j + 1) (f s j) (g t j)) →
      R m ((List.range m).foldl f s) ((List.range m).foldl g t) := by
    intro f g R m s t h0 h
    induction m with
    | zero => exact h0
    | succ m ih =>
      rw [List.range_succ, List.foldl_append, List.foldl_append]
      exact h m (by omega) _ _ (ih fun j hj => h j (by omega))
  have outer : I n 0 (exp_degrees A p d n x y z sl) (exp_degrees B q d n x y z sl) := by
    refine fold _ _ (fun m => I m 0) n _ _ ?_ ?_
    · intro k
      have : contributions 0 0 sl.toNat k = 0 := by unfold contributions; split_ifs <;> omega
      rw [this]
      exact ⟨h0, h0, h0'⟩
    · intro m hm s t hs
      have := fold (exp_degrees_step A p d x y z sl m) (exp_degrees_step B q d x y z sl m)
        (fun j => I m j) (m + 1) s t hs (step m hm)
      intro k
      rw [contributions_next]
      exact this k
  have hc : contributions n 0 sl.toNat k = n - 1 + sl.toNat := by
    unfold contributions
    rw [if_neg (by omega), if_neg (by omega), if_pos hk]
  have := outer k
  rwa [hc] at this

end

/-! ## Probability of at least one of two links -/

theorem neg_mem {a : ℝ} (h : a ∈ doubles) : -a ∈ doubles := by
  obtain ⟨⟨m, e, hm, he, rfl⟩, h⟩ := h
  exact ⟨⟨-m, e, by rwa [abs_neg], he, by push_cast; ring⟩, by rwa [abs_neg]⟩

/-- The rounded product of two probabilities. -/
theorem mul_unit_err {a b : ℝ} (a0 : 0 ≤ a) (a1 : a ≤ 1) (b0 : 0 ≤ b) (b1 : b ≤ 1) :
    |rnd (a * b) - a * b| ≤ ulp2 * (a + b) := by
  have hu := ulp2_pos
  have hab : a * b ≤ a := mul_le_of_le_one_right a0 b1
  rcases (mul_nonneg a0 b0).eq_or_lt with h0 | h0
  · rw [← h0, rnd_zero, sub_zero, abs_zero]; positivity
  rcases le_or_gt ((2 : ℝ) ^ (-1022 : ℤ)) (a * b) with h1 | h1
  · obtain ⟨v, _, ev, hv⟩ := toDouble_within h1 (hab.trans (a1.trans
      (one_le_zpow₀ (by norm_num) (by norm_num))))
    have : rnd (a * b) = v := by
      unfold toDouble at ev
      split_ifs at ev
      exact XR.fin.inj ev
    rw [this, abs_le]
    constructor
    · nlinarith [hv.1]
    · nlinarith [hv.2]
  · have he : expo (a * b) = -1074 := by
      refine le_antisymm ?_ (le_max_right _ _)
      exact (expo_le (L := -1022) h0 (h1.trans_le (zpow_le_zpow_right₀ (by norm_num) (by norm_num)))
        le_rfl).trans (by norm_num)
    rcases le_or_gt ((2 : ℝ) ^ (-1000 : ℤ)) (a + b) with h2 | h2
    · refine (rnd_err _).trans ?_
      rw [he]
      calc (2 : ℝ) ^ (-1074 : ℤ) / 2 ≤ (2 : ℝ) ^ (-1074 : ℤ) := by linarith [pow_pos' (-1074)]
        _ ≤ (2 : ℝ) ^ (-53 + -1000 : ℤ) := zpow_le_zpow_right₀ (by norm_num) (by norm_num)
        _ = ulp2 * (2 : ℝ) ^ (-1000 : ℤ) := by rw [zpow_add₀ (by norm_num)]; rfl
        _ ≤ _ := mul_le_mul_of_nonneg_left h2 hu.le
    · have hlt : a * b ≤ (2 : ℝ) ^ (-1000 : ℤ) * (a + b) := by
        have ha : a ≤ (2 : ℝ) ^ (-1000 : ℤ) := by linarith
        calc a * b ≤ (2 : ℝ) ^ (-1000 : ℤ) * b := mul_le_mul_of_nonneg_right ha b0
          _ ≤ _ := mul_le_mul_of_nonneg_left (by linarith) (pow_pos' _).le
      have hsmall : a * b < (2 : ℝ) ^ (-1100 : ℤ) := by
        calc a * b ≤ (2 : ℝ) ^ (-1000 : ℤ) * (a + b) := hlt
          _ ≤ (2 : ℝ) ^ (-1000 : ℤ) * (2 : ℝ) ^ (-1000 : ℤ) :=
            mul_le_mul_of_nonneg_left h2.le (pow_pos' _).le
          _ = (2 : ℝ) ^ (-1000 + -1000 : ℤ) := (zpow_add₀ (by norm_num) _ _).symm
          _ < _ := zpow_lt_zpow_right₀ (by norm_num) (by norm_num)
      have hz : rnd (a * b) = 0 := by
        have := toDouble_tiny h0 hsmall
        unfold toDouble at this
        split_ifs at this
        exact XR.fin.inj this
      rw [hz, zero_sub, abs_neg, abs_of_pos h0]
      refine hlt.trans (mul_le_mul_of_nonneg_right ?_ (by linarith))
      exact zpow_le_zpow_right₀ (by norm_num) (by norm_num)

/-- Accuracy of the probability of at least one of two links, from that of the two links. -/
theorem union_acc {e a b p q : ℝ} (e0 : 0 ≤ e) (he : e ≤ 1 / 100) (ha : a ∈ doubles)
    (hb : b ∈ doubles) (a0 : 0 ≤ a) (a1 : a ≤ 1) (b0 : 0 ≤ b) (b1 : b ≤ 1) (p0 : 0 ≤ p)
    (p1 : p ≤ 1) (q0 : 0 ≤ q) (q1 : q ≤ 1) (hp : Within e p a) (hq : Within e q b) :
    ∃ w ∈ doubles, binary64.sub (binary64.add (fin a) (fin b)) (binary64.mul (fin a) (fin b)) =
        fin w ∧ 0 ≤ w ∧ w ≤ 1 ∧ Within (e + 5.1 * ulp2) (p + q - p * q) w := by
  have hu := ulp2_pos
  have hu' := ulp2_small
  have big : (2 : ℝ) ≤ (2 : ℝ) ^ (1023 : ℤ) :=
    (show (2 : ℝ) ≤ (2 : ℝ) ^ (1 : ℤ) by norm_num).trans
      (zpow_le_zpow_right₀ (by norm_num) (by norm_num))
  obtain ⟨s, hs, es, s1, s2⟩ := add_within ha hb a0 b0 (le_trans (by linarith) big)
  have ers : s = rnd (a + b) := by
    unfold toDouble at es
    split_ifs at es
    exact (XR.fin.inj es).symm
  have hm := abs_le.1 (mul_unit_err a0 a1 b0 b1)
  have hab : a * b ≤ a := mul_le_of_le_one_right a0 b1
  have hab' : a * b ≤ b := mul_le_of_le_one_left b0 a1
  have m0 : 0 ≤ rnd (a * b) := le_rnd Faithful.binary64.zero_mem (mul_nonneg a0 b0)
  have m1 : rnd (a * b) ≤ 1 := rnd_le Faithful.binary64.one_mem (hab.trans a1)
  have big' : (2 : ℝ) ≤ (2 : ℝ) ^ (1024 : ℤ) :=
    big.trans (zpow_le_zpow_right₀ (by norm_num) (by norm_num))
  have em : toDouble (a * b) = fin (rnd (a * b)) := by
    unfold toDouble
    rw [if_neg (not_le.2 (lt_of_lt_of_le (by linarith) big')),
      if_neg (not_le.2 (lt_of_lt_of_le (neg_lt_zero.2 (pow_pos' _)) m0))]
  have hmd : rnd (a * b) ∈ doubles := by
    have := In.toDouble (a * b)
    rw [em] at this
    exact this
  set m := rnd (a * b) with hmdef
  set V := a + b - a * b with hV
  have hV2 : a + b ≤ 2 * V := by rw [hV]; linarith
  have d1 : V * (1 - 4 * ulp2) ≤ s - m := by nlinarith [hm.2]
  have d2 : s - m ≤ V * (1 + 4 * ulp2) := by nlinarith [hm.1]
  have V0 : 0 ≤ V := by rw [hV]; linarith
  have sm0 : 0 ≤ s + -m := by
    have : 0 ≤ V * (1 - 4 * ulp2) := mul_nonneg V0 (by linarith)
    linarith
  have s3 : s ≤ 2 := by
    rw [ers]
    exact rnd_le (by have := natCast_mem (m := 2) (by norm_num); exact_mod_cast this) (by linarith)
  obtain ⟨w, hw, ew, w1, w2⟩ := sum_within hs (neg_mem hmd) sm0 (le_trans (by linarith) big)
  have w0 : 0 ≤ w := le_trans (mul_nonneg sm0 (by linarith)) w1
  have erw : w = rnd (rnd (a + b) - rnd (a * b)) := by
    unfold toDouble at ew
    split_ifs at ew
    rw [← XR.fin.inj ew, ← sub_eq_add_neg, ers]
  set U := p + q - p * q with hU
  have hpq : p * q ≤ q := mul_le_of_le_one_left q0 p1
  have U0 : 0 ≤ U := by rw [hU]; linarith
  have hdiff : V - U = (a - p) * (1 - b) + (b - q) * (1 - p) := by rw [hV, hU]; ring
  have hb1 : p * e * (1 - b) ≤ p * e := mul_le_of_le_one_right (mul_nonneg p0 e0) (by linarith)
  have hUe : p * e + q * e * (1 - p) = U * e := by rw [hU]; ring
  have v1 : U * (1 - e) ≤ V := by
    have h1 : -(p * e) * (1 - b) ≤ (a - p) * (1 - b) :=
      mul_le_mul_of_nonneg_right (by linarith [hp.1]) (by linarith)
    have h2 : -(q * e) * (1 - p) ≤ (b - q) * (1 - p) :=
      mul_le_mul_of_nonneg_right (by linarith [hq.1]) (by linarith)
    linarith
  have v2 : V ≤ U * (1 + e) := by
    have h1 : (a - p) * (1 - b) ≤ p * e * (1 - b) :=
      mul_le_mul_of_nonneg_right (by linarith [hp.2]) (by linarith)
    have h2 : (b - q) * (1 - p) ≤ q * e * (1 - p) :=
      mul_le_mul_of_nonneg_right (by linarith [hq.2]) (by linarith)
    linarith
  refine ⟨w, hw, ?_, w0, ?_, ?_, ?_⟩
  · show roundXR (toDouble (a + b) - toDouble (a * b)) = _
    rw [es, em]
    show toDouble (s - m) = _
    rw [sub_eq_add_neg]; exact ew
  · rw [erw]; exact union_le_one ha hb a0 a1 b0 b1
  · refine le_trans ?_ w1
    calc U * (1 - (e + 5.1 * ulp2)) ≤ U * ((1 - e) * (1 - 4 * ulp2) * (1 - ulp2)) :=
          mul_le_mul_of_nonneg_left (by
            have h1 : 0 ≤ e * ulp2 := mul_nonneg e0 hu.le
            have h2 : 0 ≤ ulp2 * ulp2 * (1 - e) := mul_nonneg (by positivity) (by linarith)
            nlinarith) U0
      _ = U * (1 - e) * (1 - 4 * ulp2) * (1 - ulp2) := by ring
      _ ≤ V * (1 - 4 * ulp2) * (1 - ulp2) := mul_le_mul_of_nonneg_right
          (mul_le_mul_of_nonneg_right v1 (by linarith)) (by linarith)
      _ ≤ _ := mul_le_mul_of_nonneg_right (by linarith) (by linarith)
  · refine w2.trans ?_
    calc (s + -m) * (1 + ulp2) ≤ V * (1 + 4 * ulp2) * (1 + ulp2) :=
          mul_le_mul_of_nonneg_right (by linarith) (by linarith)
      _ ≤ U * (1 + e) * (1 + 4 * ulp2) * (1 + ulp2) := mul_le_mul_of_nonneg_right
          (mul_le_mul_of_nonneg_right v2 (by linarith)) (by linarith)
      _ = U * ((1 + e) * (1 + 4 * ulp2) * (1 + ulp2)) := by ring
      _ ≤ _ := mul_le_mul_of_nonneg_left (by
          have h1 : e * ulp2 ≤ 1 / 100 * ulp2 := mul_le_mul_of_nonneg_right he hu.le
          have h2 : ulp2 * ulp2 ≤ 1 / 1000000 * ulp2 := mul_le_mul_of_nonneg_right hu' hu.le
          have h3 : e * (ulp2 * ulp2) ≤ 1 / 100 * (ulp2 * ulp2) :=
            mul_le_mul_of_nonneg_right he (by positivity)
          nlinarith) U0

/-! ## Sums of terms with a relative error -/

private theorem two_pow_big {m : ℕ} (h : m ≤ 2 ^ 53) : (m : ℝ) * 2 + 4 ≤ (2 : ℝ) ^ (1023 : ℤ) := by
  have h1 : (m : ℝ) ≤ 9007199254740992 := by exact_mod_cast h
  calc (m : ℝ) * 2 + 4 ≤ (2 : ℝ) ^ (60 : ℤ) := by
        have : (2 : ℝ) ^ (60 : ℤ) = 1152921504606846976 := by norm_num
        rw [this]; linarith
    _ ≤ _ := zpow_le_zpow_right₀ (by norm_num) (by norm_num)

/-- Partial sums with `k` terms, each up to a relative error `a`. -/
def Acc (a : ℝ) (k : ℕ) (c e : XR) : Prop :=
  ∃ s ∈ doubles, ∃ t : ℝ, c = fin s ∧ e = fin t ∧ 0 ≤ s ∧ 0 ≤ t ∧ s ≤ k ∧
    t * ((1 - a) * (1 - ulp2) ^ k) ≤ s ∧ s ≤ t * ((1 + a) * (1 + ulp2) ^ k)

/-- A term up to a relative error `a`. -/
def Term (a : ℝ) (c e : XR) : Prop :=
  ∃ s ∈ doubles, ∃ t : ℝ, c = fin s ∧ e = fin t ∧ 0 ≤ s ∧ s ≤ 1 ∧ 0 ≤ t ∧ t ≤ 1 ∧ Within a t s

theorem acc_zero (a : ℝ) : Acc a 0 0 0 :=
  ⟨0, Faithful.binary64.zero_mem, 0, rfl, rfl, le_rfl, le_rfl, by simp, by simp, by simp⟩

theorem acc_add {a : ℝ} (a0 : 0 ≤ a) (a1 : a ≤ 1) {k : ℕ} (hk : k < 2 ^ 53)
    {e e' v v' : XR} (h : Acc a k e e') (hv : Term a v v') :
    Acc a (k + 1) (binary64.add e v) (Arith.exact.add e' v') := by
  obtain ⟨s, hs, t, rfl, rfl, s0, t0, sk, s1, s2⟩ := h
  obtain ⟨p, hp, q, rfl, rfl, p0, p1, q0, _, hw⟩ := hv
  have hb : Bd doubles (k + 1) (binary64.add (fin s) (fin p)) :=
    Bd.add Faithful.binary64 (natCast_mem (by omega)) ⟨s, hs, rfl, s0, sk⟩ ⟨p, hp, rfl, p0, p1⟩
  obtain ⟨r, hr, er, g1, g2⟩ := add_step a0 a1 hs hp s0 p0 q0 ⟨s1, s2⟩ hw (by
    refine le_trans ?_ (two_pow_big (m := k) (by omega))
    have : (0 : ℝ) ≤ k := Nat.cast_nonneg k
    linarith)
  rw [er] at hb ⊢
  obtain ⟨r', _, er', r0, rk⟩ := hb
  obtain rfl : r = r' := XR.fin.inj er'
  exact ⟨r, hr, t + q, rfl, rfl, r0, by linarith, rk, g1, g2⟩

theorem abs_of_powers {E e c : ℝ} {N : ℕ} (c0 : 0 ≤ c) (hc : (c + N) * ulp2 ≤ 1 / 2)
    (E0 : 0 ≤ E) (h1 : E * ((1 - c * ulp2) * (1 - ulp2) ^ N) ≤ e)
    (h2 : e ≤ E * ((1 + c * ulp2) * (1 + ulp2) ^ N)) : |e - E| ≤ 2 * (c + N) * ulp2 * E := by
  have hu := ulp2_pos
  have hu' := ulp2_small
  have hN : (0 : ℝ) ≤ N := Nat.cast_nonneg N
  have hcu : c * ulp2 ≤ 1 / 2 := by nlinarith
  rw [abs_le]
  constructor
  · have b := one_add_mul_le_pow (a := -ulp2) (by linarith) N
    have : 1 - 2 * (c + N) * ulp2 ≤ (1 - c * ulp2) * (1 - ulp2) ^ N := by
      calc 1 - 2 * (c + N) * ulp2 ≤ (1 - c * ulp2) * (1 + N * -ulp2) := by
            have : 0 ≤ c * ulp2 * (N * ulp2) := by positivity
            nlinarith
        _ ≤ (1 - c * ulp2) * (1 + -ulp2) ^ N := mul_le_mul_of_nonneg_left b (by linarith)
        _ = _ := by rw [← sub_eq_add_neg]
    have := mul_le_mul_of_nonneg_left this E0
    linarith
  · have e1 : 1 + c * ulp2 ≤ Real.exp (c * ulp2) := by linarith [Real.add_one_le_exp (c * ulp2)]
    have e2 : (1 + ulp2) ^ N ≤ Real.exp (N * ulp2) := by
      rw [Real.exp_nat_mul]
      exact pow_le_pow_left₀ (by linarith) (by linarith [Real.add_one_le_exp ulp2]) N
    have t0 : 0 ≤ (c + N) * ulp2 := by positivity
    have e3 : (1 + c * ulp2) * (1 + ulp2) ^ N ≤ 1 + 2 * ((c + N) * ulp2) := by
      calc _ ≤ Real.exp (c * ulp2) * Real.exp (N * ulp2) :=
            mul_le_mul e1 e2 (by positivity) (Real.exp_pos _).le
        _ = Real.exp ((c + N) * ulp2) := by rw [← Real.exp_add]; ring_nf
        _ ≤ 1 / (1 - (c + N) * ulp2) :=
            Real.exp_bound_div_one_sub_of_interval t0 (by linarith)
        _ ≤ _ := by
            rw [div_le_iff₀ (by linarith)]
            nlinarith
    have := mul_le_mul_of_nonneg_left e3 E0
    linarith

end Round

end Verif
