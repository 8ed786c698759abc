import Verif.Round.DegLemmas

/-!
# Probability over all layers in double precision: lemmas
-/

namespace Verif

namespace Round

open XR

/-- The factors of a layer stay in the normal range, or one of them is zero. -/
def LayerRange (d x y : ℝ) : Prop :=
  (x = 0 ∨ y = 0 ∨ d = 0) ∨
    (0 < d ∧ 0 < x ∧ 0 < y ∧
      ((2 : ℝ) ^ (-1000 : ℤ) ≤ d * x ∧ d * x ≤ (2 : ℝ) ^ (1000 : ℤ)) ∧
      ((2 : ℝ) ^ (-1000 : ℤ) ≤ d * x * y ∧ d * x * y ≤ (2 : ℝ) ^ (1000 : ℤ)))

/-! ## The loops over the layers in two arithmetics -/

section

variable {σ ρ : Type} {body body' : σ → ℕ → XR → XR → Except ρ σ} {P : ℕ → σ → σ → Prop} {M : ℕ}

theorem mergeLoop_rel (mono : ∀ m s t, P m s t → P (m + 1) s t) :
    ∀ (xs ys : List (ℕ × XR)) (s s' : σ) (m : ℕ), m + xs.length ≤ M →
      (∀ k x y, (k, x) ∈ xs → (k, y) ∈ ys → ∀ m < M, ∀ s s', P m s s' →
        ∃ t t', body s k x y = .ok t ∧ body' s' k x y = .ok t' ∧ P (m + 1) t t') →
      P m s s' →
      ∃ t t', mergeLoop body xs ys s = .ok t ∧ mergeLoop body' xs ys s' = .ok t' ∧
        P (m + xs.length) t t' := by
  have up : ∀ j m s t, P m s t → P (m + j) s t := by
    intro j
    induction j with
    | zero => intro m s t h; exact h
    | succ j ih => intro m s t h; exact mono _ _ _ (ih m s t h)
  intro xs ys s
  induction xs, ys, s using mergeLoop.induct (body := body) with
  | case1 ys s => intro s' m _ _ hs; exact ⟨s, s', by simp [mergeLoop], by simp [mergeLoop], hs⟩
  | case2 x xs s =>
    intro s' m _ _ hs
    exact ⟨s, s', by simp [mergeLoop], by simp [mergeLoop], up _ _ _ _ hs⟩
  | case3 xv xs a yv ys s r hr =>
    intro s' m hM h hs
    obtain ⟨t, t', e, _⟩ := h a xv yv (by simp) (by simp) m (by simp at hM; omega) s s' hs
    rw [hr] at e
    cases e
  | case4 xv xs a yv ys s t hr ih =>
    intro s' m hM h hs
    rw [List.length_cons] at hM
    obtain ⟨t₁, t', e, e', ht⟩ := h a xv yv (by simp) (by simp) m (by omega) s s' hs
    rw [hr] at e
    obtain rfl : t = t₁ := by cases e; rfl
    obtain ⟨v, v', g, g', hv⟩ := ih t' (m + 1) (by omega)
      (fun k x y hx hy => h k x y (by simp [hx]) (by simp [hy])) ht
    refine ⟨v, v', ?_, ?_, ?_⟩
    · rw [mergeLoop, if_pos rfl, hr]; exact g
    · rw [mergeLoop, if_pos rfl, e']; exact g'
    · rwa [List.length_cons, show m + (xs.length + 1) = m + 1 + xs.length by omega]
  | case5 a xv xs b yv ys s hne hlt ih =>
    intro s' m hM h hs
    rw [List.length_cons] at hM
    obtain ⟨v, v', g, g', hv⟩ := ih s' m (by omega) (fun k x y hx hy => h k x y (by simp [hx]) hy) hs
    refine ⟨v, v', ?_, ?_, ?_⟩
    · rw [mergeLoop, if_neg hne, if_pos hlt]; exact g
    · rw [mergeLoop, if_neg hne, if_pos hlt]; exact g'
    · exact mono _ _ _ hv
  | case6 a xv xs b yv ys s hne hlt ih =>
    intro s' m hM h hs
    obtain ⟨v, v', g, g', hv⟩ := ih s' m hM (fun k x y hx hy => h k x y hx (by simp [hy])) hs
    refine ⟨v, v', ?_, ?_, hv⟩
    · rw [mergeLoop, if_neg hne, if_neg hlt]; exact g
    · rw [mergeLoop, if_neg hne, if_neg hlt]; exact g'

theorem zipLoop_rel (mono : ∀ m s t, P m s t → P (m + 1) s t) :
    ∀ (xs ys : List XR) (k : ℕ) (s s' : σ) (m : ℕ), m + xs.length ≤ M →
      (∀ i (hi : i < xs.length) (hj : i < ys.length), ∀ m < M, ∀ s s', P m s s' →
        ∃ t t', body s (k + i) xs[i] ys[i] = .ok t ∧ body' s' (k + i) xs[i] ys[i] = .ok t' ∧
          P (m + 1) t t') →
      P m s s' →
      ∃ t t', zipLoop body k xs ys s = .ok t ∧ zipLoop body' k xs ys s' = .ok t' ∧
        P (m + xs.length) t t' := by
  have up : ∀ j m s t, P m s t → P (m + j) s t := by
    intro j
    induction j with
    | zero => intro m s t h; exact h
    | succ j ih => intro m s t h; exact mono _ _ _ (ih m s t h)
  intro xs
  induction xs with
  | nil => intro ys k s s' m _ _ hs; exact ⟨s, s', by simp [zipLoop], by simp [zipLoop], hs⟩
  | cons x xs ih =>
    intro ys k s s' m hM h hs
    cases ys with
    | nil => exact ⟨s, s', by simp [zipLoop], by simp [zipLoop], up _ _ _ _ hs⟩
    | cons y ys =>
      rw [List.length_cons] at hM
      obtain ⟨t, t', e, e', ht⟩ := h 0 (by simp) (by simp) m (by omega) s s' hs
      simp only [Nat.add_zero, List.getElem_cons_zero] at e e'
      obtain ⟨v, v', g, g', hv⟩ := ih ys (k + 1) t t' (m + 1) (by omega) (by
        intro i hi hj m hm s s' hs
        have := h (i + 1) (by simpa using hi) (by simpa using hj) m hm s s' hs
        simp only [List.getElem_cons_succ] at this
        rwa [show k + 1 + i = k + (i + 1) by omega]) ht
      refine ⟨v, v', ?_, ?_, ?_⟩
      · rw [zipLoop, e]; exact g
      · rw [zipLoop, e']; exact g'
      · rwa [List.length_cons, show m + (xs.length + 1) = m + 1 + xs.length by omega]

end

/-! ## Fitness model -/

private theorem big_aux {T B : ℝ} (h1 : 1 ≤ B) (h2 : T ≤ B) : T * 2 + 1 ≤ B * 8388608 := by linarith

private theorem big_aux' {T B v w V m : ℝ} (hB : 0 < B) (h1 : v ≤ 2 * V) (h2 : w ≤ 2 * T)
    (h3 : V ≤ m * B) (h4 : T ≤ B) (h5 : m ≤ 1048576) : v + w ≤ 8388608 * B := by nlinarith

/-- Probabilities are rounded with an absolute error of at most half a last place of 1. -/
theorem rnd_unit_err {x : ℝ} (x0 : 0 ≤ x) (x1 : x ≤ 1) : |rnd x - x| ≤ ulp2 := by
  rcases x0.eq_or_lt with rfl | x0
  · rw [rnd_zero, sub_zero, abs_zero]; exact ulp2_pos.le
  refine (rnd_err x).trans ?_
  have h : expo x ≤ -52 := expo_le (L := 0) x0 (by norm_num; linarith) (by norm_num)
  calc (2 : ℝ) ^ expo x / 2 ≤ (2 : ℝ) ^ (-52 : ℤ) / 2 :=
        div_le_div_of_nonneg_right (zpow_le_zpow_right₀ (by norm_num) h) (by norm_num)
    _ = ulp2 := by unfold ulp2; norm_num

theorem toDouble_unit {x : ℝ} (x0 : 0 ≤ x) (x1 : x ≤ 1) :
    ∃ v ∈ doubles, toDouble x = fin v ∧ 0 ≤ v ∧ v ≤ 1 ∧ |v - x| ≤ ulp2 := by
  have m0 : 0 ≤ rnd x := le_rnd Faithful.binary64.zero_mem x0
  have m1 : rnd x ≤ 1 := rnd_le Faithful.binary64.one_mem x1
  have big : (1 : ℝ) < (2 : ℝ) ^ (1024 : ℤ) := one_lt_zpow₀ (by norm_num) (by norm_num)
  have em : toDouble x = fin (rnd x) := by
    unfold toDouble
    rw [if_neg (not_le.2 (lt_of_le_of_lt m1 big)),
      if_neg (not_le.2 (lt_of_lt_of_le (neg_lt_zero.2 (pow_pos' _)) m0))]
  refine ⟨rnd x, ?_, em, m0, m1, rnd_unit_err x0 x1⟩
  have := In.toDouble x
  rw [em] at this
  exact this

/-- Probability of no link, `m` layers having been used. -/
def FitAcc (m : ℕ) (c e : XR) : Prop :=
  ∃ v ∈ doubles, ∃ V : ℝ, c = fin v ∧ e = fin V ∧ 0 ≤ v ∧ v ≤ 1 ∧ 0 < V ∧ V ≤ 1 ∧
    |v - V| ≤ 4.2 * m * ulp2

theorem FitAcc.one : FitAcc 0 1 1 :=
  ⟨1, Faithful.binary64.one_mem, 1, rfl, rfl, zero_le_one, le_rfl, one_pos, le_rfl, by simp⟩

theorem FitAcc.mono (m : ℕ) (s t : XR) (h : FitAcc m s t) : FitAcc (m + 1) s t := by
  obtain ⟨v, hv, V, e1, e2, v0, v1, V0, V1, hd⟩ := h
  refine ⟨v, hv, V, e1, e2, v0, v1, V0, V1, hd.trans ?_⟩
  push_cast
  linarith [ulp2_pos]

private theorem guard_pos {d x y : ℝ} (hd : 0 < d) (hx : 0 < x) (hy : 0 < y) :
    (!(fin d).isZero && !(fin x).isZero && !(fin y).isZero) = true := by
  simp [isZero, hd.ne', hx.ne', hy.ne']

private theorem guard_zero {d x y : ℝ} (h : x = 0 ∨ y = 0 ∨ d = 0) :
    ¬ (!(fin d).isZero && !(fin x).isZero && !(fin y).isZero) = true := by
  rcases h with rfl | rfl | rfl <;> simp [isZero]

theorem fit_layer {d : ℕ → ℝ} {k : ℕ} {x y : ℝ} (h : LayerRange (d k) x y) (ret : XR) (m : ℕ)
    (s s' : XR) (hs : FitAcc m s s') :
    ∃ t t', fitBody binary64 ret (fun k => fin (d k)) s k (fin x) (fin y) = .ok t ∧
      fitBody Arith.exact ret (fun k => fin (d k)) s' k (fin x) (fin y) = .ok t' ∧
      FitAcc (m + 1) t t' := by
  rcases h with h | ⟨hd, hx, hy, h1, h2⟩
  · refine ⟨s, s', ?_, ?_, hs.mono⟩
    · rw [fitBody, if_neg (guard_zero h)]
    · rw [fitBody, if_neg (guard_zero h)]
  obtain ⟨v, hv, V, rfl, rfl, v0, v1, V0, V1, hdist⟩ := hs
  have hu := ulp2_pos
  have hu' := ulp2_small
  have ht : 0 < d k * x * y := by positivity
  obtain ⟨w, hwd, ew, w1, w2⟩ := prod3_within hd hx hy h1 h2
  set T := d k * x * y with hT
  have w0 : 0 ≤ w := le_trans (mul_nonneg ht.le (by linarith)) w1
  have big : T * 2 + 1 ≤ (2 : ℝ) ^ (1023 : ℤ) := by
    have e1 : (2 : ℝ) ^ (1023 : ℤ) = (2 : ℝ) ^ (1000 : ℤ) * (2 : ℝ) ^ (23 : ℤ) := by
      rw [← zpow_add₀ (by norm_num)]; norm_num
    have e2 : (2 : ℝ) ^ (23 : ℤ) = 8388608 := by norm_num
    have e3 : (1 : ℝ) ≤ (2 : ℝ) ^ (1000 : ℤ) := one_le_zpow₀ (by norm_num) (by norm_num)
    rw [e1, e2]
    exact big_aux e3 h2.2
  obtain ⟨r, hr, er, r1, r2⟩ := add_within Faithful.binary64.one_mem hwd zero_le_one w0
    (le_trans (by nlinarith) big)
  have ones : (1 : ℝ) ≤ r := by
    have : r = rnd (1 + w) := by
      unfold toDouble at er
      split_ifs at er
      exact (XR.fin.inj er).symm
    rw [this]
    exact le_rnd Faithful.binary64.one_mem (by linarith)
  have d1 : (1 + T) * (1 - 3.2 * ulp2) ≤ r := by
    refine le_trans ?_ r1
    nlinarith
  have d2 : r ≤ (1 + T) * (1 + 3.2 * ulp2) := by
    refine r2.trans ?_
    nlinarith
  have hr0 : 0 < r := by linarith
  have hT1 : 0 < 1 + T := by linarith
  have q0 : 0 ≤ v / r := div_nonneg v0 hr0.le
  have q1 : v / r ≤ 1 := (div_le_one hr0).2 (v1.trans ones)
  obtain ⟨p, hp, ep, p0, p1, hpe⟩ := toDouble_unit q0 q1
  refine ⟨fin p, fin (V / (1 + T)), ?_, ?_, p, hp, V / (1 + T), rfl, rfl, p0, p1,
    div_pos V0 hT1, (div_le_one hT1).2 (by linarith), ?_⟩
  · rw [fitBody, if_pos (guard_pos hd hx hy)]
    simp only [ew, show (fin w).isInf = false from rfl]
    show Except.ok (roundXR (fin v / roundXR (fin (1 + w)))) = _
    rw [show roundXR (fin (1 + w)) = fin r from er, fin_div_fin _ _ hr0.ne']
    exact congrArg _ ep
  · rw [fitBody, if_pos (guard_pos hd hx hy)]
    show (if (fin T).isInf = true then Except.error ret else Except.ok (fin V / fin (1 + T))) = _
    rw [fin_div_fin _ _ hT1.ne']
    rfl
  · have key : |v / r - V / (1 + T)| ≤ |v - V| + 3.2 * ulp2 := by
      have e : v / r - V / (1 + T) = (v - V) / r + V / (1 + T) * (((1 + T) - r) / r) := by
        field_simp
        ring
      rw [e]
      refine (abs_add_le _ _).trans (add_le_add ?_ ?_)
      · rw [abs_div, abs_of_pos hr0]
        exact div_le_self (abs_nonneg _) ones
      · have hb : |1 + T - r| ≤ (1 + T) * (3.2 * ulp2) := by
          rw [abs_le]
          constructor <;> linarith
        rw [abs_mul, abs_div, abs_div, abs_of_pos V0, abs_of_pos hT1, abs_of_pos hr0]
        calc V / (1 + T) * (|1 + T - r| / r) ≤ 1 / (1 + T) * ((1 + T) * (3.2 * ulp2) / 1) :=
              mul_le_mul (div_le_div_of_nonneg_right V1 hT1.le)
                (div_le_div₀ (by positivity) hb one_pos ones) (by positivity) (by positivity)
          _ = 3.2 * ulp2 := by field_simp
    have e : p - V / (1 + T) = (p - v / r) + (v / r - V / (1 + T)) := by ring
    rw [e]
    refine (abs_add_le _ _).trans ?_
    push_cast
    linarith

/-- From the probability of no link to the probability. -/
theorem fit_end {m : ℕ} {s s' : XR} (hs : FitAcc m s s') :
    ∃ p ∈ doubles, ∃ q : ℝ, binary64.sub 1 s = fin p ∧ Arith.exact.sub 1 s' = fin q ∧ 0 ≤ p ∧
      p ≤ 1 ∧ 0 ≤ q ∧ q ≤ 1 ∧ |p - q| ≤ (4.2 * m + 1) * ulp2 := by
  obtain ⟨v, hv, V, rfl, rfl, v0, v1, V0, V1, hdist⟩ := hs
  obtain ⟨p, hp, ep, p0, p1, hpe⟩ := toDouble_unit (x := 1 + -v) (by linarith) (by linarith)
  refine ⟨p, hp, 1 + -V, ep, rfl, p0, p1, by linarith, by linarith, ?_⟩
  have e : p - (1 + -V) = (p - (1 + -v)) + (V - v) := by ring
  rw [e]
  refine (abs_add_le _ _).trans ?_
  rw [abs_sub_comm V v]
  linarith

/-! ## Scale-invariant model -/

/-- Sum of the products of the factors, `m` layers having been used. -/
def InvAcc (m : ℕ) (c e : XR) : Prop :=
  ∃ v ∈ doubles, ∃ V : ℝ, c = fin v ∧ e = fin V ∧ 0 ≤ v ∧ (V = 0 ∨ (2 : ℝ) ^ (-1000 : ℤ) ≤ V) ∧
    V ≤ m * (2 : ℝ) ^ (1000 : ℤ) ∧
    V * ((1 - 2.1 * ulp2) * (1 - ulp2) ^ m) ≤ v ∧ v ≤ V * ((1 + 2.1 * ulp2) * (1 + ulp2) ^ m)

theorem InvAcc.zero : InvAcc 0 0 0 :=
  ⟨0, Faithful.binary64.zero_mem, 0, rfl, rfl, le_rfl, .inl rfl, by simp, by simp, by simp⟩

private theorem nonneg_of {V : ℝ} (h : V = 0 ∨ (2 : ℝ) ^ (-1000 : ℤ) ≤ V) : 0 ≤ V := by
  rcases h with rfl | h
  · exact le_rfl
  · exact (pow_pos' _).le.trans h

theorem InvAcc.mono (m : ℕ) (s t : XR) (h : InvAcc m s t) : InvAcc (m + 1) s t := by
  obtain ⟨v, hv, V, e1, e2, v0, hV, hm, g1, g2⟩ := h
  have hu := ulp2_pos
  have hu' := ulp2_small
  have V0 := nonneg_of hV
  refine ⟨v, hv, V, e1, e2, v0, hV, ?_, le_trans ?_ g1, g2.trans ?_⟩
  · exact hm.trans (mul_le_mul_of_nonneg_right (by push_cast; linarith) (pow_pos' 1000).le)
  · refine mul_le_mul_of_nonneg_left (mul_le_mul_of_nonneg_left ?_ (by linarith)) V0
    exact pow_le_pow_of_le_one (by linarith) (by linarith) (Nat.le_succ m)
  · refine mul_le_mul_of_nonneg_left (mul_le_mul_of_nonneg_left ?_ (by linarith)) V0
    exact pow_le_pow_right₀ (by linarith) (Nat.le_succ m)

private theorem small_count {m : ℕ} {c : ℝ} (c1 : c ≤ 3) (hm : m ≤ 2 ^ 20) :
    (c + m) * ulp2 ≤ 1 / 1000000 := by
  have h1 : (m : ℝ) ≤ 2 ^ 20 := by exact_mod_cast hm
  have h2 : ulp2 ≤ 1 / 2 ^ 50 := by unfold ulp2; norm_num
  calc (c + m) * ulp2 ≤ (3 + 2 ^ 20) * ulp2 :=
        mul_le_mul_of_nonneg_right (by linarith) ulp2_pos.le
    _ ≤ (3 + 2 ^ 20) * (1 / 2 ^ 50) := mul_le_mul_of_nonneg_left h2 (by norm_num)
    _ ≤ _ := by norm_num

private theorem inv_abs {m : ℕ} {v V : ℝ} (hm : m ≤ 2 ^ 20) (V0 : 0 ≤ V)
    (g1 : V * ((1 - 2.1 * ulp2) * (1 - ulp2) ^ m) ≤ v)
    (g2 : v ≤ V * ((1 + 2.1 * ulp2) * (1 + ulp2) ^ m)) : |v - V| ≤ 2 * (2.1 + m) * ulp2 * V := by
  have hc := small_count (c := 2.1) (by norm_num) hm
  exact abs_of_powers (by norm_num) (by linarith) V0 g1 g2

theorem inv_layer {d : ℕ → ℝ} {k : ℕ} {x y : ℝ} (h : LayerRange (d k) x y) (ret : XR) (m : ℕ)
    (hm : m < 2 ^ 20) (s s' : XR) (hs : InvAcc m s s') :
    ∃ t t', invBody binary64 ret (fun k => fin (d k)) s k (fin x) (fin y) = .ok t ∧
      invBody Arith.exact ret (fun k => fin (d k)) s' k (fin x) (fin y) = .ok t' ∧
      InvAcc (m + 1) t t' := by
  rcases h with h | ⟨hd, hx, hy, h1, h2⟩
  · refine ⟨s, s', ?_, ?_, hs.mono⟩
    · rw [invBody, if_neg (guard_zero h)]
    · rw [invBody, if_neg (guard_zero h)]
  obtain ⟨v, hv, V, rfl, rfl, v0, hV, hVm, g1, g2⟩ := hs
  have hu := ulp2_pos
  have hu' := ulp2_small
  have V0 := nonneg_of hV
  have ht : 0 < d k * x * y := by positivity
  obtain ⟨w, hwd, ew, w1, w2⟩ := prod3_within hd hx hy h1 h2
  set T := d k * x * y with hT
  have w0 : 0 ≤ w := le_trans (mul_nonneg ht.le (by linarith)) w1
  have hc := small_count (m := m) (c := 2.1) (by norm_num) hm.le
  have hab := abs_le.1 (inv_abs hm.le V0 g1 g2)
  have big : v + w ≤ (2 : ℝ) ^ (1023 : ℤ) := by
    have hv2 : v ≤ 2 * V := by nlinarith
    have hw2 : w ≤ 2 * T := by nlinarith
    have e1 : (2 : ℝ) ^ (1023 : ℤ) = (2 : ℝ) ^ (23 : ℤ) * (2 : ℝ) ^ (1000 : ℤ) := by
      rw [← zpow_add₀ (by norm_num)]; norm_num
    have e2 : (2 : ℝ) ^ (23 : ℤ) = 8388608 := by norm_num
    have h3 : (m : ℝ) ≤ 1048576 := by exact_mod_cast hm.le
    rw [e1, e2]
    exact big_aux' (pow_pos' 1000) hv2 hw2 hVm h2.2 h3
  obtain ⟨r, hr, er, r1, r2⟩ := add_step (a := 2.1 * ulp2) (by linarith) (by linarith) hv hwd v0 w0
    ht.le ⟨g1, g2⟩ ⟨w1, w2⟩ big
  refine ⟨fin r, fin (V + T), ?_, ?_, r, hr, V + T, rfl, rfl, ?_, ?_, ?_, r1, r2⟩
  · rw [invBody, if_pos (guard_pos hd hx hy)]
    simp only [ew, show (fin w).isInf = false from rfl]
    exact congrArg Except.ok er
  · rw [invBody, if_pos (guard_pos hd hx hy)]
    rfl
  · refine le_trans (mul_nonneg (by linarith) (mul_nonneg (by linarith) (pow_nonneg ?_ _))) r1
    linarith
  · right
    linarith [h2.1]
  · push_cast
    rw [add_mul, one_mul]
    exact add_le_add hVm h2.2

/-- From the sum to the probability. -/
theorem inv_end {m : ℕ} (hm : m ≤ 2 ^ 20) {s s' : XR} (hs : InvAcc m s s') :
    ∃ p ∈ doubles, ∃ q : ℝ, -(binary64.expm1 (-s)) = fin p ∧ -(Arith.exact.expm1 (-s')) = fin q ∧
      0 ≤ q ∧ q ≤ 1 ∧ Within (2 * (m + 3) * ulp2) q p ∧ (s.isZero = true → p = 0) ∧
      (s'.isZero = true → q = 0) ∧ (s.isZero = s'.isZero) := by
  obtain ⟨v, hv, V, rfl, rfl, v0, hV, hVm, g1, g2⟩ := hs
  have hu := ulp2_pos
  have hu' := ulp2_small
  have V0 := nonneg_of hV
  have hm0 : (0 : ℝ) ≤ m := Nat.cast_nonneg m
  have hc := small_count (m := m) (c := 2.1) (by norm_num) hm
  rcases V0.eq_or_lt with h | h
  · subst h
    obtain rfl : v = 0 := by
      rw [zero_mul] at g2
      linarith
    refine ⟨0, hv, 0, ?_, ?_, le_rfl, zero_le_one, by simp [Within], fun _ => rfl, fun _ => rfl,
      rfl⟩
    · show -(roundXR (fin (Real.exp (-0) - 1))) = fin 0
      rw [neg_zero, Real.exp_zero, sub_self]
      show -(toDouble 0) = fin 0
      rw [toDouble_self hv]
      show fin (-0) = fin 0
      rw [neg_zero]
    · show fin (-(Real.exp (-0) - 1)) = fin 0
      rw [neg_zero, Real.exp_zero, sub_self, neg_zero]
  · have hV' : (2 : ℝ) ^ (-1000 : ℤ) ≤ V := hV.resolve_left h.ne'
    have hab := abs_le.1 (inv_abs hm V0 g1 g2)
    have hw : Within (2 * (2.1 + m) * ulp2) V v := ⟨by linarith, by linarith⟩
    obtain ⟨p, hp, ep, p1, p2⟩ := inv_within' (by positivity) (by linarith) h hV' hw
    have vpos : 0 < v := lt_of_lt_of_le (mul_pos h (by linarith)) hw.1
    have q0 : 0 ≤ 1 - Real.exp (-V) := by
      have : Real.exp (-V) ≤ 1 := Real.exp_le_one_iff.2 (by linarith)
      linarith
    refine ⟨p, hp, 1 - Real.exp (-V), ep, ?_, q0, by linarith [Real.exp_pos (-V)], ⟨?_, ?_⟩, ?_, ?_,
      ?_⟩
    · show fin (-(Real.exp (-V) - 1)) = _
      rw [neg_sub]
    · exact (mul_le_mul_of_nonneg_left (by linarith) q0).trans p1
    · exact p2.trans (mul_le_mul_of_nonneg_left (by linarith) q0)
    · intro hz; simp [isZero, vpos.ne'] at hz
    · intro hz; simp [isZero, h.ne'] at hz
    · simp [isZero, vpos.ne', h.ne']

/-- The sum itself. -/
theorem inv_sum {m : ℕ} (hm : m ≤ 2 ^ 20) {s s' : XR} (hs : InvAcc m s s') :
    ∃ v ∈ doubles, ∃ V : ℝ, s = fin v ∧ s' = fin V ∧ 0 ≤ v ∧
      (V = 0 ∧ v = 0 ∨ 0 < V ∧ 0 < v ∧ (2 : ℝ) ^ (-1000 : ℤ) ≤ V) ∧
      Within (2 * (2.1 + m) * ulp2) V v := by
  obtain ⟨v, hv, V, rfl, rfl, v0, hV, hVm, g1, g2⟩ := hs
  have V0 := nonneg_of hV
  have hc := small_count (m := m) (c := 2.1) (by norm_num) hm
  have hab := abs_le.1 (inv_abs hm V0 g1 g2)
  have hw : Within (2 * (2.1 + m) * ulp2) V v := ⟨by linarith, by linarith⟩
  refine ⟨v, hv, V, rfl, rfl, v0, ?_, hw⟩
  rcases V0.eq_or_lt with h | h
  · subst h
    rw [zero_mul] at g2
    exact .inl ⟨rfl, le_antisymm g2 v0⟩
  · exact .inr ⟨h, lt_of_lt_of_le (mul_pos h (by linarith)) hw.1, hV.resolve_left h.ne'⟩

end Round

end Verif
