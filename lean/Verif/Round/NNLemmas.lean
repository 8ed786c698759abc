import Verif.Round.NNModel
import Verif.Round.AllSums

/-!
# Nearest-neighbour averages in double precision: lemmas
-/

namespace Verif

namespace Round

open XR
open DiGraphEnsemble (Dir)

/-! ## The loop in two arithmetics -/

/-- Both results are arrays, and these are related. -/
def BothOk {ε : Type} (R : (ℕ → XR) → (ℕ → XR) → Prop) (a b : Except ε (ℕ → XR)) : Prop :=
  ∃ s t, a = .ok s ∧ b = .ok t ∧ R s t

theorem foldlM_both {ε : Type} (f g : (ℕ → XR) → ℕ → Except ε (ℕ → XR))
    (R : ℕ → (ℕ → XR) → (ℕ → XR) → Prop) (m : ℕ) {s t : ℕ → XR} (h0 : R 0 s t)
    (h : ∀ j < m, ∀ s t, R j s t → BothOk (R (j + 1)) (f s j) (g t j)) :
    BothOk (R m) ((List.range m).foldlM f s) ((List.range m).foldlM g t) := by
  induction m with
  | zero => exact ⟨s, t, rfl, rfl, h0⟩
  | succ m ih =>
    rw [List.range_succ, List.foldlM_append, List.foldlM_append]
    obtain ⟨s', t', e, e', hR⟩ := ih fun j hj => h j (by omega)
    rw [e, e']
    obtain ⟨u, v, e1, e2, hR'⟩ := h m (by omega) s' t' hR
    refine ⟨u, v, ?_, ?_, hR'⟩
    · show (f s' m >>= fun x => List.foldlM f x []) = _
      rw [e1]; rfl
    · show (g t' m >>= fun x => List.foldlM g x []) = _
      rw [e2]; rfl

/-- The loop of `exp_av_nn_prop` for the directions `out` and `in`. -/
theorem exp_av_nn_rel {A B : Arith} {α β δ ζ : Type} (jUndef n : ℕ) (sl : Bool)
    (p q : δ → α → β → ζ → XR) (d : δ) (x : ℕ → α) (y : ℕ → β) (z : ζ) (g g' : ℕ → XR) (ndir : Dir)
    (hdir : ndir = .out ∨ ndir = .inn) (P : ℕ → XR → XR → Prop) (Q : XR → XR → Prop) (h0 : P 0 0 0)
    (hadd : ∀ k < n, ∀ e e' v v', P k e e' → Q v v' → P (k + 1) (A.add e v) (B.add e' v'))
    (hQ : ∀ i < n, ∀ j < n, ∀ k < n, Q (A.mul (p d (x i) (y j) z) (g k))
      (B.mul (q d (x i) (y j) z) (g' k))) :
    BothOk (fun s t => ∀ k < n, P (n - 1 + sl.toNat) (s k) (t k))
      (exp_av_nn_prop A jUndef p d n x y (fun _ _ => z) g ndir sl)
      (exp_av_nn_prop B jUndef q d n x y (fun _ _ => z) g' ndir sl) := by
  let I : ℕ → ℕ → (ℕ → XR) → (ℕ → XR) → Prop := fun m j s t => ∀ k,
    P (contributions m j 0 k) (s k) (t k)
  have step : ∀ m < n, ∀ j < m, ∀ s t, I m j s t →
      BothOk (I m (j + 1)) (exp_av_nn_step A p d x y (fun _ _ => z) g ndir m s j)
        (exp_av_nn_step B q d x y (fun _ _ => z) g' ndir m t j) := by
    intro m hm j hj s t hI
    have hjn : j < n := by omega
    rcases hdir with rfl | rfl
    · exact ⟨_, _, rfl, rfl, fun k => step_pair_rel (Q := Q) (by omega) hadd hm hj hI
        (hQ m hm j hjn j hjn) (hQ j hjn m hm m hm) k⟩
    · exact ⟨_, _, rfl, rfl, fun k => step_pair_rel (Q := Q) (by omega) hadd hm hj hI
        (hQ j hjn m hm j hjn) (hQ m hm j hjn m hm) k⟩
  have hpairs : BothOk (I n 0) ((List.range n).foldlM (fun av_nn i => (List.range i).foldlM
      (exp_av_nn_step A p d x y (fun _ _ => z) g ndir i) av_nn) zeros)
      ((List.range n).foldlM (fun av_nn i => (List.range i).foldlM
      (exp_av_nn_step B q d x y (fun _ _ => z) g' ndir i) av_nn) zeros) := by
    refine foldlM_both _ _ (fun m => I m 0) n ?_ ?_
    · intro k
      have : contributions 0 0 0 k = 0 := by unfold contributions; split_ifs <;> omega
      rw [this]
      exact h0
    · intro m hm s t hs
      obtain ⟨u, v, e1, e2, hR⟩ := foldlM_both (exp_av_nn_step A p d x y (fun _ _ => z) g ndir m)
        (exp_av_nn_step B q d x y (fun _ _ => z) g' ndir m) (fun j => I m j) m hs (step m hm)
      refine ⟨u, v, e1, e2, fun k => ?_⟩
      have := hR k
      rw [← contributions_skip, ← contributions_next] at this
      exact this
  have hc : ∀ k < n, contributions n 0 0 k = n - 1 := by
    intro k hk
    unfold contributions
    rw [if_neg (by omega), if_neg (by omega), if_pos hk]; rfl
  obtain ⟨s, t, e1, e2, hst⟩ := hpairs
  have hst' : ∀ k < n, P (n - 1) (s k) (t k) := fun k hk => by
    have := hst k
    rwa [hc k hk] at this
  unfold exp_av_nn_prop
  simp only [e1, e2]
  show BothOk _ (if sl = true then _ else _) (if sl = true then _ else _)
  cases sl with
  | false => exact ⟨s, t, rfl, rfl, hst'⟩
  | true =>
    rw [if_pos rfl, if_pos rfl]
    let J : ℕ → (ℕ → XR) → (ℕ → XR) → Prop := fun m s t => ∀ k < n,
      P (if k < m then n else n - 1) (s k) (t k)
    have h2 := foldlM_both
      (exp_av_nn_self A p d x y (fun _ _ => z) g ndir (if 2 ≤ n then n - 2 else jUndef))
      (exp_av_nn_self B q d x y (fun _ _ => z) g' ndir (if 2 ≤ n then n - 2 else jUndef))
      J n (s := s) (t := t) (fun k hk => by simpa using hst' k hk) (by
        intro m hm s t hJ
        have hnew : ∀ k < n, P (if k < m + 1 then n else n - 1)
            (addAt A s m (A.mul (p d (x m) (y m) z) (g m)) k)
            (addAt B t m (B.mul (q d (x m) (y m) z) (g' m)) k) := by
          intro k hk
          rw [addAt_apply, addAt_apply]
          by_cases h : k = m
          · subst h
            rw [if_pos (show k < k + 1 by omega), if_pos rfl, if_pos rfl]
            have h3 := hJ k hk
            rw [if_neg (lt_irrefl k)] at h3
            have := hadd _ (by omega) _ _ _ _ h3 (hQ k hk k hk k hk)
            rwa [show n - 1 + 1 = n by omega] at this
          · rw [if_neg h, if_neg h]
            have h3 := hJ k hk
            by_cases h4 : k < m
            · rw [if_pos h4] at h3; rwa [if_pos (by omega)]
            · rw [if_neg h4] at h3; rwa [if_neg (by omega)]
        rcases hdir with rfl | rfl
        · exact ⟨_, _, rfl, rfl, hnew⟩
        · exact ⟨_, _, rfl, rfl, hnew⟩)
    obtain ⟨u, v, e3, e4, hR⟩ := h2
    refine ⟨u, v, e3, e4, fun k hk => ?_⟩
    have := hR k hk
    rw [if_pos hk] at this
    rwa [show n - 1 + true.toNat = n by simp; omega]

/-! ## Sums of weighted terms -/

/-- A computed term and its exact value, at most `M`. -/
def NTerm (c M : ℝ) (v e : XR) : Prop :=
  ∃ w ∈ doubles, ∃ W : ℝ, v = fin w ∧ e = fin W ∧ 0 ≤ w ∧ 0 ≤ W ∧ W ≤ M ∧ Within (c * ulp2) W w

/-- A computed sum of `k` terms and its exact value. -/
def NAcc (c M : ℝ) (k : ℕ) (v e : XR) : Prop :=
  ∃ w ∈ doubles, ∃ W : ℝ, v = fin w ∧ e = fin W ∧ 0 ≤ w ∧ 0 ≤ W ∧ W ≤ k * M ∧
    W * ((1 - c * ulp2) * (1 - ulp2) ^ k) ≤ w ∧ w ≤ W * ((1 + c * ulp2) * (1 + ulp2) ^ k)

theorem nacc_zero (c M : ℝ) : NAcc c M 0 0 0 :=
  ⟨0, Faithful.binary64.zero_mem, 0, rfl, rfl, le_rfl, le_rfl, by simp, by simp, by simp⟩

theorem count_small' {c : ℝ} (hc : c ≤ 2 ^ 28) {k : ℕ} (hk : k ≤ 2 ^ 26) :
    (c + k) * ulp2 ≤ 1 / 1000000 := by
  have h1 : (k : ℝ) ≤ 2 ^ 26 := by exact_mod_cast hk
  have h2 : ulp2 ≤ 1 / 2 ^ 53 := by unfold ulp2; norm_num
  calc (c + k) * ulp2 ≤ (2 ^ 28 + 2 ^ 26) * (1 / 2 ^ 53) :=
        mul_le_mul (by linarith) h2 ulp2_pos.le (by norm_num)
    _ ≤ _ := by norm_num

theorem NAcc.within {c M : ℝ} (c0 : 0 ≤ c) (hc : c ≤ 2 ^ 28) {k : ℕ} (hk : k ≤ 2 ^ 26) {v e : XR}
    (h : NAcc c M k v e) :
    ∃ w ∈ doubles, ∃ W : ℝ, v = fin w ∧ e = fin W ∧ 0 ≤ w ∧ 0 ≤ W ∧ W ≤ k * M ∧
      Within (2 * (c + k) * ulp2) W w := by
  obtain ⟨w, hw, W, e1, e2, w0, W0, WM, g1, g2⟩ := h
  have hs := count_small' hc hk
  have := abs_le.1 (abs_of_powers (c := c) c0 (by linarith) W0 g1 g2)
  exact ⟨w, hw, W, e1, e2, w0, W0, WM, by linarith [this.1], by linarith [this.2]⟩

theorem nacc_add {c M : ℝ} (c0 : 0 ≤ c) (hc : c ≤ 2 ^ 28) (M0 : 0 ≤ M)
    (hM : M ≤ (2 : ℝ) ^ (400 : ℤ)) {k : ℕ} (hk : k < 2 ^ 26)
    {e e' v v' : XR} (h : NAcc c M k e e') (hv : NTerm c M v v') :
    NAcc c M (k + 1) (binary64.add e v) (Arith.exact.add e' v') := by
  have hu := ulp2_pos
  have hu' := ulp2_small
  obtain ⟨w', hw', W', a1, a2, w0', W0', WM', hw''⟩ := h.within c0 hc hk.le
  obtain ⟨w, hw, W, rfl, rfl, w0, W0, WM, g1, g2⟩ := h
  obtain ⟨t, ht, T, rfl, rfl, t0, T0, TM, htT⟩ := hv
  obtain rfl := XR.fin.inj a1
  obtain rfl := XR.fin.inj a2
  have hs := count_small' hc hk.le
  have hk' : (k : ℝ) ≤ 2 ^ 26 := by exact_mod_cast hk.le
  have hk0 : (0 : ℝ) ≤ k := Nat.cast_nonneg k
  have cu0 : 0 ≤ c * ulp2 := mul_nonneg c0 hu.le
  have ku0 : 0 ≤ k * ulp2 := mul_nonneg hk0 hu.le
  have cu : c * ulp2 ≤ 1 / 1000000 := by linarith
  have big : w + t ≤ (2 : ℝ) ^ (1023 : ℤ) := by
    have b1 : w ≤ 2 * W := by
      refine hw''.2.trans ?_
      rw [mul_comm 2 W]
      exact mul_le_mul_of_nonneg_left (by linarith) W0
    have b2 : t ≤ 2 * T := by
      refine htT.2.trans ?_
      rw [mul_comm 2 T]
      exact mul_le_mul_of_nonneg_left (by linarith) T0
    have b3 : (k : ℝ) * M ≤ 2 ^ 26 * M := mul_le_mul_of_nonneg_right hk' M0
    have b4 : w + t ≤ 2 ^ 28 * M := by linarith
    refine b4.trans ((mul_le_mul_of_nonneg_left hM (by norm_num)).trans ?_)
    have e1 : (2 : ℝ) ^ 28 * (2 : ℝ) ^ (400 : ℤ) = (2 : ℝ) ^ (428 : ℤ) := by
      rw [show (428 : ℤ) = 28 + 400 by norm_num, zpow_add₀ (by norm_num)]; rfl
    rw [e1]
    exact zpow_le_zpow_right₀ (by norm_num) (by norm_num)
  obtain ⟨s, hs, es, s1, s2⟩ := add_step (a := c * ulp2) cu0 (by linarith) hw ht w0 t0 T0
    ⟨g1, g2⟩ htT big
  refine ⟨s, hs, W + T, es, rfl, ?_, by linarith, ?_, s1, s2⟩
  · refine le_trans (mul_nonneg (by linarith) (mul_nonneg (by linarith) (pow_nonneg ?_ _))) s1
    linarith
  · push_cast; linarith

/-- The quotient of two numbers known up to a relative error. -/
theorem quot_within {e S s D t : ℝ} (he0 : 0 ≤ e) (he : e ≤ 1 / 100) (S0 : 0 ≤ S) (hD : 0 < D)
    (hs : Within e S s) (ht : Within e D t) : 0 < t ∧ Within (2.03 * e) (S / D) (s / t) := by
  have t0 : 0 < t := lt_of_lt_of_le (mul_pos hD (by linarith)) ht.1
  refine ⟨t0, ?_, ?_⟩
  · rw [le_div_iff₀ t0, div_mul_eq_mul_div, div_mul_eq_mul_div, div_le_iff₀ hD]
    have h1 : S * (1 - 2.03 * e) * t ≤ S * (1 - 2.03 * e) * (D * (1 + e)) :=
      mul_le_mul_of_nonneg_left ht.2 (mul_nonneg S0 (by linarith))
    have h2 : S * (1 - e) * D ≤ s * D := mul_le_mul_of_nonneg_right hs.1 hD.le
    have h3 : (1 - 2.03 * e) * (1 + e) ≤ 1 - e := by nlinarith
    have h4 := mul_le_mul_of_nonneg_left h3 (mul_nonneg S0 hD.le)
    nlinarith
  · rw [div_le_iff₀ t0, div_mul_eq_mul_div, div_mul_eq_mul_div, le_div_iff₀ hD]
    have h1 : S * (1 + 2.03 * e) * (D * (1 - e)) ≤ S * (1 + 2.03 * e) * t :=
      mul_le_mul_of_nonneg_left ht.1 (mul_nonneg S0 (by linarith))
    have h2 : s * D ≤ S * (1 + e) * D := mul_le_mul_of_nonneg_right hs.2 hD.le
    have h3 : 1 + e ≤ (1 + 2.03 * e) * (1 - e) := by nlinarith
    have h4 := mul_le_mul_of_nonneg_left h3 (mul_nonneg S0 hD.le)
    nlinarith

/-! ## The loop without rounding -/

/-- `exp_av_nn_prop` without rounding, for probabilities that are numbers on the vertices. -/
theorem exact_av_nn {α β δ ζ : Type} (jUndef n : ℕ) (s : Bool) (p : δ → α → β → ζ → XR) (d : δ)
    (x : ℕ → α) (y : ℕ → β) (z : ζ) (v : ℕ → XR) (g : ℕ → ℝ) (hv : ∀ i < n, v i = fin (g i))
    (ndir : Dir) (hdir : ndir.Known) (q : ℕ → ℕ → ℝ)
    (hp : ∀ i < n, ∀ j < n, p d (x i) (y j) z = fin (q i j)) :
    ∃ S : ℕ → XR, exp_av_nn_prop Arith.exact jUndef p d n x y (fun _ _ => z) v ndir s
        = .ok S ∧
      ∀ k < n, S k = fin (∑ j ∈ Finset.range n, Query.weight q s ndir k j * g j) := by
  let F : ℕ → ℕ → ℕ → ℝ := fun i j => Pi.single i (Query.weight q s ndir i j * g j)
  let R : (ℕ → ℝ) → ℕ → XR := fun a k => fin (a k)
  have hpairs : (List.range n).foldlM (fun av_nn i => (List.range i).foldlM
      (DiGraphEnsemble.exp_av_nn_step p d x y (fun _ _ => z) v ndir i) av_nn) zeros
      = .ok (R (0 + ∑ i ∈ Finset.range n, ∑ j ∈ Finset.range i, (F i j + F j i))) := by
    have h0 : (zeros : ℕ → XR) = R 0 := rfl
    rw [h0]
    refine foldlM_rep R _ _ n (fun i hi a => ?_) 0
    refine foldlM_rep R _ _ i (fun j hj a => ?_) a
    have hij : i ≠ j := by omega
    unfold DiGraphEnsemble.exp_av_nn_step
    simp only [hp i hi j (by omega), hp j (by omega) i hi, hv i hi, hv j (by omega), fin_mul_fin]
    cases ndir with
    | underscored | other => exact False.elim hdir
    | out =>
      simp only [R, addAt_fin, F, Query.weight, Query.masked_ne hij,
        Query.masked_ne hij.symm, add_assoc]
    | inn =>
      simp only [R, addAt_fin, F, Query.weight, Query.masked_ne hij,
        Query.masked_ne hij.symm, add_assoc]
    | outIn =>
      have e : ∀ a b : ℝ, ((1 : XR) - (1 - fin a) * (1 - fin b)) = fin (a + b - a * b) := by
        intro a b
        rw [one_def, fin_sub_fin, fin_sub_fin, fin_mul_fin, fin_sub_fin]; congr 1; ring
      simp only [e, fin_mul_fin, R, addAt_fin, F, Query.weight,
        DiGraphEnsemble.undir, if_pos hij, if_pos hij.symm, add_assoc]
      rw [add_comm (q j i) , mul_comm (q j i)]
  refine ⟨R (∑ i ∈ Finset.range n, ∑ j ∈ Finset.range n, F i j), ?_,
    fun k hk => congrArg fin (DiGraphEnsemble.sum_single_row _ k hk)⟩
  show DiGraphEnsemble.exp_av_nn_prop jUndef p d n x y _ _ ndir s = _
  unfold DiGraphEnsemble.exp_av_nn_prop
  dsimp only
  rw [hpairs]
  show (if s = true then _ else _) = _
  rw [zero_add]
  by_cases hs : s = true
  · rw [if_pos hs]
    refine (foldlM_rep R _ (fun i => F i i) n (fun i hi a => ?_) _).trans ?_
    · unfold DiGraphEnsemble.exp_av_nn_self
      simp only [hp i hi i hi, hv i hi, fin_mul_fin]
      cases ndir with
      | underscored | other => exact False.elim hdir
      | out => simp [R, addAt_fin, F, Query.weight, DiGraphEnsemble.masked,
          admissible, hs]
      | inn => simp [R, addAt_fin, F, Query.weight, DiGraphEnsemble.masked,
          admissible, hs]
      | outIn => simp [R, addAt_fin, F, Query.weight, DiGraphEnsemble.undir, hs]
    · rw [sum_strict_triangle]
  · rw [if_neg hs]
    have hz : ∀ i, F i i = 0 := by
      intro i
      have : Query.weight q s ndir i i = 0 := by
        cases ndir <;> simp [Query.weight, DiGraphEnsemble.masked, DiGraphEnsemble.undir,
          admissible, hs]
      simp [F, this]
    have h2 := sum_strict_triangle F n
    simp only [hz, Finset.sum_const_zero, add_zero] at h2
    rw [h2]

/-- The expected degrees without rounding, for probabilities that are numbers on the vertices. -/
theorem exact_deg {α β δ ζ : Type} (n : ℕ) (s : Bool) (p : δ → α → β → ζ → XR) (d : δ)
    (x : ℕ → α) (y : ℕ → β) (z : ζ) (dir : Dir) (hdir : dir.Known) (q : ℕ → ℕ → ℝ)
    (hp : ∀ i < n, ∀ j < n, p d (x i) (y j) z = fin (q i j)) (k : ℕ) (hk : k < n) :
    Query.pick dir (exp_degrees Arith.exact p d n x y (fun _ _ => z) s) k
      = fin (∑ j ∈ Finset.range n, Query.weight q s dir k j) := by
  have h := DiGraphEnsemble.exp_degrees_at (q := q) (selfloops := s) (p_ij := p) (param := d)
    (prop_out := x) (prop_in := y) (prop_dyad := fun _ _ => z) (n := n)
    (fun i hi j hj _ => hp i hi j hj) k hk
  dsimp only at h
  cases dir with
  | underscored | other => exact False.elim hdir
  | out => exact h.2.1
  | inn => exact h.2.2
  | outIn => exact h.1

/-- The average without rounding. -/
theorem exact_average {α β δ ζ : Type} (jUndef n : ℕ) (s : Bool) (p : δ → α → β → ζ → XR) (d : δ)
    (x : ℕ → α) (y : ℕ → β) (z : ζ) (v : ℕ → XR) (g : ℕ → ℝ) (hv : ∀ i < n, v i = fin (g i))
    (ndir : Dir) (hdir : ndir.Known) (q : ℕ → ℕ → ℝ)
    (hp : ∀ i < n, ∀ j < n, p d (x i) (y j) z = fin (q i j))
    (hw : ∀ i < n, ∀ j < n, 0 ≤ Query.weight q s ndir i j) :
    ∃ A : ℕ → XR, av_nn Arith.exact jUndef p d n x y (fun _ _ => z) v ndir s
        = .ok A ∧
      ∀ k < n, A k = fin ((∑ j ∈ Finset.range n, Query.weight q s ndir k j * g j) /
        ∑ j ∈ Finset.range n, Query.weight q s ndir k j) := by
  obtain ⟨S, eS, hS⟩ := exact_av_nn jUndef n s p d x y z v g hv ndir hdir q hp
  have hD := fun k hk => exact_deg n s p d x y z ndir hdir q hp k hk
  have hzero : ∀ k < n, (∑ j ∈ Finset.range n, Query.weight q s ndir k j) = 0 →
      (∑ j ∈ Finset.range n, Query.weight q s ndir k j * g j) = 0 := by
    intro k hk h
    rw [Finset.sum_eq_zero_iff_of_nonneg
      (fun j hj => hw k hk j (Finset.mem_range.1 hj))] at h
    exact Finset.sum_eq_zero fun j hj => by rw [h j hj, zero_mul]
  unfold av_nn
  simp only [eS]
  rw [if_pos]
  · refine ⟨_, rfl, fun k hk => ?_⟩
    unfold average
    rw [hD k hk, hS k hk]
    by_cases h : (∑ j ∈ Finset.range n, Query.weight q s ndir k j) = 0
    · simp only [isZero_fin, h, decide_true, if_true, div_zero]
      rw [hzero k hk h]
    · simp only [isZero_fin, h, decide_false, Bool.false_eq_true, if_false]
      exact fin_div_fin _ _ h
  · rw [List.all_eq_true]
    intro k hk
    have hk := List.mem_range.1 hk
    rw [hD k hk, hS k hk]
    by_cases h : (∑ j ∈ Finset.range n, Query.weight q s ndir k j) = 0
    · simp [isZero_fin, h, hzero k hk h]
    · simp [isZero_fin, h]

/-- A number close to one, from below, is rounded to one. -/
theorem toDouble_near_one {t : ℝ} (t0 : 0 < t) (h : t ≤ (2 : ℝ) ^ (-55 : ℤ)) :
    toDouble (1 - t) = fin 1 := by
  have hs : (2 : ℝ) ^ (-55 : ℤ) = 1 / 2 ^ 55 := by norm_num
  rw [hs] at h
  have he : expo (1 - t) = -53 :=
    expo_of (L := -1) (by norm_num at h ⊢; linarith) (by norm_num; linarith) (by norm_num)
  have hn := nearest_err ((1 - t) / (2 : ℝ) ^ expo (1 - t))
  rw [he] at hn
  have hy : (1 - t) / (2 : ℝ) ^ (-53 : ℤ) = 2 ^ 53 - t * 2 ^ 53 := by
    rw [show (2 : ℝ) ^ (-53 : ℤ) = 1 / 2 ^ 53 by norm_num]; field_simp
  rw [hy] at hn
  have hm : nearest (2 ^ 53 - t * 2 ^ 53) = (2 ^ 53 : ℤ) := by
    have h1 := abs_le.1 hn
    have h2 : t * 2 ^ 53 ≤ 1 / 4 := by
      calc t * 2 ^ 53 ≤ 1 / 2 ^ 55 * 2 ^ 53 := mul_le_mul_of_nonneg_right h (by norm_num)
        _ = _ := by norm_num
    have h3 : 0 < t * 2 ^ 53 := by positivity
    generalize nearest (2 ^ 53 - t * 2 ^ 53) = N at h1
    generalize t * 2 ^ 53 = T at h1 h2 h3
    have l : (2 ^ 53 : ℝ) - 1 < N := by linarith [h1.1]
    have u : (N : ℝ) < (2 ^ 53 : ℝ) + 1 := by linarith [h1.2]
    have l' : (2 ^ 53 : ℤ) - 1 < N := by exact_mod_cast l
    have u' : N < (2 ^ 53 : ℤ) + 1 := by exact_mod_cast u
    omega
  have hr : rnd (1 - t) = 1 := by
    rw [rnd, he, hy, hm]; norm_num
  have hone : (1 : ℝ) ∈ doubles := Faithful.binary64.one_mem
  have hr1 : rnd 1 = 1 := le_antisymm (rnd_le hone le_rfl) (le_rnd hone le_rfl)
  rw [← toDouble_self hone]
  unfold toDouble
  rw [hr, hr1]

end Round

end Verif
