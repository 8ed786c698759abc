import Verif.Round.NNProps
import Verif.Round.AllProps

/-!
# C110 for the direction `out-in`

The probability of a link in either direction is computed as one minus the product of the complements.
`C110_outin_violated` shows that this is not accurate for small probabilities.  Here it is shown that the
error is bounded if the probabilities that are not zero are at least `1 / K`, in terms of `K`.
-/

namespace Verif

open XR Round
open DiGraphEnsemble (Dir)

/-- The probability of a link in either direction, as computed for two different vertices, and the
probability of a self-loop otherwise. -/
private noncomputable def union {α β δ ζ : Type} (A : Arith) (p : δ → α → β → ζ → XR) (x : ℕ → α)
    (y : ℕ → β) (d : δ) (i j : ℕ) (z : ζ) : XR :=
  if i = j then p d (x i) (y i) z
  else A.sub 1 (A.mul (A.sub 1 (p d (x i) (y j) z)) (A.sub 1 (p d (x j) (y i) z)))

private theorem mul_comm' (a b : XR) : a * b = b * a := by
  cases a <;> cases b <;> first | rfl | exact congrArg fin (mul_comm _ _)

private theorem foldlM_congr {ε σ : Type} (f g : σ → ℕ → Except ε σ) (l : List ℕ) (s : σ)
    (h : ∀ j ∈ l, ∀ s, f s j = g s j) : l.foldlM f s = l.foldlM g s := by
  induction l generalizing s with
  | nil => rfl
  | cons a l ih =>
    rw [List.foldlM_cons, List.foldlM_cons, h a List.mem_cons_self s]
    exact congrArg _ (funext fun t => ih t fun j hj => h j (List.mem_cons_of_mem _ hj))

private theorem outin_as_out {α β δ ζ : Type} (A : Arith) (hA : ∀ a b, A.mul a b = A.mul b a)
    (p : δ → α → β → ζ → XR) (jUndef n : ℕ) (d : δ) (x : ℕ → α) (y : ℕ → β) (z : ζ) (g : ℕ → XR)
    (sl : Bool) :
    Round.exp_av_nn_prop A jUndef p d n x y (fun _ _ => z) g .outIn sl
      = Round.exp_av_nn_prop A jUndef (union A p x y) d n id id (fun _ _ => z) g .out sl := by
  unfold Round.exp_av_nn_prop
  have h1 : (List.range n).foldlM (fun av_nn i => (List.range i).foldlM
      (exp_av_nn_step A p d x y (fun _ _ => z) g .outIn i) av_nn) zeros
      = (List.range n).foldlM (fun av_nn i => (List.range i).foldlM
      (exp_av_nn_step A (union A p x y) d id id (fun _ _ => z) g .out i) av_nn) zeros := by
    refine foldlM_congr _ _ _ _ fun i _ s => foldlM_congr _ _ _ _ fun j hj s => ?_
    have hj := List.mem_range.1 hj
    simp only [exp_av_nn_step, union, id, if_neg hj.ne', if_neg hj.ne]
    rw [hA (A.sub 1 (p d (x j) (y i) z))]
  have h2 : (fun av_nn => if sl = true then (List.range n).foldlM
        (exp_av_nn_self A p d x y (fun _ _ => z) g .outIn (if 2 ≤ n then n - 2 else jUndef)) av_nn
      else .ok av_nn)
      = (fun av_nn => if sl = true then (List.range n).foldlM
        (exp_av_nn_self A (union A p x y) d id id (fun _ _ => z) g .out
          (if 2 ≤ n then n - 2 else jUndef)) av_nn
      else .ok av_nn) := by
    funext s
    split
    · refine foldlM_congr _ _ _ _ fun i _ s => ?_
      simp only [exp_av_nn_self, union, id, if_true]
    · rfl
  dsimp only
  rw [h1, h2]

/-- The rounding errors of one minus the product of the complements. -/
private theorem union_term {e K p₁ p₂ q₁ q₂ : ℝ} (e0 : 0 ≤ e) (hK : 2 ≤ K)
    (p1 : 0 ≤ p₁ ∧ p₁ ≤ 1) (p2 : 0 ≤ p₂ ∧ p₂ ≤ 1) (q1 : 0 ≤ q₁ ∧ q₁ ≤ 1) (q2 : 0 ≤ q₂ ∧ q₂ ≤ 1)
    (h1 : q₁ = 0 ∨ 1 / K ≤ q₁) (h2 : q₂ = 0 ∨ 1 / K ≤ q₂)
    (w1 : Within (e * ulp2) q₁ p₁) (w2 : Within (e * ulp2) q₂ p₂) :
    (∃ u : ℝ, binary64.sub 1 (binary64.mul (binary64.sub 1 (fin p₁)) (binary64.sub 1 (fin p₂))) = fin u ∧
      Within ((2 * e + 4 * K) * ulp2) (q₁ + q₂ - q₁ * q₂) u) ∧
    Arith.exact.sub 1 (Arith.exact.mul (Arith.exact.sub 1 (fin q₁)) (Arith.exact.sub 1 (fin q₂)))
      = fin (q₁ + q₂ - q₁ * q₂) ∧ 0 ≤ q₁ + q₂ - q₁ * q₂ ∧ q₁ + q₂ - q₁ * q₂ ≤ 1 ∧
    (q₁ + q₂ - q₁ * q₂ = 0 ∨ 1 / K ≤ q₁ + q₂ - q₁ * q₂) := by
  have hu := ulp2_pos
  have K0 : 0 < K := by linarith
  have U1 : q₁ ≤ q₁ + q₂ - q₁ * q₂ := by nlinarith [mul_nonneg q2.1 (sub_nonneg.2 q1.2)]
  have U2 : q₂ ≤ q₁ + q₂ - q₁ * q₂ := by nlinarith [mul_nonneg q1.1 (sub_nonneg.2 q2.2)]
  have Ule : q₁ + q₂ - q₁ * q₂ ≤ 1 := by
    nlinarith [mul_nonneg (sub_nonneg.2 q1.2) (sub_nonneg.2 q2.2)]
  have alt : (q₁ = 0 ∧ q₂ = 0) ∨ 1 / K ≤ q₁ + q₂ - q₁ * q₂ := by
    rcases h1 with h1 | h1
    · rcases h2 with h2 | h2
      · exact .inl ⟨h1, h2⟩
      · exact .inr (h2.trans U2)
    · exact .inr (h1.trans U1)
  refine ⟨?_, ?_, q1.1.trans U1, Ule, ?_⟩
  · rcases alt with ⟨rfl, rfl⟩ | hU
    · have z1 : p₁ = 0 := by have := w1.1; have := w1.2; simp at *; linarith
      have z2 : p₂ = 0 := by have := w2.1; have := w2.2; simp at *; linarith
      subst z1 z2
      have s1 : binary64.sub 1 (fin 0) = fin 1 := by
        show toDouble (1 + -0) = _
        rw [neg_zero, add_zero]; exact toDouble_self Faithful.binary64.one_mem
      have s2 : binary64.mul (fin 1) (fin 1) = fin 1 := by
        show toDouble (1 * 1) = _
        rw [mul_one]; exact toDouble_self Faithful.binary64.one_mem
      have s3 : binary64.sub 1 (fin 1) = fin 0 := by
        show toDouble (1 + -1) = _
        rw [add_neg_cancel]; exact toDouble_self Faithful.binary64.zero_mem
      rw [s1, s2, s3]
      exact ⟨0, rfl, by simp [Within]⟩
    · obtain ⟨a, -, ea, a0, a1, ha⟩ := toDouble_unit (x := 1 + -p₁) (by linarith) (by linarith)
      obtain ⟨b, -, eb, b0, b1, hb⟩ := toDouble_unit (x := 1 + -p₂) (by linarith) (by linarith)
      have ab0 := mul_nonneg a0 b0
      have ab1 : a * b ≤ 1 := mul_le_one₀ a1 b0 b1
      obtain ⟨m, -, em, m0, m1, hm⟩ := toDouble_unit ab0 ab1
      obtain ⟨u, -, eu, u0, u1, hu1⟩ := toDouble_unit (x := 1 + -m) (by linarith) (by linarith)
      have e1 : binary64.sub 1 (fin p₁) = fin a := ea
      have e2 : binary64.sub 1 (fin p₂) = fin b := eb
      have e3 : binary64.mul (fin a) (fin b) = fin m := em
      have e4 : binary64.sub 1 (fin m) = fin u := eu
      rw [e1, e2, e3, e4]
      refine ⟨u, rfl, ?_⟩
      set U := q₁ + q₂ - q₁ * q₂ with hUdef
      have d1 : |p₁ - q₁| ≤ e * ulp2 * U := by
        have := mul_le_mul_of_nonneg_left U1 (mul_nonneg e0 hu.le)
        rw [abs_le]; constructor
        · linarith [w1.1]
        · linarith [w1.2]
      have d2 : |p₂ - q₂| ≤ e * ulp2 * U := by
        have := mul_le_mul_of_nonneg_left U2 (mul_nonneg e0 hu.le)
        rw [abs_le]; constructor
        · linarith [w2.1]
        · linarith [w2.2]
      have hKU : 1 ≤ K * U := by
        rw [div_le_iff₀ K0] at hU; linarith
      have d3 : ulp2 ≤ K * ulp2 * U := by
        have := mul_le_mul_of_nonneg_left hKU hu.le
        linarith
      have sa : |a - (1 - q₁)| ≤ ulp2 + e * ulp2 * U := by
        have : a - (1 - q₁) = (a - (1 + -p₁)) + -(p₁ - q₁) := by ring
        rw [this]
        refine (abs_add_le _ _).trans ?_
        rw [abs_neg]; linarith
      have sb : |b - (1 - q₂)| ≤ ulp2 + e * ulp2 * U := by
        have : b - (1 - q₂) = (b - (1 + -p₂)) + -(p₂ - q₂) := by ring
        rw [this]
        refine (abs_add_le _ _).trans ?_
        rw [abs_neg]; linarith
      have sab : |a * b - (1 - q₁) * (1 - q₂)| ≤ 2 * (ulp2 + e * ulp2 * U) := by
        have : a * b - (1 - q₁) * (1 - q₂) = (a - (1 - q₁)) * b + (1 - q₁) * (b - (1 - q₂)) := by ring
        rw [this]
        refine (abs_add_le _ _).trans ?_
        rw [abs_mul, abs_mul, abs_of_nonneg b0, abs_of_nonneg (sub_nonneg.2 q1.2)]
        have k1 : |a - (1 - q₁)| * b ≤ |a - (1 - q₁)| := mul_le_of_le_one_right (abs_nonneg _) b1
        have k2 : (1 - q₁) * |b - (1 - q₂)| ≤ |b - (1 - q₂)| :=
          mul_le_of_le_one_left (abs_nonneg _) (by linarith [q1.1])
        linarith
      have tot : |u - U| ≤ (2 * e + 4 * K) * ulp2 * U := by
        have : u - U = (u - (1 + -m)) + (-(m - a * b) + -(a * b - (1 - q₁) * (1 - q₂))) := by
          rw [hUdef]; ring
        rw [this]
        refine (abs_add_le _ _).trans ?_
        have := abs_add_le (-(m - a * b)) (-(a * b - (1 - q₁) * (1 - q₂)))
        rw [abs_neg, abs_neg] at this
        linarith
      have := abs_le.1 tot
      constructor
      · linarith [this.1]
      · linarith [this.2]
  · show fin (1 + -((1 + -q₁) * (1 + -q₂))) = _
    congr 1; ring
  · rcases alt with ⟨rfl, rfl⟩ | hU
    · exact .inl (by ring)
    · exact .inr hU

theorem Round.nn_mid_of {K r : ℝ} (hK : 2 ≤ K) (hK' : K ≤ 2 ^ 19) (r1 : r ≤ 1)
    (h : r = 0 ∨ 1 / K ≤ r) : Round.ZeroOrMid r := by
  refine h.imp id fun h => ⟨?_, ?_⟩
  · refine le_trans ?_ h
    have h1 : (2 : ℝ) ^ (-400 : ℤ) ≤ (2 : ℝ) ^ (-19 : ℤ) :=
      zpow_le_zpow_right₀ (by norm_num) (by norm_num)
    refine h1.trans ?_
    rw [zpow_neg, ← one_div]
    exact one_div_le_one_div_of_le (by linarith) (by exact_mod_cast hK')
  · exact r1.trans (one_le_zpow₀ (by norm_num) (by norm_num))

/-- The average over the neighbours in either direction. -/
theorem Round.av_nn_outin_core {α β δ ζ : Type} (pr ex : δ → α → β → ζ → XR) (n : ℕ) (hn : n ≤ 2 ^ 25)
    (d : δ) (x : ℕ → α) (y : ℕ → β) (z : ζ) (e : ℝ) (he0 : 0 ≤ e) (he : e ≤ 2 ^ 20)
    (h : ∀ i < n, ∀ j < n, Term (e * ulp2) (pr d (x i) (y j) z) (ex d (x i) (y j) z))
    (K : ℝ) (hK : 2 ≤ K) (hK' : K ≤ 2 ^ 19)
    (hp : ∀ i < n, ∀ j < n, ∀ q, ex d (x i) (y j) z = fin q → q = 0 ∨ 1 / K ≤ q)
    (cg : ℝ) (cg0 : 0 ≤ cg) (hcg : cg ≤ 2 ^ 27) (v v' : ℕ → XR)
    (hv : ∀ i < n, ∃ g' g : ℝ, v i = fin g' ∧ v' i = fin g ∧ Round.ZeroOrMid g ∧
      Within (cg * ulp2) g g') (sl : Bool) (jUndef : ℕ) :
    ∃ a A : ℕ → XR,
      Round.av_nn binary64 jUndef pr d n x y (fun _ _ => z) v .outIn sl = .ok a ∧
      Round.av_nn Arith.exact jUndef ex d n x y (fun _ _ => z) v' .outIn sl = .ok A ∧
      ∀ k < n, ∃ r R : ℝ, a k = fin r ∧ A k = fin R ∧ 0 ≤ R ∧
        |r - R| ≤ (4.06 * (2 * e + 4 * K + 1.7 + cg + n) + 1.03) * ulp2 * R := by
  have hu := ulp2_pos
  have hn' : (n : ℝ) ≤ 2 ^ 25 := by exact_mod_cast hn
  set c : ℝ := 2 * e + 4 * K + 1.7 + cg with hcdef
  choose! g' g ev ev' hg hgw using hv
  have c0 : 0 ≤ c := by linarith
  have hc : c ≤ 2 ^ 28 := by linarith
  choose! q q0 q1 eq using fun i (hi : i < n) j (hj : j < n) =>
    (show ∃ q : ℝ, 0 ≤ q ∧ q ≤ 1 ∧ ex d (x i) (y j) z = fin q from by
      obtain ⟨_, _, q, _, e2, _, _, q0, q1, _⟩ := h i hi j hj
      exact ⟨q, q0, q1, e2⟩)
  have acc : ∀ i < n, ∀ j < n, ∃ p : ℝ,
      pr d (x i) (y j) z = fin p ∧ 0 ≤ p ∧ p ≤ 1 ∧ Within (e * ulp2) (q i j) p := by
    intro i hi j hj
    obtain ⟨p, _, q', e1, e2, p0, p1, _, _, hw⟩ := h i hi j hj
    rw [eq i hi j hj] at e2
    obtain rfl := XR.fin.inj e2
    exact ⟨p, e1, p0, p1, hw⟩
  have hq : ∀ i < n, ∀ j < n, q i j = 0 ∨ 1 / K ≤ q i j := fun i hi j hj =>
    hp i hi j hj _ (eq i hi j hj)
  have wb : ∀ i < n, ∀ j < n, 0 ≤ Query.weight q sl .outIn i j ∧ Query.weight q sl .outIn i j ≤ 1 ∧
      (Query.weight q sl .outIn i j = 0 ∨ 1 / K ≤ Query.weight q sl .outIn i j) := by
    intro i hi j hj
    simp only [Query.weight, DiGraphEnsemble.undir]
    split
    · obtain ⟨p, _, p0, p1, hw⟩ := acc i hi j hj
      obtain ⟨p', _, p0', p1', hw'⟩ := acc j hj i hi
      exact (union_term he0 hK ⟨p0, p1⟩ ⟨p0', p1'⟩ ⟨q0 i hi j hj, q1 i hi j hj⟩
        ⟨q0 j hj i hi, q1 j hj i hi⟩ (hq i hi j hj) (hq j hj i hi) hw hw').2.2
    · split
      · exact ⟨q0 i hi i hi, q1 i hi i hi, hq i hi i hi⟩
      · exact ⟨le_rfl, zero_le_one, .inl rfl⟩
  set N := n - 1 + sl.toNat with hNdef
  rcases Nat.eq_zero_or_pos n with hn0 | hnpos
  · subst hn0
    obtain ⟨A, eA, _⟩ := exact_average jUndef 0 sl ex d x y z v' g ev'
      .outIn trivial q (by intro i hi; omega) (by intro i hi; omega)
    obtain ⟨a, ea⟩ : ∃ a, Round.av_nn binary64 jUndef pr d 0 x y (fun _ _ => z) v
        .outIn sl = .ok a := by
      cases sl <;> exact ⟨_, rfl⟩
    exact ⟨a, A, ea, eA, by intro k hk; omega⟩
  have hNn : N ≤ n := by
    have : sl.toNat ≤ 1 := by cases sl <;> decide
    omega
  have hNle : (n : ℝ) ≤ N + 1 := by
    have : n ≤ N + 1 := by omega
    exact_mod_cast this
  have hN26 : N ≤ 2 ^ 26 := hNn.trans (hn.trans (by norm_num))
  have hN0 : (0 : ℝ) ≤ N := Nat.cast_nonneg N
  have w0 := fun i hi j hj => (wb i hi j hj).1
  obtain ⟨A, eA, hA⟩ := exact_average jUndef n sl ex d x y z v' g ev'
    .outIn trivial q eq w0
  obtain ⟨S', eS', hS'⟩ := exact_av_nn jUndef n sl ex d x y z v' g ev'
    .outIn trivial q eq
  have hD' := fun k hk => exact_deg n sl ex d x y z .outIn trivial q eq k hk
  -- the sums
  obtain ⟨s, t, es, et, hst⟩ := exp_av_nn_rel (A := binary64) (B := Arith.exact) jUndef n sl
    (union binary64 pr x y) (union Arith.exact ex x y) d id id z v v' .out (.inl rfl)
    (NAcc c ((2 : ℝ) ^ (400 : ℤ))) (NTerm c ((2 : ℝ) ^ (400 : ℤ))) (nacc_zero _ _)
    (fun k hk s s' v v' hs hv => nacc_add c0 hc (pow_pos' _).le le_rfl
      (hk.trans_le (hn.trans (by norm_num))) hs hv)
    (by
      intro i hi j hj k hk
      obtain ⟨p, ep, p0, p1, hw⟩ := acc i hi j hj
      obtain ⟨p', ep', p0', p1', hw'⟩ := acc j hj i hi
      simp only [union, id]
      rw [ev k hk, ev' k hk]
      by_cases hij : i = j
      · subst hij
        rw [if_pos rfl, if_pos rfl, ep, eq i hi i hi]
        refine Round.nn_term_of (e := 2 * e + 4 * K) (by linarith) (by linarith) cg0 hcg
          (q1 i hi i hi) (Round.nn_mid_of hK hK' (q1 i hi i hi) (hq i hi i hi)) ?_ (hg k hk) (hgw k hk)
        have hle : e * ulp2 ≤ (2 * e + 4 * K) * ulp2 := mul_le_mul_of_nonneg_right (by linarith) hu.le
        exact ⟨(mul_le_mul_of_nonneg_left (by linarith) (q0 i hi i hi)).trans hw.1,
          hw.2.trans (mul_le_mul_of_nonneg_left (by linarith) (q0 i hi i hi))⟩
      · rw [if_neg hij, if_neg hij, ep, ep', eq i hi j hj, eq j hj i hi]
        obtain ⟨⟨u, e1, hwu⟩, e2, _, U1, hU⟩ := union_term he0 hK ⟨p0, p1⟩ ⟨p0', p1'⟩
          ⟨q0 i hi j hj, q1 i hi j hj⟩ ⟨q0 j hj i hi, q1 j hj i hi⟩ (hq i hi j hj) (hq j hj i hi) hw hw'
        rw [e1, e2]
        exact Round.nn_term_of (e := 2 * e + 4 * K) (by linarith) (by linarith) cg0 hcg
          U1 (Round.nn_mid_of hK hK' U1 hU) hwu (hg k hk) (hgw k hk))
  rw [← outin_as_out binary64 (fun a b => congrArg roundXR (mul_comm' a b))] at es
  rw [← outin_as_out Arith.exact mul_comm', eS'] at et
  obtain rfl : S' = t := by injection et
  -- facts on one vertex
  have hone : ∀ k < n, ∃ s' D' : ℝ, s k = fin s' ∧
      Query.pick .outIn (Round.exp_degrees binary64 pr d n x y (fun _ _ => z) sl) k = fin D' ∧
      Within (2 * (c + N) * ulp2) (∑ j ∈ Finset.range n, Query.weight q sl .outIn k j * g j) s' ∧
      Within (2 * (c + N) * ulp2) (∑ j ∈ Finset.range n, Query.weight q sl .outIn k j) D' := by
    intro k hk
    obtain ⟨s1, _, S1, e1, e2, _, _, _, hw1⟩ := (hst k hk).within c0 hc hN26
    rw [hS' k hk] at e2
    obtain rfl := XR.fin.inj e2
    obtain ⟨D, D1, e3, e4, D0, hD⟩ := (degrees_rel (z := fun _ _ => z) hn sl (c := e) he0 (by linarith)
      (fun i hi j hj => h i hi j hj) k hk).2.2
    have e5 : fin D1 = fin (∑ j ∈ Finset.range n, Query.weight q sl .outIn k j) :=
      e4.symm.trans (hD' k hk)
    rw [XR.fin.inj e5] at D0 hD
    have e52 : (2 : ℝ) ^ (-52 : ℤ) = 2 * ulp2 := by unfold ulp2; norm_num
    have hle : (n + e + 6) * (2 : ℝ) ^ (-52 : ℤ) ≤ 2 * (c + N) * ulp2 := by
      rw [e52]
      have := mul_le_mul_of_nonneg_right (show (n : ℝ) + e + 6 ≤ c + N by linarith)
        (show 0 ≤ 2 * ulp2 by linarith)
      linarith
    have := abs_le.1 (hD.trans (mul_le_mul_of_nonneg_right hle D0))
    exact ⟨s1, D, e1, e3, hw1, by linarith [this.1], by linarith [this.2]⟩
  have hε : 2 * (c + N) * ulp2 ≤ 1 / 100 := by
    linarith [count_small' hc hN26]
  have zero_of : ∀ {W w : ℝ}, W = 0 → Within (2 * (c + N) * ulp2) W w → w = 0 := by
    rintro W w rfl hw
    have h1 := hw.1; have h2 := hw.2
    rw [zero_mul] at h1 h2
    linarith
  have pos_of : ∀ {W w : ℝ}, 0 < W → Within (2 * (c + N) * ulp2) W w → 0 < w := by
    intro W w hW hw
    exact lt_of_lt_of_le (mul_pos hW (by linarith)) hw.1
  have sum0 : ∀ k < n, (∑ j ∈ Finset.range n, Query.weight q sl .outIn k j) = 0 →
      (∑ j ∈ Finset.range n, Query.weight q sl .outIn k j * g j) = 0 := by
    intro k hk h
    rw [Finset.sum_eq_zero_iff_of_nonneg
      (fun j hj => w0 k hk j (Finset.mem_range.1 hj))] at h
    exact Finset.sum_eq_zero fun j hj => by rw [h j hj, zero_mul]
  have D0 : ∀ k < n, 0 ≤ ∑ j ∈ Finset.range n, Query.weight q sl .outIn k j := fun k hk =>
    Finset.sum_nonneg fun j hj => w0 k hk j (Finset.mem_range.1 hj)
  have S0 : ∀ k < n, 0 ≤ ∑ j ∈ Finset.range n, Query.weight q sl .outIn k j * g j := fun k hk =>
    Finset.sum_nonneg fun j hj => mul_nonneg (w0 k hk j (Finset.mem_range.1 hj))
      (hg j (Finset.mem_range.1 hj)).nonneg
  have Dn : ∀ k < n, ∑ j ∈ Finset.range n, Query.weight q sl .outIn k j ≤ 2 ^ 26 := by
    intro k hk
    have : ∑ j ∈ Finset.range n, Query.weight q sl .outIn k j ≤ ∑ j ∈ Finset.range n, 1 :=
      Finset.sum_le_sum fun j hj => (wb k hk j (Finset.mem_range.1 hj)).2.1
    rw [Finset.sum_const, Finset.card_range, nsmul_eq_mul, mul_one] at this
    linarith
  refine ⟨Round.average binary64 s (Query.pick .outIn (Round.exp_degrees binary64 pr d n x y
    (fun _ _ => z) sl)), A, ?_, eA, ?_⟩
  · unfold Round.av_nn
    simp only [es]
    rw [if_pos]
    rw [List.all_eq_true]
    intro k hk
    have hk := List.mem_range.1 hk
    obtain ⟨s', D', e1, e2, hw1, hw2⟩ := hone k hk
    rw [e1, e2]
    rcases (D0 k hk).eq_or_lt with hz | hpos
    · rw [zero_of hz.symm hw2, zero_of (sum0 k hk hz.symm) hw1]
      simp [isZero_fin]
    · simp [isZero_fin, (pos_of hpos hw2).ne']
  · intro k hk
    obtain ⟨s', D', e1, e2, hw1, hw2⟩ := hone k hk
    unfold Round.average
    rw [e1, e2, hA k hk]
    rcases (D0 k hk).eq_or_lt with hz | hpos
    · rw [zero_of hz.symm hw2, zero_of (sum0 k hk hz.symm) hw1, ← hz]
      exact ⟨0, 0, by simp [isZero_fin], by simp, le_rfl, by simp⟩
    · have hD := pos_of hpos hw2
      rw [if_neg (by simp [isZero_fin, hD.ne'])]
      have low := Round.nn_sum_low (n := n) (a := fun j => Query.weight q sl .outIn k j * g j)
        (L := (2 : ℝ) ^ (-800 : ℤ))
        (fun j hj => mul_nonneg (w0 k hk j hj) (hg j hj).nonneg)
        (by
          intro j hj
          obtain ⟨_, h1, hm⟩ := wb k hk j hj
          rcases Round.nn_mid_of hK hK' h1 hm with h0 | ⟨h2, _⟩
          · exact .inl (by rw [h0, zero_mul])
          rcases hg j hj with h0 | ⟨h3, h4⟩
          · exact .inl (by rw [h0, mul_zero])
          exact .inr (Round.nn_mul_range h2 h1 h3 h4).1)
      obtain ⟨r, er, hr⟩ := Round.nn_entry c0 hc hN26 hNn (S0 k hk) hw1 hw2 low hpos (Dn k hk)
        (by
          rw [Finset.mul_sum]
          refine Finset.sum_le_sum fun j hj => ?_
          have hj := Finset.mem_range.1 hj
          rw [mul_comm]
          exact mul_le_mul_of_nonneg_right (hg j hj).le (w0 k hk j hj))
      refine ⟨r, _, er, rfl, div_nonneg (S0 k hk) hpos.le, hr.trans (le_of_eq ?_)⟩
      rw [hcdef]

/-- From the probabilities of the pairs to the averages. -/
theorem Round.nn_outin_both {α β δ ζ : Type} (pr ex : δ → α → β → ζ → XR) (n : ℕ) (hn : n ≤ 2 ^ 25)
    (d : δ) (x : ℕ → α) (y : ℕ → β) (z : ζ) (e : ℝ) (he0 : 0 ≤ e) (he : e ≤ 2 ^ 20)
    (h : ∀ i < n, ∀ j < n, Term (e * ulp2) (pr d (x i) (y j) z) (ex d (x i) (y j) z))
    (K : ℝ) (hK : 2 ≤ K) (hK' : K ≤ 2 ^ 19)
    (hp : ∀ i < n, ∀ j < n, ∀ q, ex d (x i) (y j) z = fin q → q = 0 ∨ 1 / K ≤ q)
    (sl : Bool) (jUndef : ℕ) :
    (∀ g : ℕ → ℝ, (∀ i < n, Round.ZeroOrMid (g i)) → ∃ a A : ℕ → XR,
      Round.av_nn binary64 jUndef pr d n x y (fun _ _ => z) (fun i => fin (g i)) .outIn sl = .ok a ∧
      Round.av_nn Arith.exact jUndef ex d n x y (fun _ _ => z) (fun i => fin (g i)) .outIn sl = .ok A ∧
      ∀ k < n, Round.Close (fun V => (5 * n + 9 * e + 17 * K + 8) * ulp2 * V) (a k) (A k)) ∧
    ∀ ddir : Dir, ddir.Known → ∃ a A : ℕ → XR,
      Round.av_nn binary64 jUndef pr d n x y (fun _ _ => z)
        (Query.pick ddir (Round.exp_degrees binary64 pr d n x y (fun _ _ => z) sl)) .outIn sl = .ok a ∧
      Round.av_nn Arith.exact jUndef ex d n x y (fun _ _ => z)
        (Query.pick ddir (DiGraphEnsemble.exp_degrees ex d n x y (fun _ _ => z) sl)) .outIn sl = .ok A ∧
      ∀ k < n, Round.Close (fun V => (13 * n + 17 * e + 17 * K + 57) * ulp2 * V) (a k) (A k) := by
  have hn0 : (0 : ℝ) ≤ n := Nat.cast_nonneg n
  have hn' : (n : ℝ) ≤ 2 ^ 25 := by exact_mod_cast hn
  constructor
  · intro g hg
    obtain ⟨a, A, ea, eA, hA⟩ := Round.av_nn_outin_core pr ex n hn d x y z e he0 he h K hK hK' hp 0
      le_rfl (by norm_num) (fun i => fin (g i)) (fun i => fin (g i))
      (fun i hi => ⟨g i, g i, rfl, rfl, hg i hi, by simp [Within]⟩) sl jUndef
    refine ⟨a, A, ea, eA, fun k hk => ?_⟩
    obtain ⟨r, R, er, eR, R0, hr⟩ := hA k hk
    refine ⟨r, R, er, eR, R0, hr.trans (mul_le_mul_of_nonneg_right ?_ R0)⟩
    exact mul_le_mul_of_nonneg_right (by linarith) ulp2_pos.le
  · intro ddir hddir
    have hmid : ∀ i < n, ∀ j < n, ∀ q, ex d (x i) (y j) z = fin q → Round.ZeroOrMid q := by
      intro i hi j hj q eq
      refine Round.nn_mid_of hK hK' ?_ (hp i hi j hj q eq)
      obtain ⟨_, _, q', _, e2, _, _, _, q1, _⟩ := h i hi j hj
      rw [eq] at e2
      exact (XR.fin.inj e2).trans_le q1
    obtain ⟨a, A, ea, eA, hA⟩ := Round.av_nn_outin_core pr ex n hn d x y z e he0 he h K hK hK' hp
      (2 * (n + e + 6)) (by linarith) (by linarith) _ _
      (Round.nn_degree_values pr ex n sl hn d x y z e h hmid (2 * (n + e + 6)) ddir hddir (by
        intro i hi
        have key := degrees_rel (z := fun _ _ => z) hn sl (c := e) he0 (by linarith)
          (fun i hi j hj => h i hi j hj) i hi
        have e52 : (2 : ℝ) ^ (-52 : ℤ) = 2 * ulp2 := by unfold ulp2; norm_num
        have hu := ulp2_pos
        have wide : ∀ {b : ℝ} {v e' : XR}, b ≤ n + e + 6 →
            Close (fun V => b * (2 : ℝ) ^ (-52 : ℤ) * V) v e' →
            Close (fun V => 2 * (n + e + 6) * ulp2 * V) v e' := by
          rintro b v e' hb ⟨s, t, h1, h2, h3, h4⟩
          refine ⟨s, t, h1, h2, h3, h4.trans (mul_le_mul_of_nonneg_right ?_ h3)⟩
          rw [e52]
          have := mul_le_mul_of_nonneg_right hb (show 0 ≤ 2 * ulp2 by linarith)
          linarith
        cases ddir with
        | out => exact wide (by linarith) key.1
        | inn => exact wide (by linarith) key.2.1
        | outIn => exact wide le_rfl key.2.2
        | underscored | other => exact False.elim hddir)) sl jUndef
    refine ⟨a, A, ea, eA, fun k hk => ?_⟩
    obtain ⟨r, R, er, eR, R0, hr⟩ := hA k hk
    refine ⟨r, R, er, eR, R0, hr.trans (mul_le_mul_of_nonneg_right ?_ R0)⟩
    exact mul_le_mul_of_nonneg_right (by linarith) ulp2_pos.le

/-- **C110**, direction `out-in`.  With at most `2 ^ 25` vertices, products in the range of
`C92_probability_partial`, and probabilities that are zero or at least `1 / K`, where `K` is between `2`
and `2 ^ 19`, the averages over the neighbours in either direction are computed without failure of the
assertion.  The relative error is at most `(5 * n + 17 * K + 56) * 2 ^ -53` for a property whose values are
zero or between `2 ^ -400` and `2 ^ 400`, and `(13 * n + 17 * K + 148) * 2 ^ -53` for the expected degrees of
the neighbours. -/
theorem C110_outin_partial (f : (XR → XR → XR → XR → XR) × (XR → XR → XR → XR → XR))
    (hf : f ∈ Round.models) (n : ℕ) (hn : n ≤ 2 ^ 25) (d : ℝ) (x y : ℕ → ℝ) (z : ℝ)
    (h : ∀ i < n, ∀ j < n, Round.InRange d (x i) (y j) z) (K : ℝ) (hK : 2 ≤ K) (hK' : K ≤ 2 ^ 19)
    (hp : ∀ i < n, ∀ j < n, ∀ q, f.2 (fin d) (fin (x i)) (fin (y j)) (fin z) = fin q →
      q = 0 ∨ 1 / K ≤ q)
    (sl : Bool) (jUndef : ℕ) :
    let X : ℕ → XR := fun i => fin (x i)
    let Y : ℕ → XR := fun j => fin (y j)
    let Z : ℕ → ℕ → XR := fun _ _ => fin z
    (∀ g : ℕ → ℝ, (∀ i < n, Round.ZeroOrMid (g i)) → ∃ a A : ℕ → XR,
      Round.av_nn binary64 jUndef f.1 (fin d) n X Y Z (fun i => fin (g i)) .outIn sl = .ok a ∧
      Round.av_nn Arith.exact jUndef f.2 (fin d) n X Y Z (fun i => fin (g i)) .outIn sl = .ok A ∧
      ∀ k < n, Round.Close (fun V => (5 * n + 17 * K + 56) * (2 : ℝ) ^ (-53 : ℤ) * V) (a k) (A k)) ∧
    ∀ ddir : Dir, ddir.Known → ∃ a A : ℕ → XR,
      Round.av_nn binary64 jUndef f.1 (fin d) n X Y Z
        (Query.pick ddir (Round.exp_degrees binary64 f.1 (fin d) n X Y Z sl)) .outIn sl = .ok a ∧
      Round.av_nn Arith.exact jUndef f.2 (fin d) n X Y Z
        (Query.pick ddir (DiGraphEnsemble.exp_degrees f.2 (fin d) n X Y Z sl)) .outIn sl = .ok A ∧
      ∀ k < n, Round.Close (fun V => (13 * n + 17 * K + 148) * (2 : ℝ) ^ (-53 : ℤ) * V)
        (a k) (A k) := by
  intro X Y Z
  obtain ⟨h1, h2⟩ := Round.nn_outin_both f.1 f.2 n hn (fin d) X Y (fin z) 5.3 (by norm_num) (by norm_num)
    (fun i hi j hj => Round.nn_term_models hf (h i hi j hj)) K hK hK' hp sl jUndef
  constructor
  · intro g hg
    obtain ⟨a, A, ea, eA, hA⟩ := h1 g hg
    refine ⟨a, A, ea, eA, fun k hk => ?_⟩
    obtain ⟨r, R, er, eR, R0, hr⟩ := hA k hk
    refine ⟨r, R, er, eR, R0, hr.trans (mul_le_mul_of_nonneg_right ?_ R0)⟩
    exact mul_le_mul_of_nonneg_right (by linarith) ulp2_pos.le
  · intro ddir hddir
    obtain ⟨a, A, ea, eA, hA⟩ := h2 ddir hddir
    refine ⟨a, A, ea, eA, fun k hk => ?_⟩
    obtain ⟨r, R, er, eR, R0, hr⟩ := hA k hk
    refine ⟨r, R, er, eR, R0, hr.trans (mul_le_mul_of_nonneg_right ?_ R0)⟩
    exact mul_le_mul_of_nonneg_right (by linarith) ulp2_pos.le

/-- **C110**, direction `out-in`, scale-invariant model with several layers, sparse backend. -/
theorem C110_layers_outin_sparse_partial (n L : ℕ) (hn : n ≤ 2 ^ 25) (hL : L ≤ 2 ^ 18) (d : ℕ → ℝ)
    (x y : ℕ → List (ℕ × ℝ)) (hx : ∀ i < n, (x i).length ≤ L)
    (h : ∀ i < n, ∀ j < n, ∀ k a b, (k, a) ∈ x i → (k, b) ∈ y j → Round.LayerRange (d k) a b)
    (K : ℝ) (hK : 2 ≤ K) (hK' : K ≤ 2 ^ 19)
    (hp : ∀ i < n, ∀ j < n, ∀ r, Verif.Sparse.MultiInvariantModel.p_ij (fun k => fin (d k))
      ((x i).map fun p => (p.1, fin p.2)) ((y j).map fun p => (p.1, fin p.2)) = fin r →
        r = 0 ∨ 1 / K ≤ r)
    (sl : Bool) (jUndef : ℕ) :
    let D : ℕ → XR := fun k => fin (d k)
    let X : ℕ → List (ℕ × XR) := fun i => (x i).map fun p => (p.1, fin p.2)
    let Y : ℕ → List (ℕ × XR) := fun i => (y i).map fun p => (p.1, fin p.2)
    let p := fun d a b (_ : PUnit) => Round.Sparse.MultiInvariantModel.p_ij binary64 d a b
    let q := fun d a b (_ : PUnit) => Verif.Sparse.MultiInvariantModel.p_ij d a b
    let Z : ℕ → ℕ → PUnit := fun _ _ => ⟨⟩
    (∀ g : ℕ → ℝ, (∀ i < n, Round.ZeroOrMid (g i)) → ∃ a A : ℕ → XR,
      Round.av_nn binary64 jUndef p D n X Y Z (fun i => fin (g i)) .outIn sl = .ok a ∧
      Round.av_nn Arith.exact jUndef q D n X Y Z (fun i => fin (g i)) .outIn sl = .ok A ∧
      ∀ k < n, Round.Close (fun V => (5 * n + 18 * L + 17 * K + 62) * (2 : ℝ) ^ (-53 : ℤ) * V)
        (a k) (A k)) ∧
    ∀ ddir : Dir, ddir.Known → ∃ a A : ℕ → XR,
      Round.av_nn binary64 jUndef p D n X Y Z
        (Query.pick ddir (Round.exp_degrees binary64 p D n X Y Z sl)) .outIn sl = .ok a ∧
      Round.av_nn Arith.exact jUndef q D n X Y Z
        (Query.pick ddir (DiGraphEnsemble.exp_degrees q D n X Y Z sl)) .outIn sl = .ok A ∧
      ∀ k < n, Round.Close (fun V => (13 * n + 34 * L + 17 * K + 159) * (2 : ℝ) ^ (-53 : ℤ) * V)
        (a k) (A k) := by
  intro D X Y p q Z
  have hL0 : (0 : ℝ) ≤ L := Nat.cast_nonneg L
  have hL' : (L : ℝ) ≤ 2 ^ 18 := by exact_mod_cast hL
  have key := Round.nn_outin_both p q n hn D X Y ⟨⟩ (2 * L + 6) (by linarith) (by linarith)
    (fun i hi j hj => Round.sparse_inv (hL.trans (by norm_num)) (hx i hi) (h i hi j hj)) K hK hK' hp sl jUndef
  rw [show 5 * (n : ℝ) + 18 * L + 17 * K + 62 = 5 * n + 9 * (2 * L + 6) + 17 * K + 8 by ring,
    show 13 * (n : ℝ) + 34 * L + 17 * K + 159 = 13 * n + 17 * (2 * L + 6) + 17 * K + 57 by ring]
  exact key

/-- **C110**, direction `out-in`, scale-invariant model with several layers, dense backend. -/
theorem C110_layers_outin_dense_partial (n L : ℕ) (hn : n ≤ 2 ^ 25) (hL : L ≤ 2 ^ 18) (d : ℕ → ℝ)
    (x y : ℕ → List ℝ) (hx : ∀ i < n, (x i).length ≤ L)
    (h : ∀ i < n, ∀ j < n, ∀ k (hk : k < (x i).length) (hk' : k < (y j).length),
      Round.LayerRange (d k) (x i)[k] (y j)[k])
    (K : ℝ) (hK : 2 ≤ K) (hK' : K ≤ 2 ^ 19)
    (hp : ∀ i < n, ∀ j < n, ∀ r, Verif.Dense.MultiInvariantModel.p_ij (fun k => fin (d k))
      ((x i).map fin) ((y j).map fin) = fin r → r = 0 ∨ 1 / K ≤ r)
    (sl : Bool) (jUndef : ℕ) :
    let D : ℕ → XR := fun k => fin (d k)
    let X : ℕ → List XR := fun i => (x i).map fin
    let Y : ℕ → List XR := fun i => (y i).map fin
    let p := fun d a b (_ : PUnit) => Round.Dense.MultiInvariantModel.p_ij binary64 d a b
    let q := fun d a b (_ : PUnit) => Verif.Dense.MultiInvariantModel.p_ij d a b
    let Z : ℕ → ℕ → PUnit := fun _ _ => ⟨⟩
    (∀ g : ℕ → ℝ, (∀ i < n, Round.ZeroOrMid (g i)) → ∃ a A : ℕ → XR,
      Round.av_nn binary64 jUndef p D n X Y Z (fun i => fin (g i)) .outIn sl = .ok a ∧
      Round.av_nn Arith.exact jUndef q D n X Y Z (fun i => fin (g i)) .outIn sl = .ok A ∧
      ∀ k < n, Round.Close (fun V => (5 * n + 18 * L + 17 * K + 62) * (2 : ℝ) ^ (-53 : ℤ) * V)
        (a k) (A k)) ∧
    ∀ ddir : Dir, ddir.Known → ∃ a A : ℕ → XR,
      Round.av_nn binary64 jUndef p D n X Y Z
        (Query.pick ddir (Round.exp_degrees binary64 p D n X Y Z sl)) .outIn sl = .ok a ∧
      Round.av_nn Arith.exact jUndef q D n X Y Z
        (Query.pick ddir (DiGraphEnsemble.exp_degrees q D n X Y Z sl)) .outIn sl = .ok A ∧
      ∀ k < n, Round.Close (fun V => (13 * n + 34 * L + 17 * K + 159) * (2 : ℝ) ^ (-53 : ℤ) * V)
        (a k) (A k) := by
  intro D X Y p q Z
  have hL0 : (0 : ℝ) ≤ L := Nat.cast_nonneg L
  have hL' : (L : ℝ) ≤ 2 ^ 18 := by exact_mod_cast hL
  have key := Round.nn_outin_both p q n hn D X Y ⟨⟩ (2 * L + 6) (by linarith) (by linarith)
    (fun i hi j hj => Round.dense_inv (hL.trans (by norm_num)) (hx i hi) (h i hi j hj)) K hK hK' hp sl jUndef
  rw [show 5 * (n : ℝ) + 18 * L + 17 * K + 62 = 5 * n + 9 * (2 * L + 6) + 17 * K + 8 by ring,
    show 13 * (n : ℝ) + 34 * L + 17 * K + 159 = 13 * n + 17 * (2 * L + 6) + 17 * K + 57 by ring]
  exact key

/-! ## The hypotheses can be met -/

/-- Two vertices, positive properties and `K = 2`. -/
example (f : (XR → XR → XR → XR → XR) × (XR → XR → XR → XR → XR)) (hf : f ∈ Round.models) :
    let x : ℕ → ℝ := fun i => if i = 0 then 1 else 3
    (∀ i < 2, ∀ j < 2, Round.InRange 2 (x i) (x j) 1) ∧
    ∀ i < 2, ∀ j < 2, ∀ q, f.2 (fin 2) (fin (x i)) (fin (x j)) (fin 1) = fin q →
      q = 0 ∨ 1 / (2 : ℝ) ≤ q := by
  intro x
  have hx : ∀ i, x i = 1 ∨ x i = 3 := fun i => by simp only [x]; split <;> simp
  constructor
  · intro i _ j _
    rcases hx i with h | h <;> rcases hx j with h' | h' <;> rw [h, h'] <;>
    exact Round.nn_in_range_of (by norm_num) (by norm_num) (by norm_num) (by norm_num) (by norm_num)
      (by norm_num) (by norm_num)
  · intro i _ j _ q hq
    right
    have pos : ∀ i, 0 < x i := fun i => by rcases hx i with h | h <;> rw [h] <;> norm_num
    obtain ⟨q', e, h2, _⟩ := Round.nn_exact_pair hf (show (0 : ℝ) < 2 by norm_num) (pos i) (pos j)
    rw [XR.fin.inj (hq.symm.trans e)]
    refine le_trans ?_ h2
    rcases hx i with h | h <;> rcases hx j with h' | h' <;> rw [h, h'] <;> norm_num

/-- Two vertices and two layers, the parameter `2` and `K = 2` (dense). -/
example :
    let x : ℕ → List ℝ := fun _ => [3, 0]
    let y : ℕ → List ℝ := fun _ => [5, 1]
    ∀ i < 2, ∀ j < 2, ∀ r, Verif.Dense.MultiInvariantModel.p_ij (fun _ => fin 2)
      ((x i).map fin) ((y j).map fin) = fin r → r = 0 ∨ 1 / (2 : ℝ) ≤ r := by
  intro x y i _ j _ r hr
  have h0 : Verif.Dense.MultiInvariantModel.p_ij (fun _ => fin 2) [fin 3, fin 0] [fin 5, fin 1]
      = fin (1 - Real.exp (-30)) := by
    simp [Verif.Dense.MultiInvariantModel.p_ij, zipLoop, finish, invBody, zero_def]
    norm_num
  rw [XR.fin.inj (hr.symm.trans h0)]
  right
  have e1 : Real.exp (-30) ≤ 1 / 2 := by
    rw [Real.exp_neg, one_div]
    exact inv_anti₀ (by norm_num) (by linarith [Real.add_one_le_exp 30])
  linarith

end Verif
