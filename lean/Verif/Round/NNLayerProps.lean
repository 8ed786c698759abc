import Verif.Round.NNProps
import Verif.Round.AllProps

/-!
# C110 over several layers: nearest-neighbour averages of the multi-layer models in double precision

The scale-invariant models are accurate.  The fitness models are not, see `C110_layers_violated`, unless
positive probabilities are bounded below (`NNFitLayerProps.lean`).
Missing in the theorems (suffix `_partial`): factors whose partial products leave the range of
`Round.LayerRange`, probabilities and property values below `2 ^ -400` or above `2 ^ 400`, mathematical
functions that are not correctly rounded, and the direction `out-in` (see `NNUnionProps.lean`).
-/

namespace Verif

open XR Round
open DiGraphEnsemble (Dir)

/-- From the probabilities of the pairs to the averages. -/
private theorem layers {α β δ : Type} (p q : δ → α → β → PUnit → XR) (n L : ℕ) (hn : n ≤ 2 ^ 25)
    (hL : L ≤ 2 ^ 20) (D : δ) (X : ℕ → α) (Y : ℕ → β)
    (ht : ∀ i < n, ∀ j < n, Term ((2 * L + 6) * ulp2) (p D (X i) (Y j) ⟨⟩) (q D (X i) (Y j) ⟨⟩))
    (hp : ∀ i < n, ∀ j < n, ∀ r, q D (X i) (Y j) ⟨⟩ = fin r → Round.ZeroOrMid r)
    (ndir : Dir) (hdir : ndir = .out ∨ ndir = .inn) (sl : Bool) (jUndef : ℕ) :
    (∀ g : ℕ → ℝ, (∀ i < n, Round.ZeroOrMid (g i)) → ∃ a A : ℕ → XR,
      Round.av_nn binary64 jUndef p D n X Y (fun _ _ => ⟨⟩) (fun i => fin (g i)) ndir sl = .ok a ∧
      Round.av_nn Arith.exact jUndef q D n X Y (fun _ _ => ⟨⟩) (fun i => fin (g i)) ndir sl = .ok A ∧
      ∀ k < n, Round.Close (fun V => (5 * n + 9 * L + 33) * (2 : ℝ) ^ (-53 : ℤ) * V) (a k) (A k)) ∧
    ∀ ddir : Dir, ddir.Known → ∃ a A : ℕ → XR,
      Round.av_nn binary64 jUndef p D n X Y (fun _ _ => ⟨⟩)
        (Query.pick ddir (Round.exp_degrees binary64 p D n X Y (fun _ _ => ⟨⟩) sl)) ndir sl = .ok a ∧
      Round.av_nn Arith.exact jUndef q D n X Y (fun _ _ => ⟨⟩)
        (Query.pick ddir (DiGraphEnsemble.exp_degrees q D n X Y (fun _ _ => ⟨⟩) sl)) ndir sl = .ok A ∧
      ∀ k < n, Round.Close (fun V => (13 * n + 25 * L + 130) * (2 : ℝ) ^ (-53 : ℤ) * V)
        (a k) (A k) := by
  have hn0 : (0 : ℝ) ≤ n := Nat.cast_nonneg n
  have hL0 : (0 : ℝ) ≤ L := Nat.cast_nonneg L
  have hn' : (n : ℝ) ≤ 2 ^ 25 := by exact_mod_cast hn
  have hL' : (L : ℝ) ≤ 2 ^ 20 := by exact_mod_cast hL
  constructor
  · intro g hg
    obtain ⟨a, A, ea, eA, hA⟩ := Round.av_nn_core p q n hn D X Y ⟨⟩ (2 * L + 6) (by linarith)
      (by linarith) ht hp 0 le_rfl (by norm_num) (fun i => fin (g i)) (fun i => fin (g i))
      (fun i hi => ⟨g i, g i, rfl, rfl, hg i hi, by simp [Within]⟩) ndir hdir sl jUndef
    refine ⟨a, A, ea, eA, fun k hk => ?_⟩
    obtain ⟨r, R, er, eR, R0, hr⟩ := hA k hk
    refine ⟨r, R, er, eR, R0, hr.trans (mul_le_mul_of_nonneg_right ?_ R0)⟩
    exact mul_le_mul_of_nonneg_right (by linarith) ulp2_pos.le
  · intro ddir hddir
    obtain ⟨a, A, ea, eA, hA⟩ := Round.av_nn_degree_core p q n sl hn D X Y ⟨⟩ (2 * L + 6)
      (by linarith) (by linarith) ht hp (2 * (n + (2 * L + 6) + 6)) (by linarith) (by linarith) ddir
      hddir (by
        intro i hi
        have key := degrees_rel (z := fun _ _ => PUnit.unit) hn sl (c := 2 * L + 6) (by linarith)
          (by linarith) (fun i hi j hj => ht i hi j hj) i hi
        have e52 : (2 : ℝ) ^ (-52 : ℤ) = 2 * ulp2 := by unfold ulp2; norm_num
        have hu := ulp2_pos
        have wide : ∀ {b : ℝ} {v e : XR}, b ≤ n + (2 * L + 6) + 6 →
            Close (fun V => b * (2 : ℝ) ^ (-52 : ℤ) * V) v e →
            Close (fun V => 2 * (n + (2 * L + 6) + 6) * ulp2 * V) v e := by
          rintro b v e hb ⟨s, t, h1, h2, h3, h4⟩
          refine ⟨s, t, h1, h2, h3, h4.trans (mul_le_mul_of_nonneg_right ?_ h3)⟩
          rw [e52]
          have := mul_le_mul_of_nonneg_right hb (show 0 ≤ 2 * ulp2 by linarith)
          linarith
        cases ddir with
        | out => exact wide (by linarith) key.1
        | inn => exact wide (by linarith) key.2.1
        | outIn => exact wide le_rfl key.2.2
        | underscored | other => exact False.elim hddir) ndir hdir jUndef
    refine ⟨a, A, ea, eA, fun k hk => ?_⟩
    obtain ⟨r, R, er, eR, R0, hr⟩ := hA k hk
    refine ⟨r, R, er, eR, R0, hr.trans (mul_le_mul_of_nonneg_right ?_ R0)⟩
    exact mul_le_mul_of_nonneg_right (by linarith) ulp2_pos.le

/-- **C110**, scale-invariant model with several layers, sparse backend.  With at most `2 ^ 25` vertices
and `2 ^ 20` layers, factors in the normal range or zero, and probabilities and averaged values that are
zero or between `2 ^ -400` and `2 ^ 400`, the averages over out- or in-neighbours are computed without
failure of the assertion.  The relative errors are at most `(5 * n + 9 * L + 33) * 2 ^ -53` for a given
property and `(13 * n + 25 * L + 130) * 2 ^ -53` for the expected degrees of the neighbours. -/
theorem C110_layers_sparse_partial (n L : ℕ) (hn : n ≤ 2 ^ 25) (hL : L ≤ 2 ^ 20) (d : ℕ → ℝ)
    (x y : ℕ → List (ℕ × ℝ)) (hx : ∀ i < n, (x i).length ≤ L)
    (h : ∀ i < n, ∀ j < n, ∀ k a b, (k, a) ∈ x i → (k, b) ∈ y j → Round.LayerRange (d k) a b)
    (hp : ∀ i < n, ∀ j < n, ∀ r, Verif.Sparse.MultiInvariantModel.p_ij (fun k => fin (d k))
      ((x i).map fun p => (p.1, fin p.2)) ((y j).map fun p => (p.1, fin p.2)) = fin r →
        Round.ZeroOrMid r)
    (ndir : Dir) (hdir : ndir = .out ∨ ndir = .inn) (sl : Bool) (jUndef : ℕ) :
    let D : ℕ → XR := fun k => fin (d k)
    let X : ℕ → List (ℕ × XR) := fun i => (x i).map fun p => (p.1, fin p.2)
    let Y : ℕ → List (ℕ × XR) := fun i => (y i).map fun p => (p.1, fin p.2)
    let p := fun d a b (_ : PUnit) => Round.Sparse.MultiInvariantModel.p_ij binary64 d a b
    let q := fun d a b (_ : PUnit) => Verif.Sparse.MultiInvariantModel.p_ij d a b
    let Z : ℕ → ℕ → PUnit := fun _ _ => ⟨⟩
    (∀ g : ℕ → ℝ, (∀ i < n, Round.ZeroOrMid (g i)) → ∃ a A : ℕ → XR,
      Round.av_nn binary64 jUndef p D n X Y Z (fun i => fin (g i)) ndir sl = .ok a ∧
      Round.av_nn Arith.exact jUndef q D n X Y Z (fun i => fin (g i)) ndir sl = .ok A ∧
      ∀ k < n, Round.Close (fun V => (5 * n + 9 * L + 33) * (2 : ℝ) ^ (-53 : ℤ) * V) (a k) (A k)) ∧
    ∀ ddir : Dir, ddir.Known → ∃ a A : ℕ → XR,
      Round.av_nn binary64 jUndef p D n X Y Z
        (Query.pick ddir (Round.exp_degrees binary64 p D n X Y Z sl)) ndir sl = .ok a ∧
      Round.av_nn Arith.exact jUndef q D n X Y Z
        (Query.pick ddir (DiGraphEnsemble.exp_degrees q D n X Y Z sl)) ndir sl = .ok A ∧
      ∀ k < n, Round.Close (fun V => (13 * n + 25 * L + 130) * (2 : ℝ) ^ (-53 : ℤ) * V)
        (a k) (A k) :=
  layers _ _ n L hn hL _ _ _ (fun i hi j hj => Round.sparse_inv hL (hx i hi) (h i hi j hj)) hp ndir
    hdir sl jUndef

/-- **C110**, scale-invariant model with several layers, dense backend. -/
theorem C110_layers_dense_partial (n L : ℕ) (hn : n ≤ 2 ^ 25) (hL : L ≤ 2 ^ 20) (d : ℕ → ℝ)
    (x y : ℕ → List ℝ) (hx : ∀ i < n, (x i).length ≤ L)
    (h : ∀ i < n, ∀ j < n, ∀ k (hk : k < (x i).length) (hk' : k < (y j).length),
      Round.LayerRange (d k) (x i)[k] (y j)[k])
    (hp : ∀ i < n, ∀ j < n, ∀ r, Verif.Dense.MultiInvariantModel.p_ij (fun k => fin (d k))
      ((x i).map fin) ((y j).map fin) = fin r → Round.ZeroOrMid r)
    (ndir : Dir) (hdir : ndir = .out ∨ ndir = .inn) (sl : Bool) (jUndef : ℕ) :
    let D : ℕ → XR := fun k => fin (d k)
    let X : ℕ → List XR := fun i => (x i).map fin
    let Y : ℕ → List XR := fun i => (y i).map fin
    let p := fun d a b (_ : PUnit) => Round.Dense.MultiInvariantModel.p_ij binary64 d a b
    let q := fun d a b (_ : PUnit) => Verif.Dense.MultiInvariantModel.p_ij d a b
    let Z : ℕ → ℕ → PUnit := fun _ _ => ⟨⟩
    (∀ g : ℕ → ℝ, (∀ i < n, Round.ZeroOrMid (g i)) → ∃ a A : ℕ → XR,
      Round.av_nn binary64 jUndef p D n X Y Z (fun i => fin (g i)) ndir sl = .ok a ∧
      Round.av_nn Arith.exact jUndef q D n X Y Z (fun i => fin (g i)) ndir sl = .ok A ∧
      ∀ k < n, Round.Close (fun V => (5 * n + 9 * L + 33) * (2 : ℝ) ^ (-53 : ℤ) * V) (a k) (A k)) ∧
    ∀ ddir : Dir, ddir.Known → ∃ a A : ℕ → XR,
      Round.av_nn binary64 jUndef p D n X Y Z
        (Query.pick ddir (Round.exp_degrees binary64 p D n X Y Z sl)) ndir sl = .ok a ∧
      Round.av_nn Arith.exact jUndef q D n X Y Z
        (Query.pick ddir (DiGraphEnsemble.exp_degrees q D n X Y Z sl)) ndir sl = .ok A ∧
      ∀ k < n, Round.Close (fun V => (13 * n + 25 * L + 130) * (2 : ℝ) ^ (-53 : ℤ) * V)
        (a k) (A k) :=
  layers _ _ n L hn hL _ _ _ (fun i hi j hj => Round.dense_inv hL (hx i hi) (h i hi j hj)) hp ndir
    hdir sl jUndef

/-! ## The fitness models -/

/-- The averages of one over two vertices, if the computed probability is zero and the exact one is
not. -/
private theorem lost {α β δ : Type} (p q : δ → α → β → PUnit → XR) (D : δ) (X : α) (Y : β) (jUndef : ℕ)
    (hp : p D X Y ⟨⟩ = 0) {r : ℝ} (r0 : 0 < r) (hq : q D X Y ⟨⟩ = fin r) :
    (∃ a : ℕ → XR, Round.av_nn binary64 jUndef p D 2 (fun _ => X) (fun _ => Y) (fun _ _ => ⟨⟩)
        (fun _ => 1) .out false = .ok a ∧ a 0 = 0 ∧ a 1 = 0) ∧
    ∃ A : ℕ → XR, Round.av_nn Arith.exact jUndef q D 2 (fun _ => X) (fun _ => Y) (fun _ _ => ⟨⟩)
        (fun _ => 1) .out false = .ok A ∧ A 0 = 1 ∧ A 1 = 1 := by
  have hz := Faithful.binary64.zero_mem
  constructor
  · have m2 : binary64.mul 0 1 = fin 0 := by
      show toDouble (0 * 1) = _
      rw [zero_mul]; exact toDouble_self hz
    have a1 : binary64.add 0 (fin 0) = fin 0 := by
      show toDouble (0 + 0) = _
      rw [add_zero]; exact toDouble_self hz
    have ha : ∀ i, Round.addAt binary64 zeros i (fin 0) = zeros := by
      intro i
      funext k
      rw [addAt_apply]
      split
      · exact a1
      · rfl
    have hav : Round.exp_av_nn_prop binary64 jUndef p D 2 (fun _ => X) (fun _ => Y) (fun _ _ => ⟨⟩)
        (fun _ => 1) .out false = .ok zeros := by
      show Except.ok (Round.addAt binary64 (Round.addAt binary64 zeros 1
        (binary64.mul (p D X Y ⟨⟩) 1)) 0 (binary64.mul (p D X Y ⟨⟩) 1)) = _
      rw [hp, m2, ha, ha]
    have hdeg : ∀ k < 2, ∃ e : ℝ, (Round.exp_degrees binary64 p D 2 (fun _ => X) (fun _ => Y)
        (fun _ _ => PUnit.unit) false).exp_d_out k = fin e := by
      intro k hk
      have key := degrees_rel (n := 2) (by norm_num) false (c := 0) le_rfl (by norm_num) (p := p)
        (q := p) (d := D) (x := fun _ => X) (y := fun _ => Y) (z := fun _ _ => PUnit.unit)
        (fun i _ j _ => by
          rw [hp]
          exact ⟨0, hz, 0, rfl, rfl, le_rfl, zero_le_one, le_rfl, zero_le_one, by simp [Within]⟩) k hk
      obtain ⟨e, _, he, _⟩ := key.1
      exact ⟨e, he⟩
    have hent : ∀ k < 2, Round.average binary64 zeros (Round.exp_degrees binary64 p D 2
        (fun _ => X) (fun _ => Y) (fun _ _ => PUnit.unit) false).exp_d_out k = 0 := by
      intro k hk
      obtain ⟨e, he⟩ := hdeg k hk
      unfold Round.average
      rw [he]
      by_cases h : e = 0
      · rw [if_pos (by simp [isZero_fin, h])]; rfl
      · rw [if_neg (by simp [isZero_fin, h])]
        show roundXR (fin 0 / fin e) = fin 0
        rw [fin_div_fin _ _ h, zero_div]; exact toDouble_self hz
    refine ⟨_, ?_, hent 0 (by norm_num), hent 1 (by norm_num)⟩
    unfold Round.av_nn
    rw [hav]
    refine if_pos ?_
    rw [List.all_eq_true]
    intro k _
    have : (zeros k).isZero = true := by simp [zeros, isZero]
    rw [this, Bool.or_true]
  · obtain ⟨A, eA, hA⟩ := exact_average jUndef 2 false q D (fun _ => X) (fun _ => Y) ⟨⟩ (fun _ => 1)
      (fun _ => 1) (fun _ _ => rfl) .out trivial (fun _ _ => r) (fun _ _ _ _ => hq) (by
        intro i _ j _
        simp only [Query.weight, DiGraphEnsemble.masked]
        split
        · exact r0.le
        · exact le_rfl)
    refine ⟨A, eA, ?_, ?_⟩
    · rw [hA 0 (by norm_num)]
      simp [Finset.sum_range_succ, Query.weight, DiGraphEnsemble.masked, admissible, r0.ne', one_def]
    · rw [hA 1 (by norm_num)]
      simp [Finset.sum_range_succ, Query.weight, DiGraphEnsemble.masked, admissible, r0.ne', one_def]

/-- **C110** fails for the fitness models with several layers.  Two vertices with the properties
`2 ^ -30` in the only layer and the parameter `1`: the average over out-neighbours of a property that is
one everywhere is one, but zero is computed. -/
theorem C110_layers_violated (jUndef : ℕ) :
    let a : XR := fin ((2 : ℝ) ^ (-30 : ℤ))
    let average : {α : Type} → ((ℕ → XR) → α → α → PUnit → XR) → Arith → α → Except Query.Err (ℕ → XR) :=
      fun p A X => Round.av_nn A jUndef p (fun _ => 1) 2 (fun _ => X) (fun _ => X) (fun _ _ => ⟨⟩)
        (fun _ => 1) .out false
    (∃ v V : ℕ → XR,
      average (fun d x y _ => Round.Sparse.MultiFitnessModel.p_ij binary64 d x y) binary64 [(0, a)]
        = .ok v ∧
      average (fun d x y _ => Verif.Sparse.MultiFitnessModel.p_ij d x y) Arith.exact [(0, a)]
        = .ok V ∧ v 0 = 0 ∧ v 1 = 0 ∧ V 0 = 1 ∧ V 1 = 1) ∧
    ∃ v V : ℕ → XR,
      average (fun d x y _ => Round.Dense.MultiFitnessModel.p_ij binary64 d x y) binary64 [a] = .ok v ∧
      average (fun d x y _ => Verif.Dense.MultiFitnessModel.p_ij d x y) Arith.exact [a] = .ok V ∧
      v 0 = 0 ∧ v 1 = 0 ∧ V 0 = 1 ∧ V 1 = 1 := by
  intro a average
  obtain ⟨h1, h2, -, -, ⟨q, e1, e2, q0, -⟩, -⟩ := C108_relative_violated
  constructor
  · obtain ⟨⟨v, hv, v0, v1⟩, V, hV, V0, V1⟩ := lost
      (fun (d : ℕ → XR) x y _ => Round.Sparse.MultiFitnessModel.p_ij binary64 d x y)
      (fun d x y _ => Verif.Sparse.MultiFitnessModel.p_ij d x y) (fun _ => 1) [(0, a)] [(0, a)] jUndef
      h1 q0 e1
    exact ⟨v, V, hv, hV, v0, v1, V0, V1⟩
  · obtain ⟨⟨v, hv, v0, v1⟩, V, hV, V0, V1⟩ := lost
      (fun (d : ℕ → XR) x y _ => Round.Dense.MultiFitnessModel.p_ij binary64 d x y)
      (fun d x y _ => Verif.Dense.MultiFitnessModel.p_ij d x y) (fun _ => 1) [a] [a] jUndef h2 q0 e2
    exact ⟨v, V, hv, hV, v0, v1, V0, V1⟩

/-! ## The hypotheses can be met -/

private theorem mid {r : ℝ} (h : 1 ≤ r) : Round.ZeroOrMid (1 - Real.exp (-r)) := by
  have e0 := Real.exp_pos (-r)
  have e1 : Real.exp (-r) ≤ 1 / 2 := by
    rw [Real.exp_neg, one_div]
    exact inv_anti₀ (by norm_num) (by linarith [Real.add_one_le_exp r])
  refine .inr ⟨?_, ?_⟩
  · have : (2 : ℝ) ^ (-400 : ℤ) ≤ (2 : ℝ) ^ (-1 : ℤ) :=
      zpow_le_zpow_right₀ (by norm_num) (by norm_num)
    norm_num at this e1 ⊢
    linarith
  · have : (1 : ℝ) ≤ (2 : ℝ) ^ (400 : ℤ) := one_le_zpow₀ (by norm_num) (by norm_num)
    exact le_trans (by linarith) this

private theorem moderate {r : ℝ} (h1 : 1 ≤ r) (h2 : r ≤ 32) :
    (2 : ℝ) ^ (-1000 : ℤ) ≤ r ∧ r ≤ (2 : ℝ) ^ (1000 : ℤ) :=
  ⟨(zpow_le_one_of_nonpos₀ (by norm_num) (by norm_num)).trans h1,
    h2.trans ((show (32 : ℝ) ≤ (2 : ℝ) ^ (5 : ℤ) by norm_num).trans
      (zpow_le_zpow_right₀ (by norm_num) (by norm_num)))⟩

/-- Two vertices whose rows share a label with one of the two, parameter `2` (sparse). -/
example :
    let x : ℕ → List (ℕ × ℝ) := fun _ => [(0, 1), (1, 3)]
    let y : ℕ → List (ℕ × ℝ) := fun j => if j = 1 then [(2, 1)] else [(1, 5)]
    (∀ i < 2, ∀ j < 2, ∀ k a b, (k, a) ∈ x i → (k, b) ∈ y j → Round.LayerRange 2 a b) ∧
    ∀ i < 2, ∀ j < 2, ∀ r, Verif.Sparse.MultiInvariantModel.p_ij (fun _ => fin 2)
      ((x i).map fun p => (p.1, fin p.2)) ((y j).map fun p => (p.1, fin p.2)) = fin r →
        Round.ZeroOrMid r := by
  intro x y
  constructor
  · intro i _ j _ k a b ha hb
    by_cases h : j = 1
    · rw [show y j = [(2, 1)] from if_pos h] at hb
      simp only [x, List.mem_cons, Prod.mk.injEq, List.not_mem_nil, or_false] at ha hb
      omega
    · rw [show y j = [(1, 5)] from if_neg h] at hb
      simp only [x, List.mem_cons, Prod.mk.injEq, List.not_mem_nil, or_false] at ha hb
      rcases ha with ⟨rfl, rfl⟩ | ⟨rfl, rfl⟩
      · omega
      · obtain ⟨-, rfl⟩ := hb
        exact .inr ⟨by norm_num, by norm_num, by norm_num, moderate (by norm_num) (by norm_num),
          moderate (by norm_num) (by norm_num)⟩
  · intro i _ j _ r hr
    by_cases h : j = 1
    · rw [show y j = [(2, 1)] from if_pos h] at hr
      have h0 : Verif.Sparse.MultiInvariantModel.p_ij (fun _ => fin 2) [(0, fin 1), (1, fin 3)]
          [(2, fin 1)] = fin 0 := by
        simp [Verif.Sparse.MultiInvariantModel.p_ij, mergeLoop, finish, zero_def]
      exact .inl (XR.fin.inj (hr.symm.trans h0))
    · rw [show y j = [(1, 5)] from if_neg h] at hr
      have h0 : Verif.Sparse.MultiInvariantModel.p_ij (fun _ => fin 2) [(0, fin 1), (1, fin 3)]
          [(1, fin 5)] = fin (1 - Real.exp (-30)) := by
        simp [Verif.Sparse.MultiInvariantModel.p_ij, mergeLoop, finish, invBody, zero_def]
        norm_num
      rw [XR.fin.inj (hr.symm.trans h0)]
      exact mid (by norm_num)

/-- Two vertices and two layers, one of the properties zero, parameter `2` (dense). -/
example :
    let x : ℕ → List ℝ := fun _ => [3, 0]
    let y : ℕ → List ℝ := fun _ => [5, 1]
    (∀ i < 2, ∀ j < 2, ∀ k (_ : k < (x i).length) (_ : k < (y j).length),
      Round.LayerRange 2 (x i)[k] (y j)[k]) ∧
    ∀ i < 2, ∀ j < 2, ∀ r, Verif.Dense.MultiInvariantModel.p_ij (fun _ => fin 2)
      ((x i).map fin) ((y j).map fin) = fin r → Round.ZeroOrMid r := by
  intro x y
  constructor
  · intro i _ j _ k hk _
    rcases k with _ | _ | k
    · exact .inr ⟨by norm_num [x], by norm_num [x], by norm_num [y],
        moderate (by norm_num [x]) (by norm_num [x]), moderate (by norm_num [x, y]) (by norm_num [x, y])⟩
    · exact .inl (.inl rfl)
    · simp [x] at hk
  · intro i _ j _ r hr
    have h0 : Verif.Dense.MultiInvariantModel.p_ij (fun _ => fin 2) [fin 3, fin 0] [fin 5, fin 1]
        = fin (1 - Real.exp (-30)) := by
      simp [Verif.Dense.MultiInvariantModel.p_ij, zipLoop, finish, invBody, zero_def]
      norm_num
    rw [XR.fin.inj (hr.symm.trans h0)]
    exact mid (by norm_num)

end Verif
