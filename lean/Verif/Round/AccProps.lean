import Verif.Round.Accuracy
import Verif.Round.Props

/-!
# C92: accuracy in double precision
-/

namespace Verif

open XR Round

private theorem guards {d x y z : ℝ} (hd : 0 < d) (hx : 0 < x) (hy : 0 < y) (hz : 0 < z) :
    ((fin x).isZero || (fin y).isZero || (fin z).isZero || (fin d).isZero) = false := by
  simp [isZero, hd.ne', hx.ne', hy.ne', hz.ne']

private theorem guards' {d x y : ℝ} (hd : 0 < d) (hx : 0 < x) (hy : 0 < y) :
    ((fin x).isZero || (fin y).isZero || (fin d).isZero) = false := by
  simp [isZero, hd.ne', hx.ne', hy.ne']

private theorem within_abs {e x v : ℝ} (h : Within e x v) : |v - x| ≤ e * x := by
  rw [abs_le]
  constructor
  · linarith [h.1]
  · linarith [h.2]

private theorem within_mono {e e' x v : ℝ} (hx : 0 ≤ x) (h : Within e x v) (he : e ≤ e') :
    Within e' x v :=
  ⟨(mul_le_mul_of_nonneg_left (by linarith) hx).trans h.1,
    h.2.trans (mul_le_mul_of_nonneg_left (by linarith) hx)⟩

private theorem sparse_fit_acc {d x y z : ℝ} (hd : 0 < d) (hx : 0 < x) (hy : 0 < y) (hz : 0 < z)
    (h : Moderate d x y z) :
    ∃ p ∈ doubles, ∃ q : ℝ, 0 ≤ q ∧
      Round.Sparse.FitnessModel.p_ij binary64 (fin d) (fin x) (fin y) (fin z) = fin p ∧
      Verif.Sparse.FitnessModel.p_ij (fin d) (fin x) (fin y) (fin z) = fin q ∧
      Within (5.3 * ulp2) q p := by
  have hu := ulp2_pos
  have ht : 0 < d * x * y * z := by positivity
  obtain ⟨w, _, ew, hw⟩ := prod4_within hd hx hy hz h
  obtain ⟨p, hp, ep, hpw⟩ := fit_within (by linarith) (by linarith) ht h.2.2.1 h.2.2.2 hw
  refine ⟨p, hp, d * x * y * z / (1 + d * x * y * z), by positivity, ?_, ?_,
    within_mono (by positivity) hpw (by linarith)⟩
  · simp only [Round.Sparse.FitnessModel.p_ij, guards hd hx hy hz, ew]
    exact ep
  · simp only [Verif.Sparse.FitnessModel.p_ij, guards hd hx hy hz]
    show fin (d * x * y * z) / fin (1 + d * x * y * z) = _
    rw [fin_div_fin _ _ (by positivity)]

private theorem sparse_inv_acc {d x y z : ℝ} (hd : 0 < d) (hx : 0 < x) (hy : 0 < y) (hz : 0 < z)
    (h : Moderate d x y z) :
    ∃ p ∈ doubles, ∃ q : ℝ, 0 ≤ q ∧
      Round.Sparse.ScaleInvariantModel.p_ij binary64 (fin d) (fin x) (fin y) (fin z) = fin p ∧
      Verif.Sparse.ScaleInvariantModel.p_ij (fin d) (fin x) (fin y) (fin z) = fin q ∧
      Within (5.3 * ulp2) q p := by
  have hu := ulp2_pos
  have ht : 0 < d * x * y * z := by positivity
  have hq : 0 ≤ 1 - Real.exp (-(d * x * y * z)) := by
    linarith [Real.exp_le_one_iff.2 (neg_nonpos.2 ht.le)]
  obtain ⟨w, _, ew, hw⟩ := prod4_within hd hx hy hz h
  obtain ⟨p, hp, ep, hpw⟩ := inv_within (by linarith) (by linarith) ht h.2.2.1 hw
  refine ⟨p, hp, 1 - Real.exp (-(d * x * y * z)), hq, ?_, ?_, within_mono hq hpw (by linarith)⟩
  · simp only [Round.Sparse.ScaleInvariantModel.p_ij, guards hd hx hy hz, ew]
    exact ep
  · simp only [Verif.Sparse.ScaleInvariantModel.p_ij, guards hd hx hy hz]
    show fin (-(Real.exp (-(d * x * y * z)) - 1)) = _
    rw [neg_sub]

private theorem dense_fit_acc {d x y : ℝ} (z : XR) (hd : 0 < d) (hx : 0 < x) (hy : 0 < y)
    (h1 : (2 : ℝ) ^ (-1000 : ℤ) ≤ d * x ∧ d * x ≤ (2 : ℝ) ^ (1000 : ℤ))
    (h2 : (2 : ℝ) ^ (-1000 : ℤ) ≤ d * x * y ∧ d * x * y ≤ (2 : ℝ) ^ (1000 : ℤ)) :
    ∃ p ∈ doubles, ∃ q : ℝ, 0 ≤ q ∧
      Round.Dense.FitnessModel.p_ij binary64 (fin d) (fin x) (fin y) z = fin p ∧
      Verif.Dense.FitnessModel.p_ij (fin d) (fin x) (fin y) z = fin q ∧
      Within (5.3 * ulp2) q p := by
  have hu := ulp2_pos
  have ht : 0 < d * x * y := by positivity
  obtain ⟨w, _, ew, hw⟩ := prod3_within hd hx hy h1 h2
  obtain ⟨p, hp, ep, hpw⟩ := fit_within (by linarith) (by linarith) ht h2.1 h2.2 hw
  refine ⟨p, hp, d * x * y / (1 + d * x * y), by positivity, ?_, ?_,
    within_mono (by positivity) hpw (by linarith)⟩
  · simp only [Round.Dense.FitnessModel.p_ij, guards' hd hx hy, ew]
    exact ep
  · simp only [Verif.Dense.FitnessModel.p_ij, guards' hd hx hy]
    show fin (d * x * y) / fin (1 + d * x * y) = _
    rw [fin_div_fin _ _ (by positivity)]

private theorem dense_inv_acc {d x y : ℝ} (z : XR) (hd : 0 < d) (hx : 0 < x) (hy : 0 < y)
    (h1 : (2 : ℝ) ^ (-1000 : ℤ) ≤ d * x ∧ d * x ≤ (2 : ℝ) ^ (1000 : ℤ))
    (h2 : (2 : ℝ) ^ (-1000 : ℤ) ≤ d * x * y ∧ d * x * y ≤ (2 : ℝ) ^ (1000 : ℤ)) :
    ∃ p ∈ doubles, ∃ q : ℝ, 0 ≤ q ∧
      Round.Dense.ScaleInvariantModel.p_ij binary64 (fin d) (fin x) (fin y) z = fin p ∧
      Verif.Dense.ScaleInvariantModel.p_ij (fin d) (fin x) (fin y) z = fin q ∧
      Within (5.3 * ulp2) q p := by
  have hu := ulp2_pos
  have ht : 0 < d * x * y := by positivity
  have hq : 0 ≤ 1 - Real.exp (-(d * x * y)) := by
    linarith [Real.exp_le_one_iff.2 (neg_nonpos.2 ht.le)]
  obtain ⟨w, _, ew, hw⟩ := prod3_within hd hx hy h1 h2
  obtain ⟨p, hp, ep, hpw⟩ := inv_within (by linarith) (by linarith) ht h2.1 hw
  refine ⟨p, hp, 1 - Real.exp (-(d * x * y)), hq, ?_, ?_, within_mono hq hpw (by linarith)⟩
  · simp only [Round.Dense.ScaleInvariantModel.p_ij, guards' hd hx hy, ew]
    exact ep
  · simp only [Verif.Dense.ScaleInvariantModel.p_ij, guards' hd hx hy]
    show fin (-(Real.exp (-(d * x * y)) - 1)) = _
    rw [neg_sub]

/-- The probability functions of the single-layer models in double precision, each with the
function of the model without rounding. -/
noncomputable def Round.models : List ((XR → XR → XR → XR → XR) × (XR → XR → XR → XR → XR)) :=
  [(Round.Sparse.FitnessModel.p_ij binary64, Verif.Sparse.FitnessModel.p_ij),
    (Round.Sparse.ScaleInvariantModel.p_ij binary64, Verif.Sparse.ScaleInvariantModel.p_ij),
    (Round.Dense.FitnessModel.p_ij binary64, Verif.Dense.FitnessModel.p_ij),
    (Round.Dense.ScaleInvariantModel.p_ij binary64, Verif.Dense.ScaleInvariantModel.p_ij)]

private theorem models_acc {f : (XR → XR → XR → XR → XR) × (XR → XR → XR → XR → XR)}
    (hf : f ∈ Round.models) {d x y z : ℝ} (hd : 0 < d) (hx : 0 < x) (hy : 0 < y) (hz : 0 < z)
    (h : Moderate d x y z) :
    ∃ p ∈ doubles, ∃ q : ℝ, 0 ≤ q ∧ f.1 (fin d) (fin x) (fin y) (fin z) = fin p ∧
      f.2 (fin d) (fin x) (fin y) (fin z) = fin q ∧ Within (5.3 * ulp2) q p := by
  simp only [Round.models, List.mem_cons, List.not_mem_nil, or_false] at hf
  rcases hf with rfl | rfl | rfl | rfl
  · exact sparse_fit_acc hd hx hy hz h
  · exact sparse_inv_acc hd hx hy hz h
  · exact dense_fit_acc (fin z) hd hx hy h.1 h.2.1
  · exact dense_inv_acc (fin z) hd hx hy h.1 h.2.1

/-- **C92**, connection probabilities.  If the partial products of the parameter and the properties
stay between `2 ^ -1000` and `2 ^ 1000`, the probability computed in double precision differs from
the exact one by at most six half last places.

Missing: factors whose partial products leave that range (see `C92_underflow_violated` and
`C92_overflow_violated`). -/
theorem C92_probability_partial (f : (XR → XR → XR → XR → XR) × (XR → XR → XR → XR → XR))
    (hf : f ∈ Round.models) (d x y z : ℝ) (hd : 0 < d) (hx : 0 < x) (hy : 0 < y) (hz : 0 < z)
    (h1 : (2 : ℝ) ^ (-1000 : ℤ) ≤ d * x ∧ d * x ≤ (2 : ℝ) ^ (1000 : ℤ))
    (h2 : (2 : ℝ) ^ (-1000 : ℤ) ≤ d * x * y ∧ d * x * y ≤ (2 : ℝ) ^ (1000 : ℤ))
    (h3 : (2 : ℝ) ^ (-1000 : ℤ) ≤ d * x * y * z ∧ d * x * y * z ≤ (2 : ℝ) ^ (1000 : ℤ)) :
    ∃ p q : ℝ, f.1 (fin d) (fin x) (fin y) (fin z) = fin p ∧
      f.2 (fin d) (fin x) (fin y) (fin z) = fin q ∧ |p - q| ≤ 6 * (2 : ℝ) ^ (-53 : ℤ) * q := by
  obtain ⟨p, _, q, hq, ep, eq, h⟩ := models_acc hf hd hx hy hz ⟨h1, h2, h3⟩
  refine ⟨p, q, ep, eq, (within_abs h).trans (mul_le_mul_of_nonneg_right ?_ hq)⟩
  have := ulp2_pos
  show 5.3 * ulp2 ≤ 6 * ulp2
  linarith

/-- Such factors exist: all of ordinary size. -/
example : (2 : ℝ) ^ (-1000 : ℤ) ≤ 2 * 3 ∧ (2 : ℝ) * 3 * 5 * 1 ≤ (2 : ℝ) ^ (1000 : ℤ) := by
  constructor
  · exact (zpow_le_one_of_nonpos₀ (by norm_num) (by norm_num)).trans (by norm_num)
  · calc (2 : ℝ) * 3 * 5 * 1 ≤ (2 : ℝ) ^ (5 : ℤ) := by norm_num
      _ ≤ _ := zpow_le_zpow_right₀ (by norm_num) (by norm_num)

/-- The factors of a pair of vertices are in the range of `C92_probability_partial`, or one of them
is zero. -/
def Round.InRange (d x y z : ℝ) : Prop :=
  (x = 0 ∨ y = 0 ∨ d = 0) ∨
    (0 < d ∧ 0 < x ∧ 0 < y ∧
      ((2 : ℝ) ^ (-1000 : ℤ) ≤ d * x ∧ d * x ≤ (2 : ℝ) ^ (1000 : ℤ)) ∧
      ((2 : ℝ) ^ (-1000 : ℤ) ≤ d * x * y ∧ d * x * y ≤ (2 : ℝ) ^ (1000 : ℤ)) ∧
      (z = 0 ∨ (0 < z ∧
        ((2 : ℝ) ^ (-1000 : ℤ) ≤ d * x * y * z ∧ d * x * y * z ≤ (2 : ℝ) ^ (1000 : ℤ)))))

/-- Accuracy for one pair of vertices. -/
theorem Round.pair_acc {f : (XR → XR → XR → XR → XR) × (XR → XR → XR → XR → XR)}
    (hf : f ∈ Round.models) {d x y z : ℝ} (h : Round.InRange d x y z) :
    ∃ p ∈ doubles, ∃ q : ℝ, 0 ≤ q ∧ 0 ≤ p ∧ p ≤ 1 ∧ f.1 (fin d) (fin x) (fin y) (fin z) = fin p ∧
      f.2 (fin d) (fin x) (fin y) (fin z) = fin q ∧ Within (5.3 * ulp2) q p := by
  rcases h with h | ⟨hd, hx, hy, h1, h2, h3⟩
  · have g3 : ((fin x).isZero || (fin y).isZero || (fin d).isZero) = true := by
      rcases h with rfl | rfl | rfl <;> simp [isZero]
    have g4 : ((fin x).isZero || (fin y).isZero || (fin z).isZero || (fin d).isZero) = true := by
      rcases h with rfl | rfl | rfl <;> simp [isZero]
    refine ⟨0, Faithful.binary64.zero_mem, 0, le_rfl, le_rfl, by norm_num, ?_, ?_, by simp [Within]⟩
    · simp only [Round.models, List.mem_cons, List.not_mem_nil, or_false] at hf
      rcases hf with rfl | rfl | rfl | rfl
      · simp only [Round.Sparse.FitnessModel.p_ij, g4]; rfl
      · simp only [Round.Sparse.ScaleInvariantModel.p_ij, g4]; rfl
      · simp only [Round.Dense.FitnessModel.p_ij, g3]; rfl
      · simp only [Round.Dense.ScaleInvariantModel.p_ij, g3]; rfl
    · simp only [Round.models, List.mem_cons, List.not_mem_nil, or_false] at hf
      rcases hf with rfl | rfl | rfl | rfl
      · simp only [Verif.Sparse.FitnessModel.p_ij, g4]; rfl
      · simp only [Verif.Sparse.ScaleInvariantModel.p_ij, g4]; rfl
      · simp only [Verif.Dense.FitnessModel.p_ij, g3]; rfl
      · simp only [Verif.Dense.ScaleInvariantModel.p_ij, g3]; rfl
  · have hz : 0 ≤ z := by
      rcases h3 with rfl | h3
      · exact le_rfl
      · exact h3.1.le
    have hacc : ∃ p ∈ doubles, ∃ q : ℝ, 0 ≤ q ∧ f.1 (fin d) (fin x) (fin y) (fin z) = fin p ∧
        f.2 (fin d) (fin x) (fin y) (fin z) = fin q ∧ Within (5.3 * ulp2) q p := by
      rcases h3 with rfl | ⟨hz, h3⟩
      · have g4 : ((fin x).isZero || (fin y).isZero || (fin 0).isZero || (fin d).isZero) = true := by
          simp [isZero]
        simp only [Round.models, List.mem_cons, List.not_mem_nil, or_false] at hf
        rcases hf with rfl | rfl | rfl | rfl
        · refine ⟨0, Faithful.binary64.zero_mem, 0, le_rfl, ?_, ?_, by simp [Within]⟩
          · simp only [Round.Sparse.FitnessModel.p_ij, g4]; rfl
          · simp only [Verif.Sparse.FitnessModel.p_ij, g4]; rfl
        · refine ⟨0, Faithful.binary64.zero_mem, 0, le_rfl, ?_, ?_, by simp [Within]⟩
          · simp only [Round.Sparse.ScaleInvariantModel.p_ij, g4]; rfl
          · simp only [Verif.Sparse.ScaleInvariantModel.p_ij, g4]; rfl
        · exact dense_fit_acc (fin 0) hd hx hy h1 h2
        · exact dense_inv_acc (fin 0) hd hx hy h1 h2
      · exact models_acc hf hd hx hy hz ⟨h1, h2, h3⟩
    obtain ⟨p, hp, q, hq, ep, eq, hw⟩ := hacc
    obtain ⟨h1, h2, h3, h4⟩ := C91_probability_partial Faithful.binary64 d x y z hd.le hx.le hy.le hz
    have hr : ∃ r : ℝ, f.1 (fin d) (fin x) (fin y) (fin z) = fin r ∧ 0 ≤ r ∧ r ≤ 1 := by
      simp only [Round.models, List.mem_cons, List.not_mem_nil, or_false] at hf
      rcases hf with rfl | rfl | rfl | rfl <;> assumption
    obtain ⟨r, er, r0, r1⟩ := hr
    obtain rfl : p = r := by rw [ep] at er; exact XR.fin.inj er
    exact ⟨p, hp, q, hq, r0, r1, ep, eq, hw⟩

private theorem two_pow_big {m : ℕ} (h : m ≤ 2 ^ 53) : (m : ℝ) * 2 + 4 ≤ (2 : ℝ) ^ (1023 : ℤ) := by
  have h1 : (m : ℝ) ≤ 9007199254740992 := by exact_mod_cast h
  calc (m : ℝ) * 2 + 4 ≤ (2 : ℝ) ^ (60 : ℤ) := by
        have : (2 : ℝ) ^ (60 : ℤ) = 1152921504606846976 := by norm_num
        rw [this]; linarith
    _ ≤ _ := zpow_le_zpow_right₀ (by norm_num) (by norm_num)

/-- Partial sums of the edge loop: `k` terms have been added. -/
private def Sum (k : ℕ) (c e : XR) : Prop :=
  ∃ a ∈ doubles, ∃ b : ℝ, c = fin a ∧ e = fin b ∧ 0 ≤ a ∧ 0 ≤ b ∧ a ≤ k ∧
    b * ((1 - 5.3 * ulp2) * (1 - ulp2) ^ k) ≤ a ∧ a ≤ b * ((1 + 5.3 * ulp2) * (1 + ulp2) ^ k)

private theorem fold_sum {ι : Type} (l : List ι) (adm : ι → Bool) (p q : ι → XR)
    (h : ∀ x ∈ l, ∃ a ∈ doubles, ∃ b : ℝ, 0 ≤ b ∧ 0 ≤ a ∧ a ≤ 1 ∧ p x = fin a ∧ q x = fin b ∧
      Within (5.3 * ulp2) b a) :
    ∀ (k : ℕ) (c e : XR), Sum k c e → k + l.countP adm ≤ 2 ^ 53 →
      Sum (k + l.countP adm) (l.foldl (fun e x => if adm x then binary64.add e (p x) else e) c)
        (l.foldl (fun e x => if adm x then e + q x else e) e) := by
  induction l with
  | nil => intro k c e h _; simpa using h
  | cons x l ih =>
    intro k c e hs hk
    rw [List.foldl_cons, List.foldl_cons]
    by_cases hx : adm x
    · rw [List.countP_cons_of_pos hx] at hk ⊢
      rw [if_pos hx, if_pos hx]
      have : Sum (k + 1) (binary64.add c (p x)) (e + q x) := by
        obtain ⟨a, ha, b, rfl, rfl, a0, b0, ak, s1, s2⟩ := hs
        obtain ⟨r, hr, t, t0, r0, r1, e1, e2, hw⟩ := h x (by simp)
        have hu := ulp2_pos
        have hu' := ulp2_small
        have hb : Bd doubles (k + 1) (binary64.add (fin a) (p x)) :=
          Bd.add Faithful.binary64 (natCast_mem (by omega)) ⟨a, ha, rfl, a0, ak⟩
            ⟨r, hr, e1, r0, r1⟩
        obtain ⟨s, hsd, es, g1, g2⟩ := add_step (by linarith) (by linarith) ha hr a0 r0 t0 ⟨s1, s2⟩
          hw (by
            refine le_trans ?_ (two_pow_big (m := k) (by omega))
            have : (0 : ℝ) ≤ k := Nat.cast_nonneg k
            linarith)
        rw [e1, es] at hb
        rw [e1, e2, es]
        obtain ⟨s', _, es', s0, sk⟩ := hb
        obtain rfl : s = s' := XR.fin.inj es'
        exact ⟨s, hsd, b + t, rfl, rfl, s0, by linarith, sk, g1, g2⟩
      have := ih (fun x hx => h x (by simp [hx])) (k + 1) _ _ this (by omega)
      rwa [show k + 1 + l.countP adm = k + (l.countP adm + 1) by omega] at this
    · rw [List.countP_cons_of_neg hx] at hk ⊢
      rw [if_neg hx, if_neg hx]
      exact ih (fun x hx => h x (by simp [hx])) k c e hs hk

/-- **C92**, expected number of edges.  With at most `2 ^ 26` vertices, and all pairs of vertices in
the range of `C92_probability_partial` (or with a zero property), the expected number of edges
computed in double precision is within the stated relative distance of the exact one; `N` is the
number of admissible pairs. -/
theorem C92_edges_partial (f : (XR → XR → XR → XR → XR) × (XR → XR → XR → XR → XR))
    (hf : f ∈ Round.models) (n : ℕ) (hn : n ≤ 2 ^ 26) (d : ℝ) (x y : ℕ → ℝ) (z : ℕ → ℕ → ℝ)
    (h : ∀ i < n, ∀ j < n, Round.InRange d (x i) (y j) (z i j)) (sl : Bool) :
    let N := n * (if sl then n else n - 1)
    let u := (2 : ℝ) ^ (-53 : ℤ)
    ∃ e E : ℝ,
      Round.exp_edges binary64 f.1 (fin d) n (fun i => fin (x i)) (fun j => fin (y j))
        (fun i j => fin (z i j)) sl = fin e ∧
      DiGraphEnsemble.exp_edges f.2 (fin d) n (fun i => fin (x i)) (fun j => fin (y j))
        (fun i j => fin (z i j)) sl = fin E ∧
      E * ((1 - 6 * u) * (1 - u) ^ N) ≤ e ∧ e ≤ E * ((1 + 6 * u) * (1 + u) ^ N) := by
  intro N u
  set c := if sl then n else n - 1 with hc
  have hu := ulp2_pos
  have hu' := ulp2_small
  have hN : n * c ≤ 2 ^ 53 := by
    have : c ≤ 2 ^ 26 := by rw [hc]; split <;> omega
    calc _ ≤ 2 ^ 26 * 2 ^ 26 := Nat.mul_le_mul hn this
      _ ≤ 2 ^ 53 := by norm_num
  have hpair : ∀ i < n, ∀ j < n, ∃ a ∈ doubles, ∃ b : ℝ, 0 ≤ b ∧ 0 ≤ a ∧ a ≤ 1 ∧
      f.1 (fin d) (fin (x i)) (fin (y j)) (fin (z i j)) = fin a ∧
      f.2 (fin d) (fin (x i)) (fin (y j)) (fin (z i j)) = fin b ∧ Within (5.3 * ulp2) b a :=
    fun i hi j hj => Round.pair_acc hf (h i hi j hj)
  have key : ∀ m ≤ n, Sum (m * c)
      ((List.range m).foldl (fun exp_e i => (List.range n).foldl (fun exp_e j =>
        if admissible i j sl then
          binary64.add exp_e (f.1 (fin d) (fin (x i)) (fin (y j)) (fin (z i j)))
        else exp_e) exp_e) 0)
      ((List.range m).foldl (fun exp_e i => (List.range n).foldl (fun exp_e j =>
        if admissible i j sl then exp_e + f.2 (fin d) (fin (x i)) (fin (y j)) (fin (z i j))
        else exp_e) exp_e) 0) := by
    intro m
    induction m with
    | zero =>
      intro _
      exact ⟨0, Faithful.binary64.zero_mem, 0, rfl, rfl, le_rfl, le_rfl, by simp, by simp, by simp⟩
    | succ m ih =>
      intro hm
      rw [List.range_succ, List.foldl_append, List.foldl_append]
      have hcnt := count_admissible (n := n) (i := m) (by omega) sl
      have hle : (m + 1) * c ≤ n * c := Nat.mul_le_mul_right c hm
      have := fold_sum (List.range n) (fun j => admissible m j sl)
        (fun j => f.1 (fin d) (fin (x m)) (fin (y j)) (fin (z m j)))
        (fun j => f.2 (fin d) (fin (x m)) (fin (y j)) (fin (z m j))) (fun j hj => hpair m (by omega) j (List.mem_range.1 hj))
        (m * c) _ _ (ih (by omega))
        (by rw [hcnt, ← hc]; rw [Nat.succ_mul] at hle; omega)
      rw [hcnt, ← hc] at this
      rw [Nat.succ_mul]
      exact this
  obtain ⟨a, _, b, e1, e2, a0, b0, _, s1, s2⟩ := key n le_rfl
  refine ⟨a, b, e1, e2, ?_, ?_⟩
  · refine le_trans (mul_le_mul_of_nonneg_left ?_ b0) s1
    exact mul_le_mul_of_nonneg_right (show 1 - 6 * ulp2 ≤ 1 - 5.3 * ulp2 by linarith)
      (pow_nonneg (show 0 ≤ 1 - ulp2 by linarith) _)
  · refine s2.trans (mul_le_mul_of_nonneg_left ?_ b0)
    exact mul_le_mul_of_nonneg_right (show 1 + 5.3 * ulp2 ≤ 1 + 6 * ulp2 by linarith)
      (pow_nonneg (show 0 ≤ 1 + ulp2 by linarith) _)

/-- Three vertices, one of them with a zero property, meet the hypotheses. -/
example : ∀ i < 3, ∀ j < 3, Round.InRange 2 (if i = 0 then 0 else 3) (if j = 1 then 1 else 5) 1 := by
  have big : ∀ r : ℝ, 1 ≤ r → r ≤ 32 →
      (2 : ℝ) ^ (-1000 : ℤ) ≤ r ∧ r ≤ (2 : ℝ) ^ (1000 : ℤ) := fun r h1 h2 =>
    ⟨(zpow_le_one_of_nonpos₀ (by norm_num) (by norm_num)).trans h1,
      h2.trans ((show (32 : ℝ) ≤ (2 : ℝ) ^ (5 : ℤ) by norm_num).trans
        (zpow_le_zpow_right₀ (by norm_num) (by norm_num)))⟩
  intro i _ j _
  by_cases hi : i = 0
  · exact Or.inl (Or.inl (if_pos hi))
  · rw [if_neg hi]
    right
    split <;>
    exact ⟨by norm_num, by norm_num, by norm_num, big _ (by norm_num) (by norm_num),
        big _ (by norm_num) (by norm_num), .inr ⟨by norm_num, big _ (by norm_num) (by norm_num)⟩⟩

/-! ## Where accuracy is lost -/

/-- **C92** fails when a partial product underflows.  The product of the four factors is 1, so that
the probability is 1/2; in double precision it is 0. -/
theorem C92_underflow_violated :
    let a : XR := fin ((2 : ℝ) ^ (-600 : ℤ))
    let b : XR := fin ((2 : ℝ) ^ (600 : ℤ))
    Round.Sparse.FitnessModel.p_ij binary64 a a b b = 0 ∧
    Verif.Sparse.FitnessModel.p_ij a a b b = fin (1 / 2) := by
  intro a b
  have ha : a.isZero = false := isZero_eq_false (pow_pos' _).ne'
  have hb : b.isZero = false := isZero_eq_false (pow_pos' _).ne'
  have hz : (0 : ℝ) ∈ doubles := Faithful.binary64.zero_mem
  constructor
  · have e1 : binary64.mul a a = fin 0 := by
      show toDouble ((2 : ℝ) ^ (-600 : ℤ) * (2 : ℝ) ^ (-600 : ℤ)) = fin 0
      rw [← zpow_add₀ (by norm_num)]
      exact toDouble_tiny (pow_pos' _) (zpow_lt_zpow_right₀ (by norm_num) (by norm_num))
    have e2 : binary64.mul (fin 0) b = fin 0 := by
      show toDouble (0 * _) = fin 0
      rw [zero_mul]; exact toDouble_self hz
    have e3 : prod4 binary64 a a b b = fin 0 := by rw [prod4, e1, e2, e2]
    have e4 : binary64.add 1 (fin 0) = fin 1 := by
      show toDouble (1 + 0) = fin 1
      rw [add_zero]; exact toDouble_self Faithful.binary64.one_mem
    have e5 : binary64.div (fin 0) (fin 1) = fin 0 := by
      show roundXR (fin 0 / fin 1) = fin 0
      rw [fin_div_fin _ _ one_ne_zero, zero_div]; exact toDouble_self hz
    simp only [Round.Sparse.FitnessModel.p_ij, ha, hb, e3, e4, e5]
    rfl
  · have hp : (2 : ℝ) ^ (-600 : ℤ) * (2 : ℝ) ^ (-600 : ℤ) * (2 : ℝ) ^ (600 : ℤ) *
        (2 : ℝ) ^ (600 : ℤ) = 1 := by
      rw [← zpow_add₀ (by norm_num), ← zpow_add₀ (by norm_num), ← zpow_add₀ (by norm_num)]
      norm_num
    have e3 : a * a * b * b = fin 1 := by
      show fin ((2 : ℝ) ^ (-600 : ℤ) * (2 : ℝ) ^ (-600 : ℤ) * (2 : ℝ) ^ (600 : ℤ) *
        (2 : ℝ) ^ (600 : ℤ)) = fin 1
      rw [hp]
    simp only [Verif.Sparse.FitnessModel.p_ij, ha, hb, e3]
    show fin 1 / fin (1 + 1) = _
    rw [fin_div_fin _ _ (by norm_num)]
    norm_num

theorem toDouble_huge {k : ℤ} (h : 1024 ≤ k) : toDouble ((2 : ℝ) ^ k) = pinf := by
  have he : expo ((2 : ℝ) ^ k) = k - 52 :=
    expo_of le_rfl (zpow_lt_zpow_right₀ (by norm_num) (by omega)) (by omega)
  have hr : (2 : ℝ) ^ k ≤ rnd ((2 : ℝ) ^ k) := by
    obtain ⟨c, hc⟩ := mul_zpow_eq (m := 1) (e := k) (k := expo ((2 : ℝ) ^ k)) (by omega)
    simp only [Int.cast_one, one_mul] at hc
    have := le_rnd_mul (x := (2 : ℝ) ^ k) (m := c) hc.symm.le
    rwa [← hc] at this
  unfold toDouble
  rw [if_pos ((zpow_le_zpow_right₀ (by norm_num) h).trans hr)]

/-- **C92** fails when a partial product overflows.  The product of the four factors is 1 again; in
double precision the probability is 1. -/
theorem C92_overflow_violated :
    let a : XR := fin ((2 : ℝ) ^ (-600 : ℤ))
    let b : XR := fin ((2 : ℝ) ^ (600 : ℤ))
    Round.Sparse.FitnessModel.p_ij binary64 b b a a = 1 ∧
    Verif.Sparse.FitnessModel.p_ij b b a a = fin (1 / 2) := by
  intro a b
  have ha : a.isZero = false := isZero_eq_false (pow_pos' _).ne'
  have hb : b.isZero = false := isZero_eq_false (pow_pos' _).ne'
  constructor
  · have e1 : binary64.mul b b = pinf := by
      show toDouble ((2 : ℝ) ^ (600 : ℤ) * (2 : ℝ) ^ (600 : ℤ)) = pinf
      rw [← zpow_add₀ (by norm_num)]
      exact toDouble_huge (by norm_num)
    have e2 : binary64.mul pinf a = pinf := by
      show roundXR (pinf * fin _) = pinf
      rw [pinf_mul_fin_pos (pow_pos' _)]; rfl
    have e3 : prod4 binary64 b b a a = pinf := by rw [prod4, e1, e2, e2]
    simp only [Round.Sparse.FitnessModel.p_ij, ha, hb, e3]
    rfl
  · have hp : (2 : ℝ) ^ (600 : ℤ) * (2 : ℝ) ^ (600 : ℤ) * (2 : ℝ) ^ (-600 : ℤ) *
        (2 : ℝ) ^ (-600 : ℤ) = 1 := by
      rw [← zpow_add₀ (by norm_num), ← zpow_add₀ (by norm_num), ← zpow_add₀ (by norm_num)]
      norm_num
    have e3 : b * b * a * a = fin 1 := by
      show fin ((2 : ℝ) ^ (600 : ℤ) * (2 : ℝ) ^ (600 : ℤ) * (2 : ℝ) ^ (-600 : ℤ) *
        (2 : ℝ) ^ (-600 : ℤ)) = fin 1
      rw [hp]
    simp only [Verif.Sparse.FitnessModel.p_ij, ha, hb, e3]
    show fin 1 / fin (1 + 1) = _
    rw [fin_div_fin _ _ (by norm_num)]
    norm_num

private theorem rnd_half {m : ℤ} {x : ℝ} (hm : 2 ^ 52 ≤ m) (hm' : m < 2 ^ 53)
    (hx : x = (m + 1 / 2) * 2) : toDouble x = fin ((if Even m then m else m + 1 : ℤ) * 2) := by
  have h1 : (2 : ℝ) ^ 52 ≤ m := by exact_mod_cast hm
  have h2 : (m : ℝ) + 1 ≤ (2 : ℝ) ^ 53 := by exact_mod_cast hm'
  have he : expo x = 1 := by
    refine expo_of (L := 53) ?_ ?_ (by norm_num)
    · rw [hx, show (2 : ℝ) ^ (53 : ℤ) = 2 ^ 52 * 2 by norm_num]; linarith
    · rw [hx, show (2 : ℝ) ^ (53 + 1 : ℤ) = 2 ^ 53 * 2 by norm_num]; linarith
  have hq : x / (2 : ℝ) ^ expo x = m + 1 / 2 := by rw [he, hx, zpow_one]; ring
  have hf : ⌊x / (2 : ℝ) ^ expo x⌋ = m := by
    rw [hq, Int.floor_eq_iff]
    constructor <;> linarith
  have hn : nearest (x / (2 : ℝ) ^ expo x) = if Even m then m else m + 1 := by
    unfold nearest
    rw [hf, hq, if_neg (by linarith), if_neg (by linarith)]
  have hr : rnd x = (if Even m then m else m + 1 : ℤ) * 2 := by
    rw [rnd, hn, he, zpow_one]
  have hlt : rnd x < (2 : ℝ) ^ (1024 : ℤ) := by
    calc rnd x ≤ (2 : ℝ) ^ (54 : ℤ) := by
          rw [hr]
          have : ((if Even m then m else m + 1 : ℤ) : ℝ) ≤ (2 : ℝ) ^ 53 := by
            split
            · linarith
            · push_cast; linarith
          have e : (2 : ℝ) ^ (54 : ℤ) = 2 ^ 53 * 2 := by norm_num
          rw [e]; linarith
      _ < _ := zpow_lt_zpow_right₀ (by norm_num) (by norm_num)
  have hpos : 0 ≤ rnd x := le_rnd Faithful.binary64.zero_mem (by rw [hx]; linarith)
  unfold toDouble
  rw [if_neg (not_le.2 hlt), if_neg (not_le.2 ((neg_lt_zero.2 (pow_pos' _)).trans_le hpos)), hr]

private theorem one_big {x : ℝ} (hx : x ∈ doubles) :
    prod4 binary64 1 (fin x) 1 1 = fin x := by
  have e1 : binary64.mul 1 (fin x) = fin x := by
    show toDouble (1 * x) = fin x
    rw [one_mul]; exact toDouble_self hx
  have e2 : binary64.mul (fin x) 1 = fin x := by
    show toDouble (x * 1) = fin x
    rw [mul_one]; exact toDouble_self hx
  rw [prod4, e1, e2, e2]

private theorem big_mem : ((2 : ℝ) ^ 53) ∈ doubles := by
  have := natCast_mem (m := 2 ^ 53) le_rfl
  exact_mod_cast this

private theorem add_big : binary64.add 1 (fin ((2 : ℝ) ^ 53)) = fin ((2 : ℝ) ^ 53) := by
  show toDouble (1 + (2 : ℝ) ^ 53) = _
  rw [rnd_half (m := 2 ^ 52) (by norm_num) (by norm_num) (by norm_num), if_pos (by decide)]
  norm_num

/-- **C92** fails for the logarithm of the probability of no link.  For a product of the factors of
`2 ^ 53` the computed value is `-inf`, as if the link were certain, while the exact value is finite:
the likelihood of every graph without that link becomes `-inf`. -/
theorem C92_log1mp_violated :
    Round.Sparse.FitnessModel.log1mp binary64 1 (fin ((2 : ℝ) ^ 53)) 1 1 = ninf ∧
    ∃ r : ℝ, Verif.Sparse.FitnessModel.log1mp 1 (fin ((2 : ℝ) ^ 53)) 1 1 = fin r := by
  have hx : (fin ((2 : ℝ) ^ 53)).isZero = false := isZero_eq_false (by norm_num)
  have h1 : (1 : XR).isZero = false := isZero_eq_false one_ne_zero
  constructor
  · have e2 : binary64.div (-fin ((2 : ℝ) ^ 53)) (fin ((2 : ℝ) ^ 53)) = fin (-1) := by
      show roundXR (fin (-(2 : ℝ) ^ 53) / fin ((2 : ℝ) ^ 53)) = _
      rw [fin_div_fin _ _ (by norm_num), show (-(2 : ℝ) ^ 53) / (2 : ℝ) ^ 53 = -1 by norm_num]
      exact toDouble_self (units_subset (by simp [units]))
    have e3 : binary64.log1p (fin (-1)) = ninf := by
      show roundXR (log1p (fin (-1))) = ninf
      rw [show log1p (fin (-1)) = ninf by simp [log1p]]; rfl
    simp only [Round.Sparse.FitnessModel.log1mp, hx, h1, one_big big_mem, add_big, e2, e3]
    simp
  · refine ⟨Real.log (1 + -(2 : ℝ) ^ 53 / (1 + (2 : ℝ) ^ 53)), ?_⟩
    have e3 : 1 * fin ((2 : ℝ) ^ 53) * 1 * 1 = (fin ((2 : ℝ) ^ 53) : XR) := by
      show fin (1 * (2 : ℝ) ^ 53 * 1 * 1) = _
      norm_num
    simp only [Verif.Sparse.FitnessModel.log1mp, hx, h1, e3]
    show log1p (fin (-(2 : ℝ) ^ 53) / fin (1 + (2 : ℝ) ^ 53)) = _
    rw [fin_div_fin _ _ (by norm_num), log1p_fin_pos (by norm_num)]

/-- Monotonicity (C03) holds without rounding only: in double precision a larger property can give a
smaller probability. -/
theorem C92_monotone_violated :
    ∃ p q : ℝ, Round.Sparse.FitnessModel.p_ij binary64 1 (fin ((2 : ℝ) ^ 53)) 1 1 = fin p ∧
      Round.Sparse.FitnessModel.p_ij binary64 1 (fin ((2 : ℝ) ^ 53 + 2)) 1 1 = fin q ∧ q < p := by
  have h1 : (1 : XR).isZero = false := isZero_eq_false one_ne_zero
  have hx : (fin ((2 : ℝ) ^ 53)).isZero = false := isZero_eq_false (by norm_num)
  have hy : (fin ((2 : ℝ) ^ 53 + 2)).isZero = false := isZero_eq_false (by norm_num)
  have hm2 : ((2 : ℝ) ^ 53 + 2) ∈ doubles := by
    refine ⟨⟨2 ^ 52 + 1, 1, by norm_num, by norm_num, by norm_num⟩, ?_⟩
    rw [abs_of_pos (by norm_num)]
    calc (2 : ℝ) ^ 53 + 2 ≤ (2 : ℝ) ^ (54 : ℤ) := by norm_num
      _ < _ := zpow_lt_zpow_right₀ (by norm_num) (by norm_num)
  have a2 : binary64.add 1 (fin ((2 : ℝ) ^ 53 + 2)) = fin ((2 : ℝ) ^ 53 + 4) := by
    show toDouble (1 + ((2 : ℝ) ^ 53 + 2)) = _
    rw [rnd_half (m := 2 ^ 52 + 1) (by norm_num) (by norm_num) (by norm_num), if_neg (by decide)]
    norm_num
  have hone : (1 : ℝ) - (2 : ℝ) ^ (-53 : ℤ) ∈ doubles := by
    refine ⟨⟨2 ^ 53 - 1, -53, by norm_num, by norm_num, by norm_num⟩, ?_⟩
    rw [abs_of_pos (by norm_num)]
    calc (1 : ℝ) - (2 : ℝ) ^ (-53 : ℤ) ≤ (2 : ℝ) ^ (0 : ℤ) := by norm_num
      _ < _ := zpow_lt_zpow_right₀ (by norm_num) (by norm_num)
  have hq : ((2 : ℝ) ^ 53 + 2) / ((2 : ℝ) ^ 53 + 4) ≤ 1 - (2 : ℝ) ^ (-53 : ℤ) := by
    rw [div_le_iff₀ (by norm_num)]; norm_num
  obtain ⟨q, _, eq, _, hq1⟩ := near_between
    (near_toDouble (((2 : ℝ) ^ 53 + 2) / ((2 : ℝ) ^ 53 + 4))) Faithful.binary64.zero_mem hone
    (by positivity) hq
  refine ⟨1, q, ?_, ?_, hq1.trans_lt (by linarith [pow_pos' (-53)])⟩
  · have e2 : binary64.div (fin ((2 : ℝ) ^ 53)) (fin ((2 : ℝ) ^ 53)) = fin 1 := by
      show roundXR (fin ((2 : ℝ) ^ 53) / fin ((2 : ℝ) ^ 53)) = _
      rw [fin_div_fin _ _ (by norm_num), div_self (by norm_num)]
      exact toDouble_self Faithful.binary64.one_mem
    simp only [Round.Sparse.FitnessModel.p_ij, hx, h1, one_big big_mem, add_big, e2]
    simp
  · have e2 : binary64.div (fin ((2 : ℝ) ^ 53 + 2)) (fin ((2 : ℝ) ^ 53 + 4)) = fin q := by
      show roundXR (fin ((2 : ℝ) ^ 53 + 2) / fin ((2 : ℝ) ^ 53 + 4)) = _
      rw [fin_div_fin _ _ (by norm_num)]
      exact eq
    simp only [Round.Sparse.FitnessModel.p_ij, hy, h1, one_big hm2, a2, e2]
    simp

end Verif
