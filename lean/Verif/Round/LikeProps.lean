import Verif.Round.LikeLemmas
import Verif.Round.AllProps

/-!
# C109: log-likelihoods in double precision

Missing in the theorems (suffix `_partial`): factors whose partial products leave the range of
`Round.InRange` or are above `2 ^ 40` (see `C109_large_violated`), mathematical functions that are not
correctly rounded, and the multi-layer fitness model, whose `logp` loses small probabilities
(`C109_layers_fitness_violated`).
-/

namespace Verif

open XR Round

/-- `logp` and `log1mp` of the single-layer models in double precision, each pair with the functions
of the model without rounding. -/
noncomputable def Round.logModels : List (((XR → XR → XR → XR → XR) × (XR → XR → XR → XR → XR)) ×
    ((XR → XR → XR → XR → XR) × (XR → XR → XR → XR → XR))) :=
  [((Round.Sparse.FitnessModel.logp binary64, Round.Sparse.FitnessModel.log1mp binary64),
      (Verif.Sparse.FitnessModel.logp, Verif.Sparse.FitnessModel.log1mp)),
    ((Round.Sparse.ScaleInvariantModel.logp binary64,
        Round.Sparse.ScaleInvariantModel.log1mp binary64),
      (Verif.Sparse.ScaleInvariantModel.logp, Verif.Sparse.ScaleInvariantModel.log1mp)),
    ((Round.Dense.FitnessModel.logp binary64, Round.Dense.FitnessModel.log1mp binary64),
      (Verif.Dense.FitnessModel.logp, Verif.Dense.FitnessModel.log1mp)),
    ((Round.Dense.ScaleInvariantModel.logp binary64,
        Round.Dense.ScaleInvariantModel.log1mp binary64),
      (Verif.Dense.ScaleInvariantModel.logp, Verif.Dense.ScaleInvariantModel.log1mp))]

theorem Round.lfin_inf {a : ℝ} (v v' : XR) (h : LFin a v v') :
    v.isInf = false ∧ v'.isInf = false := by
  obtain ⟨r, _, R, rfl, rfl, _⟩ := h
  exact ⟨rfl, rfl⟩

private theorem pow40 {t T : ℝ} (h : t ≤ T) (hT : T ≤ 2 ^ 40) : t ≤ (2 : ℝ) ^ (1000 : ℤ) :=
  (h.trans hT).trans ((show (2 : ℝ) ^ 40 ≤ (2 : ℝ) ^ (40 : ℤ) by norm_num).trans
    (zpow_le_zpow_right₀ (by norm_num) (by norm_num)))

private theorem nn_of {w : ℝ} (hw : w ∈ doubles) (w0 : 0 ≤ w) : NN doubles (fin w) :=
  .inr ⟨w, hw, rfl, w0⟩

private theorem unit_le {v : XR} (h : Unit doubles v) : ∀ p, v = fin p → p ≤ 1 := by
  obtain ⟨r, _, e, _, r1⟩ := h
  intro p hp
  rw [e] at hp
  rw [← XR.fin.inj hp]; exact r1

/-- The terms of the four formulas, from the product `t` of the factors, computed as `w`. -/
private theorem core {t w T : ℝ} (ht : 0 < t) (h1 : (2 : ℝ) ^ (-1000 : ℤ) ≤ t) (hT : t ≤ T)
    (hT' : T ≤ 2 ^ 40) (hwd : w ∈ doubles) (hw : Within (3.2 * ulp2) t w) :
    LFin (9 * (1 + T)) (binary64.log (binary64.div (fin w) (binary64.add 1 (fin w))))
        (XR.log (fin t / (1 + fin t))) ∧
      LFin (9 * (1 + T)) (binary64.log1p (binary64.div (-fin w) (binary64.add 1 (fin w))))
        (XR.log1p (-fin t / (1 + fin t))) ∧
      LFin (9 * (1 + T)) (binary64.log (-(binary64.expm1 (-fin w)))) (XR.log (-(XR.expm1 (-fin t)))) ∧
      LFin (9 * (1 + T)) (-fin w) (-fin t) := by
  have hu := ulp2_pos
  have hu' := ulp2_small
  have w0 : 0 ≤ w := (mul_nonneg ht.le (by linarith)).trans hw.1
  have T0 : 0 ≤ T := ht.le.trans hT
  refine ⟨(fit_logp_acc (by positivity) le_rfl ht h1 (pow40 hT hT') hw (unit_le ?_)).mono
      (by linarith),
    (fit_log1mp_acc (by positivity) le_rfl ht h1 (pow40 hT hT') hT hT' hw).mono (by linarith),
    (inv_logp_acc (by norm_num) (by linarith) ht h1 hw
      (unit_le (expm1_neg Faithful.binary64 (nn_of hwd w0)))).mono (by linarith),
    (inv_log1mp_acc (by norm_num) ht.le hT hT' hwd w0 hw).mono (by linarith)⟩
  exact div_unit Faithful.binary64 w0 (one_add Faithful.binary64 hwd w0)

private theorem widen {e e' x v : ℝ} (hx : 0 ≤ x) (h : Within e x v) (he : e ≤ e') :
    Within e' x v :=
  ⟨(mul_le_mul_of_nonneg_left (by linarith) hx).trans h.1,
    h.2.trans (mul_le_mul_of_nonneg_left (by linarith) hx)⟩

private theorem guards {d x y z : ℝ} (hd : 0 < d) (hx : 0 < x) (hy : 0 < y) (hz : 0 < z) :
    ((fin x).isZero || (fin y).isZero || (fin z).isZero || (fin d).isZero) = false := by
  simp [isZero, hd.ne', hx.ne', hy.ne', hz.ne']

private theorem guards' {d x y : ℝ} (hd : 0 < d) (hx : 0 < x) (hy : 0 < y) :
    ((fin x).isZero || (fin y).isZero || (fin d).isZero) = false := by
  simp [isZero, hd.ne', hx.ne', hy.ne']

private theorem sparse_zero {d x y z : ℝ} {a : ℝ} (a0 : 0 ≤ a)
    (g : ((fin x).isZero || (fin y).isZero || (fin z).isZero || (fin d).isZero) = true) :
    (LTerm a (Round.Sparse.FitnessModel.logp binary64 (fin d) (fin x) (fin y) (fin z))
        (Verif.Sparse.FitnessModel.logp (fin d) (fin x) (fin y) (fin z)) ∧
      LTerm a (Round.Sparse.FitnessModel.log1mp binary64 (fin d) (fin x) (fin y) (fin z))
        (Verif.Sparse.FitnessModel.log1mp (fin d) (fin x) (fin y) (fin z))) ∧
      LTerm a (Round.Sparse.ScaleInvariantModel.logp binary64 (fin d) (fin x) (fin y) (fin z))
        (Verif.Sparse.ScaleInvariantModel.logp (fin d) (fin x) (fin y) (fin z)) ∧
      LTerm a (Round.Sparse.ScaleInvariantModel.log1mp binary64 (fin d) (fin x) (fin y) (fin z))
        (Verif.Sparse.ScaleInvariantModel.log1mp (fin d) (fin x) (fin y) (fin z)) := by
  have z0 := lfin_zero a0
  refine ⟨⟨.inl ⟨?_, ?_⟩, .inr ?_⟩, .inl ⟨?_, ?_⟩, .inr ?_⟩
  · simp only [Round.Sparse.FitnessModel.logp, g]; rfl
  · simp only [Verif.Sparse.FitnessModel.logp, g]; rfl
  · simp only [Round.Sparse.FitnessModel.log1mp, Verif.Sparse.FitnessModel.log1mp, g]; exact z0
  · simp only [Round.Sparse.ScaleInvariantModel.logp, g]; rfl
  · simp only [Verif.Sparse.ScaleInvariantModel.logp, g]; rfl
  · simp only [Round.Sparse.ScaleInvariantModel.log1mp, Verif.Sparse.ScaleInvariantModel.log1mp, g]
    exact z0

private theorem dense_zero {d x y : ℝ} (z : XR) {a : ℝ} (a0 : 0 ≤ a)
    (g : ((fin x).isZero || (fin y).isZero || (fin d).isZero) = true) :
    (LTerm a (Round.Dense.FitnessModel.logp binary64 (fin d) (fin x) (fin y) z)
        (Verif.Dense.FitnessModel.logp (fin d) (fin x) (fin y) z) ∧
      LTerm a (Round.Dense.FitnessModel.log1mp binary64 (fin d) (fin x) (fin y) z)
        (Verif.Dense.FitnessModel.log1mp (fin d) (fin x) (fin y) z)) ∧
      LTerm a (Round.Dense.ScaleInvariantModel.logp binary64 (fin d) (fin x) (fin y) z)
        (Verif.Dense.ScaleInvariantModel.logp (fin d) (fin x) (fin y) z) ∧
      LTerm a (Round.Dense.ScaleInvariantModel.log1mp binary64 (fin d) (fin x) (fin y) z)
        (Verif.Dense.ScaleInvariantModel.log1mp (fin d) (fin x) (fin y) z) := by
  have z0 := lfin_zero a0
  refine ⟨⟨.inl ⟨?_, ?_⟩, .inr ?_⟩, .inl ⟨?_, ?_⟩, .inr ?_⟩
  · simp only [Round.Dense.FitnessModel.logp, g]; rfl
  · simp only [Verif.Dense.FitnessModel.logp, g]; rfl
  · simp only [Round.Dense.FitnessModel.log1mp, Verif.Dense.FitnessModel.log1mp, g]; exact z0
  · simp only [Round.Dense.ScaleInvariantModel.logp, g]; rfl
  · simp only [Verif.Dense.ScaleInvariantModel.logp, g]; rfl
  · simp only [Round.Dense.ScaleInvariantModel.log1mp, Verif.Dense.ScaleInvariantModel.log1mp, g]
    exact z0

private theorem sparse_pos {d x y z T : ℝ} (hd : 0 < d) (hx : 0 < x) (hy : 0 < y) (hz : 0 < z)
    (h : Moderate d x y z) (hT : d * x * y * z ≤ T) (hT' : T ≤ 2 ^ 40) :
    (LTerm (9 * (1 + T)) (Round.Sparse.FitnessModel.logp binary64 (fin d) (fin x) (fin y) (fin z))
        (Verif.Sparse.FitnessModel.logp (fin d) (fin x) (fin y) (fin z)) ∧
      LTerm (9 * (1 + T)) (Round.Sparse.FitnessModel.log1mp binary64 (fin d) (fin x) (fin y) (fin z))
        (Verif.Sparse.FitnessModel.log1mp (fin d) (fin x) (fin y) (fin z))) ∧
      LTerm (9 * (1 + T))
        (Round.Sparse.ScaleInvariantModel.logp binary64 (fin d) (fin x) (fin y) (fin z))
        (Verif.Sparse.ScaleInvariantModel.logp (fin d) (fin x) (fin y) (fin z)) ∧
      LTerm (9 * (1 + T))
        (Round.Sparse.ScaleInvariantModel.log1mp binary64 (fin d) (fin x) (fin y) (fin z))
        (Verif.Sparse.ScaleInvariantModel.log1mp (fin d) (fin x) (fin y) (fin z)) := by
  obtain ⟨w, hwd, ew, hw⟩ := prod4_within hd hx hy hz h
  obtain ⟨c1, c2, c3, c4⟩ := core (by positivity) h.2.2.1 hT hT' hwd hw
  have g := guards hd hx hy hz
  have et : fin d * fin x * fin y * fin z = fin (d * x * y * z) := rfl
  refine ⟨⟨.inr ?_, .inr ?_⟩, .inr ?_, .inr ?_⟩
  · simp only [Round.Sparse.FitnessModel.logp, Verif.Sparse.FitnessModel.logp, g, ew, et]; exact c1
  · simp only [Round.Sparse.FitnessModel.log1mp, Verif.Sparse.FitnessModel.log1mp, g, ew, et]
    exact c2
  · simp only [Round.Sparse.ScaleInvariantModel.logp, Verif.Sparse.ScaleInvariantModel.logp, g, ew, et]
    exact c3
  · simp only [Round.Sparse.ScaleInvariantModel.log1mp, Verif.Sparse.ScaleInvariantModel.log1mp, g, ew,
      et]
    exact c4

private theorem dense_pos {d x y T : ℝ} (z : XR) (hd : 0 < d) (hx : 0 < x) (hy : 0 < y)
    (h1 : (2 : ℝ) ^ (-1000 : ℤ) ≤ d * x ∧ d * x ≤ (2 : ℝ) ^ (1000 : ℤ))
    (h2 : (2 : ℝ) ^ (-1000 : ℤ) ≤ d * x * y ∧ d * x * y ≤ (2 : ℝ) ^ (1000 : ℤ))
    (hT : d * x * y ≤ T) (hT' : T ≤ 2 ^ 40) :
    (LTerm (9 * (1 + T)) (Round.Dense.FitnessModel.logp binary64 (fin d) (fin x) (fin y) z)
        (Verif.Dense.FitnessModel.logp (fin d) (fin x) (fin y) z) ∧
      LTerm (9 * (1 + T)) (Round.Dense.FitnessModel.log1mp binary64 (fin d) (fin x) (fin y) z)
        (Verif.Dense.FitnessModel.log1mp (fin d) (fin x) (fin y) z)) ∧
      LTerm (9 * (1 + T)) (Round.Dense.ScaleInvariantModel.logp binary64 (fin d) (fin x) (fin y) z)
        (Verif.Dense.ScaleInvariantModel.logp (fin d) (fin x) (fin y) z) ∧
      LTerm (9 * (1 + T)) (Round.Dense.ScaleInvariantModel.log1mp binary64 (fin d) (fin x) (fin y) z)
        (Verif.Dense.ScaleInvariantModel.log1mp (fin d) (fin x) (fin y) z) := by
  have hu := ulp2_pos
  obtain ⟨w, hwd, ew, hw⟩ := prod3_within hd hx hy h1 h2
  obtain ⟨c1, c2, c3, c4⟩ := core (by positivity) h2.1 hT hT' hwd
    (widen (by positivity) hw (by linarith))
  have g := guards' hd hx hy
  have et : fin d * fin x * fin y = fin (d * x * y) := rfl
  have et' : -fin d * fin x * fin y = -fin (d * x * y) := by
    show fin (-d * x * y) = fin (-(d * x * y)); congr 1; ring
  have ew' : prod3 binary64 (-fin d) (fin x) (fin y) = -fin w := by
    have hm : ∃ r, binary64.mul (fin d) (fin x) = fin r := by
      have : In doubles (toDouble (d * x)) := In.toDouble _
      cases e : toDouble (d * x) with
      | fin r => exact ⟨r, e⟩
      | pinf =>
        rw [prod3, show binary64.mul (fin d) (fin x) = pinf from e] at ew
        have : binary64.mul pinf (fin y) = pinf := by
          show roundXR (pinf * fin y) = pinf
          rw [pinf_mul_fin_pos hy]; rfl
        rw [this] at ew; cases ew
      | ninf =>
        rw [prod3, show binary64.mul (fin d) (fin x) = ninf from e] at ew
        have : binary64.mul ninf (fin y) = ninf := by
          show roundXR (ninf * fin y) = ninf
          rw [ninf_mul_fin_pos hy]; rfl
        rw [this] at ew; cases ew
      | nan => rw [e] at this; exact this.elim
    obtain ⟨r, er⟩ := hm
    rw [prod3, er] at ew
    rw [prod3, mul_neg_left, er, mul_neg_left, ew]
  refine ⟨⟨.inr ?_, .inr ?_⟩, .inr ?_, .inr ?_⟩
  · simp only [Round.Dense.FitnessModel.logp, Verif.Dense.FitnessModel.logp, g, ew, et]; exact c1
  · simp only [Round.Dense.FitnessModel.log1mp, Verif.Dense.FitnessModel.log1mp, g, ew, et]; exact c2
  · simp only [Round.Dense.ScaleInvariantModel.logp, Verif.Dense.ScaleInvariantModel.logp, g, ew, et]
    exact c3
  · simp only [Round.Dense.ScaleInvariantModel.log1mp, Verif.Dense.ScaleInvariantModel.log1mp, g, ew',
      et']
    exact c4

private theorem pair_terms {f : ((XR → XR → XR → XR → XR) × (XR → XR → XR → XR → XR)) ×
      ((XR → XR → XR → XR → XR) × (XR → XR → XR → XR → XR))} (hf : f ∈ Round.logModels)
    {d x y z T : ℝ} (h : Round.InRange d x y z) (T0 : 0 ≤ T) (hT : T ≤ 2 ^ 40)
    (h3 : d * x * y ≤ T) (h4 : d * x * y * z ≤ T) :
    LTerm (9 * (1 + T)) (f.1.1 (fin d) (fin x) (fin y) (fin z))
        (f.2.1 (fin d) (fin x) (fin y) (fin z)) ∧
      LTerm (9 * (1 + T)) (f.1.2 (fin d) (fin x) (fin y) (fin z))
        (f.2.2 (fin d) (fin x) (fin y) (fin z)) := by
  have a0 : 0 ≤ 9 * (1 + T) := by linarith
  simp only [Round.logModels, List.mem_cons, List.not_mem_nil, or_false] at hf
  rcases h with h | ⟨hd, hx, hy, m1, m2, hz⟩
  · have g3 : ((fin x).isZero || (fin y).isZero || (fin d).isZero) = true := by
      rcases h with rfl | rfl | rfl <;> simp [isZero]
    have g4 : ((fin x).isZero || (fin y).isZero || (fin z).isZero || (fin d).isZero) = true := by
      rcases h with rfl | rfl | rfl <;> simp [isZero]
    rcases hf with rfl | rfl | rfl | rfl
    · exact (sparse_zero a0 g4).1
    · exact (sparse_zero a0 g4).2
    · exact (dense_zero (fin z) a0 g3).1
    · exact (dense_zero (fin z) a0 g3).2
  · have hdn := dense_pos (fin z) hd hx hy m1 m2 h3 hT
    rcases hz with rfl | ⟨hz, m3⟩
    · have hs := sparse_zero (d := d) (x := x) (y := y) (z := 0) a0 (by simp [isZero])
      rcases hf with rfl | rfl | rfl | rfl
      · exact hs.1
      · exact hs.2
      · exact hdn.1
      · exact hdn.2
    · have hs := sparse_pos hd hx hy hz ⟨m1, m2, m3⟩ h4 hT
      rcases hf with rfl | rfl | rfl | rfl
      · exact hs.1
      · exact hs.2
      · exact hdn.1
      · exact hdn.2

/-- `logp` and `log1mp` of the multi-layer models for one label, in double precision, each pair with
the functions of the model without rounding. -/
noncomputable def Round.layerLogModels : List (((XR → XR → XR → XR → XR) × (XR → XR → XR → XR → XR)) ×
    ((XR → XR → XR → XR → XR) × (XR → XR → XR → XR → XR))) :=
  [((Round.Dense.FitnessModel.logp binary64, Round.Dense.FitnessModel.log1mp binary64),
      (Verif.MultiFitnessModel.logp_ijk, Verif.MultiFitnessModel.log1mp_ijk)),
    ((Round.Dense.ScaleInvariantModel.logp binary64,
        Round.Dense.ScaleInvariantModel.log1mp binary64),
      (Verif.MultiInvariantModel.logp_ijk, Verif.MultiInvariantModel.log1mp_ijk))]

theorem Round.layer_log_term {f : ((XR → XR → XR → XR → XR) × (XR → XR → XR → XR → XR)) ×
      ((XR → XR → XR → XR → XR) × (XR → XR → XR → XR → XR))} (hf : f ∈ Round.layerLogModels)
    {d x y T : ℝ} (h : Round.LayerRange d x y) (T0 : 0 ≤ T) (hT : T ≤ 2 ^ 40) (h3 : d * x * y ≤ T)
    (z : XR) :
    LTerm (9 * (1 + T)) (f.1.1 (fin d) (fin x) (fin y) z) (f.2.1 (fin d) (fin x) (fin y) z) ∧
      LTerm (9 * (1 + T)) (f.1.2 (fin d) (fin x) (fin y) z) (f.2.2 (fin d) (fin x) (fin y) z) := by
  have a0 : 0 ≤ 9 * (1 + T) := by linarith
  simp only [Round.layerLogModels, List.mem_cons, List.not_mem_nil, or_false] at hf
  rcases h with h | ⟨hd, hx, hy, m1, m2⟩
  · have g3 : ((fin x).isZero || (fin y).isZero || (fin d).isZero) = true := by
      rcases h with rfl | rfl | rfl <;> simp [isZero]
    rcases hf with rfl | rfl
    · exact (dense_zero z a0 g3).1
    · exact (dense_zero z a0 g3).2
  · have hdn := dense_pos z hd hx hy m1 m2 h3 hT
    rcases hf with rfl | rfl
    · exact hdn.1
    · exact hdn.2

private theorem count_le {n : ℕ} (sl : Bool) (hn : n ≤ 2 ^ 25) :
    n * (if sl then n else n - 1) ≤ 2 ^ 50 := by
  have : (if sl then n else n - 1) ≤ 2 ^ 25 := by split <;> omega
  calc _ ≤ 2 ^ 25 * 2 ^ 25 := Nat.mul_le_mul hn this
    _ = 2 ^ 50 := by norm_num

/-- The value of the loop, from its terms. -/
theorem Round.like_of {α β δ ζ : Type} {n : ℕ} (hn : n ≤ 2 ^ 25) {a : ℝ} (a0 : 0 ≤ a)
    (a1 : a ≤ 2 ^ 100) (p p' q q' : δ → α → β → ζ → XR) (d : δ) (x : ℕ → α) (y : ℕ → β)
    (z : ℕ → ℕ → ζ) (link : ℕ → ℕ → Bool) (sl : Bool)
    (hp : ∀ i < n, ∀ j < n, LTerm a (p d (x i) (y j) (z i j)) (p' d (x i) (y j) (z i j)))
    (hq : ∀ i < n, ∀ j < n, LTerm a (q d (x i) (y j) (z i j)) (q' d (x i) (y j) (z i j))) :
    (Round.likelihood binary64 p q d n x y z link sl = ninf ∧
      DiGraphEnsemble.likelihood p' q' d n x y z link sl = ninf) ∨
    ∃ v V : ℝ, Round.likelihood binary64 p q d n x y z link sl = fin v ∧
      DiGraphEnsemble.likelihood p' q' d n x y z link sl = fin V ∧ v ≤ 0 ∧ V ≤ 0 ∧
      |v - V| ≤ (n * (if sl then n else n - 1) : ℕ) * (3 * (2 : ℝ) ^ (-53 : ℤ)) * (|V| + a + 1) := by
  have key := likelihood_rel (A := binary64) (B := Arith.exact) n sl p p' q q' d x y z link (LAcc a)
    (LFin a) (lacc_zero a) lfin_inf
    (fun k hk e e' v v' he hv => lacc_add a0 a1 (hk.trans_le (count_le sl hn)) he hv) hp hq
  show (Round.likelihood binary64 p q d n x y z link sl = ninf ∧
      Round.likelihood Arith.exact p' q' d n x y z link sl = ninf) ∨
    ∃ v V : ℝ, Round.likelihood binary64 p q d n x y z link sl = fin v ∧
      Round.likelihood Arith.exact p' q' d n x y z link sl = fin V ∧ v ≤ 0 ∧ V ≤ 0 ∧ _
  unfold Round.likelihood
  revert key
  generalize Round.likelihoodLoop binary64 p q d n x y z link sl = r1
  generalize Round.likelihoodLoop Arith.exact p' q' d n x y z link sl = r2
  intro key
  match r1, r2, key with
  | .error a, .error b, h => exact .inl h
  | .ok a, .ok b, h =>
    obtain ⟨v, _, V, e1, e2, v0, V0, _, hv⟩ := h
    refine .inr ⟨v, V, e1, e2, v0, V0, hv.trans (le_of_eq ?_)⟩
    rw [abs_of_nonpos V0]
    show _ = _ * (3 * ulp2) * _
    ring

/-- **C109**, single-layer models.  If no product of parameter and properties exceeds `T`, the
log-likelihood of a graph computed in double precision is minus infinity exactly if it is so without
rounding, and otherwise differs from it by at most the stated bound, `N` being the number of
admissible pairs. -/
theorem C109_likelihood_partial (f : ((XR → XR → XR → XR → XR) × (XR → XR → XR → XR → XR)) ×
      ((XR → XR → XR → XR → XR) × (XR → XR → XR → XR → XR))) (hf : f ∈ Round.logModels) (n : ℕ)
    (hn : n ≤ 2 ^ 25) (d T : ℝ) (x y : ℕ → ℝ) (z : ℕ → ℕ → ℝ) (T0 : 0 ≤ T) (hT : T ≤ 2 ^ 40)
    (h : ∀ i < n, ∀ j < n, Round.InRange d (x i) (y j) (z i j) ∧ d * x i * y j ≤ T ∧
      d * x i * y j * z i j ≤ T) (link : ℕ → ℕ → Bool) (sl : Bool) :
    let N := n * (if sl then n else n - 1)
    let computed := Round.likelihood binary64 f.1.1 f.1.2 (fin d) n (fun i => fin (x i))
      (fun j => fin (y j)) (fun i j => fin (z i j)) link sl
    let exact := DiGraphEnsemble.likelihood f.2.1 f.2.2 (fin d) n (fun i => fin (x i))
      (fun j => fin (y j)) (fun i j => fin (z i j)) link sl
    (computed = ninf ∧ exact = ninf) ∨
    ∃ l L : ℝ, computed = fin l ∧ exact = fin L ∧ l ≤ 0 ∧ L ≤ 0 ∧
      |l - L| ≤ N * (3 * (2 : ℝ) ^ (-53 : ℤ)) * (|L| + 9 * (1 + T) + 1) :=
  like_of hn (by linarith) (by linarith) f.1.1 f.2.1 f.1.2 f.2.2 (fin d) (fun i => fin (x i))
    (fun j => fin (y j)) (fun i j => fin (z i j)) link sl
    (fun i hi j hj => (pair_terms hf (h i hi j hj).1 T0 hT (h i hi j hj).2.1 (h i hi j hj).2.2).1)
    (fun i hi j hj => (pair_terms hf (h i hi j hj).1 T0 hT (h i hi j hj).2.1 (h i hi j hj).2.2).2)

/-! ## Several layers -/

/-- The sum over the layers, with a bound of its exact value. -/
private def SumAcc (T : ℝ) (m : ℕ) (s s' : XR) : Prop :=
  InvAcc m s s' ∧ ∃ V : ℝ, s' = fin V ∧ V ≤ m * T

private theorem SumAcc.zero (T : ℝ) : SumAcc T 0 0 0 := ⟨InvAcc.zero, 0, rfl, by simp⟩

private theorem SumAcc.mono {T : ℝ} (T0 : 0 ≤ T) (m : ℕ) (s t : XR) (h : SumAcc T m s t) :
    SumAcc T (m + 1) s t := by
  obtain ⟨h, V, e, hV⟩ := h
  exact ⟨h.mono, V, e, by push_cast; linarith⟩

private theorem sum_layer {T : ℝ} (T0 : 0 ≤ T) {d : ℕ → ℝ} {k : ℕ} {x y : ℝ}
    (h : LayerRange (d k) x y ∧ d k * x * y ≤ T) (ret : XR) (m : ℕ) (hm : m < 2 ^ 20) (s s' : XR)
    (hs : SumAcc T m s s') :
    ∃ t t', Round.invBody binary64 ret (fun k => fin (d k)) s k (fin x) (fin y) = .ok t ∧
      Round.invBody Arith.exact ret (fun k => fin (d k)) s' k (fin x) (fin y) = .ok t' ∧
      SumAcc T (m + 1) t t' := by
  obtain ⟨hs, V, rfl, hV⟩ := hs
  obtain ⟨t, t', e, e', ht⟩ := inv_layer h.1 ret m hm s (fin V) hs
  refine ⟨t, t', e, e', ht, ?_⟩
  rw [Round.invBody] at e'
  split at e'
  · have : (fin (V + d k * x * y) : XR) = t' := by
      have h2 : Except.ok (fin (V + d k * x * y)) = (Except.ok t' : Except XR XR) := e'
      injection h2
    exact ⟨_, this.symm, by push_cast; linarith [h.2]⟩
  · have : (fin V : XR) = t' := by injection e'
    exact ⟨V, this.symm, by push_cast; linarith⟩

private theorem sum_end {T : ℝ} {L m : ℕ} (T0 : 0 ≤ T) (hT : L * T ≤ 2 ^ 40) (hm : m ≤ L)
    (hL : L ≤ 2 ^ 20) {s s' : XR} (hs : SumAcc T m s s') :
    LTerm ((3 * L + 9) * (1 + L * T)) (Round.invLogpEnd binary64 s) (Round.invLogpEnd Arith.exact s') ∧
      LTerm ((3 * L + 9) * (1 + L * T)) (-s) (-s') := by
  obtain ⟨hs, V', e, hV⟩ := hs
  obtain ⟨v, hv, V, rfl, rfl, v0, hz, hw⟩ := inv_sum (hm.trans hL) hs
  obtain rfl := XR.fin.inj e
  have hu := ulp2_pos
  have hL0 : (0 : ℝ) ≤ L := Nat.cast_nonneg L
  have hmL : (m : ℝ) ≤ L := by exact_mod_cast hm
  have hL2 : (L : ℝ) ≤ 2 ^ 20 := by exact_mod_cast hL
  have LT0 : 0 ≤ L * T := mul_nonneg hL0 T0
  have V0 : 0 ≤ V := by rcases hz with ⟨h, _⟩ | ⟨h, _⟩ <;> linarith
  have hVT : V ≤ L * T := hV.trans (mul_le_mul_of_nonneg_right hmL T0)
  have hw' : Within (2 * (2.1 + L) * ulp2) V v :=
    widen V0 hw (mul_le_mul_of_nonneg_right (by linarith) hu.le)
  have hLLT : 0 ≤ (L : ℝ) * (L * T) := mul_nonneg hL0 LT0
  constructor
  · rcases hz with ⟨h1, h2⟩ | ⟨h1, h2, h3⟩
    · left
      constructor
      · rw [Round.invLogpEnd, h2, if_pos (by simp [isZero])]
      · rw [Round.invLogpEnd, h1, if_pos (by simp [isZero])]
    · right
      rw [Round.invLogpEnd, Round.invLogpEnd, isZero_eq_false h1.ne', isZero_eq_false h2.ne']
      have hc : (2 * (2.1 + L) + 1.1) * ulp2 ≤ 1 / 100 := by
        have hul : ulp2 ≤ 1 / 2 ^ 50 := by unfold ulp2; norm_num
        calc (2 * (2.1 + L) + 1.1) * ulp2 ≤ (2 * (2.1 + 2 ^ 20) + 1.1) * (1 / 2 ^ 50) :=
              mul_le_mul (by linarith) hul hu.le (by norm_num)
          _ ≤ 1 / 100 := by norm_num
      exact (inv_logp_acc (by positivity) hc h1 h3 hw'
        (unit_le (expm1_neg Faithful.binary64 (nn_of hv v0)))).mono (by linarith)
  · right
    exact (inv_log1mp_acc (by positivity) V0 hVT hT hv v0 hw').mono (by linarith)

private theorem merge_terms {T : ℝ} {L : ℕ} (T0 : 0 ≤ T) (hT : L * T ≤ 2 ^ 40) (hL : L ≤ 2 ^ 20)
    {d : ℕ → ℝ} {x y : List (ℕ × ℝ)} (hx : x.length ≤ L)
    (h : ∀ k a b, (k, a) ∈ x → (k, b) ∈ y → LayerRange (d k) a b ∧ d k * a * b ≤ T) (ret : XR) :
    ∃ t t', mergeLoop (Round.invBody binary64 ret fun k => fin (d k))
        (x.map fun p => (p.1, fin p.2)) (y.map fun p => (p.1, fin p.2)) 0 = .ok t ∧
      mergeLoop (Round.invBody Arith.exact ret fun k => fin (d k))
        (x.map fun p => (p.1, fin p.2)) (y.map fun p => (p.1, fin p.2)) 0 = .ok t' ∧
      LTerm ((3 * L + 9) * (1 + L * T)) (Round.invLogpEnd binary64 t)
        (Round.invLogpEnd Arith.exact t') ∧
      LTerm ((3 * L + 9) * (1 + L * T)) (-t) (-t') := by
  have hlen : (x.map fun p => (p.1, (fin p.2 : XR))).length = x.length := List.length_map _
  obtain ⟨t, t', e, e', ht⟩ := mergeLoop_rel (M := 2 ^ 20)
    (body := Round.invBody binary64 ret fun k => fin (d k))
    (body' := Round.invBody Arith.exact ret fun k => fin (d k))
    (SumAcc.mono T0) (x.map fun p => (p.1, fin p.2)) (y.map fun p => (p.1, fin p.2)) 0 0 0
    (by rw [hlen]; omega) (by
      intro k a b ha hb m hm s s' hs
      obtain ⟨⟨k1, r⟩, h1, e1⟩ := List.mem_map.1 ha
      obtain ⟨⟨k2, w⟩, h2, e2⟩ := List.mem_map.1 hb
      simp only [Prod.mk.injEq] at e1 e2
      obtain ⟨rfl, rfl⟩ := e1
      obtain ⟨rfl, rfl⟩ := e2
      exact sum_layer T0 (h _ _ _ h1 h2) _ m hm s s' hs) (SumAcc.zero T)
  rw [hlen, zero_add] at ht
  exact ⟨t, t', e, e', sum_end T0 hT hx hL ht⟩

private theorem zip_terms {T : ℝ} {L : ℕ} (T0 : 0 ≤ T) (hT : L * T ≤ 2 ^ 40) (hL : L ≤ 2 ^ 20)
    {d : ℕ → ℝ} {x y : List ℝ} (hx : x.length ≤ L)
    (h : ∀ k (hk : k < x.length) (hk' : k < y.length),
      LayerRange (d k) x[k] y[k] ∧ d k * x[k] * y[k] ≤ T) (ret : XR) :
    ∃ t t', zipLoop (Round.invBody binary64 ret fun k => fin (d k)) 0 (x.map fin) (y.map fin) 0 = .ok t ∧
      zipLoop (Round.invBody Arith.exact ret fun k => fin (d k)) 0 (x.map fin) (y.map fin) 0 = .ok t' ∧
      LTerm ((3 * L + 9) * (1 + L * T)) (Round.invLogpEnd binary64 t)
        (Round.invLogpEnd Arith.exact t') ∧
      LTerm ((3 * L + 9) * (1 + L * T)) (-t) (-t') := by
  obtain ⟨t, t', e, e', ht⟩ := zipLoop_rel (M := 2 ^ 20)
    (body := Round.invBody binary64 ret fun k => fin (d k))
    (body' := Round.invBody Arith.exact ret fun k => fin (d k))
    (SumAcc.mono T0) (x.map fin) (y.map fin) 0 0 0 0 (by rw [List.length_map]; omega) (by
      intro k hk hk' m hm s s' hs
      rw [List.length_map] at hk hk'
      rw [List.getElem_map, List.getElem_map, zero_add]
      exact sum_layer T0 (h k hk hk') _ m hm s s' hs) (SumAcc.zero T)
  rw [List.length_map, zero_add] at ht
  exact ⟨t, t', e, e', sum_end T0 hT hx hL ht⟩

private theorem a_le {T : ℝ} {L : ℕ} (T0 : 0 ≤ T) (hT : L * T ≤ 2 ^ 40) (hL : L ≤ 2 ^ 20) :
    0 ≤ (3 * (L : ℝ) + 9) * (1 + L * T) ∧ (3 * (L : ℝ) + 9) * (1 + L * T) ≤ 2 ^ 100 := by
  have hL2 : (L : ℝ) ≤ 2 ^ 20 := by exact_mod_cast hL
  refine ⟨by positivity, ?_⟩
  calc (3 * (L : ℝ) + 9) * (1 + L * T) ≤ (3 * 2 ^ 20 + 9) * (1 + 2 ^ 40) :=
        mul_le_mul (by linarith) (by linarith) (by positivity) (by norm_num)
    _ ≤ 2 ^ 100 := by norm_num

/-- **C109**, scale-invariant model over all layers, sparse backend: up to `L` layers, in each of which
the product of parameter and properties is at most `T`. -/
theorem C109_layers_sparse_partial (n L : ℕ) (hn : n ≤ 2 ^ 25) (hL : L ≤ 2 ^ 20) (T : ℝ) (d : ℕ → ℝ)
    (x y : ℕ → List (ℕ × ℝ)) (hx : ∀ i < n, (x i).length ≤ L) (T0 : 0 ≤ T) (hT : L * T ≤ 2 ^ 40)
    (h : ∀ i < n, ∀ j < n, ∀ k a b, (k, a) ∈ x i → (k, b) ∈ y j →
      Round.LayerRange (d k) a b ∧ d k * a * b ≤ T) (link : ℕ → ℕ → Bool) (sl : Bool) :
    let N := n * (if sl then n else n - 1)
    let D : ℕ → XR := fun k => fin (d k)
    let X : ℕ → List (ℕ × XR) := fun i => (x i).map fun p => (p.1, fin p.2)
    let Y : ℕ → List (ℕ × XR) := fun i => (y i).map fun p => (p.1, fin p.2)
    let computed := Round.likelihood binary64
      (fun d a b (_ : PUnit) => Round.Sparse.MultiInvariantModel.logp binary64 d a b)
      (fun d a b _ => Round.Sparse.MultiInvariantModel.log1mp binary64 d a b) D n X Y
      (fun _ _ => ⟨⟩) link sl
    let exact := DiGraphEnsemble.likelihood
      (fun d a b (_ : PUnit) => Verif.Sparse.MultiInvariantModel.logp d a b)
      (fun d a b _ => Verif.Sparse.MultiInvariantModel.log1mp d a b) D n X Y
      (fun _ _ => ⟨⟩) link sl
    (computed = ninf ∧ exact = ninf) ∨
    ∃ l r : ℝ, computed = fin l ∧ exact = fin r ∧ l ≤ 0 ∧ r ≤ 0 ∧
      |l - r| ≤ N * (3 * (2 : ℝ) ^ (-53 : ℤ)) * (|r| + (3 * L + 9) * (1 + L * T) + 1) := by
  intro N D X Y computed exact
  obtain ⟨a0, a1⟩ := a_le T0 hT hL
  refine Round.like_of hn a0 a1 (fun d a b (_ : PUnit) => Round.Sparse.MultiInvariantModel.logp binary64 d a b)
    (fun d a b (_ : PUnit) => Verif.Sparse.MultiInvariantModel.logp d a b)
    (fun d a b _ => Round.Sparse.MultiInvariantModel.log1mp binary64 d a b)
    (fun d a b _ => Verif.Sparse.MultiInvariantModel.log1mp d a b) D X Y (fun _ _ => ⟨⟩) link sl ?_ ?_
  · intro i hi j hj
    obtain ⟨t, t', e, e', h1, _⟩ := merge_terms T0 hT hL (hx i hi) (h i hi j hj) 0
    change LTerm _ (finish (mergeLoop (Round.invBody binary64 0 fun k => fin (d k)) _ _ 0) _)
      (finish (mergeLoop (Round.invBody Arith.exact 0 fun k => fin (d k)) _ _ 0)
        (Round.invLogpEnd Arith.exact))
    rw [e, e']
    exact h1
  · intro i hi j hj
    obtain ⟨t, t', e, e', _, h1⟩ := merge_terms T0 hT hL (hx i hi) (h i hi j hj) ninf
    change LTerm _ (finish (mergeLoop (Round.invBody binary64 ninf fun k => fin (d k)) _ _ 0) _)
      (finish (mergeLoop (Round.invBody Arith.exact ninf fun k => fin (d k)) _ _ 0) (fun val => -val))
    rw [e, e']
    exact h1

/-- **C109**, scale-invariant model over all layers, dense backend. -/
theorem C109_layers_dense_partial (n L : ℕ) (hn : n ≤ 2 ^ 25) (hL : L ≤ 2 ^ 20) (T : ℝ) (d : ℕ → ℝ)
    (x y : ℕ → List ℝ) (hx : ∀ i < n, (x i).length ≤ L) (T0 : 0 ≤ T) (hT : L * T ≤ 2 ^ 40)
    (h : ∀ i < n, ∀ j < n, ∀ k (hk : k < (x i).length) (hk' : k < (y j).length),
      Round.LayerRange (d k) (x i)[k] (y j)[k] ∧ d k * (x i)[k] * (y j)[k] ≤ T)
    (link : ℕ → ℕ → Bool) (sl : Bool) :
    let N := n * (if sl then n else n - 1)
    let D : ℕ → XR := fun k => fin (d k)
    let X : ℕ → List XR := fun i => (x i).map fin
    let Y : ℕ → List XR := fun i => (y i).map fin
    let computed := Round.likelihood binary64
      (fun d a b (_ : PUnit) => Round.Dense.MultiInvariantModel.logp binary64 d a b)
      (fun d a b _ => Round.Dense.MultiInvariantModel.log1mp binary64 d a b) D n X Y
      (fun _ _ => ⟨⟩) link sl
    let exact := DiGraphEnsemble.likelihood
      (fun d a b (_ : PUnit) => Verif.Dense.MultiInvariantModel.logp d a b)
      (fun d a b _ => Verif.Dense.MultiInvariantModel.log1mp d a b) D n X Y
      (fun _ _ => ⟨⟩) link sl
    (computed = ninf ∧ exact = ninf) ∨
    ∃ l r : ℝ, computed = fin l ∧ exact = fin r ∧ l ≤ 0 ∧ r ≤ 0 ∧
      |l - r| ≤ N * (3 * (2 : ℝ) ^ (-53 : ℤ)) * (|r| + (3 * L + 9) * (1 + L * T) + 1) := by
  intro N D X Y computed exact
  obtain ⟨a0, a1⟩ := a_le T0 hT hL
  refine Round.like_of hn a0 a1 (fun d a b (_ : PUnit) => Round.Dense.MultiInvariantModel.logp binary64 d a b)
    (fun d a b (_ : PUnit) => Verif.Dense.MultiInvariantModel.logp d a b)
    (fun d a b _ => Round.Dense.MultiInvariantModel.log1mp binary64 d a b)
    (fun d a b _ => Verif.Dense.MultiInvariantModel.log1mp d a b) D X Y (fun _ _ => ⟨⟩) link sl ?_ ?_
  · intro i hi j hj
    obtain ⟨t, t', e, e', h1, _⟩ := zip_terms T0 hT hL (hx i hi) (h i hi j hj) 0
    change LTerm _ (finish (zipLoop (Round.invBody binary64 0 fun k => fin (d k)) 0 _ _ 0) _)
      (finish (zipLoop (Round.invBody Arith.exact 0 fun k => fin (d k)) 0 _ _ 0)
        (Round.invLogpEnd Arith.exact))
    rw [e, e']
    exact h1
  · intro i hi j hj
    obtain ⟨t, t', e, e', _, h1⟩ := zip_terms T0 hT hL (hx i hi) (h i hi j hj) ninf
    change LTerm _ (finish (zipLoop (Round.invBody binary64 ninf fun k => fin (d k)) 0 _ _ 0) _)
      (finish (zipLoop (Round.invBody Arith.exact ninf fun k => fin (d k)) 0 _ _ 0) (fun val => -val))
    rw [e, e']
    exact h1

private theorem moderate {r : ℝ} (h1 : 1 ≤ r) (h2 : r ≤ 32) :
    (2 : ℝ) ^ (-1000 : ℤ) ≤ r ∧ r ≤ (2 : ℝ) ^ (1000 : ℤ) :=
  ⟨(zpow_le_one_of_nonpos₀ (by norm_num) (by norm_num)).trans h1,
    h2.trans ((show (32 : ℝ) ≤ (2 : ℝ) ^ (5 : ℤ) by norm_num).trans
      (zpow_le_zpow_right₀ (by norm_num) (by norm_num)))⟩

/-- Three vertices, one of them with a zero property, meet the hypotheses. -/
example : ∀ i < 3, ∀ j < 3, Round.InRange 2 (if i = 0 then 0 else 3) (if j = 1 then 1 else 5) 1 ∧
    (2 : ℝ) * (if i = 0 then 0 else 3) * (if j = 1 then 1 else 5) ≤ 30 ∧
    (2 : ℝ) * (if i = 0 then 0 else 3) * (if j = 1 then 1 else 5) * 1 ≤ 30 := by
  intro i _ j _
  refine ⟨?_, ?_, ?_⟩
  · by_cases hi : i = 0
    · exact Or.inl (Or.inl (if_pos hi))
    · rw [if_neg hi]
      right
      split <;>
      exact ⟨by norm_num, by norm_num, by norm_num, moderate (by norm_num) (by norm_num),
          moderate (by norm_num) (by norm_num),
          .inr ⟨by norm_num, moderate (by norm_num) (by norm_num)⟩⟩
  · split <;> split <;> norm_num
  · split <;> split <;> norm_num

/-- Two vertices with two layers, one of them without a common layer, meet the hypotheses of the
theorems on several layers. -/
example : ∀ i < 2, ∀ j < 2, ∀ k a b,
    (k, a) ∈ (if i = 0 then [(0, (3 : ℝ)), (1, 2)] else [(2, 4)]) →
    (k, b) ∈ (if j = 0 then [(0, (5 : ℝ)), (1, 1)] else [(0, 2)]) →
      Round.LayerRange 2 a b ∧ 2 * a * b ≤ 30 := by
  intro i _ j _ k a b ha hb
  have h : 1 ≤ a ∧ a ≤ 3 ∧ 1 ≤ b ∧ b ≤ 5 := by
    split at ha <;> split at hb <;> simp at ha hb
    · rcases ha with ⟨rfl, rfl⟩ | ⟨rfl, rfl⟩ <;> rcases hb with ⟨_, rfl⟩ | ⟨_, rfl⟩ <;> norm_num
    · rcases ha with ⟨rfl, rfl⟩ | ⟨rfl, rfl⟩ <;> obtain ⟨_, rfl⟩ := hb <;> norm_num
    · omega
    · omega
  obtain ⟨h1, h2, h3, h4⟩ := h
  refine ⟨.inr ⟨by norm_num, by linarith, by linarith, moderate (by linarith) (by linarith),
    moderate (by nlinarith) (by nlinarith)⟩, by nlinarith⟩

/-- **C109** fails for large products: the empty graph on one vertex with self-loops has the finite
log-likelihood `-log (1 + 2 ^ 53)`, but minus infinity is computed. -/
theorem C109_large_violated :
    Round.likelihood binary64 (Round.Sparse.FitnessModel.logp binary64)
      (Round.Sparse.FitnessModel.log1mp binary64) 1 1 (fun _ => fin ((2 : ℝ) ^ 53)) (fun _ => 1)
      (fun _ _ => 1) (fun _ _ => false) true = ninf ∧
    ∃ r : ℝ, DiGraphEnsemble.likelihood Verif.Sparse.FitnessModel.logp
      Verif.Sparse.FitnessModel.log1mp 1 1 (fun _ => fin ((2 : ℝ) ^ 53)) (fun _ => 1)
      (fun _ _ => 1) (fun _ _ => false) true = fin r := by
  obtain ⟨h1, r, h2⟩ := C92_log1mp_violated
  have ha : admissible 0 0 true = true := by simp [admissible]
  constructor
  · simp only [Round.likelihood, Round.likelihoodLoop, List.range_one, List.foldlM_cons, ha, h1]
    rfl
  · refine ⟨0 + r, ?_⟩
    simp only [DiGraphEnsemble.likelihood, DiGraphEnsemble.likelihoodLoop, List.range_one,
      List.foldlM_cons, ha, h2]
    rfl

/-- **C109** fails for the fitness model over all layers: the graph with one vertex and a self-loop has a
finite log-likelihood, but minus infinity is computed. -/
theorem C109_layers_fitness_violated :
    let a : XR := fin ((2 : ℝ) ^ (-30 : ℤ))
    Round.likelihood binary64
      (fun d x y (_ : PUnit) => Round.Sparse.MultiFitnessModel.logp binary64 d x y)
      (fun d x y _ => Round.Sparse.MultiFitnessModel.log1mp binary64 d x y) (fun _ => 1) 1
      (fun _ => [(0, a)]) (fun _ => [(0, a)]) (fun _ _ => ⟨⟩) (fun _ _ => true) true = ninf ∧
    Round.likelihood binary64
      (fun d x y (_ : PUnit) => Round.Dense.MultiFitnessModel.logp binary64 d x y)
      (fun d x y _ => Round.Dense.MultiFitnessModel.log1mp binary64 d x y) (fun _ => 1) 1
      (fun _ => [a]) (fun _ => [a]) (fun _ _ => ⟨⟩) (fun _ _ => true) true = ninf ∧
    ∃ r : ℝ, DiGraphEnsemble.likelihood
        (fun d x y (_ : PUnit) => Verif.Sparse.MultiFitnessModel.logp d x y)
        (fun d x y _ => Verif.Sparse.MultiFitnessModel.log1mp d x y) (fun _ => 1) 1
        (fun _ => [(0, a)]) (fun _ => [(0, a)]) (fun _ _ => ⟨⟩) (fun _ _ => true) true = fin r ∧
      DiGraphEnsemble.likelihood
        (fun d x y (_ : PUnit) => Verif.Dense.MultiFitnessModel.logp d x y)
        (fun d x y _ => Verif.Dense.MultiFitnessModel.log1mp d x y) (fun _ => 1) 1
        (fun _ => [a]) (fun _ => [a]) (fun _ _ => ⟨⟩) (fun _ _ => true) true = fin r := by
  intro a
  obtain ⟨_, _, h1, h2, ⟨q, _, _, _, h3, h4⟩, _⟩ := C108_relative_violated
  have ha : admissible 0 0 true = true := by simp [admissible]
  refine ⟨?_, ?_, 0 + Real.log q, ?_, ?_⟩
  · simp only [Round.likelihood, Round.likelihoodLoop, List.range_one, List.foldlM_cons, ha, a, h1]
    rfl
  · simp only [Round.likelihood, Round.likelihoodLoop, List.range_one, List.foldlM_cons, ha, a, h2]
    rfl
  · simp only [DiGraphEnsemble.likelihood, DiGraphEnsemble.likelihoodLoop, List.range_one,
      List.foldlM_cons, ha, a, h3]
    rfl
  · simp only [DiGraphEnsemble.likelihood, DiGraphEnsemble.likelihoodLoop, List.range_one,
      List.foldlM_cons, ha, a, h4]
    rfl

end Verif
