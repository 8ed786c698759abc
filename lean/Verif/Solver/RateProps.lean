import Verif.Solver.FitProps

/-!
# C101: a density fit needs few iterations

Speed of convergence of the solver on the objectives of the library, in exact arithmetic.
-/

namespace Verif

open XR Spec
open scoped NNReal ENNReal

namespace Fit

/-- At parameter `d` every admissible link has probability at most `q`. -/
def Fitter.Capped (F : Fitter) (n : ℕ) (selfloops : Bool) (d : ℝ≥0) (q : ℝ) : Prop :=
  ∀ i < n, ∀ j < n, (i ≠ j ∨ selfloops = true) → ∃ p, (F.ens d).p i j = fin p ∧ p ≤ q

variable {F : Fitter} {n : ℕ} {selfloops : Bool} {m q : ℝ} {o : Opts}

private theorem capped_val (hF : IsFitter F) {root : ℝ≥0} (hq : F.Capped n selfloops root q)
    {e : ℕ × ℕ} (he : e ∈ Law.pairs n selfloops) : F.val hF e root ≤ q := by
  have hm : e.1 < n ∧ e.2 < n ∧ (e.1 ≠ e.2 ∨ selfloops = true) := by
    simpa [Law.pairs, and_assoc, or_comm] using he
  obtain ⟨p, h1, h2⟩ := hq e.1 hm.1 e.2 hm.2.1 hm.2.2
  rw [(F.pairLink hF e).prob root, fin_inj] at h1
  rw [h1]
  exact h2

/-- Below the solution the derivative of the objective is not much smaller than at zero. -/
private theorem slope_low (hF : IsFitter F) {root : ℝ≥0} (hq : F.Capped n selfloops root q)
    (hq1 : q ≤ 1) {d : ℝ} (hd : 0 ≤ d) (hle : d ≤ root) :
    F.objDer hF n selfloops 0 * (1 - q) ^ 2 ≤ F.objDer hF n selfloops d := by
  refine le_trans ?_ ((Fitter.isObj hF n selfloops).anti d root hd hle)
  unfold Fitter.objDer total
  rw [Finset.sum_mul]
  refine Finset.sum_le_sum (fun e he => ?_)
  have hl := (F.pairLink hF e).link
  refine le_trans (mul_le_mul_of_nonneg_left ?_ (hl.nonneg 0 le_rfl)) (hl.steep root root.2)
  have := capped_val hF hq he
  exact pow_le_pow_left₀ (by linarith) (by linarith) 2

private theorem slope_lip (hF : IsFitter F) {a b : ℝ} (ha : 0 ≤ a) (hab : a ≤ b) :
    F.objDer hF n selfloops a - F.objDer hF n selfloops b ≤
      2 * F.objDer hF n selfloops 0 ^ 2 * (b - a) := by
  have h1 : F.objDer hF n selfloops a - F.objDer hF n selfloops b ≤
      ∑ e ∈ Law.pairs n selfloops, 2 * F.der hF e 0 ^ 2 * (b - a) := by
    unfold Fitter.objDer total
    rw [← Finset.sum_sub_distrib]
    exact Finset.sum_le_sum (fun e _ => (F.pairLink hF e).link.lip a b ha hab)
  refine h1.trans ?_
  rw [← Finset.sum_mul, ← Finset.mul_sum]
  refine mul_le_mul_of_nonneg_right (mul_le_mul_of_nonneg_left ?_ zero_le_two) (by linarith)
  exact Finset.sum_sq_le_sq_sum_of_nonneg
    (fun e _ => (F.pairLink hF e).link.nonneg 0 le_rfl)

private theorem tol_pos (hat : 0 < o.atol) (hrt : 0 ≤ o.rtol) (hm : 0 ≤ m) :
    0 < o.atol + o.rtol * m := by
  have := mul_nonneg hrt hm
  linarith

private theorem moved {sol : Solver.Solution} {pre ds : List ℝ} {d : ℝ} (hF : IsFitter F)
    (hat : 0 < o.atol) (hrt : 0 ≤ o.rtol) (hm : 0 ≤ m) {root : ℝ≥0}
    (hroot : F.Reproduces n selfloops m root)
    (h : Solver.LeftRun (F.obj hF n selfloops) (F.objDer hF n selfloops) m o sol pre ds d)
    (hds : ds ≠ []) : 0 < F.objDer hF n selfloops 0 := by
  have hnn := (Fitter.isObj hF n selfloops).nonneg 0 le_rfl
  rcases hnn.eq_or_lt with h0 | h0
  · rw [reproduces_iff hF] at hroot
    have hp := h.progress ⟨root, root.2, hroot⟩
    rw [← h0, zero_mul] at hp
    have h1 : (0 : ℝ) < ds.length := by exact_mod_cast List.length_pos_iff.2 hds
    have := mul_pos h1 (tol_pos hat hrt hm)
    linarith
  · exact h0

private theorem count_bound {sol : Solver.Solution} {pre ds : List ℝ} {d : ℝ} (hF : IsFitter F)
    (hat : 0 < o.atol) (hrt : 0 ≤ o.rtol) (hm : 0 ≤ m) {root : ℝ≥0}
    (hroot : F.Reproduces n selfloops m root) (hq : F.Capped n selfloops root q) (hq1 : q ≤ 1)
    (h : Solver.LeftRun (F.obj hF n selfloops) (F.objDer hF n selfloops) m o sol pre ds d)
    (hle : d ≤ root) {k : ℕ} (hk : ds.length = k + 1) :
    4 ^ k * ((o.atol + o.rtol * m) * (1 - q) ^ 2) ≤ m := by
  have hG := moved hF hat hrt hm hroot h (by rintro rfl; simp at hk)
  refine le_of_mul_le_mul_right ?_ hG
  refine le_trans ?_ (h.count k hk)
  have h1 := slope_low hF hq hq1 (h.below d (by simp)).1 hle
  have h2 := mul_le_mul_of_nonneg_left h1
    (mul_nonneg (by positivity : (0 : ℝ) ≤ 4 ^ k) (tol_pos hat hrt hm).le)
  linarith

private theorem root_nonneg (hF : IsFitter F) {root : ℝ≥0}
    (hroot : F.Reproduces n selfloops m root) : 0 ≤ m := by
  rw [reproduces_iff hF] at hroot
  have hO := Fitter.isObj hF n selfloops
  rw [← hroot, ← hO.zero]
  exact hO.mono _ _ le_rfl root.2

private theorem quad {r r' g g' G w l : ℝ} (hG : 0 < G) (hr : 0 ≤ r) (hr' : 0 ≤ r') (hl : 0 ≤ l)
    (hs : r' * g ≤ r * (g - g')) (h1 : G * w ≤ g) (h2 : G * w ≤ g')
    (h3 : g - g' ≤ 2 * G ^ 2 * l) (h4 : g' * l ≤ r) (hw : 0 ≤ w) : r' * w ^ 2 ≤ 2 * r ^ 2 := by
  have hGw : 0 ≤ G * w := mul_nonneg hG.le hw
  have k1 : r' * (G * w) ≤ r * (2 * G ^ 2 * l) :=
    (mul_le_mul_of_nonneg_left h1 hr').trans (hs.trans (mul_le_mul_of_nonneg_left h3 hr))
  have k2 : (G * w) * l ≤ r := (mul_le_mul_of_nonneg_right h2 hl).trans h4
  have k3 : r' * (G * w) * (G * w) ≤ r * (2 * G ^ 2 * l) * (G * w) :=
    mul_le_mul_of_nonneg_right k1 hGw
  have k4 : r * (2 * G ^ 2) * (G * w * l) ≤ r * (2 * G ^ 2) * r :=
    mul_le_mul_of_nonneg_left k2 (by positivity)
  have hG2 : 0 < G ^ 2 := by positivity
  refine le_of_mul_le_mul_right ?_ hG2
  linarith

private theorem default_tol {m : ℝ} (hm : 0 ≤ m) :
    m < 4 ^ 99 * ((1 / 10 ^ 24 + 1 / 10 ^ 9 * m) * (1 - (1 - 1 / 10 ^ 25)) ^ 2) := by
  norm_num
  linarith

/-- **C101**, number of iterations.  The number of edges is attained at `root`, where no admissible
link has a probability above `q`.  A fit started at or below `root` stops because it converged or
because `maxiter` iterations were done; after more than one iteration, four to the power of the
number of iterations less one, times the tolerance, times `(1 - q)²`, is at most the number of
edges; and it converges if `maxiter` exceeds that number. -/
theorem C101_iterations (hF : IsFitter F) {func : XR → XR × XR}
    (hf : F.Objective n selfloops func) (hat : 0 < o.atol) (hrt : 0 ≤ o.rtol) {root x0 : ℝ≥0}
    (hroot : F.Reproduces n selfloops m root) (hq : F.Capped n selfloops root q) (hq1 : q ≤ 1)
    (hx0 : x0 ≤ root) :
    ∃ sol, Solver.solve (cfg func m o) (fin x0) = .ok sol ∧
      (sol.converged = true ∨ sol.n_iter = o.maxiter) ∧
      (∀ k, sol.n_iter = k + 1 → 4 ^ k * ((o.atol + o.rtol * m) * (1 - q) ^ 2) ≤ m) ∧
      ∀ k, o.maxiter = k + 1 → m < 4 ^ k * ((o.atol + o.rtol * m) * (1 - q) ^ 2) →
        sol.converged = true := by
  have hm := root_nonneg hF hroot
  obtain ⟨sol, ds, d, h1, h2, h3⟩ := fit_run hF hf hat hrt hroot hx0
  have hrep := Solver.C32_report h1
  have hlen : sol.n_iter = ds.length := by
    have := hrep.2.2.1
    rw [h2.seq] at this
    simp only [List.nil_append, List.length_map, List.length_append, List.length_singleton] at this
    omega
  have hstop : sol.converged = true ∨ sol.n_iter = o.maxiter := by
    rcases h2.done ⟨root, root.2, (reproduces_iff hF).1 hroot⟩ rfl with h | h
    · exact .inl h
    · exact .inr (hrep.2.2.2.2.1.mp h)
  have hcount : ∀ k, sol.n_iter = k + 1 →
      4 ^ k * ((o.atol + o.rtol * m) * (1 - q) ^ 2) ≤ m := fun k hk =>
    count_bound hF hat hrt hm hroot hq hq1 h2 (h3 d (by simp)) (hlen ▸ hk)
  refine ⟨sol, h1, hstop, hcount, fun k hk hlt => ?_⟩
  rcases hstop with h | h
  · exact h
  · exact absurd (hcount k (h.trans hk)) (not_le.2 hlt)

/-- **C101**, any start: a start above the solution costs at most one more iteration. -/
theorem C101_any_start (hF : IsFitter F) {func : XR → XR × XR}
    (hf : F.Objective n selfloops func) (hat : 0 < o.atol) (hrt : 0 ≤ o.rtol) {root : ℝ≥0}
    (hroot : F.Reproduces n selfloops m root) (hq : F.Capped n selfloops root q) (hq1 : q ≤ 1)
    (x0 : ℝ≥0) :
    ∃ sol, Solver.solve (cfg func m o) (fin x0) = .ok sol ∧
      ∀ k, sol.n_iter = k + 2 → 4 ^ k * ((o.atol + o.rtol * m) * (1 - q) ^ 2) ≤ m := by
  have hm := root_nonneg hF hroot
  have hO := Fitter.isObj hF n selfloops
  have hr := (reproduces_iff hF).1 hroot
  rcases le_or_gt x0 root with hle | hgt
  · obtain ⟨sol, h1, -, h2, -⟩ := C101_iterations (q := q) hF hf hat hrt hroot hq hq1 hle
    refine ⟨sol, h1, fun k hk => ?_⟩
    refine le_trans ?_ (h2 (k + 1) hk)
    refine mul_le_mul_of_nonneg_right (pow_le_pow_right₀ (by norm_num) (by omega)) ?_
    exact mul_nonneg (tol_pos hat hrt hm).le (sq_nonneg _)
  · rcases le_or_gt (F.obj hF n selfloops x0) m with hle | hgt'
    · -- nothing to gain beyond the solution: the expected number of edges is reached there too
      have he : F.obj hF n selfloops x0 = m :=
        le_antisymm hle (by rw [← hr]; exact hO.mono _ _ root.2 (by exact_mod_cast hgt.le))
      obtain ⟨sol, ds, d, h1, h2⟩ := Solver.solve_left hO hf.rep hat hrt hm x0.2 hle
      have hrep := Solver.C32_report h1
      have hlen : sol.n_iter = ds.length := by
        have := hrep.2.2.1
        rw [h2.seq] at this
        simp only [List.nil_append, List.length_map, List.length_append,
          List.length_singleton] at this
        omega
      refine ⟨sol, h1, fun k hk => ?_⟩
      exfalso
      have hact : ∃ e ∈ Law.pairs n selfloops, F.linkable e.1 e.2 := by
        by_contra hcon
        push Not at hcon
        have hG := moved hF hat hrt hm hroot h2 (by rintro rfl; simp at hlen; omega)
        obtain ⟨e, he, hne⟩ : ∃ e ∈ Law.pairs n selfloops, 0 < F.der hF e 0 := by
          by_contra hc
          push Not at hc
          exact absurd (Finset.sum_nonpos hc) (not_le.2 hG)
        have hd := (F.pairLink hF e).link
        have hst := hd.steep 1 zero_le_one
        rw [hd.dead (hcon e he) 1 zero_le_one] at hst
        have hder := hd.deriv 1 zero_le_one
        have h0 : HasDerivAt (F.val hF e) 0 1 := by
          refine (hasDerivAt_const (1 : ℝ) (0 : ℝ)).congr_of_eventuallyEq ?_
          filter_upwards [lt_mem_nhds (zero_lt_one' ℝ)] with t ht
          exact hd.dead (hcon e he) t ht.le
        have := hder.unique h0
        linarith
      have := total_strict (fun e _ => (F.pairLink hF e).link) hact root.2
        (show (root : ℝ) < x0 by exact_mod_cast hgt)
      change F.obj hF n selfloops root < F.obj hF n selfloops x0 at this
      linarith
    · obtain ⟨sol, h1, h2⟩ := Solver.solve_right hO hf.rep hat hrt hm x0.2 hgt'
      have hrep := Solver.C32_report h1
      refine ⟨sol, h1, fun k hk => ?_⟩
      rcases h2 with ⟨-, h3, -⟩ | ⟨ds, d, h3⟩
      · have := hrep.2.2.1
        rw [h3] at this
        simp at this
        omega
      · have hlen : sol.n_iter = ds.length + 1 := by
          have := hrep.2.2.1
          rw [h3.seq] at this
          simp only [List.singleton_append, List.length_map, List.length_append, List.length_cons,
            List.length_nil] at this
          omega
        have hact : ∃ e ∈ Law.pairs n selfloops, F.linkable e.1 e.2 := by
          by_contra hcon
          push Not at hcon
          have : F.obj hF n selfloops x0 = 0 :=
            Finset.sum_eq_zero (fun e he => (F.pairLink hF e).link.dead (hcon e he) x0 x0.2)
          linarith
        have hd : d ≤ root := by
          by_contra hcon
          have := total_strict (fun e _ => (F.pairLink hF e).link) hact root.2 (not_le.1 hcon)
          change F.obj hF n selfloops root < F.obj hF n selfloops d at this
          have := (h3.below d (by simp)).2
          linarith
        exact count_bound hF hat hrt hm hroot hq hq1 h3 hd (by omega)

/-- **C101**, quadratic convergence: between two successive iterates the distance from the target
number of edges falls from `r` to at most `2 r² / (1 - q)⁴`. -/
theorem C101_quadratic (hF : IsFitter F) {func : XR → XR × XR}
    (hf : F.Objective n selfloops func) (hat : 0 < o.atol) (hrt : 0 ≤ o.rtol) {root x0 : ℝ≥0}
    (hroot : F.Reproduces n selfloops m root) (hq : F.Capped n selfloops root q) (hq1 : q ≤ 1)
    (hx0 : x0 ≤ root) :
    ∃ sol, Solver.solve (cfg func m o) (fin x0) = .ok sol ∧
      ∃ ds : List ℝ≥0, sol.x_seq = ds.map (fun d : ℝ≥0 => fin d) ∧
        ds.IsChain (fun a b : ℝ≥0 => ∃ r r' : ℝ, (F.ens a).exp_edges n selfloops = fin (m - r) ∧
          (F.ens b).exp_edges n selfloops = fin (m - r') ∧ 0 ≤ r ∧ 0 ≤ r' ∧
          r' * (1 - q) ^ 4 ≤ 2 * r ^ 2) := by
  have hm := root_nonneg hF hroot
  have hO := Fitter.isObj hF n selfloops
  obtain ⟨sol, ds, d, h1, h2, h3⟩ := fit_run hF hf hat hrt hroot hx0
  refine ⟨sol, h1, (ds ++ [d]).map Real.toNNReal, ?_, ?_⟩
  · rw [h2.seq, List.nil_append, List.map_map]
    refine List.map_congr_left (fun e he => ?_)
    simp [Real.coe_toNNReal _ (h2.below e he).1]
  · rw [List.isChain_map]
    have hlt := h2.sorted.isChain
    have hch := h2.chain
    rw [List.isChain_iff_getElem] at hlt hch ⊢
    intro i hi
    have ha := List.getElem_mem (l := ds ++ [d]) (n := i) (by omega)
    have hb := List.getElem_mem (l := ds ++ [d]) (n := i + 1) hi
    specialize hlt i hi
    specialize hch i hi
    generalize (ds ++ [d])[i] = a at *
    generalize (ds ++ [d])[i + 1] = b at *
    obtain ⟨ha0, ham⟩ := h2.below a ha
    obtain ⟨hb0, hbm⟩ := h2.below b hb
    refine ⟨m - F.obj hF n selfloops a, m - F.obj hF n selfloops b, ?_, ?_, by linarith,
      by linarith, ?_⟩
    · rw [Fitter.exp_edges hF, Real.coe_toNNReal _ ha0, sub_sub_cancel]
    · rw [Fitter.exp_edges hF, Real.coe_toNNReal _ hb0, sub_sub_cancel]
    · rw [show (1 - q) ^ 4 = ((1 - q) ^ 2) ^ 2 by ring]
      have hG := moved hF hat hrt hm hroot h2 (by
        rintro rfl
        simp at hi)
      exact quad hG (by linarith) (by linarith) (sub_nonneg.2 hlt.le) hch
        (slope_low hF hq hq1 ha0 (h3 a ha)) (slope_low hF hq hq1 hb0 (h3 b hb))
        (slope_lip hF ha0 hlt.le) (by
          have := hO.concave b a hb0 ha0
          linarith) (sq_nonneg (1 - q))

/-- **C101**, `fit` of the single-layer models with the default options: from the default start it
converges, whatever the number of edges, unless some link of the solution has a probability above
`1 - 10⁻²⁵`. -/
theorem C101_default (hF : IsFitter F) {root : ℝ≥0} (hroot : F.Reproduces n selfloops m root)
    (hq : F.Capped n selfloops root (1 - 1 / 10 ^ 25)) :
    ∃ sol, fitSingle (F.func n selfloops) (some m) .none .density
        ⟨1 / 10 ^ 24, 1 / 10 ^ 9, 100⟩ = .ok sol ∧ sol.converged = true := by
  obtain ⟨sol, h1, -, -, h2⟩ := C101_iterations (o := ⟨1 / 10 ^ 24, 1 / 10 ^ 9, 100⟩) hF
    (agree_self F n selfloops) (by norm_num) (by norm_num) hroot hq (by norm_num) (x0 := 0) zero_le
  refine ⟨sol, ?_, h2 99 rfl ?_⟩
  · have h1' : Solver.solve (cfg (F.func n selfloops) m ⟨1 / 10 ^ 24, 1 / 10 ^ 9, 100⟩) 0
        = .ok sol := h1
    have : anyNeg [(0 : XR)] = false := by simp [anyNeg, zero_def]
    simp only [fitSingle, X0.single, this, h1', Except.mapError, Bool.not_true,
      Bool.false_eq_true, if_false]
  · exact default_tol (root_nonneg hF hroot)

/-- **C101**, multi-layer models with one shared parameter. -/
theorem C101_default_shared (hF : IsFitter F) {root : ℝ≥0}
    (hroot : F.Reproduces n selfloops m root)
    (hq : F.Capped n selfloops root (1 - 1 / 10 ^ 25)) {M : MultiModel}
    (hM : M.func = F.func n selfloops) (hp : M.per_label = false) (he : M.num_edges = some m) :
    ∃ sol, fitMulti M .none .density ⟨1 / 10 ^ 24, 1 / 10 ^ 9, 100⟩ =
        .ok ⟨List.replicate M.num_labels sol.x, [sol]⟩ ∧ sol.converged = true := by
  obtain ⟨sol, h1, -, -, h2⟩ := C101_iterations (o := ⟨1 / 10 ^ 24, 1 / 10 ^ 9, 100⟩) hF
    (agree_self F n selfloops) (by norm_num) (by norm_num) hroot hq (by norm_num) (x0 := 0) zero_le
  refine ⟨sol, ?_, h2 99 rfl (default_tol (root_nonneg hF hroot))⟩
  have h1' : Solver.solve (cfg (F.func n selfloops) m ⟨1 / 10 ^ 24, 1 / 10 ^ 9, 100⟩) 0
      = .ok sol := h1
  have hneg : anyNeg (List.replicate M.num_labels (0 : XR)) = false := by
    simp [anyNeg, zero_def]
  have hget : (List.replicate M.num_labels (0 : XR)).getD 0 0 = 0 := by
    cases M.num_labels <;> simp [List.replicate]
  simp only [fitMulti, X0.multi, List.length_replicate, ne_eq, not_true_eq_false, if_false,
    Bool.not_true, Bool.false_eq_true, hneg, hp, he, hM, hget, h1', Except.mapError]

/-- **C101**, fits with one parameter per label: every label converges. -/
theorem C101_default_label {M : MultiModel} {e : ℕ → ℝ}
    (hp : M.per_label = true) (he : M.num_edges_label = some e)
    (hlayer : ∀ i < M.num_labels, ∃ F n selfloops root, IsFitter F ∧
      F.Objective n selfloops (M.layer i) ∧ F.Reproduces n selfloops (e i) root ∧
      F.Capped n selfloops root (1 - 1 / 10 ^ 25)) :
    ∃ r, fitMulti M .none .density ⟨1 / 10 ^ 24, 1 / 10 ^ 9, 100⟩ = .ok r ∧
      ∀ i < M.num_labels, ∃ sol, r.outputs[i]? = some sol ∧ r.param[i]? = some sol.x ∧
        sol.converged = true := by
  obtain ⟨r, hr⟩ := C54_label (o := ⟨1 / 10 ^ 24, 1 / 10 ^ 9, 100⟩) (by norm_num) (by norm_num)
    hp he
    (fun i hi => by
      obtain ⟨F, n, b, root, h1, -, h2, -⟩ := hlayer i hi
      exact root_nonneg h1 h2)
    (fun i hi => by
      obtain ⟨F, n, b, root, h1, h2, -⟩ := hlayer i hi
      exact ⟨F, n, b, h1, h2⟩)
  refine ⟨r, hr, fun i hi => ?_⟩
  obtain ⟨F, n, b, root, hF, hf, hroot, hq⟩ := hlayer i hi
  obtain ⟨sol, h1, h2, h3⟩ := fitMulti_label hp he hr hi
  obtain ⟨sol', h1', -, -, h4⟩ := C101_iterations (o := ⟨1 / 10 ^ 24, 1 / 10 ^ 9, 100⟩) hF
    hf (by norm_num) (by norm_num) hroot hq (by norm_num) (x0 := 0) zero_le
  have hx : ((X0.none).multi M.num_labels).vals.getD i 0 = fin ((0 : ℝ≥0) : ℝ) := by
    simp [X0.multi, zero_def, hi]
  rw [hx, h1', Except.ok.injEq] at h1
  subst h1
  exact ⟨sol', h2, h3, h4 99 rfl (default_tol (root_nonneg hF hroot))⟩

/-! ### Example -/

theorem exF_p {d : ℝ≥0} (i j : ℕ) : (exF.ens d).p i j = fin (d / (1 + d)) := by
  have hF : IsFitter exF := .denseFit _ _ _
  have h1 := (exF.pairLink hF (i, j)).prob d
  have h2 := (exF.pairLink hF (i, j)).jac d d.2
  have key : exF.pj (fin d) i j = (fin (d / (1 + d)), fin (1 / ((1 + d) * (1 + d)))) := by
    have h1 : (1 + d : ℝ) ≠ 0 := by positivity
    simp only [exF, denseFit, Dense.FitnessModel.p_jac_ij, arrN, isZero_fin, NNReal.coe_one,
      one_ne_zero, decide_false, Bool.or_self, Bool.false_eq_true, if_false]
    by_cases h : (d : ℝ) = 0
    · simp [h, zero_def]
    · simp [h, one_def, h1, XR.fin_div_fin]
  change exF.pj (fin d) i j = _ at h2
  rw [key] at h2
  simp only [Prod.mk.injEq, fin_inj] at h2
  rw [h1, ← h2.1]

theorem exF_capped : exF.Capped 2 false 1 (1 / 2) := fun i _ j _ _ =>
  ⟨1 / 2, by rw [exF_p]; norm_num, le_rfl⟩

/-- One expected edge on two vertices with unit properties: the fit with default options converges,
and for a tolerance of `1/100` six iterations suffice. -/
example : (∃ sol, fitSingle (exF.func 2 false) (some 1) .none .density
      ⟨1 / 10 ^ 24, 1 / 10 ^ 9, 100⟩ = .ok sol ∧ sol.converged = true) ∧
    ∃ sol, Solver.solve (cfg (exF.func 2 false) 1 ⟨1 / 100, 0, 6⟩) (fin ((0 : ℝ≥0) : ℝ)) = .ok sol ∧
      sol.converged = true := by
  refine ⟨C101_default (.denseFit _ _ _) exF_reproduces (fun i hi j hj h => ?_), ?_⟩
  · obtain ⟨p, h1, h2⟩ := exF_capped i hi j hj h
    exact ⟨p, h1, h2.trans (by norm_num)⟩
  · obtain ⟨sol, h1, -, -, h2⟩ := C101_iterations (F := exF) (o := ⟨1 / 100, 0, 6⟩)
      (.denseFit _ _ _) (agree_self exF 2 false) (by norm_num) le_rfl exF_reproduces exF_capped
      (by norm_num) (x0 := 0) zero_le
    exact ⟨sol, h1, h2 5 rfl (by norm_num)⟩

end Fit

end Verif
