import Verif.Solver.FitProps
import Verif.Ensemble.CoupleProps

/-!
# C98: more edges asked for, more links

Two fits of the same model to different numbers of edges.
-/

namespace Verif

open XR Spec
open scoped NNReal ENNReal

namespace Fit

private theorem sorted_rowENN {r : List (ℕ × ℝ≥0)} (h : RowSorted r) : RowSorted (rowENN r) := by
  unfold RowSorted rowENN
  rw [List.pairwise_map]
  exact h

theorem Fitter.ens_le {F : Fitter} (hF : IsFitter F) {d d' : ℝ≥0∞} (h : d ≤ d') :
    (F.ens d).Le (F.ens d') := by
  cases hF with
  | sparseFit => exact .sparseFit h (fun _ => le_rfl) (fun _ => le_rfl) (fun _ _ => le_rfl)
  | sparseInv => exact .sparseInv h (fun _ => le_rfl) (fun _ => le_rfl) (fun _ _ => le_rfl)
  | denseFit => exact .denseFit _ h (fun _ => le_rfl) (fun _ => le_rfl)
  | denseInv => exact .denseInv _ h (fun _ => le_rfl) (fun _ => le_rfl)
  | sparkInv => exact .sparkInv _ h (fun _ => le_rfl) (fun _ => le_rfl)
  | sparseMultiFit x y hx hy =>
    exact .sparseMultiFit (fun i => sorted_rowENN (hx i)) (fun i => sorted_rowENN (hx i))
      (fun i => sorted_rowENN (hy i)) (fun i => sorted_rowENN (hy i)) (fun _ => h)
      (fun _ _ => le_rfl) (fun _ _ => le_rfl)
  | sparseMultiInv x y hx hy =>
    exact .sparseMultiInv (fun i => sorted_rowENN (hx i)) (fun i => sorted_rowENN (hx i))
      (fun i => sorted_rowENN (hy i)) (fun i => sorted_rowENN (hy i)) (fun _ => h)
      (fun _ _ => le_rfl) (fun _ _ => le_rfl)
  | denseMultiFit => exact .denseMultiFit _ (fun _ => h) (fun _ _ => le_rfl) (fun _ _ => le_rfl)
  | denseMultiInv => exact .denseMultiInv _ (fun _ => h) (fun _ _ => le_rfl) (fun _ _ => le_rfl)

/-- The smaller parameter gives the smaller expected number of edges. -/
private theorem param_lt {F : Fitter} (hF : IsFitter F) {n : ℕ} {sl : Bool} {d d' : ℝ≥0} {v v' : ℝ}
    (h : (F.ens d).exp_edges n sl = fin v) (h' : (F.ens d').exp_edges n sl = fin v')
    (hv : v < v') : d < d' := by
  by_contra hcon
  obtain ⟨⟨e, e', h1, h2, h3⟩, -⟩ :=
    C96_expected (Fitter.ens_le hF (ENNReal.coe_le_coe.2 (not_lt.1 hcon))) n sl
  rw [h'] at h1
  rw [h] at h2
  cases h1
  cases h2
  exact absurd h3 (not_le.2 hv)

/-- **C98**, exact solutions: the parameter that reproduces the smaller number of edges is the
smaller one. -/
theorem C98_root {F : Fitter} (hF : IsFitter F) {n : ℕ} {sl : Bool} {m m' : ℝ} {d d' : ℝ≥0}
    (h : F.Reproduces n sl m d) (h' : F.Reproduces n sl m' d') (hm : m < m') : d < d' :=
  param_lt hF h h' hm

/-- What two ensembles with ordered parameters have in common with each other: with the same random
numbers every link of the first is a link of the second, and all expected degrees are ordered. -/
structure Nested (E E' : Ens) (n : ℕ) (sl : Bool) : Prop where
  links : ∀ u : ℕ → ℝ, (E.binary_sample_stream n sl u).Sublist (E'.binary_sample_stream n sl u)
  edges : ∃ e e' : ℝ, E.exp_edges n sl = fin e ∧ E'.exp_edges n sl = fin e' ∧ e < e'
  out_degrees : ∀ i < n, ∃ k k' : ℝ, (E.exp_degrees n sl).exp_d_out i = fin k ∧
    (E'.exp_degrees n sl).exp_d_out i = fin k' ∧ k ≤ k'
  in_degrees : ∀ i < n, ∃ k k' : ℝ, (E.exp_degrees n sl).exp_d_in i = fin k ∧
    (E'.exp_degrees n sl).exp_d_in i = fin k' ∧ k ≤ k'
  degrees : ∀ i < n, ∃ k k' : ℝ, (E.exp_degrees n sl).exp_d i = fin k ∧
    (E'.exp_degrees n sl).exp_d i = fin k' ∧ k ≤ k'

private theorem nested_of_lt {F : Fitter} (hF : IsFitter F) {n : ℕ} {sl : Bool} {d d' : ℝ≥0}
    {v v' : ℝ} (h : (F.ens d).exp_edges n sl = fin v) (h' : (F.ens d').exp_edges n sl = fin v')
    (hv : v < v') : d < d' ∧ Nested (F.ens d) (F.ens d') n sl := by
  have hd := param_lt hF h h' hv
  have hle := Fitter.ens_le hF (ENNReal.coe_le_coe.2 hd.le)
  obtain ⟨-, hdeg⟩ := C96_expected hle n sl
  exact ⟨hd, fun u => C96_coupling hle n sl u, ⟨v, v', h, h', hv⟩, fun i hi => (hdeg i hi).1,
    fun i hi => (hdeg i hi).2.1, fun i hi => (hdeg i hi).2.2⟩

private theorem gap {v v' m m' t t' : ℝ} (h : |v - m| ≤ t) (h' : |v' - m'| ≤ t')
    (hg : m + t < m' - t') : v < v' := by
  have := (abs_le.1 h).2
  have := (abs_le.1 h').1
  linarith

/-- **C98**, single-layer models.  Two converged fits of the same model, the second to more edges than
the first by more than the two tolerances together (starting points and options may differ): the
second parameter is larger, and the samples and expected degrees are nested. -/
theorem C98_fits {F : Fitter} (hF : IsFitter F) {n : ℕ} {sl : Bool} {m m' : ℝ} {o o' : Opts}
    (hat : 0 < o.atol) (hrt : 0 ≤ o.rtol) (hm : 0 ≤ m)
    (hat' : 0 < o'.atol) (hrt' : 0 ≤ o'.rtol) (hm' : 0 ≤ m') {x0 x0' : X0}
    (hx0 : ∀ v ∈ x0.single.vals, ∃ r, v = fin r) (hx0' : ∀ v ∈ x0'.single.vals, ∃ r, v = fin r)
    {sol sol' : Solver.Solution}
    (h : fitSingle (F.func n sl) (some m) x0 .density o = .ok sol)
    (h' : fitSingle (F.func n sl) (some m') x0' .density o' = .ok sol')
    (hc : sol.converged = true) (hc' : sol'.converged = true)
    (hg : m + (o.atol + o.rtol * m) < m' - (o'.atol + o'.rtol * m')) :
    ∃ d d' : ℝ≥0, sol.x = fin d ∧ sol'.x = fin d' ∧ d < d' ∧
      Nested (F.ens d) (F.ens d') n sl := by
  obtain ⟨d, h1, v, h2, h3⟩ := C34_converged hF hat hrt hm hx0 h
  obtain ⟨d', h1', v', h2', h3'⟩ := C34_converged hF hat' hrt' hm' hx0' h'
  exact ⟨d, d', h1, h1', nested_of_lt hF h2 h2' (gap (h3.1 hc) (h3'.1 hc') hg)⟩

/-- **C98**, multi-layer models with one shared parameter. -/
theorem C98_fits_shared {F : Fitter} (hF : IsFitter F) {n : ℕ} {sl : Bool} {m m' : ℝ} {o o' : Opts}
    (hat : 0 < o.atol) (hrt : 0 ≤ o.rtol) (hm : 0 ≤ m)
    (hat' : 0 < o'.atol) (hrt' : 0 ≤ o'.rtol) (hm' : 0 ≤ m') {M M' : MultiModel}
    (hM : M.func = F.func n sl) (hp : M.per_label = false) (he : M.num_edges = some m)
    (hM' : M'.func = F.func n sl) (hp' : M'.per_label = false) (he' : M'.num_edges = some m')
    (hL : M.num_labels ≠ 0) (hL' : M'.num_labels = M.num_labels) {x0 x0' : X0}
    (hx0 : ∀ v ∈ (x0.multi M.num_labels).vals, ∃ r, v = fin r)
    (hx0' : ∀ v ∈ (x0'.multi M'.num_labels).vals, ∃ r, v = fin r)
    {r r' : MultiFit} (h : fitMulti M x0 .density o = .ok r)
    (h' : fitMulti M' x0' .density o' = .ok r')
    (hc : ∀ sol ∈ r.outputs, sol.converged = true) (hc' : ∀ sol ∈ r'.outputs, sol.converged = true)
    (hg : m + (o.atol + o.rtol * m) < m' - (o'.atol + o'.rtol * m')) :
    ∃ d d' : ℝ≥0, r.param = List.replicate M.num_labels (fin d) ∧
      r'.param = List.replicate M.num_labels (fin d') ∧ d < d' ∧
      Nested (F.ens d) (F.ens d') n sl := by
  obtain ⟨s, d, h0, h1, v, h2, h3⟩ := C34_converged_shared hF hat hrt hm hM hp he hL hx0 h
  obtain ⟨s', d', h0', h1', v', h2', h3'⟩ :=
    C34_converged_shared hF hat' hrt' hm' hM' hp' he' (by rw [hL']; exact hL) hx0' h'
  rw [hL'] at h1'
  exact ⟨d, d', h1, h1', nested_of_lt hF h2 h2'
    (gap (h3.1 (hc s (by rw [h0]; simp))) (h3'.1 (hc' s' (by rw [h0']; simp))) hg)⟩

/-- **C98**: runs of `sample` on two fits stay aligned for any number of calls. -/
theorem C98_runs {F : Fitter} (hF : IsFitter F) {n : ℕ} {sl : Bool} {m m' : ℝ} {d d' : ℝ≥0}
    (h : F.Reproduces n sl m d) (h' : F.Reproduces n sl m' d') (hm : m < m') (u : ℕ → ℝ) (k : ℕ) :
    (Call.run (fun _ => ⟨F.ens d, n, sl⟩) u k).1 = (Call.run (fun _ => ⟨F.ens d', n, sl⟩) u k).1 ∧
    List.Forall₂ List.Sublist (Call.run (fun _ => ⟨F.ens d, n, sl⟩) u k).2
      (Call.run (fun _ => ⟨F.ens d', n, sl⟩) u k).2 :=
  C96_runs (fun _ => ⟨F.ens d, n, sl⟩) (fun _ => ⟨F.ens d', n, sl⟩) (fun _ => Fitter.ens_le hF
    (ENNReal.coe_le_coe.2 (C98_root hF h h' hm).le)) (fun _ => rfl) (fun _ => rfl) u k

/-- The hypotheses of `C98_fits` hold for fits to no edge and to one edge on two vertices with unit
properties, with tolerances of a quarter and of half an edge. -/
example : ∃ sol sol',
    fitSingle (exF.func 2 false) (some 0) (.scalar (fin 0) false) .density ⟨1 / 4, 0, 3⟩ = .ok sol ∧
    fitSingle (exF.func 2 false) (some 1) (.scalar (fin 0) false) .density ⟨1 / 2, 0, 1⟩ = .ok sol' ∧
    sol.converged = true ∧ sol'.converged = true ∧
    (0 : ℝ) + (1 / 4 + 0 * 0) < 1 - (1 / 2 + 0 * 1) := by
  obtain ⟨sol', h1, -, h2⟩ := half_run (agree_self exF 2 false)
  have h0 : exF.Reproduces 2 false 0 0 := by
    have hF : IsFitter exF := .denseFit _ _ _
    rw [reproduces_iff hF]
    have h1 := Fitter.rep hF 2 false 0 le_rfl
    rw [exF_func le_rfl] at h1
    simp only [Prod.mk.injEq, fin_inj] at h1
    have : ((0 : ℝ≥0) : ℝ) = 0 := rfl
    rw [this, ← h1.1]
    norm_num
  obtain ⟨sol, slope, h3, -, -, -, h4⟩ := C54 (F := exF) (.denseFit _ _ _)
    (agree_self exF 2 false) (o := ⟨1 / 4, 0, 3⟩) (by norm_num) le_rfl h0 (x0 := 0) zero_le
  have h3' : Solver.solve (cfg (exF.func 2 false) 0 ⟨1 / 4, 0, 3⟩) (fin 0) = .ok sol := h3
  refine ⟨sol, sol', ?_, ?_, h4 (by norm_num), h2, by norm_num⟩
  · unfold fitSingle
    simp only [X0.single, anyNeg, List.any_cons, List.any_nil, Bool.or_false, h3', zero_def,
      ltb_fin', lt_irrefl, decide_false, Except.mapError]
    simp
  · unfold fitSingle
    simp only [X0.single, anyNeg, List.any_cons, List.any_nil, Bool.or_false, h1, zero_def,
      ltb_fin', lt_irrefl, decide_false, Except.mapError]
    simp

end Fit
end Verif
